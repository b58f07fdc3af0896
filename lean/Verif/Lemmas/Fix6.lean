import Verif.Lemmas.Lines
/-! # Lemmas about fixing: the whole fix -/

namespace Bulloak
open Spec
set_option linter.unusedSectionVars false
variable [U : Ucd]

theorem ctx_names {ctx : Context} {n : Str} {fns : List HFn} {s : SolContract} (hn : ∀ m, s.name = some m → m = sanitize n) :
    checkContractNames ctx ⟨n, fns⟩ s = .ok [] := by
  unfold checkContractNames
  cases h : s.name with
  | none => rfl
  | some m => simp [hn m h]

/-- The violations fixed in the first round, when the contract has the right name. -/
theorem first_round {ctx : Context} {n : Str} {fns : List HFn} (hh : ctx.hir = ⟨[⟨n, fns⟩]⟩) {s : SolContract}
    (hs : FirstContract ctx.pt s) (hn : ∀ m, s.name = some m → m = sanitize n) {vs : List Violation} (hv : checkCtx ctx = .ok vs) :
    vs.filter (fun v => !v.kind.isOrder) = (presentAndMissing ctx s 0 fns).2 := by
  obtain ⟨v1, v3, h1, rfl, h3⟩ := check_report hh hs hv
  rw [ctx_names hn] at h1
  cases h1
  have e2 : (presentAndMissing ctx s 0 fns).2.filter (fun v => !v.kind.isOrder) = (presentAndMissing ctx s 0 fns).2 := by
    apply List.filter_eq_self.2
    intro v hv
    obtain ⟨f, i, _, _, rfl, _⟩ := (presentAndMissing_missing ctx s fns 0).1 v hv
    rfl
  have e3 : v3.filter (fun v => !v.kind.isOrder) = [] := by
    apply List.filter_eq_nil_iff.2
    intro v hv
    obtain ⟨p, _, g, line, _, _, rfl⟩ := each_mem_right h3 hv
    simp [ViolationKind.isOrder]
  rw [List.nil_append, List.filter_append, e2, e3, List.append_nil]

theorem inOrder_unsorted {ctx : Context} {fns : List HFn} {s : SolContract} (ho : InOrder fns s.parts) :
    unsortedPairs (presentAndMissing ctx s 0 fns).1 = [] := by
  apply List.eq_nil_iff_forall_not_mem.2
  rintro ⟨i, a⟩ h
  obtain ⟨f, hf, ha, j, g, b, hij, hg, hb, hlt⟩ := (mem_inversions ctx s fns i a).1 h
  have := (inOrder_iff fns s.parts).1 ho i j f g hij hf hg a b ha hb
  omega

/-- With the right name and the functions in order, `check` reports exactly the missing functions. -/
theorem check_inOrder {ctx : Context} {n : Str} {fns : List HFn} (hh : ctx.hir = ⟨[⟨n, fns⟩]⟩) {s : SolContract}
    (hs : FirstContract ctx.pt s) (hn : ∀ m, s.name = some m → m = sanitize n) (ho : InOrder fns s.parts) :
    checkCtx ctx = .ok (presentAndMissing ctx s 0 fns).2 := by
  have hf : ctx.hir.findContract = some ⟨n, fns⟩ := by rw [hh]; rfl
  unfold checkCtx
  simp only [(findContract_iff _ _).2 hs, hf, ctx_names hn, Res.bind_ok, checkFnsStructure, inOrder_unsorted ho, orderViolations]
  simp

/-- The order violations, when the functions are in order: none. -/
theorem order_filter {ctx : Context} {n : Str} {fns : List HFn} (hh : ctx.hir = ⟨[⟨n, fns⟩]⟩) {s : SolContract}
    (hs : FirstContract ctx.pt s) {vs : List Violation} (hv : checkCtx ctx = .ok vs) :
    vs.filter (fun v => v.kind.isOrder) = [] ↔ InOrder fns s.parts := by
  obtain ⟨v1, v3, h1, rfl, h3⟩ := check_report hh hs hv
  have e1 : v1.filter (fun v => v.kind.isOrder) = [] := by
    rcases names_report h1 with ⟨rfl, _⟩ | ⟨_, _, _, _, _, rfl⟩ <;> rfl
  have e2 : (presentAndMissing ctx s 0 fns).2.filter (fun v => v.kind.isOrder) = [] := by
    apply List.filter_eq_nil_iff.2
    intro v hv
    obtain ⟨f, i, _, _, rfl, _⟩ := (presentAndMissing_missing ctx s fns 0).1 v hv
    simp [ViolationKind.isOrder]
  have e3 : v3.filter (fun v => v.kind.isOrder) = v3 := by
    apply List.filter_eq_self.2
    intro v hv
    obtain ⟨p, _, g, line, _, _, rfl⟩ := each_mem_right h3 hv
    rfl
  rw [List.filter_append, List.filter_append, e1, e2, e3, List.nil_append, List.nil_append]
  constructor
  · rintro rfl
    have hu : unsortedPairs (presentAndMissing ctx s 0 fns).1 = [] := by
      have := each_len h3
      exact List.eq_nil_of_length_eq_zero (by simpa using this)
    rw [inOrder_iff]
    intro i j f g hij hf hg a b ha hb
    rcases Nat.lt_or_ge b a with h | h
    · have := (mem_inversions ctx s fns i a).2 ⟨f, hf, ha, j, g, b, hij, hg, hb, h⟩
      rw [hu] at this
      cases this
    · exact h
  · intro ho
    have := each_len h3
    rw [inOrder_unsorted ho] at this
    exact List.eq_nil_of_length_eq_zero (by simpa using this.symm)

/-! ## ASCII texts stay ASCII -/

theorem insert_split (L : Layout) (f : HFn) (k : Nat) (hk : k ≤ L.segs.length) :
    ∃ a b, L.text = a ++ b ∧ (L.insert f k).text = a ++ (c!"\n\n" ++ (trimEnd (emitFunction f) ++ b)) := by
  cases k with
  | zero =>
    refine ⟨L.before ++ (L.header ++ c!"{"), L.lead ++ (segsText L.segs ++ '}' :: L.rest), by simp [Layout.text, Layout.front], ?_⟩
    simp [Layout.insert, Layout.text, Layout.front, trimEnd_emitFunction, segsText]
  | succ k =>
    obtain ⟨a, b, s, h1, _, _, _, h5⟩ := segs_split 0 L.segs k (by omega)
    refine ⟨L.front ++ a, b ++ '}' :: L.rest, by simp [Layout.text, h1], ?_⟩
    simp [Layout.insert, Layout.text, Layout.front, h5 f]

theorem trimEnd_sub (s : Str) : ∀ c ∈ trimEnd s, c ∈ s := by
  intro c hc
  unfold trimEnd at hc
  have := (List.dropWhile_sublist isWs (l := s.reverse)).subset (List.mem_reverse.1 hc)
  exact List.mem_reverse.1 this

theorem grown_ascii {fns : List HFn} {L L' : Layout} (h : Grown fns L L') (hA : Ascii L.text)
    (hF : ∀ f ∈ fns, Ascii (emitFunction f)) : Ascii L'.text := by
  induction h with
  | refl => exact hA
  | @step L' f k h hf hk ih =>
    obtain ⟨a, b, h1, h2⟩ := insert_split L' f k hk
    rw [h1, ascii_append] at ih
    rw [h2, ascii_append, ascii_append, ascii_append]
    refine ⟨ih.1, by unfold Ascii; decide, ?_, ih.2⟩
    intro c hc
    exact hF f hf c (trimEnd_sub _ c hc)

theorem newSeg_ne (f : HFn) : (newSeg f).text ≠ [] := by
  intro h
  have := trimEnd_emitFunction f
  obtain ⟨c, r, hc, he⟩ := emitFunction_shape f
  have e1 : trimEnd (emitFunction f) = c!"  " ++ (c :: r ++ c!"}") := by
    rw [he]
    have := trimEnd_append_of_not_ws (c!"  " ++ c :: r) '}' c!"\n\n" (by decide) (by decide)
    simpa using this
  rw [e1, h] at this
  have := congrArg List.length this
  simp at this

theorem grown_ne {fns : List HFn} {L L' : Layout} (h : Grown fns L L') (ht : ∀ s ∈ L.segs.map Prod.fst, s.text ≠ []) :
    ∀ s ∈ L'.segs.map Prod.fst, s.text ≠ [] := by
  induction h with
  | refl => exact ht
  | @step L' f k h hf hk ih =>
    intro s hs
    rw [insert_map _ _ _ hk] at hs
    rcases List.mem_cons.1 ((perm_insertIdx _ _ _ (by simpa using hk)).mem_iff.1 hs) with rfl | h
    · exact newSeg_ne f
    · exact ih s h

/-! ## Counting -/

theorem nodup_length_le {α : Type} [DecidableEq α] {a : List α} : ∀ {b : List α}, a.Nodup → (∀ x ∈ a, x ∈ b) → a.length ≤ b.length := by
  induction a with
  | nil => intro b _ _; simp
  | cons x a ih =>
    intro b hn hs
    rw [List.nodup_cons] at hn
    have hx := hs x (by simp)
    have := ih (b := b.erase x) hn.2 (fun y hy => by
      have hne : y ≠ x := fun e => hn.1 (e ▸ hy)
      exact (List.mem_erase_of_ne hne).2 (hs y (by simp [hy])))
    rw [List.length_erase_of_mem hx] at this
    have := List.length_pos_of_mem hx
    simp; omega

theorem onlyTree_length {skip : Bool} {fns : List HFn} {L L' : Layout} (hd : Distinct fns) (ho : OnlyTree fns L)
    (hf : Completed skip fns L L') (hp : ∀ f ∈ fns, Present L'.parts f) : L'.segs.length = fns.length := by
  have hkey : ∀ s ∈ L'.segs.map Prod.fst, ∃ f ∈ fns, s.key = some (fnKey f) := by
    intro s hs
    rcases List.mem_append.1 (hf.only.mem_iff.1 hs) with h | h
    · obtain ⟨f, h1, h2⟩ := ho.own s h
      exact ⟨f, h1, (is_iff_key f s).1 h2⟩
    · obtain ⟨f, h1, rfl⟩ := List.mem_map.1 h
      exact ⟨f, (List.mem_filter.1 h1).1, key_newSeg f⟩
  have hfn : (fns.map (fun f => some (fnKey f))).Nodup := by
    rw [List.nodup_iff_pairwise_ne, List.pairwise_map]
    refine hd.imp ?_
    intro f g h e
    simp only [fnKey, Option.some.injEq, Prod.mk.injEq] at e
    exact h ⟨e.2, e.1⟩
  have hkn : L'.keys.Nodup := by
    have e : L'.keys = (L'.segs.map Prod.fst).map Seg.key := by simp [Layout.keys, Function.comp_def]
    rw [e, (hf.only.map Seg.key).nodup_iff, List.map_append, List.nodup_append]
    refine ⟨?_, ?_, ?_⟩
    · rw [List.nodup_iff_pairwise_ne, List.pairwise_map]
      refine ho.once.imp_of_mem ?_
      intro s t hs _ h e
      obtain ⟨f, _, hi⟩ := ho.own s hs
      apply h f hi
      rw [is_iff_key] at hi ⊢
      rw [← e]; exact hi
    · rw [List.map_map]
      have e : (Seg.key ∘ newSeg) = fun f => some (fnKey f) := by funext f; exact key_newSeg f
      rw [e]
      exact List.Nodup.sublist ((List.filter_sublist).map _) hfn
    · intro x hx y hy e
      subst e
      obtain ⟨s, hs, rfl⟩ := List.mem_map.1 hx
      obtain ⟨t, ht, he⟩ := List.mem_map.1 hy
      obtain ⟨f, hf1, rfl⟩ := List.mem_map.1 ht
      rw [key_newSeg] at he
      have := (List.mem_filter.1 hf1).2
      simp only [decide_eq_true_eq] at this
      apply this.1
      rw [layout_present, he]
      have e : L.keys = (L.segs.map Prod.fst).map Seg.key := by simp [Layout.keys, Function.comp_def]
      rw [e]
      exact List.mem_map.2 ⟨s, hs, rfl⟩
  have h1 : L'.keys.length ≤ (fns.map (fun f => some (fnKey f))).length := by
    apply nodup_length_le hkn
    intro x hx
    have e : L'.keys = (L'.segs.map Prod.fst).map Seg.key := by simp [Layout.keys, Function.comp_def]
    rw [e] at hx
    obtain ⟨s, hs, rfl⟩ := List.mem_map.1 hx
    obtain ⟨f, h1, h2⟩ := hkey s hs
    exact List.mem_map.2 ⟨f, h1, h2.symm⟩
  have h2 : (fns.map (fun f => some (fnKey f))).length ≤ L'.keys.length := by
    apply nodup_length_le hfn
    intro x hx
    obtain ⟨f, h1, rfl⟩ := List.mem_map.1 hx
    exact (layout_present L' f).1 (hp f h1)
  rw [keys_length] at h1 h2
  simp only [List.length_map] at h1 h2
  omega

end Bulloak
