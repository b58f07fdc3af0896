import Verif.Lemmas.Keep4
import Verif.Props.Declared
/-!
# Fixing contracts with parts that are not in the tree: C100, C101
-/

namespace Bulloak
open Spec
set_option linter.unusedSectionVars false

theorem decl_key {f g : HFn} (h : fnKey f = fnKey g) : declOf f = declOf g := by
  have h1 : f.ty = g.ty := congrArg Prod.fst h
  have h2 : f.identifier = g.identifier := congrArg Prod.snd h
  unfold declOf
  rw [h1, h2]

section
variable [U : Ucd]

theorem newSeg_is (f g : HFn) : (newSeg f).Is g ↔ fnKey f = fnKey g := by
  rw [is_iff_key, key_newSeg, Option.some.injEq]

theorem grown_starts {fns : List HFn} {L L' : Layout} (h : Grown fns L L') (hs : ∀ s ∈ L.segs.map Prod.fst, ∀ f ∈ fns, s.Is f → declOf f <+: s.text) :
    ∀ s ∈ L'.segs.map Prod.fst, ∀ f ∈ fns, s.Is f → declOf f <+: s.text := by
  induction h with
  | refl => exact hs
  | @step L' f k _ hfm hk ih =>
    intro s hs g hg hi
    rw [insert_map _ _ _ hk, List.mem_insertIdx (by simpa using hk)] at hs
    rcases hs with rfl | hs
    · rw [newSeg_is] at hi
      rw [← decl_key hi]
      exact newSeg_starts f
    · exact ih s hs g hg hi

theorem grown_mixed {fns : List HFn} {L L' : Layout} (h : Grown fns L L') (hm : Mixed fns L) : Mixed fns L' := by
  induction h with
  | refl => exact hm
  | @step L' f k _ hfm hk ih =>
    constructor
    · intro ty t hs
      rw [insert_map _ _ _ hk, List.mem_insertIdx (by simpa using hk)] at hs
      rcases hs with hs | hs
      · cases hs
      · exact ih.named ty t hs
    · intro ty m t hs g hg e
      rw [insert_map _ _ _ hk, List.mem_insertIdx (by simpa using hk)] at hs
      rcases hs with hs | hs
      · rw [hs]
        exact ⟨f, hfm, (newSeg_is f f).2 rfl⟩
      · exact ih.own ty m t hs g hg e

theorem filter_insertIdx {α : Type} {S : α → Bool} {y : α} (hy : S y = false) : ∀ (l : List α) (k : Nat), (l.insertIdx k y).filter S = l.filter S
  | l, 0 => by simp [hy]
  | [], k + 1 => by simp
  | x :: l, k + 1 => by
    rw [List.insertIdx_succ_cons, List.filter_cons, List.filter_cons, filter_insertIdx hy l k]

theorem grown_foreign {fns : List HFn} {L L' : Layout} (h : Grown fns L L') :
    (L'.segs.map Prod.fst).filter (fun s => decide (Foreign fns s)) = (L.segs.map Prod.fst).filter (fun s => decide (Foreign fns s)) := by
  induction h with
  | refl => rfl
  | @step L' f k _ hfm hk ih =>
    rw [insert_map _ _ _ hk, filter_insertIdx, ih]
    simp only [decide_eq_false_iff_not]
    exact fun h => h f hfm ((newSeg_is f f).2 rfl)

/-- Once everything is filled in, the functions of the tree are there, each once. -/
theorem placed_of {fns : List HFn} (hf : ∀ f ∈ fns, ReadableFn f) (hd : Distinct fns) {L : Layout} (hD : DeclaredOnce fns L)
    {skip : Bool} {k : Nat} {L' : Layout} (h : Filling skip fns L k L') (hp : ∀ f ∈ fns, Present L'.parts f) : ∃ ks, Placed fns L' ks := by
  have hstart := grown_starts (filling_grown h) hD.starts
  have hocc := declared_occ hf hd hD h
  obtain ⟨ks, hks⟩ := each_exists (R := fun f k => At L'.parts f k) (fun f hf => present_at (hp f hf))
  have hlt : ∀ k ∈ ks, k < L'.segs.length := by
    intro k hk
    obtain ⟨f, _, ha⟩ := each_mem_right hks hk
    have := kat_lt ((layout_at L' f k).1 ha)
    rwa [keys_length] at this
  have his : ∀ {f : HFn} {k : Nat}, At L'.parts f k → ∃ s g, L'.segs[k]? = some (s, g) ∧ s.Is f := by
    intro f k ha
    have := ((layout_at L' f k).1 ha).1
    simp only [Layout.keys, List.getElem?_map, Option.map_eq_some_iff] at this
    obtain ⟨⟨s, g⟩, h1, h2⟩ := this
    exact ⟨s, g, h1, (is_iff_key f s).2 h2⟩
  have honce : ∀ {f : HFn} {a b : Nat} {s t : Seg} {g h : Str}, f ∈ fns → L'.segs[a]? = some (s, g) → L'.segs[b]? = some (t, h) → s.Is f → t.Is f → ¬ a < b := by
    intro f a b s t g h hfm hs ht hsi hti hab
    have h1 := hstart s (List.mem_map.2 ⟨_, List.mem_of_getElem? hs, rfl⟩) f hfm hsi
    have h2 := hstart t (List.mem_map.2 ⟨_, List.mem_of_getElem? ht, rfl⟩) f hfm hti
    have e1 := split_at hs
    have ht' : (L'.segs.drop (a + 1))[b - (a + 1)]? = some (t, h) := by
      rw [List.getElem?_drop, show a + 1 + (b - (a + 1)) = b by omega]; exact ht
    have e2 := split_at ht'
    rw [e2] at e1
    have et : L'.text = (L'.front ++ segsText (L'.segs.take a)) ++ (s.text ++ (g ++ segsText ((L'.segs.drop (a + 1)).take (b - (a + 1))) ++ (t.text ++ (h ++
        (segsText ((L'.segs.drop (a + 1)).drop (b - (a + 1) + 1)) ++ '}' :: L'.rest))))) := by
      unfold Layout.text
      conv => lhs; rw [e1]
      simp only [segsText_append]
      simp [segsText]
    have h3 := hocc f hfm
    rw [et] at h3
    have a1 := occ_front (decl_ne f) h1
    have a2 := occ_front (decl_ne f) h2
    have b1 := occ_super (declOf f) (L'.front ++ segsText (L'.segs.take a)) (s.text ++ (g ++ segsText ((L'.segs.drop (a + 1)).take (b - (a + 1))) ++ (t.text ++ (h ++
        (segsText ((L'.segs.drop (a + 1)).drop (b - (a + 1) + 1)) ++ '}' :: L'.rest)))))
    have b2 := occ_super (declOf f) s.text (g ++ segsText ((L'.segs.drop (a + 1)).take (b - (a + 1))) ++ (t.text ++ (h ++
        (segsText ((L'.segs.drop (a + 1)).drop (b - (a + 1) + 1)) ++ '}' :: L'.rest))))
    have b3 := occ_super (declOf f) (g ++ segsText ((L'.segs.drop (a + 1)).take (b - (a + 1)))) (t.text ++ (h ++
        (segsText ((L'.segs.drop (a + 1)).drop (b - (a + 1) + 1)) ++ '}' :: L'.rest)))
    have b4 := occ_super (declOf f) t.text (h ++ (segsText ((L'.segs.drop (a + 1)).drop (b - (a + 1) + 1)) ++ '}' :: L'.rest))
    omega
  refine ⟨ks, hks, ?_, ?_, hlt, ?_⟩
  · rw [List.nodup_iff_pairwise_ne, List.pairwise_iff_getElem]
    intro i j hi hj hij e
    obtain ⟨f, hf, haf⟩ := each_get' hks (List.getElem?_eq_getElem hi)
    obtain ⟨g, hg, hag⟩ := each_get' hks (List.getElem?_eq_getElem hj)
    rw [← e] at hag
    have h1 := ((layout_at L' f _).1 haf).1
    rw [((layout_at L' g _).1 hag).1] at h1
    have := distinct_key hd hf hg (Option.some.inj (Option.some.inj h1)).symm
    omega
  · intro k s g hs
    constructor
    · intro hk
      obtain ⟨f, hfm, ha⟩ := each_mem_right hks hk
      obtain ⟨s', g', hs', hi⟩ := his ha
      rw [hs] at hs'
      cases hs'
      exact ⟨f, hfm, hi⟩
    · rintro ⟨f, hfm, hi⟩
      obtain ⟨i, hif⟩ := List.mem_iff_getElem?.1 hfm
      obtain ⟨a, hia, ha⟩ := each_get hks hif
      obtain ⟨s', g', hs', hi'⟩ := his ha
      have h1 := honce hfm hs hs' hi hi'
      have h2 := honce hfm hs' hs hi' hi
      have : a = k := by omega
      subst this
      exact List.mem_of_getElem? hia
  · intro k hk
    obtain ⟨f, hfm, ha⟩ := each_mem_right hks hk
    obtain ⟨s, g, hs, hi⟩ := his ha
    refine ⟨s, g, declOf f, hs, hstart s (List.mem_map.2 ⟨_, List.mem_of_getElem? hs, rfl⟩) f hfm hi, decl_ne f, ?_, ?_, decl_space (hf f hfm).name.1, hocc f hfm⟩
    · rw [declOf_eq, List.length_append, List.length_cons]; simp; omega
    · obtain ⟨x, t, hd, hx⟩ := decl_head f
      rw [hd]
      rcases hx with rfl | rfl <;> simp

/-! ## Sorting keeps a file valid -/

theorem leadGap_chars {B : Nat → Bool} {l : List (Seg × Str)} {c : Char} : ∀ {k : Nat}, c ∈ leadGap B k l → c ∈ segsText l ∨ c = ' ' := by
  induction l with
  | nil => intro k h; cases h
  | cons x l ih =>
    obtain ⟨s, g⟩ := x
    intro k h
    rw [leadGap] at h
    split at h
    · simp only [List.mem_append] at h
      simp only [segsText, List.flatMap_cons, List.mem_append]
      rcases h with h | h | h
      · exact .inr (List.eq_of_mem_replicate h)
      · exact .inl (.inl (.inr h))
      · exact (ih h).imp .inr id
    · cases h

theorem leadGap_reads {G : SolGrammar} {B : Nat → Bool} {l : List (Seg × Str)} (hl : ∀ p ∈ l, p.1.Fits G ∧ SolReads p.2 []) : ∀ k, SolReads (leadGap B k l) [] := by
  induction l with
  | nil => intro k; rfl
  | cons x l ih =>
    obtain ⟨s, g⟩ := x
    intro k
    rw [leadGap]
    split
    · exact (reads_spaces _).append ((hl (s, g) (by simp)).2.append (ih (fun p hp => hl p (by simp [hp])) _))
    · rfl

theorem remaining_reads {G : SolGrammar} {B : Nat → Bool} {l : List (Seg × Str)} (hl : ∀ p ∈ l, p.1.Fits G ∧ SolReads p.2 []) :
    ∀ k, ∀ p ∈ remaining B k l, p.1.Fits G ∧ SolReads p.2 [] := by
  induction l with
  | nil => intro k p hp; cases hp
  | cons x l ih =>
    obtain ⟨s, g⟩ := x
    intro k p hp
    have hl' := fun p hp => hl p (List.mem_cons_of_mem _ hp)
    rw [remaining] at hp
    split at hp
    · exact ih hl' _ p hp
    · rcases List.mem_cons.1 hp with rfl | hp
      · exact ⟨(hl (s, g) (by simp)).1, (hl (s, g) (by simp)).2.append (leadGap_reads hl' _)⟩
      · exact ih hl' _ p hp

theorem separator_reads : SolReads separator [] := by
  unfold SolReads
  decide +kernel

theorem sortedLayout_fits {G : SolGrammar} {L : Layout} (hL : L.Fits G) (qs : List Nat) : (sortedLayout L qs).Fits G := by
  have hseg : ∀ s ∈ qs.filterMap (fun k => (L.segs[k]?).map Prod.fst), s.Fits G ∧ ∀ c ∈ s.text, c ∈ segsText L.segs := by
    intro s hsm
    obtain ⟨k, _, hk⟩ := List.mem_filterMap.1 hsm
    obtain ⟨p, hp, rfl⟩ := Option.map_eq_some_iff.1 hk
    have hp := List.mem_of_getElem? hp
    exact ⟨(hL.segs p hp).1, fun c hc => List.mem_flatMap.2 ⟨p, hp, List.mem_append.2 (.inl hc)⟩⟩
  have hmem : ∀ c ∈ segsText L.segs, c ∈ L.text := fun c hc => by simp only [Layout.text, List.mem_append]; exact .inr (.inl hc)
  have hor : ∀ {c : Char}, c ∈ segsText L.segs ∨ c = ' ' → isSolEnd c = true → c = '\n' ∨ c = '\r' := by
    intro c hc he
    rcases hc with hc | rfl
    · exact hL.plain c (hmem c hc) he
    · cases he
  have hsep : UsualEnds (if qs.length = L.segs.length then [] else separator) := by
    split
    · intro c hc; cases hc
    · exact usual_lit (by decide +kernel)
  refine ⟨?_, hL.before, hL.header, hL.lead, ?_, hL.rest⟩
  · intro c hc he
    simp only [sortedLayout, Layout.text, List.mem_append, segsText_append] at hc
    rcases hc with h | (h | h) | h
    · exact hL.plain c (by simp only [Layout.text, List.mem_append]; exact .inl h) he
    · obtain ⟨p, hp, hc⟩ := List.mem_flatMap.1 h
      obtain ⟨h1, h2⟩ := mem_withGaps hp
      rcases List.mem_append.1 hc with hc | hc
      · exact hL.plain c (hmem c ((hseg _ h1).2 c hc)) he
      · rcases h2 with h2 | h2
        · rw [h2, List.mem_append] at hc
          rcases hc with hc | hc
          · exact hsep c hc he
          · exact hor (leadGap_chars hc) he
        · rw [h2] at hc
          exact usual_lit (s := c!"\n\n") (by decide) c hc he
    · refine hor (blanked_chars (B := fun j => decide (j ∈ qs)) (k := 0) ?_) he
      rw [blanked_remaining]
      exact List.mem_append.2 (.inr h)
    · exact hL.plain c (by simp only [Layout.text, List.mem_append]; exact .inr (.inr h)) he
  · intro p hp
    rcases List.mem_append.1 hp with hp | hp
    · obtain ⟨h1, h2⟩ := mem_withGaps hp
      refine ⟨(hseg _ h1).1, ?_⟩
      rcases h2 with h2 | h2
      · rw [h2]
        refine SolReads.append (ts := []) ?_ (leadGap_reads hL.segs _)
        split
        · rfl
        · exact separator_reads
      · rw [h2]; rfl
    · exact remaining_reads hL.segs _ p hp

/-! ## The whole fix -/

theorem filterMap_same {α β : Type} {f g : α → Option β} : ∀ {l : List α}, (∀ x ∈ l, f x = g x) → l.filterMap f = l.filterMap g
  | [], _ => rfl
  | x :: l, h => by
    rw [List.filterMap_cons, List.filterMap_cons, h x (by simp), filterMap_same fun y hy => h y (List.mem_cons_of_mem _ hy)]

theorem perm_of_mem {α : Type} [DecidableEq α] {a b : List α} (ha : a.Nodup) (hb : b.Nodup) (h : ∀ x, x ∈ a ↔ x ∈ b) : a.Perm b := by
  apply perm_of_subset hb fun x hx => (h x).2 hx
  exact Nat.le_antisymm (nodup_length_le ha fun x hx => (h x).1 hx) (nodup_length_le hb fun x hx => (h x).2 hx)

theorem filterMap_len {α β : Type} (f : α → Option β) : ∀ {l : List α}, (∀ x ∈ l, (f x).isSome = true) → (l.filterMap f).length = l.length
  | [], _ => rfl
  | x :: l, h => by
    obtain ⟨y, hy⟩ := Option.isSome_iff_exists.1 (h x (by simp))
    rw [List.filterMap_cons, hy, List.length_cons, List.length_cons, filterMap_len f fun z hz => h z (List.mem_cons_of_mem _ hz)]

/-- What `check --fix` does, step by step. -/
theorem keep_core {P : SolParser} {G : SolGrammar} (hG : G.HasGenerated) (hP : Reader P G) {n : Str} {fns : List HFn} {ctx : Context}
    (hh : ctx.hir = ⟨[⟨n, fns⟩]⟩) (hf : ∀ f ∈ fns, ReadableFn f) {L L1 : Layout} (hL : L.Fits G) (hL1 : L1.Fits G) (hsrc : ctx.src = L.text)
    (hpt : P ctx.src = some ctx.pt) (hr : Renamed (sanitize n) L L1) (hb : '{' ∉ L1.header) (hsk : ctx.skipModifiers = false) (hd : Distinct fns)
    (hm : Mixed fns L) (hA : Ascii L.text) (hA1 : Ascii L1.text) (hF : ∀ f ∈ fns, Ascii (emitFunction f)) (hD : DeclaredOnce fns L1) :
    ∃ (L' L'' : Layout) (u : SolUnit) (vs : List Violation) (ks : List Nat), checkCtx ctx = .ok vs ∧
      fixContext P ctx = .ok ({ ctx with src := L''.text, pt := u }, vs.length) ∧ L''.Fits G ∧ FirstContract u L''.contract ∧
      Filling false fns L1 fns.length L' ∧ Completed false fns L1 L' ∧ (∀ f ∈ fns, Present L'.parts f) ∧ Placed fns L' ks ∧
      ((InOrder fns L'.parts ∧ L'' = L') ∨ (¬ InOrder fns L'.parts ∧ ∃ ps rs, (∀ i a, (i, a) ∈ ps ↔ Inv ks (List.range L'.segs.length) i a) ∧
        Increasing (ps.map Prod.fst) ∧ movesFrom (List.range L'.segs.length) ps (List.range L'.segs.length) = .ok rs ∧
        (∀ k ∈ rs, k < L'.segs.length) ∧ (∃ k ∈ rs, k ∈ ks) ∧ L'' = sortedLayout L' (rs.filter (fun k => decide (k ∈ ks))))) := by
  have ht : ∀ s ∈ L.segs.map Prod.fst, s.text ≠ [] := by
    intro s hsm e
    obtain ⟨p, hp, rfl⟩ := List.mem_map.1 hsm
    obtain ⟨c, r, h, _⟩ := (hL.segs p hp).1.1
    rw [e] at h; cases h
  have hpt' := reader_first hP hL (by rw [← hsrc]; exact hpt)
  have hl0 := ascii_lines hA ht
  obtain ⟨vs, hv⟩ := check_total hh hpt' (by rw [hsrc]; exact hl0.1) (by rw [hsrc]; exact hl0.2)
  obtain ⟨L', u, h1, h2, hfl, h4⟩ := C43_missing_partial hh hsrc hpt' hr hb (fun _ _ h => hP _ (filling_fits hG hf hL1 h)) (by simp [hsk]) hv
  rw [hsk] at h4 hfl
  have hg := filling_grown hfl
  have hpres : ∀ f ∈ fns, Present L'.parts f := fun f hf => (h4.present f hf).resolve_right (by simp)
  obtain ⟨ks, hks⟩ := placed_of hf hd hD hfl hpres
  have hfit := filling_fits hG hf hL1 hfl
  have hl1 := ascii_lines (grown_ascii hg hA1 hF) (grown_ne hg (by rw [renamed_segs hr]; exact ht))
  have hh' : ({ ctx with src := L'.text, pt := u } : Context).hir = ⟨[⟨n, fns⟩]⟩ := hh
  obtain ⟨vs', hv'⟩ := check_total (ctx := { ctx with src := L'.text, pt := u }) hh' h2 hl1.1 hl1.2
  by_cases hord : InOrder fns L'.parts
  · refine ⟨L', L', u, vs, ks, hv, ?_, hfit, h2, hfl, h4, hpres, hks, .inl ⟨hord, rfl⟩⟩
    unfold fixContext
    simp only [hv, Res.bind_ok, h1, hv', all_fixable hh hpt' hv]
    rw [(order_filter hh' h2 hv').2 hord]
    rfl
  · have hm' : Mixed fns L' := grown_mixed hg ⟨by rw [renamed_segs hr]; exact hm.named, by rw [renamed_segs hr]; exact hm.own⟩
    obtain ⟨rs, hrs, hlt, hex, hfix⟩ := keep_source (ctx := { ctx with src := L'.text, pt := u }) hh' rfl h2 hks hm' hord hv'
    have hfit' := sortedLayout_fits hfit (rs.filter (fun k => decide (k ∈ ks)))
    obtain ⟨u', hu', hfc'⟩ := hP _ hfit'
    refine ⟨L', _, u', vs, ks, hv, ?_, hfit', hfc', hfl, h4, hpres, hks, .inr ⟨hord, _, rs, fun i a => hks.inv i a,
      List.Pairwise.sublist ((unsorted_sublist _).map Prod.fst) (presentAndMissing_present _ L'.contract fns 0).inc, hrs, hlt, hex, rfl⟩⟩
    unfold fixContext
    simp only [hv, Res.bind_ok, h1, hv', all_fixable hh hpt' hv]
    have hnil : ¬ (vs'.filter (fun v => v.kind.isOrder)).isEmpty = true := by
      intro e
      exact hord ((order_filter hh' h2 hv').1 (List.isEmpty_iff.1 e))
    have hfc : ctx.hir.findContract = some ⟨n, fns⟩ := by rw [hh]; rfl
    simp only [hnil, (findContract_iff _ _).2 h2, hfc, fixOrder]
    simp only at hfix
    simp only [hfix, Res.bind_ok, reparse, hu']
    rfl

theorem sortedLayout_map (L : Layout) (qs : List Nat) : (sortedLayout L qs).segs.map Prod.fst =
    qs.filterMap (fun k => (L.segs[k]?).map Prod.fst) ++
      (List.range L.segs.length).filterMap (fun j => if j ∈ qs then none else (L.segs[j]?).map Prod.fst) := by
  unfold sortedLayout
  rw [List.map_append, withGaps_map, remaining_map]
  simp

theorem withGaps_last (m : Str) : ∀ {ss : List Seg}, ss ≠ [] → m ∈ (withGaps m ss).map Prod.snd
  | [], h => absurd rfl h
  | [s], _ => by simp [withGaps]
  | s :: t :: r, _ => by
    have := withGaps_last m (ss := t :: r) (by simp)
    rw [withGaps, List.map_cons]
    · exact List.mem_cons_of_mem _ this
    · simp

/-- **C100.** A valid ASCII file, whatever its contract has besides functions of the tree (other functions, variables, comments, ...), in any order, with
every function of the tree declared at most once: `check --fix` succeeds and writes a valid file; what is outside of the contract's braces stays, except for the
contract's name; the parts of the contract are the old ones and the missing functions; parts that are not in the tree keep their order; and all
text between parts is still there. -/
theorem C100_kept {P : SolParser} {G : SolGrammar} (hG : G.HasGenerated) (hP : Reader P G) {n : Str} {fns : List HFn} {ctx : Context}
    (hh : ctx.hir = ⟨[⟨n, fns⟩]⟩) (hf : ∀ f ∈ fns, ReadableFn f) {L L1 : Layout} (hL : L.Fits G) (hL1 : L1.Fits G) (hsrc : ctx.src = L.text)
    (hpt : P ctx.src = some ctx.pt) (hr : Renamed (sanitize n) L L1) (hb : '{' ∉ L1.header) (hsk : ctx.skipModifiers = false) (hd : Distinct fns)
    (hm : Mixed fns L) (hA : Ascii L.text) (hA1 : Ascii L1.text) (hF : ∀ f ∈ fns, Ascii (emitFunction f)) (hD : DeclaredOnce fns L1) :
    ∃ (L' : Layout) (u : SolUnit) (vs : List Violation), checkCtx ctx = .ok vs ∧ fixContext P ctx = .ok ({ ctx with src := L'.text, pt := u }, vs.length) ∧
      L'.Fits G ∧ FirstContract u L'.contract ∧
      (L'.before = L1.before ∧ L'.name = L1.name ∧ L'.header = L1.header ∧ L'.rest = L1.rest) ∧
      (∀ s, s ∈ L'.segs.map Prod.fst ↔ s ∈ L.segs.map Prod.fst ∨ ∃ f ∈ fns, ¬ Present L.parts f ∧ s = newSeg f) ∧
      (L'.segs.map Prod.fst).filter (fun s => decide (Foreign fns s)) = (L.segs.map Prod.fst).filter (fun s => decide (Foreign fns s)) ∧
      ∀ g ∈ L.gaps, ∃ g' ∈ L'.gaps, g <:+: g' := by
  obtain ⟨L', L'', u, vs, ks, hv, hfix, hfit, hfc, hfl, h4, _, hks, h⟩ := keep_core hG hP hh hf hL hL1 hsrc hpt hr hb hsk hd hm hA hA1 hF hD
  have hseg := renamed_segs hr
  have honly : ∀ s, s ∈ L'.segs.map Prod.fst ↔ s ∈ L.segs.map Prod.fst ∨ ∃ f ∈ fns, ¬ Present L.parts f ∧ s = newSeg f := by
    intro s
    rw [h4.only.mem_iff, hseg, List.mem_append]
    refine or_congr Iff.rfl ?_
    rw [List.mem_map]
    simp only [List.mem_filter, decide_eq_true_eq, Reported, renamed_present hr, Bool.false_eq_true, false_and, not_false_eq_true, and_true, and_assoc, eq_comm (a := s)]
  have hfor := grown_foreign (filling_grown hfl)
  rw [hseg] at hfor
  have hgap : ∀ g ∈ L.gaps, g ∈ L'.gaps := by
    intro g hg
    apply filling_gaps hfl
    have : L1.gaps = L.gaps := by cases hr <;> rfl
    rw [this]; exact hg
  refine ⟨L'', u, vs, hv, hfix, hfit, hfc, ?_⟩
  rcases h with ⟨_, rfl⟩ | ⟨_, ps, rs, _, _, _, hlt, hex, rfl⟩
  · exact ⟨h4.same, honly, hfor, fun g hg => ⟨g, hgap g hg, List.infix_refl g⟩⟩
  · generalize hqs : rs.filter (fun k => decide (k ∈ ks)) = qs
    have hqk : ∀ k ∈ qs, k ∈ ks := by
      intro k hk
      rw [← hqs, List.mem_filter, decide_eq_true_eq] at hk
      exact hk.2
    have hss : qs.filterMap (fun k => (L'.segs[k]?).map Prod.fst) ≠ [] := by
      obtain ⟨k, hk1, hk2⟩ := hex
      have hkq : k ∈ qs := by rw [← hqs, List.mem_filter]; exact ⟨hk1, by simpa using hk2⟩
      intro e
      rw [List.filterMap_eq_nil_iff] at e
      have := e k hkq
      rw [List.getElem?_eq_getElem (hks.lt k hk2)] at this
      cases this
    refine ⟨h4.same, ?_, ?_, ?_⟩
    · intro s
      rw [sortedLayout_map, ← honly, List.mem_append]
      constructor
      · rintro (h | h)
        · obtain ⟨k, _, hk⟩ := List.mem_filterMap.1 h
          obtain ⟨p, hp, rfl⟩ := Option.map_eq_some_iff.1 hk
          exact List.mem_map.2 ⟨p, List.mem_of_getElem? hp, rfl⟩
        · obtain ⟨k, _, hk⟩ := List.mem_filterMap.1 h
          split at hk
          · cases hk
          · obtain ⟨p, hp, rfl⟩ := Option.map_eq_some_iff.1 hk
            exact List.mem_map.2 ⟨p, List.mem_of_getElem? hp, rfl⟩
      · intro h
        obtain ⟨p, hp, rfl⟩ := List.mem_map.1 h
        obtain ⟨k, hk⟩ := List.mem_iff_getElem?.1 hp
        by_cases hkq : k ∈ qs
        · exact .inl (List.mem_filterMap.2 ⟨k, hkq, by rw [hk]; rfl⟩)
        · refine .inr (List.mem_filterMap.2 ⟨k, List.mem_range.2 (List.getElem?_eq_some_iff.1 hk).1, ?_⟩)
          rw [if_neg hkq, hk]; rfl
    · rw [← hfor, sortedLayout_map, List.filter_append]
      have e1 : (qs.filterMap (fun k => (L'.segs[k]?).map Prod.fst)).filter (fun s => decide (Foreign fns s)) = [] := by
        rw [List.filter_eq_nil_iff]
        intro s hs
        obtain ⟨k, hkq, hk⟩ := List.mem_filterMap.1 hs
        obtain ⟨⟨s, g⟩, hp, rfl⟩ := Option.map_eq_some_iff.1 hk
        obtain ⟨f, hfm, hi⟩ := (hks.tree k s g hp).1 (hqk k hkq)
        simp only [decide_eq_true_eq]
        exact fun h => h f hfm hi
      have e2 : L'.segs.map Prod.fst = (List.range L'.segs.length).filterMap (fun j => (L'.segs[j]?).map Prod.fst) := by
        have := range_filterMap (L'.segs.map Prod.fst)
        simp only [List.length_map, List.getElem?_map] at this
        exact this.symm
      rw [e1, e2, List.nil_append, List.filter_filterMap, List.filter_filterMap]
      apply filterMap_same
      intro j _
      split
      · rename_i hj
        cases hp : L'.segs[j]? with
        | none => rfl
        | some p =>
          obtain ⟨s, g⟩ := p
          obtain ⟨f, hfm, hi⟩ := (hks.tree j s g hp).1 (hqk j hj)
          have : ¬ Foreign fns s := fun h => h f hfm hi
          simp only [Option.map_some, Option.filter]
          rw [if_neg (by simpa using this)]
      · rfl
    · intro g hg
      have hg' := hgap g hg
      rw [Layout.gaps, List.mem_cons] at hg'
      have hgs : (sortedLayout L' qs).gaps = L'.lead :: (sortedLayout L' qs).segs.map Prod.snd := rfl
      rcases hg' with rfl | hg'
      · exact ⟨L'.lead, by rw [hgs]; simp, List.infix_refl _⟩
      · obtain ⟨p, hp, rfl⟩ := List.mem_map.1 hg'
        rcases gap_kept (fun j => decide (j ∈ qs)) L'.segs 0 p hp with h | ⟨q, hq, h⟩
        · refine ⟨(if qs.length = L'.segs.length then [] else separator) ++ leadGap (fun j => decide (j ∈ qs)) 0 L'.segs, ?_, h.trans (List.suffix_append _ _).isInfix⟩
          rw [hgs]
          refine List.mem_cons_of_mem _ ?_
          unfold sortedLayout
          rw [List.map_append]
          exact List.mem_append.2 (.inl (withGaps_last _ hss))
        · refine ⟨q.2, ?_, h⟩
          rw [hgs]
          refine List.mem_cons_of_mem _ ?_
          unfold sortedLayout
          rw [List.map_append]
          exact List.mem_append.2 (.inr (List.mem_map.2 ⟨q, hq, rfl⟩))

/-! ## When sorting works -/

theorem inOrder_blocked {fns : List HFn} {parts : List SolPart} (h : InOrder fns parts) : ¬ Blocked fns parts := by
  rintro ⟨_, _, _, _, _, _, _, ⟨f, a, j, g, b, hf, ha, hij, hg, hb, hlt⟩, _⟩
  have := (inOrder_iff fns parts).1 h _ j f g hij hf hg a b ha hb
  omega

/-- Where a function is after sorting. -/
theorem sorted_at {fns : List HFn} (hd : Distinct fns) {L : Layout} {ks qs : List Nat} (h : Placed fns L ks) (hq : qs.Perm ks) {i k p : Nat} {f : HFn}
    (hf : fns[i]? = some f) (hk : ks[i]? = some k) (hp : qs[p]? = some k) : At (sortedLayout L qs).parts f p := by
  have hkey : ∀ {j : Nat} {g : HFn} {k : Nat}, fns[j]? = some g → ks[j]? = some k → ∃ s : Seg, (L.segs[k]?).map Prod.fst = some s ∧ s.key = some (fnKey g) := by
    intro j g k hg hk
    have := ((layout_at L g k).1 ((h.get hg).2 hk)).1
    simp only [Layout.keys, List.getElem?_map, Option.map_eq_some_iff] at this
    obtain ⟨q, h1, h2⟩ := this
    exact ⟨q.1, by rw [h1]; rfl, h2⟩
  have hget : ∀ (j k : Nat), qs[j]? = some k → (sortedLayout L qs).keys[j]? = (L.segs[k]?).map (fun q => q.1.key) := by
    intro j k hj
    have e : (sortedLayout L qs).keys = ((sortedLayout L qs).segs.map Prod.fst).map Seg.key := by simp [Layout.keys, Function.comp_def]
    have hall : ∀ x ∈ qs, ((fun k => (L.segs[k]?).map Prod.fst) x).isSome = true := by
      intro x hx
      simp only
      rw [List.getElem?_eq_getElem (h.lt x (hq.mem_iff.1 hx))]; rfl
    have hlen : (qs.filterMap (fun k => (L.segs[k]?).map Prod.fst)).length = qs.length := filterMap_len _ hall
    have hjl := (List.getElem?_eq_some_iff.1 hj).1
    rw [e, sortedLayout_map, List.getElem?_map, List.getElem?_append_left (by rw [hlen]; exact hjl), filterMap_get _ hall, hj, Option.bind_some]
    cases L.segs[k]? <;> rfl
  rw [layout_at]
  constructor
  · obtain ⟨s, h1, h2⟩ := hkey hf hk
    rw [hget p k hp]
    obtain ⟨q, hq, rfl⟩ := Option.map_eq_some_iff.1 h1
    rw [hq]
    simp only [Option.map_some, h2]
  · intro j hj he
    have hjl : j < qs.length := by
      have := (List.getElem?_eq_some_iff.1 hp).1
      omega
    have hjk := List.getElem?_eq_getElem hjl
    rw [hget j _ hjk] at he
    have hmem : qs[j] ∈ ks := hq.mem_iff.1 (List.getElem_mem hjl)
    obtain ⟨i', hi'⟩ := List.mem_iff_getElem?.1 hmem
    obtain ⟨g, hg, _⟩ := h.fn hi'
    obtain ⟨s, h1, h2⟩ := hkey hg hi'
    obtain ⟨q, hq', rfl⟩ := Option.map_eq_some_iff.1 h1
    rw [hq'] at he
    simp only [Option.map_some, h2, Option.some.injEq] at he
    have := distinct_key hd hg hf he
    subst this
    rw [hk] at hi'
    cases hi'
    have := nodup_get (hq.nodup_iff.2 h.nodup) hp hjk
    omega

theorem sorted_inOrder {fns : List HFn} (hd : Distinct fns) {L : Layout} {ks qs : List Nat} (h : Placed fns L ks) (hq : qs.Perm ks) :
    InOrder fns (sortedLayout L qs).parts ↔ qs = ks := by
  constructor
  · intro ho
    have hidx : ∀ x ∈ ks, ∃ i, ks[i]? = some x := fun x hx => List.mem_iff_getElem?.1 hx
    refine List.Perm.eq_of_pairwise (le := fun x y => ∃ i j : Nat, i < j ∧ ks[i]? = some x ∧ ks[j]? = some y) ?_ ?_ ?_ hq
    · rintro x y _ _ ⟨i, j, h1, h2, h3⟩ ⟨i', j', h1', h2', h3'⟩
      have a := nodup_get h.nodup h2 h3'
      have b := nodup_get h.nodup h3 h2'
      omega
    · rw [List.pairwise_iff_getElem]
      intro p q hp hq' hpq
      obtain ⟨i, hi⟩ := hidx _ (hq.mem_iff.1 (List.getElem_mem hp))
      obtain ⟨j, hj⟩ := hidx _ (hq.mem_iff.1 (List.getElem_mem hq'))
      refine ⟨i, j, ?_, hi, hj⟩
      refine Nat.lt_of_not_le fun hle => ?_
      obtain ⟨f, hf, _⟩ := h.fn hi
      obtain ⟨g, hg, _⟩ := h.fn hj
      rcases Nat.lt_or_eq_of_le hle with hlt | rfl
      · have := (inOrder_iff _ _).1 ho j i g f hlt hg hf q p (sorted_at hd h hq hg hj (List.getElem?_eq_getElem hq'))
          (sorted_at hd h hq hf hi (List.getElem?_eq_getElem hp))
        omega
      · rw [hi, Option.some.injEq] at hj
        have := nodup_get (hq.nodup_iff.2 h.nodup) (List.getElem?_eq_getElem hp) (by rw [hj]; exact List.getElem?_eq_getElem hq')
        omega
    · rw [List.pairwise_iff_getElem]
      exact fun i j hi hj hij => ⟨i, j, hij, List.getElem?_eq_getElem hi, List.getElem?_eq_getElem hj⟩
  · rintro rfl
    rw [inOrder_iff]
    intro i j f g hij hf hg a b ha hb
    obtain ⟨k, hk, _⟩ := each_get h.at_ hf
    obtain ⟨m, hm, _⟩ := each_get h.at_ hg
    have := at_unique ha (sorted_at hd h hq hf hk hk)
    have := at_unique hb (sorted_at hd h hq hg hm hm)
    omega

/-- **C101.** The same files, if no three functions of the tree are reversed: the parts of the contract are the old ones and the missing functions, each once; and
nothing is reported afterwards if and only if no function that stays in place has a part that is not in the tree somewhere in front of it while a later
function of the tree is moved. -/
theorem C101_exact {P : SolParser} {G : SolGrammar} (hG : G.HasGenerated) (hP : Reader P G) {n : Str} {fns : List HFn} {ctx : Context}
    (hh : ctx.hir = ⟨[⟨n, fns⟩]⟩) (hf : ∀ f ∈ fns, ReadableFn f) {L L1 : Layout} (hL : L.Fits G) (hL1 : L1.Fits G) (hsrc : ctx.src = L.text)
    (hpt : P ctx.src = some ctx.pt) (hr : Renamed (sanitize n) L L1) (hb : '{' ∉ L1.header) (hsk : ctx.skipModifiers = false) (hd : Distinct fns)
    (hm : Mixed fns L) (h3 : NoReversedTriple fns L.parts) (hA : Ascii L.text) (hA1 : Ascii L1.text) (hF : ∀ f ∈ fns, Ascii (emitFunction f))
    (hD : DeclaredOnce fns L1) :
    ∃ (L' : Layout) (u : SolUnit) (vs : List Violation), checkCtx ctx = .ok vs ∧ fixContext P ctx = .ok ({ ctx with src := L'.text, pt := u }, vs.length) ∧
      L'.Fits G ∧ FirstContract u L'.contract ∧
      (L'.segs.map Prod.fst).Perm (L.segs.map Prod.fst ++ (fns.filter (fun f => decide (¬ Present L.parts f))).map newSeg) ∧
      (checkCtx { ctx with src := L'.text, pt := u } = .ok [] ↔ ¬ Blocked fns L.parts) := by
  obtain ⟨L', L'', u, vs, ks, hv, hfix, hfit, hfc, hfl, h4, hpres, hks, h⟩ := keep_core hG hP hh hf hL hL1 hsrc hpt hr hb hsk hd hm hA hA1 hF hD
  have honly := h4.only
  rw [renamed_segs hr, List.filter_congr (q := fun f => decide (¬ Present L.parts f)) (fun f _ => decide_eq_decide.2 (by
    simp [Reported, renamed_present hr]))] at honly
  have hblk : Blocked fns L'.parts ↔ Blocked fns L.parts := by
    rw [filling_blocked hd hfl, blocked_key, blocked_key, renamed_keys hr]
    simp only [Misplaced, renamed_at hr]
  have hname : ∀ m, L'.contract.name = some m → m = sanitize n := fun m hm' => renamed_name hr m (by rw [← h4.same.2.1]; exact hm')
  refine ⟨L'', u, vs, hv, hfix, hfit, hfc, ?_⟩
  rcases h with ⟨hord, rfl⟩ | ⟨hord, ps, rs, hps, hinc, hrs, hlt, hex, rfl⟩
  · refine ⟨honly, ?_⟩
    rw [← hblk]
    exact ⟨fun _ => inOrder_blocked hord, fun _ => (C37_silent_iff (ctx := { ctx with src := L''.text, pt := u }) hh).2
      ⟨L''.contract, hfc, hname, fun f hf => .inl (hpres f hf), hord⟩⟩
  · have h3' : No321 ks (List.range L'.segs.length) := hks.no321 (h4.triple hd ((renamed_triple hr fns).2 h3))
    have hsub : ∀ x ∈ ks, x ∈ List.range L'.segs.length := fun x hx => List.mem_range.2 (hks.lt x hx)
    obtain ⟨rs', hrs', hperm, _⟩ := moves_perm hks.nodup List.nodup_range hsub h3' ps (List.range L'.segs.length) 0 (List.Perm.refl _) rfl
      (fun p hp => ⟨(hps p.1 p.2).1 hp, Nat.zero_le _⟩) hinc
    rw [hrs] at hrs'
    cases hrs'
    have hiff := moves_sort_iff hks.nodup List.nodup_range hsub h3' hps hinc hrs
    have hq : (rs.filter (fun k => decide (k ∈ ks))).Perm ks := by
      refine perm_of_mem ((hperm.nodup_iff.2 List.nodup_range).filter _) hks.nodup fun x => ?_
      rw [List.mem_filter, decide_eq_true_eq]
      exact ⟨fun h => h.2, fun h => ⟨hperm.mem_iff.2 (hsub x h), h⟩⟩
    generalize rs.filter (fun k => decide (k ∈ ks)) = qs at *
    refine ⟨List.Perm.trans ?_ honly, ?_⟩
    · rw [sortedLayout_map]
      have e2 : L'.segs.map Prod.fst = (List.range L'.segs.length).filterMap (fun j => (L'.segs[j]?).map Prod.fst) := by
        have := range_filterMap (L'.segs.map Prod.fst)
        simp only [List.length_map, List.getElem?_map] at this
        exact this.symm
      have e3 : (List.range L'.segs.length).filterMap (fun j => if j ∈ qs then none else (L'.segs[j]?).map Prod.fst) =
          ((List.range L'.segs.length).filter (fun j => !decide (j ∈ qs))).filterMap (fun j => (L'.segs[j]?).map Prod.fst) := by
        rw [List.filterMap_filter]
        apply filterMap_same
        intro j _
        by_cases hj : j ∈ qs <;> simp [hj]
      rw [e2, e3, ← List.filterMap_append]
      apply List.Perm.filterMap
      have hsplit := List.filter_append_perm (fun j => decide (j ∈ qs)) (List.range L'.segs.length)
      refine List.Perm.trans (List.Perm.append_right _ ?_) hsplit
      refine perm_of_mem (hq.nodup_iff.2 hks.nodup) (List.nodup_range.filter _) fun x => ?_
      rw [List.mem_filter, decide_eq_true_eq]
      exact ⟨fun h => ⟨hsub x (hq.mem_iff.1 h), h⟩, fun h => h.2⟩
    · rw [← hblk, hks.blocked, ← hiff, ← sorted_inOrder hd hks hq]
      have hc := C37_silent_iff (ctx := { ctx with src := (sortedLayout L' qs).text, pt := u }) hh
      rw [hc]
      constructor
      · rintro ⟨s, hs, _, _, ho⟩
        have e := (findContract_iff _ _).2 hs
        rw [(findContract_iff _ _).2 hfc] at e
        cases e
        exact ho
      · intro ho
        refine ⟨_, hfc, hname, ?_, ho⟩
        intro f hfm
        obtain ⟨i, hi⟩ := List.mem_iff_getElem?.1 hfm
        obtain ⟨k, hk, _⟩ := each_get hks.at_ hi
        obtain ⟨p, hp⟩ := List.mem_iff_getElem?.1 (hq.mem_iff.2 (List.mem_of_getElem? hk))
        exact .inl (at_present (sorted_at hd hks hq hi hk hp))

end
end Bulloak
