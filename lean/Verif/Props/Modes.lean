import Verif.Props.Edit3
/-!
# Switching `-m` on and off: C110
-/

namespace Bulloak
open Spec
set_option linter.unusedSectionVars false

section
variable [U : Ucd]

/-- **C110, checking.** A file that conforms with `-m` is reported without `-m` to miss exactly the modifiers it lacks, in the order of the tree, and nothing else. -/
theorem C110_check {ctx : Context} {n : Str} {fns : List HFn} (hh : ctx.hir = ⟨[⟨n, fns⟩]⟩) (hc : checkCtx { ctx with skipModifiers := true } = .ok [])
    {s : SolContract} (hs : FirstContract ctx.pt s) :
    ∃ vs, checkCtx { ctx with skipModifiers := false } = .ok vs ∧
      (∀ v, v ∈ vs ↔ ∃ f i, fns[i]? = some f ∧ f.ty = .modifier ∧ ¬ Present s.parts f ∧ v = ⟨.matchingFunctionMissing f i, .code ctx.tree f.span.start.line⟩) ∧
      Increasing (vs.filterMap missingIdx) := by
  obtain ⟨s', h1, h2, h3, h4⟩ := (C37_silent_iff (ctx := { ctx with skipModifiers := true }) hh).1 hc
  obtain rfl : s = s' := Option.some.inj (((findContract_iff _ _).2 hs).symm.trans ((findContract_iff _ _).2 h1))
  obtain ⟨m1, m2, m3⟩ := presentAndMissing_missing { ctx with skipModifiers := false } s fns 0
  refine ⟨_, check_in_order (ctx := { ctx with skipModifiers := false }) hh hs h2 h4, fun v => ⟨fun hv => ?_, ?_⟩, m3⟩
  · obtain ⟨f, i, _, hi, e, h5, _⟩ := m1 v hv
    have hi : fns[i]? = some f := by simpa using hi
    rcases h3 f (List.mem_of_getElem? hi) with k | ⟨_, k⟩
    · exact absurd k h5
    · exact ⟨f, i, hi, k, h5, e⟩
  · rintro ⟨f, i, hi, _, h5, rfl⟩
    exact m2 f i (Nat.zero_le _) (by simpa using hi) h5 (by simp)

/-- **C110, both.** A file conforms without `-m` exactly if it conforms with `-m` and has all modifiers of the tree. -/
theorem C110_both {ctx : Context} {n : Str} {fns : List HFn} (hh : ctx.hir = ⟨[⟨n, fns⟩]⟩) {s : SolContract} (hs : FirstContract ctx.pt s) :
    checkCtx { ctx with skipModifiers := false } = .ok [] ↔
      checkCtx { ctx with skipModifiers := true } = .ok [] ∧ ∀ f ∈ fns, f.ty = .modifier → Present s.parts f := by
  constructor
  · intro h
    obtain ⟨s', h1, h2, h3, h4⟩ := (C37_silent_iff (ctx := { ctx with skipModifiers := false }) hh).1 h
    obtain rfl : s = s' := Option.some.inj (((findContract_iff _ _).2 hs).symm.trans ((findContract_iff _ _).2 h1))
    have h3' : ∀ f ∈ fns, Present s.parts f := fun f hf => (h3 f hf).elim id (fun k => absurd k.1 (by simp))
    exact ⟨(C37_silent_iff (ctx := { ctx with skipModifiers := true }) hh).2 ⟨s, h1, h2, fun f hf => .inl (h3' f hf), h4⟩, fun f hf _ => h3' f hf⟩
  · rintro ⟨h, hm⟩
    obtain ⟨vs, h1, h2, _⟩ := C110_check hh h hs
    rw [h1]
    cases vs with
    | nil => rfl
    | cons v vs =>
      obtain ⟨f, i, hi, k1, k2, _⟩ := (h2 v).1 (List.mem_cons_self ..)
      exact absurd (hm f (List.mem_of_getElem? hi) k1) k2

/-- **C110, fixing.** `check --fix` without `-m` on a valid file that conforms with `-m` adds exactly the modifiers it lacks; the result conforms with and without `-m`. -/
theorem C110_fix {P : SolParser} {G : SolGrammar} (hG : G.HasGenerated) (hP : Reader P G) {n : Str} {fns : List HFn} {ctx : Context}
    (hh : ctx.hir = ⟨[⟨n, fns⟩]⟩) (hf : ∀ f ∈ fns, ReadableFn f) {L : Layout} (hL : L.Fits G) (hsrc : ctx.src = L.text) (hpt : P ctx.src = some ctx.pt)
    (hb : '{' ∉ L.header) (hd : Distinct fns) (hc : checkCtx { ctx with skipModifiers := true } = .ok []) {vs : List Violation}
    (hv : checkCtx { ctx with skipModifiers := false } = .ok vs) :
    ∃ (L' : Layout) (u : SolUnit), fixContext P { ctx with skipModifiers := false } = .ok ({ ctx with skipModifiers := false, src := L'.text, pt := u }, vs.length) ∧ L'.Fits G ∧
      (L.segs.map Prod.fst).Sublist (L'.segs.map Prod.fst) ∧
      (L'.segs.map Prod.fst).Perm (L.segs.map Prod.fst ++ (fns.filter (fun f => f.ty = .modifier ∧ ¬ Present L.parts f)).map newSeg) ∧
      ∀ skip, checkCtx { ctx with skipModifiers := skip, src := L'.text, pt := u } = .ok [] := by
  have hfc : FirstContract ctx.pt L.contract := reader_first hP hL (by rw [← hsrc]; exact hpt)
  obtain ⟨s', h1, h2, h3, h4⟩ := (C37_silent_iff (ctx := { ctx with skipModifiers := true }) hh).1 hc
  obtain rfl : s' = L.contract := Option.some.inj (((findContract_iff _ _).2 h1).symm.trans ((findContract_iff _ _).2 hfc))
  obtain ⟨L', u, g1, g2, g3, g4, g5⟩ := C91_fix_missing hG hP (ctx := { ctx with skipModifiers := false }) hh hf hL hL hsrc hpt (.same h2) hb
    (fun _ _ _ _ _ hs => absurd hs (by simp)) hd h4 hv
  refine ⟨L', u, g1, g2, g4.kept, ?_, ?_⟩
  · have := g4.only
    rw [List.filter_congr (q := fun f => decide (f.ty = .modifier ∧ ¬ Present L.parts f)) (fun f hf => decide_eq_decide.2 ?_)] at this
    · exact this
    · unfold Reported
      constructor
      · rintro ⟨k, _⟩
        rcases h3 f hf with k' | ⟨_, k'⟩
        · exact absurd k' k
        · exact ⟨k', k⟩
      · rintro ⟨_, k⟩; exact ⟨k, by simp⟩
  · intro skip
    cases skip with
    | false => exact g5
    | true => exact ((C110_both (ctx := { ctx with skipModifiers := false, src := L'.text, pt := u }) hh g3).1 g5).1

/-! ## Completing a file -/

theorem written_iff_keys (fs : List HFn) (o : Nat) (l : List (Seg × Str)) :
    Written fs (partsFrom o l) ↔ l.map (fun p => p.1.key) = fs.map (fun f => some (fnKey f)) := by
  induction l generalizing fs o with
  | nil =>
    cases fs with
    | nil => simp [partsFrom, Written.nil]
    | cons f fs => rw [partsFrom]; exact ⟨fun h => (nomatch h), fun h => (nomatch h)⟩
  | cons p l ih =>
    obtain ⟨s, g⟩ := p
    cases fs with
    | nil => rw [partsFrom]; exact ⟨fun h => (nomatch h), fun h => (nomatch h)⟩
    | cons f fs =>
      rw [partsFrom, List.map_cons, List.map_cons, List.cons.injEq, ← ih fs (o + byteLen s.text + byteLen g), ← matches_at f s o]
      cases s with
      | other t => simp only [Seg.at, Matches, false_and, iff_false]; exact fun h => nomatch h
      | fn ty name t =>
        simp only [Seg.at, Matches]
        constructor
        · intro h
          cases h with
          | cons k1 k2 k3 => exact ⟨⟨k1, k2⟩, k3⟩
        · rintro ⟨⟨k1, k2⟩, k3⟩
          exact .cons k1 k2 k3

theorem distinct_keys {fns : List HFn} (hd : Distinct fns) : (fns.map (fun f => some (fnKey f))).Nodup := by
  rw [List.Nodup, List.pairwise_map]
  refine hd.imp ?_
  intro f g h e
  simp only [fnKey, Option.some.injEq, Prod.mk.injEq] at e
  exact h ⟨e.2, e.1⟩

/-- A list sorted by where its elements are found in a list of the same elements is that list. -/
theorem sorted_eq {ks xs : List (Option (FnTy × Str))} (hp : ks.Perm xs) (hn : xs.Nodup)
    (ho : xs.Pairwise (fun x y => ∀ (i j : Nat), ks[i]? = some x → ks[j]? = some y → i ≤ j)) : ks = xs := by
  have hnk : ks.Nodup := hp.symm.nodup hn
  have huniq : ∀ (i j : Nat) x, ks[i]? = some x → ks[j]? = some x → i = j := by
    intro i j x hi hj
    obtain ⟨h1, rfl⟩ := List.getElem?_eq_some_iff.1 hi
    obtain ⟨h2, e⟩ := List.getElem?_eq_some_iff.1 hj
    exact ((List.getElem_inj hnk).1 e).symm
  refine List.Perm.eq_of_pairwise (le := fun x y => ∀ (i j : Nat), ks[i]? = some x → ks[j]? = some y → i ≤ j) ?_ ?_ ho hp
  · intro x y hx hy h1 h2
    obtain ⟨i, hi⟩ := List.mem_iff_getElem?.1 hx
    obtain ⟨j, hj⟩ := List.mem_iff_getElem?.1 (hp.symm.subset hy)
    have : i = j := Nat.le_antisymm (h1 i j hi hj) (h2 j i hj hi)
    subst this
    rw [hi] at hj
    exact Option.some.inj hj
  · rw [List.pairwise_iff_getElem]
    intro i j hi hj hij a b ha hb
    have e1 := huniq a i _ ha (List.getElem?_eq_getElem hi)
    have e2 := huniq b j _ hb (List.getElem?_eq_getElem hj)
    omega

/-- **C110, completing.** If a file consists of some functions of the tree in tree order, for example the tests written by `scaffold -m`, then `check --fix` without `-m` turns it into
one that consists of all functions of the tree in tree order, as written by `scaffold` without `-m`. -/
theorem C110_complete {P : SolParser} {G : SolGrammar} (hG : G.HasGenerated) (hP : Reader P G) {n : Str} {fns some' : List HFn} {ctx : Context}
    (hh : ctx.hir = ⟨[⟨n, fns⟩]⟩) (hskip : ctx.skipModifiers = false) (hf : ∀ f ∈ fns, ReadableFn f) {L L1 : Layout} (hL : L.Fits G) (hL1 : L1.Fits G)
    (hsrc : ctx.src = L.text) (hpt : P ctx.src = some ctx.pt) (hr : Renamed (sanitize n) L L1) (hb : '{' ∉ L1.header) (hd : Distinct fns)
    (hsub : some'.Sublist fns) (hw : Written some' L.parts) {vs : List Violation} (hv : checkCtx ctx = .ok vs) :
    ∃ (L' : Layout) (u : SolUnit), fixContext P ctx = .ok ({ ctx with src := L'.text, pt := u }, vs.length) ∧ L'.Fits G ∧
      Written fns L'.parts ∧ checkCtx { ctx with src := L'.text, pt := u } = .ok [] := by
  have hk : L.keys = some'.map (fun f => some (fnKey f)) := (written_iff_keys _ _ _).1 hw
  have hnd := distinct_keys hd
  have hmem : ∀ f ∈ fns, (Present L.parts f ↔ f ∈ some') := by
    intro f hf
    rw [layout_present, hk, List.mem_map]
    constructor
    · rintro ⟨g, hg, e⟩
      have hgf := hsub.subset hg
      by_cases efg : g = f
      · exact efg ▸ hg
      · exfalso
        obtain ⟨i, hi⟩ := List.mem_iff_getElem?.1 hf
        obtain ⟨j, hj⟩ := List.mem_iff_getElem?.1 hgf
        have ei : (fns.map (fun f => some (fnKey f)))[i]? = some (some (fnKey f)) := by simp [hi]
        have ej : (fns.map (fun f => some (fnKey f)))[j]? = some (some (fnKey f)) := by simp [hj, e]
        obtain ⟨h1, k1⟩ := List.getElem?_eq_some_iff.1 ei
        obtain ⟨h2, k2⟩ := List.getElem?_eq_some_iff.1 ej
        have := (List.getElem_inj (h₀ := h1) (h₁ := h2) hnd).1 (k1.trans k2.symm)
        subst this
        rw [hi] at hj
        exact efg (Option.some.inj hj).symm
    · exact fun h => ⟨f, h, rfl⟩
  have hord : InOrder fns L.parts := by
    unfold InOrder
    rw [List.pairwise_iff_getElem]
    intro i j hi hj hij a b ha hb
    have ka := (layout_at _ _ _).1 ha
    have kb := (layout_at _ _ _).1 hb
    have hnd' : L.keys.Nodup := by rw [hk]; exact (hsub.map _).nodup hnd
    have hs := (hsub.map (fun f => some (fnKey f)))
    rw [← hk] at hs
    by_cases hab : a ≤ b
    · exact hab
    · exfalso
      obtain ⟨h1, e1⟩ := List.getElem?_eq_some_iff.1 ka.1
      obtain ⟨h2, e2⟩ := List.getElem?_eq_some_iff.1 kb.1
      have hp : List.Sublist [L.keys[b], L.keys[a]] (fns.map (fun f => some (fnKey f))) := by
        refine List.Sublist.trans ?_ hs
        have := List.pairwise_iff_getElem (R := fun x y => List.Sublist [x, y] L.keys) (l := L.keys)
        exact this.1 (List.pairwise_iff_forall_sublist.2 (fun h => h)) b a h2 h1 (by omega)
      have hpw : (fns.map (fun f => some (fnKey f))).Pairwise (fun x y => ¬ (x = L.keys[b] ∧ y = L.keys[a])) := by
        rw [List.pairwise_iff_getElem]
        intro x y hx hy hxy ⟨f1, f2⟩
        rw [e2] at f1
        rw [e1] at f2
        have g1 : (fns.map (fun f => some (fnKey f)))[x] = (fns.map (fun f => some (fnKey f)))[j]'(by simpa using hj) := by rw [f1]; simp
        have g2 : (fns.map (fun f => some (fnKey f)))[y] = (fns.map (fun f => some (fnKey f)))[i]'(by simpa using hi) := by rw [f2]; simp
        have := (List.getElem_inj hnd).1 g1
        have := (List.getElem_inj hnd).1 g2
        omega
      exact List.pairwise_iff_forall_sublist.1 hpw hp ⟨rfl, rfl⟩
  obtain ⟨L', u, g1, g2, g3, g4, g5⟩ := C91_fix_missing hG hP hh hf hL hL1 hsrc hpt hr hb (fun _ _ _ _ _ hs => by rw [hskip] at hs; cases hs) hd hord hv
  refine ⟨L', u, g1, g2, (written_iff_keys _ _ _).2 ?_, g5⟩
  have hall : ∀ f ∈ fns, Present L'.parts f := fun f hf => (g4.present f hf).elim id (fun k => by rw [hskip] at k; cases k.1)
  have ho' := g4.order hd ((renamed_inOrder hr fns).2 hord)
  have hperm : L'.keys.Perm (fns.map (fun f => some (fnKey f))) := by
    have h1 := g4.only.map Seg.key
    have e1 : (L'.segs.map Prod.fst).map Seg.key = L'.keys := by simp [Layout.keys, Function.comp_def]
    have e2 : (L.segs.map Prod.fst).map Seg.key = L.keys := by simp [Layout.keys, Function.comp_def]
    rw [e1, renamed_segs hr, List.map_append, e2, hk, List.map_map, show Seg.key ∘ newSeg = (fun f => some (fnKey f)) from funext key_newSeg] at h1
    refine h1.trans ?_
    rw [← List.map_append]
    refine List.Perm.map _ ?_
    have hfn : fns.Nodup := hd.imp (fun h e => h (by rw [e]; exact ⟨rfl, rfl⟩))
    have e3 : some'.Perm (fns.filter (fun f => decide (Present L.parts f))) := by
      rw [List.perm_ext_iff_of_nodup (hsub.nodup hfn) (hfn.filter _)]
      intro f
      rw [List.mem_filter, decide_eq_true_eq]
      exact ⟨fun h => ⟨hsub.subset h, (hmem f (hsub.subset h)).2 h⟩, fun ⟨h1, h2⟩ => (hmem f h1).1 h2⟩
    refine (e3.append_right _).trans ?_
    rw [List.filter_congr (p := fun f => decide (Reported ctx.skipModifiers L1 f)) (q := fun f => !decide (Present L.parts f)) (fun f _ => by
      rw [hskip]
      simp only [Reported, renamed_present hr, Bool.false_eq_true, false_and, not_false_eq_true, and_true, decide_not])]
    exact List.filter_append_perm _ _
  refine sorted_eq hperm hnd ?_
  rw [List.pairwise_map]
  unfold InOrder at ho'
  have hnk : L'.keys.Nodup := hperm.symm.nodup hnd
  have first : ∀ (i : Nat) x, L'.keys[i]? = some (some x) → KAt L'.keys x i := by
    intro i x hi
    refine ⟨hi, fun j hj hj' => ?_⟩
    obtain ⟨h1, e1⟩ := List.getElem?_eq_some_iff.1 hi
    obtain ⟨h2, e2⟩ := List.getElem?_eq_some_iff.1 hj'
    have := (List.getElem_inj (h₀ := h1) (h₁ := h2) hnk).1 (e1.trans e2.symm)
    omega
  refine ho'.imp ?_
  intro f g h i j hi hj
  exact h i j ((layout_at _ _ _).2 (first _ _ hi)) ((layout_at _ _ _).2 (first _ _ hj))

end
end Bulloak
