import Verif.Spec.Check
import Verif.Lemmas.Sol2
/-! # Lemmas about the structural check -/

set_option linter.unusedSectionVars false

namespace Bulloak
open Spec

theorem findContract_iff (u : SolUnit) (s : SolContract) : findContract u = some s ↔ FirstContract u s := by
  unfold findContract FirstContract
  induction u with
  | nil => simp
  | cons p u ih =>
    cases p with
    | contract c =>
      simp only [List.findSome?_cons, Option.some.injEq]
      constructor
      · rintro rfl; exact ⟨0, u, rfl⟩
      · rintro ⟨k, rest, h⟩
        cases k with
        | zero => simp at h; exact h.1
        | succ k => simp [List.replicate_succ] at h
    | other =>
      simp only [List.findSome?_cons]
      rw [ih]
      constructor
      · rintro ⟨k, rest, rfl⟩; exact ⟨k + 1, rest, by simp [List.replicate_succ]⟩
      · rintro ⟨k, rest, h⟩
        cases k with
        | zero => simp at h
        | succ k => simp only [List.replicate_succ, List.cons_append, List.cons.injEq, true_and] at h; exact ⟨k, rest, h⟩

theorem fnsMatch_iff (h : HFn) (g : SolFn) : fnsMatch h g = true ↔ Matches h (.fn g) := by
  obtain ⟨ty, name, a, b⟩ := g
  obtain ⟨i, hty, sp, m, c⟩ := h
  unfold fnsMatch Matches
  cases name with
  | none => simp
  | some n => cases hty <;> cases ty <;> simp [fnTypesMatch, kindOf]

theorem findMatchingFnFrom_none (h : HFn) (ps : List SolPart) : ∀ idx, findMatchingFnFrom h idx ps = none ↔ ∀ p ∈ ps, ¬ Matches h p := by
  induction ps with
  | nil => simp [findMatchingFnFrom]
  | cons p ps ih =>
    intro idx
    cases p with
    | fn g =>
      rw [findMatchingFnFrom]
      by_cases hm : fnsMatch h g = true
      · simp [hm, (fnsMatch_iff h g).1 hm]
      · have : ¬ Matches h (.fn g) := fun x => hm ((fnsMatch_iff h g).2 x)
        simp [hm, this, ih]
    | other a b =>
      rw [findMatchingFnFrom, ih]
      simp [Matches]

theorem findMatchingFnFrom_some (h : HFn) (ps : List SolPart) : ∀ idx i f, findMatchingFnFrom h idx ps = some (i, f) →
    idx ≤ i ∧ ps[i - idx]? = some (.fn f) ∧ At ps h (i - idx) := by
  induction ps with
  | nil => simp [findMatchingFnFrom]
  | cons p ps ih =>
    intro idx i f hf
    have step : ¬ Matches h p → findMatchingFnFrom h (idx + 1) ps = some (i, f) →
        idx ≤ i ∧ (p :: ps)[i - idx]? = some (.fn f) ∧ At (p :: ps) h (i - idx) := by
      intro hn hf
      obtain ⟨h1, h2, h3⟩ := ih _ _ _ hf
      obtain ⟨k, rfl⟩ : ∃ k, i = idx + 1 + k := ⟨i - (idx + 1), by omega⟩
      have e1 : idx + 1 + k - (idx + 1) = k := by omega
      have e2 : idx + 1 + k - idx = k + 1 := by omega
      rw [e1] at h2 h3
      rw [e2]
      refine ⟨by omega, by simpa using h2, ⟨?_, ?_⟩⟩
      · obtain ⟨q, hq, hm⟩ := h3.1
        exact ⟨q, by simpa using hq, hm⟩
      · intro j q hj hq
        cases j with
        | zero => simp at hq; subst hq; exact hn
        | succ j => exact h3.2 j q (by omega) (by simpa using hq)
    cases p with
    | fn g =>
      rw [findMatchingFnFrom] at hf
      by_cases hm : fnsMatch h g = true
      · simp only [hm, if_true, Option.some.injEq, Prod.mk.injEq] at hf
        obtain ⟨rfl, rfl⟩ := hf
        refine ⟨Nat.le_refl _, by simp, ⟨⟨.fn g, by simp, (fnsMatch_iff h g).1 hm⟩, ?_⟩⟩
        intro j p hj; omega
      · rw [if_neg (by simpa using hm)] at hf
        exact step (fun x => hm ((fnsMatch_iff h g).2 x)) hf
    | other a b =>
      rw [findMatchingFnFrom] at hf
      exact step (by simp [Matches]) hf

theorem at_unique {ps : List SolPart} {f : HFn} {i j : Nat} (h1 : At ps f i) (h2 : At ps f j) : i = j := by
  obtain ⟨⟨p, hp, hm⟩, h1⟩ := h1
  obtain ⟨⟨q, hq, hn⟩, h2⟩ := h2
  rcases Nat.lt_trichotomy i j with h | h | h
  · exact absurd hm (h2 i p h hp)
  · exact h
  · exact absurd hn (h1 j q h hq)

theorem at_present {ps : List SolPart} {f : HFn} {i : Nat} (h : At ps f i) : Present ps f := by
  obtain ⟨⟨p, hp, hm⟩, _⟩ := h
  exact ⟨p, List.mem_of_getElem? hp, hm⟩

/-- What the search finds. -/
theorem findMatchingFn_cases (s : SolContract) (f : HFn) :
    (findMatchingFn s f = none ∧ ¬ Present s.parts f) ∨
    ∃ i g, findMatchingFn s f = some (i, g) ∧ s.parts[i]? = some (.fn g) ∧ At s.parts f i := by
  unfold findMatchingFn
  cases h : findMatchingFnFrom f 0 s.parts with
  | none => exact Or.inl ⟨rfl, fun ⟨p, hp, hm⟩ => (findMatchingFnFrom_none f _ 0).1 h p hp hm⟩
  | some x =>
    obtain ⟨i, g⟩ := x
    obtain ⟨_, h2, h3⟩ := findMatchingFnFrom_some f _ 0 i g h
    exact Or.inr ⟨i, g, rfl, h2, h3⟩

theorem present_at {s : List SolPart} {f : HFn} (h : Present s f) : ∃ i, At s f i := by
  rcases findMatchingFn_cases ⟨none, 0, 0, s⟩ f with ⟨_, h'⟩ | ⟨i, _, _, _, h'⟩
  · exact absurd h h'
  · exact ⟨i, h'⟩

/-! ## The two lists of the first loop -/

/-- The present functions: pairs of index in the tree and in the contract. -/
structure IsPresent (s : SolContract) (k : Nat) (fns : List HFn) (l : List (Nat × Nat)) : Prop where
  inc : Increasing (l.map Prod.fst)
  mem : ∀ i a, (i, a) ∈ l ↔ ∃ f, k ≤ i ∧ fns[i - k]? = some f ∧ At s.parts f a

theorem presentAndMissing_present (ctx : Context) (s : SolContract) (fns : List HFn) : ∀ k,
    IsPresent s k fns (presentAndMissing ctx s k fns).1 := by
  induction fns with
  | nil => intro k; exact ⟨by simp [presentAndMissing, Increasing], by simp [presentAndMissing]⟩
  | cons f fns ih =>
    intro k
    have ihk := ih (k + 1)
    have shift : ∀ i a, (∃ g, k + 1 ≤ i ∧ fns[i - (k + 1)]? = some g ∧ At s.parts g a) ↔
        (k < i ∧ ∃ g, k ≤ i ∧ (f :: fns)[i - k]? = some g ∧ At s.parts g a) := by
      intro i a
      constructor
      · rintro ⟨g, h1, h2, h3⟩
        obtain ⟨m, rfl⟩ : ∃ m, i = k + 1 + m := ⟨i - (k + 1), by omega⟩
        rw [show k + 1 + m - (k + 1) = m by omega] at h2
        exact ⟨by omega, g, by omega, by rw [show k + 1 + m - k = m + 1 by omega]; simpa using h2, h3⟩
      · rintro ⟨h0, g, h1, h2, h3⟩
        obtain ⟨m, rfl⟩ : ∃ m, i = k + 1 + m := ⟨i - (k + 1), by omega⟩
        rw [show k + 1 + m - k = m + 1 by omega] at h2
        exact ⟨g, by omega, by rw [show k + 1 + m - (k + 1) = m by omega]; simpa using h2, h3⟩
    rw [presentAndMissing]
    rcases findMatchingFn_cases s f with ⟨h1, h2⟩ | ⟨i, g, h1, h2, h3⟩
    · rw [h1]
      simp only
      have e : ∀ (c : Prop) [Decidable c] (x : List (Nat × Nat)) (y z : List Violation), (if c then (x, y) else (x, z)).1 = x := by
        intro c _ x y z; split <;> rfl
      rw [e]
      refine ⟨?_, ?_⟩
      · exact ihk.inc
      · intro i a
        rw [ihk.mem, shift]
        constructor
        · rintro ⟨_, h⟩; exact h
        · rintro ⟨g, hk, hg, ha⟩
          refine ⟨?_, g, hk, hg, ha⟩
          rcases Nat.lt_or_ge k i with h | h
          · exact h
          · have : i = k := by omega
            subst this
            simp at hg; subst hg
            exact absurd (at_present ha) h2
    · rw [h1]
      simp only
      refine ⟨?_, ?_⟩
      · simp only [List.map_cons, Increasing, List.pairwise_cons]
        refine ⟨?_, ihk.inc⟩
        intro x hx
        obtain ⟨⟨i', a⟩, hm, rfl⟩ := List.mem_map.1 hx
        obtain ⟨_, h, _⟩ := (ihk.mem i' a).1 hm
        show k < i'
        omega
      · intro i' a
        rw [List.mem_cons, ihk.mem, shift]
        constructor
        · rintro (h | ⟨_, h⟩)
          · cases h
            exact ⟨f, Nat.le_refl _, by simp, h3⟩
          · exact h
        · rintro ⟨g', hk, hg, ha⟩
          rcases Nat.lt_or_ge k i' with h | h
          · exact Or.inr ⟨h, g', hk, hg, ha⟩
          · left
            have : i' = k := by omega
            subst this
            simp at hg; subst hg
            rw [at_unique ha h3]

/-- The missing functions, in tree order. -/
theorem presentAndMissing_missing (ctx : Context) (s : SolContract) (fns : List HFn) : ∀ k,
    (∀ v ∈ (presentAndMissing ctx s k fns).2, ∃ f i, k ≤ i ∧ fns[i - k]? = some f ∧
      v = ⟨.matchingFunctionMissing f i, .code ctx.tree f.span.start.line⟩ ∧ ¬ Present s.parts f ∧
      ¬ (ctx.skipModifiers = true ∧ f.ty = .modifier)) ∧
    (∀ f i, k ≤ i → fns[i - k]? = some f → ¬ Present s.parts f → ¬ (ctx.skipModifiers = true ∧ f.ty = .modifier) →
      ⟨.matchingFunctionMissing f i, .code ctx.tree f.span.start.line⟩ ∈ (presentAndMissing ctx s k fns).2) ∧
    Increasing ((presentAndMissing ctx s k fns).2.filterMap missingIdx) := by
  induction fns with
  | nil => intro k; simp [presentAndMissing, Increasing]
  | cons f fns ih =>
    intro k
    obtain ⟨ih1, ih2, ih3⟩ := ih (k + 1)
    have up : ∀ g i, k + 1 ≤ i → fns[i - (k + 1)]? = some g → k ≤ i ∧ (f :: fns)[i - k]? = some g := by
      intro g i h1 h2
      refine ⟨by omega, ?_⟩
      rw [show i - k = (i - (k + 1)) + 1 by omega]
      simpa using h2
    have down : ∀ g i, k ≤ i → (f :: fns)[i - k]? = some g → (i = k ∧ g = f) ∨ (k + 1 ≤ i ∧ fns[i - (k + 1)]? = some g) := by
      intro g i h1 h2
      rcases Nat.lt_or_ge k i with h | h
      · right
        rw [show i - k = (i - (k + 1)) + 1 by omega] at h2
        exact ⟨h, by simpa using h2⟩
      · have : i = k := by omega
        subst this
        simp at h2
        exact Or.inl ⟨rfl, h2.symm⟩
    have old : ∀ (l : List Violation), l = (presentAndMissing ctx s (k + 1) fns).2 →
        (Present s.parts f ∨ (ctx.skipModifiers = true ∧ f.ty = .modifier)) →
        (∀ v ∈ l, ∃ f' i, k ≤ i ∧ (f :: fns)[i - k]? = some f' ∧
          v = ⟨.matchingFunctionMissing f' i, .code ctx.tree f'.span.start.line⟩ ∧ ¬ Present s.parts f' ∧
          ¬ (ctx.skipModifiers = true ∧ f'.ty = .modifier)) ∧
        (∀ f' i, k ≤ i → (f :: fns)[i - k]? = some f' → ¬ Present s.parts f' → ¬ (ctx.skipModifiers = true ∧ f'.ty = .modifier) →
          ⟨.matchingFunctionMissing f' i, .code ctx.tree f'.span.start.line⟩ ∈ l) ∧
        Increasing (l.filterMap missingIdx) := by
      rintro l rfl hf
      refine ⟨?_, ?_, ih3⟩
      · intro v hv
        obtain ⟨g, i, h1, h2, h3⟩ := ih1 v hv
        exact ⟨g, i, (up g i h1 h2).1, (up g i h1 h2).2, h3⟩
      · intro g i h1 h2 h3 h4
        rcases down g i h1 h2 with ⟨rfl, rfl⟩ | ⟨h5, h6⟩
        · rcases hf with hf | hf
          · exact absurd hf h3
          · exact absurd hf h4
        · exact ih2 g i h5 h6 h3 h4
    rw [presentAndMissing]
    rcases findMatchingFn_cases s f with ⟨h1, h2⟩ | ⟨i, g, h1, h2, h3⟩
    · rw [h1]
      simp only
      by_cases hs : (ctx.skipModifiers && f.isModifier) = true
      · rw [if_pos hs]
        simp only [Bool.and_eq_true, HFn.isModifier, decide_eq_true_eq] at hs
        exact old _ rfl (Or.inr (by simpa using hs))
      · rw [if_neg hs]
        have hs' : ¬ (ctx.skipModifiers = true ∧ f.ty = .modifier) := by
          intro h; apply hs; simp [HFn.isModifier, h]
        refine ⟨?_, ?_, ?_⟩
        · intro v hv
          rcases List.mem_cons.1 hv with rfl | hv
          · exact ⟨f, k, Nat.le_refl _, by simp, rfl, h2, hs'⟩
          · obtain ⟨g, i, h1, h2, h3⟩ := ih1 v hv
            exact ⟨g, i, (up g i h1 h2).1, (up g i h1 h2).2, h3⟩
        · intro g i h1 h2 h3 h4
          rcases down g i h1 h2 with ⟨rfl, rfl⟩ | ⟨h5, h6⟩
          · exact List.mem_cons_self
          · exact List.mem_cons_of_mem _ (ih2 g i h5 h6 h3 h4)
        · simp only [List.filterMap_cons, missingIdx, Increasing, List.pairwise_cons]
          refine ⟨?_, ih3⟩
          intro x hx
          obtain ⟨v, hv, hx⟩ := List.mem_filterMap.1 hx
          obtain ⟨g, i, h1, h2, rfl, _⟩ := ih1 v hv
          simp [missingIdx] at hx
          omega
    · rw [h1]
      exact old _ rfl (Or.inl (at_present h3))

/-! ## Inversions -/

theorem unsorted_sublist (l : List (Nat × Nat)) : (unsortedPairs l).Sublist l := by
  induction l with
  | nil => exact List.Sublist.refl _
  | cons p l ih =>
    obtain ⟨h, s⟩ := p
    rw [unsortedPairs]
    split
    · exact ih.cons_cons _
    · exact ih.cons _

theorem mem_unsorted {l : List (Nat × Nat)} (hl : Increasing (l.map Prod.fst)) (i a : Nat) :
    (i, a) ∈ unsortedPairs l ↔ (i, a) ∈ l ∧ ∃ j b, (j, b) ∈ l ∧ i < j ∧ b < a := by
  induction l with
  | nil => simp [unsortedPairs]
  | cons p l ih =>
    obtain ⟨h, s⟩ := p
    have hl' := hl
    simp only [List.map_cons, Increasing, List.pairwise_cons] at hl'
    obtain ⟨hhead, htail⟩ := hl'
    have hlt : ∀ j b, (j, b) ∈ l → h < j := fun j b hm => hhead j (List.mem_map_of_mem (f := Prod.fst) hm)
    have ih := ih htail
    have aux : (i, a) ∈ l → ((∃ j b, (j, b) ∈ (h, s) :: l ∧ i < j ∧ b < a) ↔ ∃ j b, (j, b) ∈ l ∧ i < j ∧ b < a) := by
      intro hm
      constructor
      · rintro ⟨j, b, hb, h1, h2⟩
        rcases List.mem_cons.1 hb with hb | hb
        · cases hb
          have := hlt i a hm
          omega
        · exact ⟨j, b, hb, h1, h2⟩
      · rintro ⟨j, b, hb, h⟩; exact ⟨j, b, List.mem_cons_of_mem _ hb, h⟩
    rw [unsortedPairs]
    by_cases hc : (l.any (fun p => decide (p.2 < s))) = true
    · rw [if_pos hc, List.mem_cons, ih, List.mem_cons]
      constructor
      · rintro (he | ⟨hm, hx⟩)
        · cases he
          refine ⟨Or.inl rfl, ?_⟩
          obtain ⟨⟨j, b⟩, hb, hlt'⟩ := List.any_eq_true.1 hc
          exact ⟨j, b, List.mem_cons_of_mem _ hb, hlt j b hb, by simpa using hlt'⟩
        · exact ⟨Or.inr hm, (aux hm).2 hx⟩
      · rintro ⟨he | hm, hx⟩
        · exact Or.inl he
        · exact Or.inr ⟨hm, (aux hm).1 hx⟩
    · rw [if_neg hc, ih, List.mem_cons]
      constructor
      · rintro ⟨hm, hx⟩; exact ⟨Or.inr hm, (aux hm).2 hx⟩
      · rintro ⟨he | hm, hx⟩
        · cases he
          exfalso
          apply hc
          obtain ⟨j, b, hb, h1, h2⟩ := hx
          rcases List.mem_cons.1 hb with hb | hb
          · cases hb; omega
          · exact List.any_eq_true.2 ⟨(j, b), hb, by simpa using h2⟩
        · exact ⟨hm, (aux hm).1 hx⟩

/-- The order violations, pair by pair. -/
theorem orderViolations_ok {ctx : Context} {h : HContract} {s : SolContract} {l : List (Nat × Nat)} {vs : List Violation}
    (hl : ∀ p ∈ l, ∃ g, s.parts[p.2]? = some (.fn g)) (hv : orderViolations ctx h s l = .ok vs) :
    Each (fun p v => ∃ g line, s.parts[p.2]? = some (.fn g) ∧ offsetToLine ctx.src g.start = .ok line ∧
      v = ⟨.functionOrderMismatch g p.2 p.1, .code ctx.sol line⟩) l vs := by
  induction l generalizing vs with
  | nil => rw [orderViolations] at hv; cases hv; exact .nil
  | cons p l ih =>
    obtain ⟨i, a⟩ := p
    obtain ⟨g, hg⟩ := hl (i, a) (by simp)
    simp only at hg
    rw [orderViolations, hg] at hv
    cases hh : h.children[i]? with
    | none => rw [hh] at hv; cases hv
    | some f =>
      rw [hh] at hv
      simp only at hv
      obtain ⟨line, h1, hv⟩ := Res.bind_eq_ok.1 hv
      obtain ⟨vs', h2, hv⟩ := Res.bind_eq_ok.1 hv
      cases hv
      exact .cons ⟨g, line, hg, h1, rfl⟩ (ih (fun p hp => hl p (by simp [hp])) h2)

end Bulloak
