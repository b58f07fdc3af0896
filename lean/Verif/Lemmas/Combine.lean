import Verif.Spec.Combine
import Verif.Lemmas.Hir3
import Verif.Props.Split
/-! # Lemmas about the combiner -/

set_option linter.unusedSectionVars false

namespace Bulloak
open Spec

/-! ## Splitting root titles -/

theorem infix_cons_iff {p : Str} {c : Char} {s : Str} : p <:+: c :: s ↔ p <+: c :: s ∨ p <:+: s := List.infix_cons_iff

theorem splitOnceSep_none {s : Str} : splitOnceSep s = none ↔ ¬ c!"::" <:+: s := by
  induction s with
  | nil => simp [splitOnceSep]
  | cons c s ih =>
    cases s with
    | nil =>
      simp only [splitOnceSep, true_iff]
      rintro ⟨a, b, h⟩
      have := congrArg List.length h
      simp at this; omega
    | cons d r =>
      rw [splitOnceSep, infix_cons_iff]
      by_cases hcd : c = ':' ∧ d = ':'
      · rw [if_pos hcd]
        simp [hcd.1, hcd.2]
      · rw [if_neg hcd]
        have : ¬ c!"::" <+: c :: d :: r := by
          rintro ⟨t, h⟩
          simp at h
          exact hcd ⟨h.1.symm, h.2.1.symm⟩
        cases hs : splitOnceSep (d :: r) with
        | none => simp only [true_iff]; intro h; exact (ih.1 hs) (h.resolve_left this)
        | some p =>
          obtain ⟨a, b⟩ := p
          simp only [reduceCtorEq, false_iff]
          refine fun hn => hn (Or.inr ?_)
          exact Classical.not_not.1 (fun h => by rw [ih.2 h] at hs; cases hs)

theorem splitOnceSep_some {s a b : Str} : splitOnceSep s = some (a, b) ↔ Splits s a b := by
  induction s generalizing a b with
  | nil => simp [splitOnceSep, Splits]
  | cons c s ih =>
    cases s with
    | nil =>
      simp only [splitOnceSep, reduceCtorEq, false_iff]
      rintro ⟨h, _⟩
      have := congrArg List.length h
      simp at this; omega
    | cons d r =>
      rw [splitOnceSep]
      by_cases hcd : c = ':' ∧ d = ':'
      · rw [if_pos hcd]
        obtain ⟨rfl, rfl⟩ := hcd
        constructor
        · intro h
          cases h
          refine ⟨rfl, ?_⟩
          rintro ⟨x, y, h⟩
          have := congrArg List.length h
          simp at this; omega
        · rintro ⟨h1, h2⟩
          cases a with
          | nil => simp at h1; rw [h1]
          | cons x a =>
            simp at h1
            obtain ⟨rfl, h1⟩ := h1
            exfalso
            apply h2
            cases a with
            | nil => exact ⟨[], [], by simp⟩
            | cons y a =>
              simp at h1
              obtain ⟨rfl, h1⟩ := h1
              exact ⟨[], a ++ c!":", by simp⟩
      · rw [if_neg hcd]
        have hne : ∀ t : Str, c :: d :: r ≠ c!"::" ++ t := by
          intro t h
          simp at h
          exact hcd ⟨h.1, h.2.1⟩
        constructor
        · intro h
          cases hs : splitOnceSep (d :: r) with
          | none => rw [hs] at h; cases h
          | some p =>
            obtain ⟨a', b'⟩ := p
            rw [hs] at h
            simp only [Option.some.injEq, Prod.mk.injEq] at h
            obtain ⟨rfl, rfl⟩ := h
            obtain ⟨h1, h2⟩ := ih.1 hs
            refine ⟨by rw [h1]; simp, ?_⟩
            rw [List.cons_append, infix_cons_iff]
            rintro (h | h)
            · obtain ⟨t, h⟩ := h
              cases a' with
              | nil =>
                simp at h
                refine hcd ⟨h.1.symm, ?_⟩
                simp at h1
                exact h1.1
              | cons x a' =>
                simp at h h1
                exact hcd ⟨h.1.symm, by rw [h1.1, ← h.2.1]⟩
            · exact h2 h
        · rintro ⟨h1, h2⟩
          cases a with
          | nil => exact absurd h1 (hne b)
          | cons x a =>
            simp only [List.cons_append, List.cons.injEq] at h1
            obtain ⟨rfl, h1⟩ := h1
            have : splitOnceSep (d :: r) = some (a, b) := by
              apply ih.2
              refine ⟨h1, fun h => h2 ?_⟩
              rw [List.cons_append, infix_cons_iff]
              exact Or.inr h
            rw [this]

theorem splits_unique {t a b a' b' : Str} (h : Splits t a b) (h' : Splits t a' b') : a = a' ∧ b = b' := by
  have h1 := splitOnceSep_some.2 h
  rw [splitOnceSep_some.2 h'] at h1
  simpa [eq_comm] using h1

/-! ## Stripping `test_` -/

theorem stripPrefix_append (p s : Str) : stripPrefix p (p ++ s) = some s := by
  induction p with
  | nil => rfl
  | cons c p ih => simp [stripPrefix, ih]

theorem trimStartMatches_test (n : Nat) (s : Str) (h : s.length ≤ n) : trimStartMatches c!"test_" n s = dropTests s := by
  induction n generalizing s with
  | zero =>
    have : s = [] := by cases s <;> simp_all
    subst this; rfl
  | succ n ih =>
    rw [trimStartMatches]
    cases hs : stripPrefix c!"test_" s with
    | some r =>
      have he := stripPrefix_eq.1 hs
      subst he
      simp only
      rw [ih r (by simp at h; omega)]
      rfl
    | none =>
      simp only
      unfold dropTests
      split
      · rename_i r
        have : stripPrefix c!"test_" ('t' :: 'e' :: 's' :: 't' :: '_' :: r) = some r := stripPrefix_append c!"test_" r
        rw [this] at hs; cases hs
      · rfl

/-! ## First occurrences -/

theorem mem_firstOnly_ids {fs : List HFn} {x : Str} : x ∈ (firstOnly fs).map HFn.identifier ↔ x ∈ fs.map HFn.identifier := by
  induction fs with
  | nil => simp [firstOnly]
  | cons f fs ih =>
    rw [firstOnly, List.map_cons, List.map_cons, List.mem_cons, List.mem_cons, ← ih]
    constructor
    · rintro (h | h)
      · exact Or.inl h
      · right
        obtain ⟨g, hg, rfl⟩ := List.mem_map.1 h
        exact List.mem_map_of_mem (List.mem_filter.1 hg).1
    · rintro (h | h)
      · exact Or.inl h
      · by_cases he : x = f.identifier
        · exact Or.inl he
        · right
          obtain ⟨g, hg, rfl⟩ := List.mem_map.1 h
          exact List.mem_map_of_mem (List.mem_filter.2 ⟨hg, by simpa using he⟩)

theorem firstOnly_nodup (fs : List HFn) : ((firstOnly fs).map HFn.identifier).Nodup := by
  induction fs with
  | nil => simp [firstOnly]
  | cons f fs ih =>
    rw [firstOnly, List.map_cons, List.nodup_cons]
    refine ⟨?_, ((List.filter_sublist (l := firstOnly fs)).map HFn.identifier).nodup ih⟩
    intro h
    obtain ⟨g, hg, he⟩ := List.mem_map.1 h
    have := (List.mem_filter.1 hg).2
    simp [he] at this

theorem firstOnly_sublist (fs : List HFn) : (firstOnly fs).Sublist fs := by
  induction fs with
  | nil => simp [firstOnly]
  | cons f fs ih => rw [firstOnly]; exact (List.filter_sublist.trans ih).cons_cons f

theorem firstOnly_of_nodup {fs : List HFn} (h : (fs.map HFn.identifier).Nodup) : firstOnly fs = fs := by
  induction fs with
  | nil => rfl
  | cons f fs ih =>
    rw [List.map_cons, List.nodup_cons] at h
    rw [firstOnly, ih h.2, List.filter_eq_self.2]
    intro g hg
    have : g.identifier ≠ f.identifier := fun he => h.1 (he ▸ List.mem_map_of_mem hg)
    simpa using this

theorem firstOnly_append (a b : List HFn) : firstOnly (a ++ b) =
    firstOnly a ++ (firstOnly b).filter (fun g => g.identifier ∉ a.map HFn.identifier) := by
  induction a with
  | nil => simp only [List.nil_append, firstOnly, List.map_nil]; rw [List.filter_eq_self.2]; simp
  | cons f a ih =>
    rw [List.cons_append, firstOnly, ih, firstOnly, List.filter_append, List.cons_append]
    congr 2
    rw [List.filter_filter]
    apply List.filter_congr
    intro g _
    simp only [List.map_cons, List.mem_cons, not_or, Bool.decide_and]

theorem collectModifiers_eq (fs : List HFn) : ∀ seen,
    (collectModifiers seen fs).1 = (firstOnly fs).filter (fun g => g.identifier ∉ seen) ∧
    ∀ x, x ∈ (collectModifiers seen fs).2 ↔ x ∈ seen ∨ x ∈ fs.map HFn.identifier := by
  induction fs with
  | nil => intro seen; simp [collectModifiers, firstOnly]
  | cons f fs ih =>
    intro seen
    rw [collectModifiers]
    by_cases hf : f.identifier ∈ seen
    · rw [if_pos hf]
      obtain ⟨h1, h2⟩ := ih seen
      refine ⟨?_, ?_⟩
      · rw [h1, firstOnly, List.filter_cons_of_neg (by simpa using hf), List.filter_filter]
        apply List.filter_congr
        intro g _
        by_cases hg : g.identifier ∈ seen
        · simp [hg]
        · have : g.identifier ≠ f.identifier := fun he => hg (he ▸ hf)
          simp [hg, this]
      · intro x
        rw [h2, List.map_cons, List.mem_cons]
        constructor
        · rintro (h | h)
          · exact Or.inl h
          · exact Or.inr (Or.inr h)
        · rintro (h | h | h)
          · exact Or.inl h
          · exact Or.inl (h ▸ hf)
          · exact Or.inr h
    · rw [if_neg hf]
      obtain ⟨h1, h2⟩ := ih (f.identifier :: seen)
      simp only
      refine ⟨?_, ?_⟩
      · rw [h1, firstOnly, List.filter_cons_of_pos (by simpa using hf), List.filter_filter]
        congr 1
        apply List.filter_congr
        intro g _
        simp only [List.mem_cons, not_or, Bool.decide_and]
        rw [Bool.and_comm]
      · intro x
        rw [h2, List.map_cons, List.mem_cons, List.mem_cons]
        constructor
        · rintro ((h | h) | h)
          · exact Or.inr (Or.inl h)
          · exact Or.inl h
          · exact Or.inr (Or.inr h)
        · rintro (h | h | h)
          · exact Or.inl (Or.inr h)
          · exact Or.inl (Or.inl h)
          · exact Or.inr h

section
variable [U : Ucd]

theorem prefixTest_eq (part : Str) (f : HFn) : prefixTest part f = prefixFn part f := by
  obtain ⟨i, ty, sp, m, c⟩ := f
  cases ty with
  | function =>
    simp only [prefixTest, HFn.isFunction, prefixFn, prefixTestWith, upperFirst_eq, decide_true, if_true]
    rw [trimStartMatches_test _ _ (Nat.le_refl _)]
  | modifier => rfl

/-- One root. -/
def mkRoot (t : Str) (fns : List HFn) : HRoot := ⟨[⟨t, fns⟩]⟩

theorem combineContracts_one (idx : Nat) (t : Str) (fns : List HFn) (acc : HContract) (seen : List Str) :
    combineContracts idx (mkRoot t fns).children acc seen = combineContract idx acc seen ⟨t, fns⟩ := by
  simp only [mkRoot, combineContracts]
  cases combineContract idx acc seen ⟨t, fns⟩ <;> simp

theorem combineContract_bad {n : Str} {k : Nat} {t : Str} {e : CombineError} (hb : BadTitle n k t e) (fns : List HFn)
    (cs : List HFn) (seen : List Str) (hn : n = [] ↔ k = 0) : combineContract k ⟨n, cs⟩ seen ⟨t, fns⟩ = .err e := by
  unfold combineContract
  cases hb with
  | noSeparator h => simp [splitOnceSep_none.2 h, Res.okOr]
  | noName h hm => simp [splitOnceSep_some.2 h, Res.okOr, trim_eq_nil.2 hm]
  | @otherName m f hk h hm hne =>
    have h1 : ¬ trim m = [] := fun h => hm (trim_eq_nil.1 h)
    have h2 : ¬ n = [] := fun h => by have := hn.1 h; omega
    simp [splitOnceSep_some.2 h, Res.okOr, h1, h2, hne]

theorem combineContract_good {n t f : Str} {k : Nat} (hn : ¬ Blank n) (h : Splits t n f) (fns cs : List HFn) (seen : List Str)
    {n' : Str} (hn' : (n' = [] ∧ cs = []) ∨ n' = n) : combineContract k ⟨n', cs⟩ seen ⟨t, fns⟩ =
      .ok (⟨n, cs ++ (collectModifiers seen (fns.map (prefixFn f))).1⟩, (collectModifiers seen (fns.map (prefixFn f))).2) := by
  unfold combineContract
  have h1 : ¬ trim n = [] := fun h => hn (trim_eq_nil.1 h)
  have e : fns.map (prefixTest f) = fns.map (prefixFn f) := List.map_congr_left (fun g _ => prefixTest_eq f g)
  have h2 : ¬ n = [] := by rintro rfl; exact hn (by intro c hc; simp at hc)
  rcases hn' with ⟨rfl, rfl⟩ | rfl
  · simp [splitOnceSep_some.2 h, Res.okOr, h1, updateChildren, e]
  · simp [splitOnceSep_some.2 h, Res.okOr, h1, h2, updateChildren, e]

/-- The roots of a list of titles with their functions. -/
def roots (L : List (Str × List HFn)) : List HRoot := L.map (fun p => mkRoot p.1 p.2)

/-- All trees after the first `k` name the contract `n`. -/
theorem combineRoots_good {n : Str} (hn : ¬ Blank n) : ∀ (L : List (Str × List HFn)) (fs : List Str),
    Each (fun p f => Splits p.1 n f) L fs → ∀ (k : Nat) (n' : Str) (cs : List HFn) (seen : List Str),
    L ≠ [] → ((n' = [] ∧ cs = []) ∨ n' = n) →
    combineRoots k (roots L) ⟨n', cs⟩ seen = .ok ⟨n, cs ++
      (firstOnly ((L.zip fs).flatMap (fun q => q.1.2.map (prefixFn q.2)))).filter (fun g => g.identifier ∉ seen)⟩ := by
  intro L fs h
  induction h with
  | nil => intro _ _ _ _ hne; exact absurd rfl hne
  | @cons p f L fs h1 h2 ih =>
    intro k n' cs seen _ hn'
    simp only [roots, List.map_cons, combineRoots, combineContracts_one]
    rw [combineContract_good hn h1 _ _ _ hn']
    simp only [Res.bind_ok]
    obtain ⟨e1, e2⟩ := collectModifiers_eq (p.2.map (prefixFn f)) seen
    have hsplit : (firstOnly (((p :: L).zip (f :: fs)).flatMap (fun q => q.1.2.map (prefixFn q.2)))).filter (fun g => g.identifier ∉ seen) =
        (collectModifiers seen (p.2.map (prefixFn f))).1 ++ (firstOnly ((L.zip fs).flatMap (fun q => q.1.2.map (prefixFn q.2)))).filter
          (fun g => g.identifier ∉ (collectModifiers seen (p.2.map (prefixFn f))).2) := by
      rw [List.zip_cons_cons, List.flatMap_cons, firstOnly_append, List.filter_append, e1, List.filter_filter]
      congr 1
      apply List.filter_congr
      intro g _
      have := e2 g.identifier
      by_cases h3 : g.identifier ∈ seen <;> by_cases h4 : g.identifier ∈ (p.2.map (prefixFn f)).map HFn.identifier
      · simp only [h3, h4, this, true_or]; simp
      · simp only [h3, h4, this, true_or]; simp
      · simp only [h3, h4, this, or_true]; simp
      · simp only [h3, h4, this, or_self]; simp
    rw [hsplit]
    cases L with
    | nil =>
      cases h2
      simp [combineRoots, firstOnly]
    | cons q L =>
      have := ih (k + 1) n (cs ++ (collectModifiers seen (p.2.map (prefixFn f))).1) (collectModifiers seen (p.2.map (prefixFn f))).2
        (by simp) (Or.inr rfl)
      simp only [roots] at this
      rw [this]
      simp

/-- A bad title stops the combination with its error. -/
theorem combineRoots_bad {n : Str} {A : List (Str × List HFn)} {p : Str × List HFn} {B : List (Str × List HFn)} {e : CombineError}
    (hA : ∀ q ∈ A, Names n q.1) : ∀ (k : Nat) (n' : Str) (cs : List HFn) (seen : List Str),
    BadTitle n (k + A.length) p.1 e → ((n' = [] ∧ cs = [] ∧ k = 0) ∨ (n' = n ∧ 0 < k ∧ ¬ Blank n)) →
    combineRoots k (roots (A ++ p :: B)) ⟨n', cs⟩ seen = .err e := by
  induction A with
  | nil =>
    intro k n' cs seen hb hn'
    simp only [roots, List.nil_append, List.map_cons, combineRoots, combineContracts_one]
    rcases hn' with ⟨rfl, rfl, rfl⟩ | ⟨rfl, hk, hnb⟩
    · have hb' : BadTitle [] 0 p.1 e := by
        cases hb with
        | noSeparator h => exact .noSeparator h
        | noName h1 h2 => exact .noName h1 h2
        | otherName h => simp at h
      rw [combineContract_bad hb' _ _ _ (by simp)]
      rfl
    · have h2 : n' ≠ [] := by rintro rfl; exact hnb (by intro c hc; simp at hc)
      rw [combineContract_bad (k := k) (by simpa using hb) _ _ _ ⟨fun h => absurd h h2, fun h => by omega⟩]
      rfl
  | cons q A ih =>
    intro k n' cs seen hb hn'
    obtain ⟨hnb, f, hs⟩ := hA q (by simp)
    simp only [roots, List.cons_append, List.map_cons, combineRoots, combineContracts_one]
    have hn'' : (n' = [] ∧ cs = []) ∨ n' = n := by
      rcases hn' with ⟨h1, h2, _⟩ | ⟨h1, _⟩
      · exact Or.inl ⟨h1, h2⟩
      · exact Or.inr h1
    rw [combineContract_good hnb hs _ _ _ hn'']
    simp only [Res.bind_ok]
    have := ih (fun q hq => hA q (by simp [hq])) (k + 1) n (cs ++ (collectModifiers seen (q.2.map (prefixFn f))).1)
      (collectModifiers seen (q.2.map (prefixFn f))).2
      (by rw [List.length_cons] at hb; rw [show k + 1 + A.length = k + (A.length + 1) from by omega]; exact hb)
      (Or.inr ⟨rfl, by omega, hnb⟩)
    simp only [roots] at this
    rw [this]

theorem titles_from {m : Str} (hm : ¬ Blank m) : ∀ (ts A : List Str), (∀ x ∈ A, Names m x) → A ≠ [] → (∀ x ∈ A ++ ts, Names m x) ∨
    ∃ A' t' B' e, A ++ ts = A' ++ t' :: B' ∧ (∀ x ∈ A', Names m x) ∧ BadTitle m A'.length t' e := by
  intro ts
  induction ts with
  | nil => intro A hA _; exact Or.inl (by simpa using hA)
  | cons u ts ih =>
    intro A hA hne
    have bad : ∀ e, BadTitle m A.length u e → ∃ A' t' B' e, A ++ u :: ts = A' ++ t' :: B' ∧ (∀ x ∈ A', Names m x) ∧ BadTitle m A'.length t' e :=
      fun e he => ⟨A, u, ts, e, rfl, hA, he⟩
    cases hs : splitOnceSep u with
    | none => exact Or.inr (bad _ (.noSeparator (splitOnceSep_none.1 hs)))
    | some p =>
      obtain ⟨m', f⟩ := p
      have hs := splitOnceSep_some.1 hs
      by_cases hm' : Blank m'
      · exact Or.inr (bad _ (.noName hs hm'))
      · by_cases he : m' = m
        · subst he
          have := ih (A ++ [u]) (by
            intro x hx
            rcases List.mem_append.1 hx with hx | hx
            · exact hA x hx
            · rw [List.mem_singleton.1 hx]; exact ⟨hm, f, hs⟩) (by simp)
          simpa using this
        · exact Or.inr (bad _ (.otherName (List.length_pos_iff.2 hne) hs hm' he))

/-- Either all titles name one contract, or there is a first one that does not. -/
theorem titles_cases (ts : List Str) : (∃ n, ∀ t ∈ ts, Names n t) ∨
    ∃ n A t B e, ts = A ++ t :: B ∧ (∀ x ∈ A, Names n x) ∧ BadTitle n A.length t e := by
  cases ts with
  | nil => exact Or.inl ⟨[], by simp⟩
  | cons t ts =>
    cases hs : splitOnceSep t with
    | none => exact Or.inr ⟨[], [], t, ts, _, rfl, by simp, .noSeparator (splitOnceSep_none.1 hs)⟩
    | some p =>
      obtain ⟨m, f⟩ := p
      have hs := splitOnceSep_some.1 hs
      by_cases hm : Blank m
      · exact Or.inr ⟨[], [], t, ts, _, rfl, by simp, .noName hs hm⟩
      · rcases titles_from hm ts [t] (by intro x hx; rw [List.mem_singleton.1 hx]; exact ⟨hm, f, hs⟩) (by simp) with h | ⟨A, t', B, e, h1, h2, h3⟩
        · exact Or.inl ⟨m, h⟩
        · exact Or.inr ⟨m, A, t', B, e, h1, h2, h3⟩

end
end Bulloak
