import Verif.Spec.Crash
import Verif.Lemmas.Keep4
/-! # Lemmas about fixing: which functions are out of order once the missing ones are filled in, and when moving them fails -/

namespace Bulloak
open Spec
set_option linter.unusedSectionVars false
variable [U : Ucd]

/-- A new function behind its predecessor is out of order if that one is; nothing else changes. -/
theorem misplaced_step {fns : List HFn} (hd : Distinct fns) {L : Layout} {k p : Nat} {h : HFn} (hh : fns[k]? = some h)
    (hnew : ¬ Present L.parts h) (hpl : Place fns L k p) :
    (∀ i, i ≠ k → (Misplaced fns (L.insert h p).parts i ↔ Misplaced fns L.parts i)) ∧
      (Misplaced fns (L.insert h p).parts k ↔ ∃ i, k = i + 1 ∧ Misplaced fns L.parts i) := by
  have hle := place_le hpl
  have hlk : p ≤ L.keys.length := by rw [keys_length]; exact hle
  have hnotat : ∀ a, ¬ At L.parts h a := fun a ha => hnew (at_present ha)
  rw [layout_present] at hnew
  -- positions
  have old : ∀ (r : Nat) e x, fns[r]? = some e → r ≠ k → At (L.insert h p).parts e x →
      ∃ a, At L.parts e a ∧ x = if a < p then a else a + 1 := by
    intro r e x he hr hx
    rw [layout_at, insert_keys _ _ _ hle] at hx
    have hne : some (fnKey h) ≠ some (fnKey e) := fun e' => hr (distinct_key hd he hh (Option.some.inj e').symm)
    obtain ⟨a, ha, hxa⟩ := kat_insert_iff hlk hne hx
    exact ⟨a, (layout_at L e a).2 ha, hxa⟩
  have old' : ∀ (r : Nat) e a, fns[r]? = some e → At L.parts e a → r ≠ k ∧ At (L.insert h p).parts e (if a < p then a else a + 1) := by
    intro r e a he ha
    have hr : r ≠ k := by
      rintro rfl
      rw [hh] at he
      cases he
      exact hnotat a ha
    have hne : some (fnKey h) ≠ some (fnKey e) := fun e' => hr (distinct_key hd he hh (Option.some.inj e').symm)
    refine ⟨hr, ?_⟩
    rw [layout_at, insert_keys _ _ _ hle]
    exact kat_insert_ne ((layout_at L e a).1 ha) hlk hne
  have newAt : At (L.insert h p).parts h p := by
    rw [layout_at, insert_keys _ _ _ hle]
    exact kat_insert_new hnew hlk
  have new : ∀ e x, fns[k]? = some e → At (L.insert h p).parts e x → x = p := by
    intro e x he hx
    rw [hh] at he
    cases he
    exact at_unique hx newAt
  have diff : ∀ (r r' : Nat) e e' a, fns[r]? = some e → fns[r']? = some e' → At L.parts e a → At L.parts e' a → r = r' := by
    intro r r' e e' a h1 h2 h3 h4
    have h3 := ((layout_at L e a).1 h3).1
    rw [((layout_at L e' a).1 h4).1] at h3
    exact distinct_key hd h1 h2 (Option.some.inj (Option.some.inj h3)).symm
  have mono : ∀ {a b : Nat}, (if a < p then a else a + 1) < (if b < p then b else b + 1) ↔ a < b := by
    intro a b
    split <;> split <;> omega
  -- misplaced functions
  have mis : ∀ i, i ≠ k → (Misplaced fns (L.insert h p).parts i ↔ Misplaced fns L.parts i) := by
    intro i hi
    constructor
    · rintro ⟨f, a, j, g, b, hf, ha, hij, hg, hb, hlt⟩
      obtain ⟨a0, ha0, rfl⟩ := old i f a hf hi ha
      by_cases hj : j = k
      · subst hj
        have := new g b hg hb
        subst this
        rcases hpl with ⟨rfl, rfl⟩ | ⟨i', q, a1, rfl, hq, hqa, rfl⟩
        · omega
        · have h1 : a1 < a0 := by
            split at hlt <;> omega
          have h2 : i ≠ i' := by
            rintro rfl
            rw [hf] at hq
            cases hq
            have := at_unique ha0 hqa
            omega
          exact ⟨f, a0, i', q, a1, hf, ha0, by omega, hq, hqa, h1⟩
      · obtain ⟨b0, hb0, rfl⟩ := old j g b hg hj hb
        exact ⟨f, a0, j, g, b0, hf, ha0, hij, hg, hb0, mono.1 hlt⟩
    · rintro ⟨f, a, j, g, b, hf, ha, hij, hg, hb, hlt⟩
      exact ⟨f, _, j, g, _, hf, (old' i f a hf ha).2, hij, hg, (old' j g b hg hb).2, mono.2 hlt⟩
  have misNew : ∀ {i' : Nat} {q : HFn} {a1 : Nat}, k = i' + 1 → fns[i']? = some q → At L.parts q a1 → p = a1 + 1 →
      (Misplaced fns (L.insert h p).parts k ↔ Misplaced fns L.parts i') := by
    intro i' q a1 hk hq hqa hp
    constructor
    · rintro ⟨f, a, j, g, b, hf, ha, hij, hg, hb, hlt⟩
      have := new f a hf ha
      subst this
      obtain ⟨b0, hb0, rfl⟩ := old j g b hg (by omega) hb
      have h2 : b0 ≠ a1 := by
        rintro rfl
        have := diff j i' g q b0 hg hq hb0 hqa
        omega
      refine ⟨q, a1, j, g, b0, hq, hqa, by omega, hg, hb0, ?_⟩
      split at hlt <;> omega
    · rintro ⟨f, a, j, g, b, hf, ha, hij, hg, hb, hlt⟩
      rw [hq] at hf
      cases hf
      have := at_unique ha hqa
      subst this
      obtain ⟨hjk, hb'⟩ := old' j g b hg hb
      refine ⟨h, p, j, g, _, hh, newAt, by omega, hg, hb', ?_⟩
      rw [if_pos (by omega)]; omega
  refine ⟨mis, ?_⟩
  rcases id hpl with ⟨rfl, rfl⟩ | ⟨i', q, a1, hk, hq, hqa, hp⟩
  · constructor
    · rintro ⟨f, a, j, g, b, hf, ha, hij, hg, hb, hlt⟩
      have := new f a hf ha
      omega
    · rintro ⟨i, hi, _⟩
      omega
  · rw [misNew hk hq hqa hp]
    constructor
    · exact fun h => ⟨i', hk, h⟩
    · rintro ⟨i, hi, h⟩
      have : i = i' := by omega
      exact this ▸ h

theorem filling_misplaced {skip : Bool} {fns : List HFn} (hd : Distinct fns) {L L' : Layout} {k : Nat} (h : Filling skip fns L k L') (i : Nat) :
    Misplaced fns L'.parts i ↔ ∃ i0, i0 ≤ i ∧ Misplaced fns L.parts i0 ∧ ∀ m, i0 < m → m ≤ i → m < k ∧ ∃ f, fns[m]? = some f ∧ Reported skip L f := by
  induction h generalizing i with
  | start =>
    constructor
    · exact fun h => ⟨i, Nat.le_refl i, h, fun m h1 h2 => by omega⟩
    · rintro ⟨i0, h1, h2, h3⟩
      have : i0 = i := Decidable.byContradiction fun hne => by
        have := (h3 i (by omega) (Nat.le_refl i)).1
        omega
      exact this ▸ h2
  | @insert k L' f p hfl hf hr hpl ih =>
    have hnew : ¬ Present L'.parts f := by
      intro hp
      rw [layout_present] at hp
      rcases filling_keys hfl _ hp with h | ⟨i, g, hi, hg, e⟩
      · exact hr.1 ((layout_present L f).2 h)
      · have := distinct_key hd hf hg (Option.some.inj e)
        omega
    have hst := misplaced_step hd hf hnew hpl
    by_cases hik : i = k
    · subst hik
      rw [hst.2]
      constructor
      · rintro ⟨i', rfl, hm⟩
        obtain ⟨i0, h1, h2, h3⟩ := (ih i').1 hm
        refine ⟨i0, by omega, h2, fun m h4 h5 => ?_⟩
        by_cases hm' : m = i' + 1
        · subst hm'; exact ⟨by omega, f, hf, hr⟩
        · have := h3 m h4 (by omega)
          exact ⟨by omega, this.2⟩
      · rintro ⟨i0, h1, h2, h3⟩
        have hne : i0 ≠ i := by
          rintro rfl
          obtain ⟨g, a, _, _, _, hg, ha, _⟩ := h2
          rw [hf] at hg
          cases hg
          exact hr.1 (at_present ha)
        refine ⟨i - 1, by omega, (ih (i - 1)).2 ⟨i0, by omega, h2, fun m h4 h5 => ?_⟩⟩
        exact ⟨by omega, (h3 m h4 (by omega)).2⟩
    · rw [hst.1 i hik, ih]
      constructor
      · rintro ⟨i0, h1, h2, h3⟩
        exact ⟨i0, h1, h2, fun m h4 h5 => ⟨by have := (h3 m h4 h5).1; omega, (h3 m h4 h5).2⟩⟩
      · rintro ⟨i0, h1, h2, h3⟩
        refine ⟨i0, h1, h2, fun m h4 h5 => ⟨?_, (h3 m h4 h5).2⟩⟩
        have := (h3 i (by omega) (Nat.le_refl i)).1
        omega
  | @keep k L' f _ hf hr ih =>
    rw [ih]
    constructor
    · rintro ⟨i0, h1, h2, h3⟩
      exact ⟨i0, h1, h2, fun m h4 h5 => ⟨by have := (h3 m h4 h5).1; omega, (h3 m h4 h5).2⟩⟩
    · rintro ⟨i0, h1, h2, h3⟩
      refine ⟨i0, h1, h2, fun m h4 h5 => ⟨?_, (h3 m h4 h5).2⟩⟩
      obtain ⟨h6, g, hg, hgr⟩ := h3 m h4 h5
      have : m ≠ k := by
        rintro rfl
        rw [hf] at hg
        cases hg
        exact hr hgr
      omega

/-- After everything is filled in. -/
theorem filled_misplaced {skip : Bool} {fns : List HFn} (hd : Distinct fns) {L L' : Layout} (h : Filling skip fns L fns.length L') (i : Nat) :
    Misplaced fns L'.parts i ↔ ToMove skip fns L i := by
  rw [filling_misplaced hd h]
  constructor
  · rintro ⟨i0, h1, h2, h3⟩
    exact ⟨i0, h1, h2, fun m h4 h5 => (h3 m h4 h5).2⟩
  · rintro ⟨i0, h1, h2, h3⟩
    refine ⟨i0, h1, h2, fun m h4 h5 => ⟨?_, h3 m h4 h5⟩⟩
    obtain ⟨f, hf, _⟩ := h3 m h4 h5
    exact (List.getElem?_eq_some_iff.1 hf).1

/-- Moving an element behind the end fails. -/
theorem moves_panic {α : Type} {l : List α} : ∀ {ps : List (Nat × Nat)} {cur : List α}, cur.length = l.length →
    (∀ p ∈ ps, p.2 < l.length) → (∃ p ∈ ps, l.length ≤ p.1) → movesFrom l ps cur = .panic
  | [], _, _, _, ⟨_, h, _⟩ => nomatch h
  | (i, a) :: ps, cur, hl, ha, hex => by
    have h1 := ha (i, a) (by simp)
    simp only at h1
    rw [movesFrom, List.getElem?_eq_getElem h1]
    simp only
    have hlen : (cur.eraseIdx a).length = cur.length - 1 := by
      rw [List.length_eraseIdx, if_pos (by omega)]
    unfold moveTo
    rw [if_pos (by omega)]
    simp only
    by_cases hi : i ≤ (cur.eraseIdx a).length
    · rw [if_pos hi, Res.bind_ok]
      refine moves_panic ?_ (fun p hp => ha p (by simp [hp])) ?_
      · rw [List.length_insertIdx, if_pos hi]; omega
      · obtain ⟨p, hp, hle⟩ := hex
        rcases List.mem_cons.1 hp with rfl | hp
        · simp only at hle; omega
        · exact ⟨p, hp, hle⟩
    · rw [if_neg hi]; rfl

end Bulloak
