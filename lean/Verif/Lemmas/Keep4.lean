import Verif.Lemmas.Keep3
/-! # Lemmas about fixing: what filling in functions does to the order -/

namespace Bulloak
open Spec
set_option linter.unusedSectionVars false
variable [U : Ucd]

theorem parts_get (L : Layout) (z : Nat) : ∃ o, L.parts[z]? = (L.segs[z]?).map (fun p => p.1.at o) := partsFrom_get _ _ _

/-- In terms of keys. -/
theorem foreign_key {fns : List HFn} (L : Layout) (z : Nat) : (∃ p, L.parts[z]? = some p ∧ ∀ f ∈ fns, ¬ Matches f p) ↔
    ∃ x, L.keys[z]? = some x ∧ ∀ f ∈ fns, x ≠ some (fnKey f) := by
  obtain ⟨o, ho⟩ := parts_get L z
  rw [ho]
  have e : L.keys[z]? = (L.segs[z]?).map (fun p => p.1.key) := by simp [Layout.keys]
  rw [e]
  cases L.segs[z]? with
  | none => simp
  | some q =>
    simp only [Option.map_some, Option.some.injEq, exists_eq_left']
    constructor <;> intro h f hf <;> have := h f hf
    · rwa [matches_at] at this
    · rwa [matches_at]

theorem blocked_key {fns : List HFn} (L : Layout) : Blocked fns L.parts ↔
    ∃ i h f a z x, i < h ∧ Misplaced fns L.parts h ∧ ¬ Misplaced fns L.parts i ∧ fns[i]? = some f ∧ At L.parts f a ∧
      z < a ∧ L.keys[z]? = some x ∧ ∀ f ∈ fns, x ≠ some (fnKey f) := by
  constructor
  · rintro ⟨i, h, f, a, z, p, h1, h2, h3, h4, h5, h6, h7⟩
    obtain ⟨x, hx⟩ := (foreign_key L z).1 ⟨p, h7⟩
    exact ⟨i, h, f, a, z, x, h1, h2, h3, h4, h5, h6, hx⟩
  · rintro ⟨i, h, f, a, z, x, h1, h2, h3, h4, h5, h6, h7⟩
    obtain ⟨p, hp⟩ := (foreign_key L z).2 ⟨x, h7⟩
    exact ⟨i, h, f, a, z, p, h1, h2, h3, h4, h5, h6, hp⟩

theorem blocked_step {fns : List HFn} (hd : Distinct fns) {L : Layout} {k p : Nat} {h : HFn} (hh : fns[k]? = some h)
    (hnew : ¬ Present L.parts h) (hpl : Place fns L k p) : Blocked fns (L.insert h p).parts ↔ Blocked fns L.parts := by
  have hle := place_le hpl
  have hlk : p ≤ L.keys.length := by rw [keys_length]; exact hle
  have hnotat : ∀ a, ¬ At L.parts h a := fun a ha => hnew (at_present ha)
  rw [layout_present] at hnew
  -- positions
  have old : ∀ (r : Nat) e x, fns[r]? = some e → r ≠ k → At (L.insert h p).parts e x →
      ∃ a, At L.parts e a ∧ x = if a < p then a else a + 1 := by
    intro r e x he hr hx
    rw [layout_at, insert_keys _ _ _ hle] at hx
    have hne : some (fnKey h) ≠ some (fnKey e) := fun e' => hr (distinct_key hd he hh (Option.some.inj e').symm)
    obtain ⟨a, ha, hxa⟩ := kat_insert_iff hlk hne hx
    exact ⟨a, (layout_at L e a).2 ha, hxa⟩
  have old' : ∀ (r : Nat) e a, fns[r]? = some e → At L.parts e a → r ≠ k ∧ At (L.insert h p).parts e (if a < p then a else a + 1) := by
    intro r e a he ha
    have hr : r ≠ k := by
      rintro rfl
      rw [hh] at he
      cases he
      exact hnotat a ha
    have hne : some (fnKey h) ≠ some (fnKey e) := fun e' => hr (distinct_key hd he hh (Option.some.inj e').symm)
    refine ⟨hr, ?_⟩
    rw [layout_at, insert_keys _ _ _ hle]
    exact kat_insert_ne ((layout_at L e a).1 ha) hlk hne
  have newAt : At (L.insert h p).parts h p := by
    rw [layout_at, insert_keys _ _ _ hle]
    exact kat_insert_new hnew hlk
  have new : ∀ e x, fns[k]? = some e → At (L.insert h p).parts e x → x = p := by
    intro e x he hx
    rw [hh] at he
    cases he
    exact at_unique hx newAt
  have diff : ∀ (r r' : Nat) e e' a, fns[r]? = some e → fns[r']? = some e' → At L.parts e a → At L.parts e' a → r = r' := by
    intro r r' e e' a h1 h2 h3 h4
    have h3 := ((layout_at L e a).1 h3).1
    rw [((layout_at L e' a).1 h4).1] at h3
    exact distinct_key hd h1 h2 (Option.some.inj (Option.some.inj h3)).symm
  have mono : ∀ {a b : Nat}, (if a < p then a else a + 1) < (if b < p then b else b + 1) ↔ a < b := by
    intro a b
    split <;> split <;> omega
  -- misplaced functions
  have mis : ∀ i, i ≠ k → (Misplaced fns (L.insert h p).parts i ↔ Misplaced fns L.parts i) := by
    intro i hi
    constructor
    · rintro ⟨f, a, j, g, b, hf, ha, hij, hg, hb, hlt⟩
      obtain ⟨a0, ha0, rfl⟩ := old i f a hf hi ha
      by_cases hj : j = k
      · subst hj
        have := new g b hg hb
        subst this
        rcases hpl with ⟨rfl, rfl⟩ | ⟨i', q, a1, rfl, hq, hqa, rfl⟩
        · omega
        · have h1 : a1 < a0 := by
            split at hlt <;> omega
          have h2 : i ≠ i' := by
            rintro rfl
            rw [hf] at hq
            cases hq
            have := at_unique ha0 hqa
            omega
          exact ⟨f, a0, i', q, a1, hf, ha0, by omega, hq, hqa, h1⟩
      · obtain ⟨b0, hb0, rfl⟩ := old j g b hg hj hb
        exact ⟨f, a0, j, g, b0, hf, ha0, hij, hg, hb0, mono.1 hlt⟩
    · rintro ⟨f, a, j, g, b, hf, ha, hij, hg, hb, hlt⟩
      exact ⟨f, _, j, g, _, hf, (old' i f a hf ha).2, hij, hg, (old' j g b hg hb).2, mono.2 hlt⟩
  have misNew : ∀ {i' : Nat} {q : HFn} {a1 : Nat}, k = i' + 1 → fns[i']? = some q → At L.parts q a1 → p = a1 + 1 →
      (Misplaced fns (L.insert h p).parts k ↔ Misplaced fns L.parts i') := by
    intro i' q a1 hk hq hqa hp
    constructor
    · rintro ⟨f, a, j, g, b, hf, ha, hij, hg, hb, hlt⟩
      have := new f a hf ha
      subst this
      obtain ⟨b0, hb0, rfl⟩ := old j g b hg (by omega) hb
      have h2 : b0 ≠ a1 := by
        rintro rfl
        have := diff j i' g q b0 hg hq hb0 hqa
        omega
      refine ⟨q, a1, j, g, b0, hq, hqa, by omega, hg, hb0, ?_⟩
      split at hlt <;> omega
    · rintro ⟨f, a, j, g, b, hf, ha, hij, hg, hb, hlt⟩
      rw [hq] at hf
      cases hf
      have := at_unique ha hqa
      subst this
      obtain ⟨hjk, hb'⟩ := old' j g b hg hb
      refine ⟨h, p, j, g, _, hh, newAt, by omega, hg, hb', ?_⟩
      rw [if_pos (by omega)]; omega
  rw [blocked_key, blocked_key]
  -- other parts
  have keyNew : ∀ z x, (L.insert h p).keys[z]? = some x → (∀ f ∈ fns, x ≠ some (fnKey f)) →
      ∃ z0, L.keys[z0]? = some x ∧ z = if z0 < p then z0 else z0 + 1 := by
    intro z x hz hx
    rw [insert_keys _ _ _ hle, List.getElem?_insertIdx] at hz
    split at hz
    · exact ⟨z, hz, by rw [if_pos (by assumption)]⟩
    · split at hz
      · split at hz
        · cases hz
          exact absurd rfl (hx h (List.mem_of_getElem? hh))
        · cases hz
      · exact ⟨z - 1, hz, by rw [if_neg (by omega)]; omega⟩
  have keyOld : ∀ z x, L.keys[z]? = some x → (L.insert h p).keys[if z < p then z else z + 1]? = some x := by
    intro z x hz
    rw [insert_keys _ _ _ hle, List.getElem?_insertIdx]
    by_cases hzp : z < p
    · rw [if_pos hzp, if_pos hzp]; exact hz
    · rw [if_neg hzp, if_neg (by omega), if_neg (by omega)]
      exact hz
  constructor
  · rintro ⟨i, m, f, a, z, x, him, hm, hni, hf, ha, hza, hz, hx⟩
    obtain ⟨z0, hz0, rfl⟩ := keyNew z x hz hx
    by_cases hi : i = k
    · subst hi
      have := new f a hf ha
      subst this
      rcases id hpl with ⟨rfl, rfl⟩ | ⟨i', q, a1, hk, hq, hqa, hp⟩
      · omega
      · rw [misNew hk hq hqa hp] at hni
        have hne : z0 ≠ a1 := by
          rintro rfl
          have := ((layout_at L q z0).1 hqa).1
          rw [hz0] at this
          exact hx q (List.mem_of_getElem? hq) (Option.some.inj this)
        refine ⟨i', m, q, a1, z0, x, by omega, (mis m (by omega)).1 hm, hni, hq, hqa, ?_, hz0, hx⟩
        split at hza <;> omega
    · rw [mis i hi] at hni
      obtain ⟨a0, ha0, rfl⟩ := old i f a hf hi ha
      by_cases hmk : m = k
      · subst hmk
        rcases id hpl with ⟨rfl, rfl⟩ | ⟨i', q, a1, hk, hq, hqa, hp⟩
        · omega
        · rw [misNew hk hq hqa hp] at hm
          have : i ≠ i' := fun e => hni (e ▸ hm)
          exact ⟨i, i', f, a0, z0, x, by omega, hm, hni, hf, ha0, mono.1 hza, hz0, hx⟩
      · exact ⟨i, m, f, a0, z0, x, him, (mis m hmk).1 hm, hni, hf, ha0, mono.1 hza, hz0, hx⟩
  · rintro ⟨i, m, f, a, z, x, him, hm, hni, hf, ha, hza, hz, hx⟩
    obtain ⟨hi, ha'⟩ := old' i f a hf ha
    have hmk : m ≠ k := by
      obtain ⟨g, b, _, _, _, hg, hb, _⟩ := id hm
      exact (old' m g b hg hb).1
    exact ⟨i, m, f, _, _, x, him, (mis m hmk).2 hm, fun h => hni ((mis i hi).1 h), hf, ha', mono.2 hza, keyOld z x hz, hx⟩

theorem filling_keys {skip : Bool} {fns : List HFn} {L L' : Layout} {k : Nat} (h : Filling skip fns L k L') :
    ∀ x ∈ L'.keys, x ∈ L.keys ∨ ∃ i g, i < k ∧ fns[i]? = some g ∧ x = some (fnKey g) := by
  induction h with
  | start => exact fun x hx => .inl hx
  | @insert k L' f p _ hf _ hpl ih =>
    intro x hx
    rw [insert_keys _ _ _ (place_le hpl), List.mem_insertIdx (by rw [keys_length]; exact place_le hpl)] at hx
    rcases hx with rfl | hx
    · exact .inr ⟨k, f, by omega, hf, rfl⟩
    · rcases ih x hx with h | ⟨i, g, h1, h2⟩
      · exact .inl h
      · exact .inr ⟨i, g, by omega, h2⟩
  | keep _ _ _ ih =>
    intro x hx
    rcases ih x hx with h | ⟨i, g, h1, h2⟩
    · exact .inl h
    · exact .inr ⟨i, g, by omega, h2⟩

/-- Filling in functions blocks nothing and frees nothing. -/
theorem filling_blocked {skip : Bool} {fns : List HFn} (hd : Distinct fns) {L L' : Layout} {k : Nat} (h : Filling skip fns L k L') :
    Blocked fns L'.parts ↔ Blocked fns L.parts := by
  induction h with
  | start => exact Iff.rfl
  | @insert k L' f p hfl hf hr hpl ih =>
    rw [← ih]
    apply blocked_step hd hf _ hpl
    intro hp
    rw [layout_present] at hp
    rcases filling_keys hfl _ hp with h | ⟨i, g, hi, hg, e⟩
    · exact hr.1 ((layout_present L f).2 h)
    · have := distinct_key hd hf hg (Option.some.inj e)
      omega
  | keep _ _ _ ih => exact ih

theorem filling_gaps {skip : Bool} {fns : List HFn} {L L' : Layout} {k : Nat} (h : Filling skip fns L k L') : ∀ g ∈ L.gaps, g ∈ L'.gaps := by
  have after : ∀ (f : HFn) (k : Nat) (l : List (Seg × Str)), ∀ g ∈ l.map Prod.snd, g ∈ (insertAfter f k l).map Prod.snd := by
    intro f k l
    induction l generalizing k with
    | nil => intro g hg; cases hg
    | cons x l ih =>
      obtain ⟨s, g⟩ := x
      intro g' hg'
      cases k with
      | zero =>
        rw [List.map_cons, List.mem_cons] at hg'
        rcases hg' with rfl | hg'
        · simp [insertAfter]
        · simp only [insertAfter, List.map_cons, List.mem_cons]; exact .inr (.inr hg')
      | succ k =>
        rw [List.map_cons, List.mem_cons] at hg'
        rw [insertAfter, List.map_cons, List.mem_cons]
        exact hg'.imp id (ih k g')
  induction h with
  | start => exact fun g hg => hg
  | @insert k L' f p _ _ _ _ ih =>
    intro g hg
    have := ih g hg
    cases p with
    | zero =>
      simp only [Layout.gaps, List.mem_cons, Layout.insert, List.map_cons] at this ⊢
      exact .inr this
    | succ p =>
      simp only [Layout.gaps, List.mem_cons, Layout.insert] at this ⊢
      exact this.imp id (after f p L'.segs g)
  | keep _ _ _ ih => exact ih

end Bulloak
