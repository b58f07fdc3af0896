import Verif.Spec.Keep
import Verif.Lemmas.Keep
import Verif.Lemmas.Occ
/-! # Lemmas about fixing: what sorting writes if there are other parts -/

namespace Bulloak
open Spec
set_option linter.unusedSectionVars false

/-- What is in front of the first part that is not blanked out. -/
def leadGap (B : Nat → Bool) : Nat → List (Seg × Str) → Str
  | _, [] => []
  | k, (s, g) :: r => if B k then spaces (byteLen s.text) ++ (g ++ leadGap B (k + 1) r) else []

/-- The parts that are not blanked out. -/
def remaining (B : Nat → Bool) : Nat → List (Seg × Str) → List (Seg × Str)
  | _, [] => []
  | k, (s, g) :: r => if B k then remaining B (k + 1) r else (s, g ++ leadGap B (k + 1) r) :: remaining B (k + 1) r

theorem blanked_remaining (B : Nat → Bool) (l : List (Seg × Str)) : ∀ k, blanked B k l = leadGap B k l ++ segsText (remaining B k l) := by
  induction l with
  | nil => intro k; rfl
  | cons p l ih =>
    obtain ⟨s, g⟩ := p
    intro k
    rw [blanked, leadGap, remaining, ih]
    by_cases h : B k = true
    · simp [h]
    · simp [h, segsText]

theorem remaining_map (B : Nat → Bool) (l : List (Seg × Str)) : ∀ k, (remaining B k l).map Prod.fst =
    (List.range l.length).filterMap (fun j => if B (k + j) then none else (l[j]?).map Prod.fst) := by
  induction l with
  | nil => intro k; rfl
  | cons p l ih =>
    obtain ⟨s, g⟩ := p
    intro k
    have e : (List.range ((s, g) :: l).length).filterMap (fun j => if B (k + j) then none else (((s, g) :: l)[j]?).map Prod.fst) =
        (if B k then [] else [s]) ++ (List.range l.length).filterMap (fun j => if B (k + 1 + j) then none else (l[j]?).map Prod.fst) := by
      rw [List.length_cons, List.range_succ_eq_map, List.filterMap_cons, List.filterMap_map]
      have : ((fun j => if B (k + j) then none else (((s, g) :: l)[j]?).map Prod.fst) ∘ Nat.succ) =
          fun j => if B (k + 1 + j) then none else (l[j]?).map Prod.fst := by
        funext j
        simp only [Function.comp, Nat.succ_eq_add_one, List.getElem?_cons_succ]
        rw [show k + (j + 1) = k + 1 + j by omega]
      rw [this]
      by_cases h : B k = true <;> simp [h]
    rw [e, ← ih, remaining]
    by_cases h : B k = true <;> simp [h]

/-- Where a gap ends up. -/
theorem gap_kept (B : Nat → Bool) (l : List (Seg × Str)) : ∀ k, ∀ p ∈ l, p.2 <:+: leadGap B k l ∨ ∃ q ∈ remaining B k l, p.2 <:+: q.2 := by
  induction l with
  | nil => intro k p hp; cases hp
  | cons x l ih =>
    obtain ⟨s, g⟩ := x
    intro k p hp
    rw [leadGap, remaining]
    by_cases h : B k = true
    · rw [if_pos h, if_pos h]
      rcases List.mem_cons.1 hp with rfl | hp
      · exact .inl ⟨spaces (byteLen s.text), leadGap B (k + 1) l, by simp⟩
      · rcases ih (k + 1) p hp with ⟨a, b, e⟩ | h
        · exact .inl ⟨spaces (byteLen s.text) ++ (g ++ a), b, by rw [← e]; simp⟩
        · exact .inr h
    · rw [if_neg h, if_neg h]
      rcases List.mem_cons.1 hp with rfl | hp
      · exact .inr ⟨(s, g ++ leadGap B (k + 1) l), by simp, [], leadGap B (k + 1) l, by simp⟩
      · rcases ih (k + 1) p hp with ⟨a, b, e⟩ | ⟨q, hq, h⟩
        · exact .inr ⟨(s, g ++ leadGap B (k + 1) l), by simp, g ++ a, b, by simp only [← e]; simp⟩
        · exact .inr ⟨q, by simp [hq], h⟩

/-- A declaration that is not blanked out occurs as often as before, at most. -/
theorem blanked_occ_of {d : Str} (h1 : ∀ u v, d = u ++ ' ' :: v → ∃ c w, v = c :: w ∧ c ≠ ' ') (h2 : d.head? ≠ some ' ') (hd : d ≠ []) (B : Nat → Bool)
    {l : List (Seg × Str)} : ∀ (k : Nat) (x y : Str), (∀ j p, l[j]? = some p → B (k + j) = true → 2 ≤ byteLen p.1.text) →
    occ d (x ++ (blanked B k l ++ y)) ≤ occ d (x ++ (segsText l ++ y)) := by
  induction l with
  | nil => intro k x y _; exact Nat.le_refl _
  | cons p l ih =>
    obtain ⟨s, g⟩ := p
    intro k x y hl
    have ih := fun x' y' => ih (k + 1) x' y' fun j p hp hB => hl (j + 1) p (by simpa using hp) (by rw [← Nat.add_assoc, Nat.add_right_comm]; exact hB)
    have e : segsText ((s, g) :: l) = s.text ++ (g ++ segsText l) := by simp [segsText]
    rw [blanked, e]
    by_cases hb : B k = true
    · rw [if_pos hb]
      simp only [List.append_assoc]
      rw [occ_spaces h1 h2 hd (hl 0 (s, g) rfl (by simpa using hb))]
      have h3 := ih g y
      have h4 := occ_super d x (s.text ++ (g ++ (segsText l ++ y)))
      have h5 := occ_super d s.text (g ++ (segsText l ++ y))
      omega
    · rw [if_neg hb]
      have := ih (x ++ (s.text ++ g)) y
      simpa only [List.append_assoc] using this

/-- The part begins with something that occurs once in the file. -/
def Marked (L : Layout) (k : Nat) : Prop :=
  ∃ s g d, L.segs[k]? = some (s, g) ∧ d <+: s.text ∧ d ≠ [] ∧ 2 ≤ d.length ∧ d.head? ≠ some ' ' ∧
    (∀ u v, d = u ++ ' ' :: v → ∃ c w, v = c :: w ∧ c ≠ ' ') ∧ occ d L.text ≤ 1

theorem marked_len {L : Layout} {k : Nat} (h : Marked L k) {p : Seg × Str} (hp : L.segs[k]? = some p) : 2 ≤ byteLen p.1.text := by
  obtain ⟨s, g, d, h1, h2, _, h3, _⟩ := h
  rw [h1] at hp
  cases hp
  have := h2.length_le
  have := @byteLen_ge asciiUcd s.text
  simp only
  omega

/-- Blanking out a part, perhaps again. -/
theorem replace_marked (L : Layout) {B : Nat → Bool} (hB : ∀ k, B k = true → Marked L k) {k : Nat} (hk : Marked L k) {s : Seg × Str}
    (hs : L.segs[k]? = some s) : replaceAll s.1.text (spaces (byteLen s.1.text)) (L.front ++ (blanked B 0 L.segs ++ '}' :: L.rest)) =
      L.front ++ (blanked (fun j => B j || j == k) 0 L.segs ++ '}' :: L.rest) := by
  obtain ⟨s0, g, d, h1, h2, h3, h4, h5, h6, h7⟩ := id hk
  rw [h1] at hs
  cases hs
  have hsp := split_at h1
  have hlen : (L.segs.take k).length = k := by
    have := (List.getElem?_eq_some_iff.1 h1).1
    simp; omega
  have e0 : ∀ C : Nat → Bool, blanked C 0 L.segs =
      blanked C 0 (L.segs.take k) ++ ((if C k then spaces (byteLen s0.text) else s0.text) ++ (g ++ blanked C (k + 1) (L.segs.drop (k + 1)))) := by
    intro C
    conv => lhs; rw [hsp]
    rw [blanked_append, blanked]
    simp only [Nat.zero_add, hlen]
  have e2 : blanked (fun j => B j || j == k) 0 L.segs =
      blanked B 0 (L.segs.take k) ++ (spaces (byteLen s0.text) ++ (g ++ blanked B (k + 1) (L.segs.drop (k + 1)))) := by
    rw [e0]
    simp only [beq_self_eq_true, Bool.or_true, if_true]
    rw [blanked_congr (B' := B) (L.segs.take k) 0, blanked_congr (B' := B) (L.segs.drop (k + 1)) (k + 1)]
    · intro j h1 h2
      simp only [Bool.or_eq_left_iff_imp, beq_iff_eq]; omega
    · intro j h1 h2
      rw [hlen] at h2
      simp only [Bool.or_eq_left_iff_imp, beq_iff_eq]; omega
  have hocc : occ d ((L.front ++ blanked B 0 (L.segs.take k)) ++ (s0.text ++ (g ++ (blanked B (k + 1) (L.segs.drop (k + 1)) ++ '}' :: L.rest)))) ≤ 1 := by
    have et : L.text = L.front ++ (segsText (L.segs.take k) ++ (s0.text ++ (g ++ (segsText (L.segs.drop (k + 1)) ++ '}' :: L.rest)))) := by
      unfold Layout.text
      conv => lhs; rw [hsp]
      rw [segsText_append]
      simp [segsText]
    have a1 := blanked_occ_of h6 h5 h3 B (l := L.segs.take k) 0 L.front (s0.text ++ (g ++ (segsText (L.segs.drop (k + 1)) ++ '}' :: L.rest))) (by
      intro j p hp hBj
      rw [List.getElem?_take] at hp
      split at hp
      · exact marked_len (hB _ hBj) (by rw [Nat.zero_add]; exact hp)
      · cases hp)
    have a2 := blanked_occ_of h6 h5 h3 B (l := L.segs.drop (k + 1)) (k + 1) (L.front ++ (blanked B 0 (L.segs.take k) ++ (s0.text ++ g))) ('}' :: L.rest) (by
      intro j p hp hBj
      rw [List.getElem?_drop] at hp
      exact marked_len (hB _ hBj) hp)
    rw [← et] at a1
    simp only [List.append_assoc] at a1 a2 ⊢
    omega
  have hne : s0.text ≠ [] := by
    intro e
    rw [e] at h2
    exact h3 (List.prefix_nil.1 h2)
  rw [e2, e0 B]
  simp only
  by_cases hb : B k = true
  · rw [if_pos hb]
    apply replaceAll_none
    intro a b e
    have hp : d <:+: L.front ++ (blanked B 0 (L.segs.take k) ++ (spaces (byteLen s0.text) ++ (g ++ blanked B (k + 1) (L.segs.drop (k + 1)))) ++ '}' :: L.rest) := by
      obtain ⟨w, hw⟩ := h2
      exact ⟨a, w ++ b, by rw [e, ← hw]; simp⟩
    have h8 : 0 < occ d (L.front ++ (blanked B 0 (L.segs.take k) ++ (spaces (byteLen s0.text) ++ (g ++ blanked B (k + 1) (L.segs.drop (k + 1)))) ++ '}' :: L.rest)) := by
      obtain ⟨x, y, e⟩ := hp
      have a1 := occ_super d x (d ++ y)
      have a2 := occ_front h3 (List.prefix_append d y)
      rw [← e, List.append_assoc]
      omega
    have h9 := occ_spaces h6 h5 h3 (marked_len hk h1) (L.front ++ blanked B 0 (L.segs.take k)) (g ++ (blanked B (k + 1) (L.segs.drop (k + 1)) ++ '}' :: L.rest))
    have h10 := occ_super d (L.front ++ blanked B 0 (L.segs.take k)) (s0.text ++ (g ++ (blanked B (k + 1) (L.segs.drop (k + 1)) ++ '}' :: L.rest)))
    have h11 := occ_super d s0.text (g ++ (blanked B (k + 1) (L.segs.drop (k + 1)) ++ '}' :: L.rest))
    have h12 := occ_front h3 h2
    simp only [List.append_assoc] at h8 h9 h10 h11 hocc
    omega
  · rw [if_neg hb]
    have := replaceAll_once (spaces (byteLen s0.text)) hne (once_of_occ h3 h2 hocc)
    simp only [List.append_assoc] at this ⊢
    exact this

/-- Step 4 of the order fix, functions perhaps repeated. -/
theorem collect_marked (L : Layout) : ∀ (qs : List Nat) (B : Nat → Bool) (acc : List Str), (∀ k, B k = true → Marked L k) →
    (∀ k ∈ qs, Marked L k) →
    collectTexts L.text (qs.filterMap (L.parts[·]?)) (L.front ++ (blanked B 0 L.segs ++ '}' :: L.rest)) acc =
      .ok (acc ++ (qs.filterMap (fun k => (L.segs[k]?).map Prod.fst)).map Seg.text,
        L.front ++ (blanked (fun j => B j || decide (j ∈ qs)) 0 L.segs ++ '}' :: L.rest)) := by
  intro qs
  induction qs with
  | nil => intro B acc _ _; simp [collectTexts]
  | cons k ks ih =>
    intro B acc hB hq
    have hk := hq k (by simp)
    obtain ⟨s, g, d, hs', _⟩ := id hk
    obtain ⟨p, hp, hsl⟩ := slice_part L hs'
    rw [List.filterMap_cons, hp]
    simp only [collectTexts, hsl]
    rw [replace_marked L hB hk hs', ih]
    · rw [List.filterMap_cons]
      simp only [hs', Option.map_some, List.map_cons, List.append_assoc, List.singleton_append]
      congr 5
      funext j
      simp only [List.mem_cons]
      rw [Bool.or_assoc]
      congr 1
      by_cases h : j = k <;> simp [h]
    · intro j hj
      rw [Bool.or_eq_true, beq_iff_eq] at hj
      rcases hj with h | rfl
      · exact hB j h
      · exact hk
    · exact fun j hj => hq j (by simp [hj])

theorem eraseIdx_map' {α β : Type} (f : α → β) : ∀ (l : List α) (a : Nat), (l.map f).eraseIdx a = (l.eraseIdx a).map f
  | [], _ => by simp
  | _ :: _, 0 => by simp
  | x :: l, a + 1 => by simp [eraseIdx_map' f l a]

theorem insertIdx_map' {α β : Type} (f : α → β) : ∀ (l : List α) (a : Nat) (x : α), (l.map f).insertIdx a (f x) = (l.insertIdx a x).map f
  | [], 0, _ => by simp
  | [], _ + 1, _ => by simp
  | _ :: _, 0, _ => by simp
  | y :: l, a + 1, x => by simp [insertIdx_map' f l a x]

/-- Moving indices and moving parts. -/
theorem moves_map {α β : Type} (f : α → β) {l : List α} : ∀ (ps : List (Nat × Nat)) (cur r : List α), movesFrom l ps cur = .ok r →
    movesFrom (l.map f) ps (cur.map f) = .ok (r.map f)
  | [], cur, r, h => by cases h; rfl
  | (i, a) :: ps, cur, r, h => by
    rw [movesFrom] at h ⊢
    rw [List.getElem?_map]
    cases hx : l[a]? with
    | none => rw [hx] at h; cases h
    | some x =>
      rw [hx] at h
      simp only [Option.map_some]
      simp only at h
      unfold moveTo at h ⊢
      rw [List.length_map]
      split at h
      · rename_i h1
        rw [if_pos h1]
        simp only at h ⊢
        rw [show ((cur.map f).eraseIdx a) = (cur.eraseIdx a).map f from (eraseIdx_map' f cur a), List.length_map]
        split at h
        · rename_i h2
          rw [if_pos h2]
          simp only [Res.bind_ok] at h ⊢
          rw [insertIdx_map' f]
          exact moves_map f ps _ r h
        · cases h
      · cases h

end Bulloak
