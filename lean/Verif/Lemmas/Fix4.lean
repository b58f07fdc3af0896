import Verif.Lemmas.Fix3
/-! # Lemmas about fixing: the text of the reordered file -/

namespace Bulloak
open Spec
set_option linter.unusedSectionVars false

theorem each_get {α β : Type} {R : α → β → Prop} {as : List α} {bs : List β} (h : Each R as bs) {i : Nat} {a : α}
    (ha : as[i]? = some a) : ∃ b, bs[i]? = some b ∧ R a b := by
  induction h generalizing i with
  | nil => simp at ha
  | cons h _ ih =>
    cases i with
    | zero => simp only [List.getElem?_cons_zero, Option.some.injEq] at ha; subst ha; exact ⟨_, rfl, h⟩
    | succ i => simpa using ih (by simpa using ha)

theorem each_get' {α β : Type} {R : α → β → Prop} {as : List α} {bs : List β} (h : Each R as bs) {i : Nat} {b : β}
    (hb : bs[i]? = some b) : ∃ a, as[i]? = some a ∧ R a b := by
  induction h generalizing i with
  | nil => simp at hb
  | cons h _ ih =>
    cases i with
    | zero => simp only [List.getElem?_cons_zero, Option.some.injEq] at hb; subst hb; exact ⟨_, rfl, h⟩
    | succ i => simpa using ih (by simpa using hb)

theorem each_len {α β : Type} {R : α → β → Prop} {as : List α} {bs : List β} (h : Each R as bs) : as.length = bs.length := by
  induction h with
  | nil => rfl
  | cons _ _ ih => simp [ih]

theorem each_exists {α β : Type} {R : α → β → Prop} {as : List α} (h : ∀ a ∈ as, ∃ b, R a b) : ∃ bs, Each R as bs := by
  induction as with
  | nil => exact ⟨[], .nil⟩
  | cons a as ih =>
    obtain ⟨b, hb⟩ := h a (by simp)
    obtain ⟨bs, hbs⟩ := ih (fun x hx => h x (by simp [hx]))
    exact ⟨b :: bs, .cons hb hbs⟩

theorem range_filterMap {α : Type} (l : List α) : (List.range l.length).filterMap (l[·]?) = l := by
  induction l with
  | nil => rfl
  | cons x l ih =>
    rw [List.length_cons, List.range_succ_eq_map, List.filterMap_cons]
    simp only [List.getElem?_cons_zero, List.filterMap_map, Function.comp_def, Nat.succ_eq_add_one, List.getElem?_cons_succ]
    rw [ih]

theorem segsText_append (a b : List (Seg × Str)) : segsText (a ++ b) = segsText a ++ segsText b := by simp [segsText]

theorem blanked_append (B : Nat → Bool) (a b : List (Seg × Str)) : ∀ k,
    blanked B k (a ++ b) = blanked B k a ++ blanked B (k + a.length) b := by
  induction a with
  | nil => intro k; simp [blanked]
  | cons p a ih =>
    intro k
    obtain ⟨s, g⟩ := p
    simp only [List.cons_append, blanked, ih, List.length_cons, List.append_assoc]
    rw [show k + 1 + a.length = k + (a.length + 1) by omega]

theorem blanked_congr {B B' : Nat → Bool} (a : List (Seg × Str)) : ∀ k, (∀ j, k ≤ j → j < k + a.length → B j = B' j) →
    blanked B k a = blanked B' k a := by
  induction a with
  | nil => intro k _; rfl
  | cons p a ih =>
    intro k h
    obtain ⟨s, g⟩ := p
    simp only [blanked]
    rw [h k (by omega) (by simp), ih (k + 1) (fun j h1 h2 => h j (by omega) (by simp; omega))]

theorem byteLen_spaces (n : Nat) : byteLen (spaces n) = n := by
  induction n with
  | zero => rfl
  | succ n ih =>
    rw [show spaces (n + 1) = ' ' :: spaces n by simp [spaces, List.replicate_succ], byteLen_cons, ih,
      show ' '.utf8Size = 1 by decide]
    omega

theorem blanked_byteLen (B : Nat → Bool) (l : List (Seg × Str)) : ∀ k, byteLen (blanked B k l) = byteLen (segsText l) := by
  induction l with
  | nil => intro k; rfl
  | cons p l ih =>
    intro k
    obtain ⟨s, g⟩ := p
    have e : segsText ((s, g) :: l) = s.text ++ (g ++ segsText l) := by simp [segsText]
    rw [e]
    simp only [blanked, byteLen_append, ih]
    cases B k <;> simp [byteLen_spaces]

theorem blanked_false (l : List (Seg × Str)) : ∀ k, blanked (fun _ => false) k l = segsText l := by
  induction l with
  | nil => intro k; rfl
  | cons p l ih => intro k; obtain ⟨s, g⟩ := p; simp [blanked, segsText] at ih ⊢; exact ih _

theorem partsFrom_at (o : Nat) (pre : List (Seg × Str)) (s : Seg) (g : Str) (post : List (Seg × Str)) :
    (partsFrom o (pre ++ (s, g) :: post))[pre.length]? = some (s.at (o + byteLen (segsText pre))) := by
  induction pre generalizing o with
  | nil => simp [partsFrom, segsText, byteLen_nil]
  | cons p pre ih =>
    obtain ⟨t, h⟩ := p
    simp only [List.cons_append, partsFrom, List.length_cons, List.getElem?_cons_succ, ih]
    congr 2
    simp only [segsText, List.flatMap_cons, byteLen_append]
    omega

theorem seg_at_start (s : Seg) (o : Nat) : (s.at o).start = o := by cases s <;> rfl
theorem seg_at_stop (s : Seg) (o : Nat) : (s.at o).stop = o + byteLen s.text := by cases s <;> rfl

theorem partsFrom_length (o : Nat) (l : List (Seg × Str)) : (partsFrom o l).length = l.length := by
  induction l generalizing o with
  | nil => rfl
  | cons p l ih => obtain ⟨s, g⟩ := p; simp [partsFrom, ih]

/-- Cutting out a part. -/
theorem slice_part (L : Layout) {k : Nat} {s : Seg × Str} (hk : L.segs[k]? = some s) :
    ∃ p, L.parts[k]? = some p ∧ sliceBytes L.text p.start p.stop = some s.1.text := by
  obtain ⟨s, g⟩ := s
  have hsp := split_at hk
  have hlen : (L.segs.take k).length = k := by
    have := (List.getElem?_eq_some_iff.1 hk).1
    simp; omega
  have h := partsFrom_at (byteLen L.front) (L.segs.take k) s g (L.segs.drop (k + 1))
  rw [← hsp, hlen] at h
  refine ⟨_, h, ?_⟩
  rw [seg_at_start, seg_at_stop]
  have e : L.text = (L.front ++ segsText (L.segs.take k)) ++ (s.text ++ (g ++ (segsText (L.segs.drop (k + 1)) ++ '}' :: L.rest))) := by
    unfold Layout.text
    conv => lhs; rw [hsp]
    rw [segsText_append]
    simp [segsText]
  rw [e, ← byteLen_append]
  exact sliceBytes_append _ _ _

/-- Blanking out one more part. -/
theorem replace_part (L : Layout) (hs : Separate L) {B : Nat → Bool} {k : Nat} {s : Seg × Str} (hk : L.segs[k]? = some s)
    (hB : B k = false) : replaceAll s.1.text (spaces (byteLen s.1.text)) (L.front ++ (blanked B 0 L.segs ++ '}' :: L.rest)) =
      L.front ++ (blanked (fun j => B j || j == k) 0 L.segs ++ '}' :: L.rest) := by
  obtain ⟨s, g⟩ := s
  have hsp := split_at hk
  have hlen : (L.segs.take k).length = k := by
    have := (List.getElem?_eq_some_iff.1 hk).1
    simp; omega
  obtain ⟨hne, honce⟩ := hs B _ s g _ hsp
  have e1 : blanked B 0 L.segs = blanked B 0 (L.segs.take k) ++ (s.text ++ (g ++ blanked B (k + 1) (L.segs.drop (k + 1)))) := by
    conv => lhs; rw [hsp]
    rw [blanked_append, blanked]
    simp only [Nat.zero_add, hlen, hB, Bool.false_eq_true, if_false]
  have e2 : blanked (fun j => B j || j == k) 0 L.segs =
      blanked B 0 (L.segs.take k) ++ (spaces (byteLen s.text) ++ (g ++ blanked B (k + 1) (L.segs.drop (k + 1)))) := by
    conv => lhs; rw [hsp]
    rw [blanked_append, blanked]
    simp only [Nat.zero_add, hlen, beq_self_eq_true, Bool.or_true, if_true]
    rw [blanked_congr (B' := B) (L.segs.take k) 0, blanked_congr (B' := B) (L.segs.drop (k + 1)) (k + 1)]
    · intro j h1 h2
      simp only [Bool.or_eq_left_iff_imp, beq_iff_eq]; omega
    · intro j h1 h2
      rw [hlen] at h2
      simp only [Bool.or_eq_left_iff_imp, beq_iff_eq]; omega
  rw [hlen] at honce
  have := replaceAll_once (spaces (byteLen s.text)) hne honce
  rw [e1, e2]
  simp only [List.append_assoc] at this ⊢
  exact this

/-- Step 4 of the order fix. -/
theorem collect_ok (L : Layout) (hs : Separate L) : ∀ (ks : List Nat) (B : Nat → Bool) (acc : List Str), ks.Nodup →
    (∀ k ∈ ks, k < L.segs.length ∧ B k = false) →
    collectTexts L.text (ks.filterMap (L.parts[·]?)) (L.front ++ (blanked B 0 L.segs ++ '}' :: L.rest)) acc =
      .ok (acc ++ (ks.filterMap (fun k => (L.segs[k]?).map Prod.fst)).map Seg.text,
        L.front ++ (blanked (fun j => B j || decide (j ∈ ks)) 0 L.segs ++ '}' :: L.rest)) := by
  intro ks
  induction ks with
  | nil => intro B acc _ _; simp [collectTexts]
  | cons k ks ih =>
    intro B acc hn hB
    rw [List.nodup_cons] at hn
    obtain ⟨hk, hBk⟩ := hB k (by simp)
    obtain ⟨s, hs'⟩ : ∃ s, L.segs[k]? = some s := ⟨_, List.getElem?_eq_getElem hk⟩
    obtain ⟨p, hp, hsl⟩ := slice_part L hs'
    rw [List.filterMap_cons, hp]
    simp only [collectTexts, hsl]
    rw [replace_part L hs hs' hBk, ih _ _ hn.2]
    · rw [List.filterMap_cons]
      simp only [hs', Option.map_some, List.map_cons, List.append_assoc, List.singleton_append]
      congr 5
      funext j
      simp only [List.mem_cons]
      rw [Bool.or_assoc]
      congr 1
      by_cases h : j = k <;> simp [h]
    · intro j hj
      obtain ⟨h1, h2⟩ := hB j (by simp [hj])
      refine ⟨h1, ?_⟩
      have : j ≠ k := fun e => hn.1 (e ▸ hj)
      simp [h2, this]

theorem withGaps_text (m : Str) (ss : List Seg) (h : ss ≠ []) :
    segsText (withGaps m ss) = joinSep c!"\n\n" (ss.map Seg.text) ++ m := by
  induction ss with
  | nil => exact absurd rfl h
  | cons s r ih =>
    cases r with
    | nil => simp [withGaps, segsText, joinSep]
    | cons s' r =>
      have := ih (by simp)
      rw [withGaps]
      · rw [List.map_cons, List.map_cons, joinSep, ← List.map_cons, List.append_assoc, List.append_assoc, ← this]
        simp [segsText]
      · simp

theorem withGaps_map (m : Str) (ss : List Seg) : (withGaps m ss).map Prod.fst = ss := by
  induction ss with
  | nil => rfl
  | cons s r ih =>
    cases r with
    | nil => rfl
    | cons s' r => rw [withGaps]; · simp [ih]
                   · simp

end Bulloak
