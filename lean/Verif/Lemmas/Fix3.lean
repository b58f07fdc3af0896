import Verif.Lemmas.Fix2
/-! # Lemmas about fixing: reordering -/

namespace Bulloak
open Spec
set_option linter.unusedSectionVars false

/-! ## Moving elements with stale indices -/

theorem perm_of_subset {α : Type} [DecidableEq α] {t : List α} : ∀ {l : List α}, t.Nodup → (∀ x ∈ t, x ∈ l) →
    l.length = t.length → l.Perm t := by
  induction t with
  | nil => intro l _ _ h; rw [List.eq_nil_of_length_eq_zero h]
  | cons x t ih =>
    intro l hn hs hl
    have hx : x ∈ l := hs x (by simp)
    rw [List.nodup_cons] at hn
    refine (List.perm_cons_erase hx).trans (List.Perm.cons x (ih hn.2 ?_ ?_))
    · intro y hy
      have hne : y ≠ x := fun e => hn.1 (e ▸ hy)
      exact (List.mem_erase_of_ne hne).2 (hs y (by simp [hy]))
    · rw [List.length_erase_of_mem hx, hl]; simp

/-- The moves of the order fix: for each pair of tree index and original contract index. -/
def movesFrom {α : Type} (l : List α) : List (Nat × Nat) → List α → Res Empty (List α)
  | [], cur => .ok cur
  | (i, a) :: ps, cur =>
    match l[a]? with
    | some x => do
      let cur ← moveTo cur a i x
      movesFrom l ps cur
    | none => .panic

/-- The element with tree index `i`, at index `a` of the contract, comes after an element that follows it in the tree. -/
def Inv {α : Type} (t l : List α) (i a : Nat) : Prop :=
  ∃ x, t[i]? = some x ∧ l[a]? = some x ∧ ∃ j b y, i < j ∧ t[j]? = some y ∧ l[b]? = some y ∧ b < a

/-- No three elements come in reversed order. -/
def No321 {α : Type} (t l : List α) : Prop :=
  ∀ (i j k a b c : Nat) x y z, i < j → j < k → t[i]? = some x → t[j]? = some y → t[k]? = some z →
    l[a]? = some x → l[b]? = some y → l[c]? = some z → ¬ (c < b ∧ b < a)

section
variable {α : Type} [DecidableEq α]

/-- The first `c` elements of the contract, sorted. -/
def sortedTo (t l : List α) (c : Nat) : List α := t.filter (fun x => decide (x ∈ l.take c))

theorem nodup_get {l : List α} (h : l.Nodup) {i j : Nat} {x : α} (hi : l[i]? = some x) (hj : l[j]? = some x) : i = j := by
  obtain ⟨h1, rfl⟩ := List.getElem?_eq_some_iff.1 hi
  obtain ⟨h2, h3⟩ := List.getElem?_eq_some_iff.1 hj
  rw [List.nodup_iff_pairwise_ne, List.pairwise_iff_getElem] at h
  rcases Nat.lt_trichotomy i j with hlt | he | hlt
  · exact absurd h3.symm (h i j h1 h2 hlt)
  · exact he
  · exact absurd h3 (h j i h2 h1 hlt)

theorem mem_take_iff {l : List α} {c : Nat} {x : α} : x ∈ l.take c ↔ ∃ b, b < c ∧ l[b]? = some x := by
  rw [List.mem_iff_getElem?]
  constructor
  · rintro ⟨b, hb⟩
    rw [List.getElem?_take] at hb
    split at hb
    · exact ⟨b, by assumption, hb⟩
    · cases hb
  · rintro ⟨b, hb, h⟩
    exact ⟨b, by rw [List.getElem?_take, if_pos hb]; exact h⟩

theorem sortedTo_length {t l : List α} (hp : l.Perm t) (hn : t.Nodup) (c : Nat) (hc : c ≤ l.length) :
    (sortedTo t l c).length = c := by
  have hl : l.Nodup := hp.nodup_iff.2 hn
  have h1 : (sortedTo t l c).Perm (l.filter (fun x => decide (x ∈ l.take c))) := (hp.filter _).symm
  have h2 : l.filter (fun x => decide (x ∈ l.take c)) = l.take c := by
    conv => lhs; arg 2; rw [← List.take_append_drop c l]
    rw [List.filter_append]
    have e1 : (l.take c).filter (fun x => decide (x ∈ l.take c)) = l.take c := List.filter_eq_self.2 (by simp)
    have e2 : (l.drop c).filter (fun x => decide (x ∈ l.take c)) = [] := by
      apply List.filter_eq_nil_iff.2
      intro x hx
      obtain ⟨k, hk⟩ := List.mem_iff_getElem?.1 hx
      rw [List.getElem?_drop] at hk
      simp only [decide_eq_true_eq]
      intro hm
      obtain ⟨b, hb, hb2⟩ := mem_take_iff.1 hm
      have := nodup_get hl hk hb2
      omega
    rw [e1, e2, List.append_nil]
  rw [h1.length_eq, h2, List.length_take]
  omega

theorem split_at {t : List α} {i : Nat} {x : α} (h : t[i]? = some x) : t = t.take i ++ x :: t.drop (i + 1) := by
  obtain ⟨hi, rfl⟩ := List.getElem?_eq_some_iff.1 h
  simp

theorem insertIdx_at : ∀ (a b : List α) (x : α), (a ++ b).insertIdx a.length x = a ++ x :: b
  | [], b, x => by simp
  | y :: a, b, x => by simp [insertIdx_at a b x]

theorem filter_congr_take {l : List α} {c : Nat} {x : α} (hx : l[c]? = some x) (s : List α) (hs : x ∉ s) :
    s.filter (fun y => decide (y ∈ l.take (c + 1))) = s.filter (fun y => decide (y ∈ l.take c)) := by
  apply List.filter_congr
  intro y hy
  have hne : y ≠ x := fun e => hs (e ▸ hy)
  congr 1
  apply propext
  rw [mem_take_iff, mem_take_iff]
  constructor
  · rintro ⟨b, hb, h⟩
    refine ⟨b, ?_, h⟩
    rcases Nat.lt_or_eq_of_le (Nat.lt_succ_iff.1 hb) with h' | rfl
    · exact h'
    · rw [hx] at h; exact absurd (Option.some.inj h).symm hne
  · rintro ⟨b, hb, h⟩; exact ⟨b, by omega, h⟩

theorem moves_sorted {t l : List α} (hp : l.Perm t) (hn : t.Nodup) (h321 : No321 t l) :
    ∀ (d c : Nat) (pairs : List (Nat × Nat)), c + d = l.length → (pairs.Pairwise (fun p q => p.2 < q.2)) →
      (∀ i a, (i, a) ∈ pairs ↔ c ≤ a ∧ Inv t l i a) → movesFrom l pairs (sortedTo t l c ++ l.drop c) = .ok t := by
  have hl : l.Nodup := hp.nodup_iff.2 hn
  intro d
  induction d with
  | zero =>
    intro c pairs hc _ hm
    have hnil : pairs = [] := by
      apply List.eq_nil_iff_forall_not_mem.2
      rintro ⟨i, a⟩ h
      obtain ⟨h1, x, _, h2, _⟩ := (hm i a).1 h
      have := (List.getElem?_eq_some_iff.1 h2).1
      omega
    have hcl : c = l.length := by omega
    subst hnil hcl
    have : sortedTo t l l.length = t := by
      unfold sortedTo
      apply List.filter_eq_self.2
      intro x hx
      simpa using hp.mem_iff.2 hx
    rw [this, List.drop_length, List.append_nil]
    rfl
  | succ d ih =>
    intro c pairs hc hs hm
    have hclt : c < l.length := by omega
    obtain ⟨x, hx⟩ : ∃ x, l[c]? = some x := ⟨_, List.getElem?_eq_getElem hclt⟩
    obtain ⟨i, hi⟩ := List.mem_iff_getElem?.1 (hp.mem_iff.1 (List.mem_of_getElem? hx))
    have hdrop : l.drop c = x :: l.drop (c + 1) := by
      rw [List.drop_eq_getElem_cons hclt]
      congr 1
      have := hx
      rw [List.getElem?_eq_getElem hclt] at this
      exact Option.some.inj this
    have hsp := split_at hi
    have hxt : x ∉ t.take i ∧ x ∉ t.drop (i + 1) := by
      rw [hsp] at hn
      have := List.nodup_append.1 hn
      refine ⟨fun h => ?_, ?_⟩
      · exact this.2.2 x h x (by simp) rfl
      · exact (List.nodup_cons.1 this.2.1).1
    have htk : decide (x ∈ l.take c) = false := by
      simp only [decide_eq_false_iff_not]
      intro h
      obtain ⟨b, hb, hb2⟩ := mem_take_iff.1 h
      have := nodup_get hl hx hb2
      omega
    have htk1 : decide (x ∈ l.take (c + 1)) = true := by
      simp only [decide_eq_true_eq]
      exact mem_take_iff.2 ⟨c, by omega, hx⟩
    have eS : sortedTo t l c = (t.take i).filter (fun y => decide (y ∈ l.take c)) ++ (t.drop (i + 1)).filter (fun y => decide (y ∈ l.take c)) := by
      unfold sortedTo
      conv => lhs; rw [hsp]
      rw [List.filter_append, List.filter_cons, htk]
      simp
    have eS1 : sortedTo t l (c + 1) = (t.take i).filter (fun y => decide (y ∈ l.take c)) ++
        x :: (t.drop (i + 1)).filter (fun y => decide (y ∈ l.take c)) := by
      unfold sortedTo
      conv => lhs; rw [hsp]
      rw [List.filter_append, List.filter_cons, htk1, filter_congr_take hx _ hxt.1, filter_congr_take hx _ hxt.2]
      simp
    by_cases hinv : Inv t l i c
    · -- the element is moved
      have hmem : (i, c) ∈ pairs := (hm i c).2 ⟨Nat.le_refl _, hinv⟩
      obtain ⟨ps, rfl⟩ : ∃ ps, pairs = (i, c) :: ps := by
        cases pairs with
        | nil => cases hmem
        | cons p ps =>
          refine ⟨ps, ?_⟩
          rcases List.mem_cons.1 hmem with h | h
          · rw [h]
          · have h1 := (List.pairwise_cons.1 hs).1 _ h
            have h2 := ((hm p.1 p.2).1 (by simp)).1
            simp only at h1
            omega
      have hall : (t.take i).filter (fun y => decide (y ∈ l.take c)) = t.take i := by
        apply List.filter_eq_self.2
        intro y hy
        simp only [decide_eq_true_eq]
        obtain ⟨i', hi', hy'⟩ := mem_take_iff.1 hy
        obtain ⟨b, hb⟩ := List.mem_iff_getElem?.1 (hp.mem_iff.2 (List.mem_of_getElem? hy'))
        apply mem_take_iff.2
        refine ⟨b, ?_, hb⟩
        rcases Nat.lt_trichotomy b c with h | h | h
        · exact h
        · subst h
          rw [hx] at hb
          have := Option.some.inj hb
          subst this
          exact absurd hy hxt.1
        · obtain ⟨x', hx1, hx2, j, b', z, hj, hz, hz', hb'⟩ := hinv
          exact absurd ⟨hb', h⟩ (h321 i' i j b c b' y x z hi' hj hy' hi hz hb hx hz')
      have hilt : i < t.length := (List.getElem?_eq_some_iff.1 hi).1
      have hlen := sortedTo_length hp hn c (by omega)
      have hstep : moveTo (sortedTo t l c ++ l.drop c) c i x = .ok (sortedTo t l (c + 1) ++ l.drop (c + 1)) := by
        unfold moveTo
        have h1 : c < (sortedTo t l c ++ l.drop c).length := by simp [hlen]; omega
        have h2 : (sortedTo t l c ++ l.drop c).eraseIdx c = sortedTo t l c ++ l.drop (c + 1) := by
          rw [List.eraseIdx_append_of_length_le (by omega), hlen, Nat.sub_self, hdrop]
          rfl
        rw [if_pos h1, h2]
        have h3 : (t.take i).length = i := by simp; omega
        have h4 : i ≤ (sortedTo t l c ++ l.drop (c + 1)).length := by
          rw [eS, hall]; simp only [List.length_append, h3]; omega
        rw [if_pos h4, eS, eS1, hall]
        congr 1
        have h5 := insertIdx_at (t.take i) (List.filter (fun y => decide (y ∈ l.take c)) (t.drop (i + 1)) ++ l.drop (c + 1)) x
        rw [h3] at h5
        rw [List.append_assoc, h5]
        simp
      rw [movesFrom]
      simp only [hx, hstep, Res.bind_ok]
      apply ih (c + 1) ps (by omega) (List.pairwise_cons.1 hs).2
      intro i' a'
      constructor
      · intro h
        have h1 := (List.pairwise_cons.1 hs).1 _ h
        exact ⟨by simp only at h1; omega, ((hm i' a').1 (by simp [h])).2⟩
      · rintro ⟨h1, h2⟩
        have := (hm i' a').2 ⟨by omega, h2⟩
        rcases List.mem_cons.1 this with h | h
        · simp only [Prod.mk.injEq] at h; omega
        · exact h
    · -- the element stays
      have hno : (t.drop (i + 1)).filter (fun y => decide (y ∈ l.take c)) = [] := by
        apply List.filter_eq_nil_iff.2
        intro y hy
        simp only [decide_eq_true_eq]
        intro hm'
        obtain ⟨b, hb, hyb⟩ := mem_take_iff.1 hm'
        obtain ⟨k, hk⟩ := List.mem_iff_getElem?.1 hy
        rw [List.getElem?_drop] at hk
        exact hinv ⟨x, hi, hx, i + 1 + k, b, y, by omega, hk, hyb, hb⟩
      have e : sortedTo t l c ++ l.drop c = sortedTo t l (c + 1) ++ l.drop (c + 1) := by
        rw [eS, eS1, hno, hdrop]; simp
      rw [e]
      apply ih (c + 1) pairs (by omega) hs
      intro i' a'
      rw [hm]
      constructor
      · rintro ⟨h1, h2⟩
        refine ⟨?_, h2⟩
        rcases Nat.lt_or_eq_of_le h1 with h | h
        · exact h
        · subst h
          obtain ⟨y, hy1, hy2, hy3⟩ := h2
          rw [hx] at hy2
          have := Option.some.inj hy2
          subst this
          have := nodup_get hn hi hy1
          subst this
          exact absurd ⟨x, hi, hx, hy3⟩ hinv
      · rintro ⟨h1, h2⟩; exact ⟨by omega, h2⟩

/-- The moves of the order fix sort every list without reversed triples. -/
theorem moves_ok {t l : List α} (hp : l.Perm t) (hn : t.Nodup) (h321 : No321 t l) {pairs : List (Nat × Nat)}
    (hs : Increasing (pairs.map Prod.fst)) (hm : ∀ i a, (i, a) ∈ pairs ↔ Inv t l i a) : movesFrom l pairs l = .ok t := by
  have hl : l.Nodup := hp.nodup_iff.2 hn
  have h := moves_sorted hp hn h321 l.length 0 pairs (by omega)
  have e : sortedTo t l 0 ++ l.drop 0 = l := by simp [sortedTo]
  rw [e] at h
  apply h
  · unfold Increasing at hs
    rw [List.pairwise_map] at hs
    refine hs.imp_of_mem ?_
    rintro ⟨i, a⟩ ⟨i', a'⟩ h1 h2 hlt
    simp only at hlt ⊢
    obtain ⟨x, hx1, hx2, _⟩ := (hm i a).1 h1
    obtain ⟨y, hy1, hy2, j, b, z, hj, hz1, hz2, hb⟩ := (hm i' a').1 h2
    rcases Nat.lt_trichotomy a a' with h | h | h
    · exact h
    · subst h
      rw [hx2] at hy2
      have := Option.some.inj hy2
      subst this
      have := nodup_get hn hx1 hy1
      omega
    · exact absurd ⟨hb, h⟩ (h321 i i' j a a' b x y z hlt hj hx1 hy1 hz1 hx2 hy2 hz2)
  · intro i a; rw [hm]; simp

end

/-! ## Replacing text -/

theorem stripPrefix_isSome (p s : Str) : (stripPrefix p s).isSome = true ↔ ∃ r, s = p ++ r := by
  induction p generalizing s with
  | nil => simp [stripPrefix]
  | cons a p ih =>
    cases s with
    | nil => simp [stripPrefix]
    | cons b s =>
      rw [stripPrefix]
      split
      · rename_i e; subst e; rw [ih]; simp
      · rename_i e; simp only [Option.isSome_none, Bool.false_eq_true, List.cons_append, List.cons.injEq, false_iff]
        rintro ⟨r, h, _⟩; exact e h.symm

theorem replaceAux_skip (pat to : Str) (n : Nat) (s : Str) : replaceAux pat to n s = replaceAux pat to 0 (s.drop n) := by
  induction n generalizing s with
  | zero => rfl
  | succ n ih =>
    cases s with
    | nil => simp [replaceAux]
    | cons c s => rw [replaceAux, ih]; rfl

theorem replaceAll_none {pat : Str} (to : Str) {s : Str} (h : ∀ a b, s ≠ a ++ (pat ++ b)) : replaceAll pat to s = s := by
  unfold replaceAll
  induction s with
  | nil => rfl
  | cons c s ih =>
    rw [replaceAux, if_neg, ih]
    · intro a b e
      exact h (c :: a) b (by rw [e]; rfl)
    · intro hs
      obtain ⟨r, hr⟩ := (stripPrefix_isSome _ _).1 hs
      exact h [] r hr

theorem replaceAll_once {x pat y : Str} (to : Str) (hne : pat ≠ []) (h : Once x pat y) :
    replaceAll pat to (x ++ (pat ++ y)) = x ++ (to ++ y) := by
  induction x with
  | nil =>
    obtain ⟨c, p, rfl⟩ := List.exists_cons_of_ne_nil hne
    rw [List.nil_append]
    unfold replaceAll
    rw [List.cons_append, replaceAux, if_pos ((stripPrefix_isSome (c :: p) (c :: (p ++ y))).2 ⟨y, rfl⟩), replaceAux_skip]
    have e : List.drop ((c :: p).length - 1) (p ++ y) = y := by simp
    rw [e]
    have := replaceAll_none (pat := c :: p) to (s := y) ?_
    · unfold replaceAll at this; rw [this]; simp
    · intro a b hab
      have := h (c :: p ++ a) b (by rw [hab]; simp)
      cases this
  | cons c x ih =>
    have hx : Once x pat y := by
      intro a b e
      have := h (c :: a) b (by rw [List.cons_append, e]; rfl)
      exact (List.cons.inj this).2
    have := ih hx
    unfold replaceAll at this ⊢
    rw [List.cons_append, replaceAux, if_neg, this]
    · rfl
    · intro hs
      obtain ⟨r, hr⟩ := (stripPrefix_isSome _ _).1 hs
      have := h [] r (by rw [List.cons_append, hr]; rfl)
      cases this

end Bulloak
