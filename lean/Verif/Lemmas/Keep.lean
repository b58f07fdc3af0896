import Verif.Lemmas.Fix8
import Verif.Model.Ascii
/-! # Lemmas about fixing: moving functions among other parts -/

namespace Bulloak
open Spec
set_option linter.unusedSectionVars false

section
variable {α : Type} [DecidableEq α]

/-- `x` put at index `i` of the other elements. -/
def putAt (i : Nat) (x : α) (cur : List α) : List α :=
  (cur.filter (· ≠ x)).take i ++ x :: (cur.filter (· ≠ x)).drop i

theorem filter_ne_self {l : List α} {x : α} (h : x ∉ l) : l.filter (· ≠ x) = l :=
  List.filter_eq_self.2 fun y hy => by
    have : y ≠ x := fun e => h (e ▸ hy)
    simpa using this

theorem filter_ne_split {u v : List α} {x : α} (h : (u ++ x :: v).Nodup) : (u ++ x :: v).filter (· ≠ x) = u ++ v := by
  have h' := h
  rw [List.nodup_append, List.nodup_cons] at h'
  rw [List.filter_append, List.filter_cons_of_neg (by simp), filter_ne_self h'.2.1.1, filter_ne_self]
  intro hm
  exact h'.2.2 x hm x (by simp) rfl

theorem get_split {l : List α} {a : Nat} {x : α} (h : l[a]? = some x) : ∃ u v, l = u ++ x :: v ∧ u.length = a := by
  obtain ⟨hlt, _⟩ := List.getElem?_eq_some_iff.1 h
  exact ⟨_, _, split_at h, by simp; omega⟩

/-- One move. -/
theorem move_put {cur : List α} (hn : cur.Nodup) {a i : Nat} {x : α} (hx : cur[a]? = some x) (hi : i ≤ a) :
    moveTo cur a i x = .ok (putAt i x cur) := by
  obtain ⟨u, v, rfl, rfl⟩ := get_split hx
  have e : (u ++ x :: v).eraseIdx u.length = u ++ v := by
    rw [List.eraseIdx_append_of_length_le (Nat.le_refl _)]; simp
  have hl : i ≤ (u ++ v).length := by simp; omega
  unfold moveTo putAt
  rw [filter_ne_split hn]
  rw [if_pos (by simp)]
  simp only [e, if_pos hl]
  congr 1
  have := insertIdx_at ((u ++ v).take i) ((u ++ v).drop i) x
  rw [List.take_append_drop, List.length_take, Nat.min_eq_left hl] at this
  exact this

theorem put_perm {cur : List α} (hn : cur.Nodup) {i : Nat} {x : α} (hx : x ∈ cur) : (putAt i x cur).Perm cur := by
  obtain ⟨u, v, rfl⟩ := List.append_of_mem hx
  unfold putAt
  rw [filter_ne_split hn]
  have h1 : ((u ++ v).take i ++ x :: (u ++ v).drop i).Perm (x :: ((u ++ v).take i ++ (u ++ v).drop i)) := List.perm_middle
  rw [List.take_append_drop] at h1
  exact h1.trans List.perm_middle.symm

theorem put_filter {cur : List α} {i : Nat} {x : α} {S : α → Bool} (hS : S x = false) : (putAt i x cur).filter S = cur.filter S := by
  have h1 : ∀ l : List α, (l.filter (· ≠ x)).filter S = l.filter S := by
    intro l
    rw [List.filter_filter]
    apply List.filter_congr
    intro y _
    by_cases h : y = x
    · subst h; simp [hS]
    · simp [h]
  unfold putAt
  rw [List.filter_append, List.filter_cons_of_neg (by simp [hS]), ← List.filter_append, List.take_append_drop, h1]

theorem put_drop {cur : List α} (hn : cur.Nodup) {a i : Nat} {x : α} (hx : cur[a]? = some x) (hi : i ≤ a) :
    (putAt i x cur).drop (a + 1) = cur.drop (a + 1) := by
  obtain ⟨u, v, rfl, rfl⟩ := get_split hx
  unfold putAt
  rw [filter_ne_split hn]
  have e : (u ++ v).take i ++ x :: (u ++ v).drop i = (u.take i ++ x :: u.drop i) ++ v := by
    rw [List.take_append_of_le_length hi, List.drop_append_of_le_length hi]; simp
  have hl : (u.take i ++ x :: u.drop i).length = u.length + 1 := by simp; omega
  rw [e, ← hl, List.drop_left]
  have : u ++ x :: v = (u ++ [x]) ++ v := by simp
  rw [this, show (u.take i ++ x :: u.drop i).length = (u ++ [x]).length by rw [hl]; simp, List.drop_left]

/-! ## All moves, without reversed triples -/

section
variable {t l : List α} (ht : t.Nodup) (hl : l.Nodup) (hsub : ∀ x ∈ t, x ∈ l) (h321 : No321 t l)
include ht hl hsub h321

/-- What comes before a moved element in the tree comes before it in the contract. -/
theorem inv_before {i a : Nat} (h : Inv t l i a) {j b : Nat} {y : α} (hj : j < i) (hy : t[j]? = some y) (hb : l[b]? = some y) : b < a := by
  obtain ⟨x, hx, hxa, k, c, z, hik, hz, hc, hca⟩ := h
  rcases Nat.lt_trichotomy b a with h | h | h
  · exact h
  · subst h
    rw [hxa] at hb
    cases hb
    have := nodup_get ht hx hy
    omega
  · exact absurd ⟨hca, h⟩ (h321 j i k b a c y x z hj hik hy hx hz hb hxa hc)

theorem inv_le {i a : Nat} (h : Inv t l i a) : i ≤ a := by
  obtain ⟨x, hx, hxa, _⟩ := id h
  have hi := (List.getElem?_eq_some_iff.1 hx).1
  have ha := (List.getElem?_eq_some_iff.1 hxa).1
  have := @nodup_length_le asciiUcd _ _ (t.take i) (l.take a) ((List.take_sublist _ _).nodup ht) (by
    intro y hy
    obtain ⟨j, hj, hy⟩ := mem_take_iff.1 hy
    obtain ⟨b, hb⟩ := List.mem_iff_getElem?.1 (hsub y (List.mem_of_getElem? hy))
    exact mem_take_iff.2 ⟨b, inv_before ht hl hsub h321 h hj hy hb, hb⟩)
  simp only [List.length_take] at this
  omega

/-- Moved elements are in the same order in the tree and in the contract. -/
theorem inv_mono {i a j b : Nat} (h : Inv t l i a) (h' : Inv t l j b) (hij : i < j) : a < b := by
  obtain ⟨x, hx, hxa, _⟩ := h
  exact inv_before ht hl hsub h321 h' hij hx hxa

/-- All moves succeed; nothing is lost, and only moved elements move. -/
theorem moves_perm : ∀ (ps : List (Nat × Nat)) (cur : List α) (A : Nat), cur.Perm l → cur.drop A = l.drop A →
    (∀ p ∈ ps, Inv t l p.1 p.2 ∧ A ≤ p.2) → Increasing (ps.map Prod.fst) →
    ∃ r, movesFrom l ps cur = .ok r ∧ r.Perm l ∧
      ∀ S : α → Bool, (∀ p ∈ ps, ∀ x, l[p.2]? = some x → S x = false) → r.filter S = cur.filter S
  | [], cur, _, hp, _, _, _ => ⟨cur, rfl, hp, fun _ _ => rfl⟩
  | (i, a) :: ps, cur, A, hp, hd, hps, hinc => by
    obtain ⟨hinv, hA⟩ := hps (i, a) (by simp)
    simp only at hinv hA
    obtain ⟨x, hx, hxa, _⟩ := id hinv
    have hcur : cur[a]? = some x := by
      have : (cur.drop A)[a - A]? = (l.drop A)[a - A]? := by rw [hd]
      rw [List.getElem?_drop, List.getElem?_drop, Nat.add_sub_cancel' hA] at this
      rw [this, hxa]
    have hn : cur.Nodup := hp.nodup_iff.2 hl
    have hia := inv_le ht hl hsub h321 hinv
    rw [List.map_cons, Increasing, List.pairwise_cons] at hinc
    obtain ⟨r, h1, h2, h3⟩ := moves_perm ps (putAt i x cur) (a + 1) ((put_perm hn (List.mem_of_getElem? hcur)).trans hp) (by
      rw [put_drop hn hcur hia]
      have : (cur.drop A).drop (a + 1 - A) = (l.drop A).drop (a + 1 - A) := by rw [hd]
      rw [List.drop_drop, List.drop_drop, Nat.add_sub_cancel' (by omega)] at this
      exact this) (by
      intro p hp
      obtain ⟨h, _⟩ := hps p (by simp [hp])
      exact ⟨h, inv_mono ht hl hsub h321 hinv h (hinc.1 p.1 (List.mem_map_of_mem hp))⟩) hinc.2
    refine ⟨r, ?_, h2, ?_⟩
    · rw [movesFrom, hxa]
      simp only [move_put hn hcur hia, Res.bind_ok, h1]
    · intro S hS
      rw [h3 S fun p hp => hS p (by simp [hp])]
      exact put_filter (hS (i, a) (by simp) x hxa)

/-! ## When the moves sort -/

/-- The first `c` elements of the tree, then what else there is. -/
def fronted (t l : List α) (c : Nat) : List α := t.take c ++ l.filter (fun x => decide (x ∉ t.take c))

omit hl hsub h321 in
theorem mem_take_succ {c : Nat} {x : α} (hx : t[c]? = some x) (y : α) : y ∈ t.take (c + 1) ↔ y ∈ t.take c ∨ y = x := by
  rw [List.take_add_one, hx]; simp

omit hl hsub h321 in
theorem not_mem_take {c : Nat} {x : α} (hx : t[c]? = some x) : x ∉ t.take c := by
  intro hm
  obtain ⟨b, hb, h⟩ := mem_take_iff.1 hm
  have := nodup_get ht hx h
  omega

omit hsub h321 in
/-- An element that is not moved and has only parts of the tree in front. -/
theorem fronted_stay {j b : Nat} {x : α} (hx : t[j]? = some x) (hb : l[b]? = some x) (hninv : ¬ Inv t l j b)
    (hno : ∀ b' y, b' < b → l[b']? = some y → y ∈ t) : fronted t l j = fronted t l (j + 1) := by
  obtain ⟨p, q, e, hpl⟩ := get_split hb
  have hpn : ∀ y ∈ p, y ∈ t.take j := by
    intro y hy
    obtain ⟨b', hb'⟩ := List.mem_iff_getElem?.1 hy
    have hlt := (List.getElem?_eq_some_iff.1 hb').1
    have hb2 : l[b']? = some y := by rw [e, List.getElem?_append_left hlt]; exact hb'
    obtain ⟨k, hk⟩ := List.mem_iff_getElem?.1 (hno b' y (by omega) hb2)
    rcases Nat.lt_trichotomy k j with h | h | h
    · exact mem_take_iff.2 ⟨k, h, hk⟩
    · subst h
      rw [hx] at hk; cases hk
      have := nodup_get hl hb hb2
      omega
    · exact absurd ⟨x, hx, hb, k, b', y, h, hk, hb2, by omega⟩ hninv
  have hxq : x ∉ q := by
    rw [e, List.nodup_append, List.nodup_cons] at hl
    exact hl.2.1.1
  have h1 : p.filter (fun y => decide (y ∉ t.take j)) = [] := List.filter_eq_nil_iff.2 fun y hy => by simpa using hpn y hy
  have h2 : p.filter (fun y => decide (y ∉ t.take (j + 1))) = [] :=
    List.filter_eq_nil_iff.2 fun y hy => by simpa using (mem_take_succ ht hx y).2 (.inl (hpn y hy))
  have h3 : q.filter (fun y => decide (y ∉ t.take (j + 1))) = q.filter (fun y => decide (y ∉ t.take j)) := by
    apply List.filter_congr
    intro y hy
    have : y ≠ x := fun e => hxq (e ▸ hy)
    simp [mem_take_succ ht hx, this]
  unfold fronted
  rw [e, List.filter_append, List.filter_append, h1, h2, List.nil_append, List.nil_append,
    List.filter_cons_of_pos (by simpa using not_mem_take ht hx), List.filter_cons_of_neg (by simpa using (mem_take_succ ht hx x).2 (.inr rfl)), h3,
    List.take_add_one, hx]
  simp

omit hl hsub h321 in
theorem fronted_move {i : Nat} {x : α} (hx : t[i]? = some x) : putAt i x (fronted t l i) = fronted t l (i + 1) := by
  have hi := (List.getElem?_eq_some_iff.1 hx).1
  have h1 : (fronted t l i).filter (· ≠ x) = t.take i ++ l.filter (fun y => decide (y ∉ t.take (i + 1))) := by
    unfold fronted
    rw [List.filter_append, filter_ne_self (not_mem_take ht hx), List.filter_filter]
    congr 1
    apply List.filter_congr
    intro y _
    simp [mem_take_succ ht hx, and_comm]
  have hlen : (t.take i).length = i := by simp; omega
  unfold putAt
  rw [h1, List.take_append_of_le_length (by omega), List.drop_append_of_le_length (by omega), List.take_of_length_le (by omega), List.drop_of_length_le (by omega)]
  unfold fronted
  rw [List.take_add_one, hx]
  simp

omit h321 in
theorem fronted_perm (c : Nat) : (fronted t l c).Perm l := by
  have hn : (fronted t l c).Nodup := by
    unfold fronted
    rw [List.nodup_append]
    refine ⟨(List.take_sublist _ _).nodup ht, List.filter_sublist.nodup hl, ?_⟩
    intro x hx y hy e
    subst e
    simp only [List.mem_filter, decide_eq_true_eq] at hy
    exact hy.2 hx
  rw [List.perm_ext_iff_of_nodup hn hl]
  intro x
  unfold fronted
  simp only [List.mem_append, List.mem_filter, decide_eq_true_eq]
  constructor
  · rintro (h | h)
    · exact hsub x (List.mem_of_mem_take h)
    · exact h.1
  · intro h
    by_cases hm : x ∈ t.take c
    · exact .inl hm
    · exact .inr ⟨h, hm⟩

omit hsub h321 in
/-- If nothing from index `c` of the tree on is to be moved, the rest is sorted. -/
theorem fronted_sorted : ∀ (d c : Nat), c + d = t.length → (∀ x ∈ t, x ∈ l) → (∀ j b, c ≤ j → ¬ Inv t l j b) →
    l.filter (fun x => decide (x ∈ t.drop c)) = t.drop c
  | 0, c, hc, _, _ => by
    rw [List.drop_of_length_le (by omega)]
    simp
  | d + 1, c, hc, hsub, hno => by
    have hlt : c < t.length := by omega
    have hx : t[c]? = some t[c] := List.getElem?_eq_getElem hlt
    obtain ⟨b, hb⟩ := List.mem_iff_getElem?.1 (hsub _ (List.mem_of_getElem? hx))
    have ih := fronted_sorted d (c + 1) (by omega) hsub fun j b hj => hno j b (by omega)
    have e : t.drop c = t[c] :: t.drop (c + 1) := (List.drop_eq_getElem_cons hlt)
    obtain ⟨p, q, el, hpl⟩ := get_split hb
    have hxd : t[c] ∉ t.drop (c + 1) := by
      have := (List.drop_sublist c t).nodup ht
      rw [e, List.nodup_cons] at this
      exact this.1
    have hxp : t[c] ∉ p ∧ t[c] ∉ q := by
      have h := hl
      rw [el, List.nodup_append, List.nodup_cons] at h
      exact ⟨fun hm => h.2.2 _ hm _ (by simp) rfl, h.2.1.1⟩
    have hp0 : ∀ y ∈ p, y ∉ t.drop c := by
      intro y hy hm
      obtain ⟨b', hb'⟩ := List.mem_iff_getElem?.1 hy
      have hlt' := (List.getElem?_eq_some_iff.1 hb').1
      obtain ⟨k, hk⟩ := List.mem_iff_getElem?.1 hm
      rw [List.getElem?_drop] at hk
      have hb2 : l[b']? = some y := by rw [el, List.getElem?_append_left hlt']; exact hb'
      have hk0 : k ≠ 0 := by
        rintro rfl
        rw [Nat.add_zero, hx] at hk
        cases hk
        exact hxp.1 hy
      exact hno c b (Nat.le_refl _) ⟨_, hx, hb, c + k, b', y, by omega, hk, hb2, by omega⟩
    have hq : q.filter (fun y => decide (y ∈ t.drop c)) = q.filter (fun y => decide (y ∈ t.drop (c + 1))) := by
      apply List.filter_congr
      intro y hy
      have : y ≠ t[c] := fun e => hxp.2 (e ▸ hy)
      rw [e]
      exact decide_eq_decide.2 (List.mem_cons.trans (or_iff_right this))
    have hp1 : p.filter (fun y => decide (y ∈ t.drop c)) = [] := List.filter_eq_nil_iff.2 fun y hy => by simpa using hp0 y hy
    have hp2 : p.filter (fun y => decide (y ∈ t.drop (c + 1))) = [] := List.filter_eq_nil_iff.2 fun y hy => by
      have := hp0 y hy
      rw [e] at this
      simp only [List.mem_cons, not_or] at this
      simpa using this.2
    rw [el, List.filter_append, hp2, List.nil_append, List.filter_cons_of_neg (by simpa using hxd)] at ih
    rw [el, List.filter_append, hp1, List.nil_append, List.filter_cons_of_pos (by rw [e]; exact decide_eq_true (List.mem_cons_self ..)), hq, ih, ← e]

/-- From a moved element on, nothing has changed yet. -/
theorem fronted_drop {c i a : Nat} (h : Inv t l i a) (hc : c ≤ i) : (fronted t l c).drop a = l.drop a := by
  obtain ⟨x, hx, hxa, _⟩ := id h
  have ha := (List.getElem?_eq_some_iff.1 hxa).1
  have h1 : (l.drop a).filter (fun y => decide (y ∉ t.take c)) = l.drop a := by
    apply List.filter_eq_self.2
    intro y hy
    rw [decide_eq_true_eq]
    intro hm
    obtain ⟨j, hj, hyj⟩ := mem_take_iff.1 hm
    obtain ⟨k, hk⟩ := List.mem_iff_getElem?.1 hy
    rw [List.getElem?_drop] at hk
    have := inv_before ht hl hsub h321 h (show j < i by omega) hyj hk
    omega
  have h2 : fronted t l c = (t.take c ++ (l.take a).filter (fun y => decide (y ∉ t.take c))) ++ l.drop a := by
    unfold fronted
    conv => lhs; rw [← List.take_append_drop a l, List.filter_append, h1]
    rw [List.append_assoc]
  have h3 := (fronted_perm ht hl hsub c).length_eq
  have h4 : (t.take c ++ (l.take a).filter (fun y => decide (y ∉ t.take c))).length = a := by
    rw [h2, List.length_append, List.length_drop] at h3
    omega
  rw [h2]
  conv => lhs; arg 1; rw [← h4]
  rw [List.drop_left]

omit h321 in
theorem fronted_stays : ∀ (d c : Nat), (∀ j x b, c ≤ j → j < c + d → t[j]? = some x → l[b]? = some x →
    ¬ Inv t l j b ∧ ∀ b' y, b' < b → l[b']? = some y → y ∈ t) → c + d ≤ t.length → fronted t l c = fronted t l (c + d)
  | 0, _, _, _ => rfl
  | d + 1, c, h, hd => by
    have hx : t[c]? = some t[c] := List.getElem?_eq_getElem (by omega)
    obtain ⟨b, hb⟩ := List.mem_iff_getElem?.1 (hsub _ (List.mem_of_getElem? hx))
    obtain ⟨h1, h2⟩ := h c _ b (Nat.le_refl _) (by omega) hx hb
    rw [fronted_stay ht hl hx hb h1 h2, fronted_stays d (c + 1) (fun j x b h3 h4 => h j x b (by omega) (by omega)) (by omega)]
    congr 1
    omega

/-- The moves, as long as no element that stays has others in front of it. -/
theorem moves_fronted : ∀ (ps : List (Nat × Nat)) (c : Nat), (∀ p ∈ ps, Inv t l p.1 p.2 ∧ c ≤ p.1) → Increasing (ps.map Prod.fst) →
    (∀ p ∈ ps, ∀ j x b, c ≤ j → j < p.1 → (j, b) ∉ ps → t[j]? = some x → l[b]? = some x →
      ¬ Inv t l j b ∧ ∀ b' y, b' < b → l[b']? = some y → y ∈ t) →
    ∃ c', movesFrom l ps (fronted t l c) = .ok (fronted t l c') ∧ c ≤ c' ∧ (∀ p ∈ ps, p.1 < c') ∧ (c' = c ∨ ∃ p ∈ ps, c' = p.1 + 1)
  | [], c, _, _, _ => ⟨c, rfl, Nat.le_refl _, by simp, .inl rfl⟩
  | (i, a) :: ps, c, hps, hinc, hgood => by
    obtain ⟨hinv, hci⟩ := hps (i, a) (by simp)
    simp only at hinv hci
    obtain ⟨x, hx, hxa, _⟩ := id hinv
    rw [List.map_cons, Increasing, List.pairwise_cons] at hinc
    have hin : ∀ q ∈ ps, i < q.1 := fun q hq => hinc.1 q.1 (List.mem_map_of_mem hq)
    have hi := (List.getElem?_eq_some_iff.1 hx).1
    have e1 : fronted t l c = fronted t l i := by
      have := fronted_stays ht hl hsub (i - c) c (fun j y b h1 h2 h3 h4 => hgood (i, a) (by simp) j y b h1 (by simp only; omega) (by
        intro hm
        rcases List.mem_cons.1 hm with e | hm
        · simp only [Prod.mk.injEq] at e; omega
        · have := hin _ hm; simp only at this; omega) h3 h4) (by omega)
      rw [Nat.add_sub_cancel' hci] at this
      exact this
    have hget : (fronted t l i)[a]? = some x := by
      have : ((fronted t l i).drop a)[0]? = (l.drop a)[0]? := by rw [fronted_drop ht hl hsub h321 hinv (Nat.le_refl _)]
      rw [List.getElem?_drop, List.getElem?_drop, Nat.add_zero, hxa] at this
      exact this
    have hmv := move_put ((fronted_perm ht hl hsub i).nodup_iff.2 hl) hget (inv_le ht hl hsub h321 hinv)
    rw [fronted_move ht hx] at hmv
    obtain ⟨c', h1, h2, h3, h4⟩ := moves_fronted ps (i + 1) (fun p hp => ⟨(hps p (by simp [hp])).1, hin p hp⟩) hinc.2
      (fun p hp j y b h1 h2 h3 => hgood p (by simp [hp]) j y b (by omega) h2 (by
        intro hm
        rcases List.mem_cons.1 hm with e | hm
        · simp only [Prod.mk.injEq] at e; omega
        · exact h3 hm))
    refine ⟨c', ?_, by omega, ?_, ?_⟩
    · rw [movesFrom, hxa]
      simp only [e1, hmv, Res.bind_ok, h1]
    · intro p hp
      rcases List.mem_cons.1 hp with rfl | hp
      · simp only; omega
      · exact h3 p hp
    · rcases h4 with rfl | ⟨p, hp, rfl⟩
      · exact .inr ⟨(i, a), by simp, rfl⟩
      · exact .inr ⟨p, by simp [hp], rfl⟩

/-- An element that stays, with another in front of it, and a moved element that follows it in the tree. -/
def BlockedIn (t l : List α) : Prop :=
  ∃ i h a b, i < h ∧ Inv t l h b ∧ ¬ Inv t l i a ∧ (∃ x, t[i]? = some x ∧ l[a]? = some x) ∧ ∃ z y, z < a ∧ l[z]? = some y ∧ y ∉ t

omit h321 in
theorem fronted_filter {c : Nat} (hc : c ≤ t.length) (h : ∀ j b, c ≤ j → ¬ Inv t l j b) : (fronted t l c).filter (fun x => decide (x ∈ t)) = t := by
  have h1 := fronted_sorted ht hl (t.length - c) c (by omega) hsub h
  unfold fronted
  rw [List.filter_append, List.filter_filter]
  have e1 : (t.take c).filter (fun x => decide (x ∈ t)) = t.take c := List.filter_eq_self.2 fun x hx => by simpa using List.mem_of_mem_take hx
  have e2 : l.filter (fun x => decide (x ∈ t) && decide (x ∉ t.take c)) = l.filter (fun x => decide (x ∈ t.drop c)) := by
    apply List.filter_congr
    intro x _
    have hm : x ∈ t ↔ x ∈ t.take c ∨ x ∈ t.drop c := by
      conv => lhs; rw [← List.take_append_drop c t]
      exact List.mem_append
    have hn : x ∈ t.take c → x ∉ t.drop c := by
      intro h1 h2
      have := ht
      rw [← List.take_append_drop c t, List.nodup_append] at this
      exact this.2.2 x h1 x h2 rfl
    rw [← Bool.decide_and]
    apply decide_eq_decide.2
    rw [hm]
    constructor
    · rintro ⟨h1 | h1, h2⟩
      · exact absurd h1 h2
      · exact h1
    · exact fun h1 => ⟨.inr h1, fun h2 => hn h2 h1⟩
  rw [e1, e2, h1, List.take_append_drop]

omit ht hl hsub h321 in
theorem inv_unique (hl : l.Nodup) {i a b : Nat} {x : α} (h : Inv t l i a) (hx : t[i]? = some x) (hb : l[b]? = some x) : a = b := by
  obtain ⟨y, hy, hya, _⟩ := h
  rw [hx] at hy
  cases hy
  exact nodup_get hl hya hb

/-- The moves sort if and only if nothing is blocked. -/
theorem moves_sort_iff {ps : List (Nat × Nat)} (hps : ∀ i a, (i, a) ∈ ps ↔ Inv t l i a) (hinc : Increasing (ps.map Prod.fst)) {r : List α}
    (hr : movesFrom l ps l = .ok r) : r.filter (fun x => decide (x ∈ t)) = t ↔ ¬ BlockedIn t l := by
  have hf0 : fronted t l 0 = l := by unfold fronted; simp
  constructor
  · intro hrt ⟨i, h, a, b, hih, hinv, hni, ⟨x, hx, hxa⟩, z, w, hza, hz, hw⟩
    -- the first moved element that comes after a blocked one
    have hex : ∃ p1 q p2, ps = p1 ++ q :: p2 ∧ (∃ i a x, i < q.1 ∧ ¬ Inv t l i a ∧ t[i]? = some x ∧ l[a]? = some x ∧ ∃ z y, z < a ∧ l[z]? = some y ∧ y ∉ t) ∧
        ∀ q ∈ p1, ¬ ∃ i a x, i < q.1 ∧ ¬ Inv t l i a ∧ t[i]? = some x ∧ l[a]? = some x ∧ ∃ z y, z < a ∧ l[z]? = some y ∧ y ∉ t := by
      have hm : (h, b) ∈ ps := (hps h b).2 hinv
      have hq : ∃ i a x, i < (h, b).1 ∧ ¬ Inv t l i a ∧ t[i]? = some x ∧ l[a]? = some x ∧ ∃ z y, z < a ∧ l[z]? = some y ∧ y ∉ t :=
        ⟨i, a, x, hih, hni, hx, hxa, z, w, hza, hz, hw⟩
      clear hr hinc hps
      induction ps with
      | nil => cases hm
      | cons q ps ih =>
        by_cases hb : ∃ i a x, i < q.1 ∧ ¬ Inv t l i a ∧ t[i]? = some x ∧ l[a]? = some x ∧ ∃ z y, z < a ∧ l[z]? = some y ∧ y ∉ t
        · exact ⟨[], q, ps, rfl, hb, by simp⟩
        · rcases List.mem_cons.1 hm with rfl | hm
          · exact absurd hq hb
          · obtain ⟨p1, q', p2, e, h1, h2⟩ := ih hm
            exact ⟨q :: p1, q', p2, by rw [e]; rfl, h1, fun r hr => by
              rcases List.mem_cons.1 hr with rfl | hr
              · exact hb
              · exact h2 r hr⟩
    obtain ⟨p1, ⟨h, b⟩, p2, rfl, ⟨i, a, x, hih, hni, hx, hxa, z, w, hza, hz, hw⟩, hfirst⟩ := hex
    clear hinv
    simp only at hih
    have hinv : Inv t l h b := (hps h b).1 (by simp)
    rw [List.map_append, Increasing, List.pairwise_append, List.map_cons, List.pairwise_cons] at hinc
    obtain ⟨hinc1, ⟨hinc2, hinc3⟩, hinc4⟩ := hinc
    have hlt : ∀ p ∈ p1, p.1 < h := fun p hp => hinc4 p.1 (List.mem_map_of_mem hp) h (by simp)
    have hgt : ∀ p ∈ p2, h < p.1 := fun p hp => hinc2 p.1 (List.mem_map_of_mem hp)
    obtain ⟨c, hc1, _, hc2, hc3⟩ := moves_fronted ht hl hsub h321 p1 0 (fun p hp => ⟨(hps p.1 p.2).1 (by simp [hp]), by omega⟩) hinc1 (by
      intro p hp j y b' _ hj hnm hy hyb
      have hnj : ¬ Inv t l j b' := by
        intro hi
        have := (hps j b').2 hi
        rcases List.mem_append.1 this with hm | hm
        · exact hnm hm
        · rcases List.mem_cons.1 hm with e | hm
          · simp only [Prod.mk.injEq] at e
            have := hlt p hp; omega
          · have h1 := hgt _ hm
            have h2 := hlt p hp
            simp only at h1; omega
      refine ⟨hnj, ?_⟩
      intro z' y' hz' hy'
      refine Decidable.byContradiction fun hno => ?_
      exact hfirst p hp ⟨j, b', y, hj, hnj, hy, hyb, z', y', hz', hy', hno⟩)
    rw [hf0] at hc1
    -- from `c` to `h` nothing is moved
    have hstay : ∀ j y b', c ≤ j → j < h → t[j]? = some y → l[b']? = some y → ¬ Inv t l j b' := by
      intro j y b' h1 h2 _ _ hi
      rcases List.mem_append.1 ((hps j b').2 hi) with hm | hm
      · have := hc2 _ hm; simp only at this; omega
      · rcases List.mem_cons.1 hm with e | hm
        · simp only [Prod.mk.injEq] at e; omega
        · have := hgt _ hm; simp only at this; omega
    have hch : c ≤ h := by
      rcases hc3 with rfl | ⟨p, hp, rfl⟩
      · omega
      · exact hlt p hp
    have hci : c ≤ i := by
      rcases hc3 with rfl | ⟨p, hp, rfl⟩
      · omega
      · rcases Nat.lt_trichotomy p.1 i with h1 | h1 | h1
        · exact h1
        · exfalso
          have hpi : Inv t l p.1 p.2 := (hps p.1 p.2).1 (by simp [hp])
          have := inv_unique hl hpi (by rw [h1]; exact hx) hxa
          rw [h1, this] at hpi
          exact hni hpi
        · exact absurd ⟨i, a, x, h1, hni, hx, hxa, z, w, hza, hz, hw⟩ (hfirst p hp)
    obtain ⟨X, hX, hXb, hXr⟩ := id hinv
    have hhl := (List.getElem?_eq_some_iff.1 hX).1
    have hY : t[h - 1]? = some t[h - 1] := List.getElem?_eq_getElem (by omega)
    obtain ⟨yb, hyb⟩ := List.mem_iff_getElem?.1 (hsub _ (List.mem_of_getElem? hY))
    generalize hYe : t[h - 1] = Y at hY hyb
    have hYni := hstay (h - 1) Y yb (by omega) (by omega) hY hyb
    have hzy : z < yb := by
      rcases Nat.lt_or_ge i (h - 1) with h1 | h1
      · have : a ≤ yb := by
          refine Decidable.byContradiction fun h2 => ?_
          exact hni ⟨x, hx, hxa, h - 1, yb, Y, h1, hY, hyb, by omega⟩
        omega
      · have : i = h - 1 := by omega
        subst this
        rw [hx] at hY; cases hY
        have := nodup_get hl hxa hyb
        omega
    have hXY : X ≠ Y := by
      rintro rfl
      have := nodup_get ht hX hY
      omega
    have hYc : Y ∉ t.take c := by
      intro hm
      obtain ⟨j, hj, hjy⟩ := mem_take_iff.1 hm
      have := nodup_get ht hY hjy
      omega
    -- what is in front of `Y`
    obtain ⟨u, v, el, hul⟩ := get_split hyb
    have hpos : ∀ {j y}, j < yb → l[j]? = some y → y ∈ u := by
      intro j y hj hy
      rw [el, List.getElem?_append_left (by omega)] at hy
      exact List.mem_of_getElem? hy
    have hfn : (fronted t l c).Nodup := (fronted_perm ht hl hsub c).nodup_iff.2 hl
    have ef : fronted t l c = (t.take c ++ u.filter (fun y => decide (y ∉ t.take c))) ++ Y :: v.filter (fun y => decide (y ∉ t.take c)) := by
      unfold fronted
      conv => lhs; rw [el]
      rw [List.filter_append, List.filter_cons_of_pos (by simpa using hYc), List.append_assoc]
    generalize hU : t.take c ++ u.filter (fun y => decide (y ∉ t.take c)) = U at ef
    generalize hV : v.filter (fun y => decide (y ∉ t.take c)) = V at ef
    have hwz : w ∉ t.take (h - 1) := fun hm => hw (List.mem_of_mem_take hm)
    have hUmem : ∀ y ∈ w :: t.take (h - 1), y ∈ U.filter (· ≠ X) := by
      intro y hy
      rw [List.mem_filter]
      rcases List.mem_cons.1 hy with rfl | hy
      · refine ⟨?_, ?_⟩
        · rw [← hU, List.mem_append, List.mem_filter]
          refine .inr ⟨hpos hzy hz, ?_⟩
          rw [decide_eq_true_eq]
          exact fun hm => hw (List.mem_of_mem_take hm)
        · rw [decide_eq_true_eq]
          rintro rfl
          exact hw (List.mem_of_getElem? hX)
      · obtain ⟨j, hj, hjy⟩ := mem_take_iff.1 hy
        refine ⟨?_, ?_⟩
        · rw [← hU, List.mem_append, List.mem_filter]
          by_cases hjc : j < c
          · exact .inl (mem_take_iff.2 ⟨j, hjc, hjy⟩)
          · refine .inr ⟨?_, ?_⟩
            · obtain ⟨jb, hjb⟩ := List.mem_iff_getElem?.1 (hsub _ (List.mem_of_getElem? hjy))
              have hnj := hstay j y jb (by omega) (by omega) hjy hjb
              have hle : jb ≤ yb := by
                refine Decidable.byContradiction fun h2 => ?_
                exact hnj ⟨y, hjy, hjb, h - 1, yb, Y, by omega, hY, hyb, by omega⟩
              have hne : jb ≠ yb := by
                rintro rfl
                rw [hyb] at hjb
                cases hjb
                have := nodup_get ht hY hjy
                omega
              exact hpos (by omega) hjb
            · rw [decide_eq_true_eq]
              intro hm
              obtain ⟨j', hj', hjy'⟩ := mem_take_iff.1 hm
              have := nodup_get ht hjy hjy'
              omega
        · rw [decide_eq_true_eq]
          rintro rfl
          have := nodup_get ht hX hjy
          omega
    have hUlen : h ≤ (U.filter (· ≠ X)).length := by
      have := @nodup_length_le asciiUcd _ _ (w :: t.take (h - 1)) (U.filter (· ≠ X)) (by
        rw [List.nodup_cons]
        exact ⟨hwz, (List.take_sublist _ _).nodup ht⟩) hUmem
      simp only [List.length_cons, List.length_take] at this
      omega
    -- the move
    have hcd := fronted_drop ht hl hsub h321 hinv hch
    have hget : (fronted t l c)[b]? = some X := by
      have : ((fronted t l c).drop b)[0]? = (l.drop b)[0]? := by rw [hcd]
      rw [List.getElem?_drop, List.getElem?_drop, Nat.add_zero, hXb] at this
      exact this
    have hhb := inv_le ht hl hsub h321 hinv
    have hmv := move_put hfn hget hhb
    have hXYsub : [X, Y].Sublist (putAt h X (fronted t l c)) := by
      unfold putAt
      rw [ef, List.filter_append, List.filter_cons_of_pos (by simpa using hXY.symm)]
      rw [List.drop_append_of_le_length hUlen]
      refine List.Sublist.trans ?_ (List.sublist_append_right _ _)
      refine List.Sublist.cons_cons _ ?_
      rw [List.singleton_sublist]
      simp
    obtain ⟨r', hr', _, hfil⟩ := moves_perm ht hl hsub h321 p2 (putAt h X (fronted t l c)) (b + 1)
      ((put_perm hfn (List.mem_of_getElem? hget)).trans (fronted_perm ht hl hsub c)) (by
        rw [put_drop hfn hget hhb]
        have : ((fronted t l c).drop b).drop 1 = (l.drop b).drop 1 := by rw [hcd]
        rwa [List.drop_drop, List.drop_drop] at this) (by
        intro p hp
        have hpi : Inv t l p.1 p.2 := (hps p.1 p.2).1 (by simp [hp])
        exact ⟨hpi, inv_mono ht hl hsub h321 hinv hpi (hgt p hp)⟩) hinc3
    have hrr : r' = r := by
      rw [movesFrom_append, hc1] at hr
      change movesFrom l ((h, b) :: p2) (fronted t l c) = _ at hr
      rw [movesFrom, hXb] at hr
      simp only [hmv, Res.bind_ok, hr'] at hr
      cases hr
      rfl
    subst hrr
    have hsubl : [X, Y].Sublist r' := by
      have h1 := hXYsub.filter (fun y => decide (y = X ∨ y = Y))
      have h2 : [X, Y].filter (fun y => decide (y = X ∨ y = Y)) = [X, Y] := List.filter_eq_self.2 (by simp)
      rw [h2, ← hfil] at h1
      · exact h1.trans List.filter_sublist
      · intro p hp y hy
        obtain ⟨y', hy', hyp, _⟩ := (hps p.1 p.2).1 (List.mem_append_right _ (List.mem_cons_of_mem _ hp))
        rw [hy] at hyp
        cases hyp
        have := hgt p hp
        rw [decide_eq_false_iff_not]
        rintro (rfl | rfl)
        · have := nodup_get ht hX hy'
          omega
        · have := nodup_get ht hY hy'
          omega
    have h1 := hsubl.filter (fun x => decide (x ∈ t))
    rw [hrt] at h1
    have h2 : [X, Y].filter (fun x => decide (x ∈ t)) = [X, Y] := List.filter_eq_self.2 (by
      intro y hy
      rw [decide_eq_true_eq]
      simp only [List.mem_cons, List.not_mem_nil, or_false] at hy
      rcases hy with rfl | rfl
      · exact List.mem_of_getElem? hX
      · exact List.mem_of_getElem? hY)
    rw [h2] at h1
    obtain ⟨k1, k2, hk, g1, g2⟩ : ∃ k1 k2, k1 < k2 ∧ t[k1]? = some X ∧ t[k2]? = some Y := by
      obtain ⟨s1, s2, e1, e2, e3⟩ := List.cons_sublist_iff.1 h1
      rw [List.singleton_sublist] at e3
      obtain ⟨m1, hm1⟩ := List.mem_iff_getElem?.1 e2
      obtain ⟨m2, hm2⟩ := List.mem_iff_getElem?.1 e3
      have := (List.getElem?_eq_some_iff.1 hm1).1
      refine ⟨m1, s1.length + m2, by omega, ?_, ?_⟩
      · rw [e1, List.getElem?_append_left this]; exact hm1
      · rw [e1, List.getElem?_append_right (by omega), Nat.add_sub_cancel_left]; exact hm2
    have := nodup_get ht hX g1
    have := nodup_get ht hY g2
    omega
  · intro hno
    obtain ⟨c, hc1, _, hc2, hc3⟩ := moves_fronted ht hl hsub h321 ps 0 (fun p hp => ⟨(hps p.1 p.2).1 hp, by omega⟩) hinc (by
      intro p hp j y b' _ hj hnm hy hyb
      have hnj : ¬ Inv t l j b' := fun hi => hnm ((hps j b').2 hi)
      refine ⟨hnj, ?_⟩
      intro z' y' hz' hy'
      refine Decidable.byContradiction fun hn => ?_
      exact hno ⟨j, p.1, b', p.2, hj, (hps p.1 p.2).1 hp, hnj, ⟨y, hy, hyb⟩, z', y', hz', hy', hn⟩)
    rw [hf0, hr] at hc1
    cases hc1
    apply fronted_filter ht hl hsub
    · rcases hc3 with rfl | ⟨p, hp, rfl⟩
      · omega
      · obtain ⟨y, hy, _⟩ := (hps p.1 p.2).1 hp
        exact (List.getElem?_eq_some_iff.1 hy).1
    · intro j b hj hi
      have := hc2 _ ((hps j b).2 hi)
      simp only at this
      omega

end
end
end Bulloak
