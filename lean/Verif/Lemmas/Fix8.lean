import Verif.Lemmas.Fix7
/-! # Lemmas about fixing: reversed triples are never sorted -/

namespace Bulloak
open Spec
set_option linter.unusedSectionVars false

section
variable {α : Type} [DecidableEq α]

/-- One move: an element that is not moved gets at most one place to the right, and only if the removed place is behind it and
the place of insertion is not. -/
theorem move_bound {cur cur' : List α} {a i B : Nat} {x y : α} (hxy : x ≠ y) (h : moveTo cur a i x = .ok cur')
    (hB : ∀ q, cur[q]? = some y → q ≤ B) :
    (∀ q, cur'[q]? = some y → q ≤ B + 1) ∧ (a ≤ B ∨ B < i → ∀ q, cur'[q]? = some y → q ≤ B) := by
  unfold moveTo at h
  split at h
  · simp only at h
    split at h
    · rename_i h1 h2
      have e := Res.ok.inj h
      subst e
      have key : ∀ q, ((cur.eraseIdx a).insertIdx i x)[q]? = some y → q ≤ B ∨ (q ≤ B + 1 ∧ i < q ∧ q ≤ a) := by
        intro q hq
        rw [List.getElem?_insertIdx] at hq
        split at hq
        · rw [List.getElem?_eraseIdx] at hq
          split at hq
          · exact Or.inl (hB q hq)
          · have := hB _ hq; left; omega
        · split at hq
          · split at hq
            · exact absurd (Option.some.inj hq) hxy
            · cases hq
          · rw [List.getElem?_eraseIdx] at hq
            split at hq
            · have := hB _ hq; right; omega
            · have := hB _ hq; left; omega
      refine ⟨fun q hq => ?_, fun hc q hq => ?_⟩
      · rcases key q hq with h | h <;> omega
      · rcases key q hq with h | h <;> omega
    · cases h
  · cases h

/-- How many of the moves can shift the element with tree index `iy` and contract index `py` to the right. -/
def shifts (iy py : Nat) (ps : List (Nat × Nat)) : List (Nat × Nat) := ps.filter (fun p => decide (p.1 < iy ∧ py < p.2))

theorem moves_bound {l : List α} {y : α} {iy py : Nat} (hpy : l[py]? = some y) (hl : l.Nodup) : ∀ (ps : List (Nat × Nat)) (cur r : List α) (B : Nat),
    movesFrom l ps cur = .ok r → (∀ p ∈ ps, p.1 ≠ iy ∧ p.2 ≠ py) → (∀ q, cur[q]? = some y → q ≤ B) → py ≤ B →
    B + (shifts iy py ps).length ≤ iy → ∀ q, r[q]? = some y → q ≤ B + (shifts iy py ps).length
  | [], cur, r, B, h, _, hB, _, _, q, hq => by
    rw [movesFrom] at h
    have := Res.ok.inj h
    subst this
    have := hB q hq
    omega
  | (i, a) :: ps, cur, r, B, h, hne, hB, hpB, hle, q, hq => by
    rw [movesFrom] at h
    obtain ⟨h1, h2⟩ := hne (i, a) (by simp)
    simp only at h1 h2
    cases hx : l[a]? with
    | none => rw [hx] at h; cases h
    | some x =>
      rw [hx] at h
      simp only at h
      obtain ⟨cur', hc, hr⟩ := Res.bind_eq_ok.1 h
      have hxy : x ≠ y := by
        intro e
        rw [e] at hx
        exact h2 (nodup_get hl hx hpy)
      obtain ⟨m1, m2⟩ := move_bound hxy hc hB
      by_cases hD : i < iy ∧ py < a
      · have e : shifts iy py ((i, a) :: ps) = (i, a) :: shifts iy py ps := by
          unfold shifts; rw [List.filter_cons, if_pos (by simpa using hD)]
        rw [e] at hle ⊢
        simp only [List.length_cons] at hle ⊢
        have := moves_bound hpy hl ps cur' r (B + 1) hr (fun p hp => hne p (by simp [hp])) m1 (by omega) (by omega) q hq
        omega
      · have e : shifts iy py ((i, a) :: ps) = shifts iy py ps := by
          unfold shifts; rw [List.filter_cons, if_neg (by simpa using hD)]
        rw [e] at hle ⊢
        exact moves_bound hpy hl ps cur' r B hr (fun p hp => hne p (by simp [hp])) (m2 (by omega)) hpB hle q hq

theorem shifts_append (iy py : Nat) (a b : List (Nat × Nat)) : shifts iy py (a ++ b) = shifts iy py a ++ shifts iy py b :=
  List.filter_append ..

theorem movesFrom_append {l : List α} : ∀ (a b : List (Nat × Nat)) (cur : List α),
    movesFrom l (a ++ b) cur = (movesFrom l a cur).bind (movesFrom l b)
  | [], b, cur => rfl
  | (i, j) :: a, b, cur => by
    simp only [List.cons_append, movesFrom]
    cases l[j]? with
    | none => rfl
    | some x =>
      simp only
      cases moveTo cur j i x with
      | ok c => exact movesFrom_append a b c
      | err e => cases e
      | panic => rfl

/-- The element in the middle of a reversed triple, at index `b` of the contract. -/
def Mid (t l : List α) (b : Nat) : Prop :=
  ∃ (i j k a c : Nat) (x y z : α), i < j ∧ j < k ∧ t[i]? = some x ∧ t[j]? = some y ∧ t[k]? = some z ∧
    l[a]? = some x ∧ l[b]? = some y ∧ l[c]? = some z ∧ c < b ∧ b < a

theorem exists_min {P : Nat → Prop} {b : Nat} (h : P b) : ∃ m, P m ∧ ∀ c, c < m → ¬ P c := by
  induction b using Nat.strongRecOn with
  | _ b ih =>
    by_cases hc : ∃ c, c < b ∧ P c
    · obtain ⟨c, h1, h2⟩ := hc
      exact ih c h1 h2
    · exact ⟨b, h, fun c h1 h2 => hc ⟨c, h1, h2⟩⟩

theorem exists_max {P : Nat → Prop} {b n : Nat} (h : P b) (hn : ∀ c, P c → c < n) : ∃ m, P m ∧ ∀ c, m < c → ¬ P c := by
  obtain ⟨d, ⟨m, hm, hd⟩, hmin⟩ := exists_min (P := fun d => ∃ m, P m ∧ m + d = n) (b := n - b) ⟨b, h, by have := hn b h; omega⟩
  refine ⟨m, hm, fun c hc hP => ?_⟩
  have := hn c hP
  exact hmin (n - c) (by omega) ⟨c, hP, by omega⟩

/-- The moves of the order fix sort no list with a reversed triple. -/
theorem moves_unsorted [U : Ucd] {t l : List α} (hp : l.Perm t) (hn : t.Nodup) {pairs : List (Nat × Nat)}
    (hs : Increasing (pairs.map Prod.fst)) (hm : ∀ i a, (i, a) ∈ pairs ↔ Inv t l i a) (h : movesFrom l pairs l = .ok t) : No321 t l := by
  have hl : l.Nodup := hp.nodup_iff.2 hn
  intro i j k a b c x y z hij hjk hx hy hz hx' hy' hz' hlt
  have hmid : Mid t l b := ⟨i, j, k, a, c, x, y, z, hij, hjk, hx, hy, hz, hx', hy', hz', hlt.1, hlt.2⟩
  clear hij hjk hx hy hz hx' hy' hz' hlt
  clear i j k a c x y z
  obtain ⟨b, ⟨i, j, k, a, c, x, y, z, hij, hjk, hx, hy, hz, hx', hy', hz', hcb, hba⟩, hmin⟩ := exists_min (P := Mid t l) hmid
  have hbl : b < l.length := (List.getElem?_eq_some_iff.1 hy').1
  -- an element behind `j` in the tree, before `b` in the contract, that stays
  obtain ⟨c0, k0, z0, hk0, hz0, hz0', hc0b, hst0⟩ : ∃ (c0 k0 : Nat) (z0 : α), j < k0 ∧ t[k0]? = some z0 ∧ l[c0]? = some z0 ∧ c0 < b ∧ ∀ (i a : Nat), l[a]? = some z0 → ¬ Inv t l i a := by
    obtain ⟨c0, ⟨k0, z0, h1, h2, h3⟩, hm0⟩ := exists_min (P := fun (c : Nat) => ∃ (k : Nat) (z : α), j < k ∧ t[k]? = some z ∧ l[c]? = some z) ⟨k, z, hjk, hz, hz'⟩
    refine ⟨c0, k0, z0, h1, h2, h3, ?_, ?_⟩
    · rcases Nat.lt_or_ge c c0 with h | h
      · exact absurd ⟨k, z, hjk, hz, hz'⟩ (hm0 c h)
      · omega
    · rintro i' a' ha' ⟨w, hw1, hw2, j', b', v, hj', hv, hv', hlt⟩
      have e1 := nodup_get hl ha' h3
      subst e1
      rw [h3] at hw2
      have e2 := Option.some.inj hw2
      subst e2
      have e3 := nodup_get hn hw1 h2
      subst e3
      exact hm0 b' hlt ⟨j', v, by omega, hv, hv'⟩
  -- the last one that stays before `b`
  obtain ⟨py, ⟨hpyb, w, hw, hst⟩, hmax⟩ := exists_max (P := fun (c : Nat) => c < b ∧ ∃ w, l[c]? = some w ∧ ∀ (i a : Nat), l[a]? = some w → ¬ Inv t l i a)
    (n := b) ⟨hc0b, z0, hz0', hst0⟩ (fun c h => h.1)
  obtain ⟨iy, hiy⟩ := List.mem_iff_getElem?.1 (hp.mem_iff.1 (List.mem_of_getElem? hw))
  have hjiy : j < iy := by
    rcases Nat.lt_trichotomy py c0 with h | h | h
    · exact absurd ⟨hc0b, z0, hz0', hst0⟩ (hmax c0 h)
    · subst h
      rw [hz0'] at hw
      have := Option.some.inj hw
      subst this
      have := nodup_get hn hiy hz0
      omega
    · rcases Nat.lt_trichotomy iy k0 with h' | h' | h'
      · exact absurd ⟨w, hiy, hw, k0, c0, z0, h', hz0, hz0', h⟩ (hst iy py hw)
      · subst h'
        rw [hz0] at hiy
        have := Option.some.inj hiy
        subst this
        have := nodup_get hl hw hz0'
        omega
      · omega
  -- the move of the middle element
  have hmemj : (j, b) ∈ pairs := (hm j b).2 ⟨y, hy, hy', k, c, z, hjk, hz, hz', hcb⟩
  have hmemi : (i, a) ∈ pairs := (hm i a).2 ⟨x, hx, hx', j, b, y, hij, hy, hy', hba⟩
  obtain ⟨pre, post, hpp⟩ := List.append_of_mem hmemj
  subst hpp
  have hinc := hs
  unfold Increasing at hinc
  rw [List.pairwise_map] at hinc
  have hpre : ∀ i' a', i' < j → (i', a') ∈ pre ++ (j, b) :: post → (i', a') ∈ pre := by
    intro i' a' hlt hmem
    rcases List.mem_append.1 hmem with h | h
    · exact h
    · have := (List.pairwise_cons.1 (List.pairwise_append.1 hinc).2.1).1
      rcases List.mem_cons.1 h with h | h
      · simp only [Prod.mk.injEq] at h; omega
      · have := this _ h
        simp only at this; omega
  have hstay : ∀ p ∈ pre ++ (j, b) :: post, p.1 ≠ iy ∧ p.2 ≠ py := by
    rintro ⟨i', a'⟩ hmem
    have hI := (hm i' a').1 hmem
    refine ⟨?_, ?_⟩
    · rintro e
      simp only at e
      subst e
      obtain ⟨v, hv1, hv2, hrest⟩ := id hI
      rw [hiy] at hv1
      have := Option.some.inj hv1
      subst this
      exact hst _ _ hv2 hI
    · rintro e
      simp only at e
      subst e
      exact hst _ _ hw hI
  -- the tree indices of the moves are different
  have hfst : ∀ (ps : List (Nat × Nat)), ps.Sublist (pre ++ (j, b) :: post) → (ps.map (fun p => t[p.1]?)).Nodup := by
    intro ps hsub
    rw [List.nodup_iff_pairwise_ne, List.pairwise_map]
    refine (List.Pairwise.sublist hsub hinc).imp_of_mem ?_
    rintro ⟨i1, a1⟩ ⟨i2, a2⟩ h1 h2 hlt e
    obtain ⟨v, hv, _⟩ := (hm i1 a1).1 (hsub.subset h1)
    simp only at e hlt
    rw [hv] at e
    have := nodup_get hn hv e.symm
    omega
  -- everything before the element that stays precedes it in the tree
  have hbefore : ∀ (c : Nat) v, c < py → l[c]? = some v → ∃ (iv : Nat), iv < iy ∧ t[iv]? = some v := by
    intro c v hc hv
    obtain ⟨iv, hiv⟩ := List.mem_iff_getElem?.1 (hp.mem_iff.1 (List.mem_of_getElem? hv))
    refine ⟨iv, ?_, hiv⟩
    rcases Nat.lt_trichotomy iv iy with h | h | h
    · exact h
    · subst h
      rw [hiy] at hiv
      have := Option.some.inj hiv
      subst this
      have := nodup_get hl hw hv
      omega
    · exact absurd ⟨w, hiy, hw, iv, c, v, h, hiv, hv, hc⟩ (hst iy py hw)
  have hpylt : py < l.length := by omega
  have hiylt : iy < t.length := (List.getElem?_eq_some_iff.1 hiy).1
  have hcount : py + (shifts iy py (pre ++ (j, b) :: post)).length ≤ iy := by
    have := nodup_length_le (a := (l.take py).map some ++ (shifts iy py (pre ++ (j, b) :: post)).map (fun p => t[p.1]?)) (b := (t.take iy).map some) (by
      rw [List.nodup_append]
      refine ⟨?_, hfst _ List.filter_sublist, ?_⟩
      · rw [List.nodup_iff_pairwise_ne, List.pairwise_map]
        have := (List.nodup_iff_pairwise_ne.1 hl).sublist (List.take_sublist py l)
        exact this.imp (fun h e => h (Option.some.inj e))
      · intro u hu v hv e
        subst e
        obtain ⟨v, hv', rfl⟩ := List.mem_map.1 hu
        obtain ⟨⟨i', a'⟩, hp', he⟩ := List.mem_map.1 hv
        obtain ⟨h1, h2⟩ := List.mem_filter.1 hp'
        obtain ⟨v', hv1, hv2, _⟩ := (hm i' a').1 h1
        simp only [decide_eq_true_eq] at he h2
        rw [hv1] at he
        have := Option.some.inj he
        subst this
        obtain ⟨q, hq, hq2⟩ := mem_take_iff.1 hv'
        have := nodup_get hl hq2 hv2
        omega) (by
      intro u hu
      rcases List.mem_append.1 hu with h | h
      · obtain ⟨v, hv, rfl⟩ := List.mem_map.1 h
        obtain ⟨q, hq, hq2⟩ := mem_take_iff.1 hv
        obtain ⟨iv, h1, h2⟩ := hbefore q v hq hq2
        exact List.mem_map.2 ⟨v, mem_take_iff.2 ⟨iv, h1, h2⟩, rfl⟩
      · obtain ⟨⟨i', a'⟩, hp', rfl⟩ := List.mem_map.1 h
        obtain ⟨h1, h2⟩ := List.mem_filter.1 hp'
        obtain ⟨v', hv1, hv2, _⟩ := (hm i' a').1 h1
        simp only [decide_eq_true_eq] at h2
        exact List.mem_map.2 ⟨v', mem_take_iff.2 ⟨i', h2.1, hv1⟩, hv1.symm⟩)
    simp only [List.length_append, List.length_map, List.length_take] at this
    omega
  -- the moves before that of the middle element shift the one that stays beyond it
  have hshift : b ≤ py + (shifts iy py pre).length := by
    have hmem' : ∀ (c : Nat) v, py < c → c < b → l[c]? = some v → ∃ (iv : Nat), (iv, c) ∈ shifts iy py pre ∧ t[iv]? = some v := by
      intro c v h1 h2 hv
      obtain ⟨iv, hiv⟩ := List.mem_iff_getElem?.1 (hp.mem_iff.1 (List.mem_of_getElem? hv))
      have hinv : Inv t l iv c := by
        refine Classical.byContradiction fun hno => hmax c h1 ⟨h2, v, hv, ?_⟩
        intro i' a' ha' hI
        have e1 := nodup_get hl ha' hv
        subst e1
        obtain ⟨v', hv1, hv2, _⟩ := id hI
        rw [hv] at hv2
        have := Option.some.inj hv2
        subst this
        have := nodup_get hn hiv hv1
        subst this
        exact hno hI
      have hivj : iv < j := by
        rcases Nat.lt_trichotomy iv j with h | h | h
        · exact h
        · subst h
          rw [hy] at hiv
          have := Option.some.inj hiv
          subst this
          have := nodup_get hl hv hy'
          omega
        · obtain ⟨v', hv1, hv2, k', c', u, hk', hu, hu', hlt⟩ := id hinv
          exact absurd ⟨i, iv, k', a, c', x, v, u, by omega, hk', hx, hiv, hu, hx', hv, hu', hlt, by omega⟩ (hmin c h2)
      refine ⟨iv, List.mem_filter.2 ⟨hpre iv c hivj ((hm iv c).2 hinv), ?_⟩, hiv⟩
      simp only [decide_eq_true_eq]
      omega
    have hx0 : (i, a) ∈ shifts iy py pre := by
      refine List.mem_filter.2 ⟨hpre i a hij hmemi, ?_⟩
      simp only [decide_eq_true_eq]
      omega
    have := nodup_length_le (a := some x :: ((l.take b).drop (py + 1)).map some) (b := (shifts iy py pre).map (fun p => t[p.1]?)) (by
      rw [List.nodup_cons]
      refine ⟨?_, ?_⟩
      · intro hc
        obtain ⟨v, hv, he⟩ := List.mem_map.1 hc
        have := Option.some.inj he
        subst this
        obtain ⟨q, hq, hq2⟩ := mem_take_iff.1 (List.mem_of_mem_drop hv)
        have := nodup_get hl hq2 hx'
        omega
      · rw [List.nodup_iff_pairwise_ne, List.pairwise_map]
        have := (List.nodup_iff_pairwise_ne.1 hl).sublist ((List.drop_sublist (py + 1) _).trans (List.take_sublist b l))
        exact this.imp (fun h e => h (Option.some.inj e))) (by
      intro u hu
      rcases List.mem_cons.1 hu with rfl | h
      · exact List.mem_map.2 ⟨_, hx0, hx⟩
      · obtain ⟨v, hv, rfl⟩ := List.mem_map.1 h
        obtain ⟨q, hq⟩ := List.mem_iff_getElem?.1 hv
        rw [List.getElem?_drop, List.getElem?_take] at hq
        split at hq
        · obtain ⟨iv, h1, h2⟩ := hmem' (py + 1 + q) v (by omega) (by assumption) hq
          exact List.mem_map.2 ⟨_, h1, h2⟩
        · cases hq)
    simp only [List.length_cons, List.length_map, List.length_drop, List.length_take] at this
    omega
  rw [shifts_append] at hcount
  have e : shifts iy py ((j, b) :: post) = (j, b) :: shifts iy py post := by
    unfold shifts; rw [List.filter_cons, if_pos (by simp only [decide_eq_true_eq]; omega)]
  rw [e] at hcount
  simp only [List.length_append, List.length_cons] at hcount
  rw [movesFrom_append] at h
  obtain ⟨r1, h1, h2⟩ := Res.bind_eq_ok.1 h
  have b1 := moves_bound (iy := iy) hw hl pre l r1 py h1 (fun p hp => hstay p (by simp [hp])) (fun q hq => by rw [nodup_get hl hq hw]; exact Nat.le_refl _)
    (Nat.le_refl _) (by omega)
  rw [movesFrom, hy'] at h2
  simp only at h2
  obtain ⟨r2, h3, h4⟩ := Res.bind_eq_ok.1 h2
  have hyw : y ≠ w := by
    intro e
    subst e
    have := nodup_get hl hw hy'
    omega
  have b2 := (move_bound hyw h3 b1).2 (Or.inl hshift)
  have b3 := moves_bound (iy := iy) hw hl post r2 t _ h4 (fun p hp => hstay p (by simp [hp])) b2 (by omega) (by omega) iy hiy
  omega

end

theorem moves_length {α : Type} {l : List α} : ∀ {ps : List (Nat × Nat)} {cur r : List α}, movesFrom l ps cur = .ok r → r.length = cur.length
  | [], cur, r, h => by rw [movesFrom] at h; rw [Res.ok.inj h]
  | (i, a) :: ps, cur, r, h => by
    rw [movesFrom] at h
    cases hx : l[a]? with
    | none => rw [hx] at h; cases h
    | some x =>
      rw [hx] at h
      simp only at h
      obtain ⟨cur', hc, hr⟩ := Res.bind_eq_ok.1 h
      rw [moves_length hr]
      unfold moveTo at hc
      split at hc
      · simp only at hc
        split at hc
        · rename_i h1 h2
          rw [← Res.ok.inj hc, List.length_insertIdx, if_pos h2, List.length_eraseIdx, if_pos h1]
          omega
        · cases hc
      · cases hc

section
variable [U : Ucd] {fns : List HFn} {L : Layout} {ks : List Nat}

theorem Shuffled.flen (h : Shuffled fns L ks) : fns.length = (ks.filterMap (L.parts[·]?)).length := by
  have h1 := h.partsPerm.length_eq
  have h2 : L.parts.length = L.segs.length := partsFrom_length _ _
  have h3 := h.perm.length_eq
  have h4 := each_len h.at_
  simp only [List.length_range] at h3
  omega

theorem Shuffled.pos (h : Shuffled fns L ks) (hd : Distinct fns) {i a : Nat} {x : SolPart}
    (hx : (ks.filterMap (L.parts[·]?))[i]? = some x) (ha : L.parts[a]? = some x) : ∃ f, fns[i]? = some f ∧ At L.parts f a := by
  have hpn : L.parts.Nodup := h.partsPerm.nodup_iff.2 (shuffled_nodup h hd)
  have hi : i < fns.length := by rw [h.flen]; exact (List.getElem?_eq_some_iff.1 hx).1
  obtain ⟨k, p, _, _, hat, hp, _, _, _, hp', _⟩ := h.get (List.getElem?_eq_getElem hi)
  rw [hx] at hp'
  have := Option.some.inj hp'
  subst this
  have := nodup_get hpn ha hp
  subst this
  exact ⟨_, List.getElem?_eq_getElem hi, hat⟩

theorem Shuffled.pos' (h : Shuffled fns L ks) {i a : Nat} {f : HFn} (hf : fns[i]? = some f) (ha : At L.parts f a) :
    ∃ x, (ks.filterMap (L.parts[·]?))[i]? = some x ∧ L.parts[a]? = some x := by
  obtain ⟨k, p, _, _, hat, hp, _, _, _, hp', _⟩ := h.get hf
  have := at_unique hat ha
  subst this
  exact ⟨p, hp', hp⟩

theorem Shuffled.no321 (h : Shuffled fns L ks) (hd : Distinct fns) :
    No321 (ks.filterMap (L.parts[·]?)) L.parts ↔ NoReversedTriple fns L.parts := by
  constructor
  · intro h3 i j k f g q a b c hij hjk hf hg hq haf hag haq
    obtain ⟨x, hx, hx'⟩ := h.pos' hf haf
    obtain ⟨y, hy, hy'⟩ := h.pos' hg hag
    obtain ⟨z, hz, hz'⟩ := h.pos' hq haq
    exact h3 i j k a b c x y z hij hjk hx hy hz hx' hy' hz'
  · intro h3 i j k a b c x y z hij hjk hx hy hz hx' hy' hz'
    obtain ⟨f, hf, haf⟩ := h.pos hd hx hx'
    obtain ⟨g, hg, hag⟩ := h.pos hd hy hy'
    obtain ⟨q, hq, haq⟩ := h.pos hd hz hz'
    exact h3 i j k f g q a b c hij hjk hf hg hq haf hag haq

theorem Shuffled.moves (h : Shuffled fns L ks) (hd : Distinct fns) (ctx : Context) :
    movesFrom L.parts (unsortedPairs (presentAndMissing ctx L.contract 0 fns).1) L.parts = .ok (ks.filterMap (L.parts[·]?)) ↔
      NoReversedTriple fns L.parts := by
  have hinc : Increasing ((unsortedPairs (presentAndMissing ctx L.contract 0 fns).1).map Prod.fst) :=
    List.Pairwise.sublist ((unsorted_sublist _).map Prod.fst) (presentAndMissing_present ctx L.contract fns 0).inc
  have hmem : ∀ i a, (i, a) ∈ unsortedPairs (presentAndMissing ctx L.contract 0 fns).1 ↔ Inv (ks.filterMap (L.parts[·]?)) L.parts i a := by
    intro i a
    rw [mem_inversions]
    constructor
    · rintro ⟨f, hf, ha, j, g, b, hij, hg, hb, hlt⟩
      obtain ⟨x, hx, hx'⟩ := h.pos' hf ha
      obtain ⟨y, hy, hy'⟩ := h.pos' hg hb
      exact ⟨x, hx, hx', j, b, y, hij, hy, hy', hlt⟩
    · rintro ⟨x, hx, hx', j, b, y, hij, hy, hy', hlt⟩
      obtain ⟨f, hf, ha⟩ := h.pos hd hx hx'
      obtain ⟨g, hg, hb⟩ := h.pos hd hy hy'
      exact ⟨f, hf, ha, j, g, b, hij, hg, hb, hlt⟩
  rw [← h.no321 hd]
  exact ⟨moves_unsorted h.partsPerm (shuffled_nodup h hd) hinc hmem, fun h3 => moves_ok h.partsPerm (shuffled_nodup h hd) h3 hinc hmem⟩

/-- What the order fix writes for a contract made of the functions of the tree, and when that is in order. -/
theorem fixOrderSource_iff {ctx : Context} {n : Str} (hh : ctx.hir = ⟨[⟨n, fns⟩]⟩)
    (hsrc : ctx.src = L.text) (hpt : FirstContract ctx.pt L.contract) (hd : Distinct fns) (h : Shuffled fns L ks)
    (hp : ∀ f ∈ fns, Present L.parts f)
    (hA : Ascii L.text) (ht : ∀ s ∈ L.segs.map Prod.fst, s.text ≠ []) 
    (hne : L.segs ≠ []) {vs : List Violation} (hv : checkCtx ctx = .ok vs) :
    ∃ ss mid, fixOrderSource ((vs.filter (fun v => v.kind.isOrder)).map Violation.kind) L.contract ⟨n, fns⟩ ctx.src =
      .ok (L.front ++ joinSep c!"\n\n" (ss.map Seg.text) ++ mid ++ '}' :: L.rest) ∧ ss.length = fns.length ∧
      (∀ s ∈ ss, s ∈ L.segs.map Prod.fst) ∧ (Each Seg.Is fns ss ↔ NoReversedTriple fns L.parts) := by
  have hpn : L.parts.Nodup := h.partsPerm.nodup_iff.2 (shuffled_nodup h hd)
  have hpl : L.parts.length = L.segs.length := partsFrom_length _ _
  have hallfn : ∀ p ∈ L.parts, ∃ g m, p = .fn g ∧ g.name = some m ∧ m ∈ fns.map HFn.identifier := by
    intro p hpm
    obtain ⟨i, hi⟩ := List.mem_iff_getElem?.1 (h.partsPerm.mem_iff.1 hpm)
    have hif : i < fns.length := by rw [h.flen]; exact (List.getElem?_eq_some_iff.1 hi).1
    obtain ⟨k, q, _, _, _, _, _, _, hm, hq, _⟩ := h.get (List.getElem?_eq_getElem hif)
    rw [hi] at hq
    have := Option.some.inj hq
    subst this
    cases p with
    | other => cases hm
    | fn g => exact ⟨g, _, rfl, hm.1, List.mem_map.2 ⟨_, List.getElem_mem hif, rfl⟩⟩
  have hnm : ∀ g, SolPart.fn g ∈ L.parts → g.name ≠ none := by
    intro g hg e
    obtain ⟨g', m, e1, e2, _⟩ := hallfn _ hg
    cases e1
    rw [e] at e2; cases e2
  obtain ⟨r, q, ts, mid, hr, hr2, hq, _, hts, hfix⟩ := fixOrderSource_run hh hsrc hpt hd hp hA ht hnm hne hv
  rw [keepKnown_all (fun p hp => hallfn p (hr2 p hp))] at hq
  have := Res.ok.inj hq
  subst this
  obtain ⟨ss, hss⟩ := each_exists (R := fun p s => ∃ k, L.parts[k]? = some p ∧ (L.segs[k]?).map Prod.fst = some s) (as := r) (by
    intro p hp
    obtain ⟨k, hk⟩ := List.mem_iff_getElem?.1 (hr2 p hp)
    have hlt : k < L.segs.length := by
      have := (List.getElem?_eq_some_iff.1 hk).1
      omega
    exact ⟨_, k, hk, by rw [List.getElem?_eq_getElem hlt]; rfl⟩)
  have hrl : r.length = fns.length := by
    rw [moves_length hr, h.flen]
    exact h.partsPerm.length_eq
  have htext : ts = ss.map Seg.text := by
    have : Each (fun (p : SolPart) (t : Str) => ∃ (k : Nat) (s : Seg), L.parts[k]? = some p ∧ (L.segs[k]?).map Prod.fst = some s ∧ t = s.text) r (ss.map Seg.text) := by
      clear hts hr hr2 hq hrl hfix
      induction hss with
      | nil => exact .nil
      | cons h _ ih =>
        obtain ⟨k, h1, h2⟩ := h
        exact .cons ⟨k, _, h1, h2, rfl⟩ (ih (fun _ h => h))
    apply List.ext_getElem?
    intro i
    rcases Nat.lt_or_ge i r.length with hi | hi
    · obtain ⟨t, ht, hsl⟩ := each_get hts (List.getElem?_eq_getElem hi)
      obtain ⟨t', ht', k, s, hk, hs, rfl⟩ := each_get this (List.getElem?_eq_getElem hi)
      rw [ht, ht']
      obtain ⟨sg, hsg, rfl⟩ := Option.map_eq_some_iff.1 hs
      obtain ⟨q', hq', hsl'⟩ := slice_part L hsg
      rw [hk] at hq'
      rw [← Option.some.inj hq', hsl] at hsl'
      exact hsl'
    · rw [List.getElem?_eq_none (by rw [← each_len hts]; exact hi), List.getElem?_eq_none (by rw [← each_len this]; exact hi)]
  rw [htext] at hfix
  refine ⟨ss, mid, hfix, by rw [← each_len hss, hrl], ?_, ?_⟩
  · intro s hs
    obtain ⟨p, _, k, _, hk⟩ := each_mem_right hss hs
    obtain ⟨sg, hsg, rfl⟩ := Option.map_eq_some_iff.1 hk
    exact List.mem_map.2 ⟨_, List.mem_of_getElem? hsg, rfl⟩
  · rw [← h.moves hd ctx, hr]
    constructor
    · intro he
      congr 1
      apply List.ext_getElem?
      intro i
      rcases Nat.lt_or_ge i fns.length with hi | hi
      · obtain ⟨s, hs, his⟩ := each_get he (List.getElem?_eq_getElem hi)
        obtain ⟨p, hp', k, hk, hsk⟩ := each_get' hss hs
        obtain ⟨k', p', s', _, hat, hpk, hsg, _, _, hfm, _⟩ := h.get (List.getElem?_eq_getElem hi)
        rw [hp', hfm]
        -- the part at `k` is the function as well
        have hkk : k ∈ ks := h.perm.mem_iff.1 (List.mem_range.2 (by
          have := (List.getElem?_eq_some_iff.1 hk).1
          omega))
        obtain ⟨j, hj⟩ := List.mem_iff_getElem?.1 hkk
        obtain ⟨g, hg, hatg⟩ := each_get' h.at_ hj
        have hkey := ((layout_at L g k).1 hatg).1
        obtain ⟨sg, hsg', e⟩ := Option.map_eq_some_iff.1 hsk
        simp only [Layout.keys, List.getElem?_map, hsg', Option.map_some, Option.some.injEq] at hkey
        rw [e, (is_iff_key _ s).1 his] at hkey
        have := distinct_key hd (List.getElem?_eq_getElem hi) hg (Option.some.inj hkey)
        subst this
        rw [List.getElem?_eq_getElem hi] at hg
        rw [← Option.some.inj hg] at hatg
        have := at_unique hat hatg
        subst this
        rw [← hk, hpk]
      · rw [List.getElem?_eq_none (by omega), List.getElem?_eq_none (by rw [← h.flen]; exact hi)]
    · intro he
      have he := Res.ok.inj he
      apply each_of_get (by rw [← each_len hss, hrl])
      intro i f hf
      obtain ⟨k, p, s, _, _, hpk, hsk, his, _, hfm, _⟩ := h.get hf
      rw [← he] at hfm
      obtain ⟨s', hs', k', hk', hsk'⟩ := each_get hss hfm
      have := nodup_get hpn hpk hk'
      subst this
      rw [hsk] at hsk'
      exact ⟨s', hs', by rw [← Option.some.inj hsk']; exact his⟩


theorem Shuffled.at_of_key (h : Shuffled fns L ks) (hd : Distinct fns) {f : HFn} (hf : f ∈ fns) {k : Nat}
    (hk : L.keys[k]? = some (some (fnKey f))) : At L.parts f k := by
  have hlt : k < L.segs.length := by
    have := (List.getElem?_eq_some_iff.1 hk).1
    rwa [keys_length] at this
  obtain ⟨j, hj⟩ := List.mem_iff_getElem?.1 (h.perm.mem_iff.1 (List.mem_range.2 hlt))
  obtain ⟨g, hg, hat⟩ := each_get' h.at_ hj
  have hkey := ((layout_at L g k).1 hat).1
  rw [hk] at hkey
  obtain ⟨i, hi⟩ := List.mem_iff_getElem?.1 hf
  have := distinct_key hd hi hg (Option.some.inj (Option.some.inj hkey))
  subst this
  rw [hi] at hg
  rw [Option.some.inj hg]
  exact hat

/-- Filling in the missing functions removes no reversed triple and no inversion. -/
theorem Shuffled.kept (h : Shuffled fns L ks) (hd : Distinct fns) {L0 : Layout}
    (hsub : (L0.segs.map Prod.fst).Sublist (L.segs.map Prod.fst)) :
    (NoReversedTriple fns L.parts → NoReversedTriple fns L0.parts) ∧ (InOrder fns L.parts → InOrder fns L0.parts) := by
  have hk : L0.keys.Sublist L.keys := by
    have := hsub.map Seg.key
    simpa [Layout.keys, Function.comp_def] using this
  have hR : L.keys.Pairwise (fun x y => ∃ c b : Nat, c < b ∧ L.keys[c]? = some x ∧ L.keys[b]? = some y) := by
    rw [List.pairwise_iff_getElem]
    intro i j hi hj hij
    exact ⟨i, j, hij, List.getElem?_eq_getElem hi, List.getElem?_eq_getElem hj⟩
  have hR0 := List.pairwise_iff_getElem.1 (hR.sublist hk)
  have step : ∀ {f g : HFn} {b a : Nat}, f ∈ fns → g ∈ fns → At L0.parts g b → At L0.parts f a → b < a →
      ∃ b' a', b' < a' ∧ At L.parts g b' ∧ At L.parts f a' := by
    intro f g b a hf hg hb ha hlt
    have h1 := ((layout_at L0 g b).1 hb).1
    have h2 := ((layout_at L0 f a).1 ha).1
    obtain ⟨hb', e1⟩ := List.getElem?_eq_some_iff.1 h1
    obtain ⟨ha', e2⟩ := List.getElem?_eq_some_iff.1 h2
    obtain ⟨b', a', h3, h4, h5⟩ := hR0 b a hb' ha' hlt
    rw [e1] at h4; rw [e2] at h5
    exact ⟨b', a', h3, h.at_of_key hd hg h4, h.at_of_key hd hf h5⟩
  refine ⟨?_, ?_⟩
  · intro h3 i j k f g q a b c hij hjk hf hg hq ha hb hc hlt
    have mf := List.mem_of_getElem? hf
    have mg := List.mem_of_getElem? hg
    have mq := List.mem_of_getElem? hq
    obtain ⟨c', b', h1, h2, h3'⟩ := step mg mq hc hb hlt.1
    obtain ⟨b'', a', h4, h5, h6⟩ := step mf mg hb ha hlt.2
    have := at_unique h3' h5
    subst this
    exact h3 i j k f g q _ _ _ hij hjk hf hg hq h6 h5 h2 ⟨h1, h4⟩
  · intro ho
    rw [inOrder_iff]
    intro i j f g hij hf hg a b ha hb
    refine Classical.byContradiction fun hc => ?_
    obtain ⟨b', a', h1, h2, h3⟩ := step (List.mem_of_getElem? hf) (List.mem_of_getElem? hg) hb ha (by omega)
    have := (inOrder_iff fns L.parts).1 ho i j f g hij hf hg _ _ h3 h2
    omega

theorem Shuffled.triple_of (h : Shuffled fns L ks) (hd : Distinct fns) {L0 : Layout}
    (hsub : (L0.segs.map Prod.fst).Sublist (L.segs.map Prod.fst)) : NoReversedTriple fns L.parts → NoReversedTriple fns L0.parts :=
  (h.kept hd hsub).1

theorem Shuffled.inOrder_of (h : Shuffled fns L ks) (hd : Distinct fns) {L0 : Layout}
    (hsub : (L0.segs.map Prod.fst).Sublist (L.segs.map Prod.fst)) : InOrder fns L.parts → InOrder fns L0.parts :=
  (h.kept hd hsub).2

end
end Bulloak
