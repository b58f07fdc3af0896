import Verif.Spec.Share
import Verif.Props.ReadOff
/-! # Two trees for one contract (C147) -/

namespace Bulloak
open Spec

section
variable [U : Ucd]

/-- `x` is first seen at index `i`. -/
def SeenAt (parts : List SolPart) (x : Option (Option Str × SolFnTy)) (i : Nat) : Prop :=
  (∃ p, parts[i]? = some p ∧ seen p = x) ∧ ∀ j p, j < i → parts[j]? = some p → seen p ≠ x

omit U in
theorem seenAt_iff (parts : List SolPart) (f : HFn) (i : Nat) : SeenAt parts (asSeen f) i ↔ At parts f i := by
  unfold SeenAt At
  simp only [matches_asSeen, ne_eq]

/-- `x` is not seen after `y`. -/
def NotBehind (parts : List SolPart) (x y : Option (Option Str × SolFnTy)) : Prop := ∀ i j, SeenAt parts x i → SeenAt parts y j → i ≤ j

omit U in
theorem behind_map {fns : List HFn} {parts : List SolPart} (h : InOrder fns parts) : (fns.map asSeen).Pairwise (NotBehind parts) := by
  rw [List.pairwise_map]
  exact List.Pairwise.imp (fun h i j hi hj => h i j ((seenAt_iff ..).1 hi) ((seenAt_iff ..).1 hj)) h

omit U in
private theorem asSeen_nodup {fns : List HFn} (hd : Distinct fns) : (fns.map asSeen).Nodup := by
  rw [List.nodup_iff_pairwise_ne, List.pairwise_map, List.pairwise_iff_getElem]
  intro i j hi hj hij e
  have := asSeen_inj hd (List.getElem?_eq_getElem hi) (List.getElem?_eq_getElem hj) e
  omega

omit U in
private theorem order_shared {fns fns' : List HFn} {parts : List SolPart} (hd : Distinct fns) (hd' : Distinct fns') (hp : ∀ f ∈ fns, Present parts f) (hi : InOrder fns parts)
    (hi' : InOrder fns' parts) : SameOrder fns fns' := by
  unfold SameOrder
  refine List.Perm.eq_of_pairwise (le := NotBehind parts) ?_ ((behind_map hi).sublist List.filter_sublist) ((behind_map hi').sublist List.filter_sublist)
    ((List.perm_ext_iff_of_nodup ((asSeen_nodup hd).sublist List.filter_sublist) ((asSeen_nodup hd').sublist List.filter_sublist)).2 fun x => ?_)
  · intro x y hx hy h1 h2
    have at_of : ∀ x ∈ fns.map asSeen, ∃ i, SeenAt parts x i := by
      intro x hx
      obtain ⟨f, hf, rfl⟩ := List.mem_map.1 hx
      obtain ⟨i, hi⟩ := present_at (hp f hf)
      exact ⟨i, (seenAt_iff ..).2 hi⟩
    obtain ⟨i, hi⟩ := at_of x (List.mem_filter.1 hx).1
    obtain ⟨j, hj⟩ := at_of y (of_decide_eq_true (List.mem_filter.1 hy).2)
    obtain rfl : i = j := Nat.le_antisymm (h1 i j hi hj) (h2 j i hj hi)
    obtain ⟨p, hp, rfl⟩ := hi.1
    obtain ⟨q, hq, rfl⟩ := hj.1
    rw [hp] at hq
    cases hq
    rfl
  · rw [List.mem_filter, List.mem_filter, decide_eq_true_eq, decide_eq_true_eq, and_comm]

omit U in
/-- Two lists without repetition that agree on the order of what they share have a common extension. -/
private theorem merged : ∀ (k : Nat) (xs ys : List (Option (Option Str × SolFnTy))), xs.length + ys.length ≤ k → xs.Nodup → ys.Nodup →
    xs.filter (fun x => decide (x ∈ ys)) = ys.filter (fun x => decide (x ∈ xs)) →
    ∃ zs : List (Option (Option Str × SolFnTy)), (∀ z ∈ zs, z ∈ xs ∨ z ∈ ys) ∧ zs.filter (fun x => decide (x ∈ xs)) = xs ∧ zs.filter (fun x => decide (x ∈ ys)) = ys := by
  intro k
  induction k with
  | zero =>
    intro xs ys hk _ _ _
    obtain rfl : xs = [] := List.length_eq_zero_iff.1 (by omega)
    obtain rfl : ys = [] := List.length_eq_zero_iff.1 (by omega)
    exact ⟨[], fun z hz => absurd hz (by simp), rfl, rfl⟩
  | succ k ih =>
    have left : ∀ (x : Option (Option Str × SolFnTy)) (xs ys : List (Option (Option Str × SolFnTy))), (x :: xs).length + ys.length ≤ k + 1 → (x :: xs).Nodup → ys.Nodup → x ∉ ys →
        (x :: xs).filter (fun z => decide (z ∈ ys)) = ys.filter (fun z => decide (z ∈ x :: xs)) →
        ∃ zs : List (Option (Option Str × SolFnTy)), (∀ z ∈ zs, z ∈ x :: xs ∨ z ∈ ys) ∧ zs.filter (fun z => decide (z ∈ x :: xs)) = x :: xs ∧ zs.filter (fun z => decide (z ∈ ys)) = ys := by
      intro x xs ys hk hx hy hn he
      obtain ⟨hx1, hx2⟩ := List.nodup_cons.1 hx
      have e2 : ys.filter (fun z => decide (z ∈ x :: xs)) = ys.filter (fun z => decide (z ∈ xs)) := by
        apply List.filter_congr
        intro z hz
        rw [decide_eq_decide, List.mem_cons]
        exact ⟨fun h => h.resolve_left (by rintro rfl; exact hn hz), .inr⟩
      rw [List.filter_cons_of_neg (by simpa using hn), e2] at he
      obtain ⟨zs, h1, h2, h3⟩ := ih xs ys (by rw [List.length_cons] at hk; omega) hx2 hy he
      have hz : x ∉ zs := fun h => (h1 x h).elim hx1 hn
      refine ⟨x :: zs, ?_, ?_, ?_⟩
      · intro z hz
        rcases List.mem_cons.1 hz with rfl | hz
        · exact .inl (List.mem_cons_self ..)
        · exact (h1 z hz).imp (List.mem_cons_of_mem _) id
      · rw [List.filter_cons_of_pos (by simp)]
        congr 1
        refine Eq.trans (List.filter_congr fun z hz' => ?_) h2
        rw [decide_eq_decide, List.mem_cons]
        exact ⟨fun h => h.resolve_left (by rintro rfl; exact hz hz'), .inr⟩
      · rw [List.filter_cons_of_neg (by simpa using hn)]
        exact h3
    intro xs ys hk hx hy he
    cases xs with
    | nil => exact ⟨ys, fun z hz => .inr hz, by simp, by rw [List.filter_eq_self]; intro z hz; exact decide_eq_true hz⟩
    | cons x xs =>
      by_cases hxy : x ∈ ys
      · cases ys with
        | nil => simp at hxy
        | cons y ys =>
          by_cases hyx : y ∈ x :: xs
          · rw [List.filter_cons_of_pos (by simpa using hxy), List.filter_cons_of_pos (by simpa using hyx)] at he
            obtain ⟨rfl, he⟩ := List.cons.inj he
            obtain ⟨hx1, hx2⟩ := List.nodup_cons.1 hx
            obtain ⟨hy1, hy2⟩ := List.nodup_cons.1 hy
            have drop : ∀ (as bs : List (Option (Option Str × SolFnTy))), x ∉ as → as.filter (fun z => decide (z ∈ x :: bs)) = as.filter (fun z => decide (z ∈ bs)) := by
              intro as bs hn
              apply List.filter_congr
              intro z hz
              rw [decide_eq_decide, List.mem_cons]
              exact ⟨fun h => h.resolve_left (by rintro rfl; exact hn hz), .inr⟩
            rw [drop _ _ hx1, drop _ _ hy1] at he
            obtain ⟨zs, h1, h2, h3⟩ := ih xs ys (by simp only [List.length_cons] at hk; omega) hx2 hy2 he
            have hz : x ∉ zs := fun h => (h1 x h).elim hx1 hy1
            refine ⟨x :: zs, ?_, ?_, ?_⟩
            · intro z hz
              rcases List.mem_cons.1 hz with rfl | hz
              · exact .inl (List.mem_cons_self ..)
              · exact (h1 z hz).imp (List.mem_cons_of_mem _) (List.mem_cons_of_mem _)
            · rw [List.filter_cons_of_pos (by simp), drop _ _ hz, h2]
            · rw [List.filter_cons_of_pos (by simp), drop _ _ hz, h3]
          · obtain ⟨zs, h1, h2, h3⟩ := left y ys (x :: xs) (by simp only [List.length_cons] at hk ⊢; omega) hy hx hyx he.symm
            exact ⟨zs, fun z hz => (h1 z hz).symm, h3, h2⟩
      · exact left x xs ys hk hx hy hxy he

/-- A contract with the given functions. -/
private def madeOf (x : Option (Option Str × SolFnTy)) : SolPart :=
  match x with
  | some (name, ty) => .fn ⟨ty, name, 0, 0⟩
  | none => .other 0 0

omit U in
private theorem madeOf_seen (zs : List (Option (Option Str × SolFnTy))) : (zs.map madeOf).map seen = zs := by
  rw [List.map_map]
  conv => rhs; rw [← List.map_id zs]
  apply List.map_congr_left
  rintro (_ | ⟨n, t⟩) _ <;> rfl

omit U in
private theorem madeOf_ours (fns : List HFn) (zs : List (Option (Option Str × SolFnTy))) : Ours fns (zs.map madeOf) = zs.filter (fun x => decide (x ∈ fns.map asSeen)) := by
  have h1 : ∀ ps : List SolPart, Ours fns ps = (ps.map seen).filter (fun x => decide (x ∈ fns.map asSeen)) := by
    intro ps
    unfold Ours
    rw [List.filter_map]
    congr 1
    apply List.filter_congr
    intro p _
    rw [Function.comp, decide_eq_decide, List.mem_map]
    simp only [matches_asSeen]
    exact ⟨fun ⟨f, h, e⟩ => ⟨f, h, e.symm⟩, fun ⟨f, h, e⟩ => ⟨f, h, e.symm⟩⟩
  rw [h1, madeOf_seen]

/-- **C147.** Two trees, neither of which names a function twice.  There is a contract conforming to both if and only if they ask for the same name of the contract, and the functions they share come in
the same order in both. -/
theorem C147_share {ctx ctx' : Context} {n n' : Str} {fns fns' : List HFn} (hh : ctx.hir = ⟨[⟨n, fns⟩]⟩) (hh' : ctx'.hir = ⟨[⟨n', fns'⟩]⟩) (hm : ctx.skipModifiers = false)
    (hm' : ctx'.skipModifiers = false) (hd : Distinct fns) (hd' : Distinct fns') :
    (∃ (src : Str) (u : SolUnit) (s : SolContract) (m : Str), FirstContract u s ∧ s.name = some m ∧ checkCtx { ctx with src := src, pt := u } = .ok [] ∧
      checkCtx { ctx' with src := src, pt := u } = .ok []) ↔ sanitize n = sanitize n' ∧ SameOrder fns fns' := by
  constructor
  · rintro ⟨src, u, s, m, hs, hsn, hc, hc'⟩
    obtain ⟨t, h1, h2, h3, h4⟩ := (C37_silent_iff (ctx := { ctx with src := src, pt := u }) hh).1 hc
    obtain rfl : t = s := Option.some.inj (((findContract_iff _ _).2 h1).symm.trans ((findContract_iff _ _).2 hs))
    obtain ⟨t', k1, k2, k3, k4⟩ := (C37_silent_iff (ctx := { ctx' with src := src, pt := u }) hh').1 hc'
    obtain rfl : t' = t := Option.some.inj (((findContract_iff _ _).2 k1).symm.trans ((findContract_iff _ _).2 hs))
    exact ⟨(h2 m hsn).symm.trans (k2 m hsn), order_shared hd hd' (fun f hf => (h3 f hf).resolve_right (fun h => by rw [hm] at h; cases h.1)) h4 k4⟩
  · rintro ⟨hn, ho⟩
    obtain ⟨zs, _, h2, h3⟩ := merged _ _ _ (Nat.le_refl _) (asSeen_nodup hd) (asSeen_nodup hd') ho
    have hs : FirstContract [.contract ⟨some (sanitize n), 0, 0, zs.map madeOf⟩] ⟨some (sanitize n), 0, 0, zs.map madeOf⟩ := ⟨0, [], rfl⟩
    refine ⟨[], [.contract ⟨some (sanitize n), 0, 0, zs.map madeOf⟩], ⟨some (sanitize n), 0, 0, zs.map madeOf⟩, sanitize n, hs, rfl, ?_, ?_⟩
    · exact ((C145_exact (ctx := { ctx with src := [], pt := _ }) hh hm hd hs).2 ⟨fun m e => (Option.some.inj e).symm, (madeOf_ours fns zs).trans h2⟩).1
    · exact ((C145_exact (ctx := { ctx' with src := [], pt := _ }) hh' hm' hd' hs).2 ⟨fun m e => (Option.some.inj e).symm.trans hn, (madeOf_ours fns' zs).trans h3⟩).1

end

end Bulloak
