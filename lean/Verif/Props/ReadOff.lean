import Verif.Spec.ReadOff
import Verif.Props.Move
/-! # A contract conforms if its functions of the tree, read from top to bottom, are those of the tree (C145) -/

namespace Bulloak
open Spec

section
variable [U : Ucd]

omit U in
theorem matches_asSeen (f : HFn) (p : SolPart) : Matches f p ↔ seen p = asSeen f := by
  cases p with
  | other => simp [Matches, seen, asSeen]
  | fn g =>
    unfold Matches seen asSeen
    cases e : g.ty <;> cases e' : f.ty <;> simp [kindOf, e]

omit U in
theorem asSeen_inj {fns : List HFn} (hd : Distinct fns) {i j : Nat} {f g : HFn} (hi : fns[i]? = some f) (hj : fns[j]? = some g) (e : asSeen f = asSeen g) : i = j := by
  have key : ∀ f g : HFn, asSeen f = asSeen g → f.identifier = g.identifier ∧ f.ty = g.ty := by
    intro f g e
    unfold asSeen at e
    cases h : f.ty <;> cases h' : g.ty <;> simp_all
  unfold Distinct at hd
  rw [List.pairwise_iff_getElem] at hd
  obtain ⟨hi', rfl⟩ := List.getElem?_eq_some_iff.1 hi
  obtain ⟨hj', rfl⟩ := List.getElem?_eq_some_iff.1 hj
  rcases Nat.lt_trichotomy i j with h | h | h
  · exact absurd (key _ _ e) (hd i j hi' hj' h)
  · exact h
  · exact absurd (key _ _ e.symm) (hd j i hj' hi' h)

/-- `x` strictly precedes `y` in the tree. -/
private def Precedes (fns : List HFn) (x y : Option (Option Str × SolFnTy)) : Prop :=
  ∀ (i j : Nat) (f g : HFn), fns[i]? = some f → fns[j]? = some g → x = asSeen f → y = asSeen g → i < j

omit U in
private theorem precedes_fns {fns : List HFn} (hd : Distinct fns) : (fns.map asSeen).Pairwise (Precedes fns) := by
  rw [List.pairwise_map, List.pairwise_iff_getElem]
  intro a b ha hb hab i j f g hf hg e e'
  rw [← asSeen_inj hd (List.getElem?_eq_getElem ha) hf e, ← asSeen_inj hd (List.getElem?_eq_getElem hb) hg e']
  exact hab

omit U in
theorem ours_mem {fns : List HFn} {parts : List SolPart} {x : Option (Option Str × SolFnTy)} : x ∈ Ours fns parts ↔ ∃ f ∈ fns, Present parts f ∧ x = asSeen f := by
  constructor
  · intro h
    obtain ⟨p, hp, rfl⟩ := List.mem_map.1 h
    obtain ⟨f, hf, hm⟩ := of_decide_eq_true (List.mem_filter.1 hp).2
    exact ⟨f, hf, ⟨p, (List.mem_filter.1 hp).1, hm⟩, (matches_asSeen f p).1 hm⟩
  · rintro ⟨f, hf, ⟨p, hp, hm⟩, rfl⟩
    exact List.mem_map.2 ⟨p, List.mem_filter.2 ⟨hp, decide_eq_true ⟨f, hf, hm⟩⟩, (matches_asSeen f p).1 hm⟩

omit U in
theorem noTwice_iff {fns : List HFn} {parts : List SolPart} : NoTwice fns parts ↔ (Ours fns parts).Nodup := by
  unfold Ours
  rw [List.nodup_iff_pairwise_ne, List.pairwise_map, List.pairwise_filter, List.pairwise_iff_getElem]
  constructor
  · intro h a b ha hb hab h1 _ e
    obtain ⟨f, hf, hm⟩ := of_decide_eq_true h1
    have := h f hf a b _ _ (List.getElem?_eq_getElem ha) (List.getElem?_eq_getElem hb) hm ((matches_asSeen _ _).2 (e.symm.trans ((matches_asSeen _ _).1 hm)))
    omega
  · intro h f hf i j p q hi hj hp hq
    obtain ⟨hi', rfl⟩ := List.getElem?_eq_some_iff.1 hi
    obtain ⟨hj', rfl⟩ := List.getElem?_eq_some_iff.1 hj
    have e := ((matches_asSeen _ _).1 hp).trans ((matches_asSeen _ _).1 hq).symm
    rcases Nat.lt_trichotomy i j with hh | hh | hh
    · exact absurd e (h i j hi' hj' hh (decide_eq_true ⟨f, hf, hp⟩) (decide_eq_true ⟨f, hf, hq⟩))
    · exact hh
    · exact absurd e.symm (h j i hj' hi' hh (decide_eq_true ⟨f, hf, hq⟩) (decide_eq_true ⟨f, hf, hp⟩))

omit U in
/-- In order, and nothing twice: read off in the order of the tree. -/
private theorem inOrder_precedes {fns : List HFn} {parts : List SolPart} (hn : NoTwice fns parts) : InOrder fns parts ↔ (Ours fns parts).Pairwise (Precedes fns) := by
  have at_iff : ∀ f ∈ fns, ∀ (a : Nat) (ha : a < parts.length), At parts f a ↔ seen parts[a] = asSeen f := by
    intro f hf a ha
    constructor
    · rintro ⟨⟨p, hp, hm⟩, _⟩
      rw [List.getElem?_eq_getElem ha] at hp
      obtain rfl := Option.some.inj hp
      exact (matches_asSeen _ _).1 hm
    · intro e
      have hm := (matches_asSeen f parts[a]).2 e
      refine ⟨⟨_, List.getElem?_eq_getElem ha, hm⟩, fun j p hj hp hm' => ?_⟩
      have := hn f hf j a p _ hp (List.getElem?_eq_getElem ha) hm' hm
      omega
  have at_lt : ∀ f (a : Nat), At parts f a → a < parts.length := fun f a h => by
    obtain ⟨⟨p, hp, _⟩, _⟩ := h
    exact (List.getElem?_eq_some_iff.1 hp).1
  unfold InOrder Ours
  rw [List.pairwise_map, List.pairwise_filter, List.pairwise_iff_getElem, List.pairwise_iff_getElem]
  constructor
  · intro h a b ha hb hab _ _ i j f g hf hg e e'
    have mf := List.mem_of_getElem? hf
    have mg := List.mem_of_getElem? hg
    have h1 := (at_iff f mf a ha).2 e
    have h2 := (at_iff g mg b hb).2 e'
    obtain ⟨hi', rfl⟩ := List.getElem?_eq_some_iff.1 hf
    obtain ⟨hj', rfl⟩ := List.getElem?_eq_some_iff.1 hg
    rcases Nat.lt_trichotomy i j with hh | hh | hh
    · exact hh
    · subst hh
      have := at_unique h1 h2
      omega
    · have := h j i hj' hi' hh b a h2 h1
      omega
  · intro h i j hi hj hij a b ha hb
    by_cases hab : a ≤ b
    · exact hab
    · have la := at_lt _ _ ha
      have lb := at_lt _ _ hb
      have ea := (at_iff _ (List.getElem_mem hi) a la).1 ha
      have eb := (at_iff _ (List.getElem_mem hj) b lb).1 hb
      have := h b a lb la (by omega) (decide_eq_true ⟨_, List.getElem_mem hj, (matches_asSeen _ _).2 eb⟩) (decide_eq_true ⟨_, List.getElem_mem hi, (matches_asSeen _ _).2 ea⟩) j i _ _
        (List.getElem?_eq_getElem hj) (List.getElem?_eq_getElem hi) eb ea
      omega

omit U in
private theorem precedes_nodup {fns : List HFn} {xs : List (Option (Option Str × SolFnTy))} (hx : ∀ x ∈ xs, ∃ f ∈ fns, x = asSeen f) (h : xs.Pairwise (Precedes fns)) : xs.Nodup := by
  rw [List.nodup_iff_pairwise_ne]
  refine h.imp_of_mem ?_
  rintro x y hx' _ hp rfl
  obtain ⟨f, hf, e⟩ := hx x hx'
  obtain ⟨i, hi⟩ := List.getElem?_of_mem hf
  exact Nat.lt_irrefl _ (hp i i f f hi hi e e)

omit U in
/-- In order, and nothing twice: the functions of the tree that are there are read off in the order of the tree. -/
theorem ours_filter {fns : List HFn} {parts : List SolPart} (hd : Distinct fns) (hi : InOrder fns parts) (hn : NoTwice fns parts) :
    Ours fns parts = (fns.filter (fun f => decide (Present parts f))).map asSeen := by
  have h2 : ((fns.filter (fun f => decide (Present parts f))).map asSeen).Pairwise (Precedes fns) := (precedes_fns hd).sublist (List.filter_sublist.map _)
  have hx : ∀ x ∈ (fns.filter (fun f => decide (Present parts f))).map asSeen, ∃ f ∈ fns, x = asSeen f := by
    intro x hx
    obtain ⟨f, hf, rfl⟩ := List.mem_map.1 hx
    exact ⟨f, (List.mem_filter.1 hf).1, rfl⟩
  refine List.Perm.eq_of_pairwise (le := Precedes fns) ?_ ((inOrder_precedes hn).1 hi) h2 ((List.perm_ext_iff_of_nodup (noTwice_iff.1 hn) (precedes_nodup hx h2)).2 fun x => ?_)
  · intro x y hx' hy' h1 h2
    obtain ⟨f, hf, _, e⟩ := ours_mem.1 hx'
    obtain ⟨g, hg, e'⟩ := hx y hy'
    obtain ⟨i, hi⟩ := List.getElem?_of_mem hf
    obtain ⟨j, hj⟩ := List.getElem?_of_mem hg
    have := h1 i j f g hi hj e e'
    have := h2 j i g f hj hi e' e
    omega
  · rw [ours_mem, List.mem_map]
    constructor
    · rintro ⟨f, hf, hp, rfl⟩
      exact ⟨f, List.mem_filter.2 ⟨hf, decide_eq_true hp⟩, rfl⟩
    · rintro ⟨f, hf, rfl⟩
      exact ⟨f, (List.mem_filter.1 hf).1, of_decide_eq_true (List.mem_filter.1 hf).2, rfl⟩

omit U in
private theorem read_off {fns : List HFn} {parts : List SolPart} (hd : Distinct fns) : (InOrder fns parts ∧ NoTwice fns parts) ↔
    ∃ l : List HFn, l.Sublist fns ∧ (∀ f ∈ fns, Present parts f ↔ f ∈ l) ∧ Ours fns parts = l.map asSeen := by
  constructor
  · rintro ⟨hi, hn⟩
    exact ⟨fns.filter (fun f => decide (Present parts f)), List.filter_sublist, fun f hf => by simp [hf], ours_filter hd hi hn⟩
  · rintro ⟨l, hl, _, e⟩
    have h2 : (Ours fns parts).Pairwise (Precedes fns) := e ▸ (precedes_fns hd).sublist (hl.map _)
    have hn : NoTwice fns parts := noTwice_iff.2 (precedes_nodup (fun x hx => by
      obtain ⟨f, hf, _, e⟩ := ours_mem.1 hx
      exact ⟨f, hf, e⟩) h2)
    exact ⟨(inOrder_precedes hn).2 h2, hn⟩

/-- **C145.** The tree names no function twice.  Then a Solidity file conforms to it, with no function of the tree occurring twice, if and only if its contract has the right name, and the functions of
the tree in it, read from top to bottom, are those of the tree, in that order; with `-m`, some modifiers may be left out. -/
theorem C145_conforms {ctx : Context} {n : Str} {fns : List HFn} (hh : ctx.hir = ⟨[⟨n, fns⟩]⟩) (hd : Distinct fns) {s : SolContract} (hs : FirstContract ctx.pt s) :
    (checkCtx ctx = .ok [] ∧ NoTwice fns s.parts) ↔ (∀ m, s.name = some m → m = sanitize n) ∧
      ∃ l : List HFn, l.Sublist fns ∧ (∀ f ∈ fns, f ∈ l ∨ (ctx.skipModifiers = true ∧ f.ty = .modifier)) ∧ Ours fns s.parts = l.map asSeen := by
  constructor
  · rintro ⟨hc, hn⟩
    obtain ⟨t, h1, h2, h3, h4⟩ := (C37_silent_iff hh).1 hc
    obtain rfl : t = s := Option.some.inj (((findContract_iff _ _).2 h1).symm.trans ((findContract_iff _ _).2 hs))
    obtain ⟨l, k1, k2, k3⟩ := (read_off hd).1 ⟨h4, hn⟩
    exact ⟨h2, l, k1, fun f hf => (h3 f hf).imp (k2 f hf).1 id, k3⟩
  · rintro ⟨h2, l, k1, k2, k3⟩
    have hp : ∀ f ∈ fns, Present s.parts f ↔ f ∈ l := by
      intro f hf
      have hm : asSeen f ∈ Ours fns s.parts ↔ asSeen f ∈ l.map asSeen := by rw [k3]
      constructor
      · intro h
        obtain ⟨g, hg, e⟩ := List.mem_map.1 (hm.1 (ours_mem.2 ⟨f, hf, h, rfl⟩))
        obtain ⟨i, hi⟩ := List.getElem?_of_mem hf
        obtain ⟨j, hj⟩ := List.getElem?_of_mem (k1.subset hg)
        obtain rfl := asSeen_inj hd hi hj e.symm
        obtain rfl : f = g := Option.some.inj (hi.symm.trans hj)
        exact hg
      · intro h
        obtain ⟨p, hp, e⟩ := List.mem_map.1 (hm.2 (List.mem_map.2 ⟨f, h, rfl⟩))
        exact ⟨p, (List.mem_filter.1 hp).1, (matches_asSeen _ _).2 e⟩
    obtain ⟨hi, hn⟩ := (read_off hd).2 ⟨l, k1, hp, k3⟩
    exact ⟨(C37_silent_iff hh).2 ⟨s, hs, h2, fun f hf => (k2 f hf).imp (hp f hf).2 id, hi⟩, hn⟩

omit U in
private theorem sublist_all {l fns : List HFn} (h : l.Sublist fns) (hn : fns.Nodup) (hall : ∀ f ∈ fns, f ∈ l) : l = fns := by
  induction h with
  | slnil => rfl
  | cons a h ih => exact absurd (h.subset (hall a (List.mem_cons_self ..))) (List.nodup_cons.1 hn).1
  | cons_cons a h ih =>
    rw [ih (List.nodup_cons.1 hn).2 fun f hf => ?_]
    rcases List.mem_cons.1 (hall f (List.mem_cons_of_mem _ hf)) with rfl | h'
    · exact absurd hf (List.nodup_cons.1 hn).1
    · exact h'

/-- **C145**, without `-m`: the functions of the tree in the contract, read from top to bottom, are exactly those of the tree. -/
theorem C145_exact {ctx : Context} {n : Str} {fns : List HFn} (hh : ctx.hir = ⟨[⟨n, fns⟩]⟩) (hm : ctx.skipModifiers = false) (hd : Distinct fns) {s : SolContract} (hs : FirstContract ctx.pt s) :
    (checkCtx ctx = .ok [] ∧ NoTwice fns s.parts) ↔ (∀ m, s.name = some m → m = sanitize n) ∧ Ours fns s.parts = fns.map asSeen := by
  rw [C145_conforms hh hd hs]
  refine and_congr_right fun _ => ⟨?_, fun e => ⟨fns, List.Sublist.refl _, fun f hf => Or.inl hf, e⟩⟩
  rintro ⟨l, h1, h2, h3⟩
  have hall : ∀ f ∈ fns, f ∈ l := fun f hf => (h2 f hf).resolve_right (fun h => by simp [hm] at h)
  have hnd : fns.Nodup := by
    rw [List.nodup_iff_pairwise_ne]
    exact List.Pairwise.imp (fun h e => h (by rw [e]; exact ⟨rfl, rfl⟩)) hd
  rw [h3, sublist_all h1 hnd hall]

end

end Bulloak
