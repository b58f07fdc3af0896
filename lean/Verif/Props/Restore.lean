import Verif.Spec.Restore
import Verif.Props.Declared
/-! # `check --fix` undoes moves -/

namespace Bulloak
open Spec

section
variable [U : Ucd]

omit U in
/-- In a contract of functions of the tree, two parts of the same kind and name are the same part. -/
theorem once_eq {fns : List HFn} {L : Layout} (ho : OnlyTree fns L) {s t : Seg} (hs : s ∈ L.segs.map Prod.fst)
    (ht : t ∈ L.segs.map Prod.fst) {f : HFn} (h1 : s.Is f) (h2 : t.Is f) : s = t := by
  have := ho.once
  generalize L.segs.map Prod.fst = l at hs ht this
  induction l with
  | nil => cases hs
  | cons a l ih =>
    obtain ⟨h3, h4⟩ := List.pairwise_cons.1 this
    rcases List.mem_cons.1 hs with e1 | hs' <;> rcases List.mem_cons.1 ht with e2 | ht'
    · rw [e1, e2]
    · exact absurd h2 (h3 _ ht' f (e1 ▸ h1))
    · exact absurd h1 (h3 _ hs' f (e2 ▸ h2))
    · exact ih hs' ht' h4

/-- The part `s` belongs to a function no later than the one of `t`. -/
def NotAfter (fns : List HFn) (s t : Seg) : Prop :=
  ∀ (i j : Nat) (f g : HFn), fns[i]? = some f → fns[j]? = some g → s.Is f → t.Is g → i ≤ j

theorem is_same {f g : HFn} {s : Seg} (h1 : s.Is f) (h2 : s.Is g) : fnKey f = fnKey g := by
  rw [is_iff_key] at h1 h2
  exact Option.some.inj (h1.symm.trans h2)

private theorem each_before {fns : List HFn} (hd : Distinct fns) {l : List Seg} (h : Each Seg.Is fns l) : l.Pairwise (NotAfter fns) := by
  rw [List.pairwise_iff_getElem]
  intro a b ha hb hab i j f g hf hg h1 h2
  obtain ⟨f', hf', h1'⟩ := each_get' h (List.getElem?_eq_getElem ha)
  obtain ⟨g', hg', h2'⟩ := each_get' h (List.getElem?_eq_getElem hb)
  have := distinct_key hd hf hf' (is_same h1 h1')
  have := distinct_key hd hg hg' (is_same h2 h2')
  omega

private theorem once_at {fns : List HFn} {L : Layout} (ho : OnlyTree fns L) {a : Nat} {s : Seg} (hs : (L.segs.map Prod.fst)[a]? = some s) {f : HFn}
    (h : s.Is f) : At L.parts f a := by
  rw [layout_at]
  have e : L.keys = (L.segs.map Prod.fst).map Seg.key := by simp [Layout.keys, Function.comp_def]
  refine ⟨by rw [e, List.getElem?_map, hs, Option.map_some, (is_iff_key f s).1 h], fun j hj hk => ?_⟩
  rw [e, List.getElem?_map, Option.map_eq_some_iff] at hk
  obtain ⟨t, ht, hk⟩ := hk
  obtain ⟨h1, rfl⟩ := List.getElem?_eq_some_iff.1 ht
  obtain ⟨h2, rfl⟩ := List.getElem?_eq_some_iff.1 hs
  exact List.pairwise_iff_getElem.1 ho.once j a h1 h2 hj f ((is_iff_key f _).2 hk) h

theorem order_before {fns : List HFn} {L : Layout} (ho : OnlyTree fns L) (hi : InOrder fns L.parts) :
    (L.segs.map Prod.fst).Pairwise (NotAfter fns) := by
  rw [List.pairwise_iff_getElem]
  intro a b ha hb hab i j f g hf hg h1 h2
  have haf := once_at ho (List.getElem?_eq_getElem ha) h1
  have hbg := once_at ho (List.getElem?_eq_getElem hb) h2
  rcases Nat.lt_or_ge j i with hlt | hge
  · obtain ⟨hj, rfl⟩ := List.getElem?_eq_some_iff.1 hg
    obtain ⟨hi', rfl⟩ := List.getElem?_eq_some_iff.1 hf
    have := List.pairwise_iff_getElem.1 hi j i hj hi' hlt b a hbg haf
    omega
  · exact hge

private theorem restored {fns : List HFn} (hd : Distinct fns) {L0 : Layout} (ho : OnlyTree fns L0) (hi : InOrder fns L0.parts) {l : List Seg}
    (hp : l.Perm (L0.segs.map Prod.fst)) (he : Each Seg.Is fns l) : l = L0.segs.map Prod.fst := by
  refine List.Perm.eq_of_pairwise (le := NotAfter fns) ?_ (each_before hd he) (order_before ho hi) hp
  intro s t hs ht h1 h2
  have hs := hp.mem_iff.1 hs
  obtain ⟨f, hf, hsf⟩ := ho.own s hs
  obtain ⟨g, hg, htg⟩ := ho.own t ht
  obtain ⟨i, hi, rfl⟩ := List.getElem_of_mem hf
  obtain ⟨j, hj, rfl⟩ := List.getElem_of_mem hg
  have := h1 i j _ _ (List.getElem?_eq_getElem hi) (List.getElem?_eq_getElem hj) hsf htg
  have := h2 j i _ _ (List.getElem?_eq_getElem hj) (List.getElem?_eq_getElem hi) htg hsf
  obtain rfl : i = j := by omega
  exact once_eq ho hs ht hsf htg

omit U in
private theorem shuffle_only {fns : List HFn} {L0 L : Layout} (h : Shuffle L0 L) (ho : OnlyTree fns L0) : OnlyTree fns L :=
  ⟨fun s hs => ho.own s (h.mem_iff.1 hs), (h.pairwise_iff (fun h1 f h2 h3 => h1 f h3 h2)).2 ho.once⟩

omit U in
private theorem shuffle_present {L0 L : Layout} (h : Shuffle L0 L) (f : HFn) : Present L.parts f ↔ Present L0.parts f := by
  have e : ∀ L : Layout, L.keys = (L.segs.map Prod.fst).map Seg.key := fun L => by simp [Layout.keys, Function.comp_def]
  rw [layout_present, layout_present, e, e]
  exact (h.map _).mem_iff

/-- **C141.** A file passes `check`, its contract consisting of functions of the tree.  In another valid ASCII file the contract has the same functions in some
other order, each declared once in the file, no three of them reversed.  Then `check --fix` restores the contract's functions, each with its text, in
the order of the first file, and nothing is reported. -/
theorem C141_restore {P : SolParser} {G : SolGrammar} (hG : G.HasGenerated) (hP : Reader P G) {n : Str} {fns : List HFn} {ctx : Context}
    (hh : ctx.hir = ⟨[⟨n, fns⟩]⟩) (hf : ∀ f ∈ fns, ReadableFn f) (hsk : ctx.skipModifiers = false) (hd : Distinct fns) {L0 : Layout} {u0 : SolUnit}
    (hc0 : FirstContract u0 L0.contract) (hok : checkCtx { ctx with src := L0.text, pt := u0 } = .ok []) (hown : OnlyTree fns L0)
    {L L1 : Layout} (hm : Shuffle L0 L) (hL : L.Fits G) (hL1 : L1.Fits G) (hsrc : ctx.src = L.text) (hpt : P ctx.src = some ctx.pt)
    (hr : Renamed (sanitize n) L L1) (hb : '{' ∉ L1.header) (h3 : NoReversedTriple fns L.parts) (hA : Ascii L.text) (hA1 : Ascii L1.text)
    (hF : ∀ f ∈ fns, Ascii (emitFunction f)) (hD : DeclaredOnce fns L1) :
    ∃ (L' : Layout) (u : SolUnit) (vs : List Violation), checkCtx ctx = .ok vs ∧ fixContext P ctx = .ok ({ ctx with src := L'.text, pt := u }, vs.length) ∧
      L'.Fits G ∧ FirstContract u L'.contract ∧ L'.segs.map Prod.fst = L0.segs.map Prod.fst ∧
      checkCtx { ctx with src := L'.text, pt := u } = .ok [] := by
  obtain ⟨L', u, vs, h1, h2, h4, h5, h6, h7, h8⟩ := C99_sorts hG hP hh hf hL hL1 hsrc hpt hr hb hsk hd (shuffle_only hm hown) h3 hA hA1 hF hD
  obtain ⟨s, hs, _, hp, ho⟩ := (C37_silent_iff (ctx := { ctx with src := L0.text, pt := u0 }) hh).1 hok
  obtain rfl : s = L0.contract := Option.some.inj (((findContract_iff _ _).2 hs).symm.trans ((findContract_iff _ _).2 hc0))
  refine ⟨L', u, vs, h1, h2, h4, h5, restored hd hown ho ?_ h7, h8⟩
  have hnil : fns.filter (fun f => decide (¬ Present L.parts f)) = [] := by
    rw [List.filter_eq_nil_iff]
    intro f hf
    rw [decide_eq_true_eq, Classical.not_not, shuffle_present hm]
    exact (hp f hf).resolve_right fun h => by
      have : ctx.skipModifiers = true := h.1
      rw [hsk] at this
      cases this
  rw [hnil, List.map_nil, List.append_nil] at h6
  exact h6.trans hm

end

end Bulloak
