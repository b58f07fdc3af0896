import Verif.Spec.Result
import Verif.Props.Restore
/-! # The contract `check --fix` ends with -/

namespace Bulloak
open Spec

section
variable [U : Ucd]

/-- A contract with all functions of the tree, in order, and nothing else. -/
private theorem order_each {fns : List HFn} {L : Layout} (hd : Distinct fns) (hp : ∀ f ∈ fns, Present L.parts f) (hl : L.segs.length = fns.length)
    (ho : InOrder fns L.parts) : Each Seg.Is fns (L.segs.map Prod.fst) := by
  obtain ⟨ks, hks⟩ := shuffled_of hd hp hl
  have hs : ks.Pairwise (· ≤ ·) := by
    rw [List.pairwise_iff_getElem]
    intro i j hi hj hij
    obtain ⟨f, hf, haf⟩ := each_get' hks.at_ (List.getElem?_eq_getElem hi)
    obtain ⟨g, hg, hag⟩ := each_get' hks.at_ (List.getElem?_eq_getElem hj)
    exact (inOrder_iff _ _).1 ho i j f g hij hf hg _ _ haf hag
  have hr : (List.range L.segs.length).Pairwise (· ≤ ·) := List.pairwise_le_range
  have e : List.range L.segs.length = ks :=
    List.Perm.eq_of_pairwise (le := (· ≤ ·)) (fun _ _ _ _ h1 h2 => Nat.le_antisymm h1 h2) hr hs hks.perm
  have := shuffled_each hks
  rw [← e] at this
  have h2 := range_filterMap (L.segs.map Prod.fst)
  simp only [List.length_map, List.getElem?_map] at h2
  rw [h2] at this
  exact this

private theorem result_of {fns : List HFn} (hd : Distinct fns) {L : Layout} {ss : List Seg} (hp : ss.Perm (L.segs.map Prod.fst ++
    (fns.filter (fun f => decide (¬ Present L.parts f))).map newSeg)) (he : Each Seg.Is fns ss) : Result fns L ss := by
  apply each_of_get (each_len he)
  intro i f hf
  obtain ⟨s, hs, hi⟩ := each_get he hf
  refine ⟨s, hs, ?_⟩
  rcases List.mem_append.1 (hp.mem_iff.1 (List.mem_of_getElem? hs)) with h | h
  · exact .inl ⟨h, hi⟩
  · obtain ⟨g, hg, rfl⟩ := List.mem_map.1 h
    obtain ⟨hg, hn⟩ := List.mem_filter.1 hg
    obtain ⟨j, hj⟩ := List.mem_iff_getElem?.1 hg
    rw [is_iff_key, key_newSeg] at hi
    have := distinct_key hd hj hf (Option.some.inj hi)
    rw [this, hf] at hj
    obtain rfl := Option.some.inj hj
    exact .inr ⟨of_decide_eq_true hn, rfl⟩

/-- **C142.** A valid file whose contract consists of functions of the tree, each at most once, in the order of the tree: without `-m`, `check --fix` ends with exactly one function per function of
the tree, in the order of the tree.  Each one that was there keeps its text, the others are as generated. -/
theorem C142_result {P : SolParser} {G : SolGrammar} (hG : G.HasGenerated) (hP : Reader P G) {n : Str} {fns : List HFn} {ctx : Context}
    (hh : ctx.hir = ⟨[⟨n, fns⟩]⟩) (hf : ∀ f ∈ fns, ReadableFn f) (hsk : ctx.skipModifiers = false) (hd : Distinct fns) {L L1 : Layout} (hL : L.Fits G)
    (hL1 : L1.Fits G) (hsrc : ctx.src = L.text) (hpt : P ctx.src = some ctx.pt) (hr : Renamed (sanitize n) L L1) (hb : '{' ∉ L1.header)
    (hown : OnlyTree fns L) (ho : InOrder fns L.parts) {vs : List Violation} (hv : checkCtx ctx = .ok vs) :
    ∃ (L' : Layout) (u : SolUnit), fixContext P ctx = .ok ({ ctx with src := L'.text, pt := u }, vs.length) ∧ L'.Fits G ∧ FirstContract u L'.contract ∧
      Result fns L (L'.segs.map Prod.fst) := by
  obtain ⟨L', u, h1, h2, h3, h4, _⟩ := C91_fix_missing hG hP hh hf hL hL1 hsrc hpt hr hb (by simp [hsk]) hd ho hv
  rw [hsk] at h4
  have hpres : ∀ f ∈ fns, Present L'.parts f := fun f hf => (h4.present f hf).resolve_right (by simp)
  have hlen := onlyTree_length hd (renamed_only hr hown) h4 hpres
  refine ⟨L', u, h1, h2, h3, result_of hd ?_ (order_each hd hpres hlen (h4.order hd ((renamed_inOrder hr fns).2 ho)))⟩
  have := h4.only
  rw [renamed_segs hr, List.filter_congr (q := fun f => decide (¬ Present L.parts f)) (fun f _ => decide_eq_decide.2 (by
    simp [Reported, renamed_present hr]))] at this
  exact this

/-- **C142**, files in another order: the same, if the file is ASCII, each function is declared once in it and no three of them are reversed. -/
theorem C142_sorted {P : SolParser} {G : SolGrammar} (hG : G.HasGenerated) (hP : Reader P G) {n : Str} {fns : List HFn} {ctx : Context}
    (hh : ctx.hir = ⟨[⟨n, fns⟩]⟩) (hf : ∀ f ∈ fns, ReadableFn f) (hsk : ctx.skipModifiers = false) (hd : Distinct fns) {L L1 : Layout} (hL : L.Fits G)
    (hL1 : L1.Fits G) (hsrc : ctx.src = L.text) (hpt : P ctx.src = some ctx.pt) (hr : Renamed (sanitize n) L L1) (hb : '{' ∉ L1.header)
    (hown : OnlyTree fns L) (h3 : NoReversedTriple fns L.parts) (hA : Ascii L.text) (hA1 : Ascii L1.text) (hF : ∀ f ∈ fns, Ascii (emitFunction f))
    (hD : DeclaredOnce fns L1) :
    ∃ (L' : Layout) (u : SolUnit) (vs : List Violation), checkCtx ctx = .ok vs ∧ fixContext P ctx = .ok ({ ctx with src := L'.text, pt := u }, vs.length) ∧
      L'.Fits G ∧ FirstContract u L'.contract ∧ Result fns L (L'.segs.map Prod.fst) := by
  obtain ⟨L', u, vs, h1, h2, h4, h5, h6, h7, _⟩ := C99_sorts hG hP hh hf hL hL1 hsrc hpt hr hb hsk hd hown h3 hA hA1 hF hD
  exact ⟨L', u, vs, h1, h2, h4, h5, result_of hd h6 h7⟩

omit U in
private theorem each_same {α β : Type} {R S : α → β → Prop} {as : List α} {bs cs : List β} (h1 : Each R as bs) (h2 : Each S as cs)
    (h : ∀ a b c, a ∈ as → b ∈ bs → c ∈ cs → R a b → S a c → b = c) : bs = cs := by
  have e1 := each_len h1
  have e2 := each_len h2
  apply List.ext_getElem (by omega)
  intro i hb hc
  obtain ⟨a, ha, hr⟩ := each_get' h1 (List.getElem?_eq_getElem hb)
  obtain ⟨a', ha', hs⟩ := each_get' h2 (List.getElem?_eq_getElem hc)
  rw [ha] at ha'
  obtain rfl := Option.some.inj ha'
  exact h a _ _ (List.mem_of_getElem? ha) (List.getElem_mem hb) (List.getElem_mem hc) hr hs

private theorem mem_present {L : Layout} {s : Seg} (hs : s ∈ L.segs.map Prod.fst) {f : HFn} (hi : s.Is f) : Present L.parts f := by
  rw [layout_present]
  obtain ⟨p, hp, rfl⟩ := List.mem_map.1 hs
  exact List.mem_map.2 ⟨p, hp, (is_iff_key f _).1 hi⟩

/-- **C142**, there is only one such contract. -/
theorem C142_unique {fns : List HFn} {L : Layout} (hown : OnlyTree fns L) {ss ts : List Seg} (h1 : Result fns L ss) (h2 : Result fns L ts) : ss = ts := by
  apply each_same h1 h2
  intro f s t _ _ _ hs ht
  rcases hs with ⟨hs, hi⟩ | ⟨hn, rfl⟩ <;> rcases ht with ⟨ht, hj⟩ | ⟨hm, rfl⟩
  · exact once_eq hown hs ht hi hj
  · exact absurd (mem_present hs hi) hm
  · exact absurd (mem_present ht hj) hn
  · rfl

private theorem sublist_order {fns : List HFn} {L : Layout} (h : (L.segs.map Prod.fst).Pairwise (NotAfter fns)) : InOrder fns L.parts := by
  rw [inOrder_iff]
  intro i j f g hij hf hg a b ha hb
  rcases Nat.lt_or_ge b a with hlt | hge
  · have e : L.keys = (L.segs.map Prod.fst).map Seg.key := by simp [Layout.keys, Function.comp_def]
    have ha := ((layout_at L f a).1 ha).1
    have hb := ((layout_at L g b).1 hb).1
    rw [e, List.getElem?_map, Option.map_eq_some_iff] at ha hb
    obtain ⟨s, hs, hsk⟩ := ha
    obtain ⟨t, ht, htk⟩ := hb
    obtain ⟨h1, rfl⟩ := List.getElem?_eq_some_iff.1 hs
    obtain ⟨h2, rfl⟩ := List.getElem?_eq_some_iff.1 ht
    have := List.pairwise_iff_getElem.1 h b a h2 h1 hlt j i g f hg hf ((is_iff_key _ _).2 htk) ((is_iff_key _ _).2 hsk)
    omega
  · exact hge

/-- **C142**, deleting: a file passes `check`, its contract consisting of functions of the tree.  If functions that are as generated are deleted, `check --fix` writes them again as they were, where
they were. -/
theorem C142_rewrite {P : SolParser} {G : SolGrammar} (hG : G.HasGenerated) (hP : Reader P G) {n : Str} {fns : List HFn} {ctx : Context}
    (hh : ctx.hir = ⟨[⟨n, fns⟩]⟩) (hf : ∀ f ∈ fns, ReadableFn f) (hsk : ctx.skipModifiers = false) (hd : Distinct fns) {L0 : Layout} {u0 : SolUnit}
    (hc0 : FirstContract u0 L0.contract) (hok : checkCtx { ctx with src := L0.text, pt := u0 } = .ok []) (hown : OnlyTree fns L0)
    {L L1 : Layout} (hdr : DroppedStubs fns L0 L) (hL : L.Fits G) (hL1 : L1.Fits G) (hsrc : ctx.src = L.text) (hpt : P ctx.src = some ctx.pt)
    (hr : Renamed (sanitize n) L L1) (hb : '{' ∉ L1.header) {vs : List Violation} (hv : checkCtx ctx = .ok vs) :
    ∃ (L' : Layout) (u : SolUnit), fixContext P ctx = .ok ({ ctx with src := L'.text, pt := u }, vs.length) ∧ L'.Fits G ∧ FirstContract u L'.contract ∧
      L'.segs.map Prod.fst = L0.segs.map Prod.fst := by
  obtain ⟨s, hs, _, hp, ho⟩ := (C37_silent_iff (ctx := { ctx with src := L0.text, pt := u0 }) hh).1 hok
  obtain rfl : s = L0.contract := Option.some.inj (((findContract_iff _ _).2 hs).symm.trans ((findContract_iff _ _).2 hc0))
  have hpres : ∀ f ∈ fns, Present L0.parts f := fun f hf => (hp f hf).resolve_right fun h => by
    have : ctx.skipModifiers = true := h.1
    rw [hsk] at this
    cases this
  have hnil : fns.filter (fun f => decide (Reported false L0 f)) = [] := by
    rw [List.filter_eq_nil_iff]
    intro f hf h
    exact (of_decide_eq_true h).1 (hpres f hf)
  have hcomp : Completed false fns L0 L0 := ⟨⟨rfl, rfl, rfl, rfl⟩, List.Sublist.refl _, List.Sublist.refl _, by rw [hnil]; simp, fun f hf => .inl (hpres f hf),
    fun _ i f hi h => absurd (hpres f (List.mem_of_getElem? hi)) h.1, fun _ h => h, fun _ h => h⟩
  have heach : Each Seg.Is fns (L0.segs.map Prod.fst) := order_each hd hpres (onlyTree_length hd hown hcomp hpres) ho
  have hownL : OnlyTree fns L := ⟨fun s hs => hown.own s (hdr.1.subset hs), hown.once.sublist hdr.1⟩
  obtain ⟨L', u, h1, h2, h3, h4⟩ := C142_result hG hP hh hf hsk hd hL hL1 hsrc hpt hr hb hownL (sublist_order ((order_before hown ho).sublist hdr.1)) hv
  refine ⟨L', u, h1, h2, h3, each_same h4 heach ?_⟩
  intro f s t hf _ ht hs hi
  rcases hs with ⟨hs, hj⟩ | ⟨hn, rfl⟩
  · exact once_eq hown (hdr.1.subset hs) ht hj hi
  · rcases hdr.2 t ht with h | ⟨g, hg, rfl⟩
    · exact absurd (mem_present h hi) hn
    · rw [is_iff_key, key_newSeg] at hi
      obtain ⟨i, h5⟩ := List.mem_iff_getElem?.1 hf
      obtain ⟨j, h6⟩ := List.mem_iff_getElem?.1 hg
      have := distinct_key hd h6 h5 (Option.some.inj hi)
      rw [this, h5] at h6
      rw [Option.some.inj h6]

end

end Bulloak
