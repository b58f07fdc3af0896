import Verif.Spec.Tidy
import Verif.Props.Result
import Verif.Props.FixWhole
import Verif.Props.Session
/-! # Files after `check --fix` -/

namespace Bulloak
open Spec

section
variable [U : Ucd]

omit U in
private theorem is_solTy {f : HFn} {ty : SolFnTy} {name : Option Str} {t : Str} (h : (Seg.fn ty name t).Is f) : name = some f.identifier ∧ ty = solTy f.ty := by
  obtain ⟨h1, h2⟩ := h
  refine ⟨h1, ?_⟩
  cases hf : f.ty <;> rw [hf] at h2 <;> cases ty <;> first | rfl | cases h2

private theorem result_seen {fns : List HFn} {L L' : Layout} (h : Result fns L (L'.segs.map Prod.fst)) : ExactlyTree fns L'.parts := by
  unfold ExactlyTree Layout.parts
  rw [segs_seen]
  unfold Result at h
  generalize L'.segs = l at h
  clear L'
  induction l generalizing fns with
  | nil => cases h; rfl
  | cons p l ih =>
    cases h with
    | cons h hr =>
      rw [List.map_cons, List.map_cons, ih hr]
      congr 1
      obtain ⟨s, g⟩ := p
      have : s.Is ‹_› := h.elim (fun h => h.2) (fun h => (is_iff_key _ _).2 (by have e : s = _ := h.2; rw [e]; exact key_newSeg _))
      cases s with
      | fn ty name t =>
        obtain ⟨rfl, rfl⟩ := is_solTy this
        rfl
      | other t => exact this.elim

private theorem exactly_fixed {env : Env} {G : SolGrammar} (hG : G.HasGenerated) (hP : Reader env.solParse G) (hF : KeepsContract env.ctxFmt G)
    {n : Str} {fns : List HFn} {ctx : Context} (hh : ctx.hir = ⟨[⟨n, fns⟩]⟩) (hf : ∀ f ∈ fns, ReadableFn f) (hsk : ctx.skipModifiers = false) {L L1 : Layout}
    (hL : L.Fits G) (hL1 : L1.Fits G) (hsrc : ctx.src = L.text) (hpt : env.solParse ctx.src = some ctx.pt) (hr : Renamed (sanitize n) L L1)
    (hb : '{' ∉ L1.header) (hd : Distinct fns) (hA : Ascii L.text) (hown : OnlyTree fns L) (hs : Sortable fns L L1) :
    ∃ L' : Layout, FixedTo env ctx L'.text ∧ L'.Fits G ∧ ExactlyTree fns L'.parts := by
  have hne : ∀ s ∈ L.segs.map Prod.fst, s.text ≠ [] := by
    intro s hsm e
    obtain ⟨p, hp, rfl⟩ := List.mem_map.1 hsm
    obtain ⟨c, r, h, _⟩ := (hL.segs p hp).1.1
    rw [e] at h; cases h
  have hpt' : FirstContract ctx.pt L.contract := reader_first hP hL (by rw [← hsrc]; exact hpt)
  have hl0 := ascii_lines hA hne
  obtain ⟨vs, hv⟩ := check_total hh hpt' (by rw [hsrc]; exact hl0.1) (by rw [hsrc]; exact hl0.2)
  have key : ∃ (L' : Layout) (u : SolUnit) (k : Nat), fixContext env.solParse ctx = .ok ({ ctx with src := L'.text, pt := u }, k) ∧ L'.Fits G ∧ FirstContract u L'.contract ∧
      Result fns L (L'.segs.map Prod.fst) := by
    rcases hs with ho | ⟨h3, hA1, hFa, hD⟩
    · obtain ⟨L', u, h1, h2, h3, h4⟩ := C142_result hG hP hh hf hsk hd hL hL1 hsrc hpt hr hb hown ho hv
      exact ⟨L', u, _, h1, h2, h3, h4⟩
    · obtain ⟨L', u, _, _, h1, h2, h3, h4⟩ := C142_sorted hG hP hh hf hsk hd hL hL1 hsrc hpt hr hb hown h3 hA hA1 hFa hD
      exact ⟨L', u, _, h1, h2, h3, h4⟩
  obtain ⟨L', u, k, h1, h2, h3, h4⟩ := key
  obtain ⟨L'', h5, h6, _, h8⟩ := hF { ctx with src := L'.text, pt := u } L' rfl h2 h3
  refine ⟨L'', ⟨_, k, h1, h5⟩, h6, ?_⟩
  unfold ExactlyTree
  rw [h8]
  exact result_seen h4

/-- **C144.** Any number of trees with valid ASCII Solidity files of their own, the contracts of which consist of functions of their trees, each at most once, in an order as in C142: after
`check --fix` without `-m`, every Solidity file is valid, and its contract has exactly the functions of its tree, in the order of the tree. -/
theorem C144_disk [LawfulUcd] {env : Env} {G : SolGrammar} (hG : G.HasGenerated) (hP : Reader env.solParse G)
    (hF : KeepsContract env.ctxFmt G) {a : CheckArgs} {fs : Fs} (hfix : a.fix = true) (hst : a.stdout = false) (hsk : a.skipModifiers = false)
    (hown : OwnFiles a.files)
    (hgood : ∀ t ∈ a.files, ∃ text n fns p, ∃ L L1 : Layout, fs.state t = .text text ∧ translate env.order .default text = .ok ⟨[⟨n, fns⟩]⟩ ∧
      (∀ f ∈ fns, ReadableFn f) ∧ Distinct fns ∧ SolOf t p ∧ fs.state p = .text L.text ∧ L.Fits G ∧ L1.Fits G ∧ Ascii L.text ∧
      Renamed (sanitize n) L L1 ∧ '{' ∉ L1.header ∧ OnlyTree fns L ∧ Sortable fns L L1)
    (hw : ∀ t ∈ a.files, ∀ p, SolOf t p → fs.writable p = true) :
    (checkRun env a fs).exit = .code 0 ∧
    ∀ t ∈ a.files, ∀ text n fns p, fs.state t = .text text → translate env.order .default text = .ok ⟨[⟨n, fns⟩]⟩ → SolOf t p →
      ∃ L' : Layout, (checkRun env a fs).fs.state p = .text L'.text ∧ L'.Fits G ∧ ExactlyTree fns L'.parts := by
  have hopen : ∀ t ∈ a.files, ∃ text n fns p ctx, ∃ L' : Layout, fs.state t = .text text ∧ translate env.order .default text = .ok ⟨[⟨n, fns⟩]⟩ ∧ SolOf t p ∧
      Opens env a.skipModifiers fs t ctx ∧ FixedTo env ctx L'.text ∧ L'.Fits G ∧ ExactlyTree fns L'.parts := by
    intro t ht
    obtain ⟨text, n, fns, p, L, L1, h1, h2, h3, h4, h5, h6, h7, h8, h9, h10, h11, h12, h13⟩ := hgood t ht
    obtain ⟨u, hu, _⟩ := hP L h7
    obtain ⟨L', g1, g2, g3⟩ := exactly_fixed hG hP hF (ctx := ⟨t.str, ⟨[⟨n, fns⟩]⟩, p.str, L.text, u, a.skipModifiers⟩) rfl h3 hsk h7 h8 rfl hu h10 h11 h4 h9 h12 h13
    exact ⟨text, n, fns, p, _, L', h1, h2, h5, ⟨text, _, p, _, u, h1, h2, h5, h6, hu, rfl⟩, g1, g2, g3⟩
  have hnc : ∀ t ∈ a.files, ∀ ctx, Opens env a.skipModifiers fs t ctx → ¬ FixCrashes env ctx := by
    intro t ht ctx ho
    obtain ⟨_, _, _, _, c, L', _, _, _, hc, ⟨ctx', n, h1, h2⟩, _⟩ := hopen t ht
    cases opens_unique ho hc
    rintro (h | ⟨_, _, h, h'⟩)
    · rw [h1] at h; cases h
    · rw [h1] at h; cases h
      rw [h2] at h'; cases h'
  constructor
  · rcases C51_exit_fix (env := env) (fs := fs) hfix with ⟨h, _⟩ | ⟨_, t, ht, ctx, h1, h2⟩
    · exact h
    · exact absurd h2 (hnc t ht ctx h1)
  · intro t ht text n fns p h1 h2 h3
    obtain ⟨text', n', fns', p', c, L', g1, g2, g3, hc, hfx, g4, g5⟩ := hopen t ht
    rw [h1] at g1
    cases g1
    rw [h2] at g2
    cases g2
    obtain ⟨A, B, hAB⟩ := List.append_of_mem ht
    have hp := hown
    unfold OwnFiles at hp
    rw [hAB, List.pairwise_append] at hp
    refine ⟨L', C50_written hfix hst hAB (fun g hg => hnc g (by rw [hAB]; simp [hg])) ?_ hc hfx h3 (hw t ht _ h3), g4, g5⟩
    intro g hg hs
    exact (List.pairwise_cons.1 hp.2.1).1 g hg _ h3 hs

end

end Bulloak
