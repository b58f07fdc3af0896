import Verif.Props.Amid
import Verif.Props.Share
/-! # `check --fix` for one tree, seen from another (C148) -/

namespace Bulloak
open Spec

section
variable [U : Ucd]

/-- Filling in functions for one tree leaves those of another alone, if they are all there. -/
private theorem completed_ours {skip : Bool} {fns fns' : List HFn} {L L' : Layout} (h : Completed skip fns L L') (hp : ∀ f ∈ fns', Present L.parts f) : Ours fns' L'.parts = Ours fns' L.parts := by
  rw [ours_segs, ours_segs]
  congr 1
  have h1 : (OwnCode fns' L).Sublist (OwnCode fns' L') := h.kept.filter _
  refine (h1.eq_of_length ?_).symm
  have h2 := (h.only.filter (fun s => decide (∃ f ∈ fns', s.Is f))).length_eq
  have h3 : ((fns.filter (fun f => decide (Reported skip L f))).map newSeg).filter (fun s => decide (∃ f ∈ fns', s.Is f)) = [] := by
    rw [List.filter_eq_nil_iff]
    intro s hs hc
    obtain ⟨f, hf, rfl⟩ := List.mem_map.1 hs
    obtain ⟨g, hg, hi⟩ := of_decide_eq_true hc
    have e : asSeen f = asSeen g := ((is_segSeen _ _).1 (new_is f)).symm.trans ((is_segSeen _ _).1 hi)
    obtain ⟨p, hp, hm⟩ := hp g hg
    exact (of_decide_eq_true (List.mem_filter.1 hf).2).1 ⟨p, hp, (matches_asSeen _ _).2 (((matches_asSeen _ _).1 hm).trans e.symm)⟩
  rw [List.filter_append, List.length_append, h3] at h2
  exact h2.symm

/-- **C148.** A valid file conforms to a tree (`old`, checked without `-m`).  `check --fix` is run on it with any other tree for a contract of the same name, such as a later version of the first one, of
which the functions in the file are in order; with `-m`, no missing function directly follows a missing modifier.  Then the file conforms to both trees. -/
theorem C148_both {P : SolParser} {G : SolGrammar} (hG : G.HasGenerated) (hP : Reader P G) {n n' : Str} {fns fns' : List HFn} {ctx old : Context}
    (hh : ctx.hir = ⟨[⟨n, fns⟩]⟩) (hh' : old.hir = ⟨[⟨n', fns'⟩]⟩) (hn : sanitize n = sanitize n') (hf : ∀ f ∈ fns, ReadableFn f) (hd : Distinct fns) {L : Layout} (hL : L.Fits G)
    (hb : '{' ∉ L.header) (hsrc : ctx.src = L.text) (hpt : P ctx.src = some ctx.pt) (ho : InOrder fns L.parts) (hsame : old.src = ctx.src ∧ old.pt = ctx.pt)
    (hsk : old.skipModifiers = false) (hc : checkCtx old = .ok [])
    (hm : ∀ i f g, fns[i]? = some f → fns[i + 1]? = some g → ctx.skipModifiers = true → f.ty = .modifier → ¬ Present L.parts f → ¬ Reported ctx.skipModifiers L g)
    {vs : List Violation} (hv : checkCtx ctx = .ok vs) :
    ∃ (L' : Layout) (u : SolUnit), fixContext P ctx = .ok ({ ctx with src := L'.text, pt := u }, vs.length) ∧ L'.Fits G ∧ FirstContract u L'.contract ∧
      checkCtx { ctx with src := L'.text, pt := u } = .ok [] ∧ checkCtx { old with src := L'.text, pt := u } = .ok [] := by
  have hfc : FirstContract ctx.pt L.contract := reader_first hP hL (by rw [← hsrc]; exact hpt)
  have hfc' : FirstContract old.pt L.contract := by rw [hsame.2]; exact hfc
  obtain ⟨t, k1, k2, k3, _⟩ := (C37_silent_iff hh').1 hc
  obtain rfl : t = L.contract := Option.some.inj (((findContract_iff _ _).2 k1).symm.trans ((findContract_iff _ _).2 hfc'))
  have hr : Renamed (sanitize n) L L := .same (fun m e => (k2 m e).trans hn.symm)
  obtain ⟨L', u, h1, h2, h3, h4, h5⟩ := C91_fix_missing hG hP hh hf hL hL hsrc hpt hr hb hm hd ho hv
  refine ⟨L', u, h1, h2, h3, h5, ?_⟩
  exact (C137_verdict hh' hfc' h3 h4.same.2.1 (completed_ours h4 fun f hf => (k3 f hf).resolve_right fun h => by rw [hsk] at h; cases h.1)).2 hc

omit U in
/-- The functions of a tree that are in the file are in order, if they belong to another tree that the file conforms to, and the two trees agree on the order. -/
theorem sameOrder_inOrder {fns fns' : List HFn} {parts : List SolPart} (hs : SameOrder fns' fns) (hi : InOrder fns' parts)
    (hk : ∀ f ∈ fns, Present parts f → asSeen f ∈ fns'.map asSeen) : InOrder fns parts := by
  unfold SameOrder at hs
  have h1 := (behind_map hi).sublist (List.filter_sublist (p := fun x => decide (x ∈ fns.map asSeen)))
  rw [hs, List.pairwise_filter, List.pairwise_map] at h1
  unfold InOrder
  refine h1.imp_of_mem ?_
  intro f g hf hg h i j hi hj
  exact h (decide_eq_true (hk f hf (at_present hi))) (decide_eq_true (hk g hg (at_present hj))) i j ((seenAt_iff ..).2 hi) ((seenAt_iff ..).2 hj)

/-- **C148**, in terms of the trees: instead of the file, look at whether the functions that both trees have come in the same order in both; functions that only the new tree has are not in the file. -/
theorem C148_trees {P : SolParser} {G : SolGrammar} (hG : G.HasGenerated) (hP : Reader P G) {n n' : Str} {fns fns' : List HFn} {ctx old : Context}
    (hh : ctx.hir = ⟨[⟨n, fns⟩]⟩) (hh' : old.hir = ⟨[⟨n', fns'⟩]⟩) (hn : sanitize n = sanitize n') (hf : ∀ f ∈ fns, ReadableFn f) (hd : Distinct fns) {L : Layout} (hL : L.Fits G)
    (hb : '{' ∉ L.header) (hsrc : ctx.src = L.text) (hpt : P ctx.src = some ctx.pt) (hsame : old.src = ctx.src ∧ old.pt = ctx.pt) (hso : SameOrder fns' fns)
    (hnew : ∀ f ∈ fns, Present L.parts f → asSeen f ∈ fns'.map asSeen) (hsk : ctx.skipModifiers = false ∧ old.skipModifiers = false) (hc : checkCtx old = .ok [])
    {vs : List Violation} (hv : checkCtx ctx = .ok vs) :
    ∃ (L' : Layout) (u : SolUnit), fixContext P ctx = .ok ({ ctx with src := L'.text, pt := u }, vs.length) ∧ L'.Fits G ∧ FirstContract u L'.contract ∧
      checkCtx { ctx with src := L'.text, pt := u } = .ok [] ∧ checkCtx { old with src := L'.text, pt := u } = .ok [] := by
  have hfc' : FirstContract old.pt L.contract := by
    rw [hsame.2]
    exact reader_first hP hL (by rw [← hsrc]; exact hpt)
  obtain ⟨t, k1, _, _, k4⟩ := (C37_silent_iff hh').1 hc
  obtain rfl : t = L.contract := Option.some.inj (((findContract_iff _ _).2 k1).symm.trans ((findContract_iff _ _).2 hfc'))
  exact C148_both hG hP hh hh' hn hf hd hL hb hsrc hpt (sameOrder_inOrder hso k4 hnew) hsame hsk.2 hc (fun _ _ _ _ _ h => by rw [hsk.1] at h; cases h) hv

/-- **C148**, commands: `check` succeeds for a valid ASCII file and its tree.  The tree is changed to another one, for a contract of the same name, that names no function twice and whose functions in the
file are in order; `check --fix` is run.  It succeeds, and so does `check` afterwards, with the new tree as well as after the old tree is put back. -/
theorem C148_exit [LawfulUcd] {env : Env} {G : SolGrammar} (hG : G.HasGenerated) (hP : Reader env.solParse G) (hF : KeepsContract env.ctxFmt G) {t p : FPath} (hsol : SolOf t p) (hne : t ≠ p)
    {fs fs1 fs2 : Fs} {text text' n n' : Str} {fns fns' : List HFn} {L : Layout} (h1 : fs.state t = .text text') (h2 : fs.state p = .text L.text)
    (ht : translate env.order .default text = .ok ⟨[⟨n, fns⟩]⟩) (ht' : translate env.order .default text' = .ok ⟨[⟨n', fns'⟩]⟩) (hn : sanitize n = sanitize n') (hf : ∀ f ∈ fns, ReadableFn f)
    (hd : Distinct fns) (hL : L.Fits G) (hb : '{' ∉ L.header) (hA : Ascii L.text) (ho : InOrder fns L.parts) (h0 : (checkRun env ⟨[t], false, false, false⟩ fs).exit = .code 0)
    (k1 : fs1.state t = .text text) (k2 : fs1.state p = fs.state p) (hw : fs1.writable p = true)
    (m1 : fs2.state t = .text text') (m2 : fs2.state p = (checkRun env ⟨[t], true, false, false⟩ fs1).fs.state p) :
    (checkRun env ⟨[t], true, false, false⟩ fs1).exit = .code 0 ∧
    (checkRun env ⟨[t], false, false, false⟩ (checkRun env ⟨[t], true, false, false⟩ fs1).fs).exit = .code 0 ∧ (checkRun env ⟨[t], false, false, false⟩ fs2).exit = .code 0 := by
  obtain ⟨u, hu, hfc⟩ := hP L hL
  have hold : checkCtx ⟨t.str, ⟨[⟨n', fns'⟩]⟩, p.str, L.text, u, false⟩ = .ok [] := by
    rcases C51_exit (env := env) (a := ⟨[t], false, false, false⟩) (fs := fs) rfl with ⟨_, h⟩ | ⟨h, _⟩ | ⟨h, _⟩
    · obtain ⟨ctx, g1, g2⟩ := h t (List.mem_singleton.2 rfl)
      rwa [opens_unique g1 ⟨text', _, p, L.text, u, h1, ht', hsol, h2, hu, rfl⟩] at g2
    · rw [h0] at h; cases h
    · rw [h0] at h; cases h
  have hne' : ∀ s ∈ L.segs.map Prod.fst, s.text ≠ [] := by
    intro s hsm e
    obtain ⟨q, hq, rfl⟩ := List.mem_map.1 hsm
    obtain ⟨c, r, h, _⟩ := (hL.segs q hq).1.1
    rw [e] at h; cases h
  have hl0 := ascii_lines hA hne'
  obtain ⟨vs, hv⟩ := check_total (ctx := ⟨t.str, ⟨[⟨n, fns⟩]⟩, p.str, L.text, u, false⟩) rfl hfc hl0.1 hl0.2
  obtain ⟨L', u', e1, e2, e3, e4, e5⟩ := C148_both hG hP (ctx := ⟨t.str, ⟨[⟨n, fns⟩]⟩, p.str, L.text, u, false⟩) (old := ⟨t.str, ⟨[⟨n', fns'⟩]⟩, p.str, L.text, u, false⟩) rfl rfl hn hf hd hL hb
    rfl hu ho ⟨rfl, rfl⟩ rfl hold (fun _ _ _ _ _ h => by cases h) hv
  obtain ⟨L'', g1, g2, g3, g4⟩ := hF ⟨t.str, ⟨[⟨n, fns⟩]⟩, p.str, L'.text, u', false⟩ L' rfl e2 e3
  obtain ⟨u'', hu'', hfc''⟩ := hP L'' g2
  have hopen : Opens env false fs1 t ⟨t.str, ⟨[⟨n, fns⟩]⟩, p.str, L.text, u, false⟩ := ⟨text, _, p, L.text, u, k1, ht, hsol, k2.trans h2, hu, rfl⟩
  have hfx : FixedTo env ⟨t.str, ⟨[⟨n, fns⟩]⟩, p.str, L.text, u, false⟩ L''.text := ⟨_, _, e1, g1⟩
  have hnc : ∀ ctx, Opens env false fs1 t ctx → ¬ FixCrashes env ctx := by
    intro ctx hc
    cases opens_unique hc hopen
    rintro (h | ⟨_, _, h, h'⟩)
    · rw [e1] at h; cases h
    · rw [e1] at h; cases h
      rw [g1] at h'; cases h'
  have hout : (checkRun env ⟨[t], true, false, false⟩ fs1).fs.state p = .text L''.text :=
    C50_written (a := ⟨[t], true, false, false⟩) (A := []) (B := []) rfl rfl rfl (fun g hg => absurd hg (by simp)) (fun g hg => absurd hg (by simp)) hopen hfx hsol hw
  have htree : (checkRun env ⟨[t], true, false, false⟩ fs1).fs.state t = .text text := by
    rw [← k1]
    refine Classical.byContradiction fun h => ?_
    obtain ⟨_, _, _, t', ht', hs', _⟩ := C50_only_sol (a := ⟨[t], true, false, false⟩) h
    rw [List.mem_singleton.1 ht'] at hs'
    exact hne (((solOf_iff _ _).1 hs').trans ((solOf_iff _ _).1 hsol).symm)
  have pass : ∀ (gs : Fs) (x m : Str) (gns : List HFn), gs.state t = .text x → translate env.order .default x = .ok ⟨[⟨m, gns⟩]⟩ → gs.state p = .text L''.text →
      checkCtx ⟨t.str, ⟨[⟨m, gns⟩]⟩, p.str, L'.text, u', false⟩ = .ok [] → (checkRun env ⟨[t], false, false, false⟩ gs).exit = .code 0 := by
    intro gs x m gns q1 q2 q3 q4
    have hop : Opens env false gs t ⟨t.str, ⟨[⟨m, gns⟩]⟩, p.str, L''.text, u'', false⟩ := ⟨x, _, p, L''.text, u'', q1, q2, hsol, q3, hu'', rfl⟩
    have hc : checkCtx ⟨t.str, ⟨[⟨m, gns⟩]⟩, p.str, L''.text, u'', false⟩ = .ok [] :=
      (C137_verdict (ctx := ⟨t.str, ⟨[⟨m, gns⟩]⟩, p.str, L'.text, u', false⟩) rfl e3 hfc'' g3 (ours_of_seen g4)).2 q4
    rcases C51_exit (env := env) (a := ⟨[t], false, false, false⟩) (fs := gs) rfl with ⟨e, _⟩ | ⟨_, _, t', ht', h⟩ | ⟨_, t', ht', ctx, w1, w2⟩
    · exact e
    · rw [List.mem_singleton.1 ht'] at h
      exact absurd hc (h _ hop)
    · rw [List.mem_singleton.1 ht'] at w1
      rw [opens_unique w1 hop, hc] at w2
      cases w2
  refine ⟨?_, pass _ _ _ _ htree ht hout e4, pass _ _ _ _ m1 ht' (m2.trans hout) e5⟩
  rcases C51_exit_fix (env := env) (a := ⟨[t], true, false, false⟩) (fs := fs1) rfl with ⟨h, _⟩ | ⟨_, t', ht', ctx, w1, w2⟩
  · exact h
  · rw [List.mem_singleton.1 ht'] at w1
    exact absurd w2 (hnc ctx w1)

end

end Bulloak
