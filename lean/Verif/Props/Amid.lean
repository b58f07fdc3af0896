import Verif.Spec.Amid
import Verif.Props.ReadOff
import Verif.Props.Tidy
/-! # `check --fix` amid other code (C146) -/

namespace Bulloak
open Spec

section
variable [U : Ucd]

/-- What is seen of a part. -/
def segSeen : Seg → Option (Option Str × SolFnTy)
  | .fn ty name _ => some (name, ty)
  | .other _ => none

omit U in
theorem is_segSeen (f : HFn) (s : Seg) : s.Is f ↔ segSeen s = asSeen f := by
  cases s with
  | other => simp [Seg.Is, segSeen, asSeen]
  | fn ty name t =>
    unfold Seg.Is segSeen asSeen
    cases ty <;> cases e' : f.ty <;> simp [kindOf]

theorem ours_segs (fns : List HFn) (L : Layout) : Ours fns L.parts = (OwnCode fns L).map segSeen := by
  have h1 : ∀ ps : List SolPart, (ps.filter (fun p => decide (∃ f ∈ fns, Matches f p))).map seen = (ps.map seen).filter (fun x => decide (∃ f ∈ fns, x = asSeen f)) := by
    intro ps
    rw [List.filter_map]
    congr 1
    apply List.filter_congr
    intro p _
    simp only [Function.comp, matches_asSeen]
  have h2 : ∀ ss : List Seg, (ss.filter (fun s => decide (∃ f ∈ fns, s.Is f))).map segSeen = (ss.map segSeen).filter (fun x => decide (∃ f ∈ fns, x = asSeen f)) := by
    intro ss
    rw [List.filter_map]
    congr 1
    apply List.filter_congr
    intro p _
    simp only [Function.comp, is_segSeen]
  unfold Ours OwnCode
  rw [h1, h2]
  congr 1
  unfold Layout.parts
  rw [segs_seen, List.map_map]
  apply List.map_congr_left
  rintro ⟨s, g⟩ _
  cases s <;> rfl

theorem new_is (f : HFn) : (newSeg f).Is f := (is_iff_key _ _).2 (key_newSeg f)

private theorem completed_twice {skip : Bool} {fns : List HFn} {L L' : Layout} (hd : Distinct fns) (hn : NoTwice fns L.parts) (h : Completed skip fns L L') : NoTwice fns L'.parts := by
  rw [noTwice_iff, ours_segs] at hn ⊢
  have hp : ((OwnCode fns L').map segSeen).Perm ((OwnCode fns L).map segSeen ++ (fns.filter (fun f => decide (Reported skip L f))).map asSeen) := by
    have := (h.only.filter (fun s => decide (∃ f ∈ fns, s.Is f))).map segSeen
    rw [List.filter_append, List.map_append] at this
    refine this.trans (List.Perm.of_eq ?_)
    congr 1
    rw [List.filter_eq_self.2, List.map_map]
    · apply List.map_congr_left
      intro f _
      exact (is_segSeen f _).1 (new_is f)
    · intro s hs
      obtain ⟨f, hf, rfl⟩ := List.mem_map.1 hs
      exact decide_eq_true ⟨f, (List.mem_filter.1 hf).1, new_is f⟩
  rw [hp.nodup_iff, List.nodup_append]
  refine ⟨hn, ?_, ?_⟩
  · have : fns.Pairwise (fun f g => asSeen f ≠ asSeen g) := by
      rw [List.pairwise_iff_getElem]
      intro i j hi hj hij e
      have := asSeen_inj hd (List.getElem?_eq_getElem hi) (List.getElem?_eq_getElem hj) e
      omega
    rw [List.nodup_iff_pairwise_ne, List.pairwise_map]
    exact this.sublist List.filter_sublist
  · rintro x hx y hy rfl
    obtain ⟨f, hf, rfl⟩ := List.mem_map.1 hy
    have hr := of_decide_eq_true (List.mem_filter.1 hf).2
    rw [← ours_segs] at hx
    obtain ⟨p, hp, e⟩ := List.mem_map.1 hx
    exact hr.1 ⟨p, (List.mem_filter.1 hp).1, (matches_asSeen _ _).2 e⟩

private theorem completed_other {skip : Bool} {fns : List HFn} {L L' : Layout} (h : Completed skip fns L L') : OtherCode fns L' = OtherCode fns L := by
  have h1 : (OtherCode fns L).Sublist (OtherCode fns L') := h.kept.filter _
  refine (h1.eq_of_length ?_).symm
  have h2 := (h.only.filter (fun s => decide (Foreign fns s))).length_eq
  have h3 : ((fns.filter (fun f => decide (Reported skip L f))).map newSeg).filter (fun s => decide (Foreign fns s)) = [] := by
    rw [List.filter_eq_nil_iff]
    intro s hs hc
    obtain ⟨f, hf, rfl⟩ := List.mem_map.1 hs
    exact of_decide_eq_true hc f (List.mem_filter.1 hf).1 (new_is f)
  rw [List.filter_append, List.length_append, h3] at h2
  exact h2.symm

/-- **C146.** The contract of a valid file has any code; the functions of the tree in it are in the order of the tree, none of them twice.  `check --fix` without `-m` ends with a valid file in which the
functions of the tree, read from top to bottom, are exactly those of the tree; all the other code of the contract is still there, unchanged and in the same order, and so are the functions of the tree
that were there before; and the text around the contract is the same. -/
theorem C146_fix {P : SolParser} {G : SolGrammar} (hG : G.HasGenerated) (hP : Reader P G) {n : Str} {fns : List HFn} {ctx : Context}
    (hh : ctx.hir = ⟨[⟨n, fns⟩]⟩) (hf : ∀ f ∈ fns, ReadableFn f) (hsk : ctx.skipModifiers = false) (hd : Distinct fns) {L L1 : Layout} (hL : L.Fits G) (hL1 : L1.Fits G)
    (hsrc : ctx.src = L.text) (hpt : P ctx.src = some ctx.pt) (hr : Renamed (sanitize n) L L1) (hb : '{' ∉ L1.header) (ho : InOrder fns L.parts) (hn : NoTwice fns L.parts)
    {vs : List Violation} (hv : checkCtx ctx = .ok vs) :
    ∃ (L' : Layout) (u : SolUnit), fixContext P ctx = .ok ({ ctx with src := L'.text, pt := u }, vs.length) ∧ L'.Fits G ∧ FirstContract u L'.contract ∧
      Ours fns L'.parts = fns.map asSeen ∧ OtherCode fns L' = OtherCode fns L ∧ (OwnCode fns L).Sublist (OwnCode fns L') ∧
      L'.before = L1.before ∧ L'.header = L1.header ∧ L'.rest = L1.rest := by
  obtain ⟨L', u, h1, h2, h3, h4, h5⟩ := C91_fix_missing hG hP hh hf hL hL1 hsrc hpt hr hb (fun i f g _ _ h => by rw [hsk] at h; cases h) hd ho hv
  rw [hsk] at h4
  have e : L1.segs = L.segs := renamed_segs hr
  have hn1 : NoTwice fns L1.parts := by
    rw [noTwice_iff, ours_segs] at hn ⊢
    unfold OwnCode
    rw [e]
    exact hn
  refine ⟨L', u, h1, h2, h3, ?_, ?_, ?_, h4.same.1, h4.same.2.2.1, h4.same.2.2.2⟩
  · exact ((C145_exact (ctx := { ctx with src := L'.text, pt := u }) hh hsk hd h3).1 ⟨h5, completed_twice hd hn1 h4⟩).2
  · rw [completed_other h4]
    unfold OtherCode
    rw [e]
  · have := h4.kept.filter (fun s => decide (∃ f ∈ fns, s.Is f))
    rw [e] at this
    exact this

private theorem completed_present {skip : Bool} {fns : List HFn} {L L' : Layout} (hd : Distinct fns) (h : Completed skip fns L L') {f : HFn} (hf : f ∈ fns) :
    Present L'.parts f ↔ Present L.parts f ∨ Reported skip L f := by
  have key : ∀ L : Layout, Present L.parts f ↔ ∃ s ∈ L.segs.map Prod.fst, s.Is f := by
    intro L
    have h1 : Present L.parts f ↔ asSeen f ∈ L.parts.map seen := by
      constructor
      · rintro ⟨p, hp, hm⟩
        exact List.mem_map.2 ⟨p, hp, (matches_asSeen _ _).1 hm⟩
      · intro hx
        obtain ⟨p, hp, e⟩ := List.mem_map.1 hx
        exact ⟨p, hp, (matches_asSeen _ _).2 e⟩
    have h2 : L.parts.map seen = (L.segs.map Prod.fst).map segSeen := by
      unfold Layout.parts
      rw [segs_seen, List.map_map]
      apply List.map_congr_left
      rintro ⟨s, g⟩ _
      cases s <;> rfl
    rw [h1, h2, List.mem_map]
    simp only [is_segSeen]
  rw [key L', key L]
  constructor
  · rintro ⟨s, hs, hi⟩
    rcases List.mem_append.1 (h.only.mem_iff.1 hs) with h' | h'
    · exact .inl ⟨s, h', hi⟩
    · obtain ⟨g, hg, rfl⟩ := List.mem_map.1 h'
      obtain ⟨hg, hr⟩ := List.mem_filter.1 hg
      obtain ⟨i, hi'⟩ := List.getElem?_of_mem hf
      obtain ⟨j, hj'⟩ := List.getElem?_of_mem hg
      obtain rfl := asSeen_inj hd hi' hj' (((is_segSeen _ _).1 hi).symm.trans ((is_segSeen _ _).1 (new_is g)))
      obtain rfl : f = g := Option.some.inj (hi'.symm.trans hj')
      exact .inr (of_decide_eq_true hr)
  · rintro (⟨s, hs, hi⟩ | hr)
    · exact ⟨s, h.kept.subset hs, hi⟩
    · exact ⟨newSeg f, h.only.mem_iff.2 (List.mem_append.2 (.inr (List.mem_map.2 ⟨f, List.mem_filter.2 ⟨hf, decide_eq_true hr⟩, rfl⟩))), new_is f⟩

/-- **C146**, with `-m`, if no missing function directly follows a missing modifier in the tree (else the command crashes, C93): the functions of the tree read off the file are then all functions, and the
modifiers that were there before, in the order of the tree; all the other code is still there, unchanged and in the same order. -/
theorem C146_skip {P : SolParser} {G : SolGrammar} (hG : G.HasGenerated) (hP : Reader P G) {n : Str} {fns : List HFn} {ctx : Context}
    (hh : ctx.hir = ⟨[⟨n, fns⟩]⟩) (hf : ∀ f ∈ fns, ReadableFn f) (hsk : ctx.skipModifiers = true) (hd : Distinct fns) {L L1 : Layout} (hL : L.Fits G) (hL1 : L1.Fits G)
    (hsrc : ctx.src = L.text) (hpt : P ctx.src = some ctx.pt) (hr : Renamed (sanitize n) L L1) (hb : '{' ∉ L1.header) (ho : InOrder fns L.parts) (hn : NoTwice fns L.parts)
    (hm : ∀ i f g, fns[i]? = some f → fns[i + 1]? = some g → f.ty = .modifier → ¬ Present L.parts f → Present L.parts g ∨ g.ty = .modifier)
    {vs : List Violation} (hv : checkCtx ctx = .ok vs) :
    ∃ (L' : Layout) (u : SolUnit), fixContext P ctx = .ok ({ ctx with src := L'.text, pt := u }, vs.length) ∧ L'.Fits G ∧ FirstContract u L'.contract ∧
      Ours fns L'.parts = (fns.filter (fun f => decide (f.ty = .function ∨ Present L.parts f))).map asSeen ∧ OtherCode fns L' = OtherCode fns L ∧
      (OwnCode fns L).Sublist (OwnCode fns L') ∧ L'.before = L1.before ∧ L'.header = L1.header ∧ L'.rest = L1.rest := by
  obtain ⟨L', u, h1, h2, h3, h4, h5⟩ := C91_fix_missing hG hP hh hf hL hL1 hsrc hpt hr hb (fun i f g h1 h2 _ h3 h4 h5 => by
    rcases hm i f g h1 h2 h3 h4 with h | h
    · exact h5.1 h
    · exact h5.2 ⟨hsk, h⟩) hd ho hv
  have e : L1.segs = L.segs := renamed_segs hr
  have hn1 : NoTwice fns L1.parts := by
    rw [noTwice_iff, ours_segs] at hn ⊢
    unfold OwnCode
    rw [e]
    exact hn
  refine ⟨L', u, h1, h2, h3, ?_, ?_, ?_, h4.same.1, h4.same.2.2.1, h4.same.2.2.2⟩
  · rw [ours_filter hd (h4.order hd ((renamed_inOrder hr fns).2 ho)) (completed_twice hd hn1 h4)]
    congr 1
    apply List.filter_congr
    intro f hf
    rw [decide_eq_decide, completed_present hd h4 hf]
    unfold Reported
    rw [renamed_present hr, hsk]
    cases f.ty <;> simp
    by_cases hp : Present L.parts f <;> simp [hp]
  · rw [completed_other h4]
    unfold OtherCode
    rw [e]
  · have := h4.kept.filter (fun s => decide (∃ f ∈ fns, s.Is f))
    rw [e] at this
    exact this

omit U in
theorem ours_of_seen {fns : List HFn} {ps qs : List SolPart} (h : ps.map seen = qs.map seen) : Ours fns ps = Ours fns qs := by
  have h1 : ∀ ps : List SolPart, Ours fns ps = (ps.map seen).filter (fun x => decide (∃ f ∈ fns, x = asSeen f)) := by
    intro ps
    unfold Ours
    rw [List.filter_map]
    congr 1
    apply List.filter_congr
    intro p _
    simp only [Function.comp, matches_asSeen]
  rw [h1, h1, h]

/-- **C146**, on disk: any number of trees with valid ASCII Solidity files of their own, the contracts of which have any code, the functions of the trees in them being in order and none twice.  After
`check --fix` without `-m`, every Solidity file is valid, and the functions of its tree, read from top to bottom, are exactly those of the tree. -/
theorem C146_disk [LawfulUcd] {env : Env} {G : SolGrammar} (hG : G.HasGenerated) (hP : Reader env.solParse G)
    (hF : KeepsContract env.ctxFmt G) {a : CheckArgs} {fs : Fs} (hfix : a.fix = true) (hst : a.stdout = false) (hsk : a.skipModifiers = false)
    (hown : OwnFiles a.files)
    (hgood : ∀ t ∈ a.files, ∃ text n fns p, ∃ L L1 : Layout, fs.state t = .text text ∧ translate env.order .default text = .ok ⟨[⟨n, fns⟩]⟩ ∧
      (∀ f ∈ fns, ReadableFn f) ∧ Distinct fns ∧ SolOf t p ∧ fs.state p = .text L.text ∧ L.Fits G ∧ L1.Fits G ∧ Ascii L.text ∧
      Renamed (sanitize n) L L1 ∧ '{' ∉ L1.header ∧ InOrder fns L.parts ∧ NoTwice fns L.parts)
    (hw : ∀ t ∈ a.files, ∀ p, SolOf t p → fs.writable p = true) :
    (checkRun env a fs).exit = .code 0 ∧
    ∀ t ∈ a.files, ∀ text n fns p, fs.state t = .text text → translate env.order .default text = .ok ⟨[⟨n, fns⟩]⟩ → SolOf t p →
      ∃ L' : Layout, (checkRun env a fs).fs.state p = .text L'.text ∧ L'.Fits G ∧ Ours fns L'.parts = fns.map asSeen := by
  have hopen : ∀ t ∈ a.files, ∃ text n fns p ctx, ∃ L' : Layout, fs.state t = .text text ∧ translate env.order .default text = .ok ⟨[⟨n, fns⟩]⟩ ∧ SolOf t p ∧
      Opens env a.skipModifiers fs t ctx ∧ FixedTo env ctx L'.text ∧ L'.Fits G ∧ Ours fns L'.parts = fns.map asSeen := by
    intro t ht
    obtain ⟨text, n, fns, p, L, L1, h1, h2, h3, h4, h5, h6, h7, h8, h9, h10, h11, h12, h13⟩ := hgood t ht
    obtain ⟨u, hu, hfc⟩ := hP L h7
    have hne : ∀ s ∈ L.segs.map Prod.fst, s.text ≠ [] := by
      intro s hsm e
      obtain ⟨p, hp, rfl⟩ := List.mem_map.1 hsm
      obtain ⟨c, r, h, _⟩ := (h7.segs p hp).1.1
      rw [e] at h; cases h
    have hl0 := ascii_lines h9 hne
    have hpt' : FirstContract u L.contract := reader_first hP h7 hu
    obtain ⟨vs, hv⟩ := check_total (ctx := ⟨t.str, ⟨[⟨n, fns⟩]⟩, p.str, L.text, u, a.skipModifiers⟩) rfl hpt' hl0.1 hl0.2
    obtain ⟨L', u', g1, g2, g3, g4, _⟩ := C146_fix hG hP (ctx := ⟨t.str, ⟨[⟨n, fns⟩]⟩, p.str, L.text, u, a.skipModifiers⟩) rfl h3 hsk h4 h7 h8 rfl hu h10 h11 h12 h13 hv
    obtain ⟨L'', g5, g6, _, g8⟩ := hF ⟨t.str, ⟨[⟨n, fns⟩]⟩, p.str, L'.text, u', a.skipModifiers⟩ L' rfl g2 g3
    exact ⟨text, n, fns, p, _, L'', h1, h2, h5, ⟨text, _, p, _, u, h1, h2, h5, h6, hu, rfl⟩, ⟨_, _, g1, g5⟩, g6, (ours_of_seen g8).trans g4⟩
  have hnc : ∀ t ∈ a.files, ∀ ctx, Opens env a.skipModifiers fs t ctx → ¬ FixCrashes env ctx := by
    intro t ht ctx ho
    obtain ⟨_, _, _, _, c, L', _, _, _, hc, ⟨ctx', n, h1, h2⟩, _⟩ := hopen t ht
    cases opens_unique ho hc
    rintro (h | ⟨_, _, h, h'⟩)
    · rw [h1] at h; cases h
    · rw [h1] at h; cases h
      rw [h2] at h'; cases h'
  constructor
  · rcases C51_exit_fix (env := env) (fs := fs) hfix with ⟨h, _⟩ | ⟨_, t, ht, ctx, h1, h2⟩
    · exact h
    · exact absurd h2 (hnc t ht ctx h1)
  · intro t ht text n fns p h1 h2 h3
    obtain ⟨text', n', fns', p', c, L', g1, g2, g3, hc, hfx, g4, g5⟩ := hopen t ht
    rw [h1] at g1
    cases g1
    rw [h2] at g2
    cases g2
    obtain ⟨A, B, hAB⟩ := List.append_of_mem ht
    have hp := hown
    unfold OwnFiles at hp
    rw [hAB, List.pairwise_append] at hp
    refine ⟨L', C50_written hfix hst hAB (fun g hg => hnc g (by rw [hAB]; simp [hg])) ?_ hc hfx h3 (hw t ht _ h3), g4, g5⟩
    intro g hg hs
    exact (List.pairwise_cons.1 hp.2.1).1 g hg _ h3 hs

end

end Bulloak
