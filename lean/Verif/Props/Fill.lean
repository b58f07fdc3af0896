import Verif.Spec.Fill
import Verif.Props.Result
import Verif.Props.Options
import Verif.Props.Reword
import Verif.Lemmas.Layout3
/-! # `check --fix` on an empty contract, and `scaffold` -/

namespace Bulloak
open Spec

private theorem squeeze_blank {s : Str} (h : Blank s) : squeeze s = [] := by
  simp only [squeeze, List.filter_eq_nil_iff]
  intro c hc
  simp [h c hc]

private theorem squeeze_dropWhile (s : Str) : squeeze (s.dropWhile isWs) = squeeze s := by
  induction s with
  | nil => rfl
  | cons c s ih =>
    rw [List.dropWhile_cons]
    split
    · rename_i h
      rw [ih]
      simp [squeeze, h]
    · rfl

private theorem squeeze_reverse (s : Str) : squeeze s.reverse = (squeeze s).reverse := by simp [squeeze, List.filter_reverse]

private theorem squeeze_trim (s : Str) : squeeze (trim s) = squeeze s := by
  unfold trim trimEnd trimStart
  rw [squeeze_reverse, squeeze_dropWhile, squeeze_reverse, List.reverse_reverse, squeeze_dropWhile]

section
variable [U : Ucd]

omit U in
private theorem insertAfter_gaps {f : HFn} {k : Nat} {l : List (Seg × Str)} (h : ∀ p ∈ l, Blank p.2) : ∀ p ∈ insertAfter f k l, Blank p.2 := by
  induction l generalizing k with
  | nil => cases k <;> (intro p hp; simp [insertAfter] at hp)
  | cons x l ih =>
    obtain ⟨s, g⟩ := x
    cases k with
    | zero =>
      intro p hp
      simp only [insertAfter, List.mem_cons] at hp
      rcases hp with rfl | rfl | hp
      · intro c hc
        simp only [List.mem_cons, List.not_mem_nil, or_false] at hc
        rcases hc with rfl | rfl | rfl | rfl <;> decide
      · exact h (s, g) (by simp)
      · exact h p (by simp [hp])
    | succ k =>
      intro p hp
      simp only [insertAfter, List.mem_cons] at hp
      rcases hp with rfl | hp
      · exact h _ (by simp)
      · exact ih (fun p hp => h p (by simp [hp])) p hp

omit U in
private theorem insert_gaps {L : Layout} (h : BlankGaps L) (f : HFn) (k : Nat) : BlankGaps (L.insert f k) := by
  cases k with
  | zero =>
    refine ⟨?_, ?_⟩
    · intro c hc
      simp only [Layout.insert, List.mem_cons, List.not_mem_nil, or_false] at hc
      rcases hc with rfl | rfl | rfl | rfl <;> decide
    · intro p hp
      simp only [Layout.insert, List.mem_cons] at hp
      rcases hp with rfl | hp
      · exact h.1
      · exact h.2 p hp
  | succ k => exact ⟨h.1, insertAfter_gaps h.2⟩

omit U in
private theorem filling_blank {skip : Bool} {fns : List HFn} {L L' : Layout} {k : Nat} (hg : BlankGaps L) (h : Filling skip fns L k L') : BlankGaps L' := by
  induction h with
  | start => exact hg
  | insert _ _ _ _ ih => exact insert_gaps ih _ _
  | keep _ _ _ ih => exact ih

private theorem segs_squeeze {l : List (Seg × Str)} (h : ∀ p ∈ l, Blank p.2) : squeeze (segsText l) = (l.map Prod.fst).flatMap (fun s => squeeze s.text) := by
  induction l with
  | nil => rfl
  | cons p l ih =>
    have e : segsText (p :: l) = p.1.text ++ p.2 ++ segsText l := by simp [segsText]
    rw [e, squeeze_append, squeeze_append, squeeze_blank (h p (by simp)), ih (fun q hq => h q (by simp [hq]))]
    simp

private theorem layout_squeeze {L : Layout} (h : BlankGaps L) : squeeze L.text =
    squeeze (L.before ++ L.header) ++ c!"{" ++ (L.segs.map Prod.fst).flatMap (fun s => squeeze s.text) ++ c!"}" ++ squeeze L.rest := by
  have e : L.text = L.before ++ L.header ++ c!"{" ++ L.lead ++ segsText L.segs ++ c!"}" ++ L.rest := by simp [Layout.text, Layout.front]
  rw [e]
  simp only [squeeze_append, squeeze_blank h.1, segs_squeeze h.2, List.append_nil]
  rfl

private theorem stanzas_flat (l : List Str) : squeeze (stanzas l) = l.flatMap squeeze := by
  rw [stanzas_squeeze, List.flatMap_def]

/-- **C143.** A valid file whose contract has nothing but white space around its functions, all of the tree, each at most once, in the order of the tree: without `-m`, `check --fix` leaves everything
outside the contract's body as it is and ends, up to white space, with one function per function of the tree in the body, as described in C142. -/
theorem C143_text {P : SolParser} {G : SolGrammar} (hG : G.HasGenerated) (hP : Reader P G) {n : Str} {fns : List HFn} {ctx : Context}
    (hh : ctx.hir = ⟨[⟨n, fns⟩]⟩) (hf : ∀ f ∈ fns, ReadableFn f) (hsk : ctx.skipModifiers = false) (hd : Distinct fns) {L : Layout} (hL : L.Fits G)
    (hsrc : ctx.src = L.text) (hpt : P ctx.src = some ctx.pt) (hn : ∀ m, L.name = some m → m = sanitize n) (hb : '{' ∉ L.header)
    (hown : OnlyTree fns L) (ho : InOrder fns L.parts) (hgap : BlankGaps L) {vs : List Violation} (hv : checkCtx ctx = .ok vs) :
    ∃ (L' : Layout) (u : SolUnit) (ss : List Seg), fixContext P ctx = .ok ({ ctx with src := L'.text, pt := u }, vs.length) ∧ L'.Fits G ∧ FirstContract u L'.contract ∧
      Result fns L ss ∧
      squeeze L'.text = squeeze (L.before ++ L.header) ++ c!"{" ++ ss.flatMap (fun s => squeeze s.text) ++ c!"}" ++ squeeze L.rest := by
  have hr : Renamed (sanitize n) L L := .same hn
  have hpt' : FirstContract ctx.pt L.contract := reader_first hP hL (by rw [← hsrc]; exact hpt)
  obtain ⟨L', u, h1, h2, h3, h4⟩ := C142_result hG hP hh hf hsk hd hL hL hsrc hpt hr hb hown ho hv
  have hread : ∀ k L', Filling ctx.skipModifiers fns L k L' → ReadsAs P L' := fun _ _ h => hP _ (filling_fits hG hf hL h)
  obtain ⟨L2, u2, g1, g2, g3, g4⟩ := C43_missing_partial hh hsrc hpt' hr hb hread (by simp [hsk]) hv
  have hsil : checkCtx { ctx with src := L2.text, pt := u2 } = .ok [] := by
    apply (C37_silent_iff (ctx := { ctx with src := L2.text, pt := u2 }) hh).2
    exact ⟨L2.contract, g2, fun m hm' => hn m (by rw [← g4.same.2.1]; exact hm'), g4.present, g4.order hd ho⟩
  have hfix : fixContext P ctx = .ok ({ ctx with src := L2.text, pt := u2 }, vs.length) := by
    unfold fixContext
    simp only [hv, Res.bind_ok] at g1 ⊢
    simp only [g1, Res.bind_ok, hsil, all_fixable hh hpt' hv]
    rfl
  have e : L2 = L' := by
    rw [hfix] at h1
    exact C90_one_layout (filling_fits hG hf hL g3) h2 (congrArg (fun x => x.1.src) (Res.ok.inj h1))
  refine ⟨L', u, _, h1, h2, h3, h4, ?_⟩
  subst e
  rw [layout_squeeze (filling_blank hgap g3), g4.same.1, g4.same.2.2.1, g4.same.2.2.2]

omit U in
private theorem each_image {α β : Type} {g : α → β} {as : List α} {bs : List β} (h : Each (fun a b => b = g a) as bs) : bs = as.map g := by
  induction h with
  | nil => rfl
  | cons h _ ih => rw [h, ih, List.map_cons]

omit U in
private theorem brace_split {a b c : Str} (hc : '{' ∉ c) (h : a ++ c!"{}" ++ b = c ++ c!"{}") : a = c ∧ b = [] := by
  induction a generalizing c with
  | nil =>
    cases c with
    | nil => exact ⟨rfl, by simpa using h⟩
    | cons x c =>
      have : '{' = x := by simpa using (List.cons.inj h).1
      exact absurd (this ▸ List.mem_cons_self) hc
  | cons x a ih =>
    cases c with
    | nil =>
      have := congrArg List.length h
      simp only [List.length_append, List.length_cons, List.length_nil] at this
      omega
    | cons y c =>
      obtain ⟨rfl, h2⟩ := List.cons.inj h
      obtain ⟨h3, h4⟩ := ih (fun h => hc (by simp [h])) h2
      exact ⟨by rw [h3], h4⟩

/-- A generated file up to the body of its contract. -/
private def top (version name : Str) : Str :=
  c!"// SPDX-License-Identifier: UNLICENSED\npragma solidity " ++ version ++ c!";\n" ++ c!"contract " ++ name ++ c!" "

omit U in
private theorem squeeze_sub {c : Char} {s : Str} (h : c ∉ s) : c ∉ squeeze s := fun h' => h (List.mem_filter.1 h').1

/-- **C143**, and `scaffold`: on a file that is, up to white space, what `scaffold` writes but with an empty contract, `check --fix` ends, up to white space, with what `scaffold` writes before formatting. -/
theorem C143_scaffold [LawfulUcd] {P : SolParser} {G : SolGrammar} (hG : G.HasGenerated) (hP : Reader P G) {order : HashOrder} {text : Str} {ctx : Context}
    (ht : translate order .default text = .ok ctx.hir) {n : Str} {fns : List HFn} (hh : ctx.hir = ⟨[⟨n, fns⟩]⟩) (hf : ∀ f ∈ fns, ReadableFn f)
    (hsk : ctx.skipModifiers = false) (hd : Distinct fns) {version : Str} (hq : '"' ∉ version) (hl : '\n' ∉ version) (hc : '{' ∉ version)
    {L : Layout} (hL : L.Fits G) (hsrc : ctx.src = L.text) (hpt : P ctx.src = some ctx.pt) (hn : ∀ m, L.name = some m → m = sanitize n) (hb : '{' ∉ L.header)
    (hempty : L.segs = []) (hlead : Blank L.lead) (hshape : squeeze L.text = squeeze (solFile version false (sanitize n) []))
    {vs : List Violation} (hv : checkCtx ctx = .ok vs) :
    ∃ (src' src : Str) (u : SolUnit), fixContext P ctx = .ok ({ ctx with src := src', pt := u }, vs.length) ∧
      scaffoldSource order ⟨false, version, false⟩ text = .ok src ∧ squeeze src' = squeeze src := by
  have hgap : BlankGaps L := ⟨hlead, by rw [hempty]; simp⟩
  have hown : OnlyTree fns L := ⟨by rw [hempty]; simp, by rw [hempty]; simp⟩
  have hparts : L.parts = [] := by simp [Layout.parts, hempty, partsFrom]
  have hnone : ∀ f, ¬ Present L.parts f := by intro f h; rw [hparts] at h; obtain ⟨p, hp, _⟩ := h; cases hp
  have ho : InOrder fns L.parts := by
    rw [inOrder_iff]
    intro i j f g _ _ _ a b ha
    exact absurd (at_present ha) (hnone f)
  obtain ⟨L', u, ss, h1, _, _, h4, h5⟩ := C143_text hG hP hh hf hsk hd hL hsrc hpt hn hb hown ho hgap hv
  have hss : ss = fns.map newSeg := by
    have : Each (fun f s => s = newSeg f) fns ss := each_imp (fun f s h => h.elim (fun h => by rw [hempty] at h; simp at h) (fun h => h.2)) h4
    exact each_image this
  have htr : translate order ⟨false, version, false⟩ text = .ok ⟨[⟨n, fns⟩]⟩ := by
    rw [← hh, ← ht]
    exact translate_flags rfl _ _
  refine ⟨L'.text, _, u, h1, C33_source hq hl htr, ?_⟩
  have hname : '{' ∉ sanitize n := by
    intro h
    rcases sanitize_mem h with h | h
    · rw [LawfulUcd.plain_xid '{' (by decide)] at h
      exact absurd h (by decide)
    · exact absurd h (by decide)
  have hfile : ∀ l, solFile version false (sanitize n) l = top version (sanitize n) ++ c!"{" ++ stanzas (l.map solFn) ++ c!"}" := by
    intro l
    simp [solFile, top]
  have hsplit : squeeze (L.before ++ L.header) = squeeze (top version (sanitize n)) ∧ squeeze L.rest = [] := by
    apply brace_split
    · apply squeeze_sub
      unfold top
      simp only [List.mem_append, not_or]
      refine ⟨⟨⟨⟨⟨by decide, hc⟩, by decide⟩, by decide⟩, hname⟩, by decide⟩
    · rw [layout_squeeze hgap, hempty, hfile, squeeze_append _ c!"}", squeeze_append _ (stanzas _), squeeze_append _ c!"{"] at hshape
      have e1 : squeeze c!"{" = c!"{" := by decide
      have e2 : squeeze c!"}" = c!"}" := by decide
      rw [e1, e2] at hshape
      simpa [stanzas, squeeze] using hshape
  have hw : written ⟨false, version, false⟩ fns = fns := by simp [written]
  rw [h5, hsplit.1, hsplit.2, hw, hfile, squeeze_append _ c!"}", squeeze_append _ (stanzas _), squeeze_append _ c!"{", stanzas_flat, hss]
  have e1 : squeeze c!"{" = c!"{" := by decide
  have e2 : squeeze c!"}" = c!"}" := by decide
  rw [e1, e2, List.flatMap_map, List.flatMap_map, List.append_nil]
  congr 3
  funext f
  rw [← C36_emitters_agree]
  exact squeeze_trim _

end

end Bulloak
