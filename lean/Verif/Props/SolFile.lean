import Verif.Lemmas.SolFile4
import Verif.Props.SolLex
import Verif.Props.EndToEnd
/-!
# Valid Solidity files (C90, C91)

What was assumed about single files in C43, C44 and C59 follows from what a Solidity parser and a formatter do with all valid files.
-/

namespace Bulloak
open Spec
set_option linter.unusedSectionVars false

section
variable [U : Ucd]

/-- A version that fits into a pragma of a text. -/
def Spec.UsualVersion (v : Str) : Prop := ∀ c ∈ v, c ≠ '"' ∧ c ≠ ';' ∧ isSolEnd c = false

theorem written_sub {cfg : Config} {fns : List HFn} {f : HFn} (h : f ∈ written cfg fns) : f ∈ fns := by
  rw [← written_eq] at h
  exact (List.mem_filter.1 h).1

/-- **C90.** A parser that reads valid files correctly reads in the file written for a tree the contract and exactly the functions of the tree,
after any formatter that keeps the tokens. -/
theorem C90_reads_back [LawfulUcd] {env : Env} {G : SolGrammar} (hG : G.HasGenerated) (hP : Reader env.solParse G) (hF : KeepsFiles env.forgeFmt G)
    {cfg : Config} (hv : UsualVersion cfg.solidityVersion) (hb : G.before (headTokens cfg.solidityVersion cfg.emitVmSkip))
    {text out : Str} (hl : Legible env.order cfg text) (hy : Yields env cfg text out) {n : Str} {fns : List HFn}
    (h : translate env.order cfg text = .ok ⟨[⟨n, fns⟩]⟩) :
    ∃ L : Layout, L.text = out ∧ L.Fits G ∧ ReadsAs env.solParse L ∧ L.name = some (sanitize n) ∧ Written (written cfg fns) L.parts := by
  obtain ⟨hn, hr, h3, h4⟩ := hl n fns h
  have hfn : ∀ f ∈ written cfg fns, ReadableFn f := fun f hf => legible_fn hl h f (written_sub hf)
  have hv' : ∀ c ∈ cfg.solidityVersion, c ≠ '"' ∧ c ≠ '\n' ∧ c ≠ ';' := by
    intro c hc
    obtain ⟨e1, e2, e3⟩ := hv c hc
    exact ⟨e1, by rintro rfl; exact absurd e3 (by decide), e2⟩
  have hsrc := C33_source (fun h => (hv' _ h).1 rfl) (fun h => (hv' _ h).2.1 rfl) h
  have htok := tokens_solFile (fun h => (hv' _ h).2.2 rfl) hn hr hfn (skip := cfg.emitVmSkip)
  have husual := usual_solFile (skip := cfg.emitVmSkip) (usual_none fun c hc => (hv c hc).2.2) hn hfn
  obtain ⟨src, once, h5, h6, h7⟩ := hy
  rw [hsrc] at h5
  cases h5
  obtain ⟨v1, u1, t1, b1⟩ := hF _ _ _ _ _ _ h6 htok hb husual
  obtain ⟨v2, u2, t2, b2⟩ : ∃ v2, UsualEnds out ∧ solTokens out = some (fileTokens v2 cfg.emitVmSkip (sanitize n) (written cfg fns)) ∧
      G.before (headTokens v2 cfg.emitVmSkip) := by
    rcases h7 with h7 | ⟨_, rfl⟩
    · exact hF _ _ _ _ _ _ h7 t1 b1 u1
    · exact ⟨v1, u1, t1, b1⟩
  obtain ⟨L, e1, e2, e3, e4⟩ := layout_of_tokens hG b2 hn hr hfn t2 u2
  exact ⟨L, e2, e1, hP L e1, e3, e4⟩

theorem faithful_of [LawfulUcd] {env : Env} {G : SolGrammar} (hG : G.HasGenerated) (hP : Reader env.solParse G) (hF : KeepsFiles env.forgeFmt G)
    {cfg : Config} (hv : UsualVersion cfg.solidityVersion) (hb : G.before (headTokens cfg.solidityVersion cfg.emitVmSkip))
    {text out : Str} (hl : Legible env.order cfg text) (hy : Yields env cfg text out) : Faithful env cfg text out := by
  intro n fns h
  obtain ⟨L, rfl, _, ⟨u, h1, h2⟩, h3, h4⟩ := C90_reads_back hG hP hF hv hb hl hy h
  exact ⟨u, _, h1, h2, h3, h4⟩

/-- **C90**, commands: after `scaffold -w`, `check` on the same trees exits with 0, as in C59, for every parser that reads valid files
correctly and every formatter that keeps the tokens of generated files, if the texts are legible. -/
theorem C90_scaffold_then_check [LawfulUcd] {env : Env} (ho : ∀ l, (env.order l).Perm l) {G : SolGrammar} (hG : G.HasGenerated)
    (hP : Reader env.solParse G) (hF : KeepsFiles env.forgeFmt G) {a : ScaffoldArgs} (hv : UsualVersion a.config.solidityVersion)
    (hb : G.before (headTokens a.config.solidityVersion a.config.emitVmSkip)) {fs : Fs} (hn : NoTests a.files)
    (hw : a.writeFiles = true) (hown : OwnFiles a.files)
    (hgood : ∀ f ∈ a.files, ∃ text out, fs.state f = .text text ∧ Yields env a.config text out ∧ Legible env.order a.config text ∧
      DistinctTests env a.config text)
    (hout : ∀ f ∈ a.files, ∀ p, SolOf f p → fs.writable p = true ∧ (a.forceWrite = true ∨ fs.state p = .absent))
    {b : CheckArgs} (hbf : ∀ f ∈ b.files, f ∈ a.files) (hfix : b.fix = false) (hskip : a.skipModifiers = true → b.skipModifiers = true) :
    (checkRun env b (scaffoldRun env a fs).fs).exit = .code 0 := by
  refine C59_scaffold_then_check ho hn hw hown ?_ hout hbf hfix hskip
  intro f hf
  obtain ⟨text, out, h1, h2, h3, h4⟩ := hgood f hf
  exact ⟨text, out, h1, h2, faithful_of hG hP hF hv hb h3 h2, h4⟩

/-- **C90**, the assumptions can be met: for every notion of valid files there is a parser that reads them correctly. -/
theorem C90_parser_exists (G : SolGrammar) : ∃ P, Reader P G :=
  let ⟨P, h, _⟩ := reader_exists G; ⟨P, h⟩

/-- **C90**, a text has only one valid layout. -/
theorem C90_one_layout {G : SolGrammar} {L L' : Layout} (h : L.Fits G) (h' : L'.Fits G) (ht : L.text = L'.text) : L = L' := layout_unique h h' ht

/-! ## Fixing -/

/-- **C91.** All files `check --fix` goes through are valid, if the file with the right name of the contract is and the inserted functions
can be read. -/
theorem C91_stays_valid {G : SolGrammar} (hG : G.HasGenerated) {skip : Bool} {fns : List HFn} (hf : ∀ f ∈ fns, ReadableFn f) {L : Layout}
    (hL : L.Fits G) : (∀ k L', Filling skip fns L k L' → L'.Fits G) ∧
      ∀ ss, (∀ s ∈ ss, s ∈ L.segs.map Prod.fst) → (L.reordered ss).Fits G :=
  ⟨fun _ _ h => filling_fits hG hf hL h, fun _ hs => reordered_fits hL hs⟩

/-- **C91**, renaming: a valid file stays valid if the name behind `contract`, or behind `abstract contract`, is replaced. -/
theorem C91_rename {G : SolGrammar} {L : Layout} (hL : L.Fits G) {old new pre post : Str} {tp : List SolTok} (hn : L.name = some old)
    (hh : L.header = pre ++ (c!"contract " ++ old ++ post)) (hpre : SolReads pre tp) (htp : tp = [] ∨ tp = [.word c!"abstract"])
    (ho : SolIdent old) (hnew : SolIdent new) (hr : ¬ Reserved new)
    (hG : ∀ r, G.header (tp ++ .word c!"contract" :: .word old :: r) → G.header (tp ++ .word c!"contract" :: .word new :: r)) :
    ({ L with name := some new, header := pre ++ (c!"contract " ++ new ++ post) } : Layout).Fits G :=
  renamed_fits hL hn hh hpre htp ho hnew hr hG

theorem reader_first {P : SolParser} {G : SolGrammar} (hP : Reader P G) {L : Layout} (hL : L.Fits G) {u : SolUnit} (hu : P L.text = some u) :
    FirstContract u L.contract := by
  obtain ⟨v, h1, h2⟩ := hP L hL
  rw [hu] at h1
  cases h1
  exact h2

/-- **C91**, missing functions: with a parser that reads valid files correctly, `check --fix` on a valid file whose functions are in order
inserts the missing functions, as in C43, and nothing is reported afterwards. -/
theorem C91_fix_missing {P : SolParser} {G : SolGrammar} (hG : G.HasGenerated) (hP : Reader P G) {n : Str} {fns : List HFn} {ctx : Context}
    (hh : ctx.hir = ⟨[⟨n, fns⟩]⟩) (hf : ∀ f ∈ fns, ReadableFn f) {L L1 : Layout} (hL : L.Fits G) (hL1 : L1.Fits G) (hsrc : ctx.src = L.text)
    (hpt : P ctx.src = some ctx.pt) (hr : Renamed (sanitize n) L L1) (hb : '{' ∉ L1.header)
    (hm : ∀ i f g, fns[i]? = some f → fns[i + 1]? = some g → ctx.skipModifiers = true → f.ty = .modifier →
      ¬ Present L.parts f → ¬ Reported ctx.skipModifiers L g)
    (hd : Distinct fns) (ho : InOrder fns L.parts) {vs : List Violation} (hv : checkCtx ctx = .ok vs) :
    ∃ L' u, fixContext P ctx = .ok ({ ctx with src := L'.text, pt := u }, vs.length) ∧ L'.Fits G ∧
      FirstContract u L'.contract ∧ Completed ctx.skipModifiers fns L1 L' ∧ checkCtx { ctx with src := L'.text, pt := u } = .ok [] := by
  have hread : ∀ k L', Filling ctx.skipModifiers fns L1 k L' → ReadsAs P L' := fun _ _ h => hP _ (filling_fits hG hf hL1 h)
  have hpt' : FirstContract ctx.pt L.contract := reader_first hP hL (by rw [← hsrc]; exact hpt)
  obtain ⟨L', u, h1, h2, h3, h4⟩ := C43_missing_partial hh hsrc hpt' hr hb hread hm hv
  have hsil : checkCtx { ctx with src := L'.text, pt := u } = .ok [] := by
    apply (C37_silent_iff (ctx := { ctx with src := L'.text, pt := u }) hh).2
    refine ⟨L'.contract, h2, ?_, h4.present, h4.order hd ((renamed_inOrder hr fns).2 ho)⟩
    intro m hm'
    exact renamed_name hr m (by rw [← h4.same.2.1]; exact hm')
  refine ⟨L', u, ?_, filling_fits hG hf hL1 h3, h2, h4, hsil⟩
  unfold fixContext
  simp only [hv, Res.bind_ok] at h1 ⊢
  simp only [h1, Res.bind_ok, hsil, all_fixable hh hpt' hv]
  rfl

/-- **C91**, order: with a parser that reads valid files correctly, `check --fix` on a valid file inserts the missing functions and sorts
them, as in C44, and nothing is reported afterwards. -/
theorem C91_fix_order {P : SolParser} {G : SolGrammar} (hG : G.HasGenerated) (hP : Reader P G) {n : Str} {fns : List HFn} {ctx : Context}
    (hh : ctx.hir = ⟨[⟨n, fns⟩]⟩) (hf : ∀ f ∈ fns, ReadableFn f) {L L1 : Layout} (hL : L.Fits G) (hL1 : L1.Fits G) (hsrc : ctx.src = L.text)
    (hpt : P ctx.src = some ctx.pt) (hr : Renamed (sanitize n) L L1) (hb : '{' ∉ L1.header)
    (hsk : ctx.skipModifiers = false) (hd : Distinct fns) (hown : OnlyTree fns L)
    (h3 : NoReversedTriple fns L.parts) (hA : Ascii L.text) (hA1 : Ascii L1.text) (hF : ∀ f ∈ fns, Ascii (emitFunction f))
    (hs : ∀ L', Filling false fns L1 fns.length L' → Separate L') :
    ∃ L' L'' u vs, checkCtx ctx = .ok vs ∧ fixContext P ctx = .ok ({ ctx with src := L''.text, pt := u }, vs.length) ∧
      L''.Fits G ∧ FirstContract u L''.contract ∧ Completed false fns L1 L' ∧
      (L'' = L' ∨ L'' = L'.reordered (L''.segs.map Prod.fst)) ∧
      (L''.segs.map Prod.fst).Perm (L'.segs.map Prod.fst) ∧ Each Seg.Is fns (L''.segs.map Prod.fst) ∧
      checkCtx { ctx with src := L''.text, pt := u } = .ok [] := by
  have hne : ∀ s ∈ L.segs.map Prod.fst, s.text ≠ [] := by
    intro s hsm e
    obtain ⟨p, hp, rfl⟩ := List.mem_map.1 hsm
    obtain ⟨c, r, h, _⟩ := (hL.segs p hp).1.1
    rw [e] at h; cases h
  have hre : ∀ L', Filling false fns L1 fns.length L' → Separate L' ∧ ∀ ss, Each Seg.Is fns ss → ss.Perm (L'.segs.map Prod.fst) →
      ReadsAs P (L'.reordered ss) :=
    fun L' hfl => ⟨hs L' hfl, fun ss _ hperm => hP _ (reordered_fits (filling_fits hG hf hL1 hfl) fun s hsm => hperm.mem_iff.1 hsm)⟩
  obtain ⟨L', L'', u, vs, h1, h2, h5, h6, h7, h8, h9, h10, h11⟩ := C44_order_partial hh hsrc (reader_first hP hL (by rw [← hsrc]; exact hpt)) hr hb hsk hd hown h3 hA hA1 hF hne
    (fun _ _ h => hP _ (filling_fits hG hf hL1 h)) hre
  refine ⟨L', L'', u, vs, h1, h2, ?_, h5, h7, h8, h9, h10, h11⟩
  rcases h8 with e | e
  · rw [e]; exact filling_fits hG hf hL1 h6
  · rw [e]; exact reordered_fits (filling_fits hG hf hL1 h6) fun s hsm => h9.mem_iff.1 hsm

end
end Bulloak
