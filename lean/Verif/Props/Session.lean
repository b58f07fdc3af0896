import Verif.Props.Main
import Verif.Props.Edit
import Verif.Props.FixWhole
/-!
# Working with bulloak (C102)

A tree is scaffolded, and then the tree and the Solidity file are edited and commands are run, any number of times and in any order.
-/

namespace Bulloak
open Spec
set_option linter.unusedSectionVars false

/-- The file system with the text `s` in the file `p`. -/
def Spec.put (fs : Fs) (p : FPath) (s : Str) : Fs := { fs with state := fun q => if q = p then .text s else fs.state q }

/-- `L'` is as valid as `L`, its contract has the same name and the same functions, and there is no new brace in the header. -/
structure Spec.Reformatted (G : SolGrammar) (L L' : Layout) : Prop where
  valid : L'.Fits G
  name : L'.name = L.name
  parts : L'.parts.map seen = L.parts.map seen
  header : '{' ∉ L.header → '{' ∉ L'.header

/-- What is assumed about the external pieces: what bulloak writes is valid Solidity, the parser reads valid files correctly, the formatters accept
valid files and keep their functions, and hash maps are iterated in some order. -/
structure Spec.Tools (env : Env) (G : SolGrammar) : Prop where
  generated : G.HasGenerated
  head : G.before (headTokens c!"0.8.0" false)
  reads : Reader env.solParse G
  fmt : ∀ L : Layout, L.Fits G → ∃ L', env.forgeFmt L.text = some L'.text ∧ Reformatted G L L'
  ctxFmt : ∀ (ctx : Context) (L : Layout), ctx.src = L.text → L.Fits G → FirstContract ctx.pt L.contract →
    ∃ L', env.ctxFmt ctx = some L'.text ∧ Reformatted G L L'
  order : ∀ l, (env.order l).Perm l

section
variable [U : Ucd]

/-- A text with one tree whose names are Solidity identifiers and whose functions have different names. -/
structure Spec.OneTree (env : Env) (text : Str) (ast : Ast) : Prop where
  parsed : parse env.order text = .ok [ast]
  legible : Legible env.order .default text
  distinct : ∀ n fns, translate env.order .default text = .ok ⟨[⟨n, fns⟩]⟩ → Distinct fns

/-- One step of work on the tree file `t`, written `s` on the command line, and the Solidity file `p` next to it. -/
inductive Spec.Step (env : Env) (G : SolGrammar) (s : Str) (t p : FPath) : Fs → Fs → Prop where
  /-- running bulloak -/
  | command {fs : Fs} {args : List Str} {r : Run} :
      args ∈ [[c!"check", s], [c!"check", c!"--fix", s], [c!"scaffold", s], [c!"scaffold", c!"-w", s]] → program env args fs = .ran r →
      Step env G s t p fs r.fs
  /-- changing other files -/
  | elsewhere {fs fs' : Fs} : fs'.state t = fs.state t → fs'.state p = fs.state p → fs'.writable p = fs.writable p → Step env G s t p fs fs'
  /-- adding branches to the tree (see C95) for functions that are not in the contract, or none; places and drawing may change -/
  | grow {fs : Fs} {text text' : Str} {ast ast' : Ast} {n : Str} {fns fns' : List HFn} {L : Layout} :
      fs.state t = .text text → OneTree env text ast → OneTree env text' ast' → titleOf ast' = titleOf ast → Extended (kids ast) (kids ast') →
      translate env.order .default text = .ok ⟨[⟨n, fns⟩]⟩ → translate env.order .default text' = .ok ⟨[⟨n, fns'⟩]⟩ →
      fs.state p = .text L.text → L.Fits G → (∀ f ∈ fns', nameOf f ∉ fns.map nameOf → ¬ Present L.parts f) → Step env G s t p fs (put fs t text')
  /-- removing branches from the tree, or none -/
  | shrink {fs : Fs} {text text' : Str} {ast ast' : Ast} :
      fs.state t = .text text → OneTree env text ast → OneTree env text' ast' → titleOf ast' = titleOf ast → Extended (kids ast') (kids ast) →
      Step env G s t p fs (put fs t text')
  /-- any other change of the tree that keeps its title, such as rewording, retitling or moving branches: the functions of the new tree that the contract has are in the order of the new
  tree -/
  | reshape {fs : Fs} {text text' : Str} {ast ast' : Ast} {n : Str} {fns' : List HFn} {L : Layout} :
      fs.state t = .text text → OneTree env text ast → OneTree env text' ast' → titleOf ast' = titleOf ast → translate env.order .default text' = .ok ⟨[⟨n, fns'⟩]⟩ →
      fs.state p = .text L.text → L.Fits G → InOrder fns' L.parts → Step env G s t p fs (put fs t text')
  /-- rewriting the Solidity file: any valid file with the contract's name and the functions of the tree that it has in the order of the tree -/
  | edit {fs : Fs} {text n : Str} {fns : List HFn} {L : Layout} :
      fs.state t = .text text → translate env.order .default text = .ok ⟨[⟨n, fns⟩]⟩ → L.Fits G → '{' ∉ L.header → L.name = some (sanitize n) →
      InOrder fns L.parts → Step env G s t p fs (put fs p L.text)

/-- Any number of steps. -/
inductive Spec.Session (env : Env) (G : SolGrammar) (s : Str) (t p : FPath) : Fs → Fs → Prop where
  | start {fs : Fs} : Session env G s t p fs fs
  | step {fs fs' fs'' : Fs} : Session env G s t p fs fs' → Step env G s t p fs' fs'' → Session env G s t p fs fs''

/-! ## What holds during a session -/

/-- The tree file has a tree, the Solidity file is valid, and its functions are in the order of the tree. -/
structure Tended (env : Env) (G : SolGrammar) (t p : FPath) (fs : Fs) (ast : Ast) (n : Str) (fns : List HFn) (L : Layout) : Prop where
  tree : ∃ text, fs.state t = .text text ∧ OneTree env text ast ∧ translate env.order .default text = .ok ⟨[⟨n, fns⟩]⟩
  sol : fs.state p = .text L.text
  valid : L.Fits G
  brace : '{' ∉ L.header
  name : L.name = some (sanitize n)
  ordered : InOrder fns L.parts
  writable : fs.writable p = true

/-- The context of `check`. -/
theorem tended_opens {env : Env} {G : SolGrammar} (hT : Tools env G) {t p : FPath} (hp : SolOf t p) {fs : Fs} {ast : Ast} {n : Str} {fns : List HFn}
    {L : Layout} (h : Tended env G t p fs ast n fns L) : ∃ u, Opens env false fs t ⟨t.str, ⟨[⟨n, fns⟩]⟩, p.str, L.text, u, false⟩ ∧
      env.solParse L.text = some u ∧ FirstContract u L.contract := by
  obtain ⟨text, h1, h2, h3⟩ := h.tree
  obtain ⟨u, hu, hf⟩ := hT.reads L h.valid
  exact ⟨u, ⟨text, _, p, _, u, h1, h3, hp, h.sol, hu, rfl⟩, hu, hf⟩

theorem opens_unique {env : Env} {skip : Bool} {fs : Fs} {t : FPath} {c d : Context} (h1 : Opens env skip fs t c) (h2 : Opens env skip fs t d) :
    c = d := by
  have e1 := contextNew_ok.2 ⟨h1, rfl⟩
  rw [contextNew_ok.2 ⟨h2, rfl⟩] at e1
  cases e1; rfl

theorem segs_seen (o : Nat) (l : List (Seg × Str)) : (partsFrom o l).map seen = l.map (fun q => match q.1 with
    | .fn ty name _ => some (name, ty)
    | .other _ => none) := by
  induction l generalizing o with
  | nil => rfl
  | cons q l ih =>
    obtain ⟨g, s⟩ := q
    cases g <;> simp [partsFrom, Seg.at, seen, ih]

theorem reformatted_inOrder {G : SolGrammar} {L L' : Layout} (h : Reformatted G L L') {fns : List HFn} (ho : InOrder fns L.parts) :
    InOrder fns L'.parts :=
  ho.imp fun h' i j hi hj => h' i j (at_seen h.parts.symm hi) (at_seen h.parts.symm hj)

theorem fixLoop_writable (env : Env) (a : CheckArgs) : ∀ (cs : List (Context × FPath)) (fs : Fs) (out : List Str) (ns : List Note) (n : Nat),
    (fixLoop env a cs fs out ns n).fs.writable = fs.writable := by
  intro cs
  induction cs with
  | nil => intro fs out ns n; rfl
  | cons c cs ih =>
    intro fs out ns n
    rw [fixLoop]
    split
    · rfl
    · rename_i e _; exact nomatch e
    · split
      · rfl
      · rw [ih, checkWrite_writable]

theorem checkRun_writable (env : Env) (a : CheckArgs) (fs : Fs) : (checkRun env a fs).fs.writable = fs.writable := by
  unfold checkRun
  split
  · rfl
  · rename_i e _; exact nomatch e
  · split
    · exact fixLoop_writable _ _ _ _ _ _ _
    · split
      · rfl
      · rename_i e _; exact nomatch e
      · simp only [checkExit]; split <;> rfl

theorem scaffoldRun_writable [LawfulUcd] (env : Env) (a : ScaffoldArgs) (fs : Fs) : (scaffoldRun env a fs).fs.writable = fs.writable := by
  unfold scaffoldRun
  refine loop_invariant (P := fun x => x.writable = fs.writable) ?_ (fun _ h => h) fs [] [] [] rfl
  intro x f out _ _ _ hx
  rw [writeFile_writable, hx]

/-- `check` on one tree. -/
theorem check_one {env : Env} {fs : Fs} {t : FPath} {skip st : Bool} {ctx : Context} (h : Opens env skip fs t ctx) {vs : List Violation}
    (hv : checkCtx ctx = .ok vs) : checkRun env ⟨[t], false, st, skip⟩ fs = checkExit fs vs := by
  have h1 : contexts env skip fs [t] = .ok ([(ctx, t.withSolExt)], []) := by
    simp only [contexts, contextNew_ok.2 ⟨h, rfl⟩, Res.bind_ok]
  unfold checkRun
  simp only [h1, Bool.false_eq_true, if_false, checkAll, hv, Res.bind_ok, List.append_nil, List.nil_append]

/-- `check --fix`. -/
theorem tended_fix [LawfulUcd] {env : Env} {G : SolGrammar} (hT : Tools env G) {t p : FPath} (hp : SolOf t p) {fs : Fs} {ast : Ast} {n : Str}
    {fns : List HFn} {L : Layout} (hn : ¬ c!".t.sol" <:+ t.name) (h : Tended env G t p fs ast n fns L) :
    (checkRun env ⟨[t], true, false, false⟩ fs).exit = .code 0 ∧
    ∃ L', Tended env G t p (checkRun env ⟨[t], true, false, false⟩ fs).fs ast n fns L' ∧ (∀ f ∈ fns, Present L'.parts f) ∧
      (L.parts.map seen).Sublist (L'.parts.map seen) := by
  obtain ⟨text, h1, h2, h3⟩ := h.tree
  obtain ⟨u, hop, hu, hf⟩ := tended_opens hT hp h
  have hname : ∀ m, L.name = some m → m = sanitize n := by
    intro m hm; rw [h.name] at hm; cases hm; rfl
  have hv := check_in_order (ctx := ⟨t.str, ⟨[⟨n, fns⟩]⟩, p.str, L.text, u, false⟩) rfl hf hname h.ordered
  have hd := h2.distinct n fns h3
  obtain ⟨L', u', h4, h5, h6, h7, h8⟩ := C91_fix_missing hT.generated hT.reads
    (ctx := ⟨t.str, ⟨[⟨n, fns⟩]⟩, p.str, L.text, u, false⟩) rfl (legible_fn h2.legible h3) h.valid h.valid rfl hu
    (.same hname) h.brace (fun _ _ _ _ _ hs => by cases hs) hd h.ordered hv
  obtain ⟨L'', h9, h10⟩ := hT.ctxFmt ⟨t.str, ⟨[⟨n, fns⟩]⟩, p.str, L'.text, u', false⟩ L' rfl h5 h6
  have hft : FixedTo env ⟨t.str, ⟨[⟨n, fns⟩]⟩, p.str, L.text, u, false⟩ L''.text := ⟨_, _, h4, h9⟩
  have hst : (checkRun env ⟨[t], true, false, false⟩ fs).fs.state p = .text L''.text :=
    C50_written (a := ⟨[t], true, false, false⟩) (A := []) (B := []) rfl rfl rfl (by simp) (by simp) hop hft hp h.writable
  have htree : (checkRun env ⟨[t], true, false, false⟩ fs).fs.state t = fs.state t := by
    refine Classical.byContradiction fun hc => ?_
    obtain ⟨_, _, _, g, hg, hs, _⟩ := C50_only_sol hc
    cases List.mem_singleton.1 hg
    exact hn ((solOf_iff _ _).1 hs ▸ withSolExt_suffix t)
  refine ⟨?_, L'', ⟨⟨text, by rw [htree]; exact h1, h2, h3⟩, hst, h10.valid, h10.header (by rw [h7.same.2.2.1]; exact h.brace), ?_, ?_, ?_⟩, ?_, ?_⟩
  · rcases C51_exit_fix (env := env) (a := ⟨[t], true, false, false⟩) (fs := fs) rfl with ⟨h, _⟩ | ⟨_, t', ht', ctx, ho, hc⟩
    · exact h
    · cases List.mem_singleton.1 ht'
      cases opens_unique ho hop
      rcases hc with hc | ⟨_, _, hc, hc'⟩
      · rw [h4] at hc; cases hc
      · rw [h4] at hc; cases hc
        rw [h9] at hc'; cases hc'
  · rw [h10.name, h7.same.2.1, h.name]
  · exact reformatted_inOrder h10 (h7.order hd h.ordered)
  · rw [checkRun_writable]; exact h.writable
  · intro f hf
    rcases h7.present f hf with h | ⟨h, _⟩
    · exact present_seen h10.parts h
    · cases h
  · rw [h10.parts]
    unfold Layout.parts
    rw [segs_seen, segs_seen]
    have := h7.kept.map (fun g : Seg => match g with
      | .fn ty name _ => some (name, ty)
      | .other _ => none)
    rwa [List.map_map, List.map_map] at this

/-- `check`. -/
theorem tended_check {env : Env} {G : SolGrammar} (hT : Tools env G) {t p : FPath} (hp : SolOf t p) {fs : Fs} {ast : Ast} {n : Str}
    {fns : List HFn} {L : Layout} (h : Tended env G t p fs ast n fns L) :
    ∃ vs, checkRun env ⟨[t], false, false, false⟩ fs = checkExit fs vs ∧
      ∀ v, v ∈ vs ↔ ∃ f i, fns[i]? = some f ∧ ¬ Present L.parts f ∧ v = ⟨.matchingFunctionMissing f i, .code t.str f.span.start.line⟩ := by
  obtain ⟨u, hop, hu, hf⟩ := tended_opens hT hp h
  have hname : ∀ m, L.name = some m → m = sanitize n := by
    intro m hm; rw [h.name] at hm; cases hm; rfl
  have hv := check_in_order (ctx := ⟨t.str, ⟨[⟨n, fns⟩]⟩, p.str, L.text, u, false⟩) rfl hf hname h.ordered
  refine ⟨_, check_one hop hv, fun v => ?_⟩
  obtain ⟨m1, m2, _⟩ := presentAndMissing_missing ⟨t.str, ⟨[⟨n, fns⟩]⟩, p.str, L.text, u, false⟩ L.contract fns 0
  constructor
  · intro hm
    obtain ⟨f, i, _, h1, h2, h3, _⟩ := m1 v hm
    exact ⟨f, i, by simpa using h1, h3, h2⟩
  · rintro ⟨f, i, h1, h2, rfl⟩
    exact m2 f i (Nat.zero_le _) (by simpa using h1) h2 (by simp)

/-! ## Command lines -/

theorem line_check {s : Str} {t : FPath} (hs : s ≠ []) (ho : Operand s) (ht : PathOf s t) :
    cliParse [c!"check", s] = .run (.check ⟨[t], false, false, false⟩) := by
  refine (C86_check _ _).2 ⟨[.file s], .file hs ho .nil, by simp [Once, Item.options], ?_, ?_, ?_, ?_, ?_⟩
  · simp [Said]
  · exact .cons ht .nil
  all_goals simp [Said]

theorem line_fix {s : Str} {t : FPath} (hs : s ≠ []) (ho : Operand s) (ht : PathOf s t) :
    cliParse [c!"check", c!"--fix", s] = .run (.check ⟨[t], true, false, false⟩) := by
  refine (C86_check _ _).2 ⟨[.opt optFix [], .file s], .flag (by simp [checkTable]) rfl (.file hs ho .nil), by simp [Once, Item.options], ?_, ?_, ?_, ?_, ?_⟩
  · intro _; exact ⟨[], by simp⟩
  · exact .cons ht .nil
  · exact ⟨fun _ => ⟨[], by simp⟩, fun _ => rfl⟩
  all_goals simp [Said, optStdout, optSkip, optFix]

theorem line_scaffold {s : Str} {t : FPath} (hs : s ≠ []) (ho : Operand s) (ht : PathOf s t) :
    cliParse [c!"scaffold", s] = .run (.scaffold ⟨[t], false, false, c!"0.8.0", false, false⟩) := by
  refine (C86_scaffold _ _).2 ⟨[.file s], .file hs ho .nil, by simp [Once, Item.options], ?_, ?_, ?_, ?_, ?_, ?_, ?_⟩
  · simp [Said]
  · exact .cons ht .nil
  all_goals simp [Said]

theorem line_write {s : Str} {t : FPath} (hs : s ≠ []) (ho : Operand s) (ht : PathOf s t) :
    cliParse [c!"scaffold", c!"-w", s] = .run (.scaffold ⟨[t], true, false, c!"0.8.0", false, false⟩) := by
  refine (C86_scaffold _ _).2 ⟨[.opt optWrite [], .file s],
    .letters (os := [optWrite]) (cs := ['w']) (by simp) (.cons (by simp [scaffoldTable]) rfl rfl .nil) (.file hs ho .nil),
    by simp [Once, Item.options], ?_, ?_, ?_, ?_, ?_, ?_, ?_⟩
  · intro _; exact ⟨[], by simp⟩
  · exact .cons ht .nil
  · exact ⟨fun _ => ⟨[], by simp⟩, fun _ => rfl⟩
  all_goals simp [Said, optWrite, optForce, optVersion, optVmSkip, optSkip]

/-! ## The start -/

/-- The header of the contract in the source before formatting. -/
theorem raw_header {G : SolGrammar} {n : Str} {fns : List HFn} (hn : SolIdent n) (hr : ¬ Reserved n) {L : Layout} (hL : L.Fits G)
    (ht : L.text = solFile c!"0.8.0" false n fns) : '{' ∉ L.header := by
  obtain ⟨tb, hb, hbn, _⟩ := hL.before
  obtain ⟨k, ts, hk, hs, hrd, hnb, _, _⟩ := hL.header
  have h1 : SolReads c!"// SPDX-License-Identifier: UNLICENSED\n" [] :=
    reads_comment (t := c!" SPDX-License-Identifier: UNLICENSED") (by decide)
  have h2 : SolReads (c!"pragma " ++ (c!"solidity " ++ c!"0.8.0") ++ c!";") [.pragma (' ' :: (c!"solidity " ++ c!"0.8.0"))] :=
    reads_pragma (by decide)
  have h3 : SolReads c!"\n" [] := reads_ws (by decide)
  have h4 : SolReads c!"contract " [.word c!"contract"] := rfl
  have h5 : SolReads (n ++ c!" ") [.word n] := SolReads.word hn (known_not_pragma hr) (by decide) (reads_ws (by decide))
  have h7 : SolReads c!"{" [.sym '{'] := reads_sym (by decide) (by decide) (by decide) (by decide) (by decide)
  have hB := (h1.append h2).append h3
  have hH := (h4.append h5).append h7
  have e : L.before ++ ((L.header ++ ['{']) ++ (L.lead ++ (segsText L.segs ++ '}' :: L.rest))) =
      (c!"// SPDX-License-Identifier: UNLICENSED\n" ++ (c!"pragma " ++ (c!"solidity " ++ c!"0.8.0") ++ c!";") ++ c!"\n") ++
        ((c!"contract " ++ (n ++ c!" ") ++ c!"{") ++ (stanzas (fns.map solFn) ++ c!"}")) := by
    have : L.text = L.before ++ ((L.header ++ ['{']) ++ (L.lead ++ (segsText L.segs ++ '}' :: L.rest))) := by simp [Layout.text, Layout.front]
    rw [← this, ht]
    simp [solFile]
  have st : StartsTok (L.header ++ ['{']) := by
    obtain ⟨c, r, e, hc⟩ := hs
    exact ⟨c, r ++ ['{'], by rw [e]; rfl, hc⟩
  obtain ⟨_, e2⟩ := before_unique hb hB hbn (by simp [contractWords]) hk (k' := c!"contract") (by simp [contractWords]) st
    ⟨'c', _, rfl, .inl (by decide)⟩ hrd hH e
  obtain ⟨e3, _⟩ := header_unique (h := L.header) (h' := c!"contract " ++ (n ++ c!" ")) hrd hH (by simpa using hnb) (by simp) (by simpa using e2)
  rw [e3]
  intro hm
  simp only [List.mem_append] at hm
  rcases hm with hm | hm | hm
  · exact absurd hm (by decide)
  · obtain ⟨c, r, rfl, h1, h2⟩ := hn
    rcases List.mem_cons.1 hm with rfl | hm
    · rcases h1 with h1 | h1 | h1
      · exact absurd h1 (by simp [IsLetter])
      · exact absurd h1 (by decide)
      · exact absurd h1 (by decide)
    · exact absurd (h2 _ hm) (by decide)
  · exact absurd hm (by decide)

theorem distinct_tests {fns : List HFn} (h : Distinct fns) : ((fns.filter HFn.isFunction).map HFn.identifier).Nodup := by
  rw [List.Nodup, List.pairwise_map, List.pairwise_filter]
  refine h.imp ?_
  intro f g hfg hf hg e
  refine hfg ⟨e, ?_⟩
  simp only [HFn.isFunction] at hf hg
  cases hft : f.ty <;> cases hgt : g.ty <;> simp_all

/-- `scaffold -w`. -/
theorem tended_start [LawfulUcd] {env : Env} {G : SolGrammar} (hT : Tools env G) {t p : FPath} (hp : SolOf t p) (hn : ¬ c!".t.sol" <:+ t.name)
    {fs : Fs} {text : Str} {ast : Ast} (h0 : fs.state t = .text text) (h1 : OneTree env text ast) (hw : fs.writable p = true)
    (ha : fs.state p = .absent) :
    (scaffoldRun env ⟨[t], true, false, c!"0.8.0", false, false⟩ fs).exit = .code 0 ∧
    ∃ n fns L, Tended env G t p (scaffoldRun env ⟨[t], true, false, c!"0.8.0", false, false⟩ fs).fs ast n fns L ∧ ∀ f ∈ fns, Present L.parts f := by
  have hcfg : ScaffoldArgs.config ⟨[t], true, false, c!"0.8.0", false, false⟩ = .default := rfl
  obtain ⟨n, fns, ht⟩ : ∃ n fns, translate env.order .default text = .ok ⟨[⟨n, fns⟩]⟩ := ⟨_, _, translate_single h1.parsed .default⟩
  have hv : ∀ c ∈ c!"0.8.0", c ≠ '"' ∧ c ≠ '\n' ∧ c ≠ ';' := by decide
  have hwr : written .default fns = fns := rfl
  obtain ⟨hid, hres, _, _⟩ := h1.legible n fns ht
  have hfn := legible_fn h1.legible ht
  have hsrc : scaffoldSource env.order .default text = .ok (solFile c!"0.8.0" false (sanitize n) fns) :=
    C33_source (cfg := .default) (by decide) (by decide) ht
  have htok := tokens_solFile (version := c!"0.8.0") (skip := false) (by decide) hid hres hfn
  have husual := usual_solFile (version := c!"0.8.0") (skip := false) (usual_none (by decide)) hid hfn
  obtain ⟨L, hL, hLt, hLn, hLw⟩ := layout_of_tokens hT.generated hT.head hid hres hfn htok husual
  have hbr := raw_header hid hres hL hLt
  obtain ⟨L1, f1, r1⟩ := hT.fmt L hL
  obtain ⟨L2, f2, r2⟩ := hT.fmt L1 r1.valid
  rw [hLt] at f1
  have hy : Yields env .default text L2.text := ⟨_, _, hsrc, f1, .inl f2⟩
  have hg : Good env .default fs t L2.text := ⟨text, h0, hy⟩
  have hN : NoTests [t] := by intro f hf; cases List.mem_singleton.1 hf; exact hn
  have hU : ∀ f ∈ [t], ¬ Unformatted env .default fs f := by
    intro f hf; cases List.mem_singleton.1 hf; exact good_formatted hg
  have hst : (scaffoldRun env ⟨[t], true, false, c!"0.8.0", false, false⟩ fs).fs.state p = .text L2.text :=
    C49_written (a := ⟨[t], true, false, c!"0.8.0", false, false⟩) (A := []) (B := []) hN hU rfl rfl rfl hg hp hw ha (by simp)
  have hstt : (scaffoldRun env ⟨[t], true, false, c!"0.8.0", false, false⟩ fs).fs.state t = fs.state t := scaffold_state_same hN hn
  obtain ⟨u, _, hfc⟩ := hT.reads L hL
  have hd := h1.distinct n fns ht
  have hsil := C41_scaffold_partial hT.order ht (distinct_tests hd) (ctx := ⟨t.str, ⟨[⟨n, fns⟩]⟩, p.str, L.text, u, false⟩) ht (fun h => absurd h (by decide)) hfc hLn
    (by rw [hwr]; exact hLw)
  obtain ⟨s, g1, _, g3, g4⟩ := (C37_silent_iff (ctx := ⟨t.str, ⟨[⟨n, fns⟩]⟩, p.str, L.text, u, false⟩) rfl).1 hsil
  obtain rfl : s = L.contract := Option.some.inj (((findContract_iff _ _).2 g1).symm.trans ((findContract_iff _ _).2 hfc))
  refine ⟨?_, n, fns, L2, ⟨⟨text, by rw [hstt]; exact h0, h1, ht⟩, hst, r2.valid, r2.header (r1.header hbr), ?_, ?_, ?_⟩, ?_⟩
  · rcases C49_exit (env := env) (a := ⟨[t], true, false, c!"0.8.0", false, false⟩) (fs := fs) hN hU with ⟨h, _⟩ | ⟨_, f, hf, hb⟩
    · exact h
    · cases List.mem_singleton.1 hf
      rcases hb with hb | ⟨text', e, hb, hb'⟩
      · exact absurd h0 (hb _)
      · rw [h0] at hb; cases hb
        rw [show translate env.order (ScaffoldArgs.config ⟨[t], true, false, c!"0.8.0", false, false⟩) text = .ok _ from ht] at hb'; cases hb'
  · rw [r2.name, r1.name, hLn]
  · exact reformatted_inOrder r2 (reformatted_inOrder r1 g4)
  · rw [scaffoldRun_writable]; exact hw
  · intro f hf
    rcases g3 f hf with h | ⟨h, _⟩
    · exact present_seen r2.parts (present_seen r1.parts h)
    · cases h

/-! ## The steps -/

theorem tended_step [LawfulUcd] {env : Env} {G : SolGrammar} (hT : Tools env G) {s : Str} {t p : FPath} (hs : s ≠ []) (ho : Operand s)
    (hpath : PathOf s t) (hp : SolOf t p) (hn : ¬ c!".t.sol" <:+ t.name) {fs fs' : Fs}
    (h : ∃ ast n fns L, Tended env G t p fs ast n fns L) (hstep : Step env G s t p fs fs') : ∃ ast n fns L, Tended env G t p fs' ast n fns L := by
  obtain ⟨ast, n, fns, L, h⟩ := h
  have htp : t ≠ p := by
    rintro rfl
    exact hn (by have := withSolExt_suffix t; rwa [← (solOf_iff _ _).1 hp] at this)
  have hN : NoTests [t] := by intro f hf; cases List.mem_singleton.1 hf; exact hn
  have same : ∀ {fs' : Fs}, fs'.state t = fs.state t → fs'.state p = fs.state p → fs'.writable p = fs.writable p → Tended env G t p fs' ast n fns L := by
    intro fs' e1 e2 e3
    exact ⟨by rw [e1]; exact h.tree, by rw [e2]; exact h.sol, h.valid, h.brace, h.name, h.ordered, by rw [e3]; exact h.writable⟩
  have scaf : ∀ a : ScaffoldArgs, a.files = [t] → a.forceWrite = false → Tended env G t p (scaffoldRun env a fs).fs ast n fns L := by
    intro a hf hfo
    refine same (scaffold_state_same (by rw [hf]; exact hN) hn) (C48_no_overwrite env hfo fs (by rw [h.sol]; simp)) ?_
    rw [scaffoldRun_writable]
  obtain ⟨text0, t1, t2, t3⟩ := h.tree
  cases hstep with
  | @command args r ha hr =>
    simp only [List.mem_cons, List.not_mem_nil, or_false] at ha
    rcases ha with rfl | rfl | rfl | rfl
    · simp only [program, line_check hs ho hpath, Outcome.ran.injEq] at hr
      subst hr
      obtain ⟨vs, e, _⟩ := tended_check hT hp h
      rw [e]
      refine ⟨ast, n, fns, L, same ?_ ?_ ?_⟩ <;> unfold checkExit <;> split <;> rfl
    · simp only [program, line_fix hs ho hpath, Outcome.ran.injEq] at hr
      subst hr
      obtain ⟨_, L', h', _⟩ := tended_fix hT hp hn h
      exact ⟨_, _, _, _, h'⟩
    · simp only [program, line_scaffold hs ho hpath, Outcome.ran.injEq] at hr
      subst hr
      exact ⟨_, _, _, _, scaf _ rfl rfl⟩
    · simp only [program, line_write hs ho hpath, Outcome.ran.injEq] at hr
      subst hr
      exact ⟨_, _, _, _, scaf _ rfl rfl⟩
  | elsewhere e1 e2 e3 => exact ⟨_, _, _, _, same e1 e2 e3⟩
  | @grow text text' ast0 ast' n' fns0 fns' L0 g1 g2 g3 g4 g5 g6 g7 g8 g9 g10 =>
    rw [t1] at g1; cases g1
    rw [t3] at g6; cases g6
    have := g8; rw [h.sol] at this
    cases layout_unique h.valid g9 (by simpa using this)
    have e0 := g2.parsed.symm.trans t2.parsed
    cases e0
    have hsub : (fns.map nameOf).Sublist (fns'.map nameOf) := by
      have e1 := (translate_single t2.parsed .default).symm.trans t3
      have e2 := (translate_single g3.parsed .default).symm.trans g7
      simp only [Res.ok.injEq, HRoot.mk.injEq, List.cons.injEq, HContract.mk.injEq, and_true] at e1 e2
      rw [← e1.2, ← e2.2]
      exact within_map (fun _ _ r => r.name) (expected_richer g5)
    exact ⟨ast', n, fns', L, ⟨text', by simp [put], g3, g7⟩, by simp [put, htp.symm, h.sol], h.valid, h.brace, h.name,
      inOrder_more hsub (g3.distinct _ _ g7) h.ordered g10, h.writable⟩
  | @shrink text text' ast0 ast' g1 g2 g3 g4 g5 =>
    rw [t1] at g1; cases g1
    have e0 := g2.parsed.symm.trans t2.parsed
    cases e0
    have e1 := (translate_single t2.parsed .default).symm.trans t3
    have g7 := translate_single g3.parsed .default
    simp only [Res.ok.injEq, HRoot.mk.injEq, List.cons.injEq, HContract.mk.injEq, and_true] at e1
    rw [g4, e1.1] at g7
    refine ⟨ast', n, _, L, ⟨text', by simp [put], g3, g7⟩, by simp [put, htp.symm, h.sol], h.valid, h.brace, h.name, ?_, h.writable⟩
    refine inOrder_names ?_ h.ordered
    rw [← e1.2]
    exact within_map (fun _ _ r => r.name) (expected_richer g5)
  | @reshape text text' ast0 ast' n' fns' L0 g1 g2 g3 g4 g5 g6 g7 g8 =>
    rw [t1] at g1; cases g1
    have := g6; rw [h.sol] at this
    cases layout_unique h.valid g7 (by simpa using this)
    have e0 := g2.parsed.symm.trans t2.parsed
    cases e0
    have e1 := (translate_single t2.parsed .default).symm.trans t3
    have e2 := (translate_single g3.parsed .default).symm.trans g5
    simp only [Res.ok.injEq, HRoot.mk.injEq, List.cons.injEq, HContract.mk.injEq, and_true] at e1 e2
    have hn' : n' = n := by rw [← e1.1, ← e2.1, g4]
    rw [hn'] at g5
    exact ⟨ast', n, fns', L, ⟨text', by simp [put], g3, g5⟩, by simp [put, htp.symm, h.sol], h.valid, h.brace, h.name, g8, h.writable⟩
  | @edit text n' fns' L' g1 g2 g3 g4 g5 g6 =>
    rw [t1] at g1; cases g1
    rw [t3] at g2; cases g2
    exact ⟨ast, n, fns, L', ⟨text0, by simp [put, htp, t1], t2, t3⟩, by simp [put], g3, g4, g5, g6, h.writable⟩

theorem tended_session [LawfulUcd] {env : Env} {G : SolGrammar} (hT : Tools env G) {s : Str} {t p : FPath} (hs : s ≠ []) (ho : Operand s)
    (hpath : PathOf s t) (hp : SolOf t p) (hn : ¬ c!".t.sol" <:+ t.name) {fs fs' : Fs}
    (h : ∃ ast n fns L, Tended env G t p fs ast n fns L) (hses : Session env G s t p fs fs') : ∃ ast n fns L, Tended env G t p fs' ast n fns L := by
  induction hses with
  | start => exact h
  | step _ h2 ih => exact tended_step hT hs ho hpath hp hn ih h2

/-- **C102.** A tree is scaffolded with `scaffold -w`; then any number of times, in any order, branches are added to the tree for functions
the contract does not have, branches are removed, the tree is redrawn or changed in any other way under which the functions of the contract stay in order, the Solidity file is edited such that it stays valid, with the name of the contract and its
functions in the order of the tree, other files change, and `check`, `check --fix`, `scaffold` and `scaffold -w` are run.  At any time, `check` reports exactly
the functions of the tree that the contract does not have, and nothing if there are none; and `check --fix` succeeds, keeps the functions
of the contract, after which `check` succeeds. -/
theorem C102_session [LawfulUcd] {env : Env} {G : SolGrammar} (hT : Tools env G) {s : Str} {t p : FPath} (hs : s ≠ []) (ho : Operand s)
    (hpath : PathOf s t) (hp : SolOf t p) (hn : ¬ c!".t.sol" <:+ t.name) {fs0 : Fs} {text : Str} {ast : Ast} (h0 : fs0.state t = .text text)
    (h1 : OneTree env text ast) (hw : fs0.writable p = true) (ha : fs0.state p = .absent) :
    ∃ r0, program env [c!"scaffold", c!"-w", s] fs0 = .ran r0 ∧ r0.exit = .code 0 ∧
      (∃ r, program env [c!"check", s] r0.fs = .ran r ∧ r.exit = .code 0) ∧
      ∀ fs, Session env G s t p r0.fs fs →
        ∃ text n fns L, fs.state t = .text text ∧ translate env.order .default text = .ok ⟨[⟨n, fns⟩]⟩ ∧ fs.state p = .text (Layout.text L) ∧ L.Fits G ∧
        (∃ r, program env [c!"check", s] fs = .ran r ∧ r.fs = fs ∧ r.exit = .code (if ∀ f ∈ fns, Present L.parts f then 0 else 1) ∧
          ∀ v, .violation v ∈ r.stderr ↔
            ∃ f i, fns[i]? = some f ∧ ¬ Present L.parts f ∧ v = ⟨.matchingFunctionMissing f i, .code s f.span.start.line⟩) ∧
        ∃ r1, program env [c!"check", c!"--fix", s] fs = .ran r1 ∧ r1.exit = .code 0 ∧ r1.fs.state t = fs.state t ∧
          (∃ L', r1.fs.state p = .text (Layout.text L') ∧ L'.Fits G ∧ (L.parts.map seen).Sublist (L'.parts.map seen)) ∧
          ∃ r2, program env [c!"check", s] r1.fs = .ran r2 ∧ r2.exit = .code 0 := by
  have check : ∀ {fs : Fs} {ast : Ast} {n : Str} {fns : List HFn} {L : Layout}, Tended env G t p fs ast n fns L →
      ∃ r, program env [c!"check", s] fs = .ran r ∧ r.fs = fs ∧ r.exit = .code (if ∀ f ∈ fns, Present L.parts f then 0 else 1) ∧
          ∀ v, .violation v ∈ r.stderr ↔
            ∃ f i, fns[i]? = some f ∧ ¬ Present L.parts f ∧ v = ⟨.matchingFunctionMissing f i, .code s f.span.start.line⟩ := by
    intro fs ast n fns L h
    obtain ⟨vs, e, hv⟩ := tended_check hT hp h
    rw [hpath.1] at hv
    refine ⟨checkExit fs vs, by simp only [program, line_check hs ho hpath, e], ?_, ?_, ?_⟩
    · unfold checkExit; split <;> rfl
    · unfold checkExit
      split
      · rename_i hempty
        rw [List.isEmpty_iff] at hempty
        subst hempty
        rw [if_pos]
        intro f hf
        obtain ⟨i, hi⟩ := List.mem_iff_getElem?.1 hf
        refine Classical.byContradiction fun hc => ?_
        exact absurd ((hv _).2 ⟨f, i, hi, hc, rfl⟩) (by simp)
      · rename_i hne
        rw [if_neg]
        intro hall
        cases vs with
        | nil => exact hne rfl
        | cons v vs =>
          obtain ⟨f, i, hi, hc, _⟩ := (hv v).1 (by simp)
          exact hc (hall f (List.mem_of_getElem? hi))
    · intro v
      rw [← hv]
      unfold checkExit
      split
      · rename_i hempty
        rw [List.isEmpty_iff] at hempty
        subst hempty
        simp
      · simp
  obtain ⟨h2, n, fns, L, h3, h4⟩ := tended_start hT hp hn h0 h1 hw ha
  refine ⟨_, by simp only [program, line_write hs ho hpath], h2, ?_, ?_⟩
  · obtain ⟨r, e1, _, e2, _⟩ := check h3
    rw [if_pos h4] at e2
    exact ⟨r, e1, e2⟩
  · intro fs hses
    obtain ⟨ast, n, fns, L, h⟩ := tended_session hT hs ho hpath hp hn ⟨_, _, _, _, h3⟩ hses
    obtain ⟨text, t1, t2, t3⟩ := h.tree
    refine ⟨text, n, fns, L, t1, t3, h.sol, h.valid, check h, ?_⟩
    obtain ⟨h5, L', h6, h7, h8⟩ := tended_fix hT hp hn h
    refine ⟨_, by simp only [program, line_fix hs ho hpath], h5, ?_, ⟨L', h6.sol, h6.valid, h8⟩, ?_⟩
    · refine Classical.byContradiction fun hc => ?_
      obtain ⟨_, _, _, g, hg, hs, _⟩ := C50_only_sol hc
      cases List.mem_singleton.1 hg
      exact hn ((solOf_iff _ _).1 hs ▸ withSolExt_suffix t)
    · obtain ⟨r, e1, _, e2, _⟩ := check h6
      rw [if_pos h7] at e2
      exact ⟨r, e1, e2⟩

end
end Bulloak
