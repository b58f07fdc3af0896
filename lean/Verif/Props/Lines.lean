import Verif.Props.Error
import Verif.Props.Combine
import Verif.Props.Check
import Verif.Lemmas.Lines
/-!
# C54, C64: line numbers
-/

set_option linter.unusedSectionVars false

namespace Bulloak
open Spec

theorem blockAt_of {text : Str} {bs : List Str} (h : Blocks text bs) : ∀ b ∈ bs, ∃ x, BlockAt text x b := by
  induction h with
  | @last p b q hp hb hq =>
    intro c hc
    rw [List.mem_singleton.1 hc]
    exact ⟨p, hb, q, rfl, Or.inl hp, Or.inl hq⟩
  | @cons p b s rest bs hp hb hs hnn hr ih =>
    intro c hc
    rcases List.mem_cons.1 hc with rfl | hc
    · exact ⟨p, hb, s ++ rest, by simp, Or.inl hp, Or.inr ⟨s, rest, rfl, hs, hnn⟩⟩
    · obtain ⟨x, hb', y, rfl, hx, hy⟩ := ih c hc
      refine ⟨p ++ b ++ s ++ x, hb', y, by simp, Or.inr ?_, hy⟩
      rcases hx with hx | ⟨x', s', rfl, h1, h2⟩
      · refine ⟨p ++ b, s ++ x, by simp, ?_, hnn.trans ⟨[], x, by simp⟩⟩
        intro d hd
        rcases List.mem_append.1 hd with hd | hd
        · exact hs d hd
        · exact hx d hd
      · exact ⟨p ++ b ++ s ++ x', s', by simp, h1, h2⟩

theorem splitTrees_at {text b : Str} (h : b ∈ splitTrees text) : (Blank text ∧ b = []) ∨ ∃ x, BlockAt text x b := by
  by_cases hb : Blank text
  · rw [(C12_split text).1 hb] at h
    exact Or.inl ⟨hb, List.mem_singleton.1 h⟩
  · obtain ⟨bs, hbs⟩ := blocks_exist text hb
    rw [splitTrees_blocks hbs] at h
    exact Or.inr (blockAt_of hbs b (List.mem_filter.1 h).1)

section
variable [U : Ucd]

theorem parseOne_nil (order : HashOrder) (ast : Ast) : parseOne order [] ≠ .ok ast := by
  intro h
  obtain ⟨toks, h1, h2, _⟩ := parseOne_ok h
  have : tokenize [] = .ok [] := rfl
  rw [this] at h1; cases h1
  cases h2

theorem expected_span {cs : List Ast} (h : ∀ c ∈ cs, GoodItem c) {skip : Bool} {f : HFn} (hf : f ∈ expected skip cs) :
    ∃ a ∈ named cs, f.span = a.span := by
  obtain ⟨a, ha, hf⟩ := List.mem_flatMap.1 hf
  split at hf
  · rename_i hact
    rw [List.mem_singleton.1 hf]
    exact ⟨a, List.mem_flatMap.2 ⟨a, ha, by simp [hact]⟩, rfl⟩
  · rename_i hact
    obtain ⟨p, hp, hf⟩ := List.mem_flatMap.1 hf
    have hm : p.2 ∈ conditionsOf [a] := by
      rw [← inScope_snd (h a ha) []]
      exact List.mem_map_of_mem hp
    refine ⟨p.2, List.mem_flatMap.2 ⟨a, ha, by simpa [hact] using hm⟩, ?_⟩
    rcases mem_condFns.1 hf with ⟨_, rfl⟩ | ⟨_, rfl⟩ <;> rfl

theorem prefixFn_span (part : Str) (f : HFn) : (prefixFn part f).span = f.span := by
  unfold prefixFn
  split <;> rfl

/-- A node of an accepted tree starts at the branch glyph of its line. -/
theorem named_place [LawfulUcd] {order : HashOrder} {text : Str} {ast : Ast} (h : parseOne order text = .ok ast) {a : Ast}
    (ha : a ∈ named (kids ast)) : ∃ pre g post, text = pre ++ g :: post ∧ (g = '├' ∨ g = '└') ∧ a.span.start = posOf pre := by
  obtain ⟨toks, ht, hp, _⟩ := parseOne_ok h
  obtain ⟨root, hs, kids', rfl, hk, hr, rfl⟩ := (parseTokens_iff (tokenize_col ht) _).1 hp
  obtain ⟨d, hd, hst⟩ := each_mem (rootItems_stand hr) (named_mem ha)
  obtain ⟨A, B, hflat⟩ := flat_split hd
  have hg : d.glyph ∈ root :: flat hs := by rw [hflat]; simp [Header.toks]
  obtain ⟨pre, h1, ⟨post, h2⟩, h3, h4⟩ := tok_span ht hg
  have hdok : d.glyph.kind.isBranch = true := (rootItems_ok hr d hd).1
  have hk' := C03_keywords ht _ hg
  rcases (by cases hh : d.glyph.kind <;> rw [hh] at hdok <;> simp [TokenKind.isBranch] at hdok ⊢ : d.glyph.kind = .tee ∨ d.glyph.kind = .corner) with hh | hh
  · exact ⟨pre, '├', post, by rw [h2, hk'.1.1 hh]; simp, Or.inl rfl, by rw [hst.1, h3]⟩
  · exact ⟨pre, '└', post, by rw [h2, hk'.2.1.1 hh]; simp, Or.inr rfl, by rw [hst.1, h3]⟩

/-- **C54**, tree files: every function of the contract of a file belongs to a node in one of its blocks, and the line reported
for it is the line of the glyph of that node, counted from the start of the block.  Hence the line in the file is the reported
one plus the number of lines before the block. -/
theorem C54_tree_line [LawfulUcd] {order : HashOrder} {cfg : Config} {text n : Str} {fns : List HFn}
    (h : translate order cfg text = .ok ⟨[⟨n, fns⟩]⟩) {f : HFn} (hf : f ∈ fns) :
    ∃ x b ast, b ∈ splitTrees text ∧ BlockAt text x b ∧ parseOne order b = .ok ast ∧ (∃ a ∈ named (kids ast), f.span = a.span) ∧
      ∃ pre g post, b = pre ++ g :: post ∧ (g = '├' ∨ g = '└') ∧ f.span.start.line = 1 + pre.count '\n' ∧
        f.span.start.line + x.count '\n' = 1 + (x ++ pre).count '\n' := by
  have key : ∀ asts, parse order text = .ok asts → ∀ ast ∈ asts, ∀ a ∈ named (kids ast), f.span = a.span →
      ∃ x b ast, b ∈ splitTrees text ∧ BlockAt text x b ∧ parseOne order b = .ok ast ∧ (∃ a ∈ named (kids ast), f.span = a.span) ∧
      ∃ pre g post, b = pre ++ g :: post ∧ (g = '├' ∨ g = '└') ∧ f.span.start.line = 1 + pre.count '\n' ∧
        f.span.start.line + x.count '\n' = 1 + (x ++ pre).count '\n' := by
    intro asts hp ast ham a ha hs
    obtain ⟨b, hb, hbo⟩ := each_right ((C13_parse_ok order text asts).1 hp) ast ham
    rcases splitTrees_at hb with ⟨_, rfl⟩ | ⟨x, hx⟩
    · exact absurd hbo (parseOne_nil order ast)
    · obtain ⟨pre, g, post, h1, h2, h3⟩ := named_place hbo ha
      have hline : f.span.start.line = 1 + pre.count '\n' := by rw [hs, h3]; rfl
      refine ⟨x, b, ast, hb, hx, hbo, ⟨a, ha, hs⟩, pre, g, post, h1, h2, hline, ?_⟩
      rw [hline, List.count_append]; omega
  cases hp : parse order text with
  | panic => simp [translate, hp, Res.mapErr] at h
  | err e => simp [translate, hp, Res.mapErr] at h
  | ok asts =>
    rcases translate_cases hp cfg with ⟨ast, rfl, ht⟩ | ⟨rfl, ht⟩ | ⟨_, n', fs, hn, hs, ht⟩ | ⟨_, _, _, _, _, _, _, _, _, ht⟩
    · rw [ht] at h; cases h
      obtain ⟨a, ha, hsp⟩ := expected_span (accepted_good (parse_accepted hp ast (by simp))) hf
      exact key _ hp ast (by simp) a ha hsp
    · rw [ht] at h; cases h; cases hf
    · rw [ht] at h; cases h
      obtain ⟨p, hpm, g, hg, rfl⟩ := prefixed_mem.1 ((firstOnly_sublist _).subset hf)
      obtain ⟨hm, _⟩ := zip_mem hs hpm
      obtain ⟨a, ha, hsp⟩ := expected_span (accepted_good (parse_accepted hp p.1 hm)) hg
      exact key _ hp p.1 hm a ha (by rw [prefixFn_span, hsp])
    · rw [ht] at h; cases h

/-- **C54**, tree files with one tree that starts in the first line: the line reported for a missing function is the line of its
node in the file. -/
theorem C54_tree_partial [LawfulUcd] {order : HashOrder} {text b p q : Str} {ctx : Context} {n : Str}
    {fns : List HFn} {cfg : Config} (htext : text = p ++ b ++ q) (hp : Blank p) (hpn : '\n' ∉ p) (hb : Block b) (hq : Blank q)
    (h : translate order cfg text = .ok ⟨[⟨n, fns⟩]⟩) (hh : ctx.hir = ⟨[⟨n, fns⟩]⟩) {s : SolContract} (hs : FirstContract ctx.pt s)
    {vs : List Violation} (hv : checkCtx ctx = .ok vs) {f : HFn} {i : Nat} {loc : Location}
    (hm : ⟨.matchingFunctionMissing f i, loc⟩ ∈ vs) :
    ∃ ast, parseOne order b = .ok ast ∧ (∃ a ∈ named (kids ast), f.span = a.span) ∧
      ∃ pre g post, text = pre ++ g :: post ∧ (g = '├' ∨ g = '└') ∧ f.span.start.line = 1 + pre.count '\n' ∧
        loc = .code ctx.tree (1 + pre.count '\n') := by
  obtain ⟨hf, _, _, hl⟩ := ((C38_missing hh hs hv).1 f i loc).1 hm
  obtain ⟨x, b', ast, hmem, _, hpo, hspan, pre, g, post, hb2, hg, hline, _⟩ := C54_tree_line h (List.mem_of_getElem? hf)
  have hbs : Blocks text [b] := by rw [htext]; exact .last hp hb hq
  rw [splitTrees_blocks hbs] at hmem
  have hbb : b' = b := List.mem_singleton.1 (List.mem_filter.1 hmem).1
  subst hbb
  have hc : (p ++ pre).count '\n' = pre.count '\n' := by
    rw [List.count_append, List.count_eq_zero.2 hpn]; omega
  refine ⟨ast, hpo, hspan, p ++ pre, g, post ++ q, by rw [htext, hb2]; simp, hg, ?_, ?_⟩
  · rw [hc]; exact hline
  · rw [hc, hl, hline]

end

/-- **C54**, Solidity files: in a file that is ASCII up to the place, the line reported for a misplaced function or for a
contract with another name is the line where it starts. -/
theorem C54_solidity_partial [U : Ucd] {ctx : Context} {n : Str} {fns : List HFn} (hh : ctx.hir = ⟨[⟨n, fns⟩]⟩) {s : SolContract}
    (hs : FirstContract ctx.pt s) {vs : List Violation} (hv : checkCtx ctx = .ok vs) {x y : Str} {c d : Char}
    (hsrc : ctx.src = x ++ c :: d :: y) (hx : Ascii x) (hc : c ≠ '\n') (hd : d ≠ '\n') :
    (∀ g a i loc, ⟨.functionOrderMismatch g a i, loc⟩ ∈ vs → g.start = byteLen x → loc = .code ctx.sol (1 + x.count '\n')) ∧
    (∀ a b loc, ⟨.contractNameNotMatches a b, loc⟩ ∈ vs → s.start = byteLen x → loc = .code ctx.sol (1 + x.count '\n')) := by
  constructor
  · intro g a i loc hm hst
    obtain ⟨f, line, _, _, _, hl, rfl⟩ := (C39_order hh hs hv).2.2 g a i loc hm
    rw [hst, hsrc, offsetToLine_line hx hc hd] at hl
    cases hl; rfl
  · intro a b loc hm hst
    obtain ⟨_, _, _, line, hl, rfl⟩ := (C37_name hh hs hv a b loc).1 hm
    rw [hst, hsrc, offsetToLine_line hx hc hd] at hl
    cases hl; rfl

/-! ## C64: the lines of error messages -/

theorem translate_err_syntax [U : Ucd] {order : HashOrder} {cfg : Config} {text : Str} {e : SyntaxError}
    (h : translate order cfg text = .err (.syntax e)) : parse order text = .err e := by
  cases hp : parse order text with
  | panic => simp [translate, hp, Res.mapErr] at h
  | err e' => simp [translate, hp, Res.mapErr] at h; rw [h]
  | ok asts =>
    exfalso
    revert h
    unfold translate
    rw [hp]
    simp only [Res.mapErr, Res.bind_ok]
    split
    · rename_i a
      cases translateOne cfg a with
      | err x => cases x
      | ok x => intro h; cases h
      | panic => intro h; cases h
    · intro h
      cases hc : collectRes (translateOne cfg) asts with
      | panic => rw [hc] at h; cases h
      | err e => cases e
      | ok hs =>
        rw [hc] at h
        revert h
        show (combine hs).mapErr (TranslateError.combiner text) = .err (.syntax e) → False
        cases combine hs <;> simp [Res.mapErr]

/-- The text an error carries. -/
def SyntaxError.textOf : SyntaxError → Str
  | .tokenizer t _ => t
  | .parser t _ => t
  | .semantics t _ => t

theorem parseOne_err_text [U : Ucd] {order : HashOrder} {text : Str} {e : SyntaxError} (h : parseOne order text = .err e) :
    e.textOf = text := by
  unfold parseOne at h
  cases ht : tokenize text with
  | panic => rw [ht] at h; cases h
  | err x => rw [ht] at h; cases h; rfl
  | ok toks =>
    rw [ht] at h
    simp only [Res.mapErr, Res.bind_ok] at h
    cases hp : parseTokens toks with
    | panic => rw [hp] at h; cases h
    | err x => rw [hp] at h; cases h; rfl
    | ok ast =>
      rw [hp] at h
      simp only [Res.bind_ok] at h
      split at h
      · cases h
      · cases h; rfl

/-- **C64.** The error of a file is about one of its blocks, on which the message is based: a message placed after `pre` in the block
(`C53_tokenizer`, `C53_parser`, `C53_semantics`) states the line `1 + pre.count '\n'`, to which the lines before the block
have to be added. -/
theorem C64_error_lines [U : Ucd] {order : HashOrder} {cfg : Config} {text : Str} {e : SyntaxError}
    (h : translate order cfg text = .err (.syntax e)) : ∃ b ∈ splitTrees text, parseOne order b = .err e ∧ e.textOf = b ∧
      ((Blank text ∧ b = []) ∨ ∃ x, BlockAt text x b ∧ ∀ span pre mid, SpanOf b span pre mid →
        (∃ post, text = x ++ pre ++ mid ++ post) ∧ span.start.line + x.count '\n' = 1 + (x ++ pre).count '\n') := by
  have hp := translate_err_syntax h
  obtain ⟨A, b, B, h1, _, h3⟩ := (C13_parse_err order text e).1 hp
  have hb : b ∈ splitTrees text := by rw [h1]; simp
  refine ⟨b, hb, h3, parseOne_err_text h3, ?_⟩
  rcases splitTrees_at hb with h | ⟨x, hx⟩
  · exact Or.inl h
  · right
    refine ⟨x, hx, ?_⟩
    rintro span pre mid ⟨_, ⟨post, hpo⟩, hst, _⟩
    obtain ⟨_, y, hty, _⟩ := hx
    refine ⟨⟨post ++ y, by rw [hty, hpo]; simp⟩, ?_⟩
    rw [hst, List.count_append]
    simp only [posOf]
    omega

/-- **C64** (partial).  For a file with one tree that starts at the very beginning, the places of the block are places of the
file.  Missing: other trees (`C64_lines_false`). -/
theorem C64_error_lines_partial [U : Ucd] {order : HashOrder} {cfg : Config} {b q : Str} {e : SyntaxError} (hb : Block b) (hq : Blank q)
    (h : translate order cfg (b ++ q) = .err (.syntax e)) : parseOne order b = .err e ∧ e.textOf = b ∧
      ∀ span pre mid, SpanOf b span pre mid → SpanOf (b ++ q) span pre mid := by
  obtain ⟨b', hm, h1, h2, _⟩ := C64_error_lines h
  have hbs : Blocks (b ++ q) [b] := by
    have := Blocks.last (p := []) (fun c hc => by cases hc) hb hq
    simpa using this
  rw [splitTrees_blocks hbs] at hm
  have hbb : b' = b := List.mem_singleton.1 (List.mem_filter.1 hm).1
  subst hbb
  refine ⟨h1, h2, ?_⟩
  rintro span pre mid ⟨h0, ⟨post, rfl⟩, h3⟩
  exact ⟨h0, ⟨post ++ q, by simp⟩, h3⟩

/-! ## Non-vacuity and counterexamples -/
section
attribute [local instance] asciiUcd

/-- The lines of the functions of a file. -/
private def fnLines (text : Str) : List Nat :=
  match translate id .default text with
  | .ok ⟨[⟨_, fns⟩]⟩ => fns.map (·.span.start.line)
  | _ => []

private theorem fnLines_of {text : Str} {k : Nat} (h : k ∈ fnLines text) :
    ∃ n fns, translate id .default text = .ok ⟨[⟨n, fns⟩]⟩ ∧ ∃ f ∈ fns, f.span.start.line = k := by
  unfold fnLines at h
  split at h
  · rename_i n fns hh
    obtain ⟨f, hf, hk⟩ := List.mem_map.1 h
    exact ⟨n, fns, hh, f, hf, hk⟩
  · cases h

set_option maxRecDepth 8000 in
/-- One tree: lines 2 and 3. -/
example : fnLines c!"A\n├── it x\n└── when y\n    └── it z\n" = [2, 3] := by cbv

set_option maxRecDepth 8000 in
/-- Full C54 is false for the second tree: its only function is reported in line 2, which is a comment of the first tree. -/
theorem C54_tree_false : ∃ (U : Ucd) (_ : @LawfulUcd U), ¬ ∀ (order : HashOrder) (text n : Str) (fns : List HFn),
    @translate U order .default text = .ok ⟨[⟨n, fns⟩]⟩ → ∀ f ∈ fns, ∃ l, (lines text)[f.span.start.line - 1]? = some l ∧
      ('├' ∈ l ∨ '└' ∈ l) := by
  refine ⟨asciiUcd, lawful_ascii, ?_⟩
  intro h
  have h1 : fnLines c!"A::f\n// c\n└── it y\n\nA::g\n└── it z" = [3, 2] := by cbv
  obtain ⟨n, fns, ht, f, hf, hk⟩ := fnLines_of (k := 2) (text := c!"A::f\n// c\n└── it y\n\nA::g\n└── it z") (by rw [h1]; simp)
  obtain ⟨l, hl, hg⟩ := h _ _ _ _ ht f hf
  rw [hk] at hl
  have h2 : (lines c!"A::f\n// c\n└── it y\n\nA::g\n└── it z")[1]? = some c!"// c" := by cbv
  rw [show 2 - 1 = 1 from rfl, h2] at hl
  cases hl
  revert hg
  decide

/-- Non-ASCII characters in a comment before the contract `B`, for a tree with the contract `A`. -/
private def badCtx : Context :=
  ⟨c!"a.tree", ⟨[⟨c!"A", []⟩]⟩, c!"a.t.sol", c!"//éééééééééé\ncontract B{\n}", [.contract ⟨some c!"B", 23, 36, []⟩], false⟩

/-- Full C54 is false for non-ASCII Solidity files: the contract starts in line 2, line 3 is reported. -/
theorem C54_solidity_false : ∃ (U : Ucd) (_ : @LawfulUcd U), ¬ ∀ (ctx : Context) (n : Str) (fns : List HFn) (s : SolContract)
    (vs : List Violation) (x y a b : Str) (loc : Location), ctx.hir = ⟨[⟨n, fns⟩]⟩ → FirstContract ctx.pt s → @checkCtx U ctx = .ok vs →
    ctx.src = x ++ c!"contract" ++ y → s.start = byteLen x → ⟨.contractNameNotMatches a b, loc⟩ ∈ vs →
    loc = .code ctx.sol (1 + x.count '\n') := by
  refine ⟨asciiUcd, lawful_ascii, ?_⟩
  intro h
  have h1 : checkCtx badCtx = .ok [⟨.contractNameNotMatches c!"A" c!"B", .code c!"a.t.sol" 3⟩] := by cbv
  have := h badCtx c!"A" [] ⟨some c!"B", 23, 36, []⟩ _ c!"//éééééééééé\n" c!" B{\n}" c!"A" c!"B" (.code c!"a.t.sol" 3) rfl
    ⟨0, [], rfl⟩ h1 rfl (by decide +kernel) (by simp)
  revert this
  decide +kernel

/-- The same without non-ASCII characters: line 2. -/
example : checkCtx ⟨c!"a.tree", ⟨[⟨c!"A", []⟩]⟩, c!"a.t.sol", c!"//e\ncontract B{\n}", [.contract ⟨some c!"B", 4, 17, []⟩], false⟩ =
    .ok [⟨.contractNameNotMatches c!"A" c!"B", .code c!"a.t.sol" 2⟩] := by cbv

/-- The unexpected token and the line of a parse error. -/
private def errLine (text : Str) : Option (Str × Nat) :=
  match translate id .default text with
  | .err (.syntax (.parser _ ⟨.tokenUnexpected l, sp⟩)) => some (l, sp.start.line)
  | _ => none

private theorem errLine_of {text l : Str} {k : Nat} (h : errLine text = some (l, k)) :
    ∃ b sp, translate id .default text = .err (.syntax (.parser b ⟨.tokenUnexpected l, sp⟩)) ∧ sp.start.line = k := by
  unfold errLine at h
  split at h
  · rename_i b l' sp hh
    cases h
    exact ⟨b, sp, hh, rfl⟩
  · cases h

set_option maxRecDepth 8000 in
/-- Full C64 is false: the error in line 5 (in the second tree) is reported in line 2. -/
theorem C64_lines_false : ∃ (U : Ucd) (_ : @LawfulUcd U), ¬ ∀ (order : HashOrder) (text b l : Str) (sp : Span),
    @translate U order .default text = .err (.syntax (.parser b ⟨.tokenUnexpected l, sp⟩)) →
    ∃ line, (lines text)[sp.start.line - 1]? = some line ∧ l <:+: line := by
  refine ⟨asciiUcd, lawful_ascii, ?_⟩
  intro h
  have h1 : errLine c!"A::f\n└── it y\n\nA::g\n└── oops" = some (c!"oops", 2) := by cbv
  obtain ⟨b, sp, ht, hk⟩ := errLine_of h1
  obtain ⟨line, hl, hi⟩ := h _ _ _ _ _ ht
  rw [hk] at hl
  have h2 : (lines c!"A::f\n└── it y\n\nA::g\n└── oops")[1]? = some c!"└── it y" := by cbv
  rw [show 2 - 1 = 1 from rfl, h2] at hl
  cases hl
  have := hi.subset (show 'p' ∈ c!"oops" by decide)
  revert this
  decide

set_option maxRecDepth 8000 in
example : errLine c!"A\n└── oops\n" = some (c!"oops", 2) := by cbv

end

end Bulloak
