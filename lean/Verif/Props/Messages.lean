import Verif.Spec.Messages
import Verif.Props.Lines
import Verif.Props.Combine
import Verif.Props.Error
import Verif.Props.FixCases
/-!
# C28, C53, C71: wording of messages; C65, C66: which contract `check` looks at, and when it crashes
-/

namespace Bulloak
open Spec
set_option linter.unusedSectionVars false

section
variable [U : Ucd]

/-- **C28**, message: it names the number of the root that lacks the separator or the contract name, or the name found at the
offending root and the name expected because of the trees before. -/
theorem C28_message [LawfulUcd] {order : HashOrder} {text : Str} {asts : List Ast} (h : parse order text = .ok asts)
    {cfg : Config} {e : TranslateError} (he : translate order cfg text = .err e) :
    ∃ n A a B, asts = A ++ a :: B ∧ (∀ x ∈ A, ¬ Blank n ∧ ∃ f, Splits (titleOf x) n f) ∧
      ((¬ c!"::" <:+: titleOf a ∧ e.show = heading (c!"separator missing at tree root #" ++ natToStr (A.length + 1) ++
          c!". Expected to find `::` between the contract name and the function name when multiple roots exist")) ∨
      (∃ m f, Splits (titleOf a) m f ∧ Blank m ∧ e.show = heading (c!"contract name missing at tree root #" ++ natToStr (A.length + 1))) ∨
      ∃ m f, A ≠ [] ∧ Splits (titleOf a) m f ∧ ¬ Blank m ∧ m ≠ n ∧
        e.show = heading (c!"contract name mismatch: expected '" ++ n ++ c!"', found '" ++ m ++ c!"'")) := by
  obtain ⟨_, e', rfl, n, A, a, B, h1, h2, h3⟩ := (C28_error_iff h cfg e).1 he
  have hd : ∀ s, formatError text s Span.default = heading s := by
    intro s; simp [formatError, heading, Span.default, Position.start]
  refine ⟨n, A, a, B, h1, h2, ?_⟩
  cases h3 with
  | noSeparator h3 => exact .inl ⟨h3, hd _⟩
  | noName h3 h4 => exact .inr (.inl ⟨_, _, h3, h4, hd _⟩)
  | otherName h3 h4 h5 h6 =>
    refine .inr (.inr ⟨_, _, ?_, h4, h5, h6, hd _⟩)
    rintro rfl
    simp at h3

theorem listing_join : ∀ (n : Nat) (ns : List Nat), Listing (n :: ns) (joinSep c!", " ((n :: ns).map natToStr)) := by
  intro n ns
  induction ns generalizing n with
  | nil => exact .one
  | cons m ns ih => exact .cons (ih m)

/-- **C53**, wording of the semantic errors of a rejected tree: it has no children; a condition has no children; the lines of
all the places where an identifier is used, if there are several. -/
theorem C53_semantics_wording [LawfulUcd] {order : HashOrder} (ho : ∀ l, (order l).Perm l) {text : Str} {toks : List Token} {s : Span}
    {n : Str} {cs : List Ast} {es : List SemError} (ht : tokenize text = .ok toks) (hp : parseTokens toks = .ok (.root s n cs))
    (he : parseOne order text = .err (.semantics text es)) : ∀ e ∈ es,
    (cs = [] ∧ e.kind.text = c!"no rules where defined") ∨
    (∃ c ∈ conditionsOf cs, kids c = [] ∧ e.span = c.span ∧ e.kind.text = c!"found a condition with no children") ∨
    ∃ i list, 2 ≤ (placesOf cs i).length ∧ Listing ((placesOf cs i).map (fun p => p.start.line)) list ∧
      e.kind.text = c!"found an identifier more than once in lines: " ++ list := by
  intro e hm
  have hperm : es.Perm (complaints s cs) := by
    rcases C15_all_errors ho ht hp with ⟨_, h⟩ | ⟨_, es', h, h'⟩
    · rw [he] at h; cases h
    · rw [he] at h; cases h; exact h'
  have hm := hperm.mem_iff.1 hm
  simp only [complaints, List.mem_append] at hm
  rcases hm with (hm | hm) | hm
  · split at hm
    · rename_i hnil
      rw [List.mem_singleton] at hm
      subst hm
      exact .inl ⟨hnil, rfl⟩
    · cases hm
  · obtain ⟨c, hc, rfl⟩ := List.mem_map.1 hm
    obtain ⟨hc1, hc2⟩ := List.mem_filter.1 hc
    exact .inr (.inl ⟨c, hc1, by simpa using hc2, rfl, rfl⟩)
  · obtain ⟨i, hi, hm⟩ := List.mem_flatMap.1 hm
    unfold dupComplaint at hm
    split at hm
    · rename_i p q r hpl
      rw [List.mem_singleton] at hm
      subst hm
      refine .inr (.inr ⟨i, _, by rw [hpl]; simp, ?_, rfl⟩)
      rw [hpl]
      have := listing_join p.start.line ((q :: r).map (fun p => p.start.line))
      simp only [List.map_map, List.map_cons, formatSpans] at this ⊢
      exact this
    · cases hm

/-! ## Violations -/

theorem warns_of (v : Violation) : Warns v.show v.kind.text (match v.kind.help with | some h => helpLine h | none => []) v.location.show := by
  refine ⟨if v.kind.isFixable then c!"     + fix: run `bulloak check --fix " ++ replaceAll c!".t.sol" c!".tree" v.location.filename ++ c!"`\n" else [], rfl, ?_⟩
  split
  · exact .inr ⟨_, rfl⟩
  · exact .inl rfl

/-- **C71.** What `check` prints about a Solidity file that was read: each message is about the name of the contract, giving the expected
and the found one; or a missing function, giving its name and its line in the tree; or a misplaced function, giving its name and
the line computed for it. -/
theorem C71_violations {ctx : Context} {n : Str} {fns : List HFn} (hh : ctx.hir = ⟨[⟨n, fns⟩]⟩) {s : SolContract}
    (hs : FirstContract ctx.pt s) {vs : List Violation} (hv : checkCtx ctx = .ok vs) : ∀ v ∈ vs,
    (∃ m line, s.name = some m ∧ m ≠ sanitize n ∧ offsetToLine ctx.src s.start = .ok line ∧
      Warns v.show (c!"contract \"" ++ sanitize n ++ c!"\" is missing in .sol -- found \"" ++ m ++ c!"\" instead")
        (helpLine (c!"consider renaming the contract to \"" ++ sanitize n ++ c!"\"")) (atLine ctx.sol line)) ∨
    (∃ f ∈ fns, ¬ Present s.parts f ∧ ¬ (ctx.skipModifiers = true ∧ f.ty = .modifier) ∧
      Warns v.show (c!"function \"" ++ f.identifier ++ c!"\" is missing in .sol") [] (atLine ctx.tree f.span.start.line)) ∨
    ∃ i f g line, fns[i]? = some f ∧ Misplaced fns s.parts i ∧ .fn g ∈ s.parts ∧ Matches f (.fn g) ∧ offsetToLine ctx.src g.start = .ok line ∧
      Warns v.show (c!"incorrect position for function `" ++ f.identifier ++ c!"`")
        (helpLine c!"consider reordering the function in the file") (atLine ctx.sol line) := by
  intro v hm
  have h39 := C39_order hh hs hv
  obtain ⟨v1, v3, h1, rfl, h3⟩ := check_report hh hs hv
  rcases List.mem_append.1 hm with hm1 | hm1
  · rcases names_report h1 with ⟨rfl, _⟩ | ⟨m, line, h4, h5, h6, rfl⟩
    · cases hm1
    · left
      rw [List.mem_singleton.1 hm1]
      refine ⟨m, line, h4, h5, h6, warns_of _⟩
  · rcases List.mem_append.1 hm1 with hm2 | hm2
    · right; left
      obtain ⟨f, i, _, hf, rfl, hp, hsk⟩ := (presentAndMissing_missing ctx s fns 0).1 v hm2
      refine ⟨f, List.mem_of_getElem? hf, hp, hsk, warns_of _⟩
    · right; right
      obtain ⟨⟨i, a⟩, hp, g, line, hg, hl, rfl⟩ := each_mem_right h3 hm2
      obtain ⟨f, hf, hat, hrest⟩ := (mem_inversions ctx s fns i a).1 hp
      obtain ⟨j, g', b, hj, hg', hb, hlt⟩ := hrest
      have hmt : Matches f (.fn g) := by
        obtain ⟨⟨q, hq, hq2⟩, _⟩ := hat
        rw [hg] at hq; cases hq; exact hq2
      refine ⟨i, f, g, line, hf, ⟨f, a, j, g', b, hf, hat, hj, hg', hb, hlt⟩, List.mem_of_getElem? hg, hmt, hl, ?_⟩
      have := warns_of ⟨.functionOrderMismatch g a i, .code ctx.sol line⟩
      simp only [ViolationKind.text, hmt.1, Option.getD_some] at this
      exact this

/-- **C71**, no contract. -/
theorem C71_no_contract {ctx : Context} {n : Str} {fns : List HFn} (hh : ctx.hir = ⟨[⟨n, fns⟩]⟩) (hs : ∀ s, ¬ FirstContract ctx.pt s) :
    ∃ v, checkCtx ctx = .ok [v] ∧ Warns v.show (c!"contract \"" ++ n ++ c!"\" is missing in .sol")
      (helpLine (c!"consider adding a contract with name \"" ++ n ++ c!"\"")) ctx.tree := by
  exact ⟨_, C37_no_contract hh hs, warns_of _⟩

/-- **C71**, trees that cannot be checked: the message says why and names the file at fault; for a rejected tree it repeats the first line
of the error (see C55 for semantic errors). -/
theorem C71_refused {env : Env} {fs : Fs} {t : FPath} {v : Violation} (h : Refused env fs t v) :
    ((∀ text, fs.state t ≠ .text text) ∧ Warns v.show c!"bulloak couldn't read the file" [] t.str) ∨
    (∃ text e what, fs.state t = .text text ∧ translate env.order .default text = .err e ∧ Warns v.show what [] t.str ∧
      ((∀ b es, e ≠ .syntax (.semantics b es)) → ∃ first rest, what = c!"an error occurred while parsing the tree: " ++ first ∧
        e.show = heading first ++ rest)) ∨
    (∃ p, SolOf t p ∧ fs.state p = .absent ∧ ∃ f, Warns v.show (c!"the tree is missing its matching Solidity file: " ++ t.str)
      (helpLine (c!"consider running `bulloak scaffold " ++ f ++ c!"`")) t.str) ∨
    (∃ p, SolOf t p ∧ fs.state p = .unreadable ∧ Warns v.show c!"bulloak couldn't read the file" [] p.str) ∨
    ∃ p src, SolOf t p ∧ fs.state p = .text src ∧ env.solParse src = none ∧
      Warns v.show c!"an error occurred while parsing the solidity file" [] p.str := by
  have fe : ∀ (text kind : Str) (sp : Span), ∃ rest, formatError text kind sp = heading kind ++ rest := by
    intro text kind sp
    unfold formatError
    split
    · exact ⟨[], by simp [heading]⟩
    · refine ⟨c!"\n\n" ++ notate text sp ++ c!"\n" ++ c!"--- (line " ++ natToStr sp.start.line ++ c!", column " ++ natToStr sp.start.column ++ c!") ---\n", ?_⟩
      simp only [heading, List.append_assoc]
  cases h with
  | unreadable h =>
    exact .inl ⟨h, warns_of _⟩
  | @rejected text e h1 h2 =>
    refine .inr (.inl ⟨text, e, formatFrontendError (.tree e), h1, h2, warns_of _, ?_⟩)
    · intro hne
      cases e with
      | combiner b e =>
        obtain ⟨r, hr⟩ := fe b e.text Span.default
        exact ⟨_, r, rfl, hr⟩
      | «syntax» e =>
        cases e with
        | tokenizer b e =>
          obtain ⟨r, hr⟩ := fe b e.kindText e.span
          exact ⟨_, r, rfl, hr⟩
        | parser b e =>
          obtain ⟨r, hr⟩ := fe b e.kind.text e.span
          exact ⟨_, r, rfl, hr⟩
        | semantics b es => exact absurd rfl (hne b es)
  | missing h1 h2 h3 h4 =>
    exact .inr (.inr (.inl ⟨_, h3, h4, _, warns_of _⟩))
  | unreadableSol h1 h2 h3 h4 =>
    exact .inr (.inr (.inr (.inl ⟨_, h3, h4, warns_of _⟩)))
  | brokenSol h1 h2 h3 h4 h5 =>
    exact .inr (.inr (.inr (.inr ⟨_, _, h3, h4, h5, warns_of _⟩)))

/-! ## The contract that is looked at -/

theorem first_mem {u : SolUnit} {s : SolContract} (h : FirstContract u s) : .contract s ∈ u := by
  obtain ⟨k, r, rfl⟩ := h; simp

theorem first_exists {u : SolUnit} {s : SolContract} (h : .contract s ∈ u) : ∃ c, FirstContract u c := by
  cases hc : findContract u with
  | some c => exact ⟨c, (findContract_iff _ _).1 hc⟩
  | none =>
    unfold findContract at hc
    have := List.findSome?_eq_none_iff.1 hc _ h
    cases this

/-- **C65** (partial: no other contract in front of it).  `check` is silent exactly if the file has a contract that is what the tree asks
for.  Missing: other contracts, interfaces or libraries in front of it; the claim is false then (`C65_false`). -/
theorem C65_only_partial {ctx : Context} {n : Str} {fns : List HFn} (hh : ctx.hir = ⟨[⟨n, fns⟩]⟩)
    (h1 : ∀ s, .contract s ∈ ctx.pt → (∀ m, s.name = some m → m = sanitize n) → FirstContract ctx.pt s) :
    checkCtx ctx = .ok [] ↔ ∃ s, .contract s ∈ ctx.pt ∧ Conforms ctx.skipModifiers n fns s := by
  rw [C37_silent_iff hh]
  constructor
  · rintro ⟨s, hs, h⟩; exact ⟨s, first_mem hs, h⟩
  · rintro ⟨s, hs, h⟩; exact ⟨s, h1 s hs h.1, h⟩

/-- **C65**, exactly: whatever else the file contains, if its first contract, interface or library has another name than the tree, then
`check` asks to rename it, and reports all functions it does not have. -/
theorem C65_helper {ctx : Context} {n : Str} {fns : List HFn} (hh : ctx.hir = ⟨[⟨n, fns⟩]⟩) {c : SolContract}
    (hc : FirstContract ctx.pt c) {m : Str} (hm : c.name = some m) (hne : m ≠ sanitize n) {vs : List Violation} (hv : checkCtx ctx = .ok vs) :
    (∃ v line, v ∈ vs ∧ Warns v.show (c!"contract \"" ++ sanitize n ++ c!"\" is missing in .sol -- found \"" ++ m ++ c!"\" instead")
        (helpLine (c!"consider renaming the contract to \"" ++ sanitize n ++ c!"\"")) (atLine ctx.sol line)) ∧
    ∀ f ∈ fns, ¬ Present c.parts f → ¬ (ctx.skipModifiers = true ∧ f.ty = .modifier) →
      ∃ v ∈ vs, Warns v.show (c!"function \"" ++ f.identifier ++ c!"\" is missing in .sol") [] (atLine ctx.tree f.span.start.line) := by
  constructor
  · obtain ⟨v1, v3, h1, rfl, _⟩ := check_report hh hc hv
    rcases names_report h1 with ⟨rfl, h⟩ | ⟨m', line, h4, _, _, rfl⟩
    · exact absurd (h m hm) hne
    · rw [hm] at h4; cases h4
      exact ⟨_, line, List.mem_append_left _ (List.mem_singleton.2 rfl), warns_of _⟩
  · intro f hf hp hsk
    obtain ⟨i, hi⟩ := List.mem_iff_getElem?.1 hf
    exact ⟨_, ((C38_missing hh hc hv).1 f i _).2 ⟨hi, hp, hsk, rfl⟩, warns_of _⟩

/-! ## Crashes -/

theorem offset_panic {s : Str} {i : Nat} : offsetToLine s i = .panic ↔ s.length ≤ i + 1 := by
  rw [offsetToLine_eq]
  by_cases h : i + 1 < s.length
  · rw [if_pos h]; simp; omega
  · rw [if_neg h]; simp; omega

theorem offset_cases (s : Str) (i : Nat) : offsetToLine s i = .panic ∨ ∃ l, offsetToLine s i = .ok l := by
  rw [offsetToLine_eq]
  split
  · exact .inr ⟨_, rfl⟩
  · exact .inl rfl

theorem orderViolations_panic {ctx : Context} {h : HContract} {s : SolContract} {l : List (Nat × Nat)}
    (hl : ∀ p ∈ l, p.1 < h.children.length ∧ ∃ g, s.parts[p.2]? = some (.fn g)) :
    (orderViolations ctx h s l = .panic ∧ ∃ p ∈ l, ∃ g, s.parts[p.2]? = some (.fn g) ∧ ctx.src.length ≤ g.start + 1) ∨
    ((∃ vs, orderViolations ctx h s l = .ok vs) ∧ ∀ p ∈ l, ∀ g, s.parts[p.2]? = some (.fn g) → ¬ ctx.src.length ≤ g.start + 1) := by
  induction l with
  | nil => exact .inr ⟨⟨[], rfl⟩, by simp⟩
  | cons p l ih =>
    obtain ⟨i, a⟩ := p
    obtain ⟨h1, g, hg⟩ := hl (i, a) (by simp)
    simp only at h1 hg
    have ih := ih (fun p hp => hl p (by simp [hp]))
    rw [orderViolations, List.getElem?_eq_getElem h1, hg]
    simp only
    rcases offset_cases ctx.src g.start with h2 | ⟨l0, h2⟩
    · left
      refine ⟨by rw [h2]; rfl, (i, a), by simp, g, hg, offset_panic.1 h2⟩
    · rw [h2, Res.bind_ok]
      rcases ih with ⟨h3, p, hp, h4⟩ | ⟨⟨vs, h3⟩, h4⟩
      · left
        exact ⟨by rw [h3]; rfl, p, by simp [hp], h4⟩
      · right
        refine ⟨⟨_, by rw [h3, Res.bind_ok]⟩, ?_⟩
        intro p hp g' hg'
        rcases List.mem_cons.1 hp with rfl | hp
        · simp only at hg'
          rw [hg] at hg'; cases hg'
          intro hc
          rw [offset_panic.2 hc] at h2; cases h2
        · exact h4 p hp g' hg'

/-- **C66**, exactly: checking crashes exactly if something to be reported in the Solidity file (a wrong contract name, or a misplaced
function) starts at a byte offset that is not less than the number of characters of the file minus one. -/
theorem C66_crash_iff {ctx : Context} {n : Str} {fns : List HFn} (hh : ctx.hir = ⟨[⟨n, fns⟩]⟩) {s : SolContract}
    (hs : FirstContract ctx.pt s) : checkCtx ctx = .panic ↔
      (∃ m, s.name = some m ∧ m ≠ sanitize n ∧ ctx.src.length ≤ s.start + 1) ∨
      ∃ i f g, fns[i]? = some f ∧ Misplaced fns s.parts i ∧ (∃ a, At s.parts f a ∧ s.parts[a]? = some (.fn g)) ∧
        ctx.src.length ≤ g.start + 1 := by
  have hl : ∀ p ∈ unsortedPairs (presentAndMissing ctx s 0 fns).1, p.1 < (⟨n, fns⟩ : HContract).children.length ∧
      ∃ g, s.parts[p.2]? = some (.fn g) := by
    rintro ⟨i, a⟩ hp
    obtain ⟨f, hf, hat, _⟩ := (mem_inversions ctx s fns i a).1 hp
    refine ⟨(List.getElem?_eq_some_iff.1 hf).1, ?_⟩
    rcases findMatchingFn_cases s f with ⟨_, hn⟩ | ⟨j, g, _, hg, hj⟩
    · exact absurd (at_present hat) hn
    · rw [at_unique hat hj]; exact ⟨g, hg⟩
  have hinv : (∃ p ∈ unsortedPairs (presentAndMissing ctx s 0 fns).1, ∃ g, s.parts[p.2]? = some (.fn g) ∧ ctx.src.length ≤ g.start + 1) ↔
      ∃ i f g, fns[i]? = some f ∧ Misplaced fns s.parts i ∧ (∃ a, At s.parts f a ∧ s.parts[a]? = some (.fn g)) ∧
        ctx.src.length ≤ g.start + 1 := by
    constructor
    · rintro ⟨⟨i, a⟩, hp, g, hg, hlen⟩
      obtain ⟨f, hf, hat, j, g', b, h1, h2, h3, h4⟩ := (mem_inversions ctx s fns i a).1 hp
      exact ⟨i, f, g, hf, ⟨f, a, j, g', b, hf, hat, h1, h2, h3, h4⟩, ⟨a, hat, hg⟩, hlen⟩
    · rintro ⟨i, f, g, hf, ⟨f', a', j, g', b, hf', hat', h1, h2, h3, h4⟩, ⟨a, hat, hg⟩, hlen⟩
      rw [hf] at hf'; cases hf'
      rw [← at_unique hat hat'] at h4
      exact ⟨(i, a), (mem_inversions ctx s fns i a).2 ⟨f, hf, hat, j, g', b, h1, h2, h3, h4⟩, g, hg, hlen⟩
  have hck : checkCtx ctx = (checkContractNames ctx ⟨n, fns⟩ s >>= fun v1 => checkFnsStructure ctx ⟨n, fns⟩ s >>= fun v2 => .ok (v1 ++ v2)) := by
    unfold checkCtx
    rw [(findContract_iff _ _).2 hs, hh]
    rfl
  have hst : (checkFnsStructure ctx ⟨n, fns⟩ s = .panic ↔
      ∃ p ∈ unsortedPairs (presentAndMissing ctx s 0 fns).1, ∃ g, s.parts[p.2]? = some (.fn g) ∧ ctx.src.length ≤ g.start + 1) ∧
      (checkFnsStructure ctx ⟨n, fns⟩ s = .panic ∨ ∃ v, checkFnsStructure ctx ⟨n, fns⟩ s = .ok v) := by
    unfold checkFnsStructure
    by_cases he : (presentAndMissing ctx s 0 fns).1.isEmpty = true
    · have he' : (presentAndMissing ctx s 0 fns).1 = [] := List.isEmpty_iff.1 he
      simp only [he, if_true]
      refine ⟨⟨fun h => (by cases h), ?_⟩, .inr ⟨_, rfl⟩⟩
      rintro ⟨p, hp, _⟩
      rw [he'] at hp
      cases hp
    · simp only [he]
      rcases orderViolations_panic (ctx := ctx) hl with ⟨h1, h2⟩ | ⟨⟨vs, h1⟩, h2⟩
      · simp only [h1]
        exact ⟨⟨fun _ => h2, fun _ => rfl⟩, .inl rfl⟩
      · simp only [h1]
        refine ⟨⟨fun h => (by cases h), ?_⟩, .inr ⟨_, rfl⟩⟩
        rintro ⟨p, hp, g, hg, hlen⟩
        exact absurd hlen (h2 p hp g hg)
  rw [hck]
  rw [← hinv, ← hst.1]
  unfold checkContractNames
  cases hn : s.name with
  | none =>
    simp only [Res.bind_ok]
    rcases hst.2 with h | ⟨v, h⟩
    · rw [h]; exact ⟨fun _ => .inr rfl, fun _ => rfl⟩
    · rw [h, Res.bind_ok]; constructor
      · intro h; cases h
      · rintro (⟨m, hm, _⟩ | h)
        · cases hm
        · cases h
  | some m =>
    simp only
    by_cases hm : m = sanitize n
    · rw [if_neg (by simp [hm]), Res.bind_ok]
      rcases hst.2 with h | ⟨v, h⟩
      · rw [h]; exact ⟨fun _ => .inr rfl, fun _ => rfl⟩
      · rw [h, Res.bind_ok]; constructor
        · intro h; cases h
        · rintro (⟨m', hm', h1, _⟩ | h)
          · cases hm'; exact absurd hm h1
          · cases h
    · rw [if_pos hm]
      rcases offset_cases ctx.src s.start with h2 | ⟨l0, h2⟩
      · rw [h2]
        exact ⟨fun _ => .inl ⟨m, rfl, hm, offset_panic.1 h2⟩, fun _ => rfl⟩
      · rw [h2]
        have hno : ¬ ctx.src.length ≤ s.start + 1 := by
          intro hc; rw [offset_panic.2 hc] at h2; cases h2
        simp only [Res.bind_ok]
        rcases hst.2 with h | ⟨v, h⟩
        · rw [h]; exact ⟨fun _ => .inr rfl, fun _ => rfl⟩
        · rw [h, Res.bind_ok]; constructor
          · intro h; cases h
          · rintro (⟨m', _, _, h1⟩ | h)
            · exact absurd h1 hno
            · cases h

/-- **C66** (partial: files of ASCII characters).  Checking never crashes.  Missing: other characters; the claim is false then
(`C66_false`). -/
theorem C66_ascii_partial {ctx : Context} {n : Str} {fns : List HFn} (hh : ctx.hir = ⟨[⟨n, fns⟩]⟩) {L : Layout} (hsrc : ctx.src = L.text)
    (hs : FirstContract ctx.pt L.contract) (hA : Ascii L.text) (ht : ∀ s ∈ L.segs.map Prod.fst, s.text ≠ []) :
    ∃ vs, checkCtx ctx = .ok vs := by
  have := ascii_lines hA ht
  rw [← hsrc] at this
  exact check_total hh hs this.1 this.2

end

/-! ## Examples and witnesses -/

section
attribute [local instance] asciiUcd

/-- A tree with one test, and a file with an interface in front of the contract. -/
def helperFirst : Context := ⟨c!"a.tree", ⟨[⟨c!"A", [⟨c!"test_B", .function, Span.default, none, some []⟩]⟩]⟩, c!"a.t.sol",
  c!"interface I {}\ncontract A {\nfunction test_B() external {}\n}\n",
  [.contract ⟨some c!"I", 0, 14, []⟩, .contract ⟨some c!"A", 15, 59, [.fn ⟨.function, some c!"test_B", 28, 57⟩]⟩], false⟩

theorem helper_conforms : Conforms false c!"A" [⟨c!"test_B", .function, Span.default, none, some []⟩]
    ⟨some c!"A", 15, 59, [.fn ⟨.function, some c!"test_B", 28, 57⟩]⟩ := by
  refine ⟨?_, ?_, ?_⟩
  · intro m hm; cases hm; decide +kernel
  · intro f hf
    rw [List.mem_singleton] at hf
    subst hf
    exact .inl ⟨_, List.mem_singleton.2 rfl, by decide +kernel⟩
  · exact List.pairwise_singleton _ _

/-- **C65** is false in general: a file with an interface in front of a contract that is exactly what the tree asks for is not accepted. -/
theorem C65_false : ∃ (U : Ucd) (_ : @LawfulUcd U), ¬ ∀ (ctx : Context) (n : Str) (fns : List HFn) (s : SolContract),
    ctx.hir = ⟨[⟨n, fns⟩]⟩ → .contract s ∈ ctx.pt → @Conforms U ctx.skipModifiers n fns s → @checkCtx U ctx = .ok [] := by
  refine ⟨asciiUcd, lawful_ascii, fun h => ?_⟩
  have h1 := h helperFirst c!"A" _ _ rfl (by simp [helperFirst]) helper_conforms
  have h2 : (match checkCtx helperFirst with | .ok [] => true | _ => false) = false := by cbv
  rw [h1] at h2
  cases h2

/-- A file with a contract of another name behind a comment that is not ASCII. -/
def accented : Context := ⟨c!"a.tree", ⟨[⟨c!"A", []⟩]⟩, c!"a.t.sol", c!"/*éééééééééééé*/\ncontract B {}",
  [.contract ⟨some c!"B", 29, 42, []⟩], false⟩

/-- **C66** is false in general: the offset of a name is counted in bytes and looked up in characters. -/
theorem C66_false : ∃ (U : Ucd) (_ : @LawfulUcd U), ¬ ∀ (ctx : Context) (n : Str) (fns : List HFn) (L : Layout),
    ctx.hir = ⟨[⟨n, fns⟩]⟩ → ctx.src = L.text → FirstContract ctx.pt L.contract → (∀ s ∈ L.segs.map Prod.fst, s.text ≠ []) →
    @checkCtx U ctx ≠ .panic := by
  refine ⟨asciiUcd, lawful_ascii, fun h => ?_⟩
  refine h accented c!"A" [] ⟨c!"/*éééééééééééé*/\n", some c!"B", c!"contract B ", [], [], []⟩ rfl (by decide +kernel) ?_ (by simp) (by cbv)
  refine ⟨0, [], ?_⟩
  decide +kernel

/-- The message for a rejected file, without the dotted line. -/
private def fileMessage (text : Str) : Option Str :=
  match translate id .default text with
  | .err e => some (e.show.filter (· ≠ '•'))
  | _ => none

set_option maxRecDepth 16000 in
/-- C28: the second tree names another contract. -/
example : fileMessage c!"A::b\n└── It works\n\nB::c\n└── It works\n" =
    some c!"\nbulloak error: contract name mismatch: expected 'A', found 'B'" := by cbv

set_option maxRecDepth 16000 in
/-- C28: the second tree has no separator. -/
example : fileMessage c!"A::b\n└── It works\n\nB\n└── It works\n" =
    some c!"\nbulloak error: separator missing at tree root #2. Expected to find `::` between the contract name and the function name when multiple roots exist" := by
  cbv

set_option maxRecDepth 16000 in
/-- C65, C71: what is printed for the file with the interface in front. -/
example : (match checkCtx helperFirst with | .ok vs => vs.map Violation.show | _ => []) =
    [c!"warn: contract \"A\" is missing in .sol -- found \"I\" instead\n     = help: consider renaming the contract to \"A\"\n     + fix: run `bulloak check --fix a.tree`\n   --> a.t.sol:1\n",
     c!"warn: function \"test_B\" is missing in .sol\n     + fix: run `bulloak check --fix a.tree`\n   --> a.tree:1\n"] := by cbv

/-- C66: the crash. -/
example : checkCtx accented = .panic := (C66_crash_iff rfl ⟨0, [], rfl⟩).2 (.inl ⟨c!"B", rfl, by decide +kernel, by decide +kernel⟩)

end
end Bulloak
