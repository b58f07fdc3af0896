import Verif.Lemmas.Combine2
import Verif.Props.Hir
/-!
# Files with several trees (C28 to C32, C57, C58)
-/

set_option linter.unusedSectionVars false

namespace Bulloak
open Spec

section
variable [U : Ucd]

/-- **C57.** Translating a text never panics. -/
theorem C57_translate_never_panics [LawfulUcd] (order : HashOrder) (cfg : Config) (text : Str) :
    translate order cfg text ≠ .panic := by
  cases h : parse order text with
  | panic => exact absurd h (C05_parse_never_panics order text)
  | err e => simp [translate, h, Res.mapErr]
  | ok asts =>
    rcases translate_cases h cfg with ⟨_, _, h⟩ | ⟨_, h⟩ | ⟨_, _, _, _, _, h⟩ | ⟨_, _, _, _, _, _, _, _, _, h⟩ <;> rw [h] <;> simp

/-- **C28.** A file whose trees are all accepted is translated exactly if it has one tree, or the roots of all
its trees read `<contract>::<function>` with the same non-blank contract name. -/
theorem C28_accepted_iff [LawfulUcd] {order : HashOrder} {text : Str} {asts : List Ast} (h : parse order text = .ok asts)
    (cfg : Config) : (∃ r, translate order cfg text = .ok r) ↔
      (asts.length = 1 ∨ ∃ n, ∀ a ∈ asts, ¬ Blank n ∧ ∃ f, Splits (titleOf a) n f) := by
  rcases translate_cases h cfg with ⟨ast, rfl, ht⟩ | ⟨rfl, ht⟩ | ⟨_, n, fs, hn, hs, ht⟩ | ⟨hl, n, A, a, B, e, rfl, hA, hb, ht⟩
  · simp [ht]
  · simp [ht]
  · rw [ht]
    refine ⟨fun _ => Or.inr ⟨n, fun a ha => ⟨hn, ?_⟩⟩, fun _ => ⟨_, rfl⟩⟩
    obtain ⟨f, _, hf⟩ := each_mem hs ha
    exact ⟨f, hf⟩
  · rw [ht]
    constructor
    · rintro ⟨r, hr⟩; cases hr
    · rintro (h1 | ⟨n', hn'⟩)
      · omega
      · exfalso
        refine names_bad_absurd (hn' a (by simp)) hb ?_
        intro hk
        cases A with
        | nil => simp at hk
        | cons x A =>
          obtain ⟨_, f, hf⟩ := hA x (by simp)
          obtain ⟨_, f', hf'⟩ := hn' x (by simp)
          exact (splits_unique hf hf').1

/-- **C28**, errors: the error is the complaint about the first offending root: its number (counted from 1)
if the separator or the contract name is missing; both names if the contract name differs from the one
of the trees before. -/
theorem C28_error_iff [LawfulUcd] {order : HashOrder} {text : Str} {asts : List Ast} (h : parse order text = .ok asts)
    (cfg : Config) (e : TranslateError) : translate order cfg text = .err e ↔
      2 ≤ asts.length ∧ ∃ e', e = .combiner text e' ∧ ∃ n A a B, asts = A ++ a :: B ∧
        (∀ x ∈ A, ¬ Blank n ∧ ∃ f, Splits (titleOf x) n f) ∧ BadTitle n A.length (titleOf a) e' := by
  constructor
  · intro he
    rcases translate_cases h cfg with ⟨ast, _, ht⟩ | ⟨_, ht⟩ | ⟨_, n, fs, hn, hs, ht⟩ | ⟨hl, n, A, a, B, e', ha, hA, hb, ht⟩
    · rw [ht] at he; cases he
    · rw [ht] at he; cases he
    · rw [ht] at he; cases he
    · rw [ht] at he
      cases he
      exact ⟨hl, e', rfl, n, A, a, B, ha, hA, hb⟩
  · rintro ⟨hl, e', rfl, n, A, a, B, rfl, hA, hb⟩
    exact translate_bad h (by omega) hA hb

/-- **C29.** The contract of a file with several trees is named by the contract part of the roots.  Its
functions are those of the trees, in file order, with the tests prefixed by the capitalised function part of
the root, where of functions with the same name only the first is kept. -/
theorem C29_combined [LawfulUcd] {order : HashOrder} {text : Str} {asts : List Ast} (h : parse order text = .ok asts)
    (hl : 2 ≤ asts.length) (cfg : Config) {r : HRoot} (hr : translate order cfg text = .ok r) :
    ∃ n fs, Each (fun a f => Splits (titleOf a) n f) asts fs ∧
      r = ⟨[⟨n, firstOnly (prefixedFns cfg.emitVmSkip (asts.zip fs))⟩]⟩ := by
  rcases translate_cases h cfg with ⟨ast, rfl, h⟩ | ⟨rfl, h⟩ | ⟨_, n, fs, hn, hs, h⟩ | ⟨hl, n, A, a, B, e', ha, hA, hb, h⟩
  · simp at hl
  · simp at hl
  · rw [h] at hr; cases hr; exact ⟨n, fs, hs, rfl⟩
  · rw [h] at hr; cases hr

/-- **C29** (partial).  If the prefixed test names are distinct, the tests of the contract are all the tests of
the trees, in order; the modifiers are always those of the trees, one for each name.
Missing: trees with equal prefixed test names, where tests are lost (`C29_tests_false`). -/
theorem C29_tests_partial [LawfulUcd] {order : HashOrder} {text : Str} {asts : List Ast} (h : parse order text = .ok asts)
    (hl : 2 ≤ asts.length) (cfg : Config) {r : HRoot} (hr : translate order cfg text = .ok r) :
    ∃ n fs fns, Each (fun a f => Splits (titleOf a) n f) asts fs ∧ r = ⟨[⟨n, fns⟩]⟩ ∧
      ((((prefixedFns cfg.emitVmSkip (asts.zip fs)).filter HFn.isFunction).map HFn.identifier).Nodup →
        fns.filter HFn.isFunction = (prefixedFns cfg.emitVmSkip (asts.zip fs)).filter HFn.isFunction) ∧
      fns.filter HFn.isModifier = firstOnly ((asts.flatMap (fun a => expected cfg.emitVmSkip (kids a))).filter HFn.isModifier) := by
  obtain ⟨n, fs, hs, rfl⟩ := C29_combined h hl cfg hr
  have hacc : ∀ p ∈ asts.zip fs, Accepted order p.1 := fun p hp => parse_accepted h _ (zip_mem hs hp).1
  have hk : ∀ f ∈ prefixedFns cfg.emitVmSkip (asts.zip fs), ∀ g ∈ prefixedFns cfg.emitVmSkip (asts.zip fs),
      f.identifier = g.identifier → f.ty = g.ty := fun f hf g hg => kindByName_ty (prefixed_kind hacc hf) (prefixed_kind hacc hg)
  refine ⟨n, fs, _, hs, rfl, ?_, ?_⟩
  · intro hd
    rw [firstOnly_filter _ (fun f hf g hg he => by simp [HFn.isFunction, hk f hf g hg he]), firstOnly_of_nodup hd]
  · rw [firstOnly_filter _ (fun f hf g hg he => by simp [HFn.isModifier, hk f hf g hg he])]
    congr 1
    clear hk hacc hr h hl
    induction hs with
    | nil => rfl
    | @cons a f as fs _ _ ih =>
      rw [List.zip_cons_cons, prefixedFns, List.flatMap_cons, List.filter_append, List.flatMap_cons, List.filter_append]
      congr 1
      generalize expected cfg.emitVmSkip (kids a) = l
      induction l with
      | nil => rfl
      | cons g gs ih =>
        rw [List.map_cons]
        by_cases hg : g.isModifier = true
        · rw [(prefixFn_ty f g).2.2.2.2 hg, List.filter_cons_of_pos hg, List.filter_cons_of_pos hg, ih]
        · have : ¬ (prefixFn f g).isModifier = true := by simpa [HFn.isModifier, (prefixFn_ty f g).1] using hg
          rw [List.filter_cons_of_neg hg, List.filter_cons_of_neg this, ih]

/-- **C30.** A file with one tree gives the contract named by the root as it stands, with the functions of the
tree. -/
theorem C30_single [LawfulUcd] {order : HashOrder} {text : Str} {ast : Ast} (h : parse order text = .ok [ast]) (cfg : Config) :
    translate order cfg text = .ok ⟨[⟨titleOf ast, expected cfg.emitVmSkip (kids ast)⟩]⟩ := translate_one h

theorem prefixed_chars {P : Char → Prop} (hup : ∀ c, P c → ∀ d ∈ U.toUpper c, P d) (ht : ∀ x ∈ c!"test_", P x)
    {skip : Bool} {trees : List (Ast × Str)} (hp : ∀ p ∈ trees, ∀ c ∈ p.2, P c) (hP : ∀ p ∈ trees, ∀ g ∈ expected skip (kids p.1), ∀ c ∈ g.identifier, P c)
    {f : HFn} (hf : f ∈ prefixedFns skip trees) : ∀ c ∈ f.identifier, P c := by
  obtain ⟨p, hpm, g, hg, rfl⟩ := prefixed_mem.1 hf
  have := hP p hpm g hg
  obtain ⟨i, ty, sp, m, c⟩ := g
  cases ty with
  | modifier => exact this
  | function =>
    intro x hx
    simp only [prefixFn, List.mem_append] at hx
    rcases hx with (hx | hx) | hx
    · exact ht x hx
    · exact capital_closed hup (hp p hpm) x hx
    · obtain ⟨a, ha⟩ := dropTests_suffix i
      exact this x (by simp only; rw [ha]; simp [hx])

/-- **C31** (partial).  In a file with several trees all names are identifiers if the function parts of the
roots consist of identifier characters; they are Solidity identifiers if moreover the text has no
non-ASCII characters besides the box-drawing ones.
Missing: function parts with other characters, where it is false (`C31_names_false`). -/
theorem C31_names_partial [LawfulUcd] {order : HashOrder} {text : Str} {asts : List Ast} (h : parse order text = .ok asts)
    (hl : 2 ≤ asts.length) (cfg : Config) {r : HRoot} (hr : translate order cfg text = .ok r)
    (hp : ∀ a ∈ asts, ∀ n f, Splits (titleOf a) n f → ∀ c ∈ f, U.isXid c = true) :
    ∃ n fns, r = ⟨[⟨n, fns⟩]⟩ ∧ ∀ f ∈ fns, XidIdent f.identifier ∧
      ((∀ c ∈ text, isPlain c = true) → SolIdent f.identifier) := by
  obtain ⟨n, fs, hs, rfl⟩ := C29_combined h hl cfg hr
  refine ⟨n, _, rfl, ?_⟩
  intro f hf
  have hf := (firstOnly_sublist _).subset hf
  have hacc : ∀ p ∈ asts.zip fs, Accepted order p.1 := fun p hp => parse_accepted h _ (zip_mem hs hp).1
  have hx : ∀ c ∈ f.identifier, U.isXid c = true := by
    refine prefixed_chars (P := fun c => U.isXid c = true) LawfulUcd.upper_xid (fun x hx => xid_test x ?_) ?_ ?_ hf
    · have : c!"test_Revert" = c!"test_" ++ c!"Revert" := rfl
      rw [this]; exact List.mem_append_left _ hx
    · intro p hpm
      exact hp p.1 (zip_mem hs hpm).1 n p.2 (zip_mem hs hpm).2.2
    · intro p hpm g hg c hc
      obtain ⟨x, r, he, hlx, hr⟩ := (expected_names (accepted_good (hacc p hpm)) hg).1
      rw [he] at hc
      rcases List.mem_cons.1 hc with rfl | hc
      · rw [LawfulUcd.plain_xid _ (letter_plain hlx)]
        unfold IsLetter at hlx
        simp only [isAsciiAlnum, Bool.or_eq_true, Bool.and_eq_true, decide_eq_true_eq, beq_iff_eq]
        omega
      · exact hr c hc
  have hstart : ∃ c r, f.identifier = c :: r ∧ IsLetter c := by
    rcases prefixed_kind hacc hf with ⟨_, r, hr⟩ | ⟨_, x, r, hr, hx⟩
    · exact ⟨'t', r, hr, by unfold IsLetter; decide⟩
    · refine ⟨x, r, hr, ?_⟩
      rcases hx with rfl | rfl <;> (unfold IsLetter; decide)
  refine ⟨xidIdent_of hx hstart, fun hpl => solIdent_of (xidIdent_of hx hstart) ?_⟩
  have hch : ∀ a ∈ asts, (∀ c ∈ titleOf a, isPlain c = true) ∧ ∀ b ∈ preAll (kids a), ∀ c ∈ titleOf b, isPlain c = true := by
    intro a ha
    obtain ⟨b, hbm, hb⟩ := each_right ((C13_parse_ok order text asts).1 h) a ha
    refine titles_chars hb (P := fun c => isPlain c = true) (by decide) (by decide) ?_
    intro toks ht t htm c hc
    obtain ⟨pre, post, rfl, _⟩ := C01_token_slice ht t htm
    exact hpl c ((splitTrees_mem hbm).subset (by simp [hc]))
  refine prefixed_chars (P := fun c => isPlain c = true) plain_upper_closed (by decide) ?_ ?_ hf
  · intro p hpm c hc
    apply (hch p.1 (zip_mem hs hpm).1).1
    rw [(zip_mem hs hpm).2.2.1]
    simp [hc]
  · intro p hpm g hg c hc
    obtain ⟨x, r, he, hx, hr⟩ := (expected_names (accepted_good (hacc p hpm)) hg).2 (hch p.1 (zip_mem hs hpm).1).2
    rw [he] at hc
    have : x = '_' ∨ x = '$' ∨ IsLetter x := by rcases hx with h | h | h <;> simp [h]
    rcases List.mem_cons.1 hc with rfl | hc
    · rcases hx with hx | rfl | rfl
      · exact letter_plain hx
      · decide
      · decide
    · rcases hr c hc with h | rfl | rfl
      · simp only [isAsciiAlnum, Bool.or_eq_true, Bool.and_eq_true, decide_eq_true_eq] at h
        simp only [isPlain, Bool.or_eq_true, decide_eq_true_eq]
        omega
      · decide
      · decide

/-- **C32** (partial).  An accepted file yields exactly one contract; its name is empty only if the file has no
tree at all, i.e. every block of it consists of comments.
Missing: files without a tree are not rejected (`C32_named_false`). -/
theorem C32_one_contract_partial [LawfulUcd] {order : HashOrder} {cfg : Config} {text : Str} {r : HRoot}
    (hr : translate order cfg text = .ok r) : ∃ c, r = ⟨[c]⟩ ∧
      (c.identifier = [] ↔ ∃ bs, Blocks text bs ∧ ∀ b ∈ bs, OnlyComments b) := by
  have hblocks : splitTrees text = [] ↔ ∃ bs, Blocks text bs ∧ ∀ b ∈ bs, OnlyComments b := by
    constructor
    · intro h
      by_cases hb : Blank text
      · rw [(C12_split text).1 hb] at h; cases h
      · obtain ⟨bs, hbs⟩ := blocks_exist text hb
        refine ⟨bs, hbs, fun b hbm => Classical.byContradiction fun hn => ?_⟩
        rw [splitTrees_blocks hbs] at h
        have := List.filter_eq_nil_iff.1 h b hbm
        exact this ((notOnlyComments_iff (blocks_mem hbs b hbm)).2 hn)
    · rintro ⟨bs, hbs, ho⟩
      rw [splitTrees_blocks hbs, List.filter_eq_nil_iff]
      intro b hb hn
      exact (notOnlyComments_iff (blocks_mem hbs b hb)).1 hn (ho b hb)
  rw [← hblocks]
  cases h : parse order text with
  | panic => simp [translate, h, Res.mapErr] at hr
  | err e => simp [translate, h, Res.mapErr] at hr
  | ok asts =>
    have hlen := (C13_parse_ok order text asts).1 h
    have hiff : splitTrees text = [] ↔ asts = [] := by
      revert hlen
      generalize splitTrees text = bs
      intro hlen
      cases hlen <;> simp
    rw [hiff]
    rcases translate_cases h cfg with ⟨ast, rfl, h'⟩ | ⟨rfl, h'⟩ | ⟨hl, n, fs, hn, hs, h'⟩ | ⟨hl, n, A, a, B, e', ha, hA, hb, h'⟩
    · rw [h'] at hr; cases hr
      exact ⟨_, rfl, by simp [accepted_title (parse_accepted h ast (by simp))]⟩
    · rw [h'] at hr; cases hr
      exact ⟨_, rfl, by simp⟩
    · rw [h'] at hr; cases hr
      refine ⟨_, rfl, ?_⟩
      constructor
      · rintro he
        simp only at he
        subst he
        exact absurd (by intro c hc; simp at hc) hn
      · rintro rfl; simp at hl
    · rw [h'] at hr; cases hr

/-- **C58.** In the contract of a file with several trees all function and modifier names are distinct, and
every modifier a function uses is declared earlier. -/
theorem C58_combined_consistent [LawfulUcd] {order : HashOrder} {text : Str} {asts : List Ast} (h : parse order text = .ok asts)
    (hl : 2 ≤ asts.length) (cfg : Config) {r : HRoot} (hr : translate order cfg text = .ok r) :
    ∃ n fns, r = ⟨[⟨n, fns⟩]⟩ ∧ (fns.map HFn.identifier).Nodup ∧
      ∀ A f B, fns = A ++ f :: B → ∀ m ∈ f.modifiers.getD [], ∃ g ∈ A, g.isModifier = true ∧ g.identifier = m := by
  obtain ⟨n, fs, hs, rfl⟩ := C29_combined h hl cfg hr
  have hacc : ∀ p ∈ asts.zip fs, Accepted order p.1 := fun p hp => parse_accepted h _ (zip_mem hs hp).1
  refine ⟨n, _, rfl, firstOnly_nodup _, ?_⟩
  intro A f B he m hm
  have hd := firstOnly_declared (prefixed_declared (skip := cfg.emitVmSkip) hacc)
    (fun f hf g hg => kindByName_ty (prefixed_kind hacc hf) (prefixed_kind hacc hg))
  rcases hd A f B he m hm with h | h
  · simp at h
  · exact h

end

/-! ## Witnesses -/

/-- The parse trees of a text. -/
def astsOf [Ucd] (text : Str) : List Ast := match parse id text with
  | .ok asts => asts
  | _ => []

/-- The contract of a text. -/
def contractOf [Ucd] (text : Str) : Option HContract := match translate id .default text with
  | .ok ⟨[c]⟩ => some c
  | _ => none

theorem astsOf_eq {U : Ucd} {text : Str} (h : astsOf text ≠ []) : parse id text = .ok (astsOf text) := by
  revert h
  unfold astsOf
  cases parse id text <;> simp

theorem contractOf_eq {U : Ucd} {text : Str} {c : HContract} (h : contractOf text = some c) : translate id .default text = .ok ⟨[c]⟩ := by
  revert h
  unfold contractOf
  split <;> simp_all

set_option maxRecDepth 8000 in
/-- Full C29 is false: two trees with the same root and the same condition; the second test is lost. -/
theorem C29_tests_false : ∃ (U : Ucd) (_ : @LawfulUcd U), ¬ ∀ (order : HashOrder) (text : Str) (asts : List Ast) (n : Str)
    (fns : List HFn), @parse U order text = .ok asts → @translate U order .default text = .ok ⟨[⟨n, fns⟩]⟩ → 2 ≤ asts.length →
    (fns.filter HFn.isFunction).length = ((asts.flatMap (fun a => @expected U false (kids a))).filter HFn.isFunction).length := by
  refine ⟨asciiUcd, lawful_ascii, ?_⟩
  intro h
  have h1 : @parse asciiUcd id c!"A::f\n└── when x\n    └── it y\n\nA::f\n└── when x\n    └── it z" =
    .ok (@astsOf asciiUcd c!"A::f\n└── when x\n    └── it y\n\nA::f\n└── when x\n    └── it z") := astsOf_eq (by
      intro he
      have : (@astsOf asciiUcd c!"A::f\n└── when x\n    └── it y\n\nA::f\n└── when x\n    └── it z").length = 2 := by cbv
      rw [he] at this; cases this)
  cases hc : @contractOf asciiUcd c!"A::f\n└── when x\n    └── it y\n\nA::f\n└── when x\n    └── it z" with
  | none =>
    have : (@contractOf asciiUcd c!"A::f\n└── when x\n    └── it y\n\nA::f\n└── when x\n    └── it z").isSome = true := by cbv
    rw [hc] at this; cases this
  | some c =>
    have h2 := contractOf_eq hc
    have := h id _ _ c.identifier c.children h1 h2 (by cbv)
    have e1 : (@contractOf asciiUcd c!"A::f\n└── when x\n    └── it y\n\nA::f\n└── when x\n    └── it z").map
      (fun c => (c.children.filter HFn.isFunction).length) = some 1 := by cbv
    rw [hc] at e1
    simp only [Option.map_some, Option.some.injEq] at e1
    have e2 : (((@astsOf asciiUcd c!"A::f\n└── when x\n    └── it y\n\nA::f\n└── when x\n    └── it z").flatMap
      (fun a => @expected asciiUcd false (kids a))).filter HFn.isFunction).length = 2 := by cbv
    rw [e1, e2] at this
    cases this

set_option maxRecDepth 8000 in
/-- Full C31 is false: the root `A::b-c` gives the name `test_B-cWhenX`. -/
theorem C31_names_false : ∃ (U : Ucd) (_ : @LawfulUcd U), ¬ ∀ (order : HashOrder) (text : Str) (n : Str) (fns : List HFn),
    @translate U order .default text = .ok ⟨[⟨n, fns⟩]⟩ → ∀ f ∈ fns, @XidIdent U f.identifier := by
  refine ⟨asciiUcd, lawful_ascii, ?_⟩
  intro h
  cases hc : @contractOf asciiUcd c!"A::b-c\n└── when x\n    └── it y\n\nA::f\n└── when x\n    └── it z" with
  | none =>
    have : (@contractOf asciiUcd c!"A::b-c\n└── when x\n    └── it y\n\nA::f\n└── when x\n    └── it z").isSome = true := by cbv
    rw [hc] at this; cases this
  | some c =>
    have h2 := contractOf_eq hc
    have e1 : (@contractOf asciiUcd c!"A::b-c\n└── when x\n    └── it y\n\nA::f\n└── when x\n    └── it z").map
      (fun c => c.children.map HFn.identifier) = some [c!"test_B-cWhenX", c!"test_FWhenX"] := by cbv
    rw [hc] at e1
    simp only [Option.map_some, Option.some.injEq] at e1
    have hm : c!"test_B-cWhenX" ∈ c.children.map HFn.identifier := by rw [e1]; simp
    obtain ⟨f, hf, he⟩ := List.mem_map.1 hm
    obtain ⟨x, r, hx, _, hr⟩ := h id _ c.identifier c.children h2 f hf
    rw [he] at hx
    simp only [List.cons.injEq] at hx
    rw [← hx.2] at hr
    have : @Ucd.isXid asciiUcd '-' = true := hr '-' (by simp)
    have h' : @Ucd.isXid asciiUcd '-' = false := by rfl
    rw [h'] at this
    cases this

/-- Full C32 is false: a file with only a comment yields a contract without a name. -/
theorem C32_named_false : ∃ (U : Ucd) (_ : @LawfulUcd U), ¬ ∀ (order : HashOrder) (text : Str) (c : HContract),
    @translate U order .default text = .ok ⟨[c]⟩ → c.identifier ≠ [] := by
  refine ⟨asciiUcd, lawful_ascii, ?_⟩
  intro h
  have : @translate asciiUcd id .default c!"// nothing here" = .ok ⟨[⟨[], []⟩]⟩ := by cbv
  exact h id _ _ this rfl

/-! ## Non-vacuity -/
section
attribute [local instance] asciiUcd

set_option maxRecDepth 8000 in
/-- Two trees sharing a modifier. -/
example : (contractOf c!"Foo::bar\n└── when a\n    ├── it x\n    └── when b\n        └── it y\n\n// note\n\nFoo::qux\n├── it works\n└── when a\n    └── given c\n        └── it should revert").map
    (fun c => (c.identifier, c.children.map (fun f => (f.identifier, f.modifiers, comments f)))) =
    some (c!"Foo",
      [(c!"whenA", none, []),
       (c!"test_BarWhenA", some [c!"whenA"], [c!"it x"]),
       (c!"test_BarWhenB", some [c!"whenA"], [c!"it y"]),
       (c!"test_QuxWorks", none, [c!"it works"]),
       (c!"test_QuxRevertGiven_C", some [c!"whenA"], [c!"it should revert"])]) := by
  cbv

/-- The error of a translation. -/
def combineErrorOf (text : Str) : Option CombineError := match translate id .default text with
  | .err (.combiner _ e) => some e
  | _ => none

set_option maxRecDepth 8000 in
example : combineErrorOf c!"Foo::bar\n└── it x\n\nBar::baz\n└── it x\n\nFoo\n└── it x" = some (.contractNameMismatch c!"Bar" c!"Foo") := by cbv
set_option maxRecDepth 8000 in
example : combineErrorOf c!"Foo::bar\n└── it x\n\nFoo:bar\n└── it x" = some (.separatorMissing 2) := by cbv
set_option maxRecDepth 8000 in
example : combineErrorOf c!"::bar\n└── it x\n\nFoo:bar\n└── it x" = some (.contractNameMissing 1) := by cbv

end
end Bulloak
