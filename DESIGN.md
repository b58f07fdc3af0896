# Formal model of bulloak in Lean 4

Source: `/repo` (alexfertel/bulloak). Everything below `lean/Verif` is a model of that source; nothing is compiled from it.

## Approach

* Text is `List Char`; byte offsets are sums of `Char.utf8Size`.
* Every Rust function becomes a total Lean function. `Result` stays data. A panic (`unwrap`, `expect`, `assert!`,
  `unreachable!`, slice out of range) is an explicit `panic` result, so "no panic" is a theorem and not an assumption.
* Loops become structural recursion, or recursion on fuel with an explicit `panic` when fuel runs out; theorems show it never does.
* Unicode tables (`is_alphanumeric`, XID_Continue, upper/lower case) are a parameter `Ucd`; theorems that need facts about
  them assume `LawfulUcd` (see *Assumptions*). An ASCII instance and one with an accented letter are provided for concrete cases.
* Hash-map iteration order is an arbitrary permutation.
* The solang parser and forge formatter are external: they appear as parameters with stated hypotheses, or the model starts at their output.

## Plan per property

| id | property | plan |
|---|---|---|
| C01 | Tokens are exact slices of the source | Model tokenizer as a char/position machine; spec = inductive lexical decomposition `Lexes text pieces`; refinement by induction on the text. |
| C02 | Comments are invisible to the tree | From the refinement of C01: deleting a comment piece from the decomposition. |
| C03 | Keywords are case-insensitive and only whole words count | Characterise the kind function on words; word pieces of the decomposition are whole words. |
| C04 | The tokenizer rejects exactly the invalid condition titles, at the right place | Refinement: tokenizer fails iff the decomposition has an invalid char in a condition region; position = length of the prefix. |
| C05 | Parsing any text terminates without panicking | Every panic site is an explicit `panic` result; prove unreachable by induction on the token list (with fuel = token count). |
| C06 | ├ and └ placement | Induction over the root loop; negation witness for nested branches. |
| C07 | Shape of an accepted AST | Induction on parser fuel. |
| C08 | No words are lost, duplicated or reordered by parsing | Flatten AST to words and compare with token list, induction on fuel. |
| C09 | Nesting follows indentation | Token-level spec: list of branches with columns; parent function defined by nearest smaller column; induction. |
| C10 | AST spans are faithful | Invariant on positions of tokens, induction on parser. |
| C11 | Drawing a tree and parsing it gives the tree back | Define drawing of a tree; prove tokenization of the drawing and parse by structural induction. |
| C12 | Splitting a file into trees | Induction on text for the splitter; spec is join with separators. |
| C13 | Trees of a file are parsed independently | Direct induction over blocks. |
| C14 | Semantic acceptance is exactly the documented rules | Induction on AST. |
| C15 | All semantic errors are reported at once, independently of hash order | Hash map = association list with an arbitrary permutation of values. |
| C16 | Sanitised names contain only identifier characters | Induction on strings, Unicode tables as parameters with stated laws. |
| C17 | Generated function names are valid Solidity identifiers | From C16 and the parser's keyword facts. |
| C18 | One modifier per condition that has nested conditions | Spec on AST list of conditions in pre-order; induction on AST. |
| C19 | One test per condition with actions and per top-level action, in pre-order | Same. |
| C20 | A test runs under exactly its enclosing conditions | Same, with path of ancestors in the spec. |
| C21 | Modifiers are declared once and before use | From C18–C20 and semantic uniqueness. |
| C22 | Every action and description becomes a comment | Induction on AST. |
| C23 | Revert naming | Decision logic outright. |
| C24 | vm.skip, import and inheritance appear exactly when requested | Induction on HIR/PT. |
| C25 | -m drops the modifier definitions and nothing else | Filter lemma on contract parts. |
| C26 | Test names are unique in a generated contract | Negation witness + injectivity for condition tests. |
| C27 | Documented test order | Negation witness + partial. |
| C28 | Multi-root files are accepted exactly when the contract names agree | Fold invariant. |
| C29 | Combining keeps every tree's tests and shares modifiers | Fold invariant, exact result; negation witness. |
| C30 | Single-root files are not prefixed | Direct from translate. |
| C31 | Multi-root function names are valid identifiers | Negation + partial. |
| C32 | A file always yields a named contract | Negation + partial. |
| C33 | Solidity output mirrors the specification | PT translator and printer modelled; structural induction. |
| C34 | Comments come out verbatim | Regex replacement modelled on lines; exactness. |
| C35 | Tree text cannot escape its comment | Negation + partial, from C01 spec. |
| C36 | Both emitters agree | Both printers modelled; equality after whitespace removal. |
| C37 | check is silent exactly when the contract conforms | Model of rule on list of parts; spec with sublists / index order. |
| C38 | Missing functions are reported exactly | Same. |
| C39 | Order violations are exactly the inversions | Same. |
| C40 | Extra code is allowed | Insertion invariance. |
| C41 | Freshly scaffolded code passes check | Composition. |
| C42 | -m makes check ignore missing modifiers only | Filter lemma; for scaffolds, C41_exact and that leaving out functions keeps equal names adjacent. |
| C43 | Fixing adds every missing function and keeps the rest | Segmented file model; induction over violations. |
| C44 | Reordering fixes the order | List remove/insert model; works exactly for 321-avoiding permutations (both directions); negation witnesses. |
| C45 | Fixing never crashes | Negation + partial. |
| C46 | Fixing a missing contract regenerates the file | Direct. |
| C47 | Renaming touches only the contract name | Text replace model; negation + partial. |
| C48 | scaffold never overwrites without -f and never writes without -w | File-system model; induction over file list. |
| C49 | One bad tree does not stop scaffold | Same. |
| C50 | check only writes with --fix | Same. |
| C51 | check's exit code | Same. |
| C52 | scaffold -w is idempotent | Same. |
| C53 | Error excerpts point at the error | String computation model; `Message`/`Renders` in Spec/Error.lean. |
| C54 | Violation line numbers are right | Negations + partial; exact offset for later trees. |
| C55 | Invalid trees are reported as tree errors | Case analysis of the error kinds over the command model; negation. |
| C56 | The accepted language is given by a grammar | Inductive grammar over tokens (Spec/Grammar.lean); parser = grammar. |
| C57 | Translating a file never panics | Panic results unreachable. |
| C58 | A combined contract is consistent | Fold invariant. |
| C59 | scaffold, then check | Composition of the two command models. |
| C60 | check --fix, then check | Composition. |
| C61 | What scaffold reports | Induction over the list of files. |
| C62 | What check reports | Same, with sorting by path. |
| C63 | Hints name the right command and file | Path model; negation + partial. |
| C64 | Line numbers of errors in later trees | Exact relation; negation + partial. |
| C65 | check accepts a conforming contract wherever it is | From C37; negation + partial. |
| C66 | check never crashes | Exact condition; negation + partial. |
| C67 | Results are reproducible | Relation between runs with two hash orders; induction over the files. |
| C68 | Comments and blanks do not change the output | `Reads`: relation between tree texts (Spec/Layout.lean); simulation of tokenizer and parser. |
| C69 | The amount of indentation does not change the output | Same with column orders. |
| C70 | Windows line endings do not change the output | Same; negation for several trees. |
| C71 | What check prints about a file | Case analysis of violations; `Warns` in Spec/Messages.lean. |
| C72 | The layout of a tree does not change the verdict of check | `translate` of both gives functions with equal names and kinds (C69); simulation of `check`. |
| C73 | When generated names are Solidity identifiers | Equivalence, exact form of the refuted C17. |
| C74 | When test names are unique | Exact form of the refuted C26. |
| C75 | When tests follow the order of the file | Exact form of the refuted C27; `Before`, `emitted` in Props/Exact2.lean. |
| C76 | When combining loses a test | Exact form for C29. |
| C77 | When combined names are identifiers | Exact form of the refuted C31. |
| C78 | When tree text stays inside its comments | Exact form of the refuted C35. |
| C79 | When check accepts what scaffold wrote | Exact form of the refuted C41. |
| C80 | When check crashes | Exact form of the refuted C66. |
| C81 | What renaming a contract rewrites | `Pieces` in Props/Exact3.lean; behaviour behind the refuted C47. |
| C82 | The whole text of the emitter | Text given line by line (`fnText`, `unlines`). |
| C83 | Which Solidity line is reported | Formula; behaviour behind C54. |
| C84 | When the suggested command names the tree file | Equivalence; exact form of the refuted C63. |
| C85 | Glyphs of nested branches do not matter | Equality of results, and equivalence for acceptance; exact form of the refuted part of C06. |
| C86 | What a command line means | Equivalence with a grammar of spellings (`Spelled`), independent of how arguments are scanned. |
| C87 | What a command line can change | Any change implies the flag in the arguments and a named file; exit code 2 iff refused. |
| C88 | Tree text never becomes code | A lexer of Solidity in Spec/SolLex.lean, independent of the printer; the tokens of the generated text are those of the expected file. |
| C89 | Generated names are never reserved words | The start of every name; no reserved word starts so. |
| C90 | Generated files are read back | Tokens of a file determine its layout; a parser is assumed to read valid layouts; the tokens of C88 are those of a valid layout. Replaces the per-file assumption of C59. |
| C91 | Fixing goes from valid files to valid files | Insertion, renaming and sorting keep layouts valid; replaces the per-file assumptions of C43 and C44. |
| C92 | Fix, then check, for all valid files | Both exit codes are 0; discharges the per-file assumption `FixesWell` of C60. |
| C93 | When fixing crashes | Equivalence on valid files in order; the crash is a panic outcome of the model. |
| C94 | What Windows line endings do | Equivalence with the text without empty lines; exact form of the refuted part of C70. |
| C95 | Adding branches to a tree only adds their functions | `Extended` relates the trees before and after; induction over it. Exit codes through C51. |
| C96 | Removing branches never makes check complain | Same relation, read backwards, with C37. |
| C97 | Adding branches to one of several trees only adds their functions | Partial: false if an added condition repeats one of another tree (`C97_false`). |
| C98 | Appending a tree to several trees only appends functions | Through C29 and the laws of keeping the first function of each name. |
| C99 | Sorting works if every function is declared once | Counting occurrences of a declaration through every insertion; replaces the `Separate` assumption by one about the file as given. |
| C100 | Fixing keeps all code, also what is not in the tree | The written file as an explicit layout (`sortedLayout`); holds even if functions are reversed or blocked and sorting fails. |
| C101 | Exactly when sorting among other code works | Moves keep moved functions in front; a function that stays behind another part is the only obstacle; filling in functions does not change this. |
| C102 | Tree and Solidity file stay in step over a whole session | Invariant `Tended` (the file's parts named in the tree are in tree order and of the right kind) kept by each step, by induction over the session; uses C92, C95 and C96. |
| C103 | Fixing twice is the same as fixing once | Induction over the files: no violations and unchanged formatted text make every write an identity on the file system. |
| C104 | One fix repairs different kinds of files | Each kind ends in conforming code that survives formatting (C46 with C90, C92, C101); then C60 and C103. |
| C105 | One run over many files is many runs over few files | Both loops as state transformers that either crash or continue; contexts of later files are unchanged by fixes of earlier ones. |
| C106 | Exactly when fixing crashes, for files in any order | Which functions are out of order once the missing ones are filled in; moving fails exactly behind the end of the list of parts; otherwise sorting goes through as in C100. |
| C107 | Rearranging a tree only rearranges its functions | Induction over `Rearranged` (congruence, swap, transitivity) for the expected functions; check and fix from C37, C38, C101. |
| C108 | Retitling a condition renames its modifier and its test only | Induction over `Retitled`, enclosing modifiers related name by name; check and fix via the functions both trees have (C95, C96). |
| C109 | What a second tree does to the first | C29 for the list that starts with the tree; modifiers survive `firstOnly`; check from C37 to C39, fix from C91. |
| C110 | Switching -m on and off | C37 and C38 for both values of the flag; fix from C91; the completed file is a permutation of the tree's functions sorted by position, hence equal to them. |
| C111 | The generated code determines the tree | The code is read back: nested conditions start with their modifier, the modifiers of the first test behind tell where a condition ends (names are distinct, C14); text by splitting at brackets, braces and line ends. For tests alone, modifiers are declared again in front of their first use. |
| C112 | Which command lines print help and which are refused | The argument loop is split at the argument that asks for help: what is in front is read completely (C86), what is behind is not looked at. |
| C113 | Rewording actions goes unnoticed by check | Names and modifiers of functions do not depend on the wording of actions (induction over the trees, then through prefixing and combining); the check compares only names and kinds; two lists of distinct names each of which is found in order in the other are equal. |
| C114 | Renaming the root renames the contract and nothing else | As C113 with other contract parts of the titles; the check of a conforming file then differs only in the name (C37), and nothing is inserted while filling (C43), so the fixed file is the renamed layout. |
| C115 | Fixing works on the contract with the name of the tree | Refuted: only the first contract of the file is looked at. Partial: the report depends only on the first contract; `C115_fix_first` says what happens to a helper contract. |
| C116 | Tree files stay, and have separate Solidity files | From C87 the names of changed files; the name before the last dot determines the Solidity file (C48). |
| C117 | A dry run shows what a real run writes | The two loops in lockstep; trees are not changed by the real one. For check the files are read before the first is written, so nothing is assumed. |
| C118 | check --fix reports as many fixes as check announces | Both count the fixable violations of the same contexts; trees that cannot be worked on have none. |
| C119 | Issues reported as fixed are fixed | Refuted: a failed write is counted. Partial: from C60 and C118. |
| C120 | Keywords are case-insensitive | Refuted for capital letters behind the first: `WHEN a` makes `wHENA` and `test_WHENA`, and `it works` / `IT works` are not recognised as duplicates. Proved for first letters (and for `it` in any case, if both files are accepted): tokens with the same kinds and places, trees by induction on the grammar, then as C113. |
| C121 | Characters, words and numbers mean what they seem | Explicit lists of code points; trimming and decimal digits by induction. These are the functions that specifications share with the model, so that a slip in one of them would otherwise go unseen. |
| C122 | A run depends only on the files it is given | Two runs side by side, by induction on the list of files: both file systems agree on the named files, and a path that differs is unchanged in both. |
| C123 | Giving a file twice is like giving it once | From the writes of a run (C48, C50): writes to one path all come from one tree, so they write the same. |
| C124 | What a passing check says | From C86 (the command line), C51 (the exit code) and C37 (one file). |
| C125 | What a successful scaffold says | From C86 (the command line), C49 (one run), C116 and C123 (which files belong together). |
| C126 | Both commands accept the same trees | From C24, C61, C62, C124. |
| C127 | when and given are interchangeable | Two token sequences side by side; headers, then the grammar's derivation by induction, then the functions of the tree. |
| C128 | The options of scaffold do not interfere | From C24, C25, C33 and C126; the pragma is split off before the comments are cleaned up. |
| C129 | The trees of a file may be put in any order | From C13, C28, C29 and C37; the names are compared as duplicate-free lists with the same members. |
| C130 | A tree that is there already adds nothing | All names the repeated tree asks for are taken; parsing and splitting titles are functions of the tree's text. |
| C131 | Any version string may be given | The clean-up of a line is characterised by a relation (first marker, last closing quote) that determines the result. |
| C132 | Two files may be joined | Acceptance and the functions of the joined file follow from those of the parts; `check` of the parts from `check` of the whole. |
| C133 | Conditions may be put below a new one | The functions of both trees; `check`, `--fix` and the exit code for the tree with the new condition; a file for it conforms to the tree without it. |
| C134 | Editing one of several trees leaves the functions of the others alone | The functions before and after have the same parts from the trees that stay; `check` reports no missing function of these. |
| C135 | Renaming the function of a tree renames its tests and nothing else | Functions pair by pair, since names coincide in the same places before and after; `check`, `--fix` and the exit code as in C108. |
| C136 | Deleting code from the Solidity file is noticed exactly | The parts left keep their order, by an increasing map of places; then C38, C91 and C51. |
| C137 | Only the functions of the tree matter to check | The functions of the tree in the file are filtered out; their order decides (as in C40), and it is kept as in C136. |
| C138 | Moving code is noticed exactly if the functions of the tree change their order | Two arrangements of the same functions, both sorted by place in the tree, are equal; then C37, C39, C51 and C137. |
| C139 | Debug and release builds check alike | The only `debug_assert!` compares with the number of bytes, which is at least that of characters; where it fails, the loop behind it runs out as well. |
| C140 | Every error about a tree can be displayed | All spans in errors start at a position of the text or at the default position, and both count from 1 (C04, C53). |
| C141 | `check --fix` undoes moves | C99 sorts the functions and keeps their text; a contract of functions of the tree, each once, has only one order that passes `check` (C37). |
| C142 | What contract `check --fix` ends with | From C91 and C99: nothing but the missing functions is added, and in order; a part that is a function of the tree is determined by its name and kind. |
| C143 | Filling an empty contract gives what `scaffold` writes | From C142, C36 and C33; inserting functions adds only white space around them. |
| C144 | After `check --fix` the files have exactly the functions of their trees | C142 for each file; each Solidity file is written once (C50) and formatted without changing its contract. |
| C145 | A contract conforms iff its functions of the tree, read from top to bottom, are those of the tree | From C37: in order and nothing twice means strictly increasing indices in the tree; two strictly increasing lists with the same members are equal. |
| C146 | `check --fix` brings in the tree and leaves all other code alone | C91 and C145; only missing functions are added, so no function occurs twice and the other parts are a sublist of the same length. |
| C147 | Two trees can share a contract iff they agree on the order of what they share | C37 one way: the shared functions are sorted by position in the contract. C145 the other way: two lists agreeing on what they share have a common extension, by induction. |
| C148 | `check --fix` for a later tree keeps the file conforming to the earlier one | C91, and C137 for the verdict: what is inserted was missing, so it is not in the earlier tree, the functions of which are read off as before. |
| C149 | Two trees that can share a contract are brought in by `check --fix` in turn, in either order | C91 for the first run, C148 for the second; what the first run leaves is old code or of the first tree, so the order the trees agree on carries over. |

C73 to C81, C83 to C85, C93 and C94 say exactly when a claim holds, or what happens, where a claim is false in general.  They are separate properties: the claims they
belong to keep their statements and stay `partial`, since a user who relies on the unrestricted claim is not served.

## Layout of the Lean project

* `Verif/Model/*`: the model, one file per source module; every definition cites file and lines.
* `Verif/Spec/*`: vocabulary used to state properties, independent of how the model computes.
* `Verif/Lemmas/*`: proofs of intermediate facts.
* `Verif/Props/*`: the theorems named in MANIFEST.json (`Cnn_...`) with concrete cases (`example`) beside them. Cases that take
  long to evaluate are in `FixCases`, `CliCases` and `ReportCases`. `Cases` applies one theorem after the other to a few sample trees,
  Solidity files and directories, so that every hypothesis is met by a concrete case.

Names: `_partial` proves the property under a stated restriction; `_false` proves that the unrestricted property does not hold, by
a witness.

## Trusted base

* Lean 4.33.0: kernel, elaborator and `lake`.
* Axioms. `#print axioms` on every theorem of MANIFEST.json gives subsets of `propext`, `Classical.choice`, `Quot.sound`. No axiom is
  added, and there is no `sorry`, `native_decide` or `bv_decide`. The theorems that do not need all three are:
  `C36_emitters_agree`, `C42_panic`, `C82_emitter` (only `propext`); `C02_comments_are_invisible`, `C13_parse_err`,
  `C13_parse_ok`, `C16_sanitize`, `C16_words`, `C36_lines`, `C37_no_contract`, `C40_extra_code`, `C42_skip_modifiers`,
  `C47_rename_false`, `C47_rename_partial`, `C61_wording`, `C62_wording`, `C63_scaffold_hint_partial`, `C67_check`,
  `C67_scaffold`, `C67_translate`, `C68_blank`, `C68_comment`, `C71_no_contract`, `C71_refused`, `C87_help`, `C90_one_layout`,
  `C91_rename`, `C91_stays_valid`, `C112_help`, `C113_names_only`, `C115_first_partial`, `C116_same_sol`, `C116_separate`
  (`propext` and `Quot.sound`).
* The model matches the source. This was done by reading; the definitions cite the lines they model. As a test, not a proof, the
  project's own unit and integration tests are run against the model: `conformance/gen.py` turns them into the `#guard` commands in
  `lean/Verif/Conformance`. The integration tests run the whole program on a directory, with a small reader for Solidity files. Left out
  is `with_vm_skip_top_level_statement`, whose input the program never builds. Two expected lines of
  `checks_invalid_structural_match` are not used: that test compares nothing (with colours no line starts with `warn:`), and the two lines
  contradict `fixes_invalid_structural_match`, which counts four fixes.
* The meaning of the specification files and theorem statements.

## What is modelled

| source | model | remarks |
|---|---|---|
| `syntax/src/span.rs` | Model/Span | all |
| `syntax/src/tokenizer.rs` | Model/Tokenizer | all; `usize` overflow is not modelled; the final-sigma rule of `str::to_lowercase` is not modelled because the result is only compared with ASCII keywords |
| `syntax/src/ast.rs` | Model/Ast | all |
| `syntax/src/parser.rs` | Model/Parser | all; recursion on fuel, shown sufficient (C05); stack overflow is not modelled |
| `syntax/src/semantics.rs` | Model/Semantics | all; hash map iteration order is a parameter |
| `syntax/src/splitter.rs`, `lib.rs` | Model/Syntax | all |
| `syntax/src/utils.rs` | Model/Utils | all that is used outside tests |
| `syntax/src/error.rs` | Model/Error, Model/Report, Model/Debug | all; text of messages without terminal colours |
| `syntax/src/visitor.rs`, `foundry/src/hir/visitor.rs`, `foundry/src/sol/visitor.rs` | — | traits only; the implementations are modelled as recursive functions |
| `foundry/src/hir/hir.rs`, `translator.rs`, `combiner.rs`, `mod.rs` | Model/Hir | all; the one recursive enum is split by level, arms for shapes the translator never builds are left out |
| `foundry/src/scaffold/modifiers.rs` | Model/Hir | all |
| `foundry/src/scaffold/emitter.rs` | Model/Sol | all; both emitters |
| `foundry/src/sol/translator.rs`, `fmt.rs` | Model/Sol | only the nodes the translator builds; source locations inside the generated tree are not modelled |
| `foundry/src/sol/mod.rs` | Model/Check | `find_contract`, `find_matching_fn` |
| `foundry/src/scaffold/mod.rs` | Model/Sol | `forge_fmt` is a parameter |
| `foundry/src/check/*` | Model/Check, Model/Report, Model/Debug | structural rule, violations, fixes, contexts; `forge_fmt::parse` is a parameter; release builds; Model/Debug has the checks with `debug_assert!`, and C139 shows that they agree; the comments list of a context is handed to the formatter only |
| `foundry/src/config.rs`, `constants.rs` | Model/Sol, Model/Hir | all |
| `bulloak/src/scaffold.rs`, `check.rs` | Model/Cli | both commands over a file system model, with standard output, reports, writes and exit code |
| `bulloak/src/cli.rs`, `main.rs`, `#[arg(..)]` attributes | Model/Main | options as tables, what clap 4.4.8 does with them modelled after its documentation (trusted); figment round trip taken as the identity; arguments are Unicode strings; the text clap prints is not modelled |

Not modelled: terminal colours; wording of operating-system, formatter and solang errors (parameters); path normalisation beyond
what `with_extension`-style replacement needs (two spellings of a path, such as `a.tree` and `./a.tree`, count as two files); concurrent changes of the file system; symbolic links; memory and stack limits.

## Assumptions that appear as hypotheses

* `LawfulUcd`: facts about the Unicode tables. ASCII and box-drawing characters behave as expected; white space is not
  XID_Continue; case mappings of XID_Continue characters stay in XID_Continue and are not empty; upper-casing does not produce new
  white space; the only non-ASCII characters whose lower case contains an ASCII letter are U+212A and U+0130. All laws were checked by
  a script against the complete Unicode 14.0.0 tables of Python without finding a violation.
* `order` is a permutation: the hash map yields each value once.
* Solidity version strings without `"` and line feed, where the theorem says so: a regular expression of the printer matches on lines.
* `ReadsAs P L`: the external Solidity parser reads a file with layout `L` correctly (contract name, byte ranges and kinds of parts).
  Needed for fixing (C43 to C46), because the code re-parses what it writes.
* `Separate L`: no part's text occurs elsewhere in the file. Needed for reordering, because the code moves text by string replacement. C99 derives it from `DeclaredOnce`, a condition on the original file: each function's `function name(` occurs once.
* `Reader P G`, `G.HasGenerated`, `KeepsFiles` (C90, C91): the same for all files at once. `G` says what is valid beyond the division of a
  contract into parts; the theorems hold for every `G`, and for every `G` there is a parser as assumed (`C90_parser_exists`). Files with
  line terminators other than the usual two, and contract parts with braces in front of their end (`using {f} for T;`) are not among
  the valid files there.
* `Faithful`, `SameContract`: formatting and re-parsing keep the name and the functions of the first contract (C59, C60).
* `FixesWell`: the conclusion of C43, C44 or C46 for the file at hand (C60); C92 does without it.
* `StableFmt` (C103, C104): formatting what the formatter has written gives the same text.
* `KeepsContract` (C92): the formatter accepts valid files and keeps the name and the functions of the contract.
* No given tree path ends in `.t.sol` (C48, C52, C61): otherwise one output may be another input.

## Findings

Places where the code does not do what a user would expect. Those with a theorem are proved about the model.

| what | theorem |
|---|---|
| `├` and `└` may be used freely below the first level | `C06_nested_false` |
| Names with non-ASCII letters are accepted but are not Solidity identifiers | `C17_solidity_false` |
| A top-level action and a condition may give the same test name; then `check` rejects the scaffold | `C26_unique_false`, `C41_collision_false` |
| Two top-level actions such as `it a .b` and `it ab` give the same test name, which Solidity rejects; `check` accepts such a file if the two stand next to each other | `C26_exact`, `names_collide`, `C41_exact` |
| Tests of a condition's actions written after nested conditions come in a different order than documented | `C27_order_false` |
| In files with several trees a test is dropped silently if its prefixed name is already taken | `C29_tests_false` |
| Function parts such as `a-b` in `Foo::a-b` give invalid identifiers | `C31_names_false` |
| A file with only comments gives a contract without a name | `C32_named_false` |
| Characters the Solidity compiler takes as line ends (vertical tab, form feed, U+2028, U+2029) stay in `//` comments | `C35_terminators_false`, cases of C88 |
| The root may be a reserved word of Solidity: `contract contract {` | case of C89 |
| `check --fix` does not sort three mutually reversed functions, repeated functions, or contracts with other parts in front | `C44_*_false` |
| `check --fix` crashes with `-m`, with constructors, with non-ASCII text, with repeated names | `C45_*_false` |
| Renaming also rewrites other occurrences of `contract Old` | `C47_rename_false` |
| Code rejected by the formatter panics, stops `scaffold` and loses the error reports collected so far | `C49_crash`, `C61_crash` |
| `check --fix` exits with 0 and changes nothing for trees that cannot be opened | `C51_fix_ignores` |
| A one-character error at offset 0 has no excerpt | `C53_message` (case) |
| Lines of violations and errors in later trees are relative to the tree and not the file | `C54_tree_false`, `C64_lines_false` |
| Lines of Solidity violations are wrong after non-ASCII text | `C54_solidity_false` |
| Semantic errors in a tree are reported as a Solidity parse failure | `C55_semantic`, `C55_false` |
| If several trees belong to one Solidity file, `check --fix` keeps the fix of the last one only | `C50_written` |
| Hints name the wrong file if the tree file is not called `*.tree` | `C63_false` |
| Failed writes do not affect the exit code | `C61_reports`, `C62_fix_reports` |
| `\r\n\r\n` does not separate trees: files with several trees and Windows line endings are not split | `C12_split`, `C70_never_split`, `C70_false` |
| With Windows line endings two trees may be merged silently into one contract with another name and other tests | `C94_windows`, `C94_merged` |
| Adding to one tree a nested condition that a later tree has moves the shared modifier: check reports functions nobody touched as misplaced | `C97_false` |
| Adding a second tree to a file renames the contract and all tests of the first tree; `check --fix` then adds the tests again under the new names and keeps the old ones | `C109_check`, `C109_fix` |
| After retitling a condition, `check --fix` adds its modifier and test again and keeps the old ones; that nested tests still carry the old modifier goes unnoticed | `C108_check`, `C108_fix` |
| An action `it when x` of the root gives the same code as a condition `when x` with the action `it when x`; conditions `when a b` and `when aB` give the same code; the place of an action among nested conditions is lost | `C111_text_all`, examples in AlikeCases |
| `check` does not compare comments: after an action is reworded, added or removed in the tree, a Solidity file with the old comments still passes | `C113_check`, `C113_exit` |
| With a helper contract in front, `check` reports everything as missing although the tests are in the second contract; `--fix` renames the helper to the tree's contract and adds the tests to it, so that two contracts have the same name | `C115_anywhere_false`, `C115_fix_false`, `C115_fix_first` |
| `.tree` and `.tree.tree` in one directory share the Solidity file `.tree.t.sol`; so do `a.tree` and `a.txt` | `C116_same_sol` |
| `check --fix` prints `success: 2 issues fixed.` and exits with 0 although the file could not be written (only a warning goes to stderr) | `C119_false` |
| Keywords are said to be case-insensitive, but `WHEN a` and `when a` make functions of different names | `C120_false` |
| `it works` and `It works` below the root are rejected as duplicates, `it works` and `IT works` are accepted and make two functions `test_Works` | `C120_accepted_false` |
| `check --fix a.tree a.tree` reports twice as many fixed issues as there are | examples of C123 |
| `bulloak check` without any file (say, because a pattern matched nothing) reports that all checks completed successfully and exits with 0; so does `scaffold` | `C124_nothing` |
| `scaffold -w` exits with 0 although a Solidity file could not be written or was skipped because it is there already | `C125_written` and its example |
| `when` and `given` are not fully interchangeable: `when a` next to `given a` is accepted, `when a` next to `when a` is not | `C127_coincide` |
| The README says that `-S` adds `vm.skip(true);` at the beginning of each test; it is added at the end, behind the comments (no other statements are there, so tests are skipped all the same) | `C24_vm_skip` |
| `check --fix -m` on a file without contract writes the whole contract with all modifiers, as if `-m` was not given | `C46_regenerate` |
| A `{` in a comment in front of the contract body makes `check --fix` insert functions into the comment | `C43_brace_false` |
| An interface or helper contract in front of the test contract makes `check` fail | `C65_helper`, `C65_false` |
| `check` crashes on Solidity files with enough non-ASCII characters | `C66_crash_iff`, `C66_false` |
| The order in which several errors of one tree are shown is random | `C67_false` |
