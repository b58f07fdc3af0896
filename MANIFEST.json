{
 "claims": [
  {
   "property": "C01",
   "status": "proved",
   "theorems": [
    "Bulloak.C01_lexes_exists_unique",
    "Bulloak.C01_tokens_are_slices",
    "Bulloak.C01_token_slice"
   ],
   "note": "Tiles relates text and tokens; positions are computed from the preceding text."
  },
  {
   "property": "C02",
   "status": "proved",
   "theorems": [
    "Bulloak.C02_comments_are_invisible"
   ],
   "note": "Stronger than stated: lines and columns are unchanged too."
  },
  {
   "property": "C03",
   "status": "proved",
   "theorems": [
    "Bulloak.C03_keywords"
   ],
   "note": "Assumes LawfulUcd (facts of the Unicode tables)."
  },
  {
   "property": "C04",
   "status": "proved",
   "theorems": [
    "Bulloak.C04_title_errors"
   ],
   "note": "Assumes LawfulUcd."
  },
  {
   "property": "C05",
   "status": "proved",
   "theorems": [
    "Bulloak.C05_parse_never_panics"
   ],
   "note": "For every text and every hash order."
  },
  {
   "property": "C06",
   "status": "partial",
   "theorems": [
    "Bulloak.C06_root_glyphs_partial",
    "Bulloak.C06_nested_false"
   ],
   "note": "Proved for children of the root; false for nested branches, shown by a witness."
  },
  {
   "property": "C07",
   "status": "proved",
   "theorems": [
    "Bulloak.C07_shape"
   ],
   "note": ""
  },
  {
   "property": "C08",
   "status": "proved",
   "theorems": [
    "Bulloak.C08_words_preserved"
   ],
   "note": ""
  },
  {
   "property": "C09",
   "status": "proved",
   "theorems": [
    "Bulloak.C09_nesting_is_indentation"
   ],
   "note": ""
  },
  {
   "property": "C10",
   "status": "proved",
   "theorems": [
    "Bulloak.C10_spans_nest"
   ],
   "note": ""
  },
  {
   "property": "C11",
   "status": "proved",
   "theorems": [
    "Bulloak.C11_draw_then_parse",
    "Bulloak.C11_draw_accepted",
    "Bulloak.C11_draw_file"
   ],
   "note": "Drawings of abstract trees of any shape; single trees, accepted trees and whole files."
  },
  {
   "property": "C12",
   "status": "proved",
   "theorems": [
    "Bulloak.C12_split"
   ],
   "note": "Separators are white space containing two consecutive line feeds; \\r\\n\\r\\n is therefore not a separator (DESIGN.md)."
  },
  {
   "property": "C13",
   "status": "proved",
   "theorems": [
    "Bulloak.C13_parse_ok",
    "Bulloak.C13_parse_err"
   ],
   "note": ""
  },
  {
   "property": "C14",
   "status": "proved",
   "theorems": [
    "Bulloak.C14_accepted_iff"
   ],
   "note": "For every hash order that is a permutation."
  },
  {
   "property": "C15",
   "status": "proved",
   "theorems": [
    "Bulloak.C15_all_errors",
    "Bulloak.C15_order_independent"
   ],
   "note": "For every hash order that is a permutation."
  },
  {
   "property": "C16",
   "status": "proved",
   "theorems": [
    "Bulloak.C16_sanitize",
    "Bulloak.C16_words"
   ],
   "note": "Character-wise characterisation and idempotence; word splitting characterised separately."
  },
  {
   "property": "C17",
   "status": "partial",
   "theorems": [
    "Bulloak.C17_names_partial",
    "Bulloak.C17_solidity_false"
   ],
   "note": "Unicode identifiers always; Solidity identifiers when the text has no non-ASCII characters besides box drawing. False otherwise (witness: when café)."
  },
  {
   "property": "C18",
   "status": "proved",
   "theorems": [
    "Bulloak.C18_modifiers"
   ],
   "note": "Exact list of modifiers."
  },
  {
   "property": "C19",
   "status": "proved",
   "theorems": [
    "Bulloak.C19_outline"
   ],
   "note": "Exact kinds and names, top to bottom."
  },
  {
   "property": "C20",
   "status": "proved",
   "theorems": [
    "Bulloak.C20_C22_tests"
   ],
   "note": "Paths of enclosing conditions."
  },
  {
   "property": "C21",
   "status": "proved",
   "theorems": [
    "Bulloak.C21_declared_before_use"
   ],
   "note": "No duplicates; declared before use."
  },
  {
   "property": "C22",
   "status": "proved",
   "theorems": [
    "Bulloak.C20_C22_tests",
    "Bulloak.C22_nothing_lost"
   ],
   "note": "Per test and globally."
  },
  {
   "property": "C23",
   "status": "proved",
   "theorems": [
    "Bulloak.C23_revert_names",
    "Bulloak.C23_revert_ascii"
   ],
   "note": "Names, and what counts as a revert action."
  },
  {
   "property": "C24",
   "status": "proved",
   "theorems": [
    "Bulloak.C24_vm_skip",
    "Bulloak.C24_text"
   ],
   "note": "for versions without a double quote or line feed (text)"
  },
  {
   "property": "C25",
   "status": "proved",
   "theorems": [
    "Bulloak.C25_skip_modifiers",
    "Bulloak.C25_errors"
   ],
   "note": "for versions without a double quote or line feed"
  },
  {
   "property": "C26",
   "status": "partial",
   "theorems": [
    "Bulloak.C26_unique_partial",
    "Bulloak.C26_exact",
    "Bulloak.C26_unique_false"
   ],
   "note": "Condition tests are unique, all tests are in trees without top-level actions; false in general (witness). C26_exact: unique exactly when the names of the top-level actions are distinct and differ from those of the conditions with actions."
  },
  {
   "property": "C27",
   "status": "partial",
   "theorems": [
    "Bulloak.C27_order_partial",
    "Bulloak.C27_order_false"
   ],
   "note": "Holds if actions precede nested conditions; false in general (witness)."
  },
  {
   "property": "C28",
   "status": "proved",
   "theorems": [
    "Bulloak.C28_accepted_iff",
    "Bulloak.C28_error_iff",
    "Bulloak.C28_message"
   ],
   "note": "exact acceptance, exact error and its text"
  },
  {
   "property": "C29",
   "status": "partial",
   "theorems": [
    "Bulloak.C29_combined",
    "Bulloak.C29_tests_partial",
    "Bulloak.C29_tests_false"
   ],
   "note": "exact result proved; 'no test is lost' is false when prefixed names coincide (witness proved), proved when they are distinct"
  },
  {
   "property": "C30",
   "status": "proved",
   "theorems": [
    "Bulloak.C30_single"
   ],
   "note": ""
  },
  {
   "property": "C31",
   "status": "partial",
   "theorems": [
    "Bulloak.C31_names_partial",
    "Bulloak.C31_names_false"
   ],
   "note": "false for function parts with characters such as '-' (witness proved); proved for identifier characters"
  },
  {
   "property": "C32",
   "status": "partial",
   "theorems": [
    "Bulloak.C32_one_contract_partial",
    "Bulloak.C32_named_false"
   ],
   "note": "false for comment-only files (witness proved), exact characterisation of the exception proved"
  },
  {
   "property": "C33",
   "status": "proved",
   "theorems": [
    "Bulloak.C33_file",
    "Bulloak.C33_source",
    "Bulloak.C33_one_tree",
    "Bulloak.C33_errors"
   ],
   "note": "the text handed to the external formatter; for versions without a double quote or line feed"
  },
  {
   "property": "C34",
   "status": "proved",
   "theorems": [
    "Bulloak.C34_comment_line",
    "Bulloak.C34_one_tree"
   ],
   "note": "for versions without a double quote or line feed"
  },
  {
   "property": "C35",
   "status": "partial",
   "theorems": [
    "Bulloak.C35_no_line_break_partial",
    "Bulloak.C35_terminators_false"
   ],
   "note": "no line feed, carriage return or tabulator; the full claim is false: vertical tab etc. pass through"
  },
  {
   "property": "C36",
   "status": "proved",
   "theorems": [
    "Bulloak.C36_emitters_agree",
    "Bulloak.C36_lines"
   ],
   "note": "every function"
  },
  {
   "property": "C37",
   "status": "proved",
   "theorems": [
    "Bulloak.C37_silent_iff",
    "Bulloak.C37_no_contract",
    "Bulloak.C37_name"
   ],
   "note": "what the external parser extracts is the input"
  },
  {
   "property": "C38",
   "status": "proved",
   "theorems": [
    "Bulloak.C38_missing"
   ],
   "note": ""
  },
  {
   "property": "C39",
   "status": "proved",
   "theorems": [
    "Bulloak.C39_order",
    "Bulloak.C39_kinds"
   ],
   "note": ""
  },
  {
   "property": "C40",
   "status": "proved",
   "theorems": [
    "Bulloak.C40_extra_code",
    "Bulloak.C40_silent"
   ],
   "note": ""
  },
  {
   "property": "C41",
   "status": "partial",
   "theorems": [
    "Bulloak.C41_scaffold_partial",
    "Bulloak.C41_exact",
    "Bulloak.C41_several_trees",
    "Bulloak.C41_conditions_only",
    "Bulloak.C41_collision_false"
   ],
   "note": "Passes exactly when functions with equal names stand next to each other (C41_exact); in particular with distinct test names, files with several trees and trees without top-level actions; false otherwise (witness)."
  },
  {
   "property": "C42",
   "status": "proved",
   "theorems": [
    "Bulloak.C42_skip_modifiers",
    "Bulloak.C42_panic",
    "Bulloak.C42_scaffold"
   ],
   "note": "scaffolds: what the parser finds in the written file is a hypothesis (Written), as in C41"
  },
  {
   "property": "C43",
   "status": "partial",
   "theorems": [
    "Bulloak.C43_missing_partial",
    "Bulloak.C43_then_silent_partial",
    "Bulloak.C43_brace_false"
   ],
   "note": "Assumes the Solidity parser reads the files correctly and no opening brace in a comment between contract name and body (refuted otherwise, C43_brace_false); with -m a missing function must not directly follow a missing modifier (C45)."
  },
  {
   "property": "C44",
   "status": "partial",
   "theorems": [
    "Bulloak.C44_order_partial",
    "Bulloak.C44_exact",
    "Bulloak.C44_reversed_false",
    "Bulloak.C44_duplicates_false",
    "Bulloak.C44_other_parts_false"
   ],
   "note": "Contracts made of functions of the tree (including missing functions and a wrong name): sorted exactly when no three functions are mutually reversed (C44_order_partial, C44_exact). False with reversed triples or other parts in front (witnesses)."
  },
  {
   "property": "C45",
   "status": "partial",
   "theorems": [
    "Bulloak.C45_no_crash_partial",
    "Bulloak.C45_skip_modifiers_false",
    "Bulloak.C45_constructor_false",
    "Bulloak.C45_non_ascii_false",
    "Bulloak.C45_repeated_false"
   ],
   "note": "Proved without -m for ASCII files with named functions and distinct test names, up to the parser rejecting the reordered text; each of the other cases has a crash witness."
  },
  {
   "property": "C46",
   "status": "proved",
   "theorems": [
    "Bulloak.C46_regenerate"
   ],
   "note": "Assumes the parser reads the generated source correctly and the test names are distinct."
  },
  {
   "property": "C47",
   "status": "partial",
   "theorems": [
    "Bulloak.C47_rename_partial",
    "Bulloak.C47_rename_false"
   ],
   "note": "Proved when the phrase contract <old> occurs once."
  },
  {
   "property": "C48",
   "status": "proved",
   "theorems": [
    "Bulloak.C48_no_write",
    "Bulloak.C48_no_overwrite",
    "Bulloak.C48_only_sol",
    "Bulloak.C48_contents"
   ],
   "note": "For every file system, list of paths and flags. C48_contents additionally assumes that no given tree path ends in .t.sol, because then one output could be another input."
  },
  {
   "property": "C49",
   "status": "proved",
   "theorems": [
    "Bulloak.C49_exit",
    "Bulloak.C49_printed",
    "Bulloak.C49_written_force",
    "Bulloak.C49_written",
    "Bulloak.C49_crash"
   ],
   "note": "Rejected and unreadable trees never affect the others. C49_crash: code that the formatter rejects panics and does stop the command; the other theorems assume this does not happen."
  },
  {
   "property": "C50",
   "status": "proved",
   "theorems": [
    "Bulloak.C50_no_write",
    "Bulloak.C50_only_sol",
    "Bulloak.C50_written"
   ],
   "note": "For every file system, list of trees and flags."
  },
  {
   "property": "C51",
   "status": "proved",
   "theorems": [
    "Bulloak.C51_exit",
    "Bulloak.C51_exit_fix",
    "Bulloak.C51_fix_ignores"
   ],
   "note": "C51_fix_ignores: with --fix, trees that cannot be opened are silently ignored and the exit code is 0."
  },
  {
   "property": "C52",
   "status": "proved",
   "theorems": [
    "Bulloak.C52_idempotent"
   ],
   "note": "Assumes only that no given tree path ends in .t.sol."
  },
  {
   "property": "C53",
   "status": "proved",
   "theorems": [
    "Bulloak.C53_message",
    "Bulloak.C53_tokenizer",
    "Bulloak.C53_parser",
    "Bulloak.C53_semantics",
    "Bulloak.C53_wording",
    "Bulloak.C53_semantics_wording"
   ],
   "note": "Messages are checked against Spec/Error.lean (Message, Renders). Multi-line spans: only the start of the excerpt is specified, since the code underlines a meaningless length there."
  },
  {
   "property": "C54",
   "status": "partial",
   "theorems": [
    "Bulloak.C54_tree_line",
    "Bulloak.C54_tree_partial",
    "Bulloak.C54_solidity_partial",
    "Bulloak.C54_tree_false",
    "Bulloak.C54_solidity_false"
   ],
   "note": "Proved for single-tree files and ASCII Solidity text before the item; C54_tree_false and C54_solidity_false refute the general claims; C54_tree_line gives the exact offset for later trees."
  },
  {
   "property": "C55",
   "status": "partial",
   "theorems": [
    "Bulloak.C55_tree_error_partial",
    "Bulloak.C55_semantic",
    "Bulloak.C55_false"
   ],
   "note": "Holds for tokenizer, parser and combiner errors; semantic errors are reported as Solidity parse failures (C55_semantic), so the full claim is refuted (C55_false)."
  },
  {
   "property": "C56",
   "status": "proved",
   "theorems": [
    "Bulloak.C56_grammar"
   ],
   "note": ""
  },
  {
   "property": "C57",
   "status": "proved",
   "theorems": [
    "Bulloak.C57_translate_never_panics"
   ],
   "note": ""
  },
  {
   "property": "C58",
   "status": "proved",
   "theorems": [
    "Bulloak.C58_combined_consistent"
   ],
   "note": ""
  },
  {
   "property": "C59",
   "status": "proved",
   "theorems": [
    "Bulloak.C59_scaffold_then_check"
   ],
   "note": "The formatter and the Solidity parser are parameters of the model; the hypothesis Faithful says that they preserve the generated contract's name and functions."
  },
  {
   "property": "C60",
   "status": "proved",
   "theorems": [
    "Bulloak.C60_fix_then_check"
   ],
   "note": "FixesWell (the fixed source conforms and survives formatting) is the hypothesis; when it holds is the subject of C43, C44 and C46."
  },
  {
   "property": "C61",
   "status": "proved",
   "theorems": [
    "Bulloak.C61_reports",
    "Bulloak.C61_which",
    "Bulloak.C61_text",
    "Bulloak.C61_crash",
    "Bulloak.C61_wording"
   ],
   "note": "Under the assumption that no tree file is itself named *.t.sol. The wording of operating-system and formatter errors is a parameter."
  },
  {
   "property": "C62",
   "status": "proved",
   "theorems": [
    "Bulloak.C62_reports",
    "Bulloak.C62_fix_reports",
    "Bulloak.C62_wording"
   ],
   "note": ""
  },
  {
   "property": "C63",
   "status": "partial",
   "theorems": [
    "Bulloak.C63_fix_hint_partial",
    "Bulloak.C63_scaffold_hint_partial",
    "Bulloak.C63_false"
   ],
   "note": "Proved for *.tree paths without another .t.sol; refuted for other extensions."
  },
  {
   "property": "C64",
   "status": "partial",
   "theorems": [
    "Bulloak.C64_error_lines",
    "Bulloak.C64_error_lines_partial",
    "Bulloak.C64_lines_false"
   ],
   "note": "The exact relation holds for every tree (C64_error_lines); the stated claim holds for one tree at the start of the file and is refuted otherwise (C64_lines_false)."
  },
  {
   "property": "C65",
   "status": "partial",
   "theorems": [
    "Bulloak.C65_only_partial",
    "Bulloak.C65_helper",
    "Bulloak.C65_false"
   ],
   "note": "true if no other contract is in front; refuted otherwise, with the exact reports"
  },
  {
   "property": "C66",
   "status": "partial",
   "theorems": [
    "Bulloak.C66_ascii_partial",
    "Bulloak.C66_crash_iff",
    "Bulloak.C66_false"
   ],
   "note": "ASCII files; exact condition for a crash; refuted in general"
  },
  {
   "property": "C67",
   "status": "proved",
   "theorems": [
    "Bulloak.C67_translate",
    "Bulloak.C67_scaffold",
    "Bulloak.C67_check",
    "Bulloak.C67_false"
   ],
   "note": "C67_false shows that the exception for the order of semantic errors is needed"
  },
  {
   "property": "C68",
   "status": "proved",
   "theorems": [
    "Bulloak.C68_same_output",
    "Bulloak.C68_comment",
    "Bulloak.C68_blank"
   ],
   "note": ""
  },
  {
   "property": "C69",
   "status": "proved",
   "theorems": [
    "Bulloak.C69_indentation"
   ],
   "note": "Version strings without quote and line feed."
  },
  {
   "property": "C70",
   "status": "partial",
   "theorems": [
    "Bulloak.C70_one_block_partial",
    "Bulloak.C70_never_split",
    "Bulloak.C70_false"
   ],
   "note": "True for one tree; with several trees the file is never split and refuted by a witness."
  },
  {
   "property": "C71",
   "status": "proved",
   "theorems": [
    "Bulloak.C71_violations",
    "Bulloak.C71_no_contract",
    "Bulloak.C71_refused"
   ],
   "note": "text of every message"
  },
  {
   "property": "C72",
   "status": "proved",
   "theorems": [
    "Bulloak.C72_same_report",
    "Bulloak.C72_exit"
   ],
   "note": "Trees that read the same and are indented alike (SameIndent, as in C69). C72_exit is for check without --fix; with --fix the missing functions are written with their comments, see C69."
  },
  {
   "property": "C73",
   "status": "proved",
   "theorems": [
    "Bulloak.C17_exact"
   ],
   "note": "Exact form of C17."
  },
  {
   "property": "C74",
   "status": "proved",
   "theorems": [
    "Bulloak.C26_exact"
   ],
   "note": "Exact form of C26."
  },
  {
   "property": "C75",
   "status": "proved",
   "theorems": [
    "Bulloak.C27_exact"
   ],
   "note": "Exact form of C27."
  },
  {
   "property": "C76",
   "status": "proved",
   "theorems": [
    "Bulloak.C29_exact"
   ],
   "note": "Exact form for C29."
  },
  {
   "property": "C77",
   "status": "proved",
   "theorems": [
    "Bulloak.C31_exact"
   ],
   "note": "Exact form of C31; identifiers in the Unicode sense, see C73 for solc."
  },
  {
   "property": "C78",
   "status": "proved",
   "theorems": [
    "Bulloak.C35_exact"
   ],
   "note": "Exact form of C35, for single-tree files."
  },
  {
   "property": "C79",
   "status": "proved",
   "theorems": [
    "Bulloak.C41_exact"
   ],
   "note": "Exact form of C41; assumes the Solidity parser reports the contract that was written (Written)."
  },
  {
   "property": "C80",
   "status": "proved",
   "theorems": [
    "Bulloak.C66_crash_iff"
   ],
   "note": "Exact form of C66."
  },
  {
   "property": "C81",
   "status": "proved",
   "theorems": [
    "Bulloak.C81_rename"
   ],
   "note": "Exact behaviour behind C47."
  },
  {
   "property": "C82",
   "status": "proved",
   "theorems": [
    "Bulloak.C82_emitter"
   ],
   "note": "Library emitter; scaffold itself writes through the formatter (C33, C34), check --fix uses the emitter for single functions (C36)."
  },
  {
   "property": "C83",
   "status": "proved",
   "theorems": [
    "Bulloak.C83_solidity_line"
   ],
   "note": "Exact behaviour behind C54, Solidity part."
  },
  {
   "property": "C84",
   "status": "proved",
   "theorems": [
    "Bulloak.C84_hint"
   ],
   "note": "Exact form of C63 for violations of an opened tree; the scaffold hint stays in C63."
  },
  {
   "property": "C85",
   "status": "proved",
   "theorems": [
    "Bulloak.C85_parse",
    "Bulloak.C85_output",
    "Bulloak.C85_exact"
   ],
   "note": "Exchanging glyphs anywhere but directly below the root gives the same tree and output; the glyphs below the root must be unchanged for the text to be accepted."
  },
  {
   "property": "C86",
   "status": "proved",
   "theorems": [
    "Bulloak.C86_scaffold",
    "Bulloak.C86_check",
    "Bulloak.C86_refused"
   ],
   "note": "clap's scanning of the declared options is modelled after its documentation"
  },
  {
   "property": "C87",
   "status": "proved",
   "theorems": [
    "Bulloak.C87_changes",
    "Bulloak.C87_exit",
    "Bulloak.C87_help"
   ],
   "note": "no restriction"
  },
  {
   "property": "C88",
   "status": "proved",
   "theorems": [
    "Bulloak.C88_code",
    "Bulloak.C88_ascii",
    "Bulloak.C88_ascii_many"
   ],
   "note": "For one tree and for several, from the text; C88_code has the conditions on the generated names and comments. The text is the one handed to forge fmt (external)."
  },
  {
   "property": "C89",
   "status": "proved",
   "theorems": [
    "Bulloak.C89_not_reserved"
   ],
   "note": "For all accepted files, including several trees."
  },
  {
   "property": "C90",
   "status": "proved",
   "theorems": [
    "Bulloak.C90_reads_back",
    "Bulloak.C90_scaffold_then_check",
    "Bulloak.C90_parser_exists",
    "Bulloak.C90_one_layout"
   ],
   "note": "Assumes a parser that reads valid files correctly and a formatter that keeps tokens; for every grammar such a parser exists. Legible is implied by ASCII text (legible_ascii, legible_ascii_many)."
  },
  {
   "property": "C91",
   "status": "proved",
   "theorems": [
    "Bulloak.C91_stays_valid",
    "Bulloak.C91_rename",
    "Bulloak.C91_fix_missing",
    "Bulloak.C91_fix_order"
   ],
   "note": "The limits of C43 and C44 (order, other parts when sorting, texts occurring once) are hypotheses and part of the statement; the parser is only assumed to read valid files correctly."
  },
  {
   "property": "C92",
   "status": "proved",
   "theorems": [
    "Bulloak.C92_fix_then_check"
   ],
   "note": "Hypotheses: Reader, KeepsContract, HasGenerated; Separate for files that must be sorted. A concrete case is in Props/SolFileCases.lean."
  },
  {
   "property": "C93",
   "status": "proved",
   "theorems": [
    "Bulloak.C93_crash_iff"
   ],
   "note": "Equivalence on valid files whose functions are in order."
  },
  {
   "property": "C94",
   "status": "proved",
   "theorems": [
    "Bulloak.C94_windows",
    "Bulloak.C94_merged"
   ],
   "note": "Equivalence; the second theorem is the witness for the last sentence."
  },
  {
   "property": "C95",
   "status": "proved",
   "theorems": [
    "Bulloak.C95_functions",
    "Bulloak.C95_check",
    "Bulloak.C95_fix",
    "Bulloak.C95_exit"
   ],
   "note": "Adding in front of a condition's first action is excluded (it may turn test_When into test_RevertWhen). New functions must be distinct and absent from the file; with -m no new test directly behind a missing modifier (C93). The exit code of the command as well."
  },
  {
   "property": "C96",
   "status": "proved",
   "theorems": [
    "Bulloak.C96_remove",
    "Bulloak.C96_exit"
   ],
   "note": "All contexts; same exclusion as C95. The exit code of the command as well."
  },
  {
   "property": "C97",
   "status": "partial",
   "theorems": [
    "Bulloak.C97_several_partial",
    "Bulloak.C97_false"
   ],
   "note": "Proved if no added function has the name of an old one. False in general: C97_false adds a nested condition that a later tree has; its modifier moves."
  },
  {
   "property": "C98",
   "status": "proved",
   "theorems": [
    "Bulloak.C98_append",
    "Bulloak.C98_exit"
   ],
   "note": "Functions, check in both directions. The exit code of the command as well."
  },
  {
   "property": "C99",
   "status": "proved",
   "theorems": [
    "Bulloak.C99_sorts",
    "Bulloak.C99_repairable"
   ],
   "note": "Separation of the intermediate text is derived from each function being declared once in the file as given."
  },
  {
   "property": "C100",
   "status": "proved",
   "theorems": [
    "Bulloak.C100_kept"
   ],
   "note": "Contracts with other parts; sorting may fail to sort but loses nothing."
  },
  {
   "property": "C101",
   "status": "proved",
   "theorems": [
    "Bulloak.C101_exact"
   ],
   "note": "Both directions; concrete cases for each."
  },
  {
   "property": "C102",
   "status": "proved",
   "theorems": [
    "Bulloak.C102_session"
   ],
   "note": "Invariant over all sessions mixing runs of the program with edits of the tree (added, removed and otherwise changed branches) and of the Solidity file."
  },
  {
   "property": "C103",
   "status": "proved",
   "theorems": [
    "Bulloak.C103_nothing",
    "Bulloak.C103_twice"
   ],
   "note": "For formatters meeting StableFmt; C103_twice also under the conditions of C60. Case: Props/SolFileCases.lean."
  },
  {
   "property": "C104",
   "status": "proved",
   "theorems": [
    "Bulloak.C104_mend"
   ],
   "note": "Parser: Reader; formatter: KeepsContract and StableFmt. Case with all three kinds in one run: Props/SolFileCases.lean."
  },
  {
   "property": "C105",
   "status": "proved",
   "theorems": [
    "Bulloak.C105_scaffold",
    "Bulloak.C105_check",
    "Bulloak.C105_fix",
    "Bulloak.C105_scaffold_order",
    "Bulloak.C105_fix_order"
   ],
   "note": "Messages are compared as multisets, summaries aside. Cases: Props/CliCases.lean."
  },
  {
   "property": "C106",
   "status": "proved",
   "theorems": [
    "Bulloak.C106_crash_iff",
    "Bulloak.C106_unnamed"
   ],
   "note": "For contracts with an unnamed function and three reversed functions, or with unnamed functions and -m, only sufficient conditions are known (not claimed)."
  },
  {
   "property": "C107",
   "status": "proved",
   "theorems": [
    "Bulloak.C107_functions",
    "Bulloak.C107_check",
    "Bulloak.C107_fix",
    "Bulloak.C107_exit"
   ],
   "note": "Examples in Props/EditCases2.lean."
  },
  {
   "property": "C108",
   "status": "proved",
   "theorems": [
    "Bulloak.C108_functions",
    "Bulloak.C108_check",
    "Bulloak.C108_fix",
    "Bulloak.C108_exit"
   ],
   "note": "Examples in Props/EditCases2.lean."
  },
  {
   "property": "C109",
   "status": "proved",
   "theorems": [
    "Bulloak.C109_functions",
    "Bulloak.C109_check",
    "Bulloak.C109_fix"
   ],
   "note": "Examples in Props/EditCases3.lean."
  },
  {
   "property": "C110",
   "status": "proved",
   "theorems": [
    "Bulloak.C110_check",
    "Bulloak.C110_both",
    "Bulloak.C110_fix",
    "Bulloak.C110_complete"
   ],
   "note": "For all contracts of trees and all Solidity files. The fix theorems are for valid files (layouts that fit the grammar) and every parser that reads valid files."
  },
  {
   "property": "C111",
   "status": "proved",
   "theorems": [
    "Bulloak.C111_functions",
    "Bulloak.C111_tests",
    "Bulloak.C111_text",
    "Bulloak.C111_text_all"
   ],
   "note": "C111_functions: the functions, for every configuration; C111_tests: the tests alone. C111_text_all: the text before forge fmt, with and without -m. What is lost is spelled out in Spec/Alike.lean (LookalikeTop)."
  },
  {
   "property": "C112",
   "status": "proved",
   "theorems": [
    "Bulloak.C112_help",
    "Bulloak.C112_refused"
   ],
   "note": "The command line parser is clap; its behaviour on the option tables is modelled after its documentation (DESIGN, trusted base)."
  },
  {
   "property": "C113",
   "status": "proved",
   "theorems": [
    "Bulloak.C113_functions",
    "Bulloak.C113_names_only",
    "Bulloak.C113_check",
    "Bulloak.C113_exit",
    "Bulloak.C113_told_apart"
   ],
   "note": "Telling apart: for parsers that read valid files correctly and formatters that keep tokens, as in C90, and legible trees whose functions are distinct."
  },
  {
   "property": "C114",
   "status": "proved",
   "theorems": [
    "Bulloak.C114_functions",
    "Bulloak.C114_check",
    "Bulloak.C114_fix",
    "Bulloak.C114_exit"
   ],
   "note": "Renaming via titles of one or several trees. For fix: valid Solidity layout in which 'contract <old name>' occurs once (else C47's witnesses apply), and a parser that reads valid files correctly."
  },
  {
   "property": "C115",
   "status": "partial",
   "theorems": [
    "Bulloak.C115_first_partial",
    "Bulloak.C115_fix_first",
    "Bulloak.C115_anywhere_false",
    "Bulloak.C115_fix_false"
   ],
   "note": "The claim is false: only the first contract of the file is looked at (C115_anywhere_false); with a helper contract in front, --fix renames the helper and adds the tests to it, so two contracts have the same name (C115_fix_false, in general C115_fix_first). Proved: the report depends only on the first contract."
  },
  {
   "property": "C116",
   "status": "proved",
   "theorems": [
    "Bulloak.C116_kept",
    "Bulloak.C116_same_sol",
    "Bulloak.C116_separate",
    "Bulloak.C116_order"
   ],
   "note": "Paths are a directory and a file name; two spellings of one path count as two files."
  },
  {
   "property": "C117",
   "status": "proved",
   "theorems": [
    "Bulloak.C117_scaffold",
    "Bulloak.C117_check"
   ],
   "note": "For scaffold no tree file may be named like a Solidity test."
  },
  {
   "property": "C118",
   "status": "proved",
   "theorems": [
    "Bulloak.C118_announced"
   ],
   "note": "Every run of check --fix with exit code 0, i.e. that does not crash."
  },
  {
   "property": "C119",
   "status": "partial",
   "theorems": [
    "Bulloak.C119_fixed_partial",
    "Bulloak.C119_false"
   ],
   "note": "False in general: failed writes are counted. Proved if all trees can be opened, the files are separate and writable, and the fixed code conforms and survives formatting (C60 and the properties it refers to say when)."
  },
  {
   "property": "C120",
   "status": "partial",
   "theorems": [
    "Bulloak.C120_first_letter",
    "Bulloak.C120_exit",
    "Bulloak.C120_it_partial",
    "Bulloak.C120_false",
    "Bulloak.C120_accepted_false"
   ],
   "note": "Refuted as stated (C120_false, C120_accepted_false): capitals behind the first letter change names, and change which actions count as duplicates. Proved for the first letters of keywords, and for it in any case if both files are accepted."
  },
  {
   "property": "C121",
   "status": "proved",
   "theorems": [
    "Bulloak.C121_white_space",
    "Bulloak.C121_case",
    "Bulloak.C121_alnum",
    "Bulloak.C121_trim",
    "Bulloak.C121_number",
    "Bulloak.C121_join",
    "Bulloak.C121_bytes",
    "Bulloak.C121_name"
   ],
   "note": "Pins the elementary functions that the specifications share with the model."
  },
  {
   "property": "C122",
   "status": "proved",
   "theorems": [
    "Bulloak.C122_scaffold",
    "Bulloak.C122_check",
    "Bulloak.C122_program"
   ],
   "note": "Relational induction over the loops of both commands."
  },
  {
   "property": "C123",
   "status": "proved",
   "theorems": [
    "Bulloak.C123_scaffold",
    "Bulloak.C123_check",
    "Bulloak.C123_fix"
   ],
   "note": "Trees named *.tree (C116); scaffold and check --fix: runs that do not crash."
  },
  {
   "property": "C124",
   "status": "proved",
   "theorems": [
    "Bulloak.C124_passes",
    "Bulloak.C124_only",
    "Bulloak.C124_nothing"
   ],
   "note": "From the command line to the contracts; without files both commands succeed (listed as a finding)."
  },
  {
   "property": "C125",
   "status": "proved",
   "theorems": [
    "Bulloak.C125_exit",
    "Bulloak.C125_written",
    "Bulloak.C125_printed",
    "Bulloak.C125_only"
   ],
   "note": "From the command line to the files; that skipped and unwritable files do not count as failures is listed as a finding."
  },
  {
   "property": "C126",
   "status": "proved",
   "theorems": [
    "Bulloak.C126_same_error",
    "Bulloak.C126_exit",
    "Bulloak.C126_rejected"
   ],
   "note": "How much of the error check shows is C55; what is written with which options is C24, C25."
  },
  {
   "property": "C127",
   "status": "proved",
   "theorems": [
    "Bulloak.C127_malformed",
    "Bulloak.C127_functions",
    "Bulloak.C127_throughout",
    "Bulloak.C127_throughout_functions",
    "Bulloak.C127_coincide"
   ],
   "note": "C127_coincide shows that the exception for coinciding names is needed. Functions are for files of one tree; acceptance is for all files."
  },
  {
   "property": "C128",
   "status": "proved",
   "theorems": [
    "Bulloak.C128_options",
    "Bulloak.C128_version",
    "Bulloak.C128_exit"
   ],
   "note": "Versions containing a quotation mark are excluded: one that looks like a comment to be cleaned up is changed (shown by a case); versions with line feeds are excluded in C128_options only."
  },
  {
   "property": "C129",
   "status": "proved",
   "theorems": [
    "Bulloak.C129_functions",
    "Bulloak.C129_tests",
    "Bulloak.C129_rejected",
    "Bulloak.C129_check",
    "Bulloak.C129_exit"
   ],
   "note": "That the tests agree needs that no two trees ask for a test of the same name (a case shows why): of several tests of the same name the one of the first tree is kept."
  },
  {
   "property": "C130",
   "status": "proved",
   "theorems": [
    "Bulloak.C130_translate",
    "Bulloak.C130_source",
    "Bulloak.C130_exit"
   ],
   "note": "A single tree is excluded: repeating it turns the file into one with several trees, whose contract is named by the part of the title before the colons (shown by a case)."
  },
  {
   "property": "C131",
   "status": "proved",
   "theorems": [
    "Bulloak.C131_version",
    "Bulloak.C131_lines"
   ],
   "note": "Extends C128_version to versions with quotation marks."
  },
  {
   "property": "C132",
   "status": "proved",
   "theorems": [
    "Bulloak.C132_join",
    "Bulloak.C132_check"
   ],
   "note": "Files with a single tree are excluded: their contract is named by the whole title. The second file may place a shared modifier elsewhere, hence the order (shown by a case)."
  },
  {
   "property": "C133",
   "status": "proved",
   "theorems": [
    "Bulloak.C133_functions",
    "Bulloak.C133_check",
    "Bulloak.C133_unwrap",
    "Bulloak.C133_fix",
    "Bulloak.C133_exit",
    "Bulloak.C133_step"
   ],
   "note": "Single tree. For check and --fix: the functions of the new tree have distinct names and the file lacks the new modifier; for --fix the file follows the layout of DESIGN.md."
  },
  {
   "property": "C134",
   "status": "proved",
   "theorems": [
    "Bulloak.C134_functions",
    "Bulloak.C134_check"
   ],
   "note": "Both files have at least two trees and share at least one: with a single tree, names are not prefixed."
  },
  {
   "property": "C135",
   "status": "proved",
   "theorems": [
    "Bulloak.C135_functions",
    "Bulloak.C135_check",
    "Bulloak.C135_fix",
    "Bulloak.C135_exit"
   ],
   "note": "At least two trees; no test of the tree has the name of a test of another tree, before or after. For check and --fix the file lacks the new names; for --fix it follows the layout of DESIGN.md."
  },
  {
   "property": "C136",
   "status": "proved",
   "theorems": [
    "Bulloak.C136_check",
    "Bulloak.C136_fix",
    "Bulloak.C136_exit",
    "Bulloak.C136_step"
   ],
   "note": "No function of the tree occurs twice in the file before. For --fix the file follows the layout of DESIGN.md; with -m, no test comes directly behind a missing modifier (C93). C136_step: a deletion is a step of a session in the sense of C102."
  },
  {
   "property": "C137",
   "status": "proved",
   "theorems": [
    "Bulloak.C137_check",
    "Bulloak.C137_verdict",
    "Bulloak.C137_fix",
    "Bulloak.C137_step",
    "Bulloak.C137_exit"
   ],
   "note": "No function of the tree occurs twice in the file before; ReworkCases shows that this is needed. For --fix the file follows the layout of DESIGN.md; with -m, no test comes directly behind a missing modifier (C93)."
  },
  {
   "property": "C138",
   "status": "proved",
   "theorems": [
    "Bulloak.C138_silent_iff",
    "Bulloak.C138_report",
    "Bulloak.C138_exit"
   ],
   "note": "No function of the tree occurs twice in the file before (C138_report does not need this). C138_report speaks about runs that do not crash; when they crash is C80."
  },
  {
   "property": "C139",
   "status": "proved",
   "theorems": [
    "Bulloak.C139_same",
    "Bulloak.C139_inside"
   ],
   "note": "Model/Debug repeats the definitions that depend on the only debug_assert! of the code."
  },
  {
   "property": "C140",
   "status": "proved",
   "theorems": [
    "Bulloak.C140_messages"
   ],
   "note": "The other subtractions of the code are guarded by the comparison in front of them, or modelled as a panic (capacity in the translator)."
  },
  {
   "property": "C141",
   "status": "proved",
   "theorems": [
    "Bulloak.C141_restore"
   ],
   "note": "For contracts of functions of the tree, without -m, no three functions reversed (see C44 for reversed ones)."
  },
  {
   "property": "C142",
   "status": "proved",
   "theorems": [
    "Bulloak.C142_result",
    "Bulloak.C142_sorted",
    "Bulloak.C142_unique",
    "Bulloak.C142_rewrite"
   ],
   "note": "For contracts of functions of the tree, without -m; files in another order under the conditions of C99."
  },
  {
   "property": "C143",
   "status": "proved",
   "theorems": [
    "Bulloak.C143_text",
    "Bulloak.C143_scaffold"
   ],
   "note": "Without -m; compared with the text scaffold generates before formatting."
  },
  {
   "property": "C144",
   "status": "proved",
   "theorems": [
    "Bulloak.C144_disk"
   ],
   "note": "Without -m and --stdout; the parser and the formatter are assumptions, as in C92."
  },
  {
   "property": "C145",
   "status": "proved",
   "theorems": [
    "Bulloak.C145_conforms",
    "Bulloak.C145_exact"
   ],
   "note": "for trees naming no function twice; both directions, with and without -m"
  },
  {
   "property": "C146",
   "status": "proved",
   "theorems": [
    "Bulloak.C146_fix",
    "Bulloak.C146_skip",
    "Bulloak.C146_disk"
   ],
   "note": "functions of the tree in the file in order and none twice; tree naming no function twice; with -m no missing function directly behind a missing modifier (otherwise the command crashes, C93); the statement about commands is without -m"
  },
  {
   "property": "C147",
   "status": "proved",
   "theorems": [
    "Bulloak.C147_share"
   ],
   "note": "for trees naming no function twice, without -m; contracts are as the Solidity parser reports them, and the common contract is constructed as such, not as text"
  },
  {
   "property": "C148",
   "status": "proved",
   "theorems": [
    "Bulloak.C148_both",
    "Bulloak.C148_trees",
    "Bulloak.C148_exit"
   ],
   "note": "C148_both and C148_trees are for fixContext, i.e. the file between fixing and formatting; C148_exit is for the commands without -m on one ASCII file, for formatters that keep the contract's name and functions; earlier tree checked without -m"
  },
  {
   "property": "C149",
   "status": "proved",
   "theorems": [
    "Bulloak.C149_turns",
    "Bulloak.C149_either"
   ],
   "note": "for fixContext, i.e. the files between fixing and formatting; the second run parses the text the first one left"
  }
 ]
}