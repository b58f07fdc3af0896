{"id": "C01", "title": "Tokens are exact slices of the source", "statement": "If tokenizing a text succeeds, every token's lexeme is exactly the slice of the text between the token's start byte offset and the end of the character at its (inclusive) end offset; tokens are in source order and do not overlap; and the text between consecutive tokens (and before the first / after the last) consists only of whitespace, the drawing characters '─' and '│', and // comments. The reported line and column of each token are the line and column of that offset.", "quantifier": "every text", "why_tests_cant": "unbounded texts, all Unicode, all interleavings of glyphs, comments and words", "anchors": ["crates/syntax/src/tokenizer.rs:tokenize", "crates/syntax/src/tokenizer.rs:scan", "crates/syntax/src/tokenizer.rs:scan_word", "crates/syntax/src/tokenizer.rs:scan_comments", "crates/syntax/src/span.rs:Position"]}
{"id": "C02", "title": "Comments are invisible to the tree", "statement": "Deleting a // comment that starts where a word could start (up to but excluding the end of its line) from a text never changes the sequence of tokens the tokenizer produces (kind, lexeme, line and column), nor whether it succeeds; only byte offsets shift. If the text is rejected, the rejected character and its line and column stay the same.", "quantifier": "every text and every comment position in it", "why_tests_cant": "the comment may follow any prefix, including a half-finished condition title", "anchors": ["crates/syntax/src/tokenizer.rs:tokenize", "crates/syntax/src/tokenizer.rs:scan_comments"]}
{"id": "C03", "title": "Keywords are case-insensitive and only whole words count", "statement": "A word becomes a `when`/`given`/`it` keyword exactly when the whole word lower-cases to it; otherwise it is a plain word, so `whenever` or `its` never open a branch.", "quantifier": "every word in every text", "why_tests_cant": "all 2^n casings and every possible continuation of the word", "anchors": ["crates/syntax/src/tokenizer.rs:scan_word", "crates/syntax/src/tokenizer.rs:is_keyword"]}
{"id": "C04", "title": "The tokenizer rejects exactly the invalid condition titles, at the right place", "statement": "Tokenizing fails exactly when some condition title contains a character other than alphanumerics, '_', '-', ' and \". A condition title starts at a when/given word that directly follows a branch glyph and runs up to the next line feed, carriage return, tab or comment. The error names that character and its exact position, and it is the first such character. Outside condition titles any character is accepted.", "quantifier": "every text", "why_tests_cant": "every Unicode character at every position after every prefix", "anchors": ["crates/syntax/src/tokenizer.rs:scan_word", "crates/syntax/src/tokenizer.rs:is_valid_identifier_char", "crates/syntax/src/tokenizer.rs:ErrorKind::IdentifierCharInvalid"]}
{"id": "C05", "title": "Parsing any text terminates without panicking", "statement": "For every text, parsing returns trees or an error: none of the parser's unwraps, expects, index operations or unreachable! calls is ever hit and it consumes its input in bounded steps.", "quantifier": "every text, valid or not", "why_tests_cant": "a panic may need an arbitrarily long or oddly truncated input", "anchors": ["crates/syntax/src/parser.rs:parse", "crates/syntax/src/parser.rs:parse_root", "crates/syntax/src/parser.rs:parse_branch", "crates/syntax/src/parser.rs:parse_condition", "crates/syntax/src/parser.rs:parse_action", "crates/syntax/src/parser.rs:parse_string", "crates/syntax/src/lib.rs:parse"]}
{"id": "C06", "title": "├ and └ placement", "statement": "In every accepted tree each non-last branch is drawn with ├ and the last branch of its parent with └. (Checked by the code for the children of the root only; for nested branches the claim is false.)", "quantifier": "every accepted text", "why_tests_cant": "arbitrary depth and width", "anchors": ["crates/syntax/src/parser.rs:parse_branch", "crates/syntax/src/parser.rs:ErrorKind::TeeLastChild", "crates/syntax/src/parser.rs:ErrorKind::CornerNotLastChild"]}
{"id": "C07", "title": "Shape of an accepted AST", "statement": "Every parsed AST has a root whose children are conditions or actions; conditions contain only conditions and actions; actions contain only descriptions; descriptions are leaves.", "quantifier": "every text that parses", "why_tests_cant": "arbitrary nesting", "anchors": ["crates/syntax/src/parser.rs:parse_root", "crates/syntax/src/parser.rs:parse_condition", "crates/syntax/src/parser.rs:parse_action", "crates/syntax/src/ast.rs:Ast"]}
{"id": "C08", "title": "No words are lost, duplicated or reordered by parsing", "statement": "Reading the words of an accepted AST in pre-order (titles, then children) gives exactly the words of the source in order (condition titles up to identifier sanitisation), and each branch glyph of the source accounts for exactly one condition, action or description.", "quantifier": "every text that parses", "why_tests_cant": "arbitrary trees; a parser that skips a token on one path passes most examples", "anchors": ["crates/syntax/src/parser.rs:parse_string", "crates/syntax/src/parser.rs:parse_condition", "crates/syntax/src/parser.rs:parse_action", "crates/syntax/src/parser.rs:parse_description"]}
{"id": "C09", "title": "Nesting follows indentation", "statement": "In an accepted tree the parent of every condition or action is the nearest preceding branch whose glyph is in a strictly smaller column (the root when there is none), and that branch is always a condition; a description belongs to the nearest preceding action with a smaller column.", "quantifier": "every text that parses", "why_tests_cant": "all mixtures of indentations at any depth", "anchors": ["crates/syntax/src/parser.rs:parse_condition", "crates/syntax/src/parser.rs:parse_action"]}
{"id": "C10", "title": "AST spans are faithful", "statement": "Every node's span lies within its parent's span, children's spans are in source order, every condition, action and description starts at its own branch glyph, and every node ends at the end of a word of the source.", "quantifier": "every text that parses", "why_tests_cant": "arbitrary trees and offsets", "anchors": ["crates/syntax/src/parser.rs:parse_condition", "crates/syntax/src/parser.rs:parse_action", "crates/syntax/src/parser.rs:parse_root"]}
{"id": "C11", "title": "Drawing a tree and parsing it gives the tree back", "statement": "For every abstract tree with legal titles, parsing its standard ASCII drawing succeeds and yields exactly that tree (same titles, same nesting, same order).", "quantifier": "every abstract tree of any width and depth with legal titles", "why_tests_cant": "unbounded trees", "anchors": ["crates/syntax/src/parser.rs:parse", "crates/syntax/src/tokenizer.rs:tokenize"]}
{"id": "C12", "title": "Splitting a file into trees", "statement": "A file made of non-empty, trimmed, non-comment blocks with no blank line inside, joined by blank lines (any number ≥ 1, with surrounding whitespace lines), is split into exactly these blocks in order; blocks consisting only of comments are dropped; a blank file yields one empty tree.", "quantifier": "every list of blocks and every amount of separation", "why_tests_cant": "arbitrary number of trees and separators", "anchors": ["crates/syntax/src/splitter.rs:split_trees", "crates/syntax/src/splitter.rs:not_only_comments"]}
{"id": "C13", "title": "Trees of a file are parsed independently", "statement": "Parsing a multi-tree file succeeds exactly when every block parses on its own, and then returns the individual results in order; otherwise the error is that of the first failing block.", "quantifier": "every file", "why_tests_cant": "any number of blocks", "anchors": ["crates/syntax/src/lib.rs:parse", "crates/syntax/src/lib.rs:parse_one"]}
{"id": "C14", "title": "Semantic acceptance is exactly the documented rules", "statement": "A parsed tree is accepted exactly when it has at least one branch, every condition has at least one child, and no two conditions (anywhere) / top-level actions produce the same identifier.", "quantifier": "every parsed tree", "why_tests_cant": "arbitrary trees; duplicates may be arbitrarily far apart", "anchors": ["crates/syntax/src/semantics.rs:analyze", "crates/syntax/src/semantics.rs:visit_root", "crates/syntax/src/semantics.rs:visit_condition"]}
{"id": "C15", "title": "All semantic errors are reported at once, independently of hash order", "statement": "Analysis reports one error per empty condition, one per identifier used more than once, and one when the tree is empty; the multiset of errors does not depend on the hash map's iteration order.", "quantifier": "every parsed tree and every iteration order of the hash map", "why_tests_cant": "iteration order is random per process", "anchors": ["crates/syntax/src/semantics.rs:analyze", "crates/syntax/src/semantics.rs:visit_condition"]}
{"id": "C16", "title": "Sanitised names contain only identifier characters", "statement": "Sanitising any string yields only XID-continue characters and spaces, is idempotent, keeps allowed characters in order, and maps '-' to '_'.", "quantifier": "every string", "why_tests_cant": "all Unicode strings", "anchors": ["crates/syntax/src/utils.rs:sanitize", "crates/syntax/src/utils.rs:to_pascal_case", "crates/syntax/src/utils.rs:lower_first_letter", "crates/syntax/src/utils.rs:upper_first_letter"]}
{"id": "C17", "title": "Generated function names are valid Solidity identifiers", "statement": "Every test and modifier name generated from a single-root file is non-empty, does not start with a digit, and contains only identifier characters. (False for solc: titles with non-ASCII letters give Unicode identifiers; proved for Unicode identifiers in general and for Solidity identifiers when the text is ASCII apart from the glyphs.)", "quantifier": "every accepted single-root file", "why_tests_cant": "titles range over all Unicode words", "anchors": ["crates/foundry/src/hir/translator.rs:visit_condition", "crates/foundry/src/hir/translator.rs:visit_root", "crates/foundry/src/scaffold/modifiers.rs:ModifierDiscoverer"]}
{"id": "C18", "title": "One modifier per condition that has nested conditions", "statement": "The generated contract contains, for every condition that has at least one nested condition, exactly one modifier, named by the camel-cased condition title, and no other modifiers.", "quantifier": "every accepted tree", "why_tests_cant": "arbitrary trees", "anchors": ["crates/foundry/src/hir/translator.rs:visit_condition", "crates/foundry/src/scaffold/modifiers.rs:modifiers"]}
{"id": "C19", "title": "One test per condition with actions and per top-level action, in pre-order", "statement": "The generated contract's functions, read top to bottom, are: for each top-level action its test; for each condition in pre-order, its modifier (if it has nested conditions) followed by its test (if it has direct actions). No other functions are generated.", "quantifier": "every accepted tree", "why_tests_cant": "arbitrary trees", "anchors": ["crates/foundry/src/hir/translator.rs:visit_root", "crates/foundry/src/hir/translator.rs:visit_condition"]}
{"id": "C20", "title": "A test runs under exactly its enclosing conditions", "statement": "The modifiers attached to the test of a condition are exactly the modifiers of the enclosing conditions from outermost to innermost, plus the condition's own if it has nested conditions; tests of top-level actions have none.", "quantifier": "every accepted tree and every test", "why_tests_cant": "arbitrary depth; stack discipline must hold across siblings", "anchors": ["crates/foundry/src/hir/translator.rs:visit_condition"]}
{"id": "C21", "title": "Modifiers are declared once and before use", "statement": "In every generated contract no modifier is declared twice, and every modifier used by a test is declared earlier in the same contract.", "quantifier": "every accepted single-root file", "why_tests_cant": "arbitrary trees", "anchors": ["crates/foundry/src/hir/translator.rs:visit_condition", "crates/foundry/src/scaffold/modifiers.rs:modifiers"]}
{"id": "C22", "title": "Every action and description becomes a comment", "statement": "The body of the test of a condition consists of exactly the titles of its direct actions, each followed by its descriptions, in order; nothing is dropped, duplicated or moved to another test.", "quantifier": "every accepted tree", "why_tests_cant": "arbitrary trees", "anchors": ["crates/foundry/src/hir/translator.rs:visit_condition", "crates/foundry/src/hir/translator.rs:visit_action", "crates/foundry/src/hir/translator.rs:visit_description"]}
{"id": "C23", "title": "Revert naming", "statement": "The test of a condition is named test_RevertWhen_X / test_RevertGiven_X exactly when its first direct action reads 'it should revert' (case-insensitively), otherwise test_WhenX / test_GivenX.", "quantifier": "every accepted tree", "why_tests_cant": "all titles", "anchors": ["crates/foundry/src/hir/translator.rs:visit_condition", "crates/foundry/src/hir/translator.rs:is_revert"]}
{"id": "C24", "title": "vm.skip, import and inheritance appear exactly when requested", "statement": "With -S every test (and only tests) ends with exactly one `vm.skip(true)`, the forge-std Test import is present and the contract inherits Test; without -S none of these appears. Nothing else in the output depends on the flag.", "quantifier": "every accepted file", "why_tests_cant": "arbitrary number of tests", "anchors": ["crates/foundry/src/hir/translator.rs:visit_condition", "crates/foundry/src/sol/translator.rs:visit_root", "crates/foundry/src/sol/translator.rs:visit_contract"]}
{"id": "C25", "title": "-m drops the modifier definitions and nothing else", "statement": "Scaffolding with skip-modifiers emits the same contract minus exactly the modifier definitions.", "quantifier": "every accepted file", "why_tests_cant": "arbitrary contracts", "anchors": ["crates/foundry/src/sol/translator.rs:visit_contract", "crates/foundry/src/config.rs:Config"]}
{"id": "C26", "title": "Test names are unique in a generated contract", "statement": "No two tests generated from an accepted single-root file have the same name. (False of the code when top-level actions collide with conditions; proved for condition tests.)", "quantifier": "every accepted single-root file", "why_tests_cant": "collisions through sanitisation of arbitrary titles", "anchors": ["crates/syntax/src/semantics.rs:visit_root", "crates/foundry/src/hir/translator.rs:visit_root", "crates/foundry/src/hir/translator.rs:visit_condition"]}
{"id": "C27", "title": "Documented test order", "statement": "Tests are emitted in the order in which the actions appear in the tree. (README claim; false when an action follows a nested condition under the same parent; proved when every condition lists its actions before its nested conditions.)", "quantifier": "every accepted tree", "why_tests_cant": "arbitrary interleavings", "anchors": ["crates/foundry/src/hir/translator.rs:visit_condition", "README.md"]}
{"id": "C28", "title": "Multi-root files are accepted exactly when the contract names agree", "statement": "A file with several trees is accepted exactly when every root reads `Contract::function`, contract names are non-empty and all equal the first; otherwise the error names the first offending tree (1-based) and both names for a mismatch.", "quantifier": "every list of trees", "why_tests_cant": "any number of roots", "anchors": ["crates/foundry/src/hir/combiner.rs:combine", "crates/foundry/src/hir/combiner.rs:Error"]}
{"id": "C29", "title": "Combining keeps every tree's tests and shares modifiers", "statement": "The combined contract contains, in file order, the functions of each tree, tests prefixed with the capitalised function part of its root, and only one copy of modifiers with the same name. (False for tests with equal prefixed names, which are silently dropped; proved exactly.)", "quantifier": "every list of accepted trees", "why_tests_cant": "any number of roots", "anchors": ["crates/foundry/src/hir/combiner.rs:combine", "crates/foundry/src/hir/combiner.rs:collect_modifier", "crates/foundry/src/hir/combiner.rs:prefix_test"]}
{"id": "C30", "title": "Single-root files are not prefixed", "statement": "A file with exactly one tree produces the contract named by its root text verbatim with unprefixed tests, with or without `::`.", "quantifier": "every file with one tree", "why_tests_cant": "all titles", "anchors": ["crates/foundry/src/hir/mod.rs:translate", "crates/foundry/src/hir/mod.rs:translate_one"]}
{"id": "C31", "title": "Multi-root function names are valid identifiers", "statement": "All function names of a combined contract are valid identifiers. (False when the function part of a root contains non-identifier characters; proved when they are identifiers.)", "quantifier": "every list of accepted trees", "why_tests_cant": "all titles", "anchors": ["crates/foundry/src/hir/combiner.rs:prefix_test_with"]}
{"id": "C32", "title": "A file always yields a named contract", "statement": "Every accepted file yields exactly one contract with a non-empty name. (False for a file containing only comments; proved otherwise.)", "quantifier": "every file", "why_tests_cant": "all texts", "anchors": ["crates/foundry/src/hir/combiner.rs:combine", "crates/syntax/src/splitter.rs:split_trees"]}
{"id": "C33", "title": "Solidity output mirrors the specification", "statement": "The generated source has exactly the pragma, the optional import, and one contract whose functions are those of the tree in order with the same names, kinds, modifiers and bodies.", "quantifier": "every accepted file", "why_tests_cant": "arbitrary contracts", "anchors": ["crates/foundry/src/sol/translator.rs:visit_root", "crates/foundry/src/sol/translator.rs:visit_contract", "crates/foundry/src/sol/translator.rs:visit_function", "crates/foundry/src/sol/fmt.rs:Formatter"]}
{"id": "C34", "title": "Comments come out verbatim", "statement": "Each action/description appears in the emitted text as its own `// text` line, unchanged, even when it contains quotes or text resembling the internal comment marker.", "quantifier": "every accepted file", "why_tests_cant": "all comment texts", "anchors": ["crates/foundry/src/sol/fmt.rs:cleanup_comments", "crates/foundry/src/sol/translator.rs:visit_comment"]}
{"id": "C35", "title": "Tree text cannot escape its comment", "statement": "No action or description text can contain a Solidity line terminator, so tree text never becomes code. (False: vertical tab, form feed, U+2028/2029 pass through; proved for LF/CR as recognised by the solang lexer.)", "quantifier": "every accepted file", "why_tests_cant": "all Unicode whitespace", "anchors": ["crates/syntax/src/tokenizer.rs:scan_word", "crates/foundry/src/scaffold/emitter.rs:emit_comment"]}
{"id": "C36", "title": "Both emitters agree", "statement": "The text `check --fix` inserts for a missing function equals, up to whitespace, the text `scaffold` generates for it.", "quantifier": "every function", "why_tests_cant": "arbitrary bodies", "anchors": ["crates/foundry/src/scaffold/emitter.rs:emit_function_definition", "crates/foundry/src/sol/fmt.rs:visit_function", "crates/foundry/src/check/context.rs:insert_function_at"]}
{"id": "C37", "title": "check is silent exactly when the contract conforms", "statement": "The structural rule reports nothing exactly when the Solidity file has a contract, its name equals the tree's, every function of the tree occurs in it with the same name and kind, and they occur in the same relative order.", "quantifier": "every tree and every Solidity file", "why_tests_cant": "arbitrary contracts", "anchors": ["crates/foundry/src/check/rules/structural_match.rs:check", "crates/foundry/src/check/rules/structural_match.rs:check_contract_names", "crates/foundry/src/check/rules/structural_match.rs:check_fns_structure"]}
{"id": "C38", "title": "Missing functions are reported exactly", "statement": "For each tree function without a same-named same-kind function in the contract there is exactly one missing-function violation, in tree order, and no others.", "quantifier": "every tree and contract", "why_tests_cant": "arbitrary contracts", "anchors": ["crates/foundry/src/check/rules/structural_match.rs:check_fns_structure"]}
{"id": "C39", "title": "Order violations are exactly the inversions", "statement": "Among the tree functions that are present in the contract, a function is reported as misplaced exactly when some later present tree function occurs before it in the contract, and it is reported once; functions that are missing play no role.", "quantifier": "every tree and contract", "why_tests_cant": "arbitrary permutations", "anchors": ["crates/foundry/src/check/rules/structural_match.rs:check_fns_structure"]}
{"id": "C40", "title": "Extra code is allowed", "statement": "Adding functions with other names, variables, structs, or other contracts after the first contract never changes what check reports, apart from line numbers in the Solidity file.", "quantifier": "every tree, contract and set of additions", "why_tests_cant": "arbitrary additions at any position", "anchors": ["crates/foundry/src/check/rules/structural_match.rs:check_fns_structure", "crates/foundry/src/sol/mod.rs:find_matching_fn"]}
{"id": "C41", "title": "Freshly scaffolded code passes check", "statement": "check reports nothing for the output of scaffold on the same tree. (False when generated test names collide; proved when names are unique, in particular for multi-root files and for trees without top-level actions.)", "quantifier": "every accepted file", "why_tests_cant": "arbitrary trees", "anchors": ["crates/foundry/src/scaffold/mod.rs:scaffold", "crates/foundry/src/check/rules/structural_match.rs:check"]}
{"id": "C42", "title": "-m makes check ignore missing modifiers only", "statement": "With skip-modifiers, check reports the same as without, minus exactly the violations for missing modifiers, and crashes in the same cases; and whenever check reports nothing about what scaffold writes, check -m reports nothing about what scaffold -m writes.", "quantifier": "every tree and contract", "why_tests_cant": "arbitrary contracts", "anchors": ["crates/foundry/src/check/rules/structural_match.rs:check_fns_structure"]}
{"id": "C43", "title": "Fixing adds every missing function and keeps the rest", "statement": "After fixing, every function reported missing is present, each inserted directly after its predecessor in the tree (or first), and all text that was there before is preserved in order.", "quantifier": "every tree and every contract with any subset of functions missing", "why_tests_cant": "2^n subsets and arbitrary extra code", "anchors": ["crates/foundry/src/check/violation.rs:fix", "crates/foundry/src/check/violation.rs:get_insertion_offset", "crates/foundry/src/check/context.rs:insert_function_at", "crates/bulloak/src/check.rs:run"]}
{"id": "C44", "title": "Reordering fixes the order", "statement": "After the order fix the tree's functions are in tree order with nothing lost or duplicated. (False in general: stale indices duplicate functions for a reversed triple; proved for contracts made of tree functions no three of which are mutually reversed.)", "quantifier": "every permutation of the functions", "why_tests_cant": "n! permutations", "anchors": ["crates/foundry/src/check/violation.rs:fix_order"]}
{"id": "C45", "title": "Fixing never crashes", "statement": "check --fix never panics. (False with -m and a missing modifier, unnamed functions, non-ASCII files or colliding names; proved otherwise, up to the Solidity parser rejecting the reordered text.)", "quantifier": "every tree and contract", "why_tests_cant": "arbitrary contracts", "anchors": ["crates/foundry/src/check/violation.rs:get_insertion_offset", "crates/foundry/src/check/violation.rs:fix_order"]}
{"id": "C46", "title": "Fixing a missing contract regenerates the file", "statement": "When the Solidity file has no contract and the generated test names are distinct, fixing yields exactly the scaffolded source (with default options), and check reports nothing afterwards.", "quantifier": "every tree", "why_tests_cant": "arbitrary trees", "anchors": ["crates/foundry/src/check/violation.rs:fix"]}
{"id": "C47", "title": "Renaming touches only the contract name", "statement": "Fixing a contract-name mismatch changes the contract's name and nothing else. (False: every occurrence of `contract <old>` as a text prefix is rewritten; proved when the phrase occurs once.)", "quantifier": "every source text", "why_tests_cant": "arbitrary texts", "anchors": ["crates/foundry/src/check/violation.rs:fix"]}
{"id": "C48", "title": "scaffold never overwrites without -f and never writes without -w", "statement": "Without -w no file changes; with -w but not -f an existing file is left untouched; every write goes to the tree path with extension t.sol.", "quantifier": "every file system, list of paths and flags", "why_tests_cant": "arbitrary file systems and file lists", "anchors": ["crates/bulloak/src/scaffold.rs:run", "crates/bulloak/src/scaffold.rs:process_file", "crates/bulloak/src/scaffold.rs:write_file"]}
{"id": "C49", "title": "One bad tree does not stop scaffold", "statement": "Every good tree of the list is processed regardless of unreadable and rejected ones, and the exit code is 1 exactly when some file failed to be read or translated, else 0. Only a tree whose generated code the formatter rejects crashes the command, and then the trees after it are not processed.", "quantifier": "every list of files", "why_tests_cant": "any number and position of failures", "anchors": ["crates/bulloak/src/scaffold.rs:run", "crates/bulloak/src/scaffold.rs:process_file"]}
{"id": "C50", "title": "check only writes with --fix", "statement": "check without --fix, or with --fix --stdout, writes no file; with --fix it writes only the Solidity files next to the given trees.", "quantifier": "every file system and list", "why_tests_cant": "arbitrary file systems", "anchors": ["crates/bulloak/src/check.rs:run", "crates/bulloak/src/check.rs:write"]}
{"id": "C51", "title": "check's exit code", "statement": "Without --fix, check exits 0 exactly when there are no violations and no unreadable/missing/unparsable files, and 1 otherwise, unless checking some file crashes. With --fix it exits 0 unless fixing crashes (files that could not be opened are silently ignored).", "quantifier": "every file system and list", "why_tests_cant": "arbitrary lists", "anchors": ["crates/bulloak/src/check.rs:run", "crates/bulloak/src/check.rs:exit"]}
{"id": "C52", "title": "scaffold -w is idempotent", "statement": "Running scaffold -w twice, with the same flags, leaves the same files as running it once, also when trees share an output path, provided no input path itself is one of the outputs.", "quantifier": "every file system and list", "why_tests_cant": "arbitrary file systems", "anchors": ["crates/bulloak/src/scaffold.rs:run", "crates/bulloak/src/scaffold.rs:write_file"]}
{"id": "C53", "title": "Error messages point at what is wrong", "statement": "The message for a rejected tree names the error and, below it, shows the line number and column, the source line and an underline of exactly the offending characters: the illegal title character for tokenizer errors, a token that fits the error for parser errors (an empty tree has no excerpt), and the offending tree element for every semantic error, in order. The only case without excerpt is a one-character span at the very start of the text.", "quantifier": "every rejected text, every error kind", "why_tests_cant": "arbitrary texts", "anchors": ["crates/syntax/src/error.rs:format_error", "crates/syntax/src/error.rs:notate", "crates/syntax/src/parser.rs:Error", "crates/syntax/src/tokenizer.rs:Error", "crates/syntax/src/semantics.rs:Errors"]}
{"id": "C54", "title": "Violation line numbers are right", "statement": "The line reported for a missing function is the line of its condition in the tree file, and for an order violation the line of the function in the Solidity file. (False for second and later trees of a file and for non-ASCII sources; proved otherwise.)", "quantifier": "every file", "why_tests_cant": "arbitrary preceding text", "anchors": ["crates/foundry/src/check/utils.rs:offset_to_line", "crates/foundry/src/check/rules/structural_match.rs:check_fns_structure", "crates/syntax/src/lib.rs:parse"]}
{"id": "C55", "title": "Invalid trees are reported as tree errors", "statement": "When check meets a tree the front end rejects, the message shows the front-end error. (False for semantic errors: they are reported as a Solidity parse failure.)", "quantifier": "every rejected tree", "why_tests_cant": "all error kinds", "anchors": ["crates/foundry/src/check/violation.rs:format_frontend_error", "crates/syntax/src/semantics.rs:Errors"]}
{"id": "C56", "title": "The parser accepts exactly the documented grammar", "statement": "A tokenizable text is parsed into a tree exactly when its tokens are a root word followed by branch headers (a glyph and at least one word, the first one being a keyword for branches and a plain word for descriptions, conditions having a title) nested by indentation, top-level branches being drawn ├ ... └; the resulting tree is the unique one the grammar assigns.", "quantifier": "all texts", "why_tests_cant": "Both directions range over infinitely many token sequences; tests only sample accepted and rejected ones.", "anchors": ["crates/syntax/src/parser.rs: Parser::parse, parse_root, parse_branch, parse_condition, parse_action, parse_description"]}
{"id": "C57", "title": "Translation is total", "statement": "Translating any text, under any configuration, ends with a contract or an error; it never panics.", "quantifier": "every text, every configuration, every hash order", "why_tests_cant": "all texts", "anchors": ["crates/foundry/src/hir/mod.rs:translate", "crates/foundry/src/hir/translator.rs:Translator"]}
{"id": "C58", "title": "Combined contracts are consistent", "statement": "In the contract of a file with several trees all function and modifier names are distinct and every modifier a function uses is declared earlier in the contract.", "quantifier": "every file with two or more trees", "why_tests_cant": "any number of trees of any depth", "anchors": ["crates/foundry/src/hir/combiner.rs:combine", "crates/foundry/src/hir/combiner.rs:collect_modifier"]}
{"id": "C59", "title": "Scaffold then check is clean", "statement": "After scaffold -w -f on trees with distinct test names and their own output files, check on the same trees reports nothing and exits 0, provided the written Solidity text reads back as the contract it was printed from.", "quantifier": "every file system, every list of trees, every flag combination", "why_tests_cant": "all trees and file systems", "anchors": ["crates/bulloak/src/scaffold.rs:run", "crates/bulloak/src/check.rs:run", "crates/foundry/src/check/rules/structural_match.rs:check"]}
{"id": "C60", "title": "Fix then check is clean", "statement": "After check --fix on trees with their own Solidity files, whose fixes each repair their file, check on the same trees reports nothing and exits 0.", "quantifier": "every file system and list of trees", "why_tests_cant": "all trees, contracts and file systems", "anchors": ["crates/bulloak/src/check.rs:run", "crates/foundry/src/check/context.rs:fix"]}
{"id": "C61", "title": "scaffold reports every problem", "statement": "Unless it crashes, scaffold writes to standard error: a warning for exactly the Solidity files it leaves alone (with -w, without -f, the file was there or was just written for an earlier tree), an error for exactly the failed writes, and at the end each unreadable or rejected tree with its error message and path, in order, and their number. A failed write does not change the exit code. After a crash of the formatter the failed trees before it are not reported.", "quantifier": "every file system, list of trees and flags", "why_tests_cant": "arbitrary lists and file systems", "anchors": ["crates/bulloak/src/scaffold.rs:run", "crates/bulloak/src/scaffold.rs:write_file", "crates/bulloak/src/scaffold.rs:report_errors"]}
{"id": "C62", "title": "check reports every problem", "statement": "Without --fix, unless it crashes, check reports one violation per tree it cannot work on, saying which file could not be read, was rejected, is missing or could not be parsed, then the violations of all other trees in order, and how many there are and how many of them can be fixed; if there are none it says so. With --fix it prints the number of fixable violations (and with --stdout the fixed code of each file between markers), and reports failed writes, but says nothing about the trees it cannot work on.", "quantifier": "every file system, list of trees and flags", "why_tests_cant": "arbitrary lists and file systems", "anchors": ["crates/bulloak/src/check.rs:run", "crates/bulloak/src/check.rs:exit", "crates/bulloak/src/check.rs:write", "crates/foundry/src/check/context.rs:new"]}
{"id": "C63", "title": "Hints name the right file", "statement": "The command suggested with a violation (bulloak check --fix FILE, bulloak scaffold FILE) names the tree file it is about. (True for files called *.tree with no other .t.sol in their path; refuted in general.)", "quantifier": "every path, every violation", "why_tests_cant": "arbitrary paths", "anchors": ["crates/foundry/src/check/violation.rs:fmt", "crates/foundry/src/check/violation.rs:help"]}
{"id": "C64", "title": "Line numbers in error messages are those of the file", "statement": "The line shown with a tree error is the line of the offending characters in the given file. (True for a file with a single tree starting at the first character; for later trees the line is counted from the start of that tree, which is stated exactly and refuted as a file line.)", "quantifier": "every rejected file with any number of trees", "why_tests_cant": "arbitrary preceding trees and blank lines", "anchors": ["crates/syntax/src/lib.rs:parse", "crates/syntax/src/splitter.rs:split_trees", "crates/syntax/src/error.rs:format_error"]}
{"id": "C65", "title": "check accepts a conforming contract wherever it is in the file", "statement": "check is silent exactly if the Solidity file has a contract with the name, functions and order the tree asks for. (True if no other contract, interface or library is in front; refuted otherwise: check looks at the first one only and asks to rename it.)", "quantifier": "every tree and parsed Solidity file with any number of contracts", "why_tests_cant": "arbitrary files with helpers and interfaces", "anchors": ["crates/foundry/src/sol/mod.rs:find_contract", "crates/foundry/src/check/rules/structural_match.rs:check_contract_structure"]}
{"id": "C66", "title": "check never crashes", "statement": "Checking a Solidity file that was read and parsed ends with a list of violations, not with a crash. (True for ASCII files; refuted otherwise: byte offsets are looked up in a list of characters. The exact condition for a crash is proved.)", "quantifier": "every tree and parsed Solidity file", "why_tests_cant": "arbitrary characters and offsets", "anchors": ["crates/foundry/src/check/utils.rs:offset_to_line", "crates/foundry/src/check/rules/structural_match.rs:check_contract_structure"]}
{"id": "C67", "title": "Results are reproducible", "statement": "Files written, standard output and exit code of both commands do not depend on the iteration order of hash maps. Neither does standard error, except that several semantic errors of one tree may come in another order when scaffolding.", "quantifier": "every list of files, every pair of iteration orders, every configuration", "why_tests_cant": "iteration order is random per process", "anchors": ["crates/syntax/src/semantics.rs:SemanticAnalyzer::analyze", "crates/bulloak/src/scaffold.rs:Scaffold::run", "crates/bulloak/src/check.rs:Check::run"]}
{"id": "C68", "title": "Comments and blanks do not change the output", "statement": "Two tree files whose trees read the same (same glyphs and words, separated at the same places) with branch glyphs in the same columns are both accepted or both rejected, and the generated Solidity is identical. Removing a comment, or adding or removing blanks behind the last glyph of a line, gives such a pair.", "quantifier": "every pair of tree files, every configuration, every hash order", "why_tests_cant": "arbitrary comments, blanks and line breaks at arbitrary places", "anchors": ["crates/syntax/src/tokenizer.rs:Tokenizer", "crates/syntax/src/parser.rs:Parser", "crates/foundry/src/scaffold/mod.rs:scaffold"]}
{"id": "C69", "title": "The amount of indentation does not change the output", "statement": "Two tree files whose trees read the same and whose branch glyphs are indented alike (a glyph is left of another in both or in none) are both accepted or both rejected, and the generated Solidity is the same up to white space.", "quantifier": "every pair of tree files, every configuration, every hash order", "why_tests_cant": "arbitrary depth and indentation steps", "anchors": ["crates/syntax/src/parser.rs:parse_condition", "crates/syntax/src/parser.rs:parse_action", "crates/syntax/src/parser.rs:parse_description"]}
{"id": "C70", "title": "Windows line endings do not change the output", "statement": "A tree file gives the same Solidity with LF and with CRLF line endings. (True for files with one tree; refuted for several trees: with CRLF a file is never split.)", "quantifier": "every tree file, every configuration, every hash order", "why_tests_cant": "arbitrary number of trees and blank lines", "anchors": ["crates/syntax/src/splitter.rs:split_trees", "crates/syntax/src/tokenizer.rs:Tokenizer"]}
{"id": "C71", "title": "What check prints about a file", "statement": "Every message of check about a tree is a warning that states the problem with the names expected and found, gives a hint where there is one, and ends with the file and line; a tree that cannot be checked is reported with the reason and the file at fault.", "quantifier": "every tree, Solidity file and file system", "why_tests_cant": "arbitrary names and numbers of violations", "anchors": ["crates/foundry/src/check/violation.rs:Violation", "crates/foundry/src/check/rules/structural_match.rs:check"]}
{"id": "C72", "title": "The layout of a tree does not change the verdict of check", "statement": "Adding or removing comments and blanks in a tree file, or changing its indentation without changing the nesting, does not change which violations check reports against a Solidity file (only the line in the tree and the comment text of a missing function may change), nor whether it crashes, nor its exit code.", "quantifier": "all pairs of tree files that read the same, every Solidity file, every list of files, every hash order", "why_tests_cant": "unbounded trees, layouts and Solidity files; two runs are compared", "anchors": ["crates/syntax/src/tokenizer.rs:Tokenizer", "crates/foundry/src/check/rules/structural_match.rs:check", "crates/bulloak/src/check.rs:run"]}
{"id": "C73", "title": "When generated names are Solidity identifiers", "statement": "A name generated from a single-tree file is accepted by solc as an identifier if and only if it consists of ASCII characters. (Exact form of C17, which is refuted.)", "quantifier": "every accepted single-tree file, every hash order", "why_tests_cant": "an equivalence over unboundedly many trees; tests show single cases of one direction", "anchors": ["crates/foundry/src/hir/translator.rs:Translator"]}
{"id": "C74", "title": "When test names are unique", "statement": "The tests generated from a single-tree file have distinct names if and only if the names of the actions below the root are distinct and differ from the test names of the conditions that have actions. (Exact form of C26, which is refuted.)", "quantifier": "every accepted single-tree file, every hash order", "why_tests_cant": "an equivalence over unboundedly many trees; tests show single cases of one direction", "anchors": ["crates/foundry/src/hir/translator.rs:Translator"]}
{"id": "C75", "title": "When tests follow the order of the file", "statement": "The comments of the generated contract are those of the actions, each condition's own actions before those of its nested conditions; this is the order of the file if and only if every condition lists its actions before its nested conditions. (Exact form of C27, which is refuted.)", "quantifier": "every accepted single-tree file, every hash order", "why_tests_cant": "an equivalence over unboundedly many trees; tests show single cases of one direction", "anchors": ["crates/foundry/src/hir/translator.rs:Translator"]}
{"id": "C76", "title": "When combining loses a test", "statement": "Combining the trees of a file keeps every test if and only if the prefixed test names are distinct. (Exact form of the loss noted in C29.)", "quantifier": "every accepted file with at least two trees, every configuration and hash order", "why_tests_cant": "an equivalence over unboundedly many trees; tests show single cases of one direction", "anchors": ["crates/foundry/src/hir/combiner.rs:Combiner"]}
{"id": "C77", "title": "When combined names are identifiers", "statement": "All function names of a combined contract are Unicode identifiers if and only if the capitalised function parts of the roots consist of identifier characters. (Exact form of C31, which is refuted.)", "quantifier": "every accepted file with at least two trees that combines, every configuration and hash order", "why_tests_cant": "an equivalence over unboundedly many trees; tests show single cases of one direction", "anchors": ["crates/foundry/src/hir/combiner.rs:Combiner"]}
{"id": "C78", "title": "When tree text stays inside its comments", "statement": "No comment generated from a single-tree file contains a line terminator of solc if and only if no action or description contains a vertical tab, a form feed, U+2028 or U+2029. (Exact form of C35, which is refuted.)", "quantifier": "every accepted single-tree file, every hash order", "why_tests_cant": "an equivalence over unboundedly many trees; tests show single cases of one direction", "anchors": ["crates/syntax/src/tokenizer.rs:Tokenizer", "crates/foundry/src/hir/translator.rs:Translator"]}
{"id": "C79", "title": "When check accepts what scaffold wrote", "statement": "check reports nothing for a file whose first contract has the name and the functions scaffold writes if and only if functions of the same kind and name, if any, stand next to each other. (Exact form of C41, which is refuted.)", "quantifier": "every accepted file, every pair of configurations with compatible -m, every hash order", "why_tests_cant": "an equivalence over unboundedly many trees; tests show single cases of one direction", "anchors": ["crates/foundry/src/check/rules/structural_match.rs:check"]}
{"id": "C80", "title": "When check crashes", "statement": "Checking a file that was read and parsed crashes if and only if a wrong contract name or a misplaced function to be reported starts at a byte offset not less than the number of characters of the file minus one. (Exact form of C66, which is refuted.)", "quantifier": "every tree with one contract and every Solidity file with a contract", "why_tests_cant": "an equivalence over unboundedly many trees; tests show single cases of one direction", "anchors": ["crates/foundry/src/check/utils.rs:offset_to_line", "crates/foundry/src/check/rules/structural_match.rs:check"]}
{"id": "C81", "title": "What renaming a contract rewrites", "statement": "Fixing a contract-name mismatch rewrites every occurrence of `contract <old name>` found from left to right, in code, comments and as the beginning of longer names alike, and changes nothing else. (Exact behaviour behind the refuted C47.)", "quantifier": "every Solidity text, all names, every Solidity parser", "why_tests_cant": "arbitrary texts with any number of occurrences", "anchors": ["crates/foundry/src/check/violation.rs:fix"]}
{"id": "C82", "title": "The whole text of the emitter", "statement": "For a tree with one contract the emitter writes the licence line, the pragma, and the contract with its functions in order, separated by empty lines, each with its modifiers and comments on lines of their own; an empty contract is written as {}.", "quantifier": "every contract and configuration", "why_tests_cant": "any number of functions, modifiers and comments", "anchors": ["crates/foundry/src/scaffold/emitter.rs:Emitter"]}
{"id": "C83", "title": "Which Solidity line is reported", "statement": "The line reported for a wrong contract name or a misplaced function is one more than the number of line feeds among the first o + 2 characters of the file, where o is its byte offset. (Exact behaviour behind the refuted part of C54.)", "quantifier": "every tree and Solidity file for which check does not crash", "why_tests_cant": "arbitrary files, in particular with non-ASCII text", "anchors": ["crates/foundry/src/check/utils.rs:offset_to_line"]}
{"id": "C84", "title": "When the suggested command names the tree file", "statement": "The command suggested with a violation names the tree file if and only if .t.sol does not occur in its path (violations located in the tree), or if and only if it is called *.tree and .t.sol does not occur before that (violations located in the Solidity file). (Exact form of the refuted C63, for the fix hint.)", "quantifier": "every tree path, file system and Solidity file", "why_tests_cant": "arbitrary paths", "anchors": ["crates/foundry/src/check/violation.rs:Violation"]}
{"id": "C85", "title": "Glyphs of nested branches do not matter", "statement": "Exchanging ├ and └ of nested branches of an accepted tree changes neither what is read nor the generated file; an accepted tree with any glyphs exchanged is accepted if and only if the glyphs directly below the root are unchanged. (Exact behaviour behind the refuted part of C06.)", "quantifier": "every accepted text and every choice of exchanged glyphs", "why_tests_cant": "arbitrary depth, width and choices", "anchors": ["crates/syntax/src/parser.rs:parse_branch", "crates/syntax/src/parser.rs:Parser"]}
{"id": "C86", "title": "What a command line means", "statement": "bulloak scaffold (check) runs exactly if its arguments are files and options of that command, in any order and spelling (--name, --name=value, letters run together, values in the same or the next argument, files after --), no option twice, -f only with -w, --stdout only with --fix; it then runs with exactly these files in order, these flags, and the Solidity version given or 0.8.0.", "quantifier": "all argument lists", "why_tests_cant": "arbitrarily many arguments and spellings", "anchors": ["crates/bulloak/src/cli.rs:run", "crates/bulloak/src/scaffold.rs:Scaffold", "crates/bulloak/src/check.rs:Check"]}
{"id": "C87", "title": "What a command line can change", "statement": "Every file bulloak changes is the Solidity file next to a file named on the command line, and only scaffold with -w or --write-files, or check with --fix, changes files; the exit code is 2 exactly if the command line is refused, and then no file changes; without arguments it is refused, and if neither a command is run nor the command line refused, one of the arguments asks for help or the version.", "quantifier": "all argument lists, file systems and paths", "why_tests_cant": "arbitrary arguments and file systems", "anchors": ["crates/bulloak/src/main.rs:main", "crates/bulloak/src/cli.rs:run", "crates/bulloak/src/scaffold.rs:process_file", "crates/bulloak/src/check.rs:write"]}
{"id": "C88", "title": "Tree text never becomes code", "statement": "If the tree file contains only ASCII characters and the four branch glyphs, no vertical tab and no form feed, and its root is a Solidity identifier that is not a reserved word (for several trees: the function parts of the roots consist of identifier characters), then the Solidity compiler reads in the generated file exactly: the pragma with the requested version, with -S the import of Test, one contract with the root's name (with -S inheriting Test), and in order the expected modifiers and external functions with their modifiers, whose bodies contain only the vm.skip statements asked for. Whatever else the tree says (comment marks, braces, quotes) stays in comments.", "quantifier": "all tree texts, all configurations with a version without quotes, newlines and semicolons, all hash orders", "why_tests_cant": "arbitrary titles and tree shapes; an injection needs one unlucky character", "anchors": ["crates/foundry/src/scaffold/mod.rs:scaffold", "crates/foundry/src/sol/translator.rs:translate", "crates/foundry/src/sol/fmt.rs:emit", "crates/foundry/src/sol/fmt.rs:cleanup_comments"]}
{"id": "C89", "title": "Generated names are never reserved words", "statement": "The name of every generated function and modifier, and of every modifier applied to a function, starts with test_, or, ignoring case, with when or given; none of them is a keyword or reserved word of Solidity.", "quantifier": "all tree texts, configurations and hash orders", "why_tests_cant": "arbitrary titles", "anchors": ["crates/foundry/src/hir/translator.rs:visit_condition", "crates/foundry/src/scaffold/modifiers.rs:visit_condition", "crates/foundry/src/hir/combiner.rs:combine"]}
{"id": "C90", "title": "Generated files are read back", "statement": "A Solidity file can be divided in at most one way into what is in front of its first contract, the contract's header, its parts and the rest. If the Solidity parser reads every valid file according to that division, the functions and headers bulloak writes are valid, and the formatter keeps the tokens of generated files, then the parser finds in the file written for a tree the contract of the tree and exactly its functions, in order; and after `scaffold -w`, `check` on the same trees exits with 0. This holds for every tree whose names are Solidity identifiers, not reserved, and whose comments contain no Solidity line terminator; in particular for ASCII trees.", "quantifier": "all tree texts, configurations, hash orders, file systems, and all parsers and formatters that satisfy the conditions", "why_tests_cant": "quantifies over all trees and over the behaviour of external tools", "anchors": ["crates/foundry/src/scaffold/mod.rs:scaffold", "crates/foundry/src/sol/fmt.rs:emit", "crates/bulloak/src/scaffold.rs:run", "crates/bulloak/src/check.rs:run"]}
{"id": "C91", "title": "Fixing goes from valid files to valid files", "statement": "Starting from a valid Solidity file, every text `check --fix` goes through (contract renamed, missing functions inserted one after the other, functions sorted) is again a valid file, whatever comments and other parts the file has. So, if the Solidity parser reads every valid file correctly, fixing a valid file whose functions are in order inserts exactly the missing functions and afterwards nothing is reported; and a file with only functions of the tree, no three mutually reversed, and whose function texts do not occur elsewhere is completed and sorted, and afterwards nothing is reported. The header of the contract must contain no opening brace (in a comment), and if the contract is renamed, `contract` with the old name must occur once.", "quantifier": "all trees with readable names, all valid files, all parsers that read valid files correctly", "why_tests_cant": "quantifies over all Solidity files and parsers", "anchors": ["crates/foundry/src/check/violation.rs:fix", "crates/foundry/src/check/context.rs:insert_function_at", "crates/foundry/src/check/violation.rs:fix_order", "crates/bulloak/src/check.rs:run"]}
{"id": "C92", "title": "Fix, then check, for all valid files", "statement": "For trees whose functions can be read as Solidity and differ, and valid ASCII Solidity files that can be repaired (functions in order and no crash as in C93, or only functions of the tree with no three mutually reversed and no function text occurring elsewhere), `check --fix` exits with 0 and afterwards `check` exits with 0; for every parser that reads valid files correctly and every formatter that keeps the contract's name and functions.", "quantifier": "all sets of tree files, Solidity files, file systems, parsers and formatters that satisfy the conditions", "why_tests_cant": "quantifies over all Solidity files and over the behaviour of external tools", "anchors": ["crates/bulloak/src/check.rs:run", "crates/foundry/src/check/violation.rs:fix", "crates/foundry/src/check/rules/structural_match.rs:check_fns_structure"]}
{"id": "C93", "title": "When fixing crashes", "statement": "On a valid Solidity file whose functions are in the order of the tree, `check --fix` panics if and only if modifiers are skipped with -m and a missing test comes directly behind a missing modifier in the tree.", "quantifier": "all trees with readable names, all valid files in order, all parsers that read valid files correctly", "why_tests_cant": "an equivalence over all files; tests show single crashes only", "anchors": ["crates/foundry/src/check/violation.rs:fix", "crates/foundry/src/check/violation.rs:get_insertion_offset"]}
{"id": "C94", "title": "What Windows line endings do", "statement": "A file with Windows line endings that contains more than comments gives the same Solidity, or is rejected, exactly as the same file with Unix line endings and without its empty lines: several trees are read as one. There are files of two trees where both forms are accepted and the results differ.", "quantifier": "all texts with a line that is neither blank nor a comment, all configurations and hash orders", "why_tests_cant": "an equivalence over all texts", "anchors": ["crates/syntax/src/splitter.rs:split_trees", "crates/syntax/src/tokenizer.rs:tokenize"]}
{"id": "C95", "title": "Adding branches to a tree only adds their functions", "statement": "If a file has one tree and branches or descriptions are added to it (anywhere, but not in front of the first action of a condition), every function keeps its kind and name, the order is kept, and functions at most gain modifiers and comments. Against a Solidity file that conformed to the old tree, check reports exactly the new functions as missing, in order, each with the line of its branch; check --fix inserts exactly these, keeps everything else, and the result conforms to the new and the old tree. So check on the command line, having succeeded before, exits with 1 afterwards, unless -m is given and only modifiers are new, when it still succeeds.", "quantifier": "all pairs of accepted trees related by additions at any depth, all conforming files in which the new functions are absent (for the fix: all valid files and all parsers that read valid files correctly), all configurations", "why_tests_cant": "relates two runs on all pairs of trees; tests fix one tree and one file", "anchors": ["crates/foundry/src/hir/translator.rs:translate", "crates/foundry/src/check/rules/structural_match.rs:check", "crates/foundry/src/check/violation.rs:fix"]}
{"id": "C96", "title": "Removing branches never makes check complain", "statement": "If a Solidity file conforms to a tree and branches or descriptions are removed from the tree (but not the first action of a condition while others stay), check has nothing to report for the smaller tree: test functions without a branch are not reported. A check that succeeded on any list of tree files still exits with 0 after such removals in any of them.", "quantifier": "all pairs of accepted trees with the same root related by removals at any depth, all files, all configurations", "why_tests_cant": "relates two runs on all pairs of trees", "anchors": ["crates/foundry/src/check/rules/structural_match.rs:check"]}
{"id": "C97", "title": "Adding branches to one of several trees only adds their functions", "statement": "If branches are added to trees of a file with several trees, all functions keep their names and order, and check against a Solidity file that conformed reports exactly the functions that were added.", "quantifier": "all pairs of accepted files with at least two trees related by additions at any depth, all conforming files, all configurations", "why_tests_cant": "relates two runs on all pairs of files; fails only if an added condition repeats a condition of another tree", "anchors": ["crates/foundry/src/hir/combiner.rs:combine", "crates/foundry/src/check/rules/structural_match.rs:check"]}
{"id": "C98", "title": "Appending a tree to several trees only appends functions", "statement": "If trees are appended to a file that has at least two trees, all functions stay unchanged and in front of the new ones; check against a Solidity file that conformed reports exactly the new functions as missing, in order; and a Solidity file that conforms to the longer file conforms to the shorter one. A check that succeeded on any list of tree files still exits with 0 after trees were removed from the end of any of them, two trees or more remaining.", "quantifier": "all accepted files with at least two trees and all accepted extensions by further trees, all Solidity files in which the new functions are absent, all configurations", "why_tests_cant": "relates two runs on all pairs of files, with shared modifiers", "anchors": ["crates/foundry/src/hir/combiner.rs:combine", "crates/foundry/src/check/rules/structural_match.rs:check"]}
{"id": "C99", "title": "Sorting works if every function is declared once", "statement": "If the contract of a valid ASCII file consists of functions of the tree, no three of them reversed, and every function of the tree is declared (`function name(` or `modifier name(`) once in the file if present and nowhere if missing, then check --fix adds exactly the missing functions, sorts all of them into tree order without losing or duplicating any text of a function, and nothing is reported afterwards.", "quantifier": "all trees with distinct functions, all Solidity file texts and function bodies meeting the condition, any number of functions", "why_tests_cant": "the code moves functions by replacing their text wherever it occurs, so success depends on all occurrences in arbitrary text after any number of insertions", "anchors": ["crates/foundry/src/check/violation.rs:fix_order", "crates/foundry/src/check/violation.rs:fix"]}
{"id": "C100", "title": "Fixing keeps all code, also what is not in the tree", "statement": "On a valid ASCII file whose contract may contain anything besides functions of the tree (variables, helper functions, comments between them), in any order, each function of the tree being declared at most once, check --fix without -m succeeds and writes a valid file in which: the text outside of the contract's braces is unchanged except for the contract's name; each part of the contract is an old part, with its text, or a missing function, and each of these is there (when functions of the tree are reversed one can be there twice, see C44); parts that are not in the tree keep their relative order; and every text between two parts is still there.", "quantifier": "all trees with distinct functions, all valid files with any number of parts in any order and any text between them, meeting the conditions (functions have names, those named like a function of the tree are of its kind)", "why_tests_cant": "sorting cuts and blanks text at byte offsets and by searching for it, in files with arbitrary content", "anchors": ["crates/foundry/src/check/violation.rs:fix_order", "crates/foundry/src/check/violation.rs:fix"]}
{"id": "C101", "title": "Exactly when sorting among other code works", "statement": "On the files of C100 in which no three functions of the tree are reversed, check --fix without -m leaves each old part and each missing function exactly once, and check reports nothing afterwards if and only if there is no function of the tree that stays in place, has a part that is not in the tree somewhere in front of it, and is followed in the tree by a function that has to be moved.", "quantifier": "all trees with distinct functions, all such files, any number of functions and other parts", "why_tests_cant": "an equivalence over all interleavings of tree functions and other parts", "anchors": ["crates/foundry/src/check/violation.rs:fix_order", "crates/foundry/src/check/rules/structural_match.rs:check"]}
{"id": "C102", "title": "Tree and Solidity file stay in step over a whole session", "statement": "After `scaffold -w` on a tree file, through any sequence of: commands of bulloak on this tree (scaffold, scaffold -w, check, check --fix), changes of other files, adding branches to the tree, removing branches from it, any other change of the tree that keeps its title and leaves the functions of the tree that the contract has in order, and edits of the Solidity file that keep it valid, keep the name of the contract and keep the functions of the tree that it contains in order, the following always holds: check exits with 0 or 1 and reports exactly the functions of the current tree that the file lacks, as missing; check --fix exits with 0, leaves the tree file alone and keeps all functions; and check afterwards exits with 0.", "quantifier": "all tree texts with one legible tree and distinct functions, all file systems, all sequences of steps of any length, all Solidity file texts reached by them, all formatters and parsers meeting the stated assumptions", "why_tests_cant": "an invariant over all executions of unbounded length that mix runs of the program with edits by the user", "anchors": ["crates/bulloak/src/main.rs:main", "crates/bulloak/src/scaffold.rs:run", "crates/bulloak/src/check.rs:run", "crates/foundry/src/check/violation.rs:fix", "crates/foundry/src/check/rules/structural_match.rs:check"]}
{"id": "C103", "title": "Fixing twice is the same as fixing once", "statement": "If all Solidity files conform to their trees and are formatted, check --fix prints that 0 issues were fixed, exits with 0 and leaves the file system exactly as it was. In particular, after a check --fix whose fixes conform and survive formatting, a second check --fix does exactly that.", "quantifier": "all lists of tree files, all file systems, all parsers, all formatters that leave formatted code alone", "why_tests_cant": "quantifies over all file systems, numbers of files and formatters", "anchors": ["crates/bulloak/src/check.rs:run", "crates/foundry/src/check/violation.rs:fix", "crates/foundry/src/check/context.rs:fmt"]}
{"id": "C104", "title": "One fix repairs different kinds of files", "statement": "check --fix (writing to files) exits with 0, check afterwards exits with 0 and a second check --fix changes nothing, when each of the given files is of one of these kinds: it has no contract; or its functions of the tree are in order, some possibly missing; or it mixes functions of the tree in any order with other code, such that no three of them are reversed and none stays in place behind foreign code while a later one has to move.", "quantifier": "all lists of tree files with separate Solidity files, any mix of the three kinds, all texts of the files, all parsers reading valid files correctly, all formatters that keep contracts and leave formatted code alone", "why_tests_cant": "a statement about all file systems and all mixes of files", "anchors": ["crates/bulloak/src/check.rs:run", "crates/foundry/src/check/violation.rs:fix", "crates/foundry/src/check/violation.rs:fix_order"]}
{"id": "C105", "title": "One run over many files is many runs over few files", "statement": "Running scaffold, check or check --fix on a list of tree files has the same effect as running it on a first part of the list and then on the rest: the same files are written and the same outputs and problems are reported (the summaries add up), and it exits with 0 exactly if both runs do; after a crash the remaining files are not touched. For check --fix the Solidity files have to be separate. For scaffold and check --fix with separate Solidity files the order of the tree files does not matter for the exit code and the resulting files, unless something crashes.", "quantifier": "all lists of tree files and ways to split or permute them, all file systems, all options, parsers and formatters", "why_tests_cant": "quantifies over all file systems, lists of files and ways to cut them", "anchors": ["crates/bulloak/src/scaffold.rs:run", "crates/bulloak/src/check.rs:run"]}
{"id": "C106", "title": "Exactly when fixing crashes, for files in any order", "statement": "On a valid ASCII Solidity file whose contract may contain anything besides functions of the tree, in any order, each function of the tree declared at most once and no function without a name, check --fix crashes if and only if (a) it is called with -m and a missing test comes directly behind a missing modifier in the tree, or (b) some function that has to be moved has an index in the tree (counted from 0, modifiers included) that is not less than the number of parts the contract has once the missing functions are filled in; otherwise it writes a valid file. Functions to be moved are those out of order and the missing ones directly behind them. (b) only happens with -m: two exchanged tests crash it if the contract leaves its modifiers elsewhere. With a constructor, fallback or receive function in the contract, and no three functions of the tree reversed, check --fix without -m crashes if and only if the functions of the tree are not in order. (Exact form of C45, which is refuted.)", "quantifier": "all trees with readable, distinct functions, all valid ASCII files, all parsers that read valid files", "why_tests_cant": "quantifies over all trees and all Solidity files", "anchors": ["crates/foundry/src/check/violation.rs:fix_order", "crates/foundry/src/check/violation.rs:fix", "crates/foundry/src/check/rules/structural_match.rs"]}
{"id": "C107", "title": "Rearranging a tree only rearranges its functions", "statement": "If the branches of a tree are put in another order, at any depth, each condition keeping its first action, then the functions of the tree are the same in another order: same kinds, names and modifiers, and the same comments in another order. Against a Solidity file that conformed to the tree, check then reports nothing but functions out of order. On a valid ASCII file, if no three functions come in reversed order, check --fix only moves parts of the contract around; nothing is reported afterwards if and only if no function that stays has a part that is not in the tree in front of it while a later function of the tree is moved. A run of check that passed still passes after the rearrangement exactly if the functions are in the order of the new tree.", "quantifier": "all pairs of accepted files with one tree each related by rearranging, all conforming Solidity files (for the fix: valid ASCII files, all parsers that read valid files), all configurations", "why_tests_cant": "relates the runs on all pairs of trees that are rearrangements of each other", "anchors": ["crates/foundry/src/hir/translator.rs:translate", "crates/foundry/src/check/rules/structural_match.rs:check", "crates/foundry/src/check/violation.rs:fix"]}
{"id": "C108", "title": "Retitling a condition renames its modifier and its test only", "statement": "If two trees differ only in the title of one condition, at any depth, then their functions are the same in the same order, with the same bodies, except that the modifier and the test of this condition have other names and that tests below carry the modifier under the new name. Against a Solidity file that conformed to the old tree and has no functions of the new names, check reports exactly the modifier (unless -m) and the test of the condition as missing; that tests below still carry the old modifier is not reported. On a valid file check --fix adds exactly these, keeps everything else (also the functions of the old names), and the result conforms to the new tree. A run of check that passed then exits with 1, unless only a modifier got another name and -m is given.", "quantifier": "all pairs of accepted files with one tree each differing in one title, all conforming Solidity files (for the fix: valid files, all parsers that read valid files), all configurations", "why_tests_cant": "relates the runs on all pairs of trees that differ in a title", "anchors": ["crates/foundry/src/hir/translator.rs:translate", "crates/foundry/src/check/rules/structural_match.rs:check", "crates/foundry/src/check/violation.rs:fix"]}
{"id": "C109", "title": "What a second tree does to the first", "statement": "If further trees are added behind the only tree of a file and the file is still accepted, the contract is no longer called by the whole title C::f of the tree but by C; the modifiers of the tree stay, and the names of its tests are prefixed by f. Against a Solidity file that conformed to the single tree and has no other functions of the new ones, check reports the contract name (unless Cf and C are the same after removing characters), all tests, also those of the first tree, and the modifiers that are new (unless -m) - and nothing else. On a valid file check --fix renames the contract and adds exactly these; the tests of the first tree stay under their old names as well, and nothing is reported afterwards.", "quantifier": "all accepted files with one tree and all extensions by further trees, all conforming Solidity files (for the fix: valid files, all parsers that read valid files), all configurations", "why_tests_cant": "relates the runs on all pairs of a file and its extensions", "anchors": ["crates/foundry/src/hir/mod.rs:translate", "crates/foundry/src/hir/combiner.rs:combine", "crates/foundry/src/check/rules/structural_match.rs:check", "crates/foundry/src/check/violation.rs:fix"]}
{"id": "C110", "title": "Switching -m on and off", "statement": "A Solidity file conforms without -m exactly if it conforms with -m and has all modifiers of the tree. If it conforms with -m, check without -m reports exactly the modifiers it lacks, in tree order. On such a valid file check --fix without -m adds exactly these, and the result conforms with and without -m. If a valid file consists of some functions of the tree in tree order, such as the tests scaffold -m writes, check --fix without -m turns it into one that consists of all functions of the tree in tree order, as scaffold without -m writes them.", "quantifier": "all contracts of trees, all Solidity files (for the fix: valid files, all parsers that read valid files)", "why_tests_cant": "relates the runs with and without the option on all trees and files", "anchors": ["crates/foundry/src/check/rules/structural_match.rs:check", "crates/foundry/src/check/violation.rs:fix", "crates/bulloak/src/check.rs:run"]}
{"id": "C111", "title": "The generated code determines the tree", "statement": "Two trees give the same contract name and the same functions (kinds, names, modifiers, bodies, order) exactly if they have the same title and the same conditions, actions and descriptions, nested in the same way. Only three things are lost: where capitals at the start of words and blanks are in the title of a condition, where the actions of a condition stand among its nested conditions, and whether a test of the root comes from an action or from a condition with just this action, if the names agree. The same holds if only the tests are compared, and for the text of the Solidity file before formatting, with and without -m (there the title counts without the characters that are removed from it).", "quantifier": "all pairs of accepted texts with one tree each, all configurations, all iteration orders of the hash map", "why_tests_cant": "it is an injectivity statement about all pairs of trees", "anchors": ["crates/foundry/src/hir/translator.rs:translate", "crates/foundry/src/hir/combiner.rs:combine", "crates/foundry/src/sol/translator.rs:translate", "crates/foundry/src/scaffold/mod.rs:scaffold"]}
{"id": "C112", "title": "Which command lines print help and which are refused", "statement": "bulloak prints help or its version, and does nothing else, exactly for: help, alone or with the name of one command; --help, --version or an argument starting with -h or -V as the first argument; scaffold or check with --help or -h (possibly behind the letters of flags) behind properly written files and options, none twice, whatever comes behind. It is refused with exit code 2 exactly if neither this is the case nor the arguments are properly written for scaffold or check (options once, -f with -w, --stdout with --fix).", "quantifier": "all argument lists, all file systems", "why_tests_cant": "arbitrarily many arguments and spellings", "anchors": ["crates/bulloak/src/cli.rs:run", "crates/bulloak/src/main.rs:main"]}
{"id": "C113", "title": "Rewording actions goes unnoticed by check", "statement": "If in the trees of a file actions below conditions are reworded, added, removed or moved (a condition with actions keeps one, and its first one keeps reading or not reading 'it should revert'), and actions below the root keep the names of their tests, the generated contract keeps its name, its functions, their order and their modifiers; only comments change. For every Solidity file check reports the same before and after, up to the line in the tree, and exits with the same code; so it does not notice outdated comments. More generally its report depends only on the contract name and the kinds and names of the functions, and two trees whose Solidity files each pass the check against the other tree agree in these.", "quantifier": "all accepted files with any number of trees, all reworded versions, all Solidity files, conforming or not", "why_tests_cant": "infinitely many trees, edits and Solidity files", "anchors": ["crates/foundry/src/check/rules/structural_match.rs:check", "crates/foundry/src/hir/translator.rs:visit_condition", "crates/foundry/src/hir/combiner.rs:combine", "crates/bulloak/src/check.rs:run"]}
{"id": "C114", "title": "Renaming the root renames the contract and nothing else", "statement": "If the title of a tree is changed, or the contract name in all titles of a file with several trees, while names of tests are kept, the generated contract has the new name and the same functions in the same order with the same modifiers. For a Solidity file that passed the check before, check reports just that the contract's name differs (or nothing, if both titles become the same identifier); check --fix replaces the name and changes no other character of the file, and nothing is reported afterwards. A run of check that passed still passes exactly if the old and the new name give the same identifier.", "quantifier": "all accepted files with any number of trees, all new titles, all conforming Solidity files", "why_tests_cant": "infinitely many trees, titles and Solidity files", "anchors": ["crates/foundry/src/check/rules/structural_match.rs:check_contract_names", "crates/foundry/src/check/violation.rs:fix", "crates/foundry/src/hir/combiner.rs:combine"]}
{"id": "C115", "title": "Fixing works on the contract with the name of the tree", "statement": "If a Solidity file has a contract with the name the tree asks for, check --fix repairs that contract, wherever it is in the file, and does not turn another contract into one of that name.", "quantifier": "all trees, all Solidity files with any number of contracts", "why_tests_cant": "infinitely many trees and files", "anchors": ["crates/foundry/src/sol/mod.rs:find_contract", "crates/foundry/src/check/rules/structural_match.rs:check"]}
{"id": "C116", "title": "Tree files stay, and have separate Solidity files", "statement": "No command line changes a file whose name does not end in .t.sol, so tree files never change. Two different files with the extension tree never share a Solidity file (apart from .tree and .tree.tree, which do), so the order in which tree files are given to scaffold or check --fix does not matter for the exit code and the resulting files, unless something crashes.", "quantifier": "all command lines, all file systems, all lists of tree files", "why_tests_cant": "infinitely many names and command lines", "anchors": ["crates/bulloak/src/scaffold.rs:process_file", "crates/foundry/src/check/context.rs:get_path_with_ext", "crates/bulloak/src/check.rs:run"]}
{"id": "C117", "title": "A dry run shows what a real run writes", "statement": "scaffold without -w prints, for the trees it accepts, in order, exactly the texts it would save next to them with -w (with -f the last text for a path wins; without it only new files appear), with the same exit code; with -w it prints nothing. check --fix --stdout changes nothing and prints, for each tree it can work on, in order, the name of the Solidity file and (up to white space around it) the text check --fix would save there, then the same closing line, with the same exit code, even if the run crashes half-way.", "quantifier": "all file systems, lists of files, formatters and parsers", "why_tests_cant": "relates two runs over arbitrary file systems and numbers of files", "anchors": ["crates/bulloak/src/scaffold.rs:process_file", "crates/bulloak/src/scaffold.rs:write_file", "crates/bulloak/src/check.rs:run", "crates/bulloak/src/check.rs:write"]}
{"id": "C118", "title": "check --fix reports as many fixes as check announces", "statement": "If check says that n fixes can be applied, check --fix on the same files, unless it crashes, reports n fixed issues; if check finds no problem, 0. The number of failed checks is the number of messages, and there are at most that many fixes.", "quantifier": "all file systems, lists of files and flags", "why_tests_cant": "relates two runs over arbitrary file systems", "anchors": ["crates/bulloak/src/check.rs:run", "crates/bulloak/src/check.rs:exit", "crates/foundry/src/check/violation.rs:is_fixable"]}
{"id": "C119", "title": "Issues reported as fixed are fixed", "statement": "If check --fix reports success with m issues fixed, a check after it finds at least m problems fewer than one before it.", "quantifier": "all file systems, lists of files and flags", "why_tests_cant": "relates three runs over arbitrary file systems", "anchors": ["crates/bulloak/src/check.rs:run", "crates/bulloak/src/check.rs:write"]}
{"id": "C120", "title": "Keywords are case-insensitive", "statement": "Writing the keywords when, given and it of a tree in upper or lower case changes neither whether the file is accepted nor the names, kinds, modifiers and order of the generated functions, nor the exit code of check: only comments can differ.", "quantifier": "all texts, all ways of writing the keywords behind the branch glyphs, all configurations, all file systems", "why_tests_cant": "relates two runs over arbitrary texts", "anchors": ["crates/syntax/src/tokenizer.rs:scan_word", "crates/syntax/src/semantics.rs:visit_root", "crates/foundry/src/hir/translator.rs", "README.md"]}
{"id": "C121", "title": "Characters, words and numbers mean what they seem", "statement": "White space is exactly what Unicode calls White_Space; ignoring case affects exactly the ASCII letters; trimming removes exactly the white space at both ends; line, column and count numbers are shown in decimal digits without leading zeros; joined parts have the separator between them only; lengths and offsets in bytes are those of the UTF-8 encoding; names are the words of the text glued together with capital first letters.", "quantifier": "all characters, all texts, all numbers, all lists of parts", "why_tests_cant": "quantifies over all characters and all numbers", "anchors": ["crates/syntax/src/utils.rs:to_pascal_case", "crates/syntax/src/utils.rs:sanitize", "crates/syntax/src/utils.rs:upper_first_letter", "crates/syntax/src/utils.rs:lower_first_letter", "crates/syntax/src/error.rs", "crates/syntax/src/tokenizer.rs"]}
{"id": "C122", "title": "A run depends only on the files it is given", "statement": "What bulloak prints, which files it writes with which contents, and how it exits depend only on the files named on the command line and the Solidity files next to them. scaffold does not even look into the Solidity files: only whether they are there and can be written matters. Without --fix, or with --stdout, check does not depend on what can be written.", "quantifier": "all pairs of file systems, all command lines, all formatters and parsers", "why_tests_cant": "relates runs in two arbitrary file systems", "anchors": ["crates/bulloak/src/scaffold.rs:run", "crates/bulloak/src/scaffold.rs:write_file", "crates/bulloak/src/check.rs:run", "crates/foundry/src/check/context.rs:new"]}
{"id": "C123", "title": "Giving a file twice is like giving it once", "statement": "Tree files may be given to scaffold, check and check --fix in any order and any number of times: as long as the same files are named, the command ends with the same exit code and the same files are written with the same contents. Only what is printed changes: check --fix counts the issues of a file once per mention.", "quantifier": "all pairs of argument lists naming the same tree files, all file systems, options, formatters and parsers (runs that do not crash)", "why_tests_cant": "Tests give each file once; the claim is about all lists with repetitions, and about a command that reads files before or after it has written them.", "anchors": ["crates/bulloak/src/scaffold.rs:run", "crates/bulloak/src/check.rs:run"]}
{"id": "C124", "title": "What a passing check says", "statement": "bulloak check without --fix, on any command line it accepts, exits with 0 exactly if for every file named on the command line the tree file and its Solidity file can be read, the trees are valid, the Solidity file parses, and its first contract has the name of the trees and their functions in the same order (modifiers may be missing with -m). If options but no files are given, check and scaffold exit with 0 without having looked at anything.", "quantifier": "all command lines, file systems, parsers and formatters", "why_tests_cant": "Arbitrarily many files, options in every spelling and arbitrary contracts; a check used as a gate must never pass for the wrong reason.", "anchors": ["crates/bulloak/src/cli.rs:run", "crates/bulloak/src/check.rs:run", "crates/bulloak/src/check.rs:exit", "crates/foundry/src/check/rules/structural_match.rs:check"]}
{"id": "C125", "title": "What a successful scaffold says", "statement": "bulloak scaffold, on any command line it accepts, exits with 0 exactly if every file named on the command line can be read, holds valid trees, and the formatter accepts the code made of them. Then, without -w, the code of every file has been printed in the order of the files. With -w, the Solidity file of every .tree file holds its code if it can be written and either was missing or -f is given; otherwise it is exactly as before, which does not change the exit code.", "quantifier": "all command lines whose files are not named like Solidity tests (for what is written: .tree files), all file systems and formatters", "why_tests_cant": "Arbitrarily many files in arbitrary states, given in any order and more than once, and options in every spelling.", "anchors": ["crates/bulloak/src/cli.rs:run", "crates/bulloak/src/scaffold.rs:run", "crates/bulloak/src/scaffold.rs:process_file", "crates/bulloak/src/scaffold.rs:write_file"]}
{"id": "C126", "title": "Both commands accept the same trees", "statement": "No option changes which tree files are accepted, or what the error of a rejected one is. If check passes on some files then scaffold, with any options, does not exit with 1 on them. As long as neither crashes, scaffold and check on the same files reject the same files with the same errors.", "quantifier": "all texts, options, command lines, file systems, parsers and formatters; files that are not named like Solidity tests", "why_tests_cant": "relates runs of two commands on all texts and lists of files", "anchors": ["crates/bulloak/src/scaffold.rs:process_file", "crates/foundry/src/check/context.rs:new", "crates/foundry/src/hir/mod.rs:translate"]}
{"id": "C127", "title": "when and given are interchangeable", "statement": "Replacing words that open conditions (when, given, in any case) by others of these words, keeping branch glyphs in their columns, does not change whether a tree is malformed. If the tree was accepted, its contract keeps its name and its functions in order, with the same kinds and bodies, and their names and modifiers change exactly in the replaced words; the only possible complaint is that names coincide now. If all conditions of a file are opened by one word and it is replaced throughout by another, the file is accepted exactly if it was before.", "quantifier": "all trees, and all ways of exchanging the words opening conditions", "why_tests_cant": "relates the results for all pairs of trees that differ in any number of keywords", "anchors": ["README.md:264", "crates/syntax/src/tokenizer.rs:tokenize", "crates/syntax/src/parser.rs:parse_condition", "crates/syntax/src/semantics.rs:analyze", "crates/foundry/src/hir/translator.rs:visit_condition"]}
{"id": "C128", "title": "The options of scaffold do not interfere", "statement": "No option changes whether a tree file is accepted. -s changes the version in the pragma line and nothing else, -m leaves out the modifiers and nothing else, -S adds the import, the inheritance and one statement to every test and nothing else, in any combination of the three. Two calls of scaffold on the same files, in any order and with any options, exit with the same code unless one crashes.", "quantifier": "all tree texts, all combinations of options, all versions (without quotes), all command lines", "why_tests_cant": "relates the results for all combinations of options to each other, for all texts", "anchors": ["crates/bulloak/src/scaffold.rs:Scaffold", "crates/bulloak/src/cli.rs:From<&Cli> for Config", "crates/foundry/src/sol/translator.rs:visit_root", "crates/foundry/src/sol/translator.rs:visit_contract", "crates/foundry/src/hir/translator.rs:TranslatorI::new"]}
{"id": "C129", "title": "The trees of a file may be put in any order", "statement": "Two files with the same trees, in different orders (with any comments and blank lines between them), are both accepted or both rejected. If accepted, they define a contract of the same name with tests and modifiers of the same names; if no two trees ask for a test of the same name, the tests agree in their comments and modifiers as well. If a Solidity file conforms to the one, check reports nothing but functions out of order for the other, and succeeds exactly if the functions are in the new order.", "quantifier": "all tree files, all permutations of their trees, all options, all Solidity files", "why_tests_cant": "relates the results for all files with the same trees, of any number and size", "anchors": ["crates/syntax/src/splitter.rs:split_trees", "crates/foundry/src/hir/combiner.rs:combine", "crates/foundry/src/hir/mod.rs:translate", "crates/foundry/src/check/rules/structural_match.rs:StructuralMatcher"]}
{"id": "C130", "title": "A tree that is there already adds nothing", "statement": "In a file with at least two trees, any tree may be repeated further down: the file is accepted if and only if it was before, and then has the same contract with the same functions in the same order, and the same code. Repeating trees in some of the files never changes how check ends.", "quantifier": "all tree files with at least two trees, all trees in them, all places behind them, all options", "why_tests_cant": "relates the results for all files that differ in repeated trees, of any number and size", "anchors": ["crates/foundry/src/hir/combiner.rs:combine", "crates/foundry/src/hir/combiner.rs:collect_modifier", "crates/syntax/src/splitter.rs:split_trees", "crates/foundry/src/hir/mod.rs:translate"]}
{"id": "C131", "title": "Any version string may be given", "statement": "Whatever is given to -s, the generated code consists of the licence line, the pragma with that version, and a rest that does not depend on it. A version is changed only where one of its lines contains the internal form of a comment (string __bulloak_comment__ = \"...\";): that part becomes a comment, from the first place on where it starts to the last \"; of the line.", "quantifier": "all tree texts, all version strings, all options", "why_tests_cant": "all strings of any length, with quotes and line feeds", "anchors": ["crates/foundry/src/sol/fmt.rs:cleanup_comments", "crates/foundry/src/sol/translator.rs:visit_root", "crates/bulloak/src/scaffold.rs:Scaffold"]}
{"id": "C132", "title": "Two files may be joined", "statement": "A file with the trees of one file followed by those of another, each with at least two trees, is accepted if and only if both are accepted and are about the same contract. It then has the functions of the first, followed by those of the second whose names are new. If a Solidity file conforms to the joined file, it conforms to the first, and check reports nothing but functions out of order for the second.", "quantifier": "all pairs of tree files with at least two trees each, all Solidity files, all options", "why_tests_cant": "relates the results for all pairs of files, with any number of trees of any size", "anchors": ["crates/foundry/src/hir/combiner.rs:combine", "crates/foundry/src/hir/combiner.rs:collect_modifier", "crates/syntax/src/splitter.rs:split_trees", "crates/foundry/src/check/rules/structural_match.rs:check_fns_structure"]}
{"id": "C133", "title": "Conditions may be put below a new one", "statement": "Putting neighbouring conditions of a tree below a new condition adds the modifier of the new condition in front of their functions. Their tests get this modifier behind those of the conditions around the new one; nothing else changes. If a Solidity file conforms to the old tree and lacks this modifier, check reports that it is missing, and nothing else (nothing at all with -m), and --fix adds it; that the tests in the file do not carry it is not noticed. A file that conforms to the new tree conforms to the old one. Both directions are steps of a session in the sense of C102.", "quantifier": "all pairs of trees that differ in this way, at any depth, with any number of conditions, all Solidity files, all options", "why_tests_cant": "relates the results for all pairs of trees of any size and depth", "anchors": ["crates/foundry/src/hir/translator.rs:visit_condition", "crates/foundry/src/scaffold/modifiers.rs:visit_condition", "crates/foundry/src/check/rules/structural_match.rs:check_fns_structure", "crates/foundry/src/check/violation.rs:fix"]}
{"id": "C134", "title": "Editing one of several trees leaves the functions of the others alone", "statement": "If neighbouring trees of a file with several trees are replaced, added or removed, the functions of the trees in front stay exactly as they are, and of the functions of the trees behind only those are left out whose name a tree further up has too; the contract keeps its name. If a Solidity file conforms to the trees before, check reports for the trees after only functions out of order and missing functions of the new trees; after removing trees, only functions out of order.", "quantifier": "all pairs of accepted files with at least two trees each that differ in neighbouring trees, with at least one common tree; all Solidity files, all options", "why_tests_cant": "relates the results for all pairs of files, with any number of trees of any size", "anchors": ["crates/foundry/src/hir/combiner.rs:combine", "crates/foundry/src/hir/combiner.rs:collect_modifier", "crates/syntax/src/splitter.rs:split_trees", "crates/foundry/src/check/rules/structural_match.rs:check_fns_structure"]}
{"id": "C135", "title": "Renaming the function of a tree renames its tests and nothing else", "statement": "In a file with several trees, changing what follows the `::` in the title of one tree keeps the file accepted, and gives the same functions in the same order; the tests of this tree, and only these, have the new name in place of the old one behind `test_`, with the same modifiers and comments. If a Solidity file conforms to the trees before, check afterwards reports exactly the tests of this tree as missing and exits with 1, and --fix adds them under their new names and keeps the old ones.", "quantifier": "all files with at least two trees, all positions of the tree, all names before and after, all Solidity files, all options; no test of the tree has the name of a test of another tree, before or after", "why_tests_cant": "relates the results for all pairs of files of any size; names of modifiers shared between trees and tests of other trees must be shown to be unaffected", "anchors": ["crates/foundry/src/hir/combiner.rs:combine", "crates/foundry/src/hir/combiner.rs:prefix_test", "crates/foundry/src/check/rules/structural_match.rs:check", "crates/foundry/src/check/violation.rs:fix"]}
{"id": "C136", "title": "Deleting code from the Solidity file is noticed exactly", "statement": "If code is deleted from a Solidity file that conforms to its tree, check reports exactly the functions of the tree that were deleted, in the order of the tree (with -m, not the modifiers), and exits with 1; deleting anything else goes unnoticed. check --fix adds exactly these functions again, each directly behind its predecessor in the tree, keeps everything that was left, and ends with a file that conforms to the tree.", "quantifier": "all trees, all Solidity files in which no function of the tree occurs twice, all deletions of any number of parts of the contract, all options", "why_tests_cant": "quantifies over all files and all subsets of their parts", "anchors": ["crates/foundry/src/check/rules/structural_match.rs:check", "crates/foundry/src/check/violation.rs:fix", "crates/foundry/src/check/violation.rs:get_insertion_offset", "crates/bulloak/src/check.rs:run"]}
{"id": "C137", "title": "Only the functions of the tree matter to check", "statement": "If a Solidity file that conforms to its tree is worked on without bringing in or moving a function of the tree (functions are renamed, rewritten, turned into something else or deleted; other code comes, goes and moves), check reports exactly the functions of the tree that are gone, in the order of the tree (with -m, not the modifiers), and exits with 1 if there are any and with 0 otherwise; check --fix adds exactly these and keeps everything that is there. Two contracts with the same name that have the same functions of the tree in the same order get the same verdict, whatever else they contain.", "quantifier": "all trees, all conforming Solidity files in which no function of the tree occurs twice, all such changes, all options; for the verdict, all contracts", "why_tests_cant": "quantifies over all files and all changes of any number of their parts", "anchors": ["crates/foundry/src/check/rules/structural_match.rs:check", "crates/foundry/src/check/violation.rs:fix", "crates/foundry/src/sol/mod.rs:find_matching_fn", "crates/bulloak/src/check.rs:run"]}
{"id": "C138", "title": "Moving code is noticed exactly if the functions of the tree change their order", "statement": "If code is moved in a Solidity file that conforms to its tree (and code that is not in the tree is changed in any way), check stays silent and exits with 0 if and only if the functions of the tree are still in the same order in the file. All that it can report is misplaced functions: exactly those that now come after a function following them in the tree, each once, in the order of the tree.", "quantifier": "all trees, all conforming Solidity files in which no function of the tree occurs twice, all rearrangements, all options", "why_tests_cant": "quantifies over all files and all permutations of their parts", "anchors": ["crates/foundry/src/check/rules/structural_match.rs:check", "crates/foundry/src/sol/mod.rs:find_matching_fn", "crates/bulloak/src/check.rs:run"]}
{"id": "C139", "title": "Debug and release builds check alike", "statement": "A build with debug assertions reports, for every tree and every Solidity file, exactly what a release build reports, and crashes exactly when a release build does. If the positions of the parsed file are positions of its text, the assertion itself never fails.", "quantifier": "all trees, all Solidity files, all results of parsing", "why_tests_cant": "tests run with debug assertions on, users run release builds; that both agree on all inputs cannot be tested", "anchors": ["crates/foundry/src/check/utils.rs:offset_to_line", "crates/foundry/src/check/rules/structural_match.rs:check"]}
{"id": "C140", "title": "Every error about a tree can be displayed", "statement": "Whatever is wrong with a tree file, displaying the error never underflows when it turns line and column numbers into indices: a build with overflow checks prints the message and does not crash, and it is the same message that a release build prints.", "quantifier": "all tree texts that are rejected, by the tokenizer, the parser, the semantic analysis or the combiner, all options, all hash orders", "why_tests_cant": "quantifies over all rejected texts; in a release build an underflow would silently wrap around", "anchors": ["crates/syntax/src/error.rs:notate", "crates/syntax/src/error.rs:format_error"]}
{"id": "C141", "title": "check --fix undoes moves", "statement": "Let a Solidity file pass `bulloak check` (without -m), its contract consisting only of functions of the tree, each once. If the contract of another valid ASCII file has the same functions, each with the same text, in any other order in which no three functions are exactly reversed, and each function is declared once in that file (`function name(`), then `check --fix` puts the functions back: afterwards the contract has the very functions of the first file, with the same text and in the same order, and check reports nothing.", "quantifier": "all trees with distinct functions, all conforming files, all permutations of their functions without a reversed triple, any text around and between them, any number of functions", "why_tests_cant": "the code moves one function at a time by replacing text in the file; that every such permutation ends in the original order with the original text is a statement about all permutations and all texts", "anchors": ["crates/foundry/src/check/violation.rs:fix_order", "crates/foundry/src/check/violation.rs:fix"]}
{"id": "C142", "title": "What contract check --fix ends with", "statement": "Let the contract of a valid Solidity file consist only of functions of the tree, each at most once, in the order of the tree. After `bulloak check --fix` (without -m) the contract has exactly one function for each function of the tree, in the order of the tree: the one that was there, with its text, or else the generated one. This determines the contract. In particular, if functions that still are as generated are deleted from a file that passes check, check --fix writes them again with the same text in the same place. The same holds for functions in another order if the file is ASCII, each function is declared once in it and no three are reversed.", "quantifier": "all trees with distinct functions, all valid files whose contract has any selection of the functions, any bodies, any text around and between them", "why_tests_cant": "the functions are inserted one by one into arbitrary text, each next to a function that may have been inserted before; that the outcome only depends on which functions were there holds for all selections and all texts", "anchors": ["crates/foundry/src/check/violation.rs:fix", "crates/foundry/src/check/violation.rs:fix_order", "crates/foundry/src/check/context.rs:insert_function_at"]}
{"id": "C143", "title": "Filling an empty contract gives what scaffold writes", "statement": "If a valid Solidity file is, up to white space, what `bulloak scaffold` (without -S and -m) writes for a tree but with no function in the contract, then `bulloak check --fix` turns it into a file that is, up to white space, the code scaffold generates for the tree before formatting: same licence, pragma, contract, modifiers, tests and comments, in the same order. More generally, for a contract with only white space around its functions, all of them of the tree and in its order, the text after check --fix is, up to white space, the text outside the body as before, and in the body one function per function of the tree, the existing one or the generated one.", "quantifier": "all trees with distinct functions, all versions, all valid files of that shape, any number of functions", "why_tests_cant": "the two commands generate code with different emitters, and check --fix inserts the functions one after the other at positions found in arbitrary text; the equality of the results is for all trees", "anchors": ["crates/foundry/src/check/violation.rs:fix", "crates/foundry/src/check/context.rs:insert_function_at", "crates/foundry/src/sol/fmt.rs", "crates/foundry/src/scaffold/emitter.rs"]}
{"id": "C144", "title": "After check --fix the files have exactly the functions of their trees", "statement": "Let `bulloak check --fix` (without -m) be run on any number of tree files with separate, writable Solidity files. Let each Solidity file be valid ASCII, its contract consisting only of functions of its tree, each at most once, either in the order of the tree or so that no three are reversed and each is declared once in the file. Then the command exits with 0, and afterwards every Solidity file on disk is valid and its contract has exactly the functions of its tree, with the same names and kinds, in the order of the tree, and nothing else; whatever parser that reads valid files correctly and whatever formatter that keeps contracts is used.", "quantifier": "all file systems, any number of trees and files meeting the conditions, all parsers that read valid files correctly, all formatters that keep contracts", "why_tests_cant": "each run fixes, formats and writes several files one after the other; the outcome on disk is for all trees, all files and all behaviours of the external parser and formatter", "anchors": ["crates/bulloak/src/check.rs:run", "crates/foundry/src/check/violation.rs:fix", "crates/foundry/src/check/violation.rs:fix_order"]}
{"id": "C145", "title": "A contract conforms iff its functions of the tree, read from top to bottom, are those of the tree", "statement": "Let the tree name no function twice, and let the Solidity file contain a contract. Then `check` reports nothing and no function of the tree occurs twice in the contract, if and only if the contract has the name of the tree (or none) and the functions and modifiers of the tree in it, read from top to bottom with all other code left out, are exactly those of the tree in the same order. With -m, the same holds with any modifiers of the tree left out.", "quantifier": "all trees naming no function twice, all Solidity files with a contract, with and without -m", "why_tests_cant": "the verdict comes from a search per function and a comparison of positions; that this decides equality of two lists is a statement about all lists, whatever code stands in between", "anchors": ["crates/foundry/src/check/rules/structural_match.rs:check", "crates/foundry/src/check/rules/structural_match.rs:check_fns_structure"]}
{"id": "C146", "title": "check --fix brings in the tree and leaves all other code alone", "statement": "Let the contract of a valid Solidity file contain any code, with the functions of the tree in it in the order of the tree and none of them twice, and let the tree name no function twice. Then after `check --fix` without -m the file is valid, the functions of the tree in its contract, read from top to bottom, are exactly those of the tree; all other parts of the contract are there as before, with the same text and in the same order, and so are the functions of the tree that were there before; the text around the contract is the same, the name of the contract aside. With -m, if no missing function directly follows a missing modifier in the tree, the same holds, except that what is read off is all functions of the tree and the modifiers that were there before. Without -m, for any number of trees with writable ASCII Solidity files of their own, the command exits with 0 and each file on disk then has the functions of its tree, whatever parser that reads valid files correctly and whatever formatter that keeps contracts is used.", "quantifier": "all trees naming no function twice, all valid files meeting the conditions, any number of files, all parsers that read valid files correctly, all formatters that keep contracts, with and without -m", "why_tests_cant": "the functions are inserted one after the other at byte positions of a file with arbitrary other code; that none of that code is lost, moved or changed and the outcome reads off as the tree is a statement about all files", "anchors": ["crates/foundry/src/check/violation.rs:fix", "crates/foundry/src/check/context.rs:insert_function_at", "crates/bulloak/src/check.rs:run"]}
{"id": "C147", "title": "Two trees can share a contract iff they agree on the order of what they share", "statement": "Let two trees be given, neither of which names a function twice. There is a parsed Solidity file, with a named contract, with which `check` (without -m) is satisfied for both trees, if and only if both trees ask for the same name of the contract and the functions and modifiers that occur in both come in the same order in both.", "quantifier": "all pairs of trees naming no function twice, all Solidity files", "why_tests_cant": "one direction excludes all contracts whatsoever, the other constructs a common contract for any two trees; tests only show single contracts for single trees", "anchors": ["crates/foundry/src/check/rules/structural_match.rs:check", "crates/foundry/src/check/rules/structural_match.rs:check_fns_structure"]}
{"id": "C148", "title": "check --fix for a later tree keeps the file conforming to the earlier one", "statement": "Let a valid Solidity file conform to a tree (checked without -m), and let `check --fix` be run on it with another tree for a contract of the same name, such as a later version of the first tree, that names no function twice and whose functions in the file are in the order of the new tree (with -m: no missing function directly follows a missing modifier). Then all violations are fixed, and the file conforms to both trees. The functions are in that order in particular if those that both trees have come in the same order in both, and functions that only the new tree has are not in the file. For the commands on an ASCII file, without -m: `check --fix` with the new tree succeeds, and `check` succeeds afterwards with the new tree, and again once the old tree is put back.", "quantifier": "all pairs of trees, all valid files meeting the conditions, all parsers that read valid files correctly", "why_tests_cant": "the insertions are made for one tree and judged by another one; that none of them can break the order or presence the other tree asks for holds for all pairs of trees and files", "anchors": ["crates/foundry/src/check/violation.rs:fix", "crates/foundry/src/check/rules/structural_match.rs:check", "crates/foundry/src/check/violation.rs:get_insertion_offset"]}
{"id": "C149", "title": "Two trees that can share a contract are brought in by check --fix in turn, in either order", "statement": "Let two trees for contracts of the same name agree on the order of the functions they share (C147), neither naming a function twice. In a valid Solidity file, let the functions of the first tree be in order, and let there be no function that only the second tree has. If `check --fix` (without -m) is run for the first tree and then, on the resulting file, for the second one, the final file conforms to both trees. If the file has no function of either tree, the trees may be taken in either order.", "quantifier": "all pairs of trees agreeing on the order, all valid files meeting the conditions, all parsers that read valid files correctly", "why_tests_cant": "the second run inserts its functions between those the first run put there; that neither run undoes what the other needs holds for all ways two trees can overlap", "anchors": ["crates/foundry/src/check/violation.rs:fix", "crates/foundry/src/check/rules/structural_match.rs:check", "crates/foundry/src/check/violation.rs:get_insertion_offset"]}
