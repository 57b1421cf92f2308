{"id": "C01", "title": "Vocabulary lookups by name and by id are mutual inverses", "statement": "After any history of registrations, get_terminal_name_by_id(i)=Some(n) exactly when get_terminal_id_by_name(n)=Some(i), and likewise for nonterminal names; hence no two ids share a name and no two names share an id.", "quantifier": "every finite sequence of add_terminal / add_named_nonterminal / add_unnamed_nonterminal calls with arbitrary ids and names, starting from Vocabulary::new()", "why_tests_cant": "The histories are unbounded; a clash needs a particular interleaving of duplicate names and duplicate ids.", "anchors": ["src/runtime/vocabulary.rs:Vocabulary::add_terminal", "src/runtime/vocabulary.rs:add_named_nonterminal"]}
{"id": "C02", "title": "Vocabulary registrations are never overwritten", "statement": "A binding that a lookup has once returned is returned by every later lookup whatever is registered afterwards, and a registration that returns false leaves the answer of every query unchanged.", "quantifier": "every finite sequence of add_terminal / add_named_nonterminal / add_unnamed_nonterminal calls with arbitrary ids and names, starting from Vocabulary::new() and every continuation of it", "why_tests_cant": "Needs all continuations of all histories.", "anchors": ["src/runtime/vocabulary.rs:add_terminal", "src/runtime/vocabulary.rs:add_named_nonterminal", "src/runtime/vocabulary.rs:add_unnamed_nonterminal"]}
{"id": "C03", "title": "Registration succeeds exactly when id and name are unused", "statement": "add_terminal(i,n) returns true iff no terminal has name n and i is not a terminal id; add_named_nonterminal(i,n) likewise for nonterminals; add_unnamed_nonterminal(i) iff i is not a nonterminal id. After a true result the new binding is visible to every query.", "quantifier": "every finite sequence of add_terminal / add_named_nonterminal / add_unnamed_nonterminal calls with arbitrary ids and names, starting from Vocabulary::new()", "why_tests_cant": "All states reachable by any history.", "anchors": ["src/runtime/vocabulary.rs:add_terminal", "src/runtime/vocabulary.rs:add_named_nonterminal", "src/runtime/vocabulary.rs:add_unnamed_nonterminal"]}
{"id": "C04", "title": "Every registered terminal id has a name; reserved symbols persist", "statement": "In every reachable vocabulary ids 0 and 1 are the terminals _START and _STOP, get_terminal_name(i) panics iff is_terminal_id(i) is false, and get_nonterminal_name_with_default(i) is the registered name if there is one and otherwise the decimal id.", "quantifier": "every finite sequence of add_terminal / add_named_nonterminal / add_unnamed_nonterminal calls with arbitrary ids and names, starting from Vocabulary::new()", "why_tests_cant": "get_terminal_name unwraps: absence of the panic must hold in every reachable state.", "anchors": ["src/runtime/vocabulary.rs:get_terminal_name", "src/runtime/vocabulary.rs:new", "src/runtime/vocabulary.rs:get_nonterminal_name_with_default"]}
{"id": "C05", "title": "first_set terminates without panic on closed grammars", "statement": "If every nonterminal occurring in a production is registered in the vocabulary, first_set returns (the while-modified loop ends and no unwrap fails).", "quantifier": "every grammar (any finite set of productions, any vocabulary) and every hash iteration order", "why_tests_cant": "Termination and panic-freedom over all grammars, including cyclic and left-recursive ones.", "anchors": ["src/tool/grammar/mod.rs:Grammar::first_set"]}
{"id": "C06", "title": "first_set reports nullability exactly", "statement": "For every registered nonterminal A the returned allow_epsilon is true iff A derives the empty string.", "quantifier": "every grammar (any finite set of productions, any vocabulary) and every hash iteration order", "why_tests_cant": "Exactness of a fixpoint over infinitely many grammars.", "anchors": ["src/tool/grammar/mod.rs:Grammar::first_set"]}
{"id": "C07", "title": "first_set reports FIRST tokens exactly", "statement": "For every registered nonterminal A, token t is in the returned set iff A derives some string (of terminals and nonterminals) beginning with t.", "quantifier": "every grammar (any finite set of productions, any vocabulary) and every hash iteration order", "why_tests_cant": "Derivations are unbounded.", "anchors": ["src/tool/grammar/mod.rs:Grammar::first_set"]}
{"id": "C08", "title": "Per-production FIRST sets are exact", "statement": "The second map returned by first_set has exactly the grammar's productions as keys, and for each production its collection is exactly the FIRST set and nullability of the right-hand side.", "quantifier": "every grammar (any finite set of productions, any vocabulary) and every hash iteration order", "why_tests_cant": "Derivations are unbounded.", "anchors": ["src/tool/grammar/mod.rs:get_first_set_for_non_epsilon_rule"]}
{"id": "C09", "title": "FIRST and FOLLOW do not depend on hash order", "statement": "Two runs of first_set / follow_set on the same grammar with different HashSet iteration orders return equal maps.", "quantifier": "every grammar (any finite set of productions, any vocabulary) and every hash iteration order (pairs of orders)", "why_tests_cant": "Rust's RandomState order changes from run to run; tests see one order.", "anchors": ["src/tool/grammar/mod.rs:first_set", "src/tool/grammar/mod.rs:follow_set"]}
{"id": "C10", "title": "follow_set terminates without panic on closed grammars with rule 0", "statement": "If the grammar is closed and nonterminal 0 is registered, follow_set applied to first_set's result returns.", "quantifier": "every grammar (any finite set of productions, any vocabulary) and every hash iteration order", "why_tests_cant": "Termination over all grammars.", "anchors": ["src/tool/grammar/mod.rs:Grammar::follow_set"]}
{"id": "C11", "title": "follow_set is exact", "statement": "Token t is in FOLLOW(B) iff some registered rule derives a string in which t immediately follows B, or t is _STOP and the start rule derives a string ending in B.", "quantifier": "every grammar (any finite set of productions, any vocabulary) and every hash iteration order", "why_tests_cant": "Derivations are unbounded.", "anchors": ["src/tool/grammar/mod.rs:Grammar::follow_set", "src/tool/grammar/mod.rs:get_first_for_string"]}
{"id": "C12", "title": "follow_set agrees with the textbook FOLLOW", "statement": "Every token that can follow B in a sentential form derived from the start rule (or _STOP at its end) is in FOLLOW(B); if every rule with productions is reachable from the start rule the converse holds too.", "quantifier": "every grammar (any finite set of productions, any vocabulary) and every hash iteration order", "why_tests_cant": "Derivations are unbounded.", "anchors": ["src/tool/grammar/mod.rs:Grammar::follow_set"]}
{"id": "C13", "title": "Ill-formed grammars fail-stop", "statement": "If a production mentions an unregistered nonterminal, or no rule 0 is registered, the first_set/follow_set sequence panics and never returns sets.", "quantifier": "every grammar (any finite set of productions, any vocabulary) and every hash iteration order", "why_tests_cant": "Must hold for every position of the undefined symbol, including ones first_set skips.", "anchors": ["src/tool/grammar/mod.rs:first_set", "src/tool/grammar/mod.rs:follow_set"]}
{"id": "C14", "title": "Every predictive-table entry is a legal prediction", "statement": "If the table maps (A,t) to p then p is a production of A in the grammar and t is in FIRST of p's right side, or that side is nullable and t is in FOLLOW(A).", "quantifier": "every grammar (any finite set of productions, any vocabulary) and every hash iteration order", "why_tests_cant": "All grammars, all table insert orders.", "anchors": ["src/tool/grammar/mod.rs:Grammar::ll1_table"]}
{"id": "C15", "title": "The predictive table is complete", "statement": "For every production p of A and every token t predicting p, the table has an entry for (A,t); with a conflict-free grammar that entry is p.", "quantifier": "every grammar (any finite set of productions, any vocabulary) and every hash iteration order", "why_tests_cant": "All grammars.", "anchors": ["src/tool/grammar/mod.rs:Grammar::ll1_table"]}
{"id": "C16", "title": "A conflict is printed exactly for non-LL(1) grammars", "statement": "ll1_table prints nothing iff no token predicts two different productions of the same rule; this is implied by the three-clause textbook LL(1) condition, and equivalent to it when every rule with two different nullable productions has a nonempty FOLLOW set.", "quantifier": "every grammar (any finite set of productions, any vocabulary) and every hash iteration order", "why_tests_cant": "The code compares insert collisions, not the LL(1) condition; equivalence needs an argument over all derivations.", "anchors": ["src/tool/grammar/mod.rs:Grammar::ll1_table"]}
{"id": "C17", "title": "The table is hash-order independent when no conflict is printed", "statement": "For a grammar without printed conflict any two iteration orders give the same table; with a conflict the entry is that of the production iterated last, so it can differ between runs.", "quantifier": "every grammar (any finite set of productions, any vocabulary) and every hash iteration order (pairs of orders)", "why_tests_cant": "RandomState orders.", "anchors": ["src/tool/grammar/mod.rs:Grammar::ll1_table"]}
{"id": "C18", "title": "The AST's leaves are exactly the consumed tokens", "statement": "Whenever the parser returns, the leaves of the returned tree from left to right are exactly tokens[0..k] for some k: nothing lost, duplicated, invented or reordered, even after a reported mismatch.", "quantifier": "every token vector, every table and vocabulary, every start rule", "why_tests_cant": "Unbounded inputs and grammars.", "anchors": ["src/tool/parser/ll1_parser.rs:LL1Parser::parse_ast", "src/tool/v1/syntaxis_parser.rs:SyntaxisParser::parse_ast"]}
{"id": "C19", "title": "Parser soundness", "statement": "If the parser returns and reports no mismatch, the token types of the leaves form a sentence derivable from the start rule in the grammar the table was built from.", "quantifier": "every token vector, every table and vocabulary, every start rule", "why_tests_cant": "Unbounded inputs and grammars.", "anchors": ["src/tool/parser/ll1_parser.rs:parse_ast", "src/tool/v1/syntaxis_parser.rs:parse_ast"]}
{"id": "C20", "title": "Parser completeness for LL(1) grammars", "statement": "If no conflict was printed, then for every sentence w of the start rule the parser on w followed by _STOP returns, without mismatch report, a tree whose leaves are w.", "quantifier": "every LL(1) grammar, every sentence", "why_tests_cant": "Infinitely many grammars and sentences.", "anchors": ["src/tool/parser/ll1_parser.rs:parse_ast", "src/tool/grammar/mod.rs:ll1_table"]}
{"id": "C21", "title": "Parser termination for LL(1) grammars", "statement": "If no conflict was printed, the parser on any token vector returns or panics; it never recurses for ever.", "quantifier": "every LL(1) grammar, every token vector", "why_tests_cant": "Divergence cannot be observed by a test; needs a well-founded measure over all grammars.", "anchors": ["src/tool/parser/ll1_parser.rs:parse_ast", "src/tool/grammar/mod.rs:ll1_table"]}
{"id": "C22", "title": "Parsing decides the language of an LL(1) grammar", "statement": "For a grammar without printed conflict and w without _STOP: w is a sentence iff parsing w followed by _STOP returns with no mismatch report and the tree's leaves are all of w.", "quantifier": "every LL(1) grammar, every token sequence", "why_tests_cant": "Infinitely many inputs.", "anchors": ["src/tool/parser/ll1_parser.rs:parse_ast"]}
{"id": "C23", "title": "A successful parse means the whole input is a sentence", "statement": "If parse() returns with no mismatch report then the entire token vector before _STOP is a sentence.", "quantifier": "every token vector, every table and vocabulary, every start rule", "why_tests_cant": "The parser never looks at the tokens after the start rule, so this needs all inputs.", "anchors": ["src/tool/parser/ll1_parser.rs:parse", "src/tool/v1/syntaxis_parser.rs:parse"]}
{"id": "C24", "title": "Trees conform to the grammar with anonymous rules spliced", "statement": "In a tree returned without mismatch report every rule node below the root carries a named rule, its name is the vocabulary name, and the symbols of its children are derivable from that rule by expanding anonymous (unnamed) nonterminals only; the root is the requested rule.", "quantifier": "every token vector, every table and vocabulary, every start rule", "why_tests_cant": "Unbounded inputs and grammars.", "anchors": ["src/tool/parser/ll1_parser.rs:parse_ast", "src/tool/v1/syntaxis_parser.rs:parse_ast"]}
{"id": "C25", "title": "LL(1) grammars accepted by the table are unambiguous", "statement": "If no conflict is printed, every sentence of the start rule (and of every rule with a nonempty FOLLOW set) has exactly one derivation tree, so the returned AST is the only possible one.", "quantifier": "every LL(1) grammar, every sentence", "why_tests_cant": "All pairs of derivations.", "anchors": ["src/tool/grammar/mod.rs:ll1_table"]}
{"id": "C26", "title": "EBNF + yields a usable parser", "statement": "A grammar that uses item+ gets a table with which the parser accepts both one and several repetitions of item.", "quantifier": "every grammar with a + suffix on an item that can start with some token", "why_tests_cant": "The failure depends on hash order, both orders must be examined for every grammar.", "anchors": ["src/tool/visitor/grammar_visitor.rs:ProductionVisitor::visit_element", "src/tool/grammar/mod.rs:ll1_table"]}
{"id": "C27", "title": "Left-recursive rules are handled", "statement": "Parsing with the table of a left-recursive grammar terminates.", "quantifier": "every token vector", "why_tests_cant": "Divergence is not observable by tests.", "anchors": ["src/tool/parser/ll1_parser.rs:parse_ast"]}
{"id": "C28", "title": "Longest match, earliest rule wins ties", "statement": "Each scanned token's text is the longest of the matches the token regexes report at the cursor, and its type is the first rule in the list attaining that length; scan errors iff no rule reports a non-empty match.", "quantifier": "every input string, every list of token regexes, every number of calls", "why_tests_cant": "All inputs and rule lists.", "anchors": ["src/tool/v1/syntaxis_lexer.rs:scan", "src/tool/syntaxis/syntaxis_lexer.rs:scan", "src/tool/templates/target/rust/lexer.tera"]}
{"id": "C29", "title": "Scanning is lossless", "statement": "The texts of the tokens returned by successive scans concatenate to exactly the consumed prefix of the input, and each token's char_start_index..char_stop_index is the byte range of its text in the input.", "quantifier": "every input string, every list of token regexes, every number of calls", "why_tests_cant": "Unbounded inputs including multi-byte characters.", "anchors": ["src/tool/v1/syntaxis_lexer.rs:scan", "src/tool/templates/target/rust/lexer.tera"]}
{"id": "C30", "title": "Token line and column positions are right", "statement": "start/stop of each token are the zero-based line and the byte column of the token's begin and end in the input.", "quantifier": "every input string, every list of token regexes, every number of calls", "why_tests_cant": "All placements of newlines.", "anchors": ["src/tool/v1/syntaxis_lexer.rs:scan", "src/tool/templates/target/rust/lexer.tera"]}
{"id": "C31", "title": "Exactly one end token, then errors for ever", "statement": "On a lexable input repeated scan yields the tokens, then exactly one _STOP token whose index is the number of earlier tokens, and then an error on every further call; token_index counts 0,1,2,...", "quantifier": "every input string, every list of token regexes, every number of calls", "why_tests_cant": "Unbounded call histories.", "anchors": ["src/tool/v1/syntaxis_lexer.rs:scan", "src/tool/templates/target/rust/lexer.tera"]}
{"id": "C32", "title": "scan_all terminates and returns the non-skipped tokens", "statement": "scan_all_on_channel_tokens returns for every input; it is the list of scanned tokens minus white space on channel 0 and empty for any other channel; it ends with _STOP iff the whole input was lexable.", "quantifier": "every input string, every list of token regexes, every number of calls", "why_tests_cant": "Termination over all inputs.", "anchors": ["src/tool/v1/syntaxis_lexer.rs:scan_all_on_channel_tokens", "src/tool/templates/target/rust/lexer.tera"]}
{"id": "C33", "title": "A lexical error changes nothing", "statement": "When scan fails in the middle of the input the lexer state is unchanged, so every retry fails at the same place and the printed remainder is the unlexed suffix.", "quantifier": "every input string, every list of token regexes, every number of calls", "why_tests_cant": "All states.", "anchors": ["src/tool/v1/syntaxis_lexer.rs:scan", "src/tool/syntaxis/syntaxis_lexer.rs:scan"]}
{"id": "C34", "title": "Token offsets lie inside the input", "statement": "Every token returned by the lexer has char_start_index <= char_stop_index <= input length, so slicing the input with it cannot panic.", "quantifier": "every input string, every list of token regexes, every number of calls", "why_tests_cant": "All inputs.", "anchors": ["src/tool/v1/syntaxis_lexer.rs:scan", "src/runtime/ast/rule_context.rs:get_text"]}
{"id": "C35", "title": "Grammar keywords are recognised by the v1 lexer", "statement": "The v1 lexer turns the keyword epsilon into an EPSILON token and every identifier into RULE_REF or TOKEN_REF according to the case of its first letter.", "quantifier": "every input string", "why_tests_cant": "All identifiers, all contexts.", "anchors": ["src/tool/v1/syntaxis_lexer.rs:SyntaxisLexer::new", "src/tool/v1/syntaxis_lexer.rs:scan"]}
{"id": "C36", "title": "Indexed child accessors select in order", "statement": "get_terminals(t)/get_errornodes(t)/get_rule_contexts(r) return exactly the direct children of that kind and type in order, and get_terminal(t,i) etc. return the i-th of them or None when there are fewer. get_children returns all direct children in order and get_child_count their number, so every child is counted by exactly one of the typed accessors.", "quantifier": "every syntax tree", "why_tests_cant": "All trees.", "anchors": ["src/runtime/ast/rule_context.rs:get_terminals", "src/runtime/ast/rule_context.rs:get_rule_contexts", "src/runtime/ast/rule_context.rs:get_terminal", "src/runtime/ast/rule_context.rs:get_children"]}
{"id": "C37", "title": "Start and stop tokens are the first and last token under the node", "statement": "get_start_token/get_stop_token (and get_first_terminal/get_last_terminal) return the first/last leaf below the node, None only if there is none.", "quantifier": "every syntax tree", "why_tests_cant": "All trees, in particular ones with empty rule children that the parser builds for nullable rules.", "anchors": ["src/runtime/ast/rule_context.rs:get_start_token", "src/runtime/ast/rule_context.rs:get_stop_token", "src/runtime/ast/rule_context.rs:get_first_terminal", "src/runtime/ast/rule_context.rs:get_last_terminal"]}
{"id": "C38", "title": "get_text returns the node's source text", "statement": "For a tree built from the lexer's tokens get_text(input) returns the source slice from the beginning of the node's first leaf to the end of its last leaf and does not panic.", "quantifier": "every input, every tree over consecutive tokens of it", "why_tests_cant": "All inputs incl. multi-byte ones.", "anchors": ["src/runtime/ast/rule_context.rs:get_text", "src/tool/v1/syntaxis_lexer.rs:scan"]}
{"id": "C39", "title": "walk visits every node once, in document order, properly nested", "statement": "The listener callbacks of walk are a well-nested sequence: enter_every_rule, enter before the children, exit, exit_every_rule after, one enter/exit pair per leaf, leaves in document order.", "quantifier": "every syntax tree", "why_tests_cant": "All trees.", "anchors": ["src/tool/syntaxis/syntaxis_walker.rs:walk", "src/tool/syntaxis/syntaxis_listener.rs"]}
{"id": "C40", "title": "The default visitor visits every leaf once, in document order", "statement": "With no overrides visit calls visit_terminal / visit_errornode exactly once per leaf from left to right and dispatches each rule node to the callback of its rule index; an overridden callback that does not recurse hides exactly its subtree.", "quantifier": "every syntax tree, every set of overrides", "why_tests_cant": "All trees and overrides.", "anchors": ["src/tool/syntaxis/syntaxis_visitor.rs:visit_children", "src/tool/syntaxis/syntaxis_visitor.rs:visit"]}
{"id": "C41", "title": "from_str/from_reader never panic and accept exactly the schema", "statement": "parse_rule on any JSON value returns Ok iff it is a rule object (array children, unsigned rule_index, string rule_name) whose children are all rule objects or terminal objects (no children entry or a null one, unsigned token_type, string token_name); otherwise Err.", "quantifier": "every JSON value", "why_tests_cant": "Unbounded nesting.", "anchors": ["src/tool/serde_ast/mod.rs:parse_rule", "src/tool/serde_ast/mod.rs:parse_terminal"]}
{"id": "C42", "title": "JSON loading is faithful", "statement": "For every error-free tree whose tokens carry only type, name and text, encoding it in the documented JSON shape and loading it returns the same tree.", "quantifier": "every syntax tree", "why_tests_cant": "All trees.", "anchors": ["src/tool/serde_ast/mod.rs:parse_rule"]}
{"id": "C43", "title": "Token numbering is dense and agrees with the lexer data", "statement": "After the symbol pass the k-th lexer rule has token_type 2+k, the vocabulary maps its name to that id, and names are distinct; so the generated lexer's type i+2 for the i-th regex is the vocabulary id of the same rule.", "quantifier": "every grammar syntax tree, every starting counter", "why_tests_cant": "Unbounded rule lists with duplicates in any order.", "anchors": ["src/tool/visitor/grammar_visitor.rs:SymbolVisitor", "src/tool/templates/target/rust/lexer.tera"]}
{"id": "C44", "title": "Rule numbering is injective and anonymous ids are fresh", "statement": "The ids given to named rules are pairwise distinct, and every id allocated for an anonymous nonterminal differs from every named rule's and every earlier anonymous id.", "quantifier": "every grammar syntax tree, every starting counter", "why_tests_cant": "All trees.", "anchors": ["src/tool/visitor/grammar_visitor.rs:SymbolVisitor::visit_parser_rule", "src/tool/visitor/grammar_visitor.rs:ProductionVisitor"]}
{"id": "C45", "title": "Grammars built from a syntax tree are closed", "statement": "After the production pass every nonterminal in every production is registered, every terminal is a registered terminal, and the FIRST/FOLLOW/table functions never panic on the result if it has at least one rule.", "quantifier": "every grammar syntax tree, every starting counter", "why_tests_cant": "All trees.", "anchors": ["src/tool/visitor/grammar_visitor.rs:ProductionVisitor", "src/tool/grammar/mod.rs"]}
{"id": "C46", "title": "EBNF desugaring preserves the language", "statement": "For every named rule the words derivable from it in the produced context-free grammar are exactly the words of its EBNF definition.", "quantifier": "every grammar syntax tree, every starting counter", "why_tests_cant": "All EBNF grammars and words; caches make rules share anonymous nonterminals.", "anchors": ["src/tool/visitor/grammar_visitor.rs:ProductionVisitor::visit_element", "src/tool/visitor/grammar_visitor.rs:visit_block", "src/tool/visitor/grammar_visitor.rs:visit_alternative"]}
{"id": "C47", "title": "Undefined names and string literals are rejected by panic", "statement": "If a parser rule refers to an undefined token or rule, building the grammar panics; a string literal directly in an alternative of a rule panics in the first pass.", "quantifier": "every grammar syntax tree, every starting counter", "why_tests_cant": "All positions of the undefined reference.", "anchors": ["src/tool/visitor/grammar_visitor.rs:visit_element", "src/tool/visitor/grammar_visitor.rs:StringLiteralToTokenVisitor"]}
{"id": "C48", "title": "Drawn text cannot break out of its literal", "statement": "In the page produced by ASTDrawer each name and text is a JavaScript template literal that evaluates back to the original string, whatever characters it contains.", "quantifier": "every string, every tree", "why_tests_cant": "All strings.", "anchors": ["src/tool/gui/ast_drawer.rs:escape", "src/tool/gui/ast_drawer.rs:dump"]}
{"id": "C49", "title": "The drawn tree is the AST", "statement": "The JavaScript object literal written by the drawer reads back as a tree with the same names, ids, texts and nesting as the AST.", "quantifier": "every syntax tree", "why_tests_cant": "All trees.", "anchors": ["src/tool/gui/ast_drawer.rs:dump"]}
{"id": "C50", "title": "Lexer rule regexes are anchored and unescaped", "statement": "For a lexer rule with literal /r/ the generated regex is ^(r') where r' is r with each \\/ replaced by /; a duplicate token name is ignored (the first definition wins).", "quantifier": "every lexer rule list", "why_tests_cant": "All literals.", "anchors": ["src/tool/visitor/lexer_rule_visitor.rs:visit_lexer_rule", "src/tool/visitor/grammar_visitor.rs:visit_lexer_rule"]}
{"id": "C51", "title": "Typed accessors work on trees parsed by the v1 parser", "statement": "On a tree returned by the v1 parser's parser_rule(), rule_ref() is the rule's name token, colon() the colon token, and so on.", "quantifier": "every input accepted by the v1 parser", "why_tests_cant": "All parse trees.", "anchors": ["src/tool/v1/syntaxis_parser.rs:parser_rule", "src/tool/syntaxis/syntaxis_context.rs:ParserRuleContext", "src/tool/v1/syntaxis_lexer.rs"]}
{"id": "C52", "title": "The shipped grammar is LL(1) and its parser accepts exactly its EBNF language", "statement": "For the grammar in syntaxis2.json no conflict is printed in any hash order, and the parser of main.rs returns a mismatch-free tree covering the whole input iff the token sequence is a word of the EBNF grammar.", "quantifier": "every hash order, every token sequence", "why_tests_cant": "Infinitely many token sequences and all orders.", "anchors": ["src/main.rs", "src/tool/syntaxis/syntaxis2.json", "src/tool/v1/syntaxis_parser.rs:parse"]}
{"id": "C53", "title": "v1 lexing is maximal munch over the token languages", "statement": "At every point of every scan the v1 lexer returns the longest prefix of the remaining input that belongs to any of its 14 token languages, typed by the first language containing it, and errors iff no non-empty prefix belongs to one; in particular the preference order inside the regexes (alternation, greedy repetition) never shortens a token.", "quantifier": "every input string, every point of the scan", "why_tests_cant": "Leftmost-first regex matching agrees with longest match only by an argument over all strings.", "anchors": ["src/tool/v1/syntaxis_lexer.rs:SyntaxisLexer::new", "src/tool/v1/syntaxis_lexer.rs:scan"]}
{"id": "C54", "title": "String literals get one numbered lexer rule each", "statement": "StringLiteralVisitor run on a tree gives every distinct string literal of the tree exactly one lexer rule; the k-th literal in order of first occurrence gets token type 2+k and name T_<2+k>.", "quantifier": "every syntax tree whose string literals are quoted", "why_tests_cant": "All trees, any number and nesting of repeated literals.", "anchors": ["src/tool/visitor/lexer_rule_visitor.rs:StringLiteralVisitor::visit_terminal"]}
{"id": "C55", "title": "The regex of a string literal matches exactly that literal", "statement": "The regex generated for a string literal matches the string the literal stands for and nothing else.", "quantifier": "every string literal", "why_tests_cant": "All literals; escapes and metacharacters interact.", "anchors": ["src/tool/visitor/lexer_rule_visitor.rs:StringLiteralVisitor::visit_terminal"]}
{"id": "C56", "title": "The lexer generated from the shipped grammar is the shipped lexer", "statement": "The lexer generated from the data that load_ast returns for syntaxis2.json has the same token constants, regexes (in order) and token names as v1/syntaxis_lexer.rs, so it yields the same tokens on every text.", "quantifier": "every input text, every channel", "why_tests_cant": "All texts.", "anchors": ["src/main.rs:load_ast", "src/tool/syntaxis/syntaxis2.json", "src/tool/v1/syntaxis_lexer.rs", "src/tool/templates/target/rust/lexer.tera"]}
{"id": "C57", "title": "Grammar files are read as they are written", "statement": "The v1 parser accepts a sequence of tokens without a mismatch iff the tokens spell a grammar file (parser rules and lexer rules in the documented EBNF notation), and the tree it returns contains exactly the rules that were written, with the nesting of groups, alternatives and suffixes that was written.", "quantifier": "every token sequence, every hash iteration order", "why_tests_cant": "All grammar files, with arbitrarily nested groups.", "anchors": ["src/tool/v1/syntaxis_parser.rs:rule_list", "src/tool/syntaxis/syntaxis2.json", "src/main.rs:main"]}
{"id": "C58", "title": "A grammar file read by the v1 parser can be turned into its grammar", "statement": "Parsing the tokens of a complete grammar file with the v1 parser and running the grammar visitors on the tree returns: the lexer rules as written, numbered consecutively, and for every parser rule a nonterminal whose words are the words of the rule as written.", "quantifier": "every grammar file in which all names are defined, every hash iteration order", "why_tests_cant": "All grammar files; the tool is meant to bootstrap itself on them.", "anchors": ["src/main.rs:main", "src/main.rs:load_ast", "src/tool/v1/syntaxis_parser.rs", "src/tool/visitor/grammar_visitor.rs"]}
{"id": "C59", "title": "Mismatch messages describe a repair", "statement": "Whenever the parser returns a tree, some sentence of the entry rule has exactly as many tokens as were consumed, and the printed mismatch messages list, in order, exactly the positions at which the consumed tokens differ from it together with the token type the sentence has there. So replacing each reported token by the expected one yields a sentence.", "quantifier": "every grammar for which a table is built (with or without conflicts), every token vector, every entry rule", "why_tests_cant": "All grammars, tables and token vectors; the sentence is existentially quantified.", "anchors": ["src/tool/parser/ll1_parser.rs:parse_ast", "src/tool/v1/syntaxis_parser.rs:parse_ast"]}
{"id": "C60", "title": "The first message is about the earliest wrong token", "statement": "For a conflict-free table, if the first mismatch message says that type e was expected at position i, then the tokens before i followed by e start a sentence, and no sentence (followed by the end token or not) starts with the tokens up to and including position i.", "quantifier": "every grammar with a conflict-free table, every token vector on which parse returns with messages", "why_tests_cant": "Quantifies over all sentences of the language.", "anchors": ["src/tool/parser/ll1_parser.rs:parse_ast"]}
{"id": "C61", "title": "The parser reads token types only, one token ahead", "statement": "If the parser returns after consuming k tokens, then on every token vector with the same token types at positions 0..k it prints the same messages and returns the same tree up to the tokens, whose leaves are the first k tokens of that vector.", "quantifier": "every table, vocabulary, token vector and entry rule", "why_tests_cant": "Relates two arbitrary runs.", "anchors": ["src/tool/parser/ll1_parser.rs:parse_ast", "src/tool/v1/syntaxis_parser.rs:parse_ast"]}
{"id": "C62", "title": "The parser's recursion depth is bounded", "statement": "If the parser finishes at all, its call stack is never deeper than the number of rules times (number of tokens + 1). For conflict-free tables it always finishes within that depth.", "quantifier": "every table, token vector and entry rule", "why_tests_cant": "A bound over all tables and inputs.", "anchors": ["src/tool/parser/ll1_parser.rs:parse_ast", "src/tool/v1/syntaxis_parser.rs:parse_ast"]}
{"id": "C63", "title": "White space between the words of a grammar file is insignificant", "statement": "If a text is scanned completely, then any text made of the same words in the same order with any white space before, between (at least one character) and after them is scanned completely too, into tokens with the same types and texts; any parser run on the tokens then prints the same messages and builds the same tree up to positions.", "quantifier": "every text that scans completely, every re-spacing of its words, every table and entry rule", "why_tests_cant": "Relates unboundedly many pairs of texts; a rule that matches across white space would only show on the pair that triggers it.", "anchors": ["src/tool/v1/syntaxis_lexer.rs:scan", "src/tool/v1/syntaxis_lexer.rs:scan_all_on_channel_tokens"]}
{"id": "C64", "title": "Pattern texts mean what the lexers do with them", "statement": "Every pattern text of both lexers is a valid regex, and reading it by the regex syntax gives the matcher the lexer is specified with. For a lexer rule /r/, if r (with \\/ read as /) is a regex made of characters, escapes (also by the number of a character), \\d, \\D, \\s, \\S, ., classes of characters, escapes and ranges, groups, | and the repetitions *, +, ?, {n}, {n,} and {n,m}, greedy or lazy, the pattern generated for the rule compiles, every match is a prefix of the remaining input in the language of r, and there is a match whenever some prefix is in that language. A text is accepted as such a regex exactly if the grammar of the documentation (alternatives of concatenations of repeated atoms) has it, and it is compiled to the tree of that grammar. A counted repetition matches n to m words one behind the other, and of a class of characters it finds as many as possible, or as few as possible if lazy. A class matches one character that one of its members stands for, a negated class one that none of them stands for; an escape by number matches the character with this number.", "quantifier": "every pattern text of the lexers, every lexer rule text, every input", "why_tests_cant": "All regex texts and all inputs; wrapping a text in ^( ) could change its meaning.", "anchors": ["src/tool/v1/syntaxis_lexer.rs:new", "src/tool/syntaxis/syntaxis_lexer.rs:new", "src/tool/visitor/lexer_rule_visitor.rs:visit_lexer_rule"]}
{"id": "C65", "title": "The text of a token is matched by its rule", "statement": "Every token of a generated lexer, other than the end token, has a text that is matched as a whole by the regex of the rule that gave the token its type and name.", "quantifier": "every set of lexer rules, every input, every number of scans", "why_tests_cant": "All rule texts and inputs: a rule text with unbalanced parentheses escapes the anchor and lets a token begin with characters no rule matches.", "anchors": ["src/tool/templates/target/rust/lexer.tera", "src/tool/visitor/grammar_visitor.rs:visit_lexer_rule", "src/tool/v1/syntaxis_lexer.rs:scan"]}
{"id": "C66", "title": "The generated lexer source says what the lexer data says", "statement": "For lexer data with identifiers as token names, the source rendered from the lexer template is lexically correct Rust whose string literals are exactly the regexes of the data in order, the token names behind _START and _STOP, and the template's own four; and whose constants are _START = 0, _STOP = 1 and one constant per token with its type; every constant of the lexer it mentions is declared.", "quantifier": "every lexer name, every list of lexer rule data", "why_tests_cant": "All regex texts: a quote followed by hashes ends a raw string early, a carriage return is altered by the compiler, and the template mentions WHITE_SPACE whether or not there is such a rule.", "anchors": ["src/tool/templates/target/rust/lexer.tera", "tests/lexer_gen.rs"]}
{"id": "C67", "title": "Comments are skipped by the first lexer", "statement": "Wherever a line comment or a block comment begins the remaining input the first lexer scans it as one comment token, although a regular literal may begin the same way, and a comment in front of a text does not change the tokens on the default channel nor what is reported as unlexed.", "quantifier": "every input, every scan position, every comment text", "why_tests_cant": "All comment texts and positions: two regexes compete for text that begins with a slash, and a comment that ends with the input behaves differently from one that ends with a line feed.", "anchors": ["src/tool/syntaxis/syntaxis_lexer.rs:scan", "src/tool/syntaxis/syntaxis_lexer.rs:scan_all_on_channel_tokens"]}
{"id": "C68", "title": "The drawn page shows the tree", "statement": "For every name and every syntax tree the page written by the drawer is an HTML document with exactly one title, the name, and exactly one script, which begins with the declaration of `ast` as a JavaScript literal whose value is the tree; the rest of the script does not depend on the tree.", "quantifier": "every name, every syntax tree, every text in it", "why_tests_cant": "All names and texts: texts are escaped for JavaScript but not for HTML, so a text can end the script element.", "anchors": ["src/tool/gui/ast_drawer.rs:draw", "src/tool/templates/gui/ast.html"]}
{"id": "C69", "title": "The lexer in the repository is the generated one", "statement": "The lexer source generated from the shipped grammar file is, token by token, the v1 lexer in the repository, up to the path of the crate, one attribute and the path of the error type.", "quantifier": "the shipped grammar, every recursion budget", "why_tests_cant": "The generating test only writes a file; nothing compares it with the lexer in use, which was copied by hand.", "anchors": ["src/tool/templates/target/rust/lexer.tera", "src/tool/v1/syntaxis_lexer.rs", "tests/lexer_gen.rs:gen_lexer"]}
{"id": "C70", "title": "The program draws the grammar it is given", "statement": "For every text in place of the grammar text in main.rs, and every hash order, the program ends (it returns or panics), with a result that does not depend on the hash orders and without printing a conflict. If it does not panic it prints the rest of the input that is no token, if there is one, and one line for each token that does not match, and nothing else. It runs without printing any message exactly if the text is a grammar file, and then the drawn tree has the tokens of the text as leaves and the rules read from it are the rules written in the text. For the text in main.rs these are its nine parser rules and fourteen lexer rules, the page is a document whose script declares that tree, and the parser rules have the same language as those of the shipped grammar file.", "quantifier": "every text, every hash order of rules, productions and sets, every digit class", "why_tests_cant": "All texts and all hash orders; main has no assertion, a run shows one order and one text only.", "anchors": ["src/main.rs:main", "src/main.rs:load_ast", "src/tool/v1/syntaxis_lexer.rs:scan_all_on_channel_tokens", "src/tool/v1/syntaxis_parser.rs:parse", "src/tool/gui/ast_drawer.rs:draw"]}
{"id": "C71", "title": "Printed trees and tokens can be told apart", "statement": "Two syntax trees whose names contain no space and no parenthesis print to the same text exactly if they have the same names in the same places. Two tokens whose names contain no '<' print to the same text exactly if they agree in everything but the channel, whatever characters their texts contain; in particular the tokens of one scan print as pairwise different texts.", "quantifier": "every pair of trees, every pair of tokens, every input scanned", "why_tests_cant": "All pairs of trees and all token texts, including texts that imitate the punctuation of the format; a test compares a few strings.", "anchors": ["src/runtime/token.rs:Display for Token", "src/runtime/token.rs:Display for Position", "src/runtime/ast/rule_context.rs:Display for RuleContext", "src/runtime/ast/ast_context.rs:Display for ASTContext"]}
{"id": "C72", "title": "A printed grammar shows its productions", "statement": "Printing a grammar succeeds if its tokens are registered; it writes one line per production, the same lines for every hash order, and two grammars over one vocabulary print alike only if they have the same productions.", "quantifier": "every vocabulary, every pair of grammars, every hash order", "why_tests_cant": "All pairs of grammars and all hash orders; the text has to be injective, which no finite set of printed grammars shows.", "anchors": ["src/tool/grammar/mod.rs:Display for Grammar", "src/runtime/vocabulary.rs:get_nonterminal_name_with_default", "src/runtime/vocabulary.rs:get_terminal_name"]}
{"id": "C73", "title": "The files in the repository are what the code writes", "statement": "For every hash order the program, run on the text in main.rs, prints nothing and writes exactly the file parser2.html of the repository. The lexer source generated for the shipped grammar is exactly the file tests/lexer_generate/lexer.rs. The FIRST and FOLLOW sets computed for the grammar recorded in the comments of the tests are the recorded ones, for every hash order.", "quantifier": "every hash order of rules, productions and sets, every digit class, every recursion budget", "why_tests_cant": "All hash orders: a run shows that one seed reproduces the file; the tests write the files and compare nothing.", "anchors": ["src/main.rs:main", "parser2.html", "tests/lexer_gen.rs:gen_lexer", "tests/lexer_generate/lexer.rs", "tests/first_set_test.rs:first_set_test", "tests/follow_set_test.rs:follow_set_test"]}
{"id": "C74", "title": "FIRST and FOLLOW settle after a number of rounds linear in the number of rules", "statement": "Computing the FIRST sets takes at most 2n+2 rounds over the productions and computing the FOLLOW sets at most n+1, where n is the number of rules, for every hash order and however many productions and tokens there are. A number of rounds growing with n is unavoidable: for every n there are a grammar with n+1 rules and a hash order for which n rounds are not enough.", "quantifier": "every grammar, every hash order of rules and productions", "why_tests_cant": "All grammars of all sizes and all hash orders; a test sees the number of rounds of the orders its hash seed happened to give.", "anchors": ["src/tool/grammar/mod.rs:first_set", "src/tool/grammar/mod.rs:follow_set"]}
{"id": "C75", "title": "Parsing takes time linear in the number of tokens", "statement": "With any prediction table, a parse that finishes makes at most c*(tokens+1) calls of the parsing function, where the constant c depends on the grammar only, and a conflict-free grammar always finishes. The constant can be exponential in the size of the grammar: rules 0: 1 1; 1: 2 2; ...; n: ε take 2^(n+1)-1 calls on the empty input.", "quantifier": "every table, every token sequence, every grammar without conflicts", "why_tests_cant": "Complexity is a statement about all inputs of all lengths; timing a few inputs bounds nothing.", "anchors": ["src/tool/parser/ll1_parser.rs:parse_ast"]}
{"id": "C76", "title": "Loading a syntax tree from text accepts exactly the JSON texts of trees", "statement": "Loading a syntax tree from any text ends without panic, and returns a tree exactly when the text is a JSON text (RFC 8259: white space, escapes, surrogate pairs, numbers; at most 127 open brackets; the last of several equal keys counts) of a value that describes this tree, else the error. A tree can be loaded from some text exactly when it has no error nodes, its tokens carry only type, name and text, its numbers fit into 64 bits and at most 63 rules are nested; it is then loaded from its own printed form. The text of the shipped syntaxis2.json loads to the grammar the program works with.", "quantifier": "every text, every tree", "why_tests_cant": "All texts and all trees; the exact limit of 63 nested rules and the agreement of the reader with the JSON grammar are not visible in sample files.", "anchors": ["src/tool/serde_ast/mod.rs:from_str", "src/tool/serde_ast/mod.rs:from_reader", "src/tool/syntaxis/syntaxis2.json"]}
{"id": "C77", "title": "The lexer and parser made from a grammar file accept exactly the texts the file describes", "statement": "Let a grammar be built from the tree of a grammar file in which no token has the number of another element that is written with the same suffix *, + or ?, and let its table have no conflict. Then, with any regex engine and any hash order, the lexer generated from the file followed by the parser run on its table returns a tree over the whole text without a complaint exactly when longest match between the lexer rules splits the text to its end into tokens that, without those of the white-space rule, form a word of the first rule of the file. The first parser rule is the start rule. The shipped syntaxis2.json has this property.", "quantifier": "every grammar file tree, every text, every hash order, every regex engine", "why_tests_cant": "All grammars and all texts at once; end-to-end agreement of six components with an independent description of the language.", "anchors": ["src/main.rs:load_ast", "src/main.rs:main", "src/tool/visitor/grammar_visitor.rs:SymbolVisitor", "src/tool/parser/ll1_parser.rs:parse_ast"]}
{"id": "C78", "title": "The parser runs for ever only in left-recursive rules", "statement": "Whatever the table, a parse runs for ever exactly when the calls of the parsing function lead to a call for a rule at a token that leads back to a call for the same rule at the same token. With the table computed for a grammar, whatever conflicts were printed and in whatever hash order it was computed, this requires that the start rule uses a rule that is left-recursive in the grammar; without such a rule every parse returns or panics within a call depth of rules*(tokens+1).", "quantifier": "every table, every grammar, every token sequence, every hash order", "why_tests_cant": "Non-termination cannot be observed by a test, and termination for all inputs and tables with conflicts needs an argument over all runs.", "anchors": ["src/tool/parser/ll1_parser.rs:parse_ast", "src/tool/v1/syntaxis_parser.rs:parse_ast"]}
{"id": "C79", "title": "Conflict messages are exact, complete and readable", "statement": "When the predictive table is computed, each printed message names two productions of one rule predicted by a common token (or one production that a token predicts both through its right-hand side and through what may follow it). Exactly the pairs that are adjacent in the iteration order among the productions of a rule predicted by some token are printed, so each production taking part in a conflict is named in a message with another one. The number of messages is the number of ways in which tokens predict productions less the number of pairs (rule, token) in the table, and so is the same for every hash order. The printed text determines the reported pairs and their order.", "quantifier": "every grammar, every hash iteration order of productions and token sets", "why_tests_cant": "The messages depend on randomised hash orders and on the fixpoint sets of every grammar; a test sees one order of one grammar.", "anchors": ["src/tool/grammar/mod.rs:ll1_table", "src/tool/grammar/mod.rs:Production", "src/tool/grammar/mod.rs:ProductionItem"]}
{"id": "C80", "title": "Every redefinition of a token or rule is reported", "statement": "While a grammar is read, one message is printed for every definition of a token, and for every definition of a rule, whose name is already defined: for each name, one less than the number of its definitions.", "quantifier": "every grammar tree, every name", "why_tests_cant": "The number and order of definitions is unbounded, and the missing message only shows when the counts are compared for all trees.", "anchors": ["src/tool/visitor/grammar_visitor.rs:visit_lexer_rule", "src/tool/visitor/grammar_visitor.rs:visit_parser_rule"]}
{"id": "C81", "title": "Alternatives are reported as duplicates iff they are written twice", "statement": "While a grammar is read, the message about a repeated production is printed once for every alternative of a rule that is written again in any definition of that rule, and the message about a repeated production of a block is printed iff some block in parentheses contains the same alternative twice, however deeply nested; nothing else is reported.", "quantifier": "every grammar tree", "why_tests_cant": "Alternatives are compared after translation through the block and suffix caches, so equality of what is printed and what is written is a statement about all trees and all cache states.", "anchors": ["src/tool/visitor/grammar_visitor.rs:visit_parser_rule", "src/tool/visitor/grammar_visitor.rs:visit_block", "src/tool/visitor/grammar_visitor.rs:visit_element"]}
{"id": "C82", "title": "Counters and positions never overflow on inputs that fit in memory", "statement": "Every addition and subtraction of machine words done while scanning, parsing and building a grammar stays in range, so the results are those of exact arithmetic: scanning as long as the input is more than ten bytes shorter than the word range, parsing as long as the tokens can be counted, building as long as twice the number of tree nodes plus the first ids fits.", "quantifier": "every word size, input, list of lexer rules, table, token list, tree and starting id", "why_tests_cant": "An overflow needs inputs near the word range, which no test can supply; the bound on the ids handed out is an induction over trees of every shape.", "anchors": ["src/tool/v1/syntaxis_lexer.rs:scan", "src/tool/syntaxis/syntaxis_lexer.rs:scan", "src/tool/parser/ll1_parser.rs:parse_ast", "src/tool/visitor/grammar_visitor.rs:visit_element", "src/tool/visitor/grammar_visitor.rs:visit_block", "src/tool/visitor/lexer_rule_visitor.rs:visit_lexer_rule"]}
{"id": "C83", "title": "The grammar that is built is the textbook translation of the EBNF file", "statement": "Up to the numbers given to them, the symbols of the built grammar are exactly the rules, blocks and repetitions written in the file, different symbols have different numbers, and the productions are exactly the textbook ones: the written alternatives for rules and blocks, nothing or e e* for e*, e or e e+ for e+, nothing or e for e?.", "quantifier": "every grammar tree that is read without a panic", "why_tests_cant": "Blocks and suffixes nest without bound and share entries of caches keyed by numbers; that no production is lost, added or shared wrongly is a statement about all trees.", "anchors": ["src/tool/visitor/grammar_visitor.rs:visit_parser_rule", "src/tool/visitor/grammar_visitor.rs:visit_block", "src/tool/visitor/grammar_visitor.rs:visit_element"]}
{"id": "C84", "title": "The order and the names of the parser rules make no difference", "statement": "Reordering the parser rules behind the first one, renaming them one to one, moving them between the lexer rules, splitting the alternatives of a rule over several definitions or repeating them changes neither the tokens nor the language of any rule, neither whether the table has conflicts nor, without conflicts, the outcome of any parse (panic, messages, and tree up to rule numbers and the renaming).", "quantifier": "every pair of grammar trees with the same lexer rules and the same alternatives up to an injective renaming, every hash order, every token list", "why_tests_cant": "The numbers of all rules change with the order, and with them every key of every hash map; equality of the outcomes for all grammars, orders and inputs needs an isomorphism argument.", "anchors": ["src/tool/visitor/grammar_visitor.rs:visit_parser_rule", "src/tool/visitor/grammar_visitor.rs:visit_lexer_rule", "src/tool/grammar/mod.rs:ll1_table", "src/tool/parser/ll1_parser.rs:parse_ast"]}
{"id": "C85", "title": "Extending a grammar only adds", "statement": "If a grammar file contains the lexer rules of another as the first ones and every alternative of its parser rules, and has the same first rule, then tokens keep their numbers, names and regexes, every word of a rule stays a word of that rule, a conflict of the smaller file is not hidden by the larger, and if the larger has no conflicts then every parse that returned for the smaller returns the same tree (up to rule numbers) and the same messages for the larger.", "quantifier": "every pair of grammar trees one of which contains the other, every hash order, every token list", "why_tests_cant": "Adding one rule renumbers all rules behind it and all generated symbols, and changes FIRST and FOLLOW globally; that nothing is lost for any pair of grammars needs an embedding argument.", "anchors": ["src/tool/visitor/grammar_visitor.rs:visit_parser_rule", "src/tool/visitor/grammar_visitor.rs:visit_lexer_rule", "src/tool/grammar/mod.rs:ll1_table", "src/tool/parser/ll1_parser.rs:parse_ast"]}
{"id": "C86", "title": "The first repetition of a number decides", "statement": "For every grammar file, also one where a suffix is applied to a token and to a rule with the same number, the built grammar has exactly these productions up to the numbers of anonymous symbols: the written alternatives for rules and blocks, and for a repetition the textbook rules over the element of the first repetition in reading order with the same suffix and the same number; two written elements become one symbol exactly if they refer to the same token or rule, are blocks of the same symbols, or are repetitions with the same suffix of symbols with the same number; the words of every rule are those of these rules; and a repeated alternative is reported exactly if it consists of the same symbols as an earlier one.", "quantifier": "every syntax tree of a grammar file that can be built", "why_tests_cant": "Which repetitions are merged depends on all numbers given to tokens, rules and anonymous symbols in the whole file; the claim is an exact description for all files.", "anchors": ["src/tool/visitor/grammar_visitor.rs:visit_element", "src/tool/visitor/grammar_visitor.rs:visit_block", "src/tool/visitor/grammar_visitor.rs:visit_alternative"]}
{"id": "C87", "title": "Number, name and text of a token agree", "statement": "Every token that either lexer of grammar files returns, except the end token, has the number of one of the lexer's constants, the name of that constant, and a text of the shape of that kind (identifiers, arrows, single characters, string literals with escapes, regular literals, blanks, comments). Conversely, for the lexer in use every text of such a shape other than the word epsilon is scanned, when it stands alone, as one token of that kind.", "quantifier": "every input, every number of scans, every text of each shape", "why_tests_cant": "Numbers, names and patterns are three lists that are matched up by position only; that they agree for every text is a statement about all inputs and all histories.", "anchors": ["src/tool/v1/syntaxis_lexer.rs:new", "src/tool/syntaxis/syntaxis_lexer.rs:new", "src/tool/v1/syntaxis_lexer.rs:scan"]}
{"id": "C88", "title": "Scanning can be resumed at every token", "statement": "Let the tokens scanned so far cover the beginning u of an input u v. Then every further scan, and scanning everything that is left, behaves as on the input v alone: the same tokens come out, with lines, columns, byte offsets and indices counted on from u, scanning fails at the same place, and the same text is reported as not scanned. So a token depends on the text from its own first character on only, not on what was scanned before.", "quantifier": "every list of patterns, every input, every number of scans before and after", "why_tests_cant": "Independence of the history is a relation between two runs on different inputs, for all inputs and all places to cut them.", "anchors": ["src/tool/v1/syntaxis_lexer.rs:scan", "src/tool/syntaxis/syntaxis_lexer.rs:scan", "src/tool/templates/target/rust/lexer.tera:scan", "src/tool/v1/syntaxis_lexer.rs:scan_all_on_channel_tokens"]}
{"id": "C89", "title": "The two lexers of grammar files agree on what both know", "statement": "On a text without form feeds the lexer in use and the first lexer return the same tokens (same texts, positions, offsets and indices, corresponding kinds) as long as the first lexer finds no comment, no word fragment and none of . ~ # .. ; conversely the first lexer follows the lexer in use up to the first word fragment or text beginning with /*. After the same tokens either both return the same token again, or both fail (the lexer in use after its end token if the text is used up), or the first lexer returns one of its own kinds, where the lexer in use fails or returns fragment or a text beginning with /*.", "quantifier": "every text without form feed, every number of scans", "why_tests_cant": "The rules are listed in different orders with differently written patterns; that longest match and ties come out the same is a statement about all texts.", "anchors": ["src/tool/v1/syntaxis_lexer.rs:new", "src/tool/syntaxis/syntaxis_lexer.rs:new", "src/tool/v1/syntaxis_lexer.rs:scan", "src/tool/syntaxis/syntaxis_lexer.rs:scan"]}
{"id": "C90", "title": "The grammar is not larger than the file", "statement": "Every rule of the textbook translation of an EBNF file gives at most one production and there are no others. Hence the built grammar has at most as many productions as alternatives are written in rules and blocks plus two for every repetition, their right sides have at most as many symbols as elements are written plus three for every repetition, and at most as many anonymous rules are made as there are blocks and repetitions: nesting never multiplies.", "quantifier": "every syntax tree of a grammar file that can be built", "why_tests_cant": "A bound on the size of the output for all files, of any depth of nesting; tests only measure single files.", "anchors": ["src/tool/visitor/grammar_visitor.rs:visit_element", "src/tool/visitor/grammar_visitor.rs:visit_block", "src/tool/visitor/grammar_visitor.rs:visit_alternative"]}
{"id": "C91", "title": "Folding the outline of a drawn page", "statement": "Whatever circles of the outline on the drawn page are clicked, in any order and any number of times: a node is listed if and only if each of its ancestors has been clicked an even number of times; it is listed once, with its name, indented by its depth, and with a line to its parent; the rows follow each other in document order without gaps or overlaps and lie within the drawing, which is wide enough for every name.", "quantifier": "every tree and every sequence of clicks", "why_tests_cant": "Sequences of clicks are unbounded and the elements are updated in place by a keyed join; a stale or doubled row may only show after a particular sequence on a particular tree.", "anchors": ["src/tool/templates/gui/ast.html:indentTree"]}
{"id": "C92", "title": "Folding and labelling the tree on a drawn page", "statement": "Whatever labels of the tree on the drawn page are pressed: exactly the nodes all of whose ancestors have been pressed an even number of times are shown, once each, at the place the layout gives them, with a line to the parent, and the drawing contains all of them with its margins. Every node is labelled with the name of its rule or the text of its token; its tool tip is the number of the rule or the name of the token.", "quantifier": "every tree, every layout and every sequence of presses", "why_tests_cant": "As for C91, and the layout is that of an external library, which is arbitrary here; the missing label occurs only for rules that match the empty word.", "anchors": ["src/tool/templates/gui/ast.html:collapsibleTree"]}
{"id": "C93", "title": "Zooming and dragging", "statement": "However the page is used, the zoom stays between the two limits, a turn of the wheel changes it by one step in its direction, and the page shows the shift and zoom that are noted. From a press of the main button on, the tree is shifted by exactly the way of the pointer; without it, moving the pointer changes nothing. The reset button, and everything that draws the tree anew, restores the initial shift and zoom and ends a drag.", "quantifier": "every sequence of events on the page, every tree and layout, any arithmetic for the zoom", "why_tests_cant": "All interleavings of events; rounding of the zoom is left open, so the limits hold for every arithmetic.", "anchors": ["src/tool/templates/gui/ast.html:bindEvents", "src/tool/templates/gui/ast.html:reset"]}
{"id": "C94", "title": "The controls of the page and what is drawn agree", "statement": "After any sequence of events: the layout is the one of which the button does not speak, and is determined by the number of times it was pressed; the tree drawn is the part below the node chosen last in the outline, with the distances set last; it is folded by exactly the presses since it was drawn anew, and the outline by all clicks on its circles.", "quantifier": "every sequence of events on the page, every tree and layout", "why_tests_cant": "The state is spread over a configuration object, the text of a button and elements of the page; that they agree is an invariant over all interleavings of events.", "anchors": ["src/tool/templates/gui/ast.html:render", "src/tool/templates/gui/ast.html:switch"]}
{"id": "C95", "title": "Grammar files can be joined", "statement": "If two texts are lexed to their ends by the grammar-file lexer, then the first, some white space and the second, one after the other, are lexed to the end into the tokens of the first followed by those of the second; if both are grammar files, so is the joined text: the program draws it without a message, with the rules of the first followed by those of the second.", "quantifier": "every two texts that are lexed to their ends, every non-empty white space between them", "why_tests_cant": "All pairs of texts; whether a longest match goes on over the seam depends on both sides, and the one regular expression for which it does is found only by an argument over all of them.", "anchors": ["src/tool/v1/syntaxis_lexer.rs:scan", "src/tool/v1/syntaxis_lexer.rs:REGULAR_LITERAL", "src/main.rs:main"]}
{"id": "C96", "title": "Rules that cannot be reached make no difference", "statement": "If a grammar has, besides the productions of another, only productions of rules that cannot be reached from the start rule, then both have the same sentences, the same conflicts are printed or not, and the parsers return the same for every input.", "quantifier": "every two grammars one of which has additional productions of rules that cannot be reached, all hash orders, every token list", "why_tests_cant": "Whether an unused rule matters depends on FOLLOW sets, which are global; all grammars and inputs are meant.", "anchors": ["src/tool/grammar/mod.rs:Grammar::follow_set", "src/tool/grammar/mod.rs:Grammar::ll1_table", "src/tool/parser/ll1_parser.rs:parse_ast"]}
{"id": "C97", "title": "The order of the lexer rules decides types, never boundaries", "statement": "Two lexers with the same rules in different orders cut every input into the same pieces: after equally many scans all texts, positions, offsets and indices agree, and the next scan succeeds for both or for none. The types of a piece can differ only between rules that report the same longest match there; if no two rules do so anywhere in the input, the names of the tokens agree as well.", "quantifier": "every list of rules and permutation of it, every input, every number of scans", "why_tests_cant": "All permutations, inputs and lengths of history; the winner at each position depends on all rules and the positions depend on all earlier winners.", "anchors": ["src/tool/v1/syntaxis_lexer.rs:scan", "src/tool/syntaxis/syntaxis_lexer.rs:scan"]}
{"id": "C98", "title": "Errors are found at the earliest wrong token", "statement": "For a grammar without conflicts all of whose rules derive something: if the first i tokens can be continued to a sentence followed by _STOP but the first i+1 cannot, then either the first message printed is about token i, or nothing is printed and the parser panics at token i, or nothing is printed and the parser returns having consumed exactly the tokens before i (or before a _STOP directly before it), which are a sentence. If all tokens can be continued, nothing is printed and the parser returns or runs out of tokens.", "quantifier": "every grammar whose table has no conflict, all hash orders, every token list", "why_tests_cant": "All grammars and all wrong inputs; that a token is the earliest wrong one speaks about all sentences.", "anchors": ["src/tool/parser/ll1_parser.rs:parse_ast", "src/tool/v1/syntaxis_parser.rs:parse_ast", "src/tool/grammar/mod.rs:Grammar::ll1_table"]}
{"id": "C99", "title": "The numbers of the token types make no difference", "statement": "If the token types are renumbered injectively, keeping that of _STOP, the sentences of a grammar, the printed conflicts and everything the parser does with renumbered tokens stay the same up to the numbers. Hence reordering the lexer rules, with the grammar renumbered accordingly, changes neither what the lexer prints nor what the parser returns for a text in which no two rules report the same match.", "quantifier": "every grammar and injective renumbering, all hash orders, every token list; every list of lexer rules, permutation of it and text", "why_tests_cant": "All grammars, permutations and texts; types are used as keys of the tables, as indices of names and as offsets of rules at once.", "anchors": ["src/tool/parser/ll1_parser.rs:parse_ast", "src/tool/grammar/mod.rs:Grammar::ll1_table", "src/tool/v1/syntaxis_lexer.rs:scan_all_on_channel_tokens"]}
{"id": "C100", "title": "The order of the lexer rules of a grammar file makes no difference", "statement": "Reordering the lexer rules of a grammar file, or moving them between the parser rules, only gives the token types other numbers: the lexer data is the same up to the numbers and the order, a word of token names is in the language of a rule of one file iff it is in that of the rule of the same name of the other, a conflict is printed for one iff for the other, and, without conflicts and on texts in which no two lexer rules report the same match, the generated lexers print the same and the generated parsers return the same tree and messages up to the numbers.", "quantifier": "every pair of grammar trees with the same parser rules and permuted lexer rules, each token defined once; all hash orders, texts and token lists", "why_tests_cant": "All files, permutations, hash orders and texts; the numbers of the tokens are keys of the caches for suffixes, of the table and offsets in the lexer, and whether any use of them leaks into the result is a statement about all of these together.", "anchors": ["src/tool/visitor/grammar_visitor.rs:visit_lexer_rule", "src/tool/visitor/grammar_visitor.rs:visit_element", "src/tool/templates/target/rust/lexer.tera", "src/tool/parser/ll1_parser.rs:parse_ast"]}
{"id": "C101", "title": "Grammar files can be rewritten by the laws of regular expressions", "statement": "Rewriting the rules of a grammar file by the laws of regular expressions - e+ as e e* or e* e, e? as (e | ε), e* as (e+)?, repeated suffixes, superfluous parentheses, nested, reordered or repeated alternatives, multiplying out, (s t)* s as s (t s)* - anywhere inside the rules changes neither the tokens nor the language of any rule, and the parser of the rewritten file, if it has no conflict, accepts exactly the sentences of the original.", "quantifier": "every pair of grammar trees with the same lexer rules whose rules are related by any number of applications of the laws at any place; all hash orders and token lists", "why_tests_cant": "Unbounded chains of rewritings at arbitrary depth and infinite languages; whether every combination of suffixes and blocks expands to productions with exactly the intended words cannot be sampled.", "anchors": ["src/tool/visitor/grammar_visitor.rs:visit_element", "src/tool/visitor/grammar_visitor.rs:visit_block", "src/tool/visitor/grammar_visitor.rs:visit_alternative", "src/tool/parser/ll1_parser.rs:parse_ast"]}
{"id": "C102", "title": "A rule can be inlined into the rules that refer to it", "statement": "Replacing references to rules of a grammar file, at any depth and inside repetitions, by the alternatives of the rule in parentheses - also references of a rule to itself - changes neither the tokens nor the language of any rule, and the parser of either file, if it has no conflict, accepts exactly the sentences of the other.", "quantifier": "every pair of grammar trees with the same lexer rules, one with any selection of references of the other replaced; all hash orders and token lists", "why_tests_cant": "Any selection of references in any, possibly recursive, grammar and infinite languages; equality of least fixed points is not observable on finitely many words.", "anchors": ["src/tool/visitor/grammar_visitor.rs:visit_element", "src/tool/visitor/grammar_visitor.rs:visit_block", "src/tool/visitor/grammar_visitor.rs:visit_parser_rule", "src/tool/parser/ll1_parser.rs:parse_ast"]}
{"id": "C103", "title": "Recursion at one end of a rule can be replaced by a repetition", "statement": "Writing n : (β) (α)* for n : n α | β, or n : (α)* (β) for n : α n | β, in a grammar file, where α and β are any alternatives and may refer to n, changes neither the tokens nor the language of any rule; if the file with the repetition has no conflict, its parser accepts exactly the sentences of the recursive file (whose own parser, for the first form, does not terminate).", "quantifier": "every pair of grammar trees with the same lexer rules, related in this way; all hash orders and token lists", "why_tests_cant": "The advised way around left recursion, which the parser cannot handle at all, so that the parser of the original file cannot even be run for comparison; infinite languages of arbitrary grammars.", "anchors": ["src/tool/visitor/grammar_visitor.rs:visit_element", "src/tool/visitor/grammar_visitor.rs:visit_block", "src/tool/visitor/grammar_visitor.rs:visit_parser_rule", "src/tool/parser/ll1_parser.rs:parse_ast"]}
{"id": "C104", "title": "Every node of a tree is what the parser makes of its tokens", "statement": "Whatever the table and with or without error messages: a rule node anywhere in a returned tree is exactly the tree the parser returns when it is started at that rule with the tokens of the node and the one token behind them, whatever other tokens follow; it then prints the messages that were printed for that stretch, at positions counted from the first token of the node.", "quantifier": "all parsers (any table, any tokens), all rules, all nodes of the returned tree, all continuations of the token list", "why_tests_cant": "That no node depends on what was parsed before it or on more than one token of lookahead is a statement about all trees, nodes and continuations.", "anchors": ["src/tool/parser/ll1_parser.rs:parse_ast", "src/tool/v1/syntaxis_parser.rs:rule_list"]}
{"id": "C105", "title": "Edits inside a node can be re-parsed locally", "statement": "Without conflicts, if the tokens of a rule node of a tree parsed without messages are replaced by tokens that the parser, started at the rule of the node, accepts without message, whatever came after them there, then parsing the changed token list gives without message the old tree with the new node in the place of the old one; nothing outside the node changes.", "quantifier": "every grammar whose table has no conflicts, all hash orders, rules, trees, nodes and replacement tokens, any token of FOLLOW behind the text", "why_tests_cant": "What incremental re-parsing relies on; for all grammars, trees and edits, although the token behind the replacement differs from the one it was parsed with.", "anchors": ["src/tool/parser/ll1_parser.rs:parse_ast", "src/tool/grammar/mod.rs:ll1_table", "src/tool/v1/syntaxis_parser.rs:rule_list"]}
{"id": "C106", "title": "Exactly which grammars can be written in a grammar file", "statement": "For parser rules and lexer rules given as data there is a text that is scanned to its end and parsed without a message into exactly these rules, if and only if rule names are a small letter and token names a capital letter followed by at least one letter, digit or underscore, tokens in parser rules are named by such names or string literals, every rule and group has an alternative, no element has two suffixes, the lexer rules hold regular literals, and only the last of them ends with an escaped slash. If so, the words of the parser rules and then of the lexer rules, separated by blanks, are such a text; in particular every grammar file can be reformatted this way without changing its rules. Different rules are written as different texts.", "quantifier": "all parser rules and lexer rules, all texts, all hash orders, every set of decimal digits without backslash and quote", "why_tests_cant": "That nothing outside the condition can be expressed by any text, and that everything inside can, ranges over all texts and all grammars.", "anchors": ["src/tool/v1/syntaxis_lexer.rs:lazy_static REGULAR_LITERAL", "src/tool/v1/syntaxis_parser.rs:rule_list", "src/tool/v1/syntaxis_lexer.rs:scan_all_on_channel_tokens", "src/main.rs:main"]}
{"id": "C107", "title": "The names of rules and tokens carry no meaning", "statement": "If the names of rules and tokens in a grammar file, string literals included, are replaced one-to-one (leaving the two reserved names for the start and the end of the input alone), building the file succeeds exactly when it did before, with the same failure otherwise; the grammar has the same productions over the same numbers, the vocabulary differs only in the names, and the lexer data is the same but for the token names. The FIRST and FOLLOW sets, the tables and the conflicts are the same for the same iteration order. On every input the generated lexer gives the same tokens with the new kind names and panics exactly as before, and the parser gives the same tree with the new names, reports the same mismatches and fails exactly as before. If two names are merged, this is false.", "quantifier": "all syntax trees of grammar files, all one-to-one renamings fixing the reserved names, all iteration orders, all inputs, all start rules", "why_tests_cant": "A test renames one grammar in one way; that no name is ever compared with a fixed text or ordered against another on any of the paths from the file to the tree is a statement about all renamings.", "anchors": ["src/tool/visitor/grammar_visitor.rs:visit_lexer_rule", "src/tool/visitor/grammar_visitor.rs:visit_element", "src/runtime/vocabulary.rs:Vocabulary", "src/tool/grammar/mod.rs:Grammar::ll1_table", "src/tool/v1/syntaxis_lexer.rs:scan", "src/tool/v1/syntaxis_parser.rs:rule_list"]}
{"id": "C108", "title": "Lexer rules take the longest word if their choices are in order", "statement": "The regex engine prefers earlier alternatives and more repetitions, not longer matches. If in the regex of a lexer rule every part either has no word that continues another, or is put together from such parts by concatenation and greedy repetition, where the next character decides whether the first part goes on, and by alternatives of which no earlier one has a word that a later one properly continues, then the rule matches the longest prefix of the remaining input in its language. If this holds of all rules of a file, every scan of the generated lexer returns the longest prefix in the language of any rule, with the name and number of the first rule that has it, and fails exactly if there is none; together with a parser whose table has no conflict the lexer accepts exactly the texts that, cut into longest words, are words of the first rule apart from white space. A rule that lists words matches the first listed word the input begins with; this is always the longest one exactly if no word stands behind a proper prefix of it without standing in front of it, too. For other rules the claim is false: the lexer of the one rule /a|ab/ returns a for ab.", "quantifier": "every lexer rule and list of lexer rules, every input, every point of the scan, every hash order", "why_tests_cant": "All regexes and inputs: which match is preferred depends on all ways to match, and the longest one may be far down the list of preferences.", "anchors": ["src/tool/visitor/lexer_rule_visitor.rs:visit_lexer_rule", "src/tool/templates/target/rust/lexer.tera", "src/tool/v1/syntaxis_lexer.rs:scan"]}
