# Formal model of Qiu-Weidong/syntaxis in Lean 4

`syntaxis` is an ANTLR-like parser generator: it loads the syntax tree of a
grammar, turns it into a context-free grammar, computes FIRST/FOLLOW sets and an
LL(1) table, and drives a table parser over the tokens of a regex lexer.
Almost all of it is pure logic, so almost all of it is modelled.

## Layout

* `lean/Verif/Model/*` – the model, function by function, each definition citing `/repo`.
* `lean/Verif/Spec/*`  – small independent specifications (derivations, LL(1), EBNF words, positions, ...).
* `lean/Verif/Lemmas/*` – helper lemmas.
* `lean/Verif/Props/*` – the property theorems (named `C<nn>_...`) with non-vacuity `example`s.

## Modelling conventions

* `&mut self` functions return the new state.  `Result`/`Option` stay data.
* A panic (`unwrap` on `None`, index out of range, bad slice, `todo!()`) is the explicit value
  `Except.error Fault.panic`.
* A Rust loop or recursion whose termination is not syntactically evident takes fuel; running out
  is `Except.error Fault.fuel`.  "Terminates" is stated as `∃ n, ∀ fuel ≥ n, run fuel ≠ error fuel`;
  "diverges" as `∀ fuel, run fuel = error fuel`.
* `usize` is `Nat`.  `Model/Checked` repeats the functions that do arithmetic with machine words; C82 shows that they
  agree with the `Nat` versions whenever the input fits in memory.
* `HashMap` is a finite map; `HashSet` is a `Finset`, or, where the iteration order is observable
  (`Grammar.productions`, the token sets iterated by `ll1_table`), an explicit enumeration that the
  theorems quantify over, so they hold for every hash order.
* Rust `String`/`&str` is `List Char` (Lean's `Char` is exactly a Unicode scalar value); byte offsets
  are computed with the UTF-8 size of each character.
* All `println!` of the code are modelled as values: table conflicts, token mismatch, unlexed rest, and the messages of the
  visitors (fields `out`).

## Trusted base

* Lean's kernel (4.33.0).  Closed computations in proofs use `decide +kernel` or `rfl`; both are checked by the
  kernel.  No `native_decide`, `bv_decide`, `sorry`, `admit` or own axioms.
* Axioms: every theorem of `MANIFEST.json` depends on a subset of `propext`, `Classical.choice`, `Quot.sound`
  (checked with `#print axioms` for all of them).  Without `Classical.choice`: C04_nonterminal_default_name,
  C27_left_recursive_entry_diverges, C28_deterministic, C29_lossless_first_lexer, C30_positions_first_lexer,
  C31_first_lexer_no_end_token, C36_children, C37_exact, C39_same_calls_for_every_listener, C39_walk_nested_in_order,
  C40_override_hides_subtree, C40_leaves_once_in_order, C40_recursing_overrides_walk, C40_stop, C40_result_of_last_child, C53_unique,
  C64_fuel, C82_first_lexer, C82_parser, C86_first_wins, C88_restart_first_lexer, C96_follow, C98_same_parse, C99_language, C101_rules, C102_rules, C103_left, C103_right, C107_trees.  With `propext` only: C96_sentences, C36_lists, C36_indexed, C37_sound, C37_found_partial, C37_empty_child_hides.
* The transcription of the Rust code into `Model/*`: every definition cites file and lines.
* The documented behaviour of libraries: `std` (`HashMap`, `HashSet`, `str::replace`, `str::split`, slicing by byte
  offset), `regex` (leftmost-first semantics; the syntax of the fragment in `Model/RegexSyntax`), `serde_json`
  (`Value`, indexing, and the text reader of 1.0.94 as transcribed in `Model/JsonText`; which number texts are in the
  range of `f64` is a parameter), `tera` (`{{ x }}` inserts `x` verbatim with escaping switched off; `{% for %}` repeats its body).
* `Spec/RustText` reads the tokens of a Rust source (words, strings, raw strings, line comments, line ends) and
  `Spec/Html` the tags of a page and the texts of `title`, `style` and `script`; they are specifications, written from
  the Rust reference and the HTML standard.

## What is modelled

| Source | Model |
|---|---|
| `runtime/token.rs`, `runtime/ast/*.rs` | `Model/Ast`, `Model/AstAccess`, `Model/Display` |
| `runtime/vocabulary.rs` | `Model/Vocabulary` |
| `tool/grammar/mod.rs` (`new`, `add_*`, `first_set`, `follow_set`, `ll1_table`, `Display`) | `Model/Grammar`, `Model/Display` |
| `tool/parser/ll1_parser.rs`, `tool/v1/syntaxis_parser.rs` | `Model/Parser`, `Model/ParserCost`, `Model/ParserOut` |
| `tool/v1/syntaxis_lexer.rs`, `tool/syntaxis/syntaxis_lexer.rs`, the lexer of `lexer.tera` | `Model/Lexer`, `Model/Regex`, `Model/RegexSyntax` |
| `tool/*/syntaxis_context.rs` (typed accessors) | `Model/Context` |
| `tool/syntaxis/syntaxis_listener.rs`, `syntaxis_walker.rs` | `Model/Walker` |
| `tool/*/syntaxis_visitor.rs` | `Model/Visitor` |
| `tool/visitor/grammar_visitor.rs`, `load_ast` in `main.rs` | `Model/GrammarVisitor` |
| `tool/visitor/lexer_rule_visitor.rs` | `Model/LexerRuleVisitor` |
| `tool/serde_ast/mod.rs` | `Model/SerdeAst` (over JSON values), `Model/JsonText` (over text) |
| `tool/syntaxis/syntaxis2.json` | `Model/Shipped` (transcribed; C76 checks it against the text in `Spec/ShippedText`) |
| `tool/gui/ast_drawer.rs` | `Model/Drawer` |
| `tool/v1/syntaxis_lexer.rs` as text | `Model/Source` |
| `tool/templates/gui/ast.html` as rendered by `draw` | `Model/Page` |
| the script in `tool/templates/gui/ast.html` | `Model/Outline` (the two views), `Model/Viewer` (events) |
| `tool/templates/target/rust/lexer.tera` as rendered by `tests/lexer_gen.rs` | `Model/Template` |

Not modelled: `serde_json` on input that is not UTF-8, `tera` beyond these two constructs, reading and writing files, the layouts and transitions of `d3` (a layout is a parameter, a transition is its end; the rest of `d3` 7 that the script uses follows its documentation), style sheets, memory and
stack limits, and the part of the regex syntax outside `Model/RegexSyntax`.
`tool/syntaxis/syntaxis_parser.rs` (constants only), `error_strategy`, `token_stream` and the `Lexer`/`Parser` traits of
`runtime` have no behaviour.  `tool/syntaxis/syntaxis.json` is not read by any code.

## Plan per property

| Property | Model | Proof |
|---|---|---|
| C01–C04 | `Model/Vocabulary` as a state machine | invariant by induction over the op list |
| C05–C08 | `Model/Grammar.firstSet` (fuelled loop over an arbitrary order) | measure for termination; loop exit = closed under the rules (completeness); invariant "everything present is derivable" (soundness); spec = derivations of a CFG |
| C09 | same | corollary of exactness |
| C10–C12 | `followSet` | same scheme; derivation lemmas |
| C13 | same | an exiting pass would have looked up the undefined id |
| C14–C17 | `ll1Table` with conflict log | fold invariant; LL(1) equivalence by descent on the FIRST derivation |
| C18, C19, C24 | `Model/Parser` (fuel) | induction on fuel/items |
| C20 | same | induction on derivation trees |
| C21 | same | rank of (rule, lookahead) from LL(1) |
| C22, C23, C25 | same | corollaries; C23 is false of the code (trailing input is ignored): witness; it holds for start rules that end in an empty production (`C23_whole_input`); exactly what is accepted, by induction on the run and on the derivation (`C23_exact`, Spec/LeftAt), and for which grammars the property holds (`C23_holds_iff`) |
| C26 | plus desugaring | every table breaks one or the other: negative theorem |
| C27 | | false: divergence for all fuel; exactly when is C78 |
| C28–C34 | `Model/Lexer`, generic in the regex matchers | step invariants over all call histories |
| C35 | `Model/Regex`: backtracking leftmost-first matcher, the 14 regexes of v1 transcribed | |
| C36–C38 | `Model/Ast` | structural induction; `C38_exact` gives the text of every node of every tree over scanned tokens from its first and last token in the order of the children |
| C39, C40 | `Model/Walker`, `Model/Visitor` | event traces, structural induction |
| C41, C42 | `Model/SerdeAst` over a JSON value type | structural induction |
| C43–C47 | `Model/GrammarVisitor` | invariants through the traversal; simulation between CFG derivations and EBNF words; false in general because the `*`/`+`/`?` caches are keyed by the bare id: witness + `_partial` |
| C48, C49 | `Model/Drawer` + a JS template literal reader as spec | round trip; false for `${`: witness + `_partial`; for every tree what is read back (`C49_exact`) |
| C50, C54, C55 | `Model/LexerRuleVisitor`; C55 also with the compiled regex | `str::replace` as a homomorphism on literal units; C55 is false for other metacharacters: witness + `_partial`; exactly which literals are right (`C55_matcher_iff`): no operator, `.` or class of a literal's regex matches a metacharacter `c` and nothing else, so in every matched word the `c` could be exchanged for another character |
| C51 | parser + accessors | false: the token constants of the two modules differ |
| C52 | transcription of `syntaxis2.json` | kernel run of the model + C16, C22, C46 |
| C53 | `Model/Regex` | the language of every regex, and "longest match = maximal munch" for the 14 token languages |
| C56 | `generatedLexer` on the data of `load_ast` for `syntaxis2.json` | kernel run + C64 |
| C57 | lexer, parser and trees against a specification of grammar files (`Spec/GrammarText`) | unambiguity of the written form, C22, C24 |
| C58 | lexer + parser + visitors | false: wrong token constants; `_partial` with the right ones |
| C59, C60 | messages of `parse_ast` against edit scripts (`Spec/Repair`) | induction on big-step runs |
| C61 | `parse_ast` | relational induction on big-step runs |
| C62 | depth-instrumented runs | pigeonhole over rules between two consumed tokens |
| C63 | v1 lexer | maximal munch is unaffected by white space |
| C64 | `Model/RegexSyntax` | kernel run for the patterns in the code; for rule texts, reading is stable under a following `)`; reading = the grammar of `Spec/RegexText`, both directions by induction over fuel and over the length of the text; counted repetitions: their words and, for a class, the match that is found, by induction over the number of copies; classes and escapes: what they match, from the grammar |
| C65 | generated lexer with compiled regexes | C28 + C64; false for unbalanced rule texts: witness + `_partial` |
| C66 | `Model/Template` (`lexer.tera` as text) against a reader of Rust tokens (`Spec/RustText`) | the fixed pieces by kernel run, the loops by induction; false for `"####`, carriage returns and a missing `WHITE_SPACE`: witnesses + `_partial` |
| C67 | first lexer | maximal munch between the three patterns that begin with `/`; false for a line comment that ends with the input: witness + `_partial` |
| C68 | `Model/Page` (`ast.html` as text) against a reader of HTML (`Spec/Html`) and C49 | fixed pieces by kernel run; an end tag cannot arise from escaping; false for `</script` and `</title`: witnesses + `_partial`; `C68_page_iff` says exactly when |
| C69 | `Model/Template` and `Model/Source` (`v1/syntaxis_lexer.rs` as text) | C66 + kernel comparison of the tokens |
| C70 | `Model/Main`: `main` from the content of `syntaxis2.json` to the content of `parser2.html`, for any text in place of the one in `main.rs` | C17, C21, C32, C57, C68; a repetition at the end of the start rule can only be left at `_STOP` (`C23_whole_input`); kernel run for the text in `main.rs` |
| C71 | `Model/AstAccess` (`Display` of trees), `Model/Display` (tokens, positions) | injectivity by cutting the two texts at their first (last) separators; induction on the trees |
| C72 | `Model/Display` (`Display for Grammar`), enumeration order explicit | lines permute with the order; negation: no space before a rule name (`C72_rules_glued`); `_partial`: right sides with at most one rule, in front; `C72_exact`: what is lost are the boundaries of names inside a word |
| C73 | `Model/Main`, `Model/Template`, `Model/Grammar`; the files are transcribed by a script into `Spec/Artefacts` | hash-order independence (C70, C09) and one kernel run each; these theorems also check the model against output of the real program |
| C74 | `Model/Grammar` (`fuel` of `whileLoop` = rounds + 1) | levels: after `k` rounds the maps contain what `k` simultaneous applications of the rules derive (`nulStep`, `fstStep`, `flwStep`); a monotone operator on `n` elements is stable after `n` applications; the lower bound by an invariant for the chain grammar |
| C75 | `Model/ParserCost` (`parse_ast` with a counter of calls) | a finished run enters no rule twice without consuming a token in between, so a run without progress is a tree of bounded depth and width; induction on the run; closed form for the doubling grammar |
| C76 | `Model/JsonText` (the reader of `serde_json`), `Model/SerdeAst` | `Spec/JsonText` is the grammar of RFC 8259 as a relation between values and texts; reader and grammar agree by induction on the nesting; a printer shows that every tree within the limits has a text; the file `syntaxis2.json` is compared with the printed form of the transcription in the kernel |
| C77 | lexer, visitors, tables and parser together | C32 + C20/C22 + C46; the first rule gets number 0 because the counter starts there and the first parser rule node is visited first (fold over the top nodes) |
| C78 | `Model/Parser` | an endless call makes an endless call (first item of the loop that never ends); pigeonhole over (token, rule) on the infinite chain; conversely the depth decreases along calls; the items passed without consuming a token derive the empty string, which gives left recursion |
| C79 | `Model/Grammar` (`TableState.conflicts`), `Model/Display` (`debugProduction`, `conflictOutput`) | induction over the insertions: a message is the production and the last earlier one predicted by the token; each insertion either adds a key or prints a message, which gives the count; the `Debug` texts are cut at their separators |
| C80 | `SymState.out` in `Model/GrammarVisitor`, definitions read by `Spec/Messages` | induction over the topmost rule nodes; the messages of a token are counted; negation for rules |
| C81 | `ProdState.out` in `Model/GrammarVisitor`; written alternatives and blocks in `Spec/Messages` | `Lemmas/Resolve`: the caches give each translated element its item (`look`), they only grow, and without collisions `look` is injective; messages and productions of named rules together count the written alternatives; negation by a cache collision |
| C82 | `Model/Checked` (every `+`, `-` on words checked against the word range), size of a tree in `Spec/Size` | invariants of C05-C07 bound cursor, position and token index by the input; every id handed out by the builder is paid for by a node: induction over the mutual recursion of `visit_element` and `visit_block`, and over the pre-order walk for the collectors |
| C83 | as C46; `Spec/Desugar`: symbols are the elements that occur, `Expands` gives their rules | every cache entry and every id handed out by the builder comes from an element that occurs (induction over the elaboration), different elements have different items (`look_inj`), so `look` is the numbering; false in general: witness `C83_collision` |
| C84 | as C83, C14-C16, C21; `Spec/Reorder` | lexer rules read and write a part of the state that parser rules leave alone (fold argument); translating rule names commutes with the desugaring (`Lemmas/Rename`); the two numberings of C83 give an isomorphism of grammars (`Lemmas/Iso`), along which derivations, FIRST, FOLLOW, LL(1), table entries and runs of the parser are transported; false in general: witness `C84_order_matters` |
| C85 | as C84 | lexer rules only extend the tokens (fold argument); the numberings of C83 give an embedding of grammars (`Hom` in `Lemmas/Iso`), along which derivations, FIRST, FOLLOW and predictions are transported, hence LL(1) back and table entries and returning parser runs forth; false in general: witness `C85_word_lost` |
| C86 | as C83; `Spec/Sharing` | invariant: the productions of a cached repetition are those of the oldest recorded use of its suffix on its number (`UInv`), and the recorded uses are the repetitions of the file in reading order (`UStep`); exact description of equal symbols from the injectivity of the caches; words by induction over derivation trees; messages by counting the productions that are images of written alternatives |
| C87 | both lexers; `Spec/TokenNames` | languages of the regexes = shapes, by rule; invariant of the scans; converse from C53 and first characters; the name of `?` in the first lexer is misspelt: witness + `_partial` |
| C88 | both lexers; `Spec/Restart` | simulation: shifting a lexer behind a text commutes with `scan`; the state at a token is the shifted initial state, from the invariant of the scans |
| C89 | both lexers; `Spec/TwoLexers` | equal matches of corresponding rules from equal languages and longest matches (C53, C87); ties by first characters; simulation over the scans |
| C90 | as C86; `Spec/GrammarSize` | the productions are distinct (C45) and among the expansions of C86, which are counted by occurrence in the file |
| C91 | `Model/Outline` (`indentTree` of the script in `ast.html`, the documented behaviour of `d3`) against `Spec/PageView` | invariant of the keyed join: keys are unique, elements are bound to existing nodes with their labels; rows are positions in a list sorted by document order |
| C92 | `Model/Outline` (`collapsibleTree`), layout as a parameter | as C91; false for rules without children, which get no label: `C92_empty_rule` + `_partial` |
| C93 | `Model/Viewer` (the handlers as a transition system) | induction over the sequence of events; the difference of shift and pointer is invariant during a drag |
| C94 | `Model/Viewer` | induction over the sequence of events; which events draw anew, and what the others change |
| C95 | `Model/Regex`, `Model/Lexer`, `Model/Main` | false: a regular expression that ends with an escaped slash goes on up to the first slash of the second text, `C95_swallowed` (two files that are drawn alone but not joined); proved exactly otherwise: induction over the lexing of the first text, of which each token stays the longest match; grammar files are closed under joining, and are told by the types and texts of their tokens |
| C96 | `Model/Grammar`, `Model/Parser` | false: FOLLOW counts what follows in unused rules, which can add a conflict (`C96_conflict_added`), lose a sentence (`C96_sentence_lost`) and turn a panic into a result (`C96_panic_gone`); proved: same derivations from the start rule (`C96_sentences`, `C96_follow`), conflicts of the smaller are not hidden, and if the larger has none, every result of the smaller is one of the larger, and both accept the same inputs with the same trees (induction over the run of the parser) |
| C97 | `Model/Lexer` | simultaneous induction over two histories (`tokensOf_same`): the length of the longest match is determined by the set of rules (`wins_same`); `C97_names` for rules carrying their names, if no two tie; `C97_tie`: where two tie, the order does decide |
| C98 | `Model/ParserOut`: `parse_ast` again, with the messages kept when it panics and the cursor of the panic; `C98_same_parse`: otherwise the same as `Model/Parser` | big-step relation `PanicsAt` for panicking runs; up to its first message or its panic such a run follows a derivation (`PanicsAt.agree`) and would do the same on a sentence with that prefix (`PanicsAt.not_silent`), with C20, C60, C61 for runs that return; `C98_not_before` without the hypothesis that all rules derive something, `C98_dead_end`: it is needed for the rest |
| C99 | `Model/Grammar`, `Model/Parser`, `Model/Lexer` | renumbered derivations in both directions (`Derives.renum`, `Derives.of_renum`), hence FIRST, FOLLOW, predictions and, with C14-C17, the tables (`table_renum`); the parser by induction over its fuel (`parseAst_renum`, an equation); with C97 and C32 for texts (`C99_text`); `C99_numbering`: the renumbering of a permutation exists |
| C100 | as C50, C83, C99 | the numbers of the names from the invariant of the symbol pass (`tokenIds`), hence a renumbering (`C100_tokens`); the renumbered grammar is isomorphic to that of the other file, by the elements of the file the rules stand for (`Over.iso`); then C99 and the transport along isomorphisms of C84; false in general: exchanging two lexer rules can make a token and a rule share a number and with it a repetition (`C100_order_matters`) |
| C101 | as C46; the laws as an inductive relation on sequences of elements (Spec/EbnfLaws) | each law keeps the words, by describing `*`, `+`, `?`, blocks and sequences as operations on words (Lemmas/EbnfLaws); congruence by induction on the rewriting; rules by induction on the word (`C101_rules`); files by C46 and C84, parsers by C22; false in general: rewriting `A* u*` as `A* (u+)?` separates two repetitions that shared their productions (`C101_rewriting_matters`) |
| C102 | as C101; unfolding as an inductive relation (Spec/Unfold) | both inclusions by induction on the word, over all unfoldings of the sequence (Lemmas/Unfold); files by C46 and C84, parsers by C22; false in general (`C102_inlining_matters`) |
| C103 | as C101 (Spec/Unfold) | each alternative of one file has only words of the rule in the other (`word_of_alternatives`); the repetition by induction on its pieces, at the end for left and at the front for right recursion; files by C46 and C84, parsers by C22; false in general (`C103_removal_matters`); a grammar of expressions with conflicts that the change removes (`C103_left_repaired`) |
| C104 | nodes inside a tree with the number of tokens before them (Spec/Subtree), the parser as in C22 | every node comes from a sub-run of the big-step semantics, by induction on the run, through spliced unnamed rules; a run depends only on its own tokens and the next (`Run` moved to another token list), and its messages move along |
| C105 | as C104; exchanging a node (Spec/Subtree) | the exchanged tree is unspliced to a valid derivation tree with the new sub-derivation, and completeness of the table gives its run (`run_complete_tree`); spliced children are determined by the derivation tree |
| C106 | lexer, parser and program as in C57, C70, C95; grammars as data, the condition and a writer in Spec/Writable | the writer's words are tokens of their own kinds and, separated by blanks, stay apart (C95's lemma on joining); conversely every scanned token has the shape of its kind (C87) and a literal ending with an escaped slash takes everything up to the next slash (maximal munch); C57 between tokens and rules |
| C107 | visitors, tables, lexer and parser as in C44, C15, C28, C18; renamings and renamed results in Spec/Renaming | two runs related step by step: both fail alike or both succeed with results that differ only in names; every visitor, the table code, the lexer loop and the parser loop keep the relation. `C107_merged_names`: one-to-one is needed. The generated source refers to the constant `WHITE_SPACE` by name (C66), so a renaming has to keep that name for it to compile |
| C108 | regexes, their matcher and the generated lexer as in C64, C65, C28; the condition (`Regex.Tidy`) and longest prefixes in Spec/RegexLongest | invariant on the list of remainders in order of preference: whatever follows a longer remainder has occurred before it; kept by concatenation, repetition and alternatives under the condition, so the first remainder is the shortest; then C28 and C77. For lists of words the matcher is computed. `C108_shorter`: `/a|ab/` |
