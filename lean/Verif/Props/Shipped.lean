import Verif.Model.Shipped
import Verif.Spec.Shipped
import Verif.Props.GrammarVisitor
import Verif.Props.SerdeAst
import Verif.Props.Parser
import Verif.Props.RegexSyntax

/-!
# C52: the shipped grammar
-/

namespace Syntaxis
open Grammar

deriving instance DecidableEq for HMap

namespace Shipped

/-- the tree of the file -/
def ast : RuleContext :=
  match SerdeAst.fromJson 1000000000 (some json) with
  | .ok (some r) => r
  | _ => ⟨[], [], 0⟩

theorem json_size : sizeOf json ≤ 1000000000 := by decide +kernel

theorem ast_loaded : SerdeAst.fromJson 1000000000 (some json) = .ok (some ast) := by
  have h : (match SerdeAst.fromJson 1000000000 (some json) with | .ok (some _) => true | _ => false) = true := by
    decide +kernel
  unfold ast
  split
  · rename_i r hr; exact hr
  · rename_i hr
    split at h
    · rename_i hr'
      exact absurd hr' (hr _)
    · cases h

/-- `serde_ast::from_reader` returns the tree -/
theorem fromJson_ast (fuel : Nat) (hf : sizeOf json ≤ fuel) : SerdeAst.fromJson fuel (some json) = .ok (some ast) := by
  obtain ⟨o, h1, h2⟩ := SerdeAst.parseRule_spec 1000000000 json json_size
  obtain ⟨o', h1', h2'⟩ := SerdeAst.parseRule_spec fuel json hf
  have e : o = some ast := Except.ok.inj (h1.symm.trans ast_loaded)
  exact h1'.trans (congrArg _ ((h2' ast).2 ((h2 ast).1 e)))

theorem ast_size : sizeOf ast.toAst ≤ 1000000000 := by decide +kernel

theorem ast_rules : readRules .old ast.children = some rules := by
  rfl

/-- the productions it is turned into; 9 to 17 are the unnamed rules -/
def productions : List Production := [
  ⟨9, [.nt 1]⟩, ⟨9, [.nt 7]⟩, ⟨10, []⟩, ⟨10, [.nt 9, .nt 10]⟩, ⟨0, [.nt 10]⟩, ⟨1, [.t 2, .t 4, .nt 2, .t 5]⟩,
  ⟨11, [.t 6, .nt 3]⟩, ⟨12, []⟩, ⟨12, [.nt 11, .nt 12]⟩, ⟨2, [.nt 3, .nt 12]⟩, ⟨13, []⟩, ⟨13, [.nt 5, .nt 13]⟩,
  ⟨3, [.nt 5, .nt 13]⟩, ⟨3, [.nt 4]⟩, ⟨4, [.t 7]⟩, ⟨14, [.t 3]⟩, ⟨14, [.t 13]⟩, ⟨14, [.t 2]⟩,
  ⟨14, [.t 11, .nt 2, .t 12]⟩, ⟨15, []⟩, ⟨15, [.nt 6]⟩, ⟨5, [.nt 14, .nt 15]⟩, ⟨16, [.t 8]⟩, ⟨16, [.t 9]⟩, ⟨16, [.t 10]⟩,
  ⟨17, []⟩, ⟨17, [.t 10]⟩, ⟨6, [.nt 16, .nt 17]⟩, ⟨7, [.t 3, .t 4, .nt 8, .t 5]⟩, ⟨8, [.t 14]⟩]

/-- the grammar it is turned into -/
def grammar : Grammar where
  name := "我的文法".toList
  vocabulary := {
    ntNameToId := ⟨ruleNumbers.reverse⟩
    ntIdToName := ⟨ruleNumbers.reverse.map fun e => (e.2, e.1)⟩
    tNameToId := ⟨tokenNumbers.reverse⟩
    tIdToName := ⟨tokenNumbers.reverse.map fun e => (e.2, e.1)⟩
    nonterminals := Finset.range 18
    terminals := Finset.range 16 }
  productions := productions

/-- the regexes of `v1/syntaxis_lexer.rs:47-60` -/
def regexes : List Str := [
  "^([a-z][a-zA-Z0-9_]+)".toList,
  "^([A-Z][a-zA-Z0-9_]+)".toList,
  "^(::=|:=|->|=>|:|=)".toList,
  "^(;)".toList,
  "^(\\|)".toList,
  "^(ε|epsilon)".toList,
  "^(\\*)".toList,
  "^(\\+)".toList,
  "^(\\?)".toList,
  "^(\\()".toList,
  "^(\\))".toList,
  "^('([^\\a\\d\\n\\r\\t\\f\\v\\\\']|(\\\\\\\\|\\\\'|\\\\a|\\\\d|\\\\n|\\\\r|\\\\t|\\\\f|\\\\v|\\\\u\\{(0x|0)?[a-f0-9]+\\})|\\d)*')".toList,
  "^(/(\\\\/|[^/])+/)".toList,
  "^([ \\r\\n\\t\\f]+)".toList]

/-- the lexer data it is turned into -/
def data : List LexerRuleData :=
  (tokenNumbers.drop 2).zipWith (fun e r => ⟨e.2, e.1, r⟩) regexes

/-- the suffixes used and what they are applied to -/
def uses : List (Suffix × Item) :=
  [(.question, .t 10), (.question, .nt 6), (.star, .nt 5), (.star, .nt 11), (.star, .nt 9)]

/-- the values computed by the three passes, compared with the above -/
def check : Bool :=
  match buildStates .old 1000000000 ast (Grammar.new "我的文法".toList) 2 0 with
  | .ok (s2, s3) =>
    decide (s3.grammar.name = grammar.name) &&
    decide (s3.grammar.productions = productions) &&
    decide (s3.grammar.vocabulary.ntNameToId = grammar.vocabulary.ntNameToId) &&
    decide (s3.grammar.vocabulary.ntIdToName = grammar.vocabulary.ntIdToName) &&
    decide (s3.grammar.vocabulary.tNameToId = grammar.vocabulary.tNameToId) &&
    decide (s3.grammar.vocabulary.tIdToName = grammar.vocabulary.tIdToName) &&
    decide (s3.grammar.vocabulary.nonterminals = grammar.vocabulary.nonterminals) &&
    decide (s3.grammar.vocabulary.terminals = grammar.vocabulary.terminals) &&
    decide (s2.data = data) && decide (s3.uses = uses) && decide (s2.out ++ s3.out = [])
  | _ => false

theorem check_true : check = true := by decide +kernel

theorem built_big : ∃ s2 s3, buildStates .old 1000000000 ast (Grammar.new "我的文法".toList) 2 0 = .ok (s2, s3) ∧
    s3.grammar = grammar ∧ s2.data = data ∧ s3.uses = uses ∧ s2.out ++ s3.out = [] := by
  have h := check_true
  unfold check at h
  split at h
  · rename_i s2 s3 hb
    refine ⟨s2, s3, hb, ?_⟩
    simp only [Bool.and_eq_true, decide_eq_true_eq] at h
    obtain ⟨⟨⟨⟨⟨⟨⟨⟨⟨⟨h1, h2⟩, h3⟩, h4⟩, h5⟩, h6⟩, h7⟩, h8⟩, h9⟩, h10⟩, h11⟩ := h
    refine ⟨?_, h9, h10, h11⟩
    revert h1 h2 h3 h4 h5 h6 h7 h8
    obtain ⟨n, ⟨v1, v2, v3, v4, v5, v6⟩, ps⟩ := s3.grammar
    dsimp only
    rintro rfl rfl rfl rfl rfl rfl rfl rfl
    rfl
  · cases h

theorem buildStates_fuel (lc : LexConsts) (ast : RuleContext) (g0 : Grammar) (n0 r0 fuel fuel' : Nat)
    (hf : sizeOf ast.toAst ≤ fuel) (hf' : sizeOf ast.toAst ≤ fuel') :
    buildStates lc fuel ast g0 n0 r0 = buildStates lc fuel' ast g0 n0 r0 := by
  simp only [buildStates, prodVisitRuleList_eq lc fuel ast hf, prodVisitRuleList_eq lc fuel' ast hf']

theorem built (fuel : Nat) (hf : sizeOf ast.toAst ≤ fuel) :
    ∃ s2 s3, buildStates .old fuel ast (Grammar.new "我的文法".toList) 2 0 = .ok (s2, s3) ∧
    s3.grammar = grammar ∧ s2.data = data ∧ s3.uses = uses ∧ s2.out ++ s3.out = [] := by
  obtain ⟨s2, s3, h, h'⟩ := built_big
  exact ⟨s2, s3, (buildStates_fuel _ _ _ _ _ _ _ hf ast_size).trans h, h'⟩

/-- **C52** what `load_ast` returns: the numbering of tokens is that of the constants of
`v1/syntaxis_lexer.rs`, the numbering of rules that of `v1/syntaxis_parser.rs`. -/
theorem C52_loaded : ∃ n, ∀ fuel, n ≤ fuel → SerdeAst.fromJson fuel (some json) = .ok (some ast) ∧
    loadAst fuel ast = .ok (grammar, data) := by
  refine ⟨sizeOf json + sizeOf ast.toAst, fun fuel hf => ⟨fromJson_ast fuel (by omega), ?_⟩⟩
  obtain ⟨s2, s3, h, h1, h2, _⟩ := built fuel (by omega)
  simp only [loadAst, buildGrammar, h, bind_ok, h1, h2]

/-- an iteration order -/
def order : IterOrder grammar where
  ids := List.range 18
  ids_mem := fun i => by
    rw [List.mem_range]
    exact Finset.mem_range.symm
  ord := productions
  ord_perm := List.Perm.refl _
  ord_nodup := by decide

theorem table_run : ((runTable grammar order incSetOrder 100).map (·.conflicts)) = .ok [] := by
  decide +kernel

theorem ll1 : LL1 grammar.productions := by
  have h := table_run
  cases hr : runTable grammar order incSetOrder 100 with
  | error e => rw [hr] at h; cases h
  | ok ts =>
    rw [hr] at h
    exact (C16_conflict_iff_not_ll1 grammar order incSetOrder 100 ts hr).1 (Except.ok.inj h)

/-- **C52** no conflict is printed, whatever the hash orders. -/
theorem C52_no_conflict (o : IterOrder grammar) (so : SetOrder) (fuel : Nat) (ts : TableState)
    (h : runTable grammar o so fuel = .ok ts) : ts.conflicts = [] :=
  (C16_conflict_iff_not_ll1 grammar o so fuel ts h).2 ll1

theorem wellFormed : grammar.WellFormed := by
  have h : ∀ p ∈ productions, p.left ∈ Finset.range 18 ∧ ∀ x ∈ p.right, ∀ B, x = Item.nt B → B ∈ Finset.range 18 := by
    simp [productions]
  intro p hp
  exact ⟨(h p hp).1, fun B hB => (h p hp).2 _ hB B rfl⟩

/-- **C52** the tables are computed without panic, whatever the hash orders. -/
theorem C52_tables_returned (o : IterOrder grammar) (so : SetOrder) :
    ∃ n ts, ∀ fuel, n ≤ fuel → runTable grammar o so fuel = .ok ts :=
  C14_table_returns grammar o so wellFormed (by decide)

theorem noClash : NoClash uses := by
  intro f x y hx hy hxy
  have h : ∀ u ∈ uses, ∀ v ∈ uses, u.1 = v.1 → u.2.bare = v.2.bare → u.2 = v.2 := by decide
  exact h _ hx _ hy rfl hxy

theorem names (n : Str) : grammar.vocabulary.getTerminalIdByName n = number tokenNumbers n := by
  have h : ∀ (l : List (Str × Nat)), HMap.find n l = l.lookup n := by
    intro l
    induction l with
    | nil => rfl
    | cons e l ih =>
      obtain ⟨k, v⟩ := e
      rw [HMap.find, List.lookup_cons, ih]
      by_cases hk : k = n
      · rw [if_pos hk, hk]; simp
      · rw [if_neg hk]
        have : (n == k) = false := by simpa using fun h => hk h.symm
        rw [this]
  show HMap.find n tokenNumbers.reverse = tokenNumbers.lookup n
  rw [h]
  have hd : (tokenNumbers.map (·.1)).Nodup := by decide +kernel
  generalize tokenNumbers = l at hd
  have key : ∀ l : List (Str × Nat), (l.map (·.1)).Nodup → ∀ v, l.lookup n = some v ↔ (n, v) ∈ l := by
    intro l hl v
    induction l with
    | nil => simp
    | cons e l ih =>
      obtain ⟨k, u⟩ := e
      rw [List.map_cons, List.nodup_cons] at hl
      rw [List.lookup_cons]
      by_cases hk : n = k
      · subst hk
        have : (n, v) ∉ l := fun hm => hl.1 (List.mem_map.2 ⟨_, hm, rfl⟩)
        simp [this, eq_comm]
      · have : (n == k) = false := by simpa using hk
        rw [this]
        simp [ih hl.2, hk]
  have hr : ((l.reverse).map (·.1)).Nodup := by rw [List.map_reverse]; exact List.nodup_reverse.2 hd
  apply Option.ext
  intro v
  rw [key _ hr, key _ hd, List.mem_reverse]

/-- **C52** the sentences of a rule of the produced grammar are the words of its EBNF definition. -/
theorem C52_language (n : Str) (A : Nat) (hA : (n, A) ∈ ruleNumbers) (w : List Nat) :
    Sentence grammar.productions A w ↔ Word rules (number tokenNumbers) [.ref n] w := by
  obtain ⟨s2, s3, h, h1, _, h3, _⟩ := built _ ast_size
  have hc : NoClash s3.uses := by rw [h3]; exact noClash
  have key := C46_language_preserved_partial (by omega) ast_size h hc ast_rules n A
  rw [h1, show grammar.vocabulary.getTerminalIdByName = number tokenNumbers from funext names] at key
  refine key ?_ w
  have hn : ∀ e ∈ ruleNumbers, grammar.vocabulary.getNonterminalIdByName e.1 = some e.2 := by decide +kernel
  exact hn _ hA

/-- **C52** For every hash order and every sequence of tokens ended by `_STOP`: the parser returns a tree that
covers the input, without printing a mismatch, iff the token types before `_STOP` are a word of the grammar. -/
theorem C52_parser_accepts_iff (o : IterOrder grammar) (so : SetOrder) (fuel : Nat) (ts : TableState)
    (h : runTable grammar o so fuel = .ok ts) (w : List Nat) (toks : List Token)
    (ht : toks.map Token.tokenType = w ++ [1]) :
    Word rules (number tokenNumbers) [.ref "rule_list".toList] w ↔
      ∃ fuel' r, (parserOf grammar ts toks).parse fuel' = .ok (r, []) ∧ r.toAst.leaves = toks.take w.length := by
  rw [← C52_language "rule_list".toList 0 (by decide +kernel) w]
  exact C22_parser_decides grammar o so fuel ts h (C52_no_conflict o so fuel ts h) w toks ht

/-- non-vacuity: `a : B ;` is a word of the grammar -/
example : Word rules (number tokenNumbers) [.ref "rule_list".toList] [2, 4, 3, 5] := by
  have h : ((runTable grammar order incSetOrder 100).bind fun ts =>
      ((parserOf grammar ts ([2, 4, 3, 5, 1].map tk)).parse 50).map fun r =>
        (decide (r.1.toAst.leaves = [2, 4, 3, 5].map tk), r.2)) = .ok (true, []) := by decide +kernel
  cases hr : runTable grammar order incSetOrder 100 with
  | error e => rw [hr] at h; cases h
  | ok ts =>
    rw [hr] at h
    change Except.map _ _ = _ at h
    cases hp : (parserOf grammar ts ([2, 4, 3, 5, 1].map tk)).parse 50 with
    | error e => rw [hp] at h; cases h
    | ok x =>
      rw [hp] at h
      simp only [Except.map, Except.ok.injEq, Prod.mk.injEq, decide_eq_true_eq] at h
      refine (C52_parser_accepts_iff order incSetOrder 100 ts hr [2, 4, 3, 5] ([2, 4, 3, 5, 1].map tk) rfl).2
        ⟨50, x.1, by rw [hp, ← h.2], h.1⟩

/-! ### C56 -/

/-- **C56** the lexer generated (by `lexer.tera`) from what `load_ast` returns is the lexer of
`v1/syntaxis_lexer.rs`: the same constants, the same regexes in the same order, the same token names. -/
theorem C56_generated_lexer (fuel : Nat) (hf : sizeOf ast.toAst ≤ fuel) (compile : Str → Matcher) (input : Str) :
    ∃ g d, loadAst fuel ast = .ok (g, d) ∧
      d.map (fun e => (e.tokenName, e.tokenType)) = tokenNumbers.drop 2 ∧
      generatedLexer compile d input = Lexer.new (regexes.map compile) V1.tokenNames input := by
  obtain ⟨s2, s3, h, h1, h2, _⟩ := built fuel hf
  refine ⟨grammar, data, by simp only [loadAst, buildGrammar, h, bind_ok, h1, h2], by decide +kernel, ?_⟩
  have e1 : data.map (·.regex) = regexes := by decide +kernel
  have e2 : "_START".toList :: "_STOP".toList :: data.map (·.tokenName) = V1.tokenNames := by decide +kernel
  rw [generatedLexer, e2, ← e1, List.map_map]
  rfl

/-- the regexes of the shipped grammar are the texts in `v1/syntaxis_lexer.rs` -/
theorem C56_same_patterns : regexes = V1.patterns := by decide +kernel

/-- **C56** hence, for all texts: the generated lexer produces the same tokens, prints the same line and stops
in the same place. -/
theorem C56_same_tokens (fuel : Nat) (hf : sizeOf ast.toAst ≤ fuel) (digit : Char → Bool) (input : Str)
    (channel n : Nat) :
    ∃ g d, loadAst fuel ast = .ok (g, d) ∧ (∀ e ∈ d, (RegexSyntax.compile e.regex).isSome) ∧
      (generatedLexer (toMatcher digit) d input).scanAll V1.WHITE_SPACE channel n =
        (V1.lexer digit input).scanAll V1.WHITE_SPACE channel n := by
  obtain ⟨g, d, h1, h3, h2⟩ := C56_generated_lexer fuel hf (toMatcher digit) input
  have hp := RegexSyntax.C64_v1_patterns (digit := digit)
  have hc : regexes.map (toMatcher digit) = (V1.regexes digit).map Regex.find := by
    rw [C56_same_patterns]
    have := congrArg (List.map fun o : Option Matcher => o.getD fun _ => none) hp
    rw [List.map_map, List.map_map] at this
    rw [← show (V1.regexes digit).map ((fun o : Option Matcher => o.getD fun _ => none) ∘ fun r => some r.find) =
      (V1.regexes digit).map Regex.find from rfl, ← this]
    refine List.map_congr_left fun s _ => ?_
    simp only [toMatcher, Function.comp]
    cases RegexSyntax.compile s <;> rfl
  refine ⟨g, d, h1, ?_, by rw [h2, hc]; rfl⟩
  intro e he
  obtain ⟨s2, s3, h, k1, k2, _⟩ := built fuel hf
  have hd : d = data := by
    have : loadAst fuel ast = .ok (grammar, data) := by
      simp only [loadAst, buildGrammar, h, bind_ok, k1, k2]
    rw [h1] at this
    simp only [Except.ok.injEq, Prod.mk.injEq] at this
    exact this.2
  have e1 : data.map (·.regex) = V1.patterns := by rw [← C56_same_patterns]; decide +kernel
  have hm : e.regex ∈ V1.patterns := by rw [← e1, ← hd]; exact List.mem_map_of_mem he
  have hall : ∀ s ∈ V1.patterns, (RegexSyntax.compile s).isSome = true := by decide +kernel
  exact hall _ hm

end Shipped
end Syntaxis
