import Verif.Model.Context
import Verif.Model.Visitor
import Verif.Model.Grammar
import Verif.Model.Str
import Verif.Model.Lexer

/-!
# `tool/visitor/grammar_visitor.rs` and `load_ast` (`main.rs:92-125`): from syntax tree to grammar
-/

namespace Syntaxis

/-- `lexer_rule_visitor.rs:19-23`, `struct LexerRuleData` -/
structure LexerRuleData where
  tokenType : Nat
  tokenName : Str
  regex : Str
  deriving DecidableEq, Repr

variable (lc : LexConsts)

/-! ## first pass -/

/-- `grammar_visitor.rs:16-20`, `struct StringLiteralToTokenVisitor`; `new` (29-31) fills it with no data -/
structure LitState where
  grammar : Grammar
  nextTokenId : Nat
  data : List LexerRuleData

/-- `grammar_visitor.rs:35-52`, `visit_element`.  On a string literal the first thing it does is to call
`escape`, which is `todo!()` (line 24): the rest of the branch is never reached. -/
def litVisitElement (ctx : RuleContext) (s : LitState) : Res (Unit × LitState) :=
  match ctx.stringLiteral lc with
  | some _ => .error .panic
  | none => .ok ((), s)

/-- `grammar_visitor.rs:34-53`, `impl SyntaxisVisitor for StringLiteralToTokenVisitor` -/
def litVisitor : Visitor LitState Unit :=
  { Visitor.default with
    override := fun
      | .element => some fun ctx _ s => litVisitElement lc ctx s
      | _ => none }

/-! ## second pass -/

/-- `grammar_visitor.rs:57-62`, `struct SymbolVisitor`; `new` (65-68) fills it with its arguments.  `out` is not in the code: the lines printed so far. -/
structure SymState where
  grammar : Grammar
  data : List LexerRuleData
  nextTokenId : Nat
  nextRuleId : Nat
  out : List Str := []

/-- `println!` (`grammar_visitor.rs:76,82,97`) -/
def SymState.print (s : SymState) (line : Str) : SymState := { s with out := s.out ++ [line] }

/-- `grammar_visitor.rs:80-86` and `lexer_rule_visitor.rs:42-49`: the regex of a lexer rule from the text of
its literal; `none` is the early return for texts shorter than two bytes. -/
def ruleRegex (text : Str) : Res (Option Str) :=
  if byteLen text < 2 then .ok none
  else do
    let inner ← slice text 1 (byteLen text - 1)
    .ok (some ("^(".toList ++ replace inner "\\/".toList "/".toList ++ ")".toList))

/-- `grammar_visitor.rs:72-92`, `visit_lexer_rule` -/
def symVisitLexerRule (ctx : RuleContext) (s : SymState) : Res (Unit × SymState) := do
  let name := (← unwrap (ctx.tokenRef lc)).text
  if s.grammar.vocabulary.isTerminalNameDefined name then .ok ((), s.print (chars! "重复定义 token: " ++ name))
  else do
    let text := (← unwrap ((← unwrap ctx.regular).regularLiteral lc)).text
    match ← ruleRegex text with
    | none => .ok ((), s.print (chars! "非法正则表达式"))
    | some regex =>
      .ok ((), { s with
        data := s.data ++ [{ tokenType := s.nextTokenId, tokenName := name, regex }]
        grammar := { s.grammar with vocabulary := (s.grammar.vocabulary.addTerminal s.nextTokenId name).1 }
        nextTokenId := s.nextTokenId + 1 })

/-- `grammar_visitor.rs:94-104`, `visit_parser_rule` -/
def symVisitParserRule (ctx : RuleContext) (s : SymState) : Res (Unit × SymState) := do
  let name := (← unwrap (ctx.ruleRef lc)).text
  if s.grammar.vocabulary.isTerminalNameDefined name then .ok ((), s.print (chars! "重复定义 rule: " ++ name))
  else
    .ok ((), { s with
      grammar := { s.grammar with vocabulary := (s.grammar.vocabulary.addNamedNonterminal s.nextRuleId name).1 }
      nextRuleId := s.nextRuleId + 1 })

/-- `grammar_visitor.rs:71-105`, `impl SyntaxisVisitor for SymbolVisitor` -/
def symVisitor : Visitor SymState Unit :=
  { Visitor.default with
    override := fun
      | .lexerRule => some fun ctx _ s => symVisitLexerRule lc ctx s
      | .parserRule => some fun ctx _ s => symVisitParserRule lc ctx s
      | _ => none }

/-! ## third pass -/

/-- the three branches of the suffix code (`grammar_visitor.rs:198,222,242`) -/
inductive Suffix where
  | star | plus | question
  deriving DecidableEq, Repr

/-- `grammar_visitor.rs:109-120`, `struct ProductionVisitor`.  `uses`,
`allocated` and `out` are ghost fields that are not in the code: they record each suffix together with the item it
is applied to, the id of each call of `add_unnamed_nonterminal`, and the lines printed.  Nothing reads them. -/
structure ProdState where
  grammar : Grammar
  nextRuleId : Nat
  blockCache : HMap (List (List Item)) Nat
  starCache : HMap Nat Nat
  plusCache : HMap Nat Nat
  questionCache : HMap Nat Nat
  uses : List (Suffix × Item)
  allocated : List Nat
  out : List Str := []

namespace ProdState

/-- `grammar_visitor.rs:123-125`, `ProductionVisitor::new` -/
def new (grammar : Grammar) (firstRuleId : Nat) : ProdState :=
  { grammar, nextRuleId := firstRuleId, blockCache := .empty, starCache := .empty, plusCache := .empty,
    questionCache := .empty, uses := [], allocated := [] }

/-- the cache of a suffix (`grammar_visitor.rs:202,224,244`) -/
def cache (s : ProdState) : Suffix → HMap Nat Nat
  | .star => s.starCache
  | .plus => s.plusCache
  | .question => s.questionCache

/-- `grammar_visitor.rs:217,238,257`: `insert` into the cache of a suffix -/
def setCache (s : ProdState) (f : Suffix) (id v : Nat) : ProdState :=
  match f with
  | .star => { s with starCache := s.starCache.insert id v }
  | .plus => { s with plusCache := s.plusCache.insert id v }
  | .question => { s with questionCache := s.questionCache.insert id v }

/-- `self.grammar.productions.insert(p)` (`grammar_visitor.rs:214-215,235-236,255-256`) -/
def insertProd (s : ProdState) (p : Production) : ProdState :=
  { s with grammar := (s.grammar.insertProduction p).1 }

/-- `if !self.grammar.productions.insert(p) { println!(line) }` (`grammar_visitor.rs:148-150,290-292`) -/
def insertOrPrint (s : ProdState) (p : Production) (line : Str) : ProdState :=
  { s.insertProd p with out := if (s.grammar.insertProduction p).2 then s.out else s.out ++ [line] }

/-- `self.grammar.vocabulary.add_unnamed_nonterminal(id)` (`grammar_visitor.rs:207,229,249,285`) -/
def addUnnamed (s : ProdState) (id : Nat) : ProdState :=
  { s with
    grammar := { s.grammar with vocabulary := (s.grammar.vocabulary.addUnnamedNonterminal id).1 }
    allocated := id :: s.allocated }

end ProdState

/-- the id inside an item: the variable `id` of `visit_element` (`grammar_visitor.rs:174-190`) -/
def Item.bare : Item → Nat
  | .nt id => id
  | .t id => id

/-- the two right-hand sides of the new nonterminal `x` for a suffixed item
(`grammar_visitor.rs:211-212,233-234,253-254`) -/
def suffixRights (f : Suffix) (item : Item) (x : Nat) : List Item × List Item :=
  match f with
  | .star => ([], [item, .nt x])
  | .plus => ([item], [item, .nt x])
  | .question => ([], [item])

/-- `grammar_visitor.rs:197-261`: the code for one suffix -/
def applySuffix (f : Suffix) (item : Item) (s : ProdState) : Item × ProdState :=
  let s := { s with uses := (f, item) :: s.uses }
  match (s.cache f).get item.bare with
  | some itemId => (.nt itemId, s)
  | none =>
    let x := s.nextRuleId
    let s := s.addUnnamed x
    let s := s.insertProd ⟨x, (suffixRights f item x).1⟩
    let s := s.insertProd ⟨x, (suffixRights f item x).2⟩
    let s := s.setCache f item.bare x
    (.nt x, { s with nextRuleId := s.nextRuleId + 1 })

/-- `grammar_visitor.rs:197-222,242`: which suffix branch is taken -/
def suffixOf (ctx : RuleContext) : Option Suffix :=
  match ctx.ebnfSuffix with
  | none => none
  | some suffix =>
    if (suffix.star lc).isSome then some .star
    else if (suffix.plus lc).isSome then some .plus
    else some .question

/-- `visit_element`, given as a function on the state (`grammar_visitor.rs:163`) -/
abbrev ElemFn := RuleContext → ProdState → Res (Item × ProdState)

/-- `grammar_visitor.rs:161-166`: the loop over the elements -/
def visitElements (elem : ElemFn) : List RuleContext → ProdState → Res (List Item × ProdState)
  | [], s => .ok ([], s)
  | e :: es, s => do
    let (item, s) ← elem e s
    let (items, s) ← visitElements elem es s
    .ok (item :: items, s)

/-- `grammar_visitor.rs:156-169`, `visit_alternative` -/
def visitAlternative (elem : ElemFn) (ctx : RuleContext) (s : ProdState) : Res (List Item × ProdState) :=
  match ctx.epsilon with
  | some _ => .ok ([], s)
  | none => visitElements elem ctx.elementList s

/-- `grammar_visitor.rs:271-275`: the loop over the alternatives -/
def visitAlternatives (elem : ElemFn) : List RuleContext → ProdState → Res (List (List Item) × ProdState)
  | [], s => .ok ([], s)
  | a :: as, s => do
    let (right, s) ← visitAlternative elem a s
    let (rights, s) ← visitAlternatives elem as s
    .ok (right :: rights, s)

/-- `grammar_visitor.rs:277-297`: what `visit_block` does with the right-hand sides -/
def finishBlock (rights : List (List Item)) (s : ProdState) : Nat × ProdState :=
  match s.blockCache.get rights with
  | some id => (id, s)
  | none =>
    let id := s.nextRuleId
    let s := s.addUnnamed id
    let s := { s with blockCache := s.blockCache.insert rights id }
    let s := rights.foldl (fun s right => s.insertOrPrint ⟨id, right⟩ (chars! "重复产生式")) s
    (id, { s with nextRuleId := s.nextRuleId + 1 })

/-- `grammar_visitor.rs:269-298`, `visit_block` -/
def visitBlock (elem : ElemFn) (ctx : RuleContext) (s : ProdState) : Res (Nat × ProdState) := do
  let (rights, s) ← visitAlternatives elem ctx.alternativeList s
  .ok (finishBlock rights s)

/-- `grammar_visitor.rs:172-266`, `visit_element`; the recursion through `visit_block` takes fuel.  The
`downcast`s succeed because `accept` calls the method of the node's trait. -/
def visitElement : Nat → ElemFn
  | 0, _, _ => .error .fuel
  | n + 1, ctx, s => do
    let (item, s) ← match ctx.tokenRef lc with
      | some token => do .ok (Item.t (← unwrap (s.grammar.vocabulary.getTerminalIdByName token.text)), s)
      | none => match ctx.stringLiteral lc with
        | some literal => do .ok (Item.t (← unwrap (s.grammar.vocabulary.getTerminalIdByName literal.text)), s)
        | none => match ctx.ruleRef lc with
          | some rule => do .ok (Item.nt (← unwrap (s.grammar.vocabulary.getNonterminalIdByName rule.text)), s)
          | none => match ctx.block with
            | some block => do
              let (id, s) ← visitBlock (visitElement n) block s
              .ok (Item.nt id, s)
            | none => .error .panic
    match suffixOf lc ctx with
    | some f => .ok (applySuffix f item s)
    | none => .ok (item, s)

/-- `grammar_visitor.rs:143-151`: the loop over the alternatives of a named rule -/
def visitNamed (elem : ElemFn) (id : Nat) : List RuleContext → ProdState → Res ProdState
  | [], s => .ok s
  | a :: as, s => do
    let (right, s) ← visitAlternative elem a s
    visitNamed elem id as (s.insertOrPrint ⟨id, right⟩ (chars! "产生式重复"))

/-- `grammar_visitor.rs:138-153`, `visit_parser_rule` -/
def prodVisitParserRule (elem : ElemFn) (ctx : RuleContext) (s : ProdState) : Res ProdState := do
  let name := (← unwrap (ctx.ruleRef lc)).text
  let id ← unwrap (s.grammar.vocabulary.getNonterminalIdByName name)
  let block ← unwrap ctx.block
  visitNamed elem id block.alternativeList s

/-- `grammar_visitor.rs:131-133`: the loop over the parser rules -/
def prodVisitRules (elem : ElemFn) : List RuleContext → ProdState → Res ProdState
  | [], s => .ok s
  | r :: rs, s => do
    let s ← prodVisitParserRule lc elem r s
    prodVisitRules elem rs s

/-- `grammar_visitor.rs:130-135`, `visit_rule_list` -/
def prodVisitRuleList (fuel : Nat) (ctx : RuleContext) (s : ProdState) : Res ProdState :=
  prodVisitRules lc (visitElement lc fuel) ctx.parserRuleList s

/-! ## the three passes -/

/-- `main.rs:99-107`: the first pass; `accept` on a `RuleListContext` is `visit_rule_list` -/
def runLit (ast : RuleContext) (s : LitState) : Res LitState := do
  let (_, s) ← (litVisitor lc).accept .ruleList ast s
  .ok s

/-- `main.rs:109-116`: the second pass -/
def runSym (ast : RuleContext) (s : SymState) : Res SymState := do
  let (_, s) ← (symVisitor lc).accept .ruleList ast s
  .ok s

/-- `main.rs:96-122`: the three passes on the grammar `grammar`, with the first token id and the first rule
id as parameters (2 and 0 in `load_ast`); the states of the second and third visitor at the end -/
def buildStates (fuel : Nat) (ast : RuleContext) (grammar : Grammar) (firstTokenId firstRuleId : Nat) :
    Res (SymState × ProdState) := do
  let s1 ← runLit lc ast { grammar, nextTokenId := firstTokenId, data := [] }
  let s2 ← runSym lc ast
    { grammar := s1.grammar, data := s1.data, nextTokenId := s1.nextTokenId, nextRuleId := firstRuleId }
  let s3 ← prodVisitRuleList lc fuel ast (ProdState.new s2.grammar s2.nextRuleId)
  .ok (s2, s3)

/-- `main.rs:96-125`: the result of the three passes -/
def buildGrammar (fuel : Nat) (ast : RuleContext) (grammar : Grammar) (firstTokenId firstRuleId : Nat) :
    Res (Grammar × List LexerRuleData) := do
  let (s2, s3) ← buildStates lc fuel ast grammar firstTokenId firstRuleId
  .ok (s3.grammar, s2.data)

/-- `main.rs:92-125`, `load_ast`, given the tree read from the file -/
def loadAst (fuel : Nat) (ast : RuleContext) : Res (Grammar × List LexerRuleData) :=
  buildGrammar .old fuel ast (Grammar.new "我的文法".toList) 2 0

/-- `templates/target/rust/lexer.tera:17-45`: the lexer generated from the lexer data: regexes and token names
in the order of the data, behind the two reserved names.  `compile` is `Regex::new`.  (The constants of lines
21-23 are the `tokenType`s of the data.) -/
def generatedLexer (compile : Str → Matcher) (data : List LexerRuleData) (input : Str) : Lexer :=
  Lexer.new (data.map fun d => compile d.regex) ("_START".toList :: "_STOP".toList :: data.map (·.tokenName)) input

end Syntaxis
