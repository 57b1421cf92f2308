import Verif.Model.Ast
import Verif.Model.Grammar

/-!
# `tool/parser/ll1_parser.rs` and `tool/v1/syntaxis_parser.rs`

The two files contain the same `parse_ast`; the only difference is that `LL1Parser` reaches the
vocabulary through its `grammar` field and `SyntaxisParser` stores it directly.
-/

namespace Syntaxis

/-- `ll1_parser.rs:6-10`, `syntaxis_parser.rs:7-13`: the fields read by `parse_ast`; `new` (13-20 and 33-40) stores its
arguments. -/
structure Parser where
  tokens : List Token
  table : Table
  vocabulary : Vocabulary

/-- the messages `符号不匹配` printed so far, as (expected token type, cursor)
(`ll1_parser.rs:52`, `v1/syntaxis_parser.rs:122`) -/
abbrev MismatchLog := List (Nat × Nat)

/-- state of the `for child in production.right.iter()` loop: `result.children`, `cursor` and the
printed messages (`ll1_parser.rs:28,33,35`, `v1/syntaxis_parser.rs:97,103,105`) -/
structure ItemState where
  children : List Ast
  cursor : Nat
  log : MismatchLog

namespace Parser

/-- `self.tokens[cursor]`: panics when out of bounds
(`ll1_parser.rs:30,52-53`, `v1/syntaxis_parser.rs:99,122-123`) -/
def tokenAt (ps : Parser) (cursor : Nat) : Res Token := unwrap ps.tokens[cursor]?

/-- `ll1_parser.rs:35-59`, `syntaxis_parser.rs:105-129`: the loop over the right-hand side; `call` is
the recursive call `self.parse_ast(cursor, rule_id)` (result, new cursor, messages printed by it). -/
def parseItems (ps : Parser) (call : Nat → Nat → Res (RuleContext × Nat × MismatchLog)) :
    List Item → ItemState → Res ItemState
  | [], st => .ok st
  | .nt ruleId :: rest, st => do
    let (rule, cursor, log) ← call st.cursor ruleId
    let children := match ps.vocabulary.getNonterminalNameById ruleId with
      | some _ => st.children ++ [rule.toAst]
      | none => st.children ++ rule.children
    ps.parseItems call rest { children, cursor, log := st.log ++ log }
  | .t tokenType :: rest, st => do
    let tok ← ps.tokenAt st.cursor
    let log := if tokenType ≠ tok.tokenType then st.log ++ [(tokenType, st.cursor)] else st.log
    ps.parseItems call rest
      { children := st.children ++ [.terminal tok], cursor := st.cursor + 1, log }

/-- `ll1_parser.rs:27-61`, `syntaxis_parser.rs:96-131`, `parse_ast`.  `fuel` bounds the recursion
depth (Rust: the call stack). -/
def parseAst (ps : Parser) : Nat → Nat → Nat → Res (RuleContext × Nat × MismatchLog)
  | 0, _, _ => .error .fuel
  | fuel + 1, cursor, ruleIndex => do
    let tok ← ps.tokenAt cursor
    let production ← unwrap (ps.table.get (ruleIndex, tok.tokenType))
    let name := ps.vocabulary.getNonterminalNameWithDefault ruleIndex
    let st ← ps.parseItems (ps.parseAst fuel) production.right { children := [], cursor, log := [] }
    .ok ({ ruleName := name, children := st.children, ruleIndex }, st.cursor, st.log)

/-- `ll1_parser.rs:22-24`, `syntaxis_parser.rs:90-92`, `parse`; the messages printed are kept. -/
def parse (ps : Parser) (fuel : Nat) : Res (RuleContext × MismatchLog) := do
  let (result, _, log) ← ps.parseAst fuel 0 0
  .ok (result, log)

/-- `syntaxis_parser.rs:44-87`: the entry points `rule_list` … `regular`, which differ in the rule
constant (`syntaxis_parser.rs:19-27`) only. -/
def parseRule (ps : Parser) (ruleIndex : Nat) (fuel : Nat) : Res (RuleContext × MismatchLog) := do
  let (result, _, log) ← ps.parseAst fuel 0 ruleIndex
  .ok (result, log)

end Parser
end Syntaxis
