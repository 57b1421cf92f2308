import Verif.Model.Parser

/-!
# What the parsers print before they panic

`Parser.parseAst` forgets the messages of a run that ends in a panic.  Here the same code is modelled with the messages
kept in every case, together with the cursor at which a panic happens.
-/

namespace Syntaxis

/-- how a call ends: with a value, or with a fault at a cursor
(`ll1_parser.rs:27-61`, `v1/syntaxis_parser.rs:96-131`) -/
abbrev Ending (α : Type) := Except (Fault × Nat) α

namespace Parser

/-- `ll1_parser.rs:35-59`, `syntaxis_parser.rs:105-129`: as `parseItems`; children, cursor and messages so far are the
last three arguments. -/
def itemsOut (ps : Parser) (call : Nat → Nat → MismatchLog × Ending (RuleContext × Nat)) :
    List Item → List Ast → Nat → MismatchLog → MismatchLog × Ending (List Ast × Nat)
  | [], children, cursor, log => (log, .ok (children, cursor))
  | .nt ruleId :: rest, children, cursor, log =>
    match call cursor ruleId with
    | (l, .error e) => (log ++ l, .error e)
    | (l, .ok (rule, cursor')) =>
      let children := match ps.vocabulary.getNonterminalNameById ruleId with
        | some _ => children ++ [rule.toAst]
        | none => children ++ rule.children
      ps.itemsOut call rest children cursor' (log ++ l)
  | .t tokenType :: rest, children, cursor, log =>
    match ps.tokens[cursor]? with
    | none => (log, .error (.panic, cursor))
    | some tok =>
      let log := if tokenType ≠ tok.tokenType then log ++ [(tokenType, cursor)] else log
      ps.itemsOut call rest (children ++ [.terminal tok]) (cursor + 1) log

/-- `ll1_parser.rs:27-61`, `syntaxis_parser.rs:96-131`, `parse_ast`: as `parseAst`. -/
def astOut (ps : Parser) : Nat → Nat → Nat → MismatchLog × Ending (RuleContext × Nat)
  | 0, cursor, _ => ([], .error (.fuel, cursor))
  | fuel + 1, cursor, ruleIndex =>
    match ps.tokens[cursor]? with
    | none => ([], .error (.panic, cursor))
    | some tok =>
      match ps.table.get (ruleIndex, tok.tokenType) with
      | none => ([], .error (.panic, cursor))
      | some production =>
        let name := ps.vocabulary.getNonterminalNameWithDefault ruleIndex
        match ps.itemsOut (ps.astOut fuel) production.right [] cursor [] with
        | (l, .error e) => (l, .error e)
        | (l, .ok (children, cursor')) => (l, .ok ({ ruleName := name, children, ruleIndex }, cursor'))

/-- `ll1_parser.rs:22-24`, `syntaxis_parser.rs:90-92`, `parse`: the messages printed, and the tree or the fault with its
cursor. -/
def parseOut (ps : Parser) (fuel : Nat) : MismatchLog × Ending RuleContext :=
  match ps.astOut fuel 0 0 with
  | (l, .error e) => (l, .error e)
  | (l, .ok (result, _)) => (l, .ok result)

end Parser
end Syntaxis
