import Verif.Model.Parser

/-!
# The number of calls made by the parser

The code does not count its calls; these functions follow `parse_ast` and count the calls of `parse_ast`.
-/

namespace Syntaxis
namespace Parser

/-- `ll1_parser.rs:35-59`, `syntaxis_parser.rs:105-129`: the calls made by the loop over the right-hand side from
the cursor on; `call` is the recursive call, `count` the number of calls it makes (including itself).  The loop
ends when a call or the access to a token panics. -/
def callsItems (ps : Parser) (call : Nat → Nat → Res (RuleContext × Nat × MismatchLog)) (count : Nat → Nat → Nat) :
    List Item → Nat → Nat
  | [], _ => 0
  | .nt ruleId :: rest, cursor =>
    count cursor ruleId +
      match call cursor ruleId with
      | .ok (_, cursor, _) => ps.callsItems call count rest cursor
      | .error _ => 0
  | .t _ :: rest, cursor =>
    match ps.tokenAt cursor with
    | .ok _ => ps.callsItems call count rest (cursor + 1)
    | .error _ => 0

/-- `ll1_parser.rs:27-61`, `syntaxis_parser.rs:96-131`: the number of calls of `parse_ast` made by
`parse_ast(cursor, rule_index)`, including this one; `fuel` as in `parseAst`. -/
def calls (ps : Parser) : Nat → Nat → Nat → Nat
  | 0, _, _ => 0
  | fuel + 1, cursor, ruleIndex =>
    1 + match ps.tokenAt cursor with
      | .error _ => 0
      | .ok tok =>
        match ps.table.get (ruleIndex, tok.tokenType) with
        | none => 0
        | some production => ps.callsItems (ps.parseAst fuel) (ps.calls fuel) production.right cursor

end Parser
end Syntaxis
