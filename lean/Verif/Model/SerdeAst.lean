import Verif.Model.Ast

/-!
# `tool/serde_ast/mod.rs`: loading a syntax tree from JSON

Over `serde_json::Value`; the text parser is in `Model/JsonText` (here `from_str` receives the outcome of
`serde_json::from_str`).  A JSON object is an association list; `Value[key]` finds the first entry
(`serde_json` keeps one entry per key).
-/

namespace Syntaxis

/-- `serde_json::Value`; numbers as in `serde_json::Number` (unsigned, negative, float; the payloads of the
last two are never read) (`serde_ast/mod.rs:17,74`) -/
inductive Json where
  | null
  | bool (b : Bool)
  | posInt (n : Nat)
  | negInt (n : Nat)
  | float
  | str (s : Str)
  | arr (vs : List Json)
  | obj (kvs : List (Str × Json))

namespace Json

/-- `value[key]` with a string key: `Null` when missing or when `value` is not an object
(`serde_ast/mod.rs:26,30,34,40,56-58`) -/
def index : Json → Str → Json
  | .obj kvs, k => (kvs.lookup k).getD .null
  | _, _ => .null

/-- `Value::as_u64` (`serde_ast/mod.rs:30,56`) -/
def asU64 : Json → Option Nat
  | .posInt n => some n
  | _ => none

/-- `Value::as_str` (`serde_ast/mod.rs:34,57-58`) -/
def asStr : Json → Option Str
  | .str s => some s
  | _ => none

/-- `Value::is_null` (`serde_ast/mod.rs:40`) -/
def isNull : Json → Bool
  | .null => true
  | _ => false

end Json

namespace SerdeAst

/-- `serde_ast/mod.rs:55-71`, `parse_terminal`; `none` is `Err(Error {})` -/
def parseTerminal (value : Json) : Option Token :=
  let tokenType := (value.index "token_type".toList).asU64
  let tokenName := (value.index "token_name".toList).asStr
  let text := (value.index "text".toList).asStr
  match tokenType, tokenName with
  | some tokenType, some tokenName => some (Token.new tokenType tokenName (text.getD "<no text>".toList))
  | _, _ => none

/-- `serde_ast/mod.rs:38-48`, the loop over the children of `parse_rule`; `rule` is the recursive call -/
def parseChildren (rule : Json → Res (Option RuleContext)) : List Json → Res (Option (List Ast))
  | [] => .ok (some [])
  | child :: rest =>
    if (child.index "children".toList).isNull then
      match parseTerminal child with
      | none => .ok none
      | some tok => do
        match ← parseChildren rule rest with
        | none => .ok none
        | some ks => .ok (some (.terminal tok :: ks))
    else do
      match ← rule child with
      | none => .ok none
      | some r =>
        match ← parseChildren rule rest with
        | none => .ok none
        | some ks => .ok (some (r.toAst :: ks))

/-- `serde_ast/mod.rs:25-53`, `parse_rule`; `ok none` is `Err(Error {})`; the recursion takes fuel -/
def parseRule : Nat → Json → Res (Option RuleContext)
  | 0, _ => .error .fuel
  | n + 1, value =>
    match value.index "children".toList with
    | .arr children =>
      match (value.index "rule_index".toList).asU64 with
      | none => .ok none
      | some ruleIndex =>
        match (value.index "rule_name".toList).asStr with
        | none => .ok none
        | some ruleName => do
          match ← parseChildren (parseRule n) children with
          | none => .ok none
          | some result => .ok (some ⟨ruleName, result, ruleIndex⟩)
    | _ => .ok none

/-- `serde_ast/mod.rs:16-23,73-80`, `from_str` and `from_reader`, given what `serde_json` returned -/
def fromJson (fuel : Nat) (data : Option Json) : Res (Option RuleContext) :=
  match data with
  | none => .ok none
  | some data => parseRule fuel data

end SerdeAst
end Syntaxis
