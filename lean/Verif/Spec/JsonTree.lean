import Verif.Model.SerdeAst

/-!
# Which JSON value describes which syntax tree

The documented shape (`serde_ast/mod.rs:8-10`): a rule is an object with an array `children`, an unsigned
`rule_index` and a string `rule_name`; a terminal is a value without `children`, with an unsigned `token_type`
and a string `token_name` and optionally a `text`.
-/

namespace Syntaxis

/-- the object `j` has the entry `k : v` -/
def Json.Has (j : Json) (k : String) (v : Json) : Prop :=
  ∃ kvs pre post, j = .obj kvs ∧ kvs = pre ++ (k.toList, v) :: post ∧ ∀ e ∈ pre, e.1 ≠ k.toList

/-- no entry `k`, or a `null` one -/
def Json.Lacks (j : Json) (k : String) : Prop := ∀ v, j.Has k v → v = .null

/-- `j` describes a terminal with this token -/
structure DenotesToken (j : Json) (t : Token) : Prop where
  noChildren : j.Lacks "children"
  type : j.Has "token_type" (.posInt t.tokenType)
  name : j.Has "token_name" (.str t.tokenName)
  text : j.Has "text" (.str t.text) ∨ ((¬ ∃ s, j.Has "text" (.str s)) ∧ t.text = "<no text>".toList)
  start : t.start = ⟨0, 0⟩
  stop : t.stop = ⟨0, 0⟩
  channel : t.channel = 0
  index : t.tokenIndex = 0
  charStart : t.charStartIndex = 0
  charStop : t.charStopIndex = 0

mutual
/-- `j` describes this tree -/
inductive Denotes : Json → Ast → Prop
  | terminal {j t} (h : DenotesToken j t) : Denotes j (.terminal t)
  | rule {j n i js ks} (hc : j.Has "children" (.arr js)) (hi : j.Has "rule_index" (.posInt i))
      (hn : j.Has "rule_name" (.str n)) (h : DenotesList js ks) : Denotes j (.rule n i ks)
inductive DenotesList : List Json → List Ast → Prop
  | nil : DenotesList [] []
  | cons {j js k ks} (h : Denotes j k) (hs : DenotesList js ks) : DenotesList (j :: js) (k :: ks)
end

mutual
/-- the documented shape of a tree -/
def Ast.toJson : Ast → Json
  | .terminal t => .obj [("token_type".toList, .posInt t.tokenType), ("token_name".toList, .str t.tokenName),
      ("text".toList, .str t.text)]
  | .error _ => .null
  | .rule n i ks => .obj [("rule_index".toList, .posInt i), ("rule_name".toList, .str n),
      ("children".toList, .arr (Ast.toJsonList ks))]
def Ast.toJsonList : List Ast → List Json
  | [] => []
  | k :: ks => k.toJson :: Ast.toJsonList ks
end

end Syntaxis
