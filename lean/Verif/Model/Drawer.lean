import Verif.Model.Ast
import Verif.Model.Str

/-!
# `tool/gui/ast_drawer.rs`: the tree as a JavaScript object literal

Not modelled: `ASTDrawer::new` and the rendering by `tera` (the text is inserted verbatim for `{{ ast }}` in
`templates/gui/ast.html:101`, automatic escaping is switched off at line 22), and the writing of the file.
-/

namespace Syntaxis
namespace Drawer

/-- `ast_drawer.rs:27-29`, `escape` -/
def escape (s : Str) : Str := replace (replace s "\\".toList "\\\\".toList) "`".toList "\\`".toList

/-- `ast_drawer.rs:36-37,39-40`: the text written for a terminal or error node -/
def dumpLeaf (t : Token) : Str :=
  "{ name:`".toList ++ escape t.tokenName ++ "`, text: `".toList ++ escape t.text ++ "`}".toList

/-- `ast_drawer.rs:46`: the text written for a rule node whose children are written as `kids`.  Lines 33 and 45
add the brackets. -/
def dumpRule (n : Str) (i : Nat) (kids : Str) : Str :=
  "{ name:`".toList ++ escape n ++ "`,id: `".toList ++ (Nat.repr i).toList ++ "`, children:".toList ++
    ("[".toList ++ kids ++ "]".toList) ++ ",}".toList

mutual
/-- `ast_drawer.rs:35-41`: the `match child` -/
def dumpChild : Ast → Str
  | .terminal t => dumpLeaf t
  | .rule n i kids => dumpRule n i (dumpChildren kids)
  | .error t => dumpLeaf t
/-- `ast_drawer.rs:34-44`: the loop -/
def dumpChildren : List Ast → Str
  | [] => []
  | k :: ks => dumpChild k ++ [','] ++ dumpChildren ks
end

/-- `ast_drawer.rs:31-47`, `dump` -/
def dump (r : RuleContext) : Str := dumpChild (.rule r.ruleName r.ruleIndex r.children)

/-- `ast_drawer.rs:51`: the text inserted into the page -/
def script (r : RuleContext) : Str := "const ast = ".toList ++ dump r ++ ";".toList

end Drawer
end Syntaxis
