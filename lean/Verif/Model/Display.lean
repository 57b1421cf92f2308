import Verif.Model.AstAccess
import Verif.Model.Grammar

/-!
# `Display` of positions, tokens and grammars; texts of leaves

`Display` of syntax trees is in `Model/AstAccess.lean`.  `write!` into a formatter never fails here (the
formatters used by `println!` and `format!` collect into a string), so `fmt` is its text; `{}` of a
`usize` is `natToString`, `{}` of a string the string itself.
-/

namespace Syntaxis

/-- `token.rs:9-13`, `Display for Position`. -/
def Position.display (p : Position) : Str :=
  chars! "line: " ++ Vocabulary.natToString p.line ++ chars! ", position: " ++ Vocabulary.natToString p.charPosition

/-- `token.rs:39-52`, `Display for Token`. -/
def Token.display (t : Token) : Str :=
  chars! "[@" ++ Vocabulary.natToString t.tokenIndex ++ chars! ", " ++ Vocabulary.natToString t.charStartIndex ++
    chars! ":" ++ Vocabulary.natToString t.charStopIndex ++ chars! "='" ++ t.text ++ chars! "', <" ++ t.tokenName ++
    chars! ">, <" ++ Vocabulary.natToString t.tokenType ++ chars! ">, start: <" ++ t.start.display ++
    chars! ">, stop: <" ++ t.stop.display ++ chars! ">]"

/-- `terminal_context.rs:11-15`, `TerminalContext::get_text`; `symbol` is the wrapped token. -/
def terminalGetText (symbol : Token) : Str := symbol.text

/-- `error_context.rs:14-18`, `ErrorContext::get_text`; `symbol` is the wrapped token. -/
def errorGetText (symbol : Token) : Str := symbol.text

namespace Grammar

/-- `grammar/mod.rs:235-245`: the loop over `production.right`; `out` is what has been written. -/
def displayRight (v : Vocabulary) : List Item → Str → Res Str
  | [], out => .ok out
  | .nt id :: rest, out => displayRight v rest (out ++ v.getNonterminalNameWithDefault id)
  | .t id :: rest, out => do
    let name ← v.getTerminalName id
    displayRight v rest (out ++ chars! " " ++ name)

/-- `grammar/mod.rs:229-252`: the loop over `self.productions`, in the order `ord`; `out` is what has been
written. -/
def displayLoop (v : Vocabulary) : List Production → Str → Res Str
  | [], out => .ok out
  | p :: ps, out => do
    let name := v.getNonterminalNameWithDefault p.left
    let out ← displayRight v p.right (out ++ name ++ chars! " ->")
    displayLoop v ps (out ++ chars! ";\n")

/-- `grammar/mod.rs:222-253`, `Display for Grammar`; `ord` is the iteration order of `self.productions`. -/
def display (g : Grammar) (ord : List Production) : Res Str := displayLoop g.vocabulary ord []

/-- `grammar/mod.rs:256-260`, `derive(Debug)` of `ProductionItem`, as written by `{:?}`. -/
def debugItem : Item → Str
  | .nt id => chars! "NonTerminal(" ++ Vocabulary.natToString id ++ chars! ")"
  | .t id => chars! "Terminal(" ++ Vocabulary.natToString id ++ chars! ")"

/-- `{:?}` of the `Vec<ProductionItem>` behind its `[`: the items separated by `, `, and the `]`
(`#[derive(Debug)]` of `grammar/mod.rs:256-266`, printed by `grammar/mod.rs:204,212`) -/
def debugRight : List Item → Str
  | [] => chars! "]"
  | [x] => debugItem x ++ chars! "]"
  | x :: rest => debugItem x ++ chars! ", " ++ debugRight rest

/-- `grammar/mod.rs:262-266`, `derive(Debug)` of `Production`, as written by `{:?}`. -/
def debugProduction (p : Production) : Str :=
  chars! "Production { left: " ++ Vocabulary.natToString p.left ++ chars! ", right: [" ++ debugRight p.right ++ chars! " }"

/-- `grammar/mod.rs:204,212`: `println!("{:?}, {:?}", production, p)`; `c` is a pair of `TableState.conflicts`. -/
def conflictLine (c : Production × Production) : Str :=
  debugProduction c.1 ++ chars! ", " ++ debugProduction c.2 ++ chars! "\n"

/-- what `ll1_table` (`grammar/mod.rs:194-218`) prints in a run that reports the pairs `cs` -/
def conflictOutput (cs : List (Production × Production)) : Str := cs.flatMap conflictLine

end Grammar
end Syntaxis
