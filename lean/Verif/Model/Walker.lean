import Verif.Model.AstAccess

/-!
# `tool/syntaxis/syntaxis_walker.rs`, `tool/syntaxis/syntaxis_listener.rs`

A listener is an object with mutable state `σ`; each callback is a state transformer.  The callbacks
receive shared references, so they cannot change the tree.
-/

namespace Syntaxis

/-- The nine rule constants (`syntaxis/syntaxis_parser.rs:7-15`, `v1/syntaxis_parser.rs:19-27`). -/
inductive RuleKind where
  | ruleList | parserRule | block | alternative | epsilon | element | ebnfSuffix | lexerRule | regular
  deriving DecidableEq, Repr

/-- the `match ctx.get_rule_index()` of `syntaxis_listener.rs:42-54,58-70` and
`syntaxis_visitor.rs:52-64`; `none` is the `_` arm -/
def RuleKind.ofIndex : Nat → Option RuleKind
  | 0 => some .ruleList
  | 1 => some .parserRule
  | 2 => some .block
  | 3 => some .alternative
  | 4 => some .epsilon
  | 5 => some .element
  | 6 => some .ebnfSuffix
  | 7 => some .lexerRule
  | 8 => some .regular
  | _ => none

/-- `syntaxis_listener.rs:6-80`, `trait SyntaxisListener`: the callbacks an implementation may
override.  `enterKind .ruleList` is `enter_rule_list` and so on.  `enter`/`exit` (lines 40-71) are the
dispatchers below. -/
structure Listener (σ : Type) where
  enterKind : RuleKind → RuleContext → σ → σ
  exitKind : RuleKind → RuleContext → σ → σ
  enterEveryRule : RuleContext → σ → σ
  exitEveryRule : RuleContext → σ → σ
  enterTerminal : Token → σ → σ
  exitTerminal : Token → σ → σ
  enterErrornode : Token → σ → σ
  exitErrornode : Token → σ → σ

namespace Listener
variable {σ : Type}

/-- `syntaxis_listener.rs:40-55`, `enter`. -/
def enter (li : Listener σ) (ctx : RuleContext) (s : σ) : σ :=
  match RuleKind.ofIndex ctx.getRuleIndex with
  | some k => li.enterKind k ctx s
  | none => s

/-- `syntaxis_listener.rs:57-71`, `exit`. -/
def exit (li : Listener σ) (ctx : RuleContext) (s : σ) : σ :=
  match RuleKind.ofIndex ctx.getRuleIndex with
  | some k => li.exitKind k ctx s
  | none => s

mutual
/-- `syntaxis_walker.rs:13-23`: the `match child`; the rule arm is the recursive `walk`
(`syntaxis_walker.rs:8-28`). -/
def walkChild (li : Listener σ) : Ast → σ → σ
  | .terminal tok, s => li.exitTerminal tok (li.enterTerminal tok s)
  | .error tok, s => li.exitErrornode tok (li.enterErrornode tok s)
  | .rule n i kids, s =>
    let ctx : RuleContext := ⟨n, kids, i⟩
    let s := li.enterEveryRule ctx s
    let s := li.enter ctx s
    let s := li.walkChildren kids s
    let s := li.exit ctx s
    li.exitEveryRule ctx s
/-- `syntaxis_walker.rs:12-24`: `for child in ast.children.iter()`. -/
def walkChildren (li : Listener σ) : List Ast → σ → σ
  | [], s => s
  | k :: ks, s => li.walkChildren ks (li.walkChild k s)
end

/-- `syntaxis_walker.rs:8-28`, `walk`. -/
def walk (li : Listener σ) (ast : RuleContext) (s : σ) : σ :=
  let s := li.enterEveryRule ast s
  let s := li.enter ast s
  let s := li.walkChildren ast.children s
  let s := li.exit ast s
  li.exitEveryRule ast s

end Listener
end Syntaxis
