import Verif.Model.Basic

/-!
# `runtime/token.rs`, `runtime/ast/*.rs`: tokens and syntax trees
-/

namespace Syntaxis

/-- `token.rs:3-7`, `struct Position`. -/
structure Position where
  line : Nat
  charPosition : Nat
  deriving DecidableEq, Repr

/-- `token.rs:15-36`, `struct Token`. -/
structure Token where
  tokenType : Nat
  tokenName : Str
  start : Position
  stop : Position
  channel : Nat
  text : Str
  tokenIndex : Nat
  charStartIndex : Nat
  charStopIndex : Nat
  deriving DecidableEq, Repr

/-- `token.rs:55-69`, `Token::new`. -/
def Token.new (tokenType : Nat) (tokenName text : Str) : Token :=
  { tokenType, tokenName, text, start := ⟨0, 0⟩, stop := ⟨0, 0⟩, channel := 0, tokenIndex := 0,
    charStartIndex := 0, charStopIndex := 0 }

/-- `ast_context.rs:6-11`, `enum ASTContext`.  `TerminalContext` and `ErrorContext`
(`terminal_context.rs:6-9`, `error_context.rs:6-10`) are wrappers of one token; the fields of the
wrapped `RuleContext` are spelled out in the constructor. -/
inductive Ast where
  | terminal (symbol : Token)
  | error (symbol : Token)
  | rule (ruleName : Str) (ruleIndex : Nat) (children : List Ast)

/-- `rule_context.rs:8-15`, `struct RuleContext`.  `as_rule` and `as_mut_rule` (17-26) return the context itself. -/
structure RuleContext where
  ruleName : Str
  children : List Ast
  ruleIndex : Nat

/-- `ASTContext::Rule(ctx)` (`ast_context.rs:7-11`) -/
def RuleContext.toAst (r : RuleContext) : Ast := .rule r.ruleName r.ruleIndex r.children

end Syntaxis
