import Verif.Model.Walker

/-!
# `tool/syntaxis/syntaxis_visitor.rs` (and its copy `tool/v1/syntaxis_visitor.rs`)

A visitor is an object with mutable state `σ`; callbacks may panic.  Results `Box<dyn Any>` are values of
a type `V`.  An overridden `visit_<rule>` is given its context and the call
`self.visit_children(ctx)`; overrides that call `accept` on descendants themselves (`ProductionVisitor`)
are modelled separately in `Model/GrammarVisitor.lean`.
-/

namespace Syntaxis

/-- a call on the visitor: may panic, returns a result and the new state (`syntaxis_visitor.rs:9-91`) -/
abbrev Visit (σ V : Type) := σ → Res (V × σ)

/-- `syntaxis_visitor.rs:8-92`, `trait SyntaxisVisitor`: the methods an implementation may override. -/
structure Visitor (σ V : Type) where
  /-- `visit_rule_list` … `visit_regular` (lines 9-43); `none` is the default `self.visit_children(ctx)` -/
  override : RuleKind → Option (RuleContext → Visit σ V → Visit σ V)
  visitTerminal : Token → Visit σ V
  visitErrornode : Token → Visit σ V
  defaultResult : Visit σ V
  aggregateResult : V → V → Visit σ V
  /-- line 91; the loop passes a reference to the `Box` of the result so far (line 74) -/
  shouldVisitNextChild : RuleContext → V → σ → Res (Bool × σ)

namespace Visitor
variable {σ V : Type}

/-- `syntaxis_visitor.rs:51-65`, `visit`, given the result `kids` of `visit_children(ctx)`. -/
def dispatch (vi : Visitor σ V) (ctx : RuleContext) (kids : Visit σ V) : Visit σ V :=
  match RuleKind.ofIndex ctx.getRuleIndex with
  | some k =>
    match vi.override k with
    | some f => f ctx kids
    | none => kids
  | none => kids

mutual
/-- `syntaxis_visitor.rs:76-80`: the `match child`; the rule arm is `visit` (51-65). -/
def visitChild (vi : Visitor σ V) : Ast → Visit σ V
  | .terminal tok => vi.visitTerminal tok
  | .error tok => vi.visitErrornode tok
  | .rule n i kids => vi.dispatch ⟨n, kids, i⟩ fun s => do
      let (result, s) ← vi.defaultResult s
      vi.visitLoop ⟨n, kids, i⟩ kids result s
/-- `syntaxis_visitor.rs:73-84`: the loop of `visit_children`. -/
def visitLoop (vi : Visitor σ V) (ctx : RuleContext) : List Ast → V → Visit σ V
  | [], result => fun s => .ok (result, s)
  | k :: ks, result => fun s => do
    let (go, s) ← vi.shouldVisitNextChild ctx result s
    if !go then .ok (result, s)
    else do
      let (childResult, s) ← vi.visitChild k s
      let (result, s) ← vi.aggregateResult result childResult s
      vi.visitLoop ctx ks result s
end

/-- `syntaxis_visitor.rs:71-85`, `visit_children`. -/
def visitChildren (vi : Visitor σ V) (ctx : RuleContext) : Visit σ V := fun s => do
  let (result, s) ← vi.defaultResult s
  vi.visitLoop ctx ctx.children result s

/-- `syntaxis_visitor.rs:51-65`, `visit`. -/
def visit (vi : Visitor σ V) (ctx : RuleContext) : Visit σ V := vi.dispatch ctx (vi.visitChildren ctx)

/-- `syntaxis_visitor.rs:9-43` through `syntaxis_context.rs`: `ctx.accept(visitor)` on a context of the
trait for `k` calls `visit_<k>` whatever the rule index of the node is. -/
def accept (vi : Visitor σ V) (k : RuleKind) (ctx : RuleContext) : Visit σ V :=
  match vi.override k with
  | some f => f ctx (vi.visitChildren ctx)
  | none => vi.visitChildren ctx

/-- the defaults of `syntaxis_visitor.rs:67-69,87-91` and of lines 9-43; `unit` is the `Box::new(())` of
`default_result` -/
def defaults (unit : V) : Visitor σ V where
  override := fun _ => none
  visitTerminal := fun _ s => .ok (unit, s)
  visitErrornode := fun _ s => .ok (unit, s)
  defaultResult := fun s => .ok (unit, s)
  aggregateResult := fun _ next s => .ok (next, s)
  shouldVisitNextChild := fun _ _ s => .ok (true, s)

/-- the same for visitors that only return `Box<()>` (`syntaxis_visitor.rs:87`) -/
abbrev default : Visitor σ Unit := defaults ()

end Visitor
end Syntaxis
