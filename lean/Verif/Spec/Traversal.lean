import Verif.Model.Walker

/-!
# Specification of tree traversals

Rule nodes in document order (preorder) and in closing order (postorder), leaves in document order, and a
stack discipline for sequences of callbacks.  Nothing here refers to the walker or the visitor.
-/

namespace Syntaxis

mutual
/-- rule nodes, parents before children, left to right -/
def Ast.pre : Ast → List RuleContext
  | .terminal _ => []
  | .error _ => []
  | .rule n i kids => ⟨n, kids, i⟩ :: Ast.preList kids
def Ast.preList : List Ast → List RuleContext
  | [] => []
  | k :: ks => k.pre ++ Ast.preList ks
end

mutual
/-- rule nodes, children before parents, left to right -/
def Ast.post : Ast → List RuleContext
  | .terminal _ => []
  | .error _ => []
  | .rule n i kids => Ast.postList kids ++ [⟨n, kids, i⟩]
def Ast.postList : List Ast → List RuleContext
  | [] => []
  | k :: ks => k.post ++ Ast.postList ks
end

mutual
/-- leaves left to right; `true` for error nodes -/
def Ast.leafNodes : Ast → List (Bool × Token)
  | .terminal t => [(false, t)]
  | .error t => [(true, t)]
  | .rule _ _ kids => Ast.leafNodesList kids
def Ast.leafNodesList : List Ast → List (Bool × Token)
  | [] => []
  | k :: ks => k.leafNodes ++ Ast.leafNodesList ks
end

/-- the rules in the order in which the grammar file declares them -/
def RuleKind.inOrder : List RuleKind :=
  [.ruleList, .parserRule, .block, .alternative, .epsilon, .element, .ebnfSuffix, .lexerRule, .regular]

/-- the rule whose typed callbacks belong to a rule index -/
def RuleKind.declared (i : Nat) : Option RuleKind := RuleKind.inOrder[i]?

/-- A call received by a listener. -/
inductive Event where
  | enterEvery (c : RuleContext)
  | exitEvery (c : RuleContext)
  | enterKind (k : RuleKind) (c : RuleContext)
  | exitKind (k : RuleKind) (c : RuleContext)
  | enterTerminal (t : Token)
  | exitTerminal (t : Token)
  | enterError (t : Token)
  | exitError (t : Token)

/-- Properly nested sequences of calls, given the stack of rules entered and not left so far: a rule is
entered only inside its parent (or at top level), `enter_every_rule` is directly followed by the typed
`enter_…` of its rule index if there is one, the typed `exit_…` directly precedes `exit_every_rule`, rules
are left in the opposite order of entering, and a leaf is entered and left at once, inside its parent. -/
inductive Nested : List RuleContext → List Event → Prop
  | nil : Nested [] []
  | enterTyped {st es c k} (hp : ∀ p ∈ st.head?, c.toAst ∈ p.children)
      (hk : RuleKind.declared c.ruleIndex = some k) (h : Nested (c :: st) es) :
      Nested st (.enterEvery c :: .enterKind k c :: es)
  | enterPlain {st es c} (hp : ∀ p ∈ st.head?, c.toAst ∈ p.children)
      (hk : RuleKind.declared c.ruleIndex = none) (h : Nested (c :: st) es) :
      Nested st (.enterEvery c :: es)
  | exitTyped {st es c k} (hk : RuleKind.declared c.ruleIndex = some k) (h : Nested st es) :
      Nested (c :: st) (.exitKind k c :: .exitEvery c :: es)
  | exitPlain {st es c} (hk : RuleKind.declared c.ruleIndex = none) (h : Nested st es) :
      Nested (c :: st) (.exitEvery c :: es)
  | terminal {st es p t} (hp : Ast.terminal t ∈ p.children) (h : Nested (p :: st) es) :
      Nested (p :: st) (.enterTerminal t :: .exitTerminal t :: es)
  | error {st es p t} (hp : Ast.error t ∈ p.children) (h : Nested (p :: st) es) :
      Nested (p :: st) (.enterError t :: .exitError t :: es)

namespace Event
/-- rules entered (`enter_every_rule`) -/
def entered : Event → Option RuleContext
  | .enterEvery c => some c
  | _ => none
/-- rules left (`exit_every_rule`) -/
def left : Event → Option RuleContext
  | .exitEvery c => some c
  | _ => none
/-- leaves entered -/
def leaf : Event → Option (Bool × Token)
  | .enterTerminal t => some (false, t)
  | .enterError t => some (true, t)
  | _ => none
/-- the call itself -/
def call {σ : Type} (li : Listener σ) : Event → σ → σ
  | .enterEvery c => li.enterEveryRule c
  | .exitEvery c => li.exitEveryRule c
  | .enterKind k c => li.enterKind k c
  | .exitKind k c => li.exitKind k c
  | .enterTerminal t => li.enterTerminal t
  | .exitTerminal t => li.exitTerminal t
  | .enterError t => li.enterErrornode t
  | .exitError t => li.exitErrornode t
end Event

mutual
/-- The nodes a visitor meets when the nodes selected by `hide` are not entered: the leaves and the
topmost selected rule nodes, left to right. -/
def Ast.frontier (hide : RuleContext → Bool) : Ast → List Ast
  | .terminal t => [.terminal t]
  | .error t => [.error t]
  | .rule n i kids => if hide ⟨n, kids, i⟩ then [.rule n i kids] else Ast.frontierList hide kids
def Ast.frontierList (hide : RuleContext → Bool) : List Ast → List Ast
  | [] => []
  | k :: ks => k.frontier hide ++ Ast.frontierList hide ks
end

end Syntaxis
