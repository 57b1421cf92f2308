import Verif.Model.Parser

/-!
# Specification: giving the token types other numbers
-/

namespace Syntaxis

/-- the same item with the token type renumbered -/
def Item.renum (τ : Nat → Nat) : Item → Item
  | .nt A => .nt A
  | .t a => .t (τ a)

/-- the same production with the token types renumbered -/
def Production.renum (τ : Nat → Nat) (p : Production) : Production := ⟨p.left, p.right.map (Item.renum τ)⟩

/-- the same token with another type -/
def Token.renum (τ : Nat → Nat) (t : Token) : Token := { t with tokenType := τ t.tokenType }

mutual
/-- the same tree with the types of the tokens renumbered -/
def Ast.renum (τ : Nat → Nat) : Ast → Ast
  | .terminal s => .terminal (s.renum τ)
  | .error s => .error (s.renum τ)
  | .rule n i ks => .rule n i (Ast.renumList τ ks)
/-- the same for a list of trees -/
def Ast.renumList (τ : Nat → Nat) : List Ast → List Ast
  | [] => []
  | k :: ks => k.renum τ :: Ast.renumList τ ks
end

/-- the same tree with the types of the tokens renumbered -/
def RuleContext.renum (τ : Nat → Nat) (r : RuleContext) : RuleContext :=
  { r with children := Ast.renumList τ r.children }

/-- the same messages: the expected types are renumbered -/
def MismatchLog.renum (τ : Nat → Nat) (l : MismatchLog) : MismatchLog := l.map fun x => (τ x.1, x.2)

/-- `g'` is `g` with the token types renumbered -/
structure Renumbered (τ : Nat → Nat) (g g' : Grammar) : Prop where
  productions : ∀ p, p ∈ g'.productions ↔ ∃ q ∈ g.productions, p = q.renum τ
  names : ∀ A, g'.vocabulary.getNonterminalNameById A = g.vocabulary.getNonterminalNameById A

end Syntaxis
