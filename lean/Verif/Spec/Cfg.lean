import Verif.Model.Grammar
import Mathlib.Logic.Relation

/-!
# Specification: context-free derivations

Independent of the algorithms of the model: only the syntax of productions is shared.
-/

namespace Syntaxis

/-- One derivation step: replace one occurrence of a nonterminal by the right-hand side of one of its
productions. -/
inductive Step (P : List Production) : List Item → List Item → Prop
  | mk (p : Production) (hp : p ∈ P) (u v : List Item) :
      Step P (u ++ Item.nt p.left :: v) (u ++ (p.right ++ v))

/-- `α ⇒* β`. -/
def Derives (P : List Production) : List Item → List Item → Prop := Relation.ReflTransGen (Step P)

/-- `α` derives the empty string. -/
def Nullable (P : List Production) (α : List Item) : Prop := Derives P α []

/-- token `t` can begin a string derived from `α`. -/
def InFirst (P : List Production) (α : List Item) (t : Nat) : Prop :=
  ∃ β, Derives P α (Item.t t :: β)

/-- token `t` can stand immediately after rule `B` in a string derived from some rule, or `t` is the
end marker `_STOP` (1) and `B` can end a string derived from the start rule 0. -/
def InFollow (P : List Production) (B : Nat) (t : Nat) : Prop :=
  (∃ A u v, Derives P [Item.nt A] (u ++ Item.nt B :: Item.t t :: v)) ∨
  (t = 1 ∧ ∃ u, Derives P [Item.nt 0] (u ++ [Item.nt B]))

/-- the textbook FOLLOW: only strings derived from the start rule 0 count. -/
def InFollowFromStart (P : List Production) (B : Nat) (t : Nat) : Prop :=
  (∃ u v, Derives P [Item.nt 0] (u ++ Item.nt B :: Item.t t :: v)) ∨
  (t = 1 ∧ ∃ u, Derives P [Item.nt 0] (u ++ [Item.nt B]))

/-- the word `w` of token types is a sentence of rule `A`. -/
def Sentence (P : List Production) (A : Nat) (w : List Nat) : Prop :=
  Derives P [Item.nt A] (w.map Item.t)

/-- `t` predicts production `p`: it can begin `p.right`, or `p.right` is nullable and `t` can follow
the rule. -/
def Predicts (P : List Production) (p : Production) (t : Nat) : Prop :=
  InFirst P p.right t ∨ (Nullable P p.right ∧ InFollow P p.left t)

/-- The LL(1) condition: no token predicts two different productions of the same rule. -/
def LL1 (P : List Production) : Prop :=
  ∀ p ∈ P, ∀ q ∈ P, p.left = q.left → p ≠ q → ∀ t, ¬ (Predicts P p t ∧ Predicts P q t)

/-- The three-clause textbook formulation of LL(1). -/
def LL1Textbook (P : List Production) : Prop :=
  ∀ p ∈ P, ∀ q ∈ P, p.left = q.left → p ≠ q →
    (∀ t, ¬ (InFirst P p.right t ∧ InFirst P q.right t)) ∧
    ¬ (Nullable P p.right ∧ Nullable P q.right) ∧
    (Nullable P q.right → ∀ t, ¬ (InFirst P p.right t ∧ InFollow P p.left t))

/-- every nonterminal occurring in a production is registered in the vocabulary -/
def Closed (ids : Finset Nat) (P : List Production) : Prop :=
  ∀ p ∈ P, p.left ∈ ids ∧ ∀ B, Item.nt B ∈ p.right → B ∈ ids

end Syntaxis
