import Verif.Spec.Cfg

/-!
# What a parser with one token of lookahead accepts when it does not look for the end
-/

namespace Syntaxis

/-- `w` is derived from the symbols in such a way that every rule that matches nothing at the end of `w` may be followed
by the next token (`next`, none at the end of the input) -/
inductive LeftAt (P : List Production) (next : Option Nat) : List Item → List Nat → Prop
  | nil : LeftAt P next [] []
  | t (a : Nat) {α : List Item} {w : List Nat} : LeftAt P next α w → LeftAt P next (.t a :: α) (a :: w)
  | before {A : Nat} {α : List Item} {w1 w2 : List Nat} : Sentence P A w1 → w2 ≠ [] → LeftAt P next α w2 →
      LeftAt P next (.nt A :: α) (w1 ++ w2)
  | last (p : Production) {α : List Item} {w : List Nat} : p ∈ P → LeftAt P next p.right w →
      (w = [] → ∃ s, next = some s ∧ InFollow P p.left s) → LeftAt P next α [] → LeftAt P next (.nt p.left :: α) w

end Syntaxis
