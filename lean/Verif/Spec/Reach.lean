import Verif.Spec.Cfg

/-! # Specification: rules that can be reached -/

namespace Syntaxis

/-- rule `B` occurs in a string derived from rule `A` -/
def Reaches (P : List Production) (A B : Nat) : Prop := ∃ u v, Derives P [Item.nt A] (u ++ Item.nt B :: v)

/-- `Q` has the productions of `P`, and besides only productions of rules that cannot be reached from the start rule 0 -/
structure DeadRules (P Q : List Production) : Prop where
  sub : ∀ p ∈ P, p ∈ Q
  dead : ∀ p ∈ Q, p ∉ P → ¬ Reaches Q 0 p.left

end Syntaxis
