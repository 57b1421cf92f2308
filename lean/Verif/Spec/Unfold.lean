import Verif.Spec.EbnfLaws

/-!
# Specification: inlining rules and removing recursion
-/

namespace Syntaxis

/-- the second sequence is the first with some references to rules, at any depth, replaced by the alternatives of the
rule in parentheses -/
inductive Unfolds (D : Rules) : List Elem → List Elem → Prop
  | nil : Unfolds D [] []
  | tok (n : Str) {s t : List Elem} (h : Unfolds D s t) : Unfolds D (.tok n :: s) (.tok n :: t)
  | ref (n : Str) {s t : List Elem} (h : Unfolds D s t) : Unfolds D (.ref n :: s) (.ref n :: t)
  | unfold (n : Str) {s t : List Elem} (h : Unfolds D s t) :
      Unfolds D (.ref n :: s) (.group (alternativesOf D n) :: t)
  | group {as bs s t} (f g : List Elem → List Elem) (hf : ∀ a ∈ as, f a ∈ bs) (hf' : ∀ a ∈ as, Unfolds D a (f a))
      (hg : ∀ b ∈ bs, g b ∈ as) (hg' : ∀ b ∈ bs, Unfolds D (g b) b) (h : Unfolds D s t) :
      Unfolds D (.group as :: s) (.group bs :: t)
  | rep (f : Suffix) {e e' : Elem} {s t : List Elem} (he : Unfolds D [e] [e']) (h : Unfolds D s t) :
      Unfolds D (.rep f e :: s) (.rep f e' :: t)

/-- the second file is the first with some references to rules replaced by their alternatives; the rules stay -/
def UnfoldedRules (D D' : Rules) : Prop :=
  ∀ n, (∀ a ∈ alternativesOf D n, ∃ b ∈ alternativesOf D' n, Unfolds D a b) ∧
    ∀ b ∈ alternativesOf D' n, ∃ a ∈ alternativesOf D n, Unfolds D a b

/-- `n : n α₁ | … | n αₖ | β₁ | … | βₗ` in the first file, `n : (β₁ | … | βₗ) (α₁ | … | αₖ)*` in the second, all
other rules the same -/
structure LeftRecursionRemoved (n : Str) (α β : List (List Elem)) (D D' : Rules) : Prop where
  before : ∀ a, a ∈ alternativesOf D n ↔ a ∈ α.map (fun s => .ref n :: s) ++ β
  after : ∀ a, a ∈ alternativesOf D' n ↔ a = [.group β, .rep .star (.group α)]
  others : ∀ m, m ≠ n → ∀ a, a ∈ alternativesOf D m ↔ a ∈ alternativesOf D' m

/-- `n : α₁ n | … | αₖ n | β₁ | … | βₗ` in the first file, `n : (α₁ | … | αₖ)* (β₁ | … | βₗ)` in the second, all
other rules the same -/
structure RightRecursionRemoved (n : Str) (α β : List (List Elem)) (D D' : Rules) : Prop where
  before : ∀ a, a ∈ alternativesOf D n ↔ a ∈ α.map (fun s => s ++ [.ref n]) ++ β
  after : ∀ a, a ∈ alternativesOf D' n ↔ a = [.rep .star (.group α), .group β]
  others : ∀ m, m ≠ n → ∀ a, a ∈ alternativesOf D m ↔ a ∈ alternativesOf D' m

end Syntaxis
