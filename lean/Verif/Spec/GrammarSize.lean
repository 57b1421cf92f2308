import Verif.Spec.Sharing

/-! # Specification: the size of the rules an EBNF file stands for -/

namespace Syntaxis

/-- the blocks in the rules -/
def rulesGroups (D : Rules) : List (List (List Elem)) := D.flatMap fun r => altsGroups r.2

/-- the lengths of the two rules of a repetition -/
def suffixLengths : Suffix → List Nat
  | .star => [0, 2]
  | .plus => [1, 2]
  | .question => [0, 1]

/-- the lengths of all rules: those of the written alternatives of rules and blocks, and two for every repetition -/
def ruleLengths (D : Rules) : List Nat :=
  (writtenAlternatives D).map (fun w => w.2.length) ++ (rulesGroups D).flatMap (fun alts => alts.map List.length) ++
    (rulesReps D).flatMap fun r => suffixLengths r.1

/-- how many alternatives are written, in rules and in blocks -/
def alternativeCount (D : Rules) : Nat := (writtenAlternatives D).length + ((rulesGroups D).map List.length).sum

/-- how many elements are written, not counting those inside repetitions again -/
def elementCount (D : Rules) : Nat :=
  ((writtenAlternatives D).map fun w => w.2.length).sum + ((rulesGroups D).map fun alts => (alts.map List.length).sum).sum

end Syntaxis
