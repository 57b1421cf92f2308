import Verif.Spec.Desugar

/-!
# Specification: repetitions that share their rules

The code recognises a repetition it has seen by the suffix and the bare number of what is repeated, whether that is the
number of a token or of a rule.
-/

namespace Syntaxis

mutual
/-- the repetitions in the element in the order in which they are read: from left to right, inner ones first -/
def Elem.reps : Elem → List (Suffix × Elem)
  | .tok _ => []
  | .ref _ => []
  | .group alts => altsReps alts
  | .rep f e => e.reps ++ [(f, e)]
def seqReps : List Elem → List (Suffix × Elem)
  | [] => []
  | e :: es => e.reps ++ seqReps es
def altsReps : List (List Elem) → List (Suffix × Elem)
  | [] => []
  | a :: as => seqReps a ++ altsReps as
end

/-- the repetitions in the rules, in the order in which they are read -/
def rulesReps (D : Rules) : List (Suffix × Elem) := D.flatMap fun r => altsReps r.2

/-- the number of a symbol of a grammar, without its kind -/
def Item.number : Item → Nat
  | .t i => i
  | .nt i => i

/-- what a repetition repeats: the element of the first repetition in the file with the same suffix whose element has
the same number -/
def repeated (D : Rules) (num : Elem → Item) (f : Suffix) (e : Elem) : Elem :=
  (((rulesReps D).find? fun r => decide (r.1 = f ∧ (num r.2).number = (num e).number)).map Prod.snd).getD e

/-- the textbook rules of the symbol `self`, a repetition of `e` -/
def repRules : Suffix → Elem → Elem → List (List Elem)
  | .star, e, self => [[], [e, self]]
  | .plus, e, self => [[e], [e, self]]
  | .question, e, _ => [[], [e]]

/-- the rules of each symbol when `own f e` is what the repetition of `e` with suffix `f` repeats -/
inductive ExpandsBy (D : Rules) (own : Suffix → Elem → Elem) : Elem → List Elem → Prop
  | rule {n a} (h : (n, a) ∈ writtenAlternatives D) : ExpandsBy D own (.ref n) a
  | group {alts a} (h : .group alts ∈ rulesParts D) (ha : a ∈ alts) : ExpandsBy D own (.group alts) a
  | rep {f e a} (h : .rep f e ∈ rulesParts D) (ha : a ∈ repRules f (own f e) (.rep f e)) :
    ExpandsBy D own (.rep f e) a

/-- the words of a sequence of elements by these rules -/
inductive WordBy (D : Rules) (own : Suffix → Elem → Elem) (tok : Str → Option Nat) : List Elem → List Nat → Prop
  | nil : WordBy D own tok [] []
  | tok {n a es w} (hn : tok n = some a) (h : WordBy D own tok es w) : WordBy D own tok (.tok n :: es) (a :: w)
  | sym {e a es u w} (he : ExpandsBy D own e a) (hu : WordBy D own tok a u) (h : WordBy D own tok es w) :
    WordBy D own tok (e :: es) (u ++ w)

/-- when two elements are the same symbol: references to the same token or rule, blocks whose alternatives consist of the
same symbols, and repetitions with the same suffix of symbols with the same number -/
def Merged (num : Elem → Item) : Elem → Elem → Prop
  | .tok n, .tok m => n = m
  | .ref n, .ref m => n = m
  | .group as, .group bs => as.map (List.map num) = bs.map (List.map num)
  | .rep f e, .rep g e' => f = g ∧ (num e).number = (num e').number
  | _, _ => False

end Syntaxis
