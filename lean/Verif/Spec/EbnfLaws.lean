import Verif.Spec.Ebnf

/-!
# Specification: the laws by which a grammar file may be rewritten
-/

namespace Syntaxis

/-- two sequences of elements that can be rewritten into each other -/
inductive Rewrite : List Elem → List Elem → Prop
  | refl (s : List Elem) : Rewrite s s
  | symm {s t : List Elem} (h : Rewrite s t) : Rewrite t s
  | trans {s t u : List Elem} (h : Rewrite s t) (h' : Rewrite t u) : Rewrite s u
  /-- inside a sequence -/
  | append {s s' t t' : List Elem} (h : Rewrite s s') (h' : Rewrite t t') : Rewrite (s ++ t) (s' ++ t')
  /-- under a suffix -/
  | rep {e e' : Elem} (f : Suffix) (h : Rewrite [e] [e']) : Rewrite [.rep f e] [.rep f e']
  /-- inside parentheses: every alternative of one is rewritten to one of the other and vice versa; so the order of
  alternatives and repeated alternatives do not matter -/
  | group {as bs : List (List Elem)} (f g : List Elem → List Elem) (hf : ∀ a ∈ as, f a ∈ bs) (hf' : ∀ a ∈ as, Rewrite a (f a))
      (hg : ∀ b ∈ bs, g b ∈ as) (hg' : ∀ b ∈ bs, Rewrite b (g b)) : Rewrite [.group as] [.group bs]
  /-- parentheses around one sequence -/
  | single (s : List Elem) : Rewrite [.group [s]] s
  /-- parentheses around the last of several alternatives -/
  | nested (as bs : List (List Elem)) : Rewrite [.group (as ++ [[.group bs]])] [.group (as ++ bs)]
  /-- multiplying out -/
  | distrib (s t : List Elem) (as : List (List Elem)) :
      Rewrite (s ++ .group as :: t) [.group (as.map fun a => s ++ a ++ t)]
  /-- `e+` is `e e*` -/
  | plus (e : Elem) : Rewrite [.rep .plus e] [e, .rep .star e]
  /-- `e+` is `e* e` -/
  | plus' (e : Elem) : Rewrite [.rep .plus e] [.rep .star e, e]
  /-- `e?` is `(e | ε)` -/
  | question (e : Elem) : Rewrite [.rep .question e] [.group [[e], []]]
  /-- `e*` is `(e+)?` -/
  | star (e : Elem) : Rewrite [.rep .star e] [.rep .question (.rep .plus e)]
  /-- `e*` is `(e+ | ε)` -/
  | star' (e : Elem) : Rewrite [.rep .star e] [.group [[.rep .plus e], []]]
  /-- `e**` is `e*` -/
  | starStar (e : Elem) : Rewrite [.rep .star (.rep .star e)] [.rep .star e]
  /-- `(e?)*` is `e*` -/
  | starQuestion (e : Elem) : Rewrite [.rep .star (.rep .question e)] [.rep .star e]
  /-- `(e+)*` is `e*` -/
  | starPlus (e : Elem) : Rewrite [.rep .star (.rep .plus e)] [.rep .star e]
  /-- `e* e*` is `e*` -/
  | twice (e : Elem) : Rewrite [.rep .star e, .rep .star e] [.rep .star e]
  /-- `(s t)* s` is `s (t s)*` -/
  | slide (s t : List Elem) : Rewrite (.rep .star (.group [s ++ t]) :: s) (s ++ [.rep .star (.group [t ++ s])])

/-- all alternatives of a rule of this name -/
def alternativesOf (D : Rules) (n : Str) : List (List Elem) := D.flatMap fun r => if r.1 = n then r.2 else []

/-- every rule of the second file is that of the first, rewritten -/
def RewrittenRules (D D' : Rules) : Prop :=
  ∀ n, Rewrite [.group (alternativesOf D n)] [.group (alternativesOf D' n)]

end Syntaxis
