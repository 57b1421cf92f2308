import Verif.Model.Regex

/-!
# Specification: the language of a regex
-/

namespace Syntaxis

/-- concatenations of members of `L` -/
inductive Star (L : Str → Prop) : Str → Prop
  | nil : Star L []
  | cons {u v : Str} : L u → Star L v → Star L (u ++ v)

/-- the strings a regex matches -/
def Regex.Lang : Regex → Str → Prop
  | .cls p, u => ∃ c, p c = true ∧ u = [c]
  | .nil, u => u = []
  | .seq r q, u => ∃ a b, u = a ++ b ∧ r.Lang a ∧ q.Lang b
  | .alt r q, u => r.Lang u ∨ q.Lang u
  | .star r, u => Star r.Lang u
  | .lazyStar r, u => Star r.Lang u

end Syntaxis
