import Verif.Spec.RegexLang

/-!
# Specification: the longest word, and regexes whose choices are in order
-/

namespace Syntaxis

/-- `u` is the longest prefix of `s` in `L` -/
def LongestPrefix (L : Str → Prop) (s u : Str) : Prop :=
  u <+: s ∧ L u ∧ ∀ w, w <+: s → L w → w.length ≤ u.length

/-- if a word of `L` can be continued to a longer one, then no word of `M` begins with the next character -/
def Decided (L M : Str → Prop) : Prop := ∀ u c w v, L u → L (u ++ c :: w) → ¬ M (c :: v)

/-- Regexes whose choices are in order: a part either has no word that continues another, or it is put together from such parts
by concatenation and greedy repetition, where the next character decides whether the first part goes on, and by alternatives of
which no earlier one has a word that a later one continues. -/
inductive Regex.Tidy : Regex → Prop
  | prefixFree {r : Regex} (h : ∀ u v, r.Lang u → r.Lang (u ++ v) → v = []) : r.Tidy
  | seq {r q : Regex} (hr : r.Tidy) (hq : q.Tidy) (h : Decided r.Lang q.Lang) : (Regex.seq r q).Tidy
  | alt {r q : Regex} (hr : r.Tidy) (hq : q.Tidy) (h : ∀ u v, r.Lang u → q.Lang (u ++ v) → v = []) : (Regex.alt r q).Tidy
  | star {r : Regex} (hr : r.Tidy) (h : Decided r.Lang r.Lang) : (Regex.star r).Tidy

end Syntaxis
