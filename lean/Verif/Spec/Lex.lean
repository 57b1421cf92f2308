import Verif.Model.Lexer

/-!
# Specification of lexing: positions, longest match, histories
-/

namespace Syntaxis

/-- what the `regex` crate guarantees about a match end: it is the end of a prefix of the haystack -/
def Matcher.Ok (m : Matcher) : Prop := ∀ s n, m s = some n → ∃ u v, s = u ++ v ∧ n = byteLen u

/-- line (number of line feeds before) and byte column of the end of `s` -/
def posOf (s : Str) : Position :=
  ⟨s.count '\n', byteLen (s.reverse.takeWhile (· ≠ '\n')).reverse⟩

/-- `l'` is reached from `l` by successive successful calls of `scan`, which returned `toks` -/
inductive Scans (scan : Lexer → Res (Option Token × Lexer)) : Lexer → List Token → Lexer → Prop
  | nil (l : Lexer) : Scans scan l [] l
  | snoc {l l1 l2 : Lexer} {toks : List Token} {tok : Token} :
      Scans scan l toks l1 → scan l1 = .ok (some tok, l2) → Scans scan l (toks ++ [tok]) l2

/-- rule `i` of the list wins on `rest` with a match of `n` bytes: it reports the longest match, and
it is the first one to report that length -/
def Wins (ms : List Matcher) (rest : Str) (i n : Nat) : Prop :=
  0 < n ∧ (∃ m, ms[i]? = some m ∧ m rest = some n) ∧
  (∀ j m k, ms[j]? = some m → m rest = some k → k ≤ n ∧ (j < i → k < n))

/-- no rule reports a nonempty match -/
def NoMatch (ms : List Matcher) (rest : Str) : Prop :=
  ∀ (j : Nat) (m : Matcher) (k : Nat), ms[j]? = some m → m rest = some k → k = 0

/-- the specified tokenisation of a string: repeatedly the longest match, until nothing matches; the
result is the list of (token type, text) and the unlexed remainder -/
inductive Lexes (ms : List Matcher) : Str → List (Nat × Str) → Str → Prop
  | stop (rest : Str) : NoMatch ms rest → Lexes ms rest [] rest
  | step {u v rem : Str} {i : Nat} {out : List (Nat × Str)} : Wins ms (u ++ v) i (byteLen u) →
      Lexes ms v out rem → Lexes ms (u ++ v) ((i + 2, u) :: out) rem

/-- the regex list and the name list fit together -/
def LexerOk (ms : List Matcher) (names : List Str) : Prop :=
  (∀ m ∈ ms, m.Ok) ∧ names.length = ms.length + 2

end Syntaxis
