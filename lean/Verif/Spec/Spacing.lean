import Verif.Model.Regex

/-! # Specification: texts that differ in white space only -/

namespace Syntaxis

/-- the white space of grammar files: space, carriage return, line feed, tab, form feed -/
def IsSpace (c : Char) : Prop := c = ' ' ∨ c = '\r' ∨ c = '\n' ∨ c = '\t' ∨ c = '\x0c'

/-- `Spaced us s`: `s` consists of the words `us` in order, with any white space before, between and after
them, at least one character of it between two words -/
inductive Spaced : List Str → Str → Prop
  | nil {g : Str} : (∀ c ∈ g, IsSpace c) → Spaced [] g
  | cons {g u s : Str} {us : List Str} : (∀ c ∈ g, IsSpace c) → Spaced us s →
      (∀ c s', s = c :: s' → IsSpace c) → Spaced (u :: us) (g ++ (u ++ s))

/-- what `scan_all_on_channel_tokens(0)` of the v1 lexer returns for `input` and prints as unlexed -/
def V1.ScansTo (digit : Char → Bool) (input : Str) (toks : List Token) (printed : Option Str) : Prop :=
  ∃ n l, ∀ fuel, n ≤ fuel →
    (V1.lexer digit input).scanAll V1.WHITE_SPACE 0 fuel = .ok (toks, printed, l)

end Syntaxis
