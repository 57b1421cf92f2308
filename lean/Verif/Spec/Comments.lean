import Verif.Model.Regex

/-! # Specification: comments of the first lexer -/

namespace Syntaxis

/-- `//` up to and including the end of the line -/
def IsLineComment (u : Str) : Prop := ∃ t, u = '/' :: '/' :: (t ++ ['\n']) ∧ '\n' ∉ t

/-- `/*` up to and including the first `*/` behind it -/
def IsBlockComment (u : Str) : Prop :=
  ∃ t, u = '/' :: '*' :: (t ++ ['*', '/']) ∧ ∀ p q, t ++ ['*', '/'] = p ++ '*' :: '/' :: q → q = []

/-- what `scan_all_on_channel_tokens(0)` of the first lexer returns for `input` (token types and texts) and
prints as unlexed -/
def Old.ScansTo (digit : Char → Bool) (input : Str) (out : List (Nat × Str)) (printed : Str) : Prop :=
  ∃ n toks l, (∀ fuel, n ≤ fuel → (Old.lexer digit input).scanAllOld 0 fuel = .ok (toks, printed, l)) ∧
    toks.map (fun t => (t.tokenType, t.text)) = out

end Syntaxis
