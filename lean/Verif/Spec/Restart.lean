import Verif.Spec.Lex

/-! # Specification: tokens behind a text -/

namespace Syntaxis

/-- the position `q` of a text that begins at position `p` -/
def Position.behind (p q : Position) : Position :=
  ⟨p.line + q.line, if q.line = 0 then p.charPosition + q.charPosition else q.charPosition⟩

/-- the token `t` of a text that stands behind `u` and behind `k` tokens -/
def Token.behind (u : Str) (k : Nat) (t : Token) : Token :=
  { t with
    start := (posOf u).behind t.start
    stop := (posOf u).behind t.stop
    tokenIndex := k + t.tokenIndex
    charStartIndex := byteLen u + t.charStartIndex
    charStopIndex := byteLen u + t.charStopIndex }

/-- the next scan fails and changes nothing -/
def Fails (scan : Lexer → Res (Option Token × Lexer)) (l : Lexer) : Prop := scan l = .ok (none, l)

end Syntaxis
