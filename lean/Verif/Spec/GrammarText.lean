import Verif.Spec.Ebnf
import Verif.Spec.LexRules

/-!
# Specification: how an EBNF grammar is written as a sequence of tokens

The concrete syntax of grammar files, stated without the generated grammar: only the token numbers of
`tool/v1/syntaxis_lexer.rs:25-38` are used (2 RULE_REF, 3 TOKEN_REF, 4 COLON, 5 SEMI, 6 OR, 7 EPSILON, 8 STAR,
9 PLUS, 10 QUESTION, 11 LPAREN, 12 RPAREN, 13 STRING_LITERAL, 14 REGULAR_LITERAL).
-/

namespace Syntaxis

/-- the token written for a suffix -/
def Suffix.token : Suffix → Nat
  | .star => 8
  | .plus => 9
  | .question => 10

/-- `*`, `+` or `?`, with an optional further `?` (which is ignored) -/
inductive WSuffix : Suffix → List Token → Prop
  | plain {f : Suffix} {t : Token} (h : t.tokenType = f.token) : WSuffix f [t]
  | lazy {f : Suffix} {t q : Token} (h : t.tokenType = f.token) (hq : q.tokenType = 10) : WSuffix f [t, q]

mutual
/-- an element without suffix: `TOKEN`, `'literal'`, `rule`, `( block )` -/
inductive WAtom : Elem → List Token → Prop
  | token {t : Token} (h : t.tokenType = 3) : WAtom (.tok t.text) [t]
  | literal {t : Token} (h : t.tokenType = 13) : WAtom (.tok t.text) [t]
  | rule {t : Token} (h : t.tokenType = 2) : WAtom (.ref t.text) [t]
  | group {l r : Token} {alts : List (List Elem)} {ts : List Token} (hl : l.tokenType = 11) (hr : r.tokenType = 12)
      (h : WBlock alts ts) : WAtom (.group alts) (l :: (ts ++ [r]))
/-- an element with or without suffix -/
inductive WElem : Elem → List Token → Prop
  | plain {e : Elem} {ts : List Token} (h : WAtom e ts) : WElem e ts
  | suffix {e : Elem} {ts us : List Token} {f : Suffix} (h : WAtom e ts) (hs : WSuffix f us) :
      WElem (.rep f e) (ts ++ us)
/-- one or more elements -/
inductive WSeq : List Elem → List Token → Prop
  | one {e : Elem} {ts : List Token} (h : WElem e ts) : WSeq [e] ts
  | cons {e : Elem} {es : List Elem} {ts us : List Token} (h : WElem e ts) (hs : WSeq es us) :
      WSeq (e :: es) (ts ++ us)
/-- `epsilon`, or one or more elements -/
inductive WAlt : List Elem → List Token → Prop
  | epsilon {t : Token} (h : t.tokenType = 7) : WAlt [] [t]
  | seq {es : List Elem} {ts : List Token} (h : WSeq es ts) : WAlt es ts
/-- alternatives separated by `|` -/
inductive WBlock : List (List Elem) → List Token → Prop
  | one {a : List Elem} {ts : List Token} (h : WAlt a ts) : WBlock [a] ts
  | cons {a : List Elem} {as : List (List Elem)} {ts us : List Token} {o : Token} (h : WAlt a ts)
      (ho : o.tokenType = 6) (hs : WBlock as us) : WBlock (a :: as) (ts ++ o :: us)
end

/-- A grammar file: parser rules `name : block ;` and lexer rules `NAME : /regex/ ;` in any order.  `D` are the
parser rules, `L` the names and literals of the lexer rules, both in order. -/
inductive WFile : Rules → List (Str × Str) → List Token → Prop
  | nil : WFile [] [] []
  | parserRule {n c s : Token} {alts : List (List Elem)} {ts us : List Token} {D : Rules} {L : List (Str × Str)}
      (hn : n.tokenType = 2) (hc : c.tokenType = 4) (hb : WBlock alts ts) (hs : s.tokenType = 5)
      (h : WFile D L us) : WFile ((n.text, alts) :: D) L (n :: c :: (ts ++ s :: us))
  | lexerRule {n c r s : Token} {us : List Token} {D : Rules} {L : List (Str × Str)}
      (hn : n.tokenType = 3) (hc : c.tokenType = 4) (hr : r.tokenType = 14) (hs : s.tokenType = 5)
      (h : WFile D L us) : WFile D ((n.text, r.text) :: L) (n :: c :: r :: s :: us)

/-- a file whose rules are complete: all names that are used are defined, and no name is both a token and a
rule -/
structure Complete (D : Rules) (L : List (Str × Str)) : Prop where
  tokens : ∀ n alts, (n, alts) ∈ D → ∀ m ∈ altsTokNames alts, ∃ q, (m, q) ∈ L
  rules : ∀ n alts, (n, alts) ∈ D → ∀ m ∈ altsRuleNames alts, ∃ alts', (m, alts') ∈ D
  apart : ∀ n alts, (n, alts) ∈ D → n ≠ "_START".toList ∧ n ≠ "_STOP".toList ∧ ∀ q, (n, q) ∉ L

/-- name and literal text of the lexer rules (rule 7) among these nodes -/
def readLexRules (lc : LexConsts) (ks : List Ast) : List (Option (Str × Str)) :=
  (ks.filter (Ast.isRule 7)).map (readLex lc)

end Syntaxis
