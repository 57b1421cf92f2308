import Verif.Spec.Restart

/-!
# Specification: the same token in the two lexers of grammar files

The numbers are those of the constants `tool/v1/syntaxis_lexer.rs:25-38` and `syntaxis/syntaxis_lexer.rs:24-44`.
-/

namespace Syntaxis

/-- the numbers of the kinds that both lexers know: v1 first -/
def sharedKinds : List (Nat × Nat) :=
  [(2, 7), (3, 6), (4, 8), (5, 10), (6, 9), (7, 22), (8, 11), (9, 12), (10, 13), (11, 16), (12, 17), (13, 19), (14, 21),
    (15, 4)]

/-- the kinds of the first lexer only: the comments, `fragment`, `.`, `~`, `#` and `..` -/
def firstOnly : List Nat := [2, 3, 5, 14, 15, 18, 20]

/-- `t` of the v1 lexer and `t'` of the first lexer are the same token: they differ in the number of the kind and its
name only -/
def Token.Same (t t' : Token) : Prop :=
  (t.tokenType, t'.tokenType) ∈ sharedKinds ∧ t.text = t'.text ∧ t.start = t'.start ∧ t.stop = t'.stop ∧
    t.tokenIndex = t'.tokenIndex ∧ t.charStartIndex = t'.charStartIndex ∧ t.charStopIndex = t'.charStopIndex ∧
    t.channel = t'.channel

end Syntaxis
