import Verif.Model.RegexSyntax
import Verif.Spec.RegexLang
import Mathlib.Data.Nat.Digits.Defs

/-!
# Specification: the texts of regexes

The documented syntax of the `regex` crate, restricted to the fragment of `Model/RegexSyntax.lean`, as a grammar that
relates texts and trees: alternatives bind weaker than concatenation, concatenation weaker than repetition.
-/

namespace Syntaxis

/-- a character that stands for itself outside classes -/
def PlainChar (c : Char) : Prop := c ∉ ['\\', '.', '+', '*', '?', '(', ')', '|', '[', '{', '^', '$']

/-- a character that stands for itself inside classes -/
def PlainInClass (c : Char) : Prop := c ∉ ['\\', '[', ']', '-']

/-- `c` is the hexadecimal digit `n` -/
def RegexHexDigit (c : Char) (n : Nat) : Prop :=
  (n < 10 ∧ c.toNat = '0'.toNat + n) ∨
  (10 ≤ n ∧ n < 16 ∧ (c.toNat + 10 = 'a'.toNat + n ∨ c.toNat + 10 = 'A'.toNat + n))

/-- the number of a character in hexadecimal digits -/
def HexText (s : Str) (c : Char) : Prop :=
  s ≠ [] ∧ ∃ ns, List.Forall₂ RegexHexDigit s ns ∧ c.toNat = Nat.ofDigits 16 ns.reverse

/-- what a text behind a backslash stands for -/
inductive EscapeText : Str → ClassItem → Prop
  | self {c : Char} (h : c ∈ ['\\', '.', '+', '*', '?', '(', ')', '|', '[', '{', '^', '$', ']', '}', '#', '&', '-', '~']) :
      EscapeText [c] (.one c)
  | alert : EscapeText ['a'] (.one '\x07')
  | feed : EscapeText ['f'] (.one '\x0c')
  | tab : EscapeText ['t'] (.one '\t')
  | newline : EscapeText ['n'] (.one '\n')
  | return_ : EscapeText ['r'] (.one '\r')
  | vertical : EscapeText ['v'] (.one '\x0b')
  | digit : EscapeText ['d'] .digit
  | notDigit : EscapeText ['D'] .notDigit
  | space : EscapeText ['s'] .space
  | notSpace : EscapeText ['S'] .notSpace
  | hex {e : Char} {s : Str} {c : Char} (he : (e, s.length) ∈ [('x', 2), ('u', 4), ('U', 8)]) (h : HexText s c) :
      EscapeText (e :: s) (.one c)
  | braces {e : Char} {s : Str} {c : Char} (he : e ∈ ['x', 'u', 'U']) (h : HexText s c) :
      EscapeText (e :: '{' :: (s ++ ['}'])) (.one c)

/-- the characters with the Unicode property White_Space -/
def WhiteSpace (c : Char) : Prop :=
  c ∈ ['\t', '\n', '\x0b', '\x0c', '\r', ' ', '\u0085', '\u00a0', '\u1680', '\u2000', '\u2001', '\u2002', '\u2003', '\u2004',
    '\u2005', '\u2006', '\u2007', '\u2008', '\u2009', '\u200a', '\u2028', '\u2029', '\u202f', '\u205f', '\u3000']

/-- the characters a member of a class stands for -/
def ClassItem.Member (digit : Char → Bool) : ClassItem → Char → Prop
  | .one c, d => d = c
  | .range a b, d => a ≤ d ∧ d ≤ b
  | .digit, d => digit d = true
  | .notDigit, d => digit d = false
  | .space, d => WhiteSpace d
  | .notSpace, d => ¬ WhiteSpace d

/-- a character or an escape inside a class -/
inductive PrimText : Str → ClassItem → Prop
  | plain {c : Char} (h : PlainInClass c) : PrimText [c] (.one c)
  | escape {s : Str} {i : ClassItem} (h : EscapeText s i) : PrimText ('\\' :: s) i

/-- members of a class -/
inductive ItemText : Str → ClassItem → Prop
  | prim {s : Str} {i : ClassItem} (h : PrimText s i) : ItemText s i
  | range {s t : Str} {a b : Char} (ha : PrimText s (.one a)) (hb : PrimText t (.one b)) (hab : a ≤ b) :
      ItemText (s ++ '-' :: t) (.range a b)

/-- members of a class, one behind the other; the last one may be `-`.  A member `&` or `~` must not have the same character
behind. -/
inductive ItemsText : Str → List ClassItem → Prop
  | nil : ItemsText [] []
  | minus : ItemsText ['-'] [.one '-']
  | cons {s t : Str} {i : ClassItem} {is : List ClassItem} (h : ItemText s i)
      (hop : ∀ c ∈ ['&', '~'], s = [c] → t.head? ≠ some c) (hs : ItemsText t is) : ItemsText (s ++ t) (i :: is)

/-- the text between the brackets (and behind `^`): also the first member may be `-` -/
inductive ClassText : Str → List ClassItem → Prop
  | items {s : Str} {is : List ClassItem} (h : ItemsText s is) (hne : is ≠ []) : ClassText s is
  | minus {s : Str} {is : List ClassItem} (h : ItemsText s is) : ClassText ('-' :: s) (.one '-' :: is)

/-- it cannot match the empty text -/
def Rx.Solid (r : Rx) : Prop := ∀ digit, ¬ (r.toRegex digit).Lang []

/-- a number of at most three digits -/
def NumText (s : Str) (n : Nat) : Prop :=
  s ≠ [] ∧ s.length ≤ 3 ∧ (∀ c ∈ s, '0' ≤ c ∧ c ≤ '9') ∧ n = Nat.ofDigits 10 (s.reverse.map fun c => c.toNat - '0'.toNat)

/-- the bounds of a counted repetition -/
inductive CountText : Str → Nat → Option Nat → Prop
  | exactly {s : Str} {n : Nat} (h : NumText s n) : CountText s n (some n)
  | atLeast {s : Str} {n : Nat} (h : NumText s n) : CountText (s ++ [',']) n none
  | between {s t : Str} {n m : Nat} (h : NumText s n) (h' : NumText t m) (hnm : n ≤ m) :
      CountText (s ++ ',' :: t) n (some m)

mutual
/-- one or more alternatives -/
inductive AltsText (dotAll : Bool) : Str → Rx → Prop
  | one {s : Str} {r : Rx} (h : ConcatText dotAll s r) : AltsText dotAll s r
  | cons {s t : Str} {r q : Rx} (h : ConcatText dotAll s r) (hs : AltsText dotAll t q) :
      AltsText dotAll (s ++ '|' :: t) (.alt r q)
/-- any number of pieces -/
inductive ConcatText (dotAll : Bool) : Str → Rx → Prop
  | nil : ConcatText dotAll [] .nil
  | one {s : Str} {r : Rx} (h : PieceText dotAll s r) : ConcatText dotAll s r
  | cons {s t : Str} {r q : Rx} (h : PieceText dotAll s r) (ht : t ≠ []) (hs : ConcatText dotAll t q) :
      ConcatText dotAll (s ++ t) (.seq r q)
/-- an atom, possibly repeated -/
inductive PieceText (dotAll : Bool) : Str → Rx → Prop
  | plain {s : Str} {r : Rx} (h : AtomText dotAll s r) : PieceText dotAll s r
  | star {s : Str} {r : Rx} (h : AtomText dotAll s r) (hr : r.Solid) : PieceText dotAll (s ++ ['*']) (.star r)
  | lazyStar {s : Str} {r : Rx} (h : AtomText dotAll s r) (hr : r.Solid) :
      PieceText dotAll (s ++ ['*', '?']) (.lazyStar r)
  | plus {s : Str} {r : Rx} (h : AtomText dotAll s r) (hr : r.Solid) : PieceText dotAll (s ++ ['+']) (.plus r)
  | lazyPlus {s : Str} {r : Rx} (h : AtomText dotAll s r) (hr : r.Solid) :
      PieceText dotAll (s ++ ['+', '?']) (.seq r (.lazyStar r))
  | opt {s : Str} {r : Rx} (h : AtomText dotAll s r) : PieceText dotAll (s ++ ['?']) (.opt r)
  | lazyOpt {s : Str} {r : Rx} (h : AtomText dotAll s r) : PieceText dotAll (s ++ ['?', '?']) (.alt .nil r)
  | counted {s u : Str} {r : Rx} {lo : Nat} {hi : Option Nat} (h : AtomText dotAll s r) (hu : CountText u lo hi)
      (hr : hi = none → r.Solid) : PieceText dotAll (s ++ '{' :: (u ++ ['}'])) (r.counted lo hi true)
  | lazyCounted {s u : Str} {r : Rx} {lo : Nat} {hi : Option Nat} (h : AtomText dotAll s r) (hu : CountText u lo hi)
      (hr : hi = none → r.Solid) : PieceText dotAll (s ++ '{' :: (u ++ ['}', '?'])) (r.counted lo hi false)
/-- a character, an escape, a class or a group -/
inductive AtomText (dotAll : Bool) : Str → Rx → Prop
  | char {c : Char} (h : PlainChar c) : AtomText dotAll [c] (.one (.one c))
  | dot : AtomText dotAll ['.'] (.dot dotAll)
  | escape {s : Str} {i : ClassItem} (h : EscapeText s i) : AtomText dotAll ('\\' :: s) (.one i)
  | cls {s : Str} {is : List ClassItem} (h : ClassText s is) (hs : s.head? ≠ some '^') :
      AtomText dotAll ('[' :: (s ++ [']'])) (.cls false is)
  | negated {s : Str} {is : List ClassItem} (h : ClassText s is) :
      AtomText dotAll ('[' :: '^' :: (s ++ [']'])) (.cls true is)
  | group {s : Str} {r : Rx} (h : AltsText dotAll s r) : AtomText dotAll ('(' :: (s ++ [')'])) r
  | bare {s : Str} {r : Rx} (h : AltsText dotAll s r) : AtomText dotAll ('(' :: '?' :: ':' :: (s ++ [')'])) r
end

/-- alternatives with `^` -/
inductive BranchesText : Str → Pattern → Prop
  | plain {s : Str} {r : Rx} (h : ConcatText false s r) : BranchesText s [(false, r)]
  | anchored {s : Str} {r : Rx} (h : ConcatText false s r) : BranchesText ('^' :: s) [(true, r)]
  | plainCons {s t : Str} {r : Rx} {p : Pattern} (h : ConcatText false s r) (hs : BranchesText t p) :
      BranchesText (s ++ '|' :: t) ((false, r) :: p)
  | anchoredCons {s t : Str} {r : Rx} {p : Pattern} (h : ConcatText false s r) (hs : BranchesText t p) :
      BranchesText ('^' :: (s ++ '|' :: t)) ((true, r) :: p)

/-- patterns -/
inductive PatternText : Str → Pattern → Prop
  | branches {s : Str} {p : Pattern} (h : BranchesText s p) : PatternText s p
  | dotAll {s : Str} {r : Rx} (h : ConcatText true s r) : PatternText ('^' :: '(' :: '?' :: 's' :: ')' :: s) [(true, r)]

end Syntaxis
