import Verif.Model.Regex

/-!
# `Regex::new`: from pattern texts to regexes

The `regex` crate is not part of the repository.  Its documented syntax (version 1.7, as required by
`Cargo.toml:9`) is modelled for a fragment that contains all patterns of the project and the ones a user is
likely to write: literals, escapes, also in the forms `\x41`, `\u0041`, `\U00000041`, `\x{41}`, `\u{41}`, `\U{41}`, `\d`, `\D`,
`\s`, `\S`, `.`, classes with ranges (but without classes or set operations inside), groups `( )` and `(?: )`, alternation, `*`, `+`,
`?`, `{n}`, `{n,}`, `{n,m}` with numbers of at most three digits, each of them greedy or (with `?` behind) lazy, `^` at
the beginning of a branch and `^(?s)` at the beginning of the pattern.  The crate's limits on the nesting of groups (250)
and on the size of the compiled program (10 MB) are not modelled.  `none` means that the text is not in the fragment: either it is not a regex at all (then the `unwrap` behind `Regex::new` panics) or it uses
other syntax.  As in `Model/Regex.lean`, `digit` is the class of `\d`.
-/

namespace Syntaxis

/-- members of a class.  For `Regex::new`, `v1/syntaxis_lexer.rs:46-59`, `lexer.tera:35`. -/
inductive ClassItem where
  | one (c : Char)
  | range (a b : Char)
  /-- `\d` -/
  | digit
  /-- `\D` -/
  | notDigit
  /-- `\s` -/
  | space
  /-- `\S` -/
  | notSpace
  deriving DecidableEq, Repr

/-- syntax trees of patterns.  For `Regex::new`, `v1/syntaxis_lexer.rs:46-59`, `lexer.tera:35`. -/
inductive Rx where
  | one (i : ClassItem)
  /-- `[…]`, negated: `[^…]` -/
  | cls (negated : Bool) (items : List ClassItem)
  /-- `.`; with the flag `s` it also matches the line feed -/
  | dot (dotAll : Bool)
  | nil
  | seq (r q : Rx)
  | alt (r q : Rx)
  | star (r : Rx)
  | lazyStar (r : Rx)
  | plus (r : Rx)
  | opt (r : Rx)
  deriving DecidableEq, Repr

/-- the characters with the Unicode property White_Space.  For `Regex::new`, `lexer.tera:35`. -/
def isUniSpace (c : Char) : Bool :=
  let n := c.toNat
  decide (9 ≤ n ∧ n ≤ 13) || n == 0x20 || n == 0x85 || n == 0xa0 || n == 0x1680 || decide (0x2000 ≤ n ∧ n ≤ 0x200a) ||
    n == 0x2028 || n == 0x2029 || n == 0x202f || n == 0x205f || n == 0x3000

/-- the characters of a member of a class.  For `Regex::new`, `v1/syntaxis_lexer.rs:46-59`, `lexer.tera:35`. -/
def ClassItem.has (digit : Char → Bool) : ClassItem → Char → Bool
  | .one c, d => d == c
  | .range a b, d => decide (a ≤ d ∧ d ≤ b)
  | .digit, d => digit d
  | .notDigit, d => !digit d
  | .space, d => isUniSpace d
  | .notSpace, d => !isUniSpace d

namespace Rx

/-- what a syntax tree stands for.  For `Regex::new`, `v1/syntaxis_lexer.rs:46-59`, `lexer.tera:35`. -/
def toRegex (digit : Char → Bool) : Rx → Regex
  | one i => .cls (i.has digit)
  | cls negated items => .cls fun d => negated != items.any fun i => i.has digit d
  | dot dotAll => .cls fun d => dotAll || d != '\n'
  | nil => .nil
  | seq r q => .seq (r.toRegex digit) (q.toRegex digit)
  | alt r q => .alt (r.toRegex digit) (q.toRegex digit)
  | star r => .star (r.toRegex digit)
  | lazyStar r => .lazyStar (r.toRegex digit)
  | plus r => .plus (r.toRegex digit)
  | opt r => .opt (r.toRegex digit)

/-- does it match the empty string?  For `Regex::new`, `v1/syntaxis_lexer.rs:46-59`, `lexer.tera:35`. -/
def nullable : Rx → Bool
  | one _ => false
  | cls _ _ => false
  | dot _ => false
  | nil => true
  | seq r q => r.nullable && q.nullable
  | alt r q => r.nullable || q.nullable
  | star _ => true
  | lazyStar _ => true
  | plus r => r.nullable
  | opt _ => true

/-- concatenation of several.  For `Regex::new`, `v1/syntaxis_lexer.rs:46-59`, `lexer.tera:35`. -/
def cat : List Rx → Rx
  | [] => .nil
  | [r] => r
  | r :: rs => .seq r (cat rs)

/-- alternation of several (at least one).  For `Regex::new`, `v1/syntaxis_lexer.rs:46-59`, `lexer.tera:35`. -/
def alts : List Rx → Rx
  | [] => .nil
  | [r] => r
  | r :: rs => .alt r (alts rs)

/-- `n` copies of `r` and then `q`.  For `Regex::new`, `v1/syntaxis_lexer.rs:46-59`, `lexer.tera:35`. -/
def copies (r : Rx) : Nat → Rx → Rx
  | 0, q => q
  | n + 1, q => .seq r (r.copies n q)

/-- at most `n` copies of `r`, as many as possible or (lazy) as few as possible.
For `Regex::new`, `v1/syntaxis_lexer.rs:46-59`, `lexer.tera:35`. -/
def upTo (greedy : Bool) (r : Rx) : Nat → Rx
  | 0 => .nil
  | n + 1 => if greedy then .opt (.seq r (r.upTo greedy n)) else .alt .nil (.seq r (r.upTo greedy n))

/-- `r{lo}`, `r{lo,}` (no upper bound) and `r{lo,hi}`, compiled as `lo` copies of `r` and then `r*` or nested `r?`.
For `Regex::new`, `v1/syntaxis_lexer.rs:46-59`, `lexer.tera:35`. -/
def counted (r : Rx) (lo : Nat) (hi : Option Nat) (greedy : Bool) : Rx :=
  r.copies lo <|
    match hi with
    | some hi => r.upTo greedy (hi - lo)
    | none => if greedy then .star r else .lazyStar r

end Rx

/-- a compiled pattern: the branches at the top level, each with a flag telling whether it begins with `^`.
For `Regex::new`, `v1/syntaxis_lexer.rs:46-59`, `lexer.tera:35`. -/
abbrev Pattern := List (Bool × Rx)

namespace RegexSyntax

/-- characters that do not stand for themselves outside a class (`]` and `}` do).
For `Regex::new`, `v1/syntaxis_lexer.rs:46-59`, `lexer.tera:35`. -/
def isMeta (c : Char) : Bool :=
  c == '\\' || c == '.' || c == '+' || c == '*' || c == '?' || c == '(' || c == ')' || c == '|' || c == '[' ||
    c == '{' || c == '^' || c == '$'

/-- characters that stand for themselves behind a backslash.
For `Regex::new`, `v1/syntaxis_lexer.rs:46-59`, `lexer.tera:35`. -/
def isEscapable (c : Char) : Bool :=
  isMeta c || c == ']' || c == '}' || c == '#' || c == '&' || c == '-' || c == '~'

/-- what `\c` stands for, inside and outside classes.
For `Regex::new`, `v1/syntaxis_lexer.rs:46-59`, `lexer.tera:35`. -/
def escape (c : Char) : Option ClassItem :=
  if isEscapable c then some (.one c)
  else if c = 'a' then some (.one '\x07')
  else if c = 'f' then some (.one '\x0c')
  else if c = 't' then some (.one '\t')
  else if c = 'n' then some (.one '\n')
  else if c = 'r' then some (.one '\r')
  else if c = 'v' then some (.one '\x0b')
  else if c = 'd' then some .digit
  else if c = 'D' then some .notDigit
  else if c = 's' then some .space
  else if c = 'S' then some .notSpace
  else none

/-- a hexadecimal digit.  For `Regex::new`, `v1/syntaxis_lexer.rs:46-59`, `lexer.tera:35`. -/
def isHexDigit (c : Char) : Bool :=
  decide ('0' ≤ c ∧ c ≤ '9') || decide ('a' ≤ c ∧ c ≤ 'f') || decide ('A' ≤ c ∧ c ≤ 'F')

/-- its value.  For `Regex::new`, `v1/syntaxis_lexer.rs:46-59`, `lexer.tera:35`. -/
def hexDigitVal (c : Char) : Nat :=
  if c ≤ '9' then c.toNat - '0'.toNat else if c ≤ 'F' then c.toNat - 'A'.toNat + 10 else c.toNat - 'a'.toNat + 10

/-- the character with a number that is written in hexadecimal digits.
For `Regex::new`, `v1/syntaxis_lexer.rs:46-59`, `lexer.tera:35`. -/
def hexChar (d : Str) : Option ClassItem :=
  if d.isEmpty || !d.all isHexDigit then none
  else
    let n := d.foldl (fun n c => 16 * n + hexDigitVal c) 0
    if n.isValidChar then some (.one (Char.ofNat n)) else none

/-- how many digits there are behind `\x`, `\u` and `\U`, if there are no braces.
For `Regex::new`, `v1/syntaxis_lexer.rs:46-59`, `lexer.tera:35`. -/
def hexLength (c : Char) : Option Nat :=
  if c = 'x' then some 2 else if c = 'u' then some 4 else if c = 'U' then some 8 else none

/-- `n` digits at the front, and the rest of the text.  For `Regex::new`, `v1/syntaxis_lexer.rs:46-59`, `lexer.tera:35`. -/
def hexFixed (n : Nat) (s : Str) : Option (ClassItem × Str) :=
  if s.length < n then none else (hexChar (s.take n)).map fun i => (i, s.drop n)

/-- digits up to a closing brace, and the rest of the text.  For `Regex::new`, `v1/syntaxis_lexer.rs:46-59`, `lexer.tera:35`. -/
def hexBraced (s : Str) : Option (ClassItem × Str) :=
  match s.dropWhile (· != '}') with
  | [] => none
  | _ :: t => (hexChar (s.takeWhile (· != '}'))).map fun i => (i, t)

/-- characters that do not stand for themselves (everywhere) inside a class.
For `Regex::new`, `v1/syntaxis_lexer.rs:46-59`, `lexer.tera:35`. -/
def isClassMeta (c : Char) : Bool := c == '\\' || c == '[' || c == ']' || c == '-'

/-- `&&` and `~~` are set operations (so is `--`).  For `Regex::new`, `v1/syntaxis_lexer.rs:46-59`, `lexer.tera:35`. -/
def isClassOp (c : Char) : Bool := c == '&' || c == '~'

/-- is `c` the next character?  For `Regex::new`, `v1/syntaxis_lexer.rs:46-59`, `lexer.tera:35`. -/
def peek (c : Char) (s : Str) : Bool := s.head? == some c

/-- the role of a character inside a class.  For `Regex::new`, `v1/syntaxis_lexer.rs:46-59`, `lexer.tera:35`. -/
inductive ClassKind where
  | close | back | special | plain
  deriving DecidableEq

/-- the role of a character inside a class.  For `Regex::new`, `v1/syntaxis_lexer.rs:46-59`, `lexer.tera:35`. -/
def classKind (c : Char) : ClassKind :=
  if c == ']' then .close else if c == '\\' then .back else if isClassMeta c then .special else .plain

/-- what stands behind a backslash, and the rest of the text.
For `Regex::new`, `v1/syntaxis_lexer.rs:46-59`, `lexer.tera:35`. -/
def escaped (s : Str) : Option (ClassItem × Str) :=
  match s with
  | [] => none
  | e :: s =>
    match hexLength e with
    | none => (escape e).map fun i => (i, s)
    | some n => if peek '{' s then hexBraced s.tail else hexFixed n s

/-- a character or an escape inside a class, and the rest of the text.
For `Regex::new`, `v1/syntaxis_lexer.rs:46-59`, `lexer.tera:35`. -/
def classPrim (s : Str) : Option (ClassItem × Str) :=
  match s with
  | [] => none
  | c :: s =>
    match classKind c with
    | .back => escaped s
    | .plain => some (.one c, s)
    | .close => none
    | .special => none

/-- a range behind its first character and the `-`, and the rest of the text; a range must not be reversed.
For `Regex::new`, `v1/syntaxis_lexer.rs:46-59`, `lexer.tera:35`. -/
def rangeTo (i : ClassItem) (s : Str) : Option (ClassItem × Str) :=
  match i, classPrim s with
  | .one a, some (.one b, s) => if a ≤ b then some (.range a b, s) else none
  | _, _ => none

/-- a member of a class, and the rest of the text; a `-` in front of the closing bracket stands for itself.
For `Regex::new`, `v1/syntaxis_lexer.rs:46-59`, `lexer.tera:35`. -/
def classMember (s : Str) : Option (ClassItem × Str) :=
  match classPrim s with
  | none => none
  | some (i, s) => if peek '-' s && !peek ']' s.tail then rangeTo i s.tail else some (i, s)

/-- what comes next inside a class: the end (`none`) or a member, and the rest of the text.
For `Regex::new`, `v1/syntaxis_lexer.rs:46-59`, `lexer.tera:35`. -/
def classNext (s : Str) : Option (Option ClassItem × Str) :=
  match s with
  | [] => none
  | c :: t =>
    if c == ']' then some (none, t)
    else if c == '-' && peek ']' t then some (some (.one '-'), t)
    else if isClassOp c && peek c t then none
    else (classMember s).map fun x => (some x.1, x.2)

/-- the members of a class up to the closing bracket.
For `Regex::new`, `v1/syntaxis_lexer.rs:46-59`, `lexer.tera:35`. -/
def classItems : Nat → Str → Option (List ClassItem × Str)
  | 0, _ => none
  | n + 1, s =>
    match classNext s with
    | none => none
    | some (none, s) => some ([], s)
    | some (some i, s) => (classItems n s).map fun x => (i :: x.1, x.2)

/-- a class behind its opening bracket; a `-` at its beginning stands for itself.
For `Regex::new`, `v1/syntaxis_lexer.rs:46-59`, `lexer.tera:35`. -/
def parseClass (s : Str) : Option (Rx × Str) :=
  let negated := peek '^' s
  let s := if negated then s.tail else s
  if peek ']' s then none
  else
    let minus := peek '-' s
    match classItems (s.length + 1) (if minus then s.tail else s) with
    | some (is, s) => some (.cls negated (if minus then .one '-' :: is else is), s)
    | none => none

/-- repetition operators.  For `Regex::new`, `v1/syntaxis_lexer.rs:46-59`, `lexer.tera:35`. -/
inductive Repeat where
  | star | lazyStar | plus | lazyPlus | opt | lazyOpt
  /-- `{lo}`, `{lo,}`, `{lo,hi}`, and the same with `?` behind -/
  | range (lo : Nat) (hi : Option Nat) (greedy : Bool)
  /-- a `{` that does not begin any of these -/
  | other
  deriving DecidableEq

/-- a decimal digit.  For `Regex::new`, `v1/syntaxis_lexer.rs:46-59`, `lexer.tera:35`. -/
def isCountDigit (c : Char) : Bool := decide ('0' ≤ c ∧ c ≤ '9')

/-- a number of at most three digits at the front, and the rest of the text.
For `Regex::new`, `v1/syntaxis_lexer.rs:46-59`, `lexer.tera:35`. -/
def countNum (s : Str) : Option (Nat × Str) :=
  let d := s.takeWhile isCountDigit
  if d.isEmpty || decide (3 < d.length) then none
  else some (d.foldl (fun n c => 10 * n + (c.toNat - '0'.toNat)) 0, s.dropWhile isCountDigit)

/-- the `?` behind a counted repetition, if there is one.  For `Regex::new`, `v1/syntaxis_lexer.rs:46-59`, `lexer.tera:35`. -/
def countEnd (lo : Nat) (hi : Option Nat) (t : Str) : Repeat × Str :=
  if peek '?' t then (.range lo hi false, t.tail) else (.range lo hi true, t)

/-- a counted repetition behind its `{`.  For `Regex::new`, `v1/syntaxis_lexer.rs:46-59`, `lexer.tera:35`. -/
def countedOp (s : Str) : Option (Repeat × Str) :=
  match countNum s with
  | none => none
  | some (lo, u) =>
    if peek '}' u then some (countEnd lo (some lo) u.tail)
    else if peek ',' u then
      if peek '}' u.tail then some (countEnd lo none u.tail.tail)
      else
        match countNum u.tail with
        | none => none
        | some (hi, v) => if peek '}' v && decide (lo ≤ hi) then some (countEnd lo (some hi) v.tail) else none
    else none

/-- the repetition operator at the front and what follows it.
For `Regex::new`, `v1/syntaxis_lexer.rs:46-59`, `lexer.tera:35`. -/
def repeatOp (s : Str) : Option (Repeat × Str) :=
  match s with
  | [] => none
  | c :: t =>
    if c == '*' then (if peek '?' t then some (.lazyStar, t.tail) else some (.star, t))
    else if c == '+' then (if peek '?' t then some (.lazyPlus, t.tail) else some (.plus, t))
    else if c == '?' then (if peek '?' t then some (.lazyOpt, t.tail) else some (.opt, t))
    else if c == '{' then some ((countedOp t).getD (.other, t))
    else none

/-- a repetition operator behind `r`, if there is one; `r+?` is `rr*?`, and `r??` prefers nothing.  Unbounded repetitions
of nullable regexes are outside the fragment (see `Regex.iterate`).  For `Regex::new`, `v1/syntaxis_lexer.rs:46-59`, `lexer.tera:35`. -/
def quantifier (r : Rx) (s : Str) : Option (Rx × Str) :=
  match repeatOp s with
  | none => some (r, s)
  | some (.star, t) => if r.nullable then none else some (.star r, t)
  | some (.lazyStar, t) => if r.nullable then none else some (.lazyStar r, t)
  | some (.plus, t) => if r.nullable then none else some (.plus r, t)
  | some (.lazyPlus, t) => if r.nullable then none else some (.seq r (.lazyStar r), t)
  | some (.opt, t) => some (.opt r, t)
  | some (.lazyOpt, t) => some (.alt .nil r, t)
  | some (.range lo hi greedy, t) => if hi.isNone && r.nullable then none else some (r.counted lo hi greedy, t)
  | some (.other, _) => none

/-- the role of a character outside classes.  For `Regex::new`, `v1/syntaxis_lexer.rs:46-59`, `lexer.tera:35`. -/
inductive AtomKind where
  | bracket | dot | back | special | plain
  deriving DecidableEq

/-- the role of a character outside classes.  For `Regex::new`, `v1/syntaxis_lexer.rs:46-59`, `lexer.tera:35`. -/
def atomKind (c : Char) : AtomKind :=
  if c == '[' then .bracket else if c == '.' then .dot else if c == '\\' then .back
  else if isMeta c then .special else .plain

/-- a regex that is neither a group nor repeated, from the role of its first character, and the rest of the
text.  For `Regex::new`, `v1/syntaxis_lexer.rs:46-59`, `lexer.tera:35`. -/
def singleOf (dotAll : Bool) (c : Char) (s : Str) : AtomKind → Option (Rx × Str)
  | .bracket => parseClass s
  | .dot => some (.dot dotAll, s)
  | .back => (escaped s).map fun x => (.one x.1, x.2)
  | .special => none
  | .plain => some (.one (.one c), s)

/-- a regex that is neither a group nor repeated, and the rest of the text.
For `Regex::new`, `v1/syntaxis_lexer.rs:46-59`, `lexer.tera:35`. -/
def single (dotAll : Bool) (s : Str) : Option (Rx × Str) :=
  match s with
  | [] => none
  | c :: s => singleOf dotAll c s (atomKind c)

/-- is this the end of a branch: the end of the text, a `|` or an unmatched `)`?
For `Regex::new`, `v1/syntaxis_lexer.rs:46-59`, `lexer.tera:35`. -/
def branchEnd (s : Str) : Bool := s.isEmpty || peek '|' s || peek ')' s

/-- the text of a group behind `(` or `(?:`; other groups with `?` are outside the fragment.
For `Regex::new`, `v1/syntaxis_lexer.rs:46-59`, `lexer.tera:35`. -/
def groupStart (s : Str) : Option Str :=
  if peek '?' s then if peek ':' s.tail then some s.tail.tail else none else some s

mutual
/-- the branches `a|b|…` up to the end or an unmatched `)`.
For `Regex::new`, `v1/syntaxis_lexer.rs:46-59`, `lexer.tera:35`. -/
def parseAlts (dotAll : Bool) : Nat → Str → Option (List Rx × Str)
  | 0, _ => none
  | n + 1, s =>
    match parseConcat dotAll n s with
    | none => none
    | some (r, s) =>
      if peek '|' s then
        match parseAlts dotAll n s.tail with
        | none => none
        | some (rs, s) => some (.cat r :: rs, s)
      else some ([.cat r], s)
/-- one branch: the concatenated regexes up to the end, a `|` or an unmatched `)`.
For `Regex::new`, `v1/syntaxis_lexer.rs:46-59`, `lexer.tera:35`. -/
def parseConcat (dotAll : Bool) : Nat → Str → Option (List Rx × Str)
  | 0, _ => none
  | n + 1, s =>
    if branchEnd s then some ([], s)
    else
      match parseAtom dotAll n s with
      | none => none
      | some (r, s) =>
        match quantifier r s with
        | none => none
        | some (r, s) =>
          match parseConcat dotAll n s with
          | none => none
          | some (rs, s) => some (r :: rs, s)
/-- one regex without repetition operator.  For `Regex::new`, `v1/syntaxis_lexer.rs:46-59`, `lexer.tera:35`. -/
def parseAtom (dotAll : Bool) : Nat → Str → Option (Rx × Str)
  | 0, _ => none
  | n + 1, s =>
    if peek '(' s then
      match groupStart s.tail with
      | none => none
      | some s =>
        match parseAlts dotAll n s with
        | none => none
        | some (rs, s) => if peek ')' s then some (.alts rs, s.tail) else none
    else single dotAll s
end

/-- fuel that suffices for a text.  For `Regex::new`, `v1/syntaxis_lexer.rs:46-59`, `lexer.tera:35`. -/
def fuelFor (s : Str) : Nat := 3 * s.length + 3

/-- a whole text read as a regex, without anchors.
For `Regex::new`, `v1/syntaxis_lexer.rs:46-59`, `lexer.tera:35`. -/
def parse (s : Str) : Option Rx :=
  match parseAlts false (fuelFor s) s with
  | some (rs, []) => some (.alts rs)
  | _ => none

/-- the branches at the top level.  For `Regex::new`, `v1/syntaxis_lexer.rs:46-59`, `lexer.tera:35`. -/
def parseBranches : Nat → Str → Option Pattern
  | 0, _ => none
  | n + 1, s =>
    let anchored := peek '^' s
    let s := if anchored then s.tail else s
    match parseConcat false (fuelFor s) s with
    | none => none
    | some (r, s) =>
      if peek '|' s then
        match parseBranches n s.tail with
        | some bs => some ((anchored, .cat r) :: bs)
        | none => none
      else if s.isEmpty then some [(anchored, .cat r)]
      else none

/-- `Regex::new` (`v1/syntaxis_lexer.rs:46-59`, `syntaxis/syntaxis_lexer.rs:50-70`, `lexer.tera:35`) -/
def compile (s : Str) : Option Pattern :=
  if s.take 5 = ['^', '(', '?', 's', ')'] then
    match parseConcat true (fuelFor s) (s.drop 5) with
    | some (r, []) => some [(true, .cat r)]
    | _ => none
  else parseBranches (s.length + 1) s

end RegexSyntax

namespace Pattern

/-- the preferred match that starts here: remainders of the branches in order; branches with `^` count at the
beginning of the text only.  For `find_at`, `v1/syntaxis_lexer.rs:101`. -/
def matchHere (digit : Char → Bool) (p : Pattern) (start : Bool) (s : Str) : Option Str :=
  (p.flatMap fun b => if b.1 && !start then [] else (b.2.toRegex digit).run s).head?

/-- the remainder behind the leftmost match; `start` tells whether this is the beginning of the text.
For `find_at`, `v1/syntaxis_lexer.rs:101`. -/
def search (digit : Char → Bool) (p : Pattern) : Bool → Str → Option Str
  | start, [] => p.matchHere digit start []
  | start, c :: s =>
    match p.matchHere digit start (c :: s) with
    | some rest => some rest
    | none => p.search digit false s

/-- `Regex::find_at(haystack, 0)` and `Match::end` for patterns that need not be anchored
(`v1/syntaxis_lexer.rs:101-104`) -/
def find (digit : Char → Bool) (p : Pattern) : Matcher :=
  fun s => (p.search digit true s).map fun rest => byteLen s - byteLen rest

end Pattern

/-- `lexer.tera:28-34`, `v1/syntaxis_lexer.rs:42-61`: `Regex::new(s).unwrap()` as used by the scanner.  For texts
outside the fragment the value is arbitrary (nothing is matched); the theorems assume that `compile` succeeds. -/
def toMatcher (digit : Char → Bool) (s : Str) : Matcher :=
  match RegexSyntax.compile s with
  | some p => Pattern.find digit p
  | none => fun _ => none

/-- `v1/syntaxis_lexer.rs:42-61`: the pattern texts -/
def V1.patterns : List Str :=
  [ "^([a-z][a-zA-Z0-9_]+)",
    "^([A-Z][a-zA-Z0-9_]+)",
    "^(::=|:=|->|=>|:|=)",
    "^(;)",
    "^(\\|)",
    "^(ε|epsilon)",
    "^(\\*)",
    "^(\\+)",
    "^(\\?)",
    "^(\\()",
    "^(\\))",
    "^('([^\\a\\d\\n\\r\\t\\f\\v\\\\']|(\\\\\\\\|\\\\'|\\\\a|\\\\d|\\\\n|\\\\r|\\\\t|\\\\f|\\\\v|\\\\u\\{(0x|0)?[a-f0-9]+\\})|\\d)*')",
    "^(/(\\\\/|[^/])+/)",
    "^([ \\r\\n\\t\\f]+)" ].map String.toList

/-- `syntaxis/syntaxis_lexer.rs:48-71`: the pattern texts -/
def Old.patterns : List Str :=
  [ "^//.*?\\n",
    "^(?s)/\\*.*?\\*/",
    "^[ \\t\\r\\n]+",
    "^fragment",
    "^[A-Z][a-zA-Z0-9_]+",
    "^[a-z][a-zA-Z0-9_]+",
    "^(::=|:=|->|=>|:|=)",
    "^\\|",
    "^;",
    "^\\*",
    "^\\+",
    "^\\?",
    "^\\.",
    "^\\~",
    "^\\(",
    "^\\)",
    "^#",
    "^'((\\\\\\\\|\\\\'|\\\\a|\\\\d|\\\\n|\\\\r|\\\\t|\\\\f|\\\\v|\\\\u\\{(0x|0)?[a-f0-9]+\\})|\\d|[^\\a\\d\\n\\r\\t\\f\\v\\\\'])*'",
    "^\\.\\.",
    "^/(\\\\/|[^/])+/",
    "^(ε|epsilon)" ].map String.toList

end Syntaxis
