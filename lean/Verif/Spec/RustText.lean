import Verif.Model.Basic

/-!
# Specification: how Rust reads a source text

The lexical structure of Rust as far as generated lexers use it: white space, line comments, words
(identifiers, keywords, numbers), string literals with simple escapes, raw string literals, and single
punctuation characters.  Block comments, byte strings and character literals are not covered: where one begins
the reading fails (block comments) or does not mean what it means in Rust; the template contains none.
-/

namespace Syntaxis.Rust

/-- tokens; `::` and `->` count as two -/
inductive Tok where
  | word (w : Str)
  | lit (s : Str)
  | punct (c : Char)
  deriving DecidableEq, Repr

/-- where the reader is -/
inductive Mode where
  /-- in code; `w` is the word being read, possibly empty -/
  | code (w : Str)
  /-- after a slash -/
  | slash
  /-- in a line comment -/
  | comment
  /-- in a string literal, `s` read so far -/
  | str (s : Str)
  /-- after a backslash in a string literal -/
  | esc (s : Str)
  /-- after `r` and `n` hashes -/
  | hashes (n : Nat)
  /-- in a raw string literal with `n` hashes -/
  | raw (n : Nat) (s : Str)
  /-- in a raw string literal after a quote and `k` hashes -/
  | rawEnd (n : Nat) (s : Str) (k : Nat)
  | bad
  deriving DecidableEq, Repr

/-- characters of words -/
def isWord (c : Char) : Bool := c.isAlphanum || c == '_'

/-- white space (the ASCII part) -/
def isSpace (c : Char) : Bool := c == ' ' || c == '\n' || c == '\t' || c == '\r'

/-- the word read so far, if there is one -/
def flush (w : Str) : List Tok := if w = [] then [] else [.word w]

/-- a character of code that does not belong to a word -/
def codeStep (c : Char) : List Tok × Mode :=
  if isSpace c then ([], .code [])
  else if c = '/' then ([], .slash)
  else if c = '"' then ([], .str [])
  else ([.punct c], .code [])

/-- one character -/
def step : Mode → Char → List Tok × Mode
  | .code w, c =>
    if isWord c then ([], .code (w ++ [c]))
    else if w = ['r'] ∧ c = '"' then ([], .raw 0 [])
    else if w = ['r'] ∧ c = '#' then ([], .hashes 1)
    else (flush w ++ (codeStep c).1, (codeStep c).2)
  | .slash, c =>
    if c = '/' then ([], .comment)
    else if c = '*' then ([], .bad)
    else if isWord c then ([.punct '/'], .code [c])
    else (.punct '/' :: (codeStep c).1, (codeStep c).2)
  | .comment, c => if c = '\n' then ([], .code []) else ([], .comment)
  | .str s, c => if c = '"' then ([.lit s], .code []) else if c = '\\' then ([], .esc s) else ([], .str (s ++ [c]))
  | .esc s, c =>
    if c = 'n' then ([], .str (s ++ ['\n'])) else if c = 't' then ([], .str (s ++ ['\t']))
    else if c = 'r' then ([], .str (s ++ ['\r'])) else if c = '0' then ([], .str (s ++ ['\x00']))
    else if c = '\\' ∨ c = '"' ∨ c = '\'' then ([], .str (s ++ [c])) else ([], .bad)
  | .hashes n, c => if c = '#' then ([], .hashes (n + 1)) else if c = '"' then ([], .raw n []) else ([], .bad)
  | .raw n s, c =>
    if c = '"' then if n = 0 then ([.lit s], .code []) else ([], .rawEnd n s 0)
    else if c = '\r' then ([], .bad) else ([], .raw n (s ++ [c]))
  | .rawEnd n s k, c =>
    if c = '#' then if k + 1 = n then ([.lit s], .code []) else ([], .rawEnd n s (k + 1))
    else if c = '"' then ([], .rawEnd n (s ++ '"' :: List.replicate k '#') 0)
    else if c = '\r' then ([], .bad) else ([], .raw n (s ++ '"' :: List.replicate k '#' ++ [c]))
  | .bad, _ => ([], .bad)

/-- reading from a given mode: the tokens and the mode at the end -/
def readFrom : Mode → Str → List Tok × Mode
  | m, [] => ([], m)
  | m, c :: s => ((step m c).1 ++ (readFrom (step m c).2 s).1, (readFrom (step m c).2 s).2)

/-- line ends are normalised before anything else: carriage return, line feed is a line feed -/
def normalise : Str → Str
  | [] => []
  | '\r' :: '\n' :: s => '\n' :: normalise s
  | c :: s => c :: normalise s

/-- the tokens of a source text; `none` if it is not lexically correct -/
def tokens (src : Str) : Option (List Tok) :=
  match readFrom (.code []) (normalise src) with
  | (ts, .code w) => some (ts ++ flush w)
  | (ts, .comment) => some ts
  | _ => none

/-- the values of the string literals, in order -/
def literals (ts : List Tok) : List Str :=
  ts.filterMap fun
    | .lit s => some s
    | _ => none

/-- the constant declared by `const X: usize = N;` at the beginning of the tokens -/
def declaration : List Tok → Option (Str × Str)
  | .word k :: .word x :: .punct c :: .word t :: .punct e :: .word n :: .punct s :: _ =>
    if k = "const".toList ∧ c = ':' ∧ t = "usize".toList ∧ e = '=' ∧ s = ';' then some (x, n) else none
  | _ => none

/-- the constants `const X: usize = N;` declared, in order -/
def constants : List Tok → List (Str × Str)
  | [] => []
  | t :: ts => (declaration (t :: ts)).toList ++ constants ts

/-- the constant `X` of the lexer is mentioned, as `…Lexer::X` -/
def mentions (x : Str) (ts : List Tok) : Prop :=
  ∃ a b l, ts = a ++ .word l :: .punct ':' :: .punct ':' :: .word x :: b ∧ "Lexer".toList <:+ l

/-- `let x = vec![item, …, item,];` -/
def vector (x : Str) (items : List (List Tok)) : List Tok :=
  [.word "let".toList, .word x, .punct '=', .word "vec".toList, .punct '!', .punct '['] ++
    items.flatMap (fun i => i ++ [.punct ',']) ++ [.punct ']', .punct ';']

/-- `Regex::new(s).unwrap()` -/
def regexNew (s : Str) : List Tok :=
  [.word "Regex".toList, .punct ':', .punct ':', .word "new".toList, .punct '(', .lit s, .punct ')',
    .punct '.', .word "unwrap".toList, .punct '(', .punct ')']

end Syntaxis.Rust
