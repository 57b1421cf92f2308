import Verif.Model.Basic

/-!
# Rust strings: byte lengths and slices

A Rust `&str` is UTF-8; offsets are byte offsets.  `Char.utf8Size` of Lean core is the number of
bytes of a scalar value in UTF-8.
-/

namespace Syntaxis

/-- `str::len`: number of UTF-8 bytes (`v1/syntaxis_lexer.rs:80-81,125`, `lexer_rule_visitor.rs:43,48`) -/
def byteLen : Str → Nat
  | [] => 0
  | c :: s => c.utf8Size + byteLen s

/-- `&s[n..]`: panics when `n` is out of range or not on a character boundary (`v1/syntaxis_lexer.rs:101,162`) -/
def dropBytes : Str → Nat → Res Str
  | s, 0 => .ok s
  | [], _ + 1 => .error .panic
  | c :: s, n + 1 => if n + 1 < c.utf8Size then .error .panic else dropBytes s (n + 1 - c.utf8Size)

/-- `&s[..n]`: panics when `n` is out of range or not on a character boundary
(for `slice`, `v1/syntaxis_lexer.rs:111`) -/
def takeBytes : Str → Nat → Res Str
  | _, 0 => .ok []
  | [], _ + 1 => .error .panic
  | c :: s, n + 1 =>
    if n + 1 < c.utf8Size then .error .panic
    else do
      let r ← takeBytes s (n + 1 - c.utf8Size)
      .ok (c :: r)

/-- `&s[a..b]`: panics unless `a ≤ b ≤ len` and both are character boundaries
(`v1/syntaxis_lexer.rs:111`, `lexer_rule_visitor.rs:48,85`) -/
def slice (s : Str) (a b : Nat) : Res Str := do
  let t ← dropBytes s a
  if b < a then .error .panic else takeBytes t (b - a)

/-- `str::split("\n")` collected: always at least one piece (`v1/syntaxis_lexer.rs:112`) -/
def splitLines : Str → List Str
  | [] => [[]]
  | c :: s =>
    if c = '\n' then [] :: splitLines s
    else
      match splitLines s with
      | [] => [[c]]
      | l :: ls => (c :: l) :: ls

/-- `str::replace` with a nonempty pattern: non-overlapping occurrences, left to right.  The first argument
counts the characters of the current occurrence still to be skipped
(`lexer_rule_visitor.rs:48,86-88`, `ast_drawer.rs:28`) -/
def replaceLoop (pat new : Str) : Nat → Str → Str
  | _, [] => []
  | skip + 1, _ :: s => replaceLoop pat new skip s
  | 0, c :: s =>
    if pat.isPrefixOf (c :: s) then new ++ replaceLoop pat new (pat.length - 1) s
    else c :: replaceLoop pat new 0 s

/-- `str::replace` (`lexer_rule_visitor.rs:48,86-88`, `ast_drawer.rs:28`) -/
def replace (s pat new : Str) : Str := replaceLoop pat new 0 s

end Syntaxis
