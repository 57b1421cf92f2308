import Verif.Model.Ast
import Verif.Model.Str

/-!
# The lexers

`tool/v1/syntaxis_lexer.rs`, the generated lexers of `tool/templates/target/rust/lexer.tera` (the same
code) and the first lexer `tool/syntaxis/syntaxis_lexer.rs`.
-/

namespace Syntaxis

/-- A compiled `regex::Regex` as used here: `find_at(haystack, 0)` reports the byte offset `end()` of
the match, if there is one.  All regexes of the project begin with `^`, so a match starts at 0
(`v1/syntaxis_lexer.rs:101-104`, `syntaxis/syntaxis_lexer.rs:95-98`) -/
abbrev Matcher := Str → Option Nat

/-- `v1/syntaxis_lexer.rs:8-15`, `struct SyntaxisLexer`. -/
structure Lexer where
  input : Str
  cursor : Nat
  regexList : List Matcher
  tokenNames : List Str
  tokenIndex : Nat
  position : Position

namespace Lexer

/-- `v1/syntaxis_lexer.rs:41-70`: `new`; the regexes and names of the lexer are parameters. -/
def new (regexList : List Matcher) (tokenNames : List Str) (input : Str) : Lexer :=
  { input, cursor := 0, regexList, tokenNames, tokenIndex := 0, position := ⟨0, 0⟩ }

/-- `v1/syntaxis_lexer.rs:100-108`: the loop over the regexes; `i` is the index of the first one of the
list, `len` and `tokenType` are the loop variables. -/
def longest (rest : Str) : List Matcher → Nat → Nat → Nat → Nat × Nat
  | [], _, len, tokenType => (len, tokenType)
  | m :: ms, i, len, tokenType =>
    match m rest with
    | some e => if e > len then longest rest ms (i + 1) e (i + 2) else longest rest ms (i + 1) len tokenType
    | none => longest rest ms (i + 1) len tokenType

/-- `v1/syntaxis_lexer.rs:112-127`: the position after `text` (of `len` bytes). -/
def newPos (position : Position) (text : Str) (len : Nat) : Position :=
  let lines := splitLines text
  if lines.length ≤ 1 then ⟨position.line, position.charPosition + len⟩
  else ⟨position.line + lines.length - 1, byteLen (lines.getLast?.getD [])⟩

/-- `v1/syntaxis_lexer.rs:97-148`, `syntaxis/syntaxis_lexer.rs:91-143`: one token; `none` is `Err`. -/
def scanToken (l : Lexer) : Res (Option Token × Lexer) := do
  let rest ← dropBytes l.input l.cursor
  let (len, tokenType) := longest rest l.regexList 0 0 0
  if tokenType = 0 then .ok (none, l)
  else do
    let text ← slice l.input l.cursor (l.cursor + len)
    let np := newPos l.position text len
    let tokenName ← unwrap l.tokenNames[tokenType]?
    .ok (some {
          tokenType, tokenName, start := l.position, stop := np, channel := 0, text,
          tokenIndex := l.tokenIndex, charStartIndex := l.cursor, charStopIndex := l.cursor + len },
        { l with cursor := l.cursor + len, tokenIndex := l.tokenIndex + 1, position := np })

/-- `v1/syntaxis_lexer.rs:79-150`, `lexer.tera` `scan`: the end token, or one token. -/
def scan (l : Lexer) : Res (Option Token × Lexer) :=
  if l.cursor > byteLen l.input then .ok (none, l)
  else if l.cursor ≥ byteLen l.input then
    let l' := { l with cursor := l.cursor + 10 }
    .ok (some {
          tokenType := 1, tokenName := "_STOP".toList, start := l.position, stop := l.position,
          channel := 0, text := "_STOP".toList, tokenIndex := l.tokenIndex,
          charStartIndex := l'.cursor, charStopIndex := l'.cursor }, l')
  else l.scanToken

/-- `syntaxis/syntaxis_lexer.rs:90-144`, `scan` of the first lexer: no end token. -/
def scanOld (l : Lexer) : Res (Option Token × Lexer) := l.scanToken

/-- `v1/syntaxis_lexer.rs:154-159`: the loop of `scan_all_on_channel_tokens`; `scan` is the scan function
of the lexer, `skip` tells the token types it drops. -/
def scanLoop (scan : Lexer → Res (Option Token × Lexer)) (skip : Nat → Bool) (channel : Nat) :
    Nat → List Token → Lexer → Res (List Token × Lexer)
  | 0, _, _ => .error .fuel
  | fuel + 1, result, l => do
    let (t, l') ← scan l
    match t with
    | none => .ok (result, l')
    | some token =>
      if skip token.tokenType then scanLoop scan skip channel fuel result l'
      else if token.channel = channel then scanLoop scan skip channel fuel (result ++ [token]) l'
      else scanLoop scan skip channel fuel result l'

/-- `v1/syntaxis_lexer.rs:152-166`, `lexer.tera`: `scan_all_on_channel_tokens`; the second component is
the line printed, if any.  `whiteSpace` is the constant `WHITE_SPACE`. -/
def scanAll (whiteSpace channel fuel : Nat) (l : Lexer) : Res (List Token × Option Str × Lexer) := do
  let (result, l) ← scanLoop scan (· == whiteSpace) channel fuel [] l
  if l.cursor < byteLen l.input then do
    let rest ← dropBytes l.input l.cursor
    .ok (result, some rest, l)
  else .ok (result, none, l)

/-- `syntaxis/syntaxis_lexer.rs:146-157`: the first lexer drops types 2, 3, 4 and always prints. -/
def scanAllOld (channel fuel : Nat) (l : Lexer) : Res (List Token × Str × Lexer) := do
  let (result, l) ← scanLoop scanOld (fun t => t == 2 || t == 3 || t == 4) channel fuel [] l
  let rest ← dropBytes l.input l.cursor
  .ok (result, rest, l)

end Lexer
end Syntaxis
