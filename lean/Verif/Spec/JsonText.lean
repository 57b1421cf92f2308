import Verif.Model.SerdeAst

/-!
# JSON texts (RFC 8259)

Which texts stand for which JSON value.  `fin t` says that the number with the text `t` is in the range of the floating
point numbers.
-/

namespace Syntaxis
namespace JsonSpec

/-- white space only -/
def Blank (s : Str) : Prop := ∀ c ∈ s, c = ' ' ∨ c = '\n' ∨ c = '\t' ∨ c = '\r'

/-- `c` is the hexadecimal digit `n` -/
def HexDigit (c : Char) (n : Nat) : Prop :=
  (n < 10 ∧ c.toNat = '0'.toNat + n) ∨
  (10 ≤ n ∧ n < 16 ∧ (c.toNat + 10 = 'a'.toNat + n ∨ c.toNat + 10 = 'A'.toNat + n))

/-- `t` is `n` in four hexadecimal digits -/
def Hex (n : Nat) (t : Str) : Prop :=
  ∃ a b c d i j k l, t = [a, b, c, d] ∧ HexDigit a i ∧ HexDigit b j ∧ HexDigit c k ∧ HexDigit d l ∧
    n = 4096 * i + 256 * j + 16 * k + l

/-- the ways to write a character inside a string -/
inductive CharText : Char → Str → Prop
  | plain (c) (h : 32 ≤ c.toNat) (hq : c ≠ '"') (hb : c ≠ '\\') : CharText c [c]
  | quote : CharText '"' ['\\', '"']
  | backslash : CharText '\\' ['\\', '\\']
  | slash : CharText '/' ['\\', '/']
  | backspace : CharText (Char.ofNat 8) ['\\', 'b']
  | formFeed : CharText (Char.ofNat 12) ['\\', 'f']
  | lineFeed : CharText '\n' ['\\', 'n']
  | return : CharText '\r' ['\\', 'r']
  | tab : CharText '\t' ['\\', 't']
  | code (c t) (h : Hex c.toNat t) : CharText c ('\\' :: 'u' :: t)
  | pair (c t u h l) (hh : h < 1024) (hl : l < 1024) (hc : c.toNat = 0x10000 + 1024 * h + l)
      (ht : Hex (0xD800 + h) t) (hu : Hex (0xDC00 + l) u) :
      CharText c ('\\' :: 'u' :: t ++ '\\' :: 'u' :: u)

/-- a string up to and with the closing quote -/
inductive Chars : Str → Str → Prop
  | nil : Chars [] ['"']
  | cons {c t s u} (h : CharText c t) (hs : Chars s u) : Chars (c :: s) (t ++ u)

/-- decimal digits -/
def Digits (t : Str) : Prop := t ≠ [] ∧ ∀ c ∈ t, '0'.toNat ≤ c.toNat ∧ c.toNat ≤ '9'.toNat

/-- the number written with decimal digits -/
def digitsValue : Str → Nat
  | [] => 0
  | c :: t => (c.toNat - '0'.toNat) * 10 ^ t.length + digitsValue t

/-- digits without superfluous zeros in front -/
def Int (t : Str) : Prop := Digits t ∧ (t = ['0'] ∨ t.head? ≠ some '0')

/-- a fraction, possibly empty -/
def Fraction (t : Str) : Prop := t = [] ∨ ∃ ds, Digits ds ∧ t = '.' :: ds

/-- an exponent, possibly empty -/
def Exponent (t : Str) : Prop :=
  t = [] ∨ ∃ e sign ds, (e = 'e' ∨ e = 'E') ∧ (sign = [] ∨ sign = ['+'] ∨ sign = ['-']) ∧ Digits ds ∧
    t = e :: (sign ++ ds)

/-- the values that are not arrays or objects -/
inductive Scalar (fin : Str → Bool) : Json → Str → Prop
  | null : Scalar fin .null ['n', 'u', 'l', 'l']
  | true : Scalar fin (.bool true) ['t', 'r', 'u', 'e']
  | false : Scalar fin (.bool false) ['f', 'a', 'l', 's', 'e']
  | str {s t} (h : Chars s t) : Scalar fin (.str s) ('"' :: t)
  | posInt {t} (h : Int t) (hr : digitsValue t < 2 ^ 64) : Scalar fin (.posInt (digitsValue t)) t
  | negInt {t} (h : Int t) (h0 : digitsValue t ≠ 0) (hr : digitsValue t ≤ 2 ^ 63) :
      Scalar fin (.negInt (digitsValue t)) ('-' :: t)
  | bigPos {t} (h : Int t) (hr : 2 ^ 64 ≤ digitsValue t) (hf : fin t = true) : Scalar fin .float t
  | bigNeg {t} (h : Int t) (hr : digitsValue t = 0 ∨ 2 ^ 63 < digitsValue t) (hf : fin ('-' :: t) = true) :
      Scalar fin .float ('-' :: t)
  | float {sign t f e} (hs : sign = [] ∨ sign = ['-']) (h : Int t) (hf : Fraction f) (he : Exponent e)
      (hn : f ++ e ≠ []) (hr : fin (sign ++ t ++ f ++ e) = true) : Scalar fin .float (sign ++ t ++ f ++ e)

/-- one or more values separated by commas, and the closing bracket -/
inductive Elems (value : Json → Str → Prop) : List Json → Str → Prop
  | last {v a t b} (ha : Blank a) (h : value v t) (hb : Blank b) : Elems value [v] (a ++ t ++ b ++ [']'])
  | cons {v a t b vs u} (ha : Blank a) (h : value v t) (hb : Blank b) (hs : Elems value vs u) :
      Elems value (v :: vs) (a ++ t ++ b ++ ',' :: u)

/-- a key, a colon and a value, with white space before, between and behind -/
inductive Member (value : Json → Str → Prop) : Str × Json → Str → Prop
  | mk {k v a t b c u d} (ha : Blank a) (hk : Chars k t) (hb : Blank b) (hc : Blank c) (h : value v u)
      (hd : Blank d) : Member value (k, v) (a ++ '"' :: t ++ b ++ ':' :: c ++ u ++ d)

/-- one or more members separated by commas, and the closing brace -/
inductive Members (value : Json → Str → Prop) : List (Str × Json) → Str → Prop
  | last {kv t} (h : Member value kv t) : Members value [kv] (t ++ ['}'])
  | cons {kv t kvs u} (h : Member value kv t) (hs : Members value kvs u) :
      Members value (kv :: kvs) (t ++ ',' :: u)

/-- the entries that count: of several entries with one key the last -/
def lastWins : List (Str × Json) → List (Str × Json)
  | [] => []
  | kv :: kvs => if kv.1 ∈ kvs.map Prod.fst then lastWins kvs else kv :: lastWins kvs

/-- `t` is a JSON text for `v` with at most `n` brackets open at a time -/
def Text (fin : Str → Bool) : Nat → Json → Str → Prop
  | 0, v, t => Scalar fin v t
  | n + 1, v, t => Scalar fin v t ∨
      (∃ a, Blank a ∧ v = .arr [] ∧ t = '[' :: a ++ [']']) ∨
      (∃ vs u, Elems (Text fin n) vs u ∧ v = .arr vs ∧ t = '[' :: u) ∨
      (∃ a, Blank a ∧ v = .obj [] ∧ t = '{' :: a ++ ['}']) ∨
      (∃ kvs u, Members (Text fin n) kvs u ∧ v = .obj (lastWins kvs) ∧ t = '{' :: u)

end JsonSpec

/-! ## limits -/

mutual
/-- how many brackets of the value are open at a time -/
def Json.nesting : Json → Nat
  | .arr vs => Json.nestingList vs + 1
  | .obj kvs => Json.nestingMembers kvs + 1
  | .null => 0
  | .bool _ => 0
  | .posInt _ => 0
  | .negInt _ => 0
  | .float => 0
  | .str _ => 0
def Json.nestingList : List Json → Nat
  | [] => 0
  | v :: vs => max v.nesting (Json.nestingList vs)
def Json.nestingMembers : List (Str × Json) → Nat
  | [] => 0
  | (_, v) :: kvs => max v.nesting (Json.nestingMembers kvs)
end

mutual
/-- numbers in range, no floating point numbers, one entry per key -/
def Json.Writable : Json → Prop
  | .arr vs => Json.WritableList vs
  | .obj kvs => Json.WritableMembers kvs
  | .null => True
  | .bool _ => True
  | .posInt n => n < 2 ^ 64
  | .negInt n => n ≠ 0 ∧ n ≤ 2 ^ 63
  | .float => False
  | .str _ => True
def Json.WritableList : List Json → Prop
  | [] => True
  | v :: vs => v.Writable ∧ Json.WritableList vs
def Json.WritableMembers : List (Str × Json) → Prop
  | [] => True
  | (k, v) :: kvs => k ∉ kvs.map Prod.fst ∧ v.Writable ∧ Json.WritableMembers kvs
end

namespace JsonSpec

/-! ## one way to write a value: with one entry per line and two spaces per level -/

/-- a number in decimal -/
def writeNat : Nat → Nat → Str
  | 0, _ => []
  | fuel + 1, n => if n < 10 then [Char.ofNat (48 + n)] else writeNat fuel (n / 10) ++ [Char.ofNat (48 + n % 10)]

/-- the hexadecimal digit of `n` -/
def hexChar (n : Nat) : Char := if n < 10 then Char.ofNat (48 + n) else Char.ofNat (87 + n)

/-- a character inside a string -/
def writeChar (c : Char) : Str :=
  if c = '"' then ['\\', '"'] else if c = '\\' then ['\\', '\\'] else if c = '\n' then ['\\', 'n']
  else if c = '\r' then ['\\', 'r'] else if c = '\t' then ['\\', 't']
  else if c.toNat < 32 then ['\\', 'u', '0', '0', hexChar (c.toNat / 16), hexChar (c.toNat % 16)]
  else [c]

/-- a string, up to and with the closing quote -/
def writeChars : Str → Str
  | [] => ['"']
  | c :: s => writeChar c ++ writeChars s

/-- a new line at a level -/
def newLine (k : Nat) : Str := '\n' :: List.replicate (2 * k) ' '

mutual
/-- a value at a level -/
def write (k : Nat) : Json → Str
  | .null => ['n', 'u', 'l', 'l']
  | .bool b => if b then ['t', 'r', 'u', 'e'] else ['f', 'a', 'l', 's', 'e']
  | .posInt n => writeNat (n + 1) n
  | .negInt n => '-' :: writeNat (n + 1) n
  | .float => ['0', '.', '0']
  | .str s => '"' :: writeChars s
  | .arr vs => '[' :: writeElems k vs
  | .obj kvs => '{' :: writeMembers k kvs
/-- the elements of an array at a level, and the closing bracket -/
def writeElems (k : Nat) : List Json → Str
  | [] => [']']
  | v :: vs => newLine (k + 1) ++ write (k + 1) v ++
      (if vs.isEmpty then newLine k ++ [']'] else ',' :: writeElems k vs)
/-- the members of an object at a level, and the closing brace -/
def writeMembers (k : Nat) : List (Str × Json) → Str
  | [] => ['}']
  | (key, v) :: kvs => newLine (k + 1) ++ '"' :: writeChars key ++ ':' :: ' ' :: write (k + 1) v ++
      (if kvs.isEmpty then newLine k ++ ['}'] else ',' :: writeMembers k kvs)
end

end JsonSpec
end Syntaxis
