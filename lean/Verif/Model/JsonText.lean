import Verif.Model.SerdeAst

/-!
# `serde_json::from_str`: reading a JSON text

`serde_ast::from_str` and `from_reader` (`tool/serde_ast/mod.rs:16-21,73-78`) hand the text to `serde_json` 1.0.94
(`Cargo.toml:11`, default features), which is not part of `/repo`.  This is its documented behaviour for
`serde_json::Value`, function by function after `serde_json/src/de.rs` and `read.rs`.  All errors are the same here: the
callers (`mod.rs:19,76`) drop them.  A text is a list of characters: input that is not UTF-8 (`from_reader`) is left out.

Whether a number that is not an integer of 64 bits fits into an `f64` (`NumberOutOfRange` otherwise) is left open: the
parameter `fin` decides by the text of the number.
-/

namespace Syntaxis
namespace JsonText

/-- `de.rs`, `parse_whitespace`.  Used by `serde_ast/mod.rs:17,74`. -/
def isBlank (c : Char) : Bool := c == ' ' || c == '\n' || c == '\t' || c == '\r'

/-- `de.rs`, `parse_whitespace`.  Used by `serde_ast/mod.rs:17,74`. -/
def skipBlank (s : Str) : Str := s.dropWhile isBlank

/-- `read.rs`, `decode_hex_val`.  Used by `serde_ast/mod.rs:17,74`. -/
def hexVal (c : Char) : Option Nat :=
  let n := c.toNat
  if 48 ≤ n && n ≤ 57 then some (n - 48)
  else if 97 ≤ n && n ≤ 102 then some (n - 87)
  else if 65 ≤ n && n ≤ 70 then some (n - 55)
  else none

/-- `read.rs`, `decode_hex_escape`: four hexadecimal digits.  Used by `serde_ast/mod.rs:17,74`. -/
def readHex : Str → Option (Nat × Str)
  | a :: b :: c :: d :: s => do
    let a ← hexVal a
    let b ← hexVal b
    let c ← hexVal c
    let d ← hexVal d
    some (((a * 16 + b) * 16 + c) * 16 + d, s)
  | _ => none

/-- `read.rs`, `parse_unicode_escape` behind `\u`.  Used by `serde_ast/mod.rs:17,74`. -/
def readUnicode (s : Str) : Option (Char × Str) := do
  let (n, s) ← readHex s
  if 0xDC00 ≤ n && n ≤ 0xDFFF then none
  else if 0xD800 ≤ n && n ≤ 0xDBFF then
    match s with
    | '\\' :: 'u' :: s => do
      let (m, s) ← readHex s
      if 0xDC00 ≤ m && m ≤ 0xDFFF then some (Char.ofNat ((n - 0xD800) * 1024 + (m - 0xDC00) + 0x10000), s)
      else none
    | _ => none
  else some (Char.ofNat n, s)

/-- `read.rs`, `parse_escape` behind a backslash.  Used by `serde_ast/mod.rs:17,74`. -/
def readEscape : Str → Option (Char × Str)
  | [] => none
  | c :: s =>
    if c = '"' then some ('"', s)
    else if c = '\\' then some ('\\', s)
    else if c = '/' then some ('/', s)
    else if c = 'b' then some (Char.ofNat 8, s)
    else if c = 'f' then some (Char.ofNat 12, s)
    else if c = 'n' then some (Char.ofNat 10, s)
    else if c = 'r' then some (Char.ofNat 13, s)
    else if c = 't' then some (Char.ofNat 9, s)
    else if c = 'u' then readUnicode s
    else none

/-- `read.rs`, `parse_str_bytes` behind the opening quote; the number bounds the characters read.
Used by `serde_ast/mod.rs:17,74`. -/
def readStr : Nat → Str → Option (Str × Str)
  | 0, _ => none
  | _ + 1, [] => none
  | n + 1, c :: s =>
    if c = '"' then some ([], s)
    else if c = '\\' then do
      let (c, s) ← readEscape s
      let (cs, s) ← readStr n s
      some (c :: cs, s)
    else if c.toNat < 32 then none
    else do
      let (cs, s) ← readStr n s
      some (c :: cs, s)

/-- a decimal digit.  Used by `serde_ast/mod.rs:17,74`. -/
def isDigit (c : Char) : Bool := 48 ≤ c.toNat && c.toNat ≤ 57

/-- the value of decimal digits.  Used by `serde_ast/mod.rs:17,74`. -/
def decimal (ds : Str) : Nat := ds.foldl (fun n c => n * 10 + (c.toNat - 48)) 0

/-- `de.rs`, `parse_decimal`: the point and the digits behind it, if there is a point.
Used by `serde_ast/mod.rs:17,74`. -/
def readFraction : Str → Option (Str × Str)
  | '.' :: s =>
    let ds := s.takeWhile isDigit
    if ds.isEmpty then none else some ('.' :: ds, s.dropWhile isDigit)
  | s => some ([], s)

/-- `de.rs`, `parse_exponent`: sign and digits.  Used by `serde_ast/mod.rs:17,74`. -/
def readSigned (s : Str) : Option (Str × Str) :=
  let (sign, s) := match s with
    | '+' :: s => (['+'], s)
    | '-' :: s => (['-'], s)
    | s => ([], s)
  let ds := s.takeWhile isDigit
  if ds.isEmpty then none else some (sign ++ ds, s.dropWhile isDigit)

/-- `de.rs`, `parse_number`, `parse_exponent`: the exponent, if there is one.  Used by `serde_ast/mod.rs:17,74`. -/
def readExponent : Str → Option (Str × Str)
  | 'e' :: s => do
    let (e, s) ← readSigned s
    some ('e' :: e, s)
  | 'E' :: s => do
    let (e, s) ← readSigned s
    some ('E' :: e, s)
  | s => some ([], s)

/-- `de.rs`, `parse_integer`: `0` alone or digits that do not begin with `0`.  Used by `serde_ast/mod.rs:17,74`. -/
def readDigits : Str → Option (Str × Str)
  | [] => none
  | c :: s =>
    if c = '0' then
      match s with
      | d :: _ => if isDigit d then none else some (['0'], s)
      | [] => some (['0'], s)
    else if isDigit c then some ((c :: s).takeWhile isDigit, (c :: s).dropWhile isDigit)
    else none

/-- `de.rs`, `parse_any_number` and `parse_number`: the value of a number with these parts.
Used by `serde_ast/mod.rs:17,74`. -/
def numberValue (fin : Str → Bool) (sign ds fr ex : Str) : Option Json :=
  if fr.isEmpty && ex.isEmpty && sign.isEmpty && decimal ds < 2 ^ 64 then some (.posInt (decimal ds))
  else if fr.isEmpty && ex.isEmpty && !sign.isEmpty && 0 < decimal ds && decimal ds ≤ 2 ^ 63 then
    some (.negInt (decimal ds))
  else if fin (sign ++ ds ++ fr ++ ex) then some .float
  else none

/-- `de.rs`, `parse_any_number` and `parse_number`: the number behind the sign.
Used by `serde_ast/mod.rs:17,74`. -/
def readNumber (fin : Str → Bool) (sign : Str) (s : Str) : Option (Json × Str) := do
  let (ds, s) ← readDigits s
  let (fr, s) ← readFraction s
  let (ex, s) ← readExponent s
  let v ← numberValue fin sign ds fr ex
  some (v, s)

/-- `de.rs`, `parse_ident`.  Used by `serde_ast/mod.rs:17,74`. -/
def readWord : Str → Str → Option Str
  | [], s => some s
  | w :: ws, c :: s => if c = w then readWord ws s else none
  | _ :: _, [] => none

/-- `value/de.rs`, `visit_seq` over `de.rs`, `SeqAccess::next_element_seed`, and the closing bracket.
Used by `serde_ast/mod.rs:17,74`. -/
def readElems (value : Str → Option (Json × Str)) : Nat → Bool → Str → Option (List Json × Str)
  | 0, _, _ => none
  | n + 1, first, s =>
    match skipBlank s with
    | [] => none
    | c :: s =>
      if c = ']' then some ([], s)
      else do
        let s ← if first then some (c :: s) else if c = ',' then some s else none
        let (v, s) ← value s
        let (vs, s) ← readElems value n false s
        some (v :: vs, s)

/-- `de.rs`, `MapAccess::next_key_seed` and `next_value_seed`: key, colon and value.
Used by `serde_ast/mod.rs:17,74`. -/
def readMember (value : Str → Option (Json × Str)) (s : Str) : Option ((Str × Json) × Str) :=
  match skipBlank s with
  | '"' :: s => do
    let (k, s) ← readStr (s.length + 1) s
    match skipBlank s with
    | ':' :: s => do
      let (v, s) ← value s
      some ((k, v), s)
    | _ => none
  | _ => none

/-- `value/de.rs`, `visit_map` over `de.rs`, `MapAccess::next_key_seed`, and the closing brace.
Used by `serde_ast/mod.rs:17,74`. -/
def readMembers (value : Str → Option (Json × Str)) : Nat → Bool → Str → Option (List (Str × Json) × Str)
  | 0, _, _ => none
  | n + 1, first, s =>
    match skipBlank s with
    | [] => none
    | c :: s =>
      if c = '}' then some ([], s)
      else do
        let s ← if first then some (c :: s) else if c = ',' then some s else none
        let (kv, s) ← readMember value s
        let (kvs, s) ← readMembers value n false s
        some (kv :: kvs, s)

/-- `value/de.rs`, `visit_map`: `values.insert(key, value)`, a later entry replaces an earlier one with the same key.
The order of the entries is not observable (`Value[key]`); here it is the order of insertion.
Used by `serde_ast/mod.rs:17,74`. -/
def collect (kvs : List (Str × Json)) : List (Str × Json) :=
  kvs.foldl (fun m kv => m.filter (fun e => e.1 ≠ kv.1) ++ [kv]) []

/-- `de.rs`, `deserialize_any`; `inner` reads the values inside an array or object, `none` when the recursion limit is
reached.  Used by `serde_ast/mod.rs:17,74`. -/
def readWith (fin : Str → Bool) (inner : Option (Str → Option (Json × Str))) (s : Str) : Option (Json × Str) :=
  match skipBlank s with
  | [] => none
  | c :: s =>
    if c = 'n' then do some (.null, ← readWord ['u', 'l', 'l'] s)
    else if c = 't' then do some (.bool true, ← readWord ['r', 'u', 'e'] s)
    else if c = 'f' then do some (.bool false, ← readWord ['a', 'l', 's', 'e'] s)
    else if c = '-' then readNumber fin ['-'] s
    else if isDigit c then readNumber fin [] (c :: s)
    else if c = '"' then do
      let (t, s) ← readStr (s.length + 1) s
      some (.str t, s)
    else if c = '[' then
      match inner with
      | none => none
      | some value => do
        let (vs, s) ← readElems value (s.length + 1) true s
        some (.arr vs, s)
    else if c = '{' then
      match inner with
      | none => none
      | some value => do
        let (kvs, s) ← readMembers value (s.length + 1) true s
        some (.obj (collect kvs), s)
    else none

/-- `de.rs`, `deserialize_any` with `check_recursion!`: the number is `remaining_depth - 1`.
Used by `serde_ast/mod.rs:17,74`. -/
def readValue (fin : Str → Bool) : Nat → Str → Option (Json × Str)
  | 0 => readWith fin none
  | d + 1 => readWith fin (some (readValue fin d))

/-- `de.rs`, `from_str`, `from_trait`: a value and then only white space; `remaining_depth` is 128 at the start.
Used by `serde_ast/mod.rs:17,74`. -/
def readText (fin : Str → Bool) (s : Str) : Option Json :=
  match readValue fin 127 s with
  | some (v, r) => if (skipBlank r).isEmpty then some v else none
  | none => none

end JsonText

/-- `serde_ast/mod.rs:16-23`, `from_str` (and `from_reader`, 73-80, on UTF-8 input) -/
def SerdeAst.fromStr (fin : Str → Bool) (fuel : Nat) (input : Str) : Res (Option RuleContext) :=
  SerdeAst.fromJson fuel (JsonText.readText fin input)

end Syntaxis
