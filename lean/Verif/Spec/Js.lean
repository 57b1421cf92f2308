import Verif.Model.Ast

/-!
# Specification: reading JavaScript object literals

A reader for a small part of JavaScript (ECMA-262, 12.9.6 "Template Literal Lexical Components", 13.2.4 array
and 13.2.5 object literals): array literals, object literals with identifier keys, template literals without
substitutions.  It refuses everything else, and in particular every escape that is not the identity.  Line ends
in template literals are normalised: CR and CR LF become LF.
-/

namespace Syntaxis

/-- lexical elements; a key includes its colon -/
inductive JsTok where
  | punct (c : Char)
  | key (s : Str)
  | str (s : Str)
  deriving DecidableEq

/-- escapes that stand for the escaped character itself and are safe in every position -/
def identityEscape (c : Char) : Bool := "\\`${}\"'".toList.contains c

/-- characters allowed in keys here -/
def keyChar (c : Char) : Bool := 'a' ≤ c && c ≤ 'z'

mutual
/-- between two lexical elements -/
def jsLex : Str → Option (List JsTok)
  | [] => some []
  | c :: s =>
    if c = ' ' ∨ c = '\n' then jsLex s
    else if "{}[],".toList.contains c then (jsLex s).map (.punct c :: ·)
    else if c = '`' then jsTemplate [] s
    else if keyChar c then jsKey [c] s
    else none
/-- inside a template literal; `acc` is the value so far, reversed -/
def jsTemplate (acc : Str) : Str → Option (List JsTok)
  | [] => none
  | '`' :: s => (jsLex s).map (.str acc.reverse :: ·)
  | '\\' :: c :: s => if identityEscape c then jsTemplate (c :: acc) s else none
  | ['\\'] => none
  | '$' :: '{' :: _ => none
  | '\r' :: '\n' :: s => jsTemplate ('\n' :: acc) s
  | '\r' :: s => jsTemplate ('\n' :: acc) s
  | c :: s => jsTemplate (c :: acc) s
/-- inside a key -/
def jsKey (acc : Str) : Str → Option (List JsTok)
  | [] => none
  | c :: s =>
    if c = ':' then (jsLex s).map (.key acc.reverse :: ·)
    else if keyChar c then jsKey (c :: acc) s
    else none
end

/-- values -/
inductive JsVal where
  | str (s : Str)
  | arr (vs : List JsVal)
  | obj (fs : List (Str × JsVal))

mutual
/-- a value and what follows it -/
def jsValue : Nat → List JsTok → Option (JsVal × List JsTok)
  | 0, _ => none
  | f + 1, ts =>
    match ts with
    | .str s :: ts => some (.str s, ts)
    | .punct '[' :: ts => (jsElems f ts).map fun (vs, ts) => (.arr vs, ts)
    | .punct '{' :: ts => (jsFields f ts).map fun (fs, ts) => (.obj fs, ts)
    | _ => none
/-- the elements of an array; a comma may follow the last one -/
def jsElems : Nat → List JsTok → Option (List JsVal × List JsTok)
  | 0, _ => none
  | f + 1, ts =>
    match ts with
    | .punct ']' :: ts => some ([], ts)
    | ts =>
      match jsValue f ts with
      | some (v, .punct ',' :: ts) => (jsElems f ts).map fun (vs, ts) => (v :: vs, ts)
      | some (v, .punct ']' :: ts) => some ([v], ts)
      | _ => none
/-- the properties of an object; a comma may follow the last one -/
def jsFields : Nat → List JsTok → Option (List (Str × JsVal) × List JsTok)
  | 0, _ => none
  | f + 1, ts =>
    match ts with
    | .punct '}' :: ts => some ([], ts)
    | .key k :: ts =>
      match jsValue f ts with
      | some (v, .punct ',' :: ts) => (jsFields f ts).map fun (fs, ts) => ((k, v) :: fs, ts)
      | some (v, .punct '}' :: ts) => some ([(k, v)], ts)
      | _ => none
    | _ => none
end

/-- the text is a literal with this value -/
def JsReadsAs (s : Str) (v : JsVal) : Prop :=
  ∃ ts n, jsLex s = some ts ∧ ∀ fuel, n ≤ fuel → jsValue fuel ts = some (v, [])

/-- what is drawn: leaves with name and text, nodes with name, id and children -/
inductive View where
  | leaf (name text : Str)
  | node (name : Str) (id : Nat) (kids : List View)

/-- a decimal numeral -/
def readDec (s : Str) : Nat := s.foldl (fun a c => 10 * a + (c.toNat - '0'.toNat)) 0

mutual
/-- the drawn tree in a value -/
def JsVal.view : JsVal → Option View
  | .str _ => none
  | .arr _ => none
  | .obj fs => fieldsView fs
/-- `{name, text}` or `{name, id, children}` -/
def fieldsView : List (Str × JsVal) → Option View
  | [(k1, .str n), (k2, .str t)] => if k1 = "name".toList ∧ k2 = "text".toList then some (.leaf n t) else none
  | [(k1, .str n), (k2, .str i), (k3, .arr ks)] =>
    if k1 = "name".toList ∧ k2 = "id".toList ∧ k3 = "children".toList then
      (viewAll ks).map (.node n (readDec i)) else none
  | _ => none
/-- all children -/
def viewAll : List JsVal → Option (List View)
  | [] => some []
  | v :: vs =>
    match v.view, viewAll vs with
    | some x, some xs => some (x :: xs)
    | _, _ => none
end

mutual
/-- names, ids, texts and nesting of a syntax tree -/
def Ast.toView : Ast → View
  | .terminal t => .leaf t.tokenName t.text
  | .error t => .leaf t.tokenName t.text
  | .rule n i kids => .node n i (Ast.toViews kids)
def Ast.toViews : List Ast → List View
  | [] => []
  | k :: ks => k.toView :: Ast.toViews ks
end

mutual
/-- the strings shown -/
def Ast.shown : Ast → List Str
  | .terminal t => [t.tokenName, t.text]
  | .error t => [t.tokenName, t.text]
  | .rule n _ kids => n :: Ast.shownAll kids
def Ast.shownAll : List Ast → List Str
  | [] => []
  | k :: ks => k.shown ++ Ast.shownAll ks
end

/-- no carriage return and no `${` -/
def Clean (s : Str) : Prop := '\r' ∉ s ∧ ¬ ['$', '{'] <:+: s

end Syntaxis
