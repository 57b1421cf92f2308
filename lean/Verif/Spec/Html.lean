import Verif.Model.Basic

/-!
# Specification: reading HTML

The part of the HTML tokenizer (HTML standard, 13.2.5) the drawn page needs: tags with quoted attributes, comments,
and the elements `title`, `style` and `script`, whose text ends at the matching end tag only.  It refuses what it
does not cover: references (`&`) in a title and `<!--` in a script.
-/

namespace Syntaxis.Html

/-- tags and the texts of `title`, `style` and `script` -/
inductive Tok where
  | start (name : Str)
  | stop (name : Str)
  | text (element : Str) (content : Str)
  deriving DecidableEq

/-- where the reader is; accumulated text is reversed -/
inductive Mode where
  | data
  /-- behind `<` -/
  | tag (acc : Str)
  /-- in a quoted attribute value -/
  | quoted (q : Char) (acc : Str)
  | comment (acc : Str)
  /-- in the text of `title`, `style` or `script` -/
  | raw (element : Str) (acc : Str)
  | bad
  deriving DecidableEq

/-- ASCII upper case letters become lower case -/
def lower (c : Char) : Char := if 'A' ≤ c ∧ c ≤ 'Z' then Char.ofNat (c.toNat + 32) else c

/-- white space in tags -/
def isSpace (c : Char) : Bool := c = ' ' ∨ c = '\n' ∨ c = '\t' ∨ c = '\x0c'

/-- the elements whose text is not read as markup -/
def rawElements : List Str := ["title".toList, "style".toList, "script".toList]

/-- the end of a tag, its text in order -/
def closeTag (s : Str) : List Tok × Mode :=
  match s with
  | '!' :: _ => ([], .data)
  | '/' :: s => ([.stop ((s.takeWhile (!isSpace ·)).map lower)], .data)
  | s =>
    let name := (s.takeWhile (!isSpace ·)).map lower
    ([.start name], if name ∈ rawElements then .raw name [] else .data)

/-- one character -/
def step : Mode → Char → List Tok × Mode
  | .data, c => ([], if c = '<' then .tag [] else .data)
  | .tag acc, c =>
    if c = '>' then closeTag acc.reverse
    else if c = '"' ∨ c = '\'' then ([], .quoted c (c :: acc))
    else if acc = ['-', '!'] ∧ c = '-' then ([], .comment [])
    else ([], .tag (c :: acc))
  | .quoted q acc, c => ([], if c = q then .tag (c :: acc) else .quoted q (c :: acc))
  | .comment acc, c => ([], if c = '>' ∧ acc.take 2 = ['-', '-'] then .data else .comment (c :: acc))
  | .raw el acc, c =>
    if (c = '>' ∨ c = '/' ∨ isSpace c) ∧ (acc.take (el.length + 2)).map lower = (el.reverse ++ ['/', '<']) then
      ([.text el (acc.drop (el.length + 2)).reverse] ++ (if c = '>' then [.stop el] else []),
        if c = '>' then .data else .tag (c :: (el.reverse ++ ['/'])))
    else if el = "title".toList ∧ c = '&' then ([], .bad)
    else if el = "script".toList ∧ c = '-' ∧ acc.take 3 = ['-', '!', '<'] then ([], .bad)
    else ([], .raw el (c :: acc))
  | .bad, _ => ([], .bad)

/-- all characters -/
def readFrom : Mode → Str → List Tok × Mode
  | m, [] => ([], m)
  | m, c :: s =>
    let (ts, m) := step m c
    let (ts', m) := readFrom m s
    (ts ++ ts', m)

/-- the tokens of a document -/
def tokens (s : Str) : Option (List Tok) :=
  match readFrom .data s with
  | (ts, .data) => some ts
  | _ => none

/-- the texts of the elements of this name -/
def texts (el : Str) (ts : List Tok) : List Str :=
  ts.filterMap fun
    | .text e t => if e = el then some t else none
    | _ => none

/-- text that ends neither a script nor is refused in one -/
def ScriptSafe (s : Str) : Prop := ¬ "</script".toList <:+: s.map lower ∧ ¬ "<!--".toList <:+: s

end Syntaxis.Html
