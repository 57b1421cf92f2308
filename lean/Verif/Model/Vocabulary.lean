import Verif.Model.Basic

/-!
# `runtime/vocabulary.rs`
-/

namespace Syntaxis

/-- `vocabulary.rs:5-23`, `struct Vocabulary`.  `get_all_terminals` and `get_all_nonterminals` (113-118) return the two
sets. -/
structure Vocabulary where
  /-- `non_terminal_name_to_id` -/
  ntNameToId : HMap Str Nat
  /-- `non_terminal_id_to_name` -/
  ntIdToName : HMap Nat Str
  /-- `terminal_name_to_id` -/
  tNameToId : HMap Str Nat
  /-- `terminal_id_to_name` -/
  tIdToName : HMap Nat Str
  /-- `nonterminals` -/
  nonterminals : Finset Nat
  /-- `terminals` -/
  terminals : Finset Nat

namespace Vocabulary

/-- `vocabulary.rs:26-31`. -/
def getNonterminalNameById (v : Vocabulary) (id : Nat) : Option Str := v.ntIdToName.get id

/-- `vocabulary.rs:33-38`. -/
def getTerminalNameById (v : Vocabulary) (id : Nat) : Option Str := v.tIdToName.get id

/-- `vocabulary.rs:40-45`. -/
def getNonterminalIdByName (v : Vocabulary) (name : Str) : Option Nat := v.ntNameToId.get name

/-- `vocabulary.rs:47-52`. -/
def getTerminalIdByName (v : Vocabulary) (name : Str) : Option Nat := v.tNameToId.get name

/-- `vocabulary.rs:54-56`. -/
def isNonterminalId (v : Vocabulary) (id : Nat) : Bool := decide (id ∈ v.nonterminals)

/-- `vocabulary.rs:58-60`. -/
def isTerminalId (v : Vocabulary) (id : Nat) : Bool := decide (id ∈ v.terminals)

/-- `usize::to_string`: decimal digits (`vocabulary.rs:65`) -/
def natToString (n : Nat) : Str := Nat.toDigits 10 n

/-- `vocabulary.rs:62-67`. -/
def getNonterminalNameWithDefault (v : Vocabulary) (id : Nat) : Str :=
  match v.ntIdToName.get id with
  | some name => name
  | none => natToString id

/-- `vocabulary.rs:69-71`; panics on an unknown id. -/
def getTerminalName (v : Vocabulary) (id : Nat) : Res Str := unwrap (v.tIdToName.get id)

/-- `vocabulary.rs:73-75`. -/
def isTerminalNameDefined (v : Vocabulary) (name : Str) : Bool := v.tNameToId.containsKey name

/-- `vocabulary.rs:77-79`. -/
def isNonterminalNameDefined (v : Vocabulary) (name : Str) : Bool := v.ntNameToId.containsKey name

/-- `vocabulary.rs:81-86`.  `! self.terminals.insert(id)` has the side effect of inserting `id` when
it is new, but in that case the guard is false and the function continues; the short-circuit `||`
means nothing is inserted when the name exists. -/
def addTerminal (v : Vocabulary) (id : Nat) (name : Str) : Vocabulary × Bool :=
  if v.tNameToId.containsKey name then (v, false)
  else if id ∈ v.terminals then (v, false)
  else
    ({ v with
        terminals := insert id v.terminals
        tNameToId := v.tNameToId.insert name id
        tIdToName := v.tIdToName.insert id name }, true)

/-- `vocabulary.rs:88-94`. -/
def addNamedNonterminal (v : Vocabulary) (id : Nat) (name : Str) : Vocabulary × Bool :=
  if v.ntNameToId.containsKey name || decide (id ∈ v.nonterminals) then (v, false)
  else
    ({ v with
        nonterminals := insert id v.nonterminals
        ntNameToId := v.ntNameToId.insert name id
        ntIdToName := v.ntIdToName.insert id name }, true)

/-- `vocabulary.rs:95-99`. -/
def addUnnamedNonterminal (v : Vocabulary) (id : Nat) : Vocabulary × Bool :=
  if v.ntIdToName.containsKey id || decide (id ∈ v.nonterminals) then (v, false)
  else ({ v with nonterminals := insert id v.nonterminals }, true)

/-- the empty struct literal of `vocabulary.rs:102-105` -/
def blank : Vocabulary :=
  { ntNameToId := .empty, ntIdToName := .empty, tNameToId := .empty, tIdToName := .empty,
    nonterminals := ∅, terminals := ∅ }

/-- the name `"_START"` (`vocabulary.rs:107`) -/
def startName : Str := ['_', 'S', 'T', 'A', 'R', 'T']
/-- the name `"_STOP"` (`vocabulary.rs:108`) -/
def stopName : Str := ['_', 'S', 'T', 'O', 'P']

/-- `vocabulary.rs:101-110`, `Vocabulary::new`. -/
def new : Vocabulary := ((blank.addTerminal 0 startName).1.addTerminal 1 stopName).1

end Vocabulary
end Syntaxis
