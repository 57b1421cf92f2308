import Verif.Model.Vocabulary

/-!
# `tool/grammar/mod.rs`

`self.productions` is a `HashSet<Production>`: its iteration order is arbitrary (random per process)
but fixed while the set is not modified.  Every function that iterates over it takes the iteration
order `ord` explicitly; the theorems quantify over all `ord` that are permutations of
`g.productions`.
-/

namespace Syntaxis

/-- `grammar/mod.rs:256-260`, `enum ProductionItem`. -/
inductive Item where
  | nt (id : Nat)
  | t (id : Nat)
  deriving DecidableEq, Repr

/-- `grammar/mod.rs:262-272`, `struct Production`. -/
structure Production where
  left : Nat
  right : List Item
  deriving DecidableEq, Repr

/-- `grammar/mod.rs:19-22`, `struct Collection`. -/
structure Collection where
  allowEpsilon : Bool
  set : Finset Nat
  deriving DecidableEq

/-- `grammar/mod.rs:7-16`, `struct Grammar`.  `productions` lists the elements of the `HashSet`
(without duplicates) in some order. -/
structure Grammar where
  name : Str
  vocabulary : Vocabulary
  productions : List Production

/-- result of `first_set` on nonterminals (`grammar/mod.rs:108`) -/
abbrev FirstMap := HMap Nat Collection
/-- result of `first_set` on productions (`grammar/mod.rs:108`) -/
abbrev ProdFirstMap := HMap Production Collection
/-- result of `follow_set` (`grammar/mod.rs:152`) -/
abbrev FollowMap := HMap Nat (Finset Nat)
/-- result of `ll1_table` (`grammar/mod.rs:194`) -/
abbrev Table := HMap (Nat × Nat) Production

namespace Grammar

/-- `grammar/mod.rs:25-31`, `Grammar::new`. -/
def new (name : Str) : Grammar := { name, vocabulary := Vocabulary.new, productions := [] }

/-- `HashSet::insert` on `self.productions`; the flag is Rust's return value
(`grammar_visitor.rs:148,214-215,235-236,255-256,290`) -/
def insertProduction (g : Grammar) (p : Production) : Grammar × Bool :=
  if p ∈ g.productions then (g, false)
  else ({ g with productions := g.productions ++ [p] }, true)

/-- `grammar/mod.rs:33-56`, the loop of `get_first_for_string`; `acc` is `result`. -/
def getFirstForStringLoop (first : FirstMap) : List Item → Collection → Res Collection
  | [], acc => .ok acc
  | .nt id :: rest, acc => do
    let c ← unwrap (first.get id)
    let set := (insertAll c.set acc.set false).1
    if !c.allowEpsilon then .ok { allowEpsilon := false, set }
    else getFirstForStringLoop first rest { acc with set }
  | .t a :: _, acc => .ok { allowEpsilon := false, set := insert a acc.set }

/-- `grammar/mod.rs:33-56`, `get_first_for_string`. -/
def getFirstForString (slice : List Item) (first : FirstMap) : Res Collection :=
  getFirstForStringLoop first slice { allowEpsilon := true, set := ∅ }

/-- `grammar/mod.rs:61-77`: the loop computing `allow_epsilon`. -/
def rightAllowsEpsilon (first : FirstMap) : List Item → Res Bool
  | [] => .ok true
  | .nt id :: rest => do
    let c ← unwrap (first.get id)
    if !c.allowEpsilon then .ok false else rightAllowsEpsilon first rest
  | .t _ :: _ => .ok false

/-- `grammar/mod.rs:84-101`: the loop inserting into `result.set`. -/
def collectFirst (first : FirstMap) : List Item → Finset Nat → Bool → Res (Finset Nat × Bool)
  | [], set, modified => .ok (set, modified)
  | .nt id :: rest, set, modified => do
    let c ← unwrap (first.get id)
    let (set, modified) := insertAll c.set set modified
    if !c.allowEpsilon then .ok (set, modified) else collectFirst first rest set modified
  | .t a :: _, set, modified => .ok (insert a set, decide (a ∉ set) || modified)

/-- `grammar/mod.rs:58-105`, `get_first_set_for_non_epsilon_rule`: returns the new `result` and the
`modified` flag. -/
def getFirstSetForNonEpsilonRule (production : Production) (result : Collection) (first : FirstMap) :
    Res (Collection × Bool) := do
  let allowEpsilon ← rightAllowsEpsilon first production.right
  let modified := result.allowEpsilon != allowEpsilon
  let (set, modified) ← collectFirst first production.right result.set modified
  .ok ({ allowEpsilon, set }, modified)

/-- the mutable state of the `while` loop in `first_set`: `result`, `cache`, `modified`
(`grammar/mod.rs:111,118-119`) -/
structure FirstState where
  result : FirstMap
  cache : ProdFirstMap
  modified : Bool

/-- `grammar/mod.rs:130-144`: the body of the `for` loop for one production. -/
def firstStep (st : FirstState) (production : Production) : Res FirstState := do
  let t ← unwrap (st.cache.get production)
  let (t, m) ← getFirstSetForNonEpsilonRule production t st.result
  let modified := m || st.modified
  let cache := st.cache.insert production t
  let r ← unwrap (st.result.get production.left)
  let (eps, modified) :=
    if t.allowEpsilon && !r.allowEpsilon then (t.allowEpsilon, true) else (r.allowEpsilon, modified)
  let (set, modified) := insertAll t.set r.set modified
  .ok { result := st.result.insert production.left { allowEpsilon := eps, set }, cache, modified }

/-- `grammar/mod.rs:130-144`: one `for` loop over all productions. -/
def firstPass : List Production → FirstState → Res FirstState
  | [], st => .ok st
  | p :: ps, st => do
    let st ← firstStep st p
    firstPass ps st

/-- `grammar/mod.rs:127-146`: the `while modified` loop; `fuel` bounds the number of iterations. -/
def firstLoop (ord : List Production) (fuel : Nat) (st : FirstState) : Res FirstState :=
  whileLoop (fun st => st.modified) (fun st => firstPass ord { st with modified := false }) fuel st

/-- `grammar/mod.rs:111-116` (and 154-157): a map with the same initial value for every nonterminal.
The `HashSet` iteration order of the nonterminals is irrelevant: `initMap` is characterised by
lookups only. -/
def initMap {ν : Type} (ids : List Nat) (v : ν) : HMap Nat ν :=
  ids.foldl (fun m id => m.insert id v) .empty

/-- `grammar/mod.rs:119-122`: the initial `cache`. -/
def initCache (ord : List Production) : ProdFirstMap :=
  ord.foldl (fun m p => m.insert p { allowEpsilon := false, set := ∅ }) .empty

/-- `grammar/mod.rs:108-149`, `first_set`.  `ids` is the iteration order of
`vocabulary.get_all_nonterminals()`, `ord` that of `self.productions`. -/
def firstSet (ids : List Nat) (ord : List Production) (fuel : Nat) : Res (FirstMap × ProdFirstMap) := do
  let st ← firstLoop ord fuel
    { result := initMap ids { allowEpsilon := false, set := ∅ }
      cache := initCache ord
      modified := true }
  .ok (st.result, st.cache)

/-- the mutable state of the `while` loop in `follow_set` (`grammar/mod.rs:154,162`) -/
structure FollowState where
  result : FollowMap
  modified : Bool

/-- `grammar/mod.rs:169-184`: the inner `for i in 0..right.len()`; the argument is `right[i..]`. -/
def followItems (first : FirstMap) (left : Nat) : List Item → FollowState → Res FollowState
  | [], st => .ok st
  | .t _ :: rest, st => followItems first left rest st
  | .nt item :: rest, st => do
    let f ← getFirstForString rest first
    let s ← unwrap (st.result.get left)
    let t ← unwrap (st.result.get item)
    let (t, modified) := insertAll f.set t st.modified
    let (t, modified) := if f.allowEpsilon then insertAll s t modified else (t, modified)
    followItems first left rest { result := st.result.insert item t, modified }

/-- `grammar/mod.rs:167-185`: one `for` loop over all productions. -/
def followPass (first : FirstMap) : List Production → FollowState → Res FollowState
  | [], st => .ok st
  | p :: ps, st => do
    let st ← followItems first p.left p.right st
    followPass first ps st

/-- `grammar/mod.rs:164-187`: the `while modified` loop. -/
def followLoop (first : FirstMap) (ord : List Production) (fuel : Nat) (st : FollowState) :
    Res FollowState :=
  whileLoop (fun st => st.modified) (fun st => followPass first ord { st with modified := false })
    fuel st

/-- `grammar/mod.rs:152-191`, `follow_set`. -/
def followSet (ids : List Nat) (ord : List Production) (first : FirstMap) (fuel : Nat) :
    Res FollowMap := do
  let result : FollowMap := initMap ids ∅
  let s ← unwrap (result.get 0)
  let result := result.insert 0 (insert 1 s)
  let st ← followLoop first ord fuel { result, modified := true }
  .ok st.result

/-- the table under construction and the printed conflicts (`println!` of new and displaced
production, `grammar/mod.rs:203-205,211-213`) -/
structure TableState where
  table : Table
  conflicts : List (Production × Production)

/-- `grammar/mod.rs:202-206` / `210-214`: insert `production` for every token of a set, iterated in
the order `tokens`. -/
def tableInsert (production : Production) : List Nat → TableState → TableState
  | [], st => st
  | tok :: rest, st =>
    let conflicts := match st.table.get (production.left, tok) with
      | some p => st.conflicts ++ [(production, p)]
      | none => st.conflicts
    tableInsert production rest
      { table := st.table.insert (production.left, tok) production, conflicts }

/-- Iteration order of the token sets scanned by `ll1_table`: for each production and each of its two
loops (FIRST: `false`, FOLLOW: `true`) an arbitrary enumeration of the set (`grammar/mod.rs:202,210`) -/
structure SetOrder where
  enum : Production → Bool → Finset Nat → List Nat
  nodup : ∀ p b s, (enum p b s).Nodup
  mem : ∀ p b s x, x ∈ enum p b s ↔ x ∈ s

/-- `grammar/mod.rs:197-216`: body of the loop for one production. -/
def tableStep (so : SetOrder) (first : ProdFirstMap) (follow : FollowMap) (production : Production)
    (st : TableState) : Res TableState := do
  let f ← unwrap (first.get production)
  let st := tableInsert production (so.enum production false f.set) st
  if f.allowEpsilon then do
    let fo ← unwrap (follow.get production.left)
    .ok (tableInsert production (so.enum production true fo) st)
  else .ok st

/-- `grammar/mod.rs:197-216`: the loop over all productions. -/
def tableLoop (so : SetOrder) (first : ProdFirstMap) (follow : FollowMap) :
    List Production → TableState → Res TableState
  | [], st => .ok st
  | p :: ps, st => do
    let st ← tableStep so first follow p st
    tableLoop so first follow ps st

/-- `grammar/mod.rs:194-218`, `ll1_table`: the table and the conflict messages printed. -/
def ll1Table (so : SetOrder) (ord : List Production) (first : ProdFirstMap) (follow : FollowMap) :
    Res TableState :=
  tableLoop so first follow ord { table := .empty, conflicts := [] }

/-- The hash iteration orders of one run: `ids` enumerates `vocabulary.get_all_nonterminals()`, `ord`
enumerates `self.productions` (a `HashSet`, so no production occurs twice)
(`grammar/mod.rs:114,120,130,155,167,196`) -/
structure IterOrder (g : Grammar) where
  ids : List Nat
  ids_mem : ∀ i, i ∈ ids ↔ i ∈ g.vocabulary.nonterminals
  ord : List Production
  ord_perm : ord.Perm g.productions
  ord_nodup : ord.Nodup

/-- `first_set` called on the grammar `g`, iteration orders `o` (`grammar/mod.rs:108-149`, `main.rs:34`) -/
def runFirst (g : Grammar) (o : IterOrder g) (fuel : Nat) : Res (FirstMap × ProdFirstMap) :=
  firstSet o.ids o.ord fuel

/-- `follow_set` called with the result of `first_set` (`main.rs:34-36`). -/
def runFollow (g : Grammar) (o : IterOrder g) (fuel : Nat) : Res FollowMap := do
  let (first, _) ← runFirst g o fuel
  followSet o.ids o.ord first fuel

/-- `first_set`, `follow_set` and `ll1_table` in sequence (`main.rs:34-38`). -/
def runTable (g : Grammar) (o : IterOrder g) (so : SetOrder) (fuel : Nat) : Res TableState := do
  let (first, cache) ← runFirst g o fuel
  let follow ← followSet o.ids o.ord first fuel
  ll1Table so o.ord cache follow

end Grammar
end Syntaxis
