import Mathlib.Data.Finset.Basic
import Mathlib.Data.Finset.Card

/-!
# Shared vocabulary of the model

Conventions (see DESIGN.md): panics and non-termination are explicit values, `HashMap` is a finite
map, `HashSet` is a `Finset`, strings are lists of Unicode scalar values.
-/

namespace Syntaxis

/-- Rust `String` / `&str`: a sequence of Unicode scalar values.  Lean's `Char` is exactly a
Unicode scalar value.  Byte offsets are computed in `Model/Str.lean`.
The `String`s of `token.rs`, `vocabulary.rs:5-23`, `rule_context.rs`. -/
abbrev Str := List Char

open Lean in
/-- `chars! "ab"` is the list `['a', 'b']`.  It is used for long texts, for which the kernel takes too long to
evaluate `"ab".toList`. -/
macro:max "chars! " s:str : term => do
  let cs := s.getString.toList.map fun c => Syntax.mkCharLit c
  `(([$(cs.toArray),*] : List Char))

/-- The two ways a Rust call can fail to return:
* `panic` – `unwrap()` on `None`, index out of bounds, bad slice, `todo!()`, `panic!()`;
* `fuel`  – the bound on loop iterations / recursion depth given to the model was used up.  A
  program terminates iff some amount of fuel avoids this.
Used for all code; the `unwrap()`s are cited where they are modelled, e.g. `grammar/mod.rs:40,66,87`. -/
inductive Fault where
  | panic
  | fuel
  deriving DecidableEq, Repr

/-- Result of a modelled call.  Used for all functions that can panic, e.g. `grammar/mod.rs:108-149`. -/
abbrev Res (α : Type _) := Except Fault α

/-- `Option::unwrap`.  E.g. `grammar/mod.rs:40,132,137`, `ll1_parser.rs:31`. -/
def unwrap {α : Type _} : Option α → Res α
  | some a => .ok a
  | none => .error .panic

@[simp] theorem unwrap_some {α : Type _} (a : α) : unwrap (some a) = .ok a := rfl
@[simp] theorem unwrap_none {α : Type _} : unwrap (none : Option α) = .error .panic := rfl

@[simp] theorem bind_ok {α β : Type _} (a : α) (f : α → Res β) :
    (Except.ok a >>= f : Res β) = f a := rfl
@[simp] theorem bind_error {α β : Type _} (e : Fault) (f : α → Res β) :
    (Except.error e >>= f : Res β) = .error e := rfl

theorem bind_eq_ok {α β : Type _} {x : Res α} {f : α → Res β} {b : β} :
    (x >>= f) = .ok b ↔ ∃ a, x = .ok a ∧ f a = .ok b := by
  cases x with
  | ok a => simp
  | error e => simp

theorem unwrap_eq_ok {α : Type _} {o : Option α} {a : α} : unwrap o = .ok a ↔ o = some a := by
  cases o <;> simp

/-- `std::collections::HashMap`: only `get`, `get_mut`, `contains_key` and `insert` are used by the
code, never iteration.  Represented by an association list without duplicate keys.
E.g. `vocabulary.rs:7-16`, `grammar/mod.rs:111,119,154,195`. -/
structure HMap (κ : Type _) (ν : Type _) where
  entries : List (κ × ν)

namespace HMap
variable {κ : Type _} {ν : Type _} [DecidableEq κ]

/-- `HashMap::new`.  E.g. `grammar/mod.rs:111,119,154,195`. -/
def empty : HMap κ ν := ⟨[]⟩

/-- lookup in an association list (for `get`, `vocabulary.rs:26-58`) -/
def find (k : κ) : List (κ × ν) → Option ν
  | [] => none
  | (k', v) :: rest => if k' = k then some v else find k rest

/-- `HashMap::get` (also the read half of `get_mut`).  E.g. `vocabulary.rs:27`, `grammar/mod.rs:40,132,198`. -/
def get (m : HMap κ ν) (k : κ) : Option ν := find k m.entries

/-- drop a key from an association list (for `insert`, `grammar/mod.rs:115,203`) -/
def erase (k : κ) : List (κ × ν) → List (κ × ν)
  | [] => []
  | (k', v) :: rest => if k' = k then erase k rest else (k', v) :: erase k rest

/-- `HashMap::insert` (also the write half of `get_mut`).
E.g. `vocabulary.rs:83-84`, `grammar/mod.rs:115,121,203`. -/
def insert (m : HMap κ ν) (k : κ) (v : ν) : HMap κ ν := ⟨(k, v) :: erase k m.entries⟩

/-- `HashMap::contains_key`.  E.g. `vocabulary.rs:74,78,82`. -/
def containsKey (m : HMap κ ν) (k : κ) : Bool := (m.get k).isSome

@[simp] theorem get_empty (k : κ) : (empty : HMap κ ν).get k = none := rfl

theorem find_erase (k k' : κ) (l : List (κ × ν)) :
    find k' (erase k l) = if k = k' then none else find k' l := by
  induction l with
  | nil => simp [erase, find]
  | cons a l ih =>
    obtain ⟨a, v⟩ := a
    simp only [erase, find]
    by_cases h1 : a = k
    · subst h1
      simp only [↓reduceIte, ih]
      by_cases h2 : a = k' <;> simp [h2]
    · simp only [h1, ↓reduceIte, find, ih]
      by_cases h2 : a = k'
      · subst h2
        simp [Ne.symm h1]
      · simp [h2]

theorem get_insert (m : HMap κ ν) (k k' : κ) (v : ν) :
    (m.insert k v).get k' = if k = k' then some v else m.get k' := by
  simp only [get, insert, find, find_erase]
  by_cases h : k = k' <;> simp [h]

@[simp] theorem get_insert_self (m : HMap κ ν) (k : κ) (v : ν) : (m.insert k v).get k = some v := by
  simp [get_insert]

theorem get_insert_ne (m : HMap κ ν) {k k' : κ} (v : ν) (h : k ≠ k') :
    (m.insert k v).get k' = m.get k' := by
  simp [get_insert, h]

theorem containsKey_iff (m : HMap κ ν) (k : κ) : m.containsKey k = true ↔ ∃ v, m.get k = some v := by
  simp [containsKey, Option.isSome_iff_exists]

theorem containsKey_eq_false (m : HMap κ ν) (k : κ) : m.containsKey k = false ↔ m.get k = none := by
  simp [containsKey]

end HMap

/-- Rust `while cond { body }` on an explicit state; `fuel` bounds the number of iterations plus one.
E.g. `grammar/mod.rs:127-146,164-187`. -/
def whileLoop {σ : Type _} (cond : σ → Bool) (body : σ → Res σ) : Nat → σ → Res σ
  | 0, _ => .error .fuel
  | fuel + 1, st =>
    if cond st then
      match body st with
      | .ok st' => whileLoop cond body fuel st'
      | .error e => .error e
    else .ok st

/-- The Rust idiom `for x in src.iter() { modified = dst.insert(*x) || modified; }` executed for one
particular iteration order `l` of the source set (`grammar/mod.rs:88,143,178,181`) -/
def insertLoop (l : List Nat) (dst : Finset Nat) (modified : Bool) : Finset Nat × Bool :=
  l.foldl (fun acc x => (insert x acc.1, decide (x ∉ acc.1) || acc.2)) (dst, modified)

/-- The same idiom with the order abstracted away: the result is the union and `modified` is raised
iff something new was inserted.  `insertLoop_eq` proves this for every iteration order
(`grammar/mod.rs:88,143,178,181`) -/
def insertAll (src dst : Finset Nat) (modified : Bool) : Finset Nat × Bool :=
  (dst ∪ src, decide (¬ src ⊆ dst) || modified)

/-- Every iteration order of the source set gives the result used in the model. -/
theorem insertLoop_eq (l : List Nat) (src dst : Finset Nat) (m : Bool)
    (hl : ∀ x, x ∈ l ↔ x ∈ src) : insertLoop l dst m = insertAll src dst m := by
  have key : ∀ (l : List Nat) (dst : Finset Nat) (m : Bool),
      insertLoop l dst m = insertAll l.toFinset dst m := by
    intro l
    induction l with
    | nil => intro dst m; simp [insertLoop, insertAll]
    | cons a l ih =>
      intro dst m
      have h := ih (insert a dst) (decide (a ∉ dst) || m)
      simp only [insertLoop, List.foldl_cons] at h ⊢
      rw [h]
      simp only [insertAll, List.toFinset_cons]
      refine Prod.ext ?_ ?_
      · ext x; simp only [Finset.mem_union, Finset.mem_insert]; tauto
      · by_cases ha : a ∈ dst
        · simp [ha, Finset.insert_subset_iff]
        · simp [ha, Finset.insert_subset_iff]
  have hs : l.toFinset = src := by ext x; simp [hl]
  rw [key, hs]

end Syntaxis
