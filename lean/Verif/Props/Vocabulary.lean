import Verif.Model.Vocabulary

/-!
# C01–C04: the vocabulary

Histories are arbitrary finite sequences of the three registration calls, from `Vocabulary::new()`.
-/

namespace Syntaxis
open Vocabulary

/-- a registration call of the public API -/
inductive VOp where
  | addTerminal (id : Nat) (name : Str)
  | addNamedNonterminal (id : Nat) (name : Str)
  | addUnnamedNonterminal (id : Nat)

/-- perform one call; the flag is its return value -/
def VOp.run (v : Vocabulary) : VOp → Vocabulary × Bool
  | .addTerminal id name => v.addTerminal id name
  | .addNamedNonterminal id name => v.addNamedNonterminal id name
  | .addUnnamedNonterminal id => v.addUnnamedNonterminal id

/-- perform a sequence of calls -/
def runOps (v : Vocabulary) (ops : List VOp) : Vocabulary := ops.foldl (fun v op => (op.run v).1) v

/-- the invariant of reachable vocabularies -/
structure VInv (v : Vocabulary) : Prop where
  t_inv : ∀ n i, v.tNameToId.get n = some i ↔ v.tIdToName.get i = some n
  t_mem : ∀ i, i ∈ v.terminals ↔ ∃ n, v.tIdToName.get i = some n
  n_inv : ∀ n i, v.ntNameToId.get n = some i ↔ v.ntIdToName.get i = some n
  n_mem : ∀ i n, v.ntIdToName.get i = some n → i ∈ v.nonterminals
  start : v.tIdToName.get 0 = some startName
  stop : v.tIdToName.get 1 = some stopName

theorem vinv_new : VInv Vocabulary.new := by
  have e : Vocabulary.new =
      { ntNameToId := .empty, ntIdToName := .empty,
        tNameToId := ((HMap.empty).insert startName 0).insert stopName 1,
        tIdToName := ((HMap.empty).insert 0 startName).insert 1 stopName,
        nonterminals := ∅, terminals := insert 1 (insert 0 ∅) } := by
    rfl
  rw [e]
  have hne : startName ≠ stopName := by decide
  constructor
  · intro n i
    simp only [HMap.get_insert, HMap.get_empty]
    grind
  · intro i
    simp only [HMap.get_insert, HMap.get_empty, Finset.mem_insert, Finset.notMem_empty, or_false]
    by_cases h1 : i = 1
    · subst h1; simp
    · by_cases h0 : i = 0
      · subst h0; simp
      · simp [h1, h0, Ne.symm h1, Ne.symm h0]
  · intro n i; simp
  · intro i n; simp
  · simp [HMap.get_insert]
  · simp [HMap.get_insert]

theorem vinv_step (v : Vocabulary) (op : VOp) (h : VInv v) : VInv (op.run v).1 := by
  cases op with
  | addTerminal id name =>
    simp only [VOp.run, addTerminal]
    split
    · exact h
    · rename_i h1
      split
      · exact h
      · rename_i h2
        have h1' : v.tNameToId.get name = none := by simpa [HMap.containsKey] using h1
        have h2' : v.tIdToName.get id = none := by
          cases hc : v.tIdToName.get id with
          | none => rfl
          | some n => exact absurd ((h.t_mem id).2 ⟨n, hc⟩) h2
        have h0 : id ≠ 0 := by rintro rfl; rw [h.start] at h2'; cases h2'
        have h1'' : id ≠ 1 := by rintro rfl; rw [h.stop] at h2'; cases h2'
        constructor
        · intro n i
          have := h.t_inv n i
          simp only [HMap.get_insert]
          have a := h.t_inv name i
          have b := h.t_inv n id
          grind
        · intro i
          have := h.t_mem i
          simp only [HMap.get_insert, Finset.mem_insert]
          by_cases hi : i = id
          · subst hi; simp
          · simp [hi, Ne.symm hi, this]
        · exact h.n_inv
        · exact h.n_mem
        · simp only [HMap.get_insert, h0, if_false]; exact h.start
        · simp only [HMap.get_insert, h1'', if_false]; exact h.stop
  | addNamedNonterminal id name =>
    simp only [VOp.run, addNamedNonterminal]
    split
    · exact h
    · rename_i h1
      simp only [Bool.or_eq_true, decide_eq_true_eq, not_or, Bool.not_eq_true] at h1
      have h1' : v.ntNameToId.get name = none := (HMap.containsKey_eq_false _ _).1 h1.1
      have h2' : v.ntIdToName.get id = none := by
        cases hc : v.ntIdToName.get id with
        | none => rfl
        | some n => exact absurd (h.n_mem id n hc) h1.2
      constructor
      · exact h.t_inv
      · exact h.t_mem
      · intro n i
        have := h.n_inv n i
        simp only [HMap.get_insert]
        have a := h.n_inv name i
        have b := h.n_inv n id
        grind
      · intro i n
        have := h.n_mem i n
        simp only [HMap.get_insert, Finset.mem_insert]
        grind
      · exact h.start
      · exact h.stop
  | addUnnamedNonterminal id =>
    simp only [VOp.run, addUnnamedNonterminal]
    split
    · exact h
    · exact ⟨h.t_inv, h.t_mem, h.n_inv, fun i n hi => Finset.mem_insert_of_mem (h.n_mem i n hi),
        h.start, h.stop⟩

theorem vinv_runOps (v : Vocabulary) (ops : List VOp) (h : VInv v) : VInv (runOps v ops) := by
  induction ops generalizing v with
  | nil => exact h
  | cons op ops ih => exact ih _ (vinv_step v op h)

theorem vinv_reachable (ops : List VOp) : VInv (runOps Vocabulary.new ops) :=
  vinv_runOps _ ops vinv_new

/-- **C01** lookups by id and by name are mutual inverses in every reachable vocabulary. -/
theorem C01_vocabulary_lookups_inverse (ops : List VOp) (n : Str) (i : Nat) :
    let v := runOps Vocabulary.new ops
    (v.getTerminalIdByName n = some i ↔ v.getTerminalNameById i = some n) ∧
    (v.getNonterminalIdByName n = some i ↔ v.getNonterminalNameById i = some n) :=
  ⟨(vinv_reachable ops).t_inv n i, (vinv_reachable ops).n_inv n i⟩

/-- **C01** hence no two ids share a name and no two names share an id. -/
theorem C01_vocabulary_bijective (ops : List VOp) (n n' : Str) (i i' : Nat) :
    let v := runOps Vocabulary.new ops
    (v.getTerminalNameById i = some n → v.getTerminalNameById i' = some n → i = i') ∧
    (v.getTerminalIdByName n = some i → v.getTerminalIdByName n' = some i → n = n') ∧
    (v.getNonterminalNameById i = some n → v.getNonterminalNameById i' = some n → i = i') ∧
    (v.getNonterminalIdByName n = some i → v.getNonterminalIdByName n' = some i → n = n') := by
  have h := vinv_reachable ops
  refine ⟨fun a b => ?_, fun a b => ?_, fun a b => ?_, fun a b => ?_⟩
  · have a := (h.t_inv n i).2 a; have b := (h.t_inv n i').2 b; simpa [a] using b
  · have a := (h.t_inv n i).1 a; have b := (h.t_inv n' i).1 b; simpa [a] using b
  · have a := (h.n_inv n i).2 a; have b := (h.n_inv n i').2 b; simpa [a] using b
  · have a := (h.n_inv n i).1 a; have b := (h.n_inv n' i).1 b; simpa [a] using b

/-- one call preserves every existing binding -/
theorem step_preserves (v : Vocabulary) (op : VOp) (h : VInv v) :
    (∀ n i, v.getTerminalIdByName n = some i → (op.run v).1.getTerminalIdByName n = some i) ∧
    (∀ n i, v.getTerminalNameById i = some n → (op.run v).1.getTerminalNameById i = some n) ∧
    (∀ n i, v.getNonterminalIdByName n = some i → (op.run v).1.getNonterminalIdByName n = some i) ∧
    (∀ n i, v.getNonterminalNameById i = some n → (op.run v).1.getNonterminalNameById i = some n) ∧
    (∀ i, v.isTerminalId i = true → (op.run v).1.isTerminalId i = true) ∧
    (∀ i, v.isNonterminalId i = true → (op.run v).1.isNonterminalId i = true) := by
  have h' := vinv_step v op h
  have A : (∀ n i, v.getTerminalIdByName n = some i → (op.run v).1.getTerminalIdByName n = some i) ∧
      (∀ n i, v.getNonterminalIdByName n = some i →
        (op.run v).1.getNonterminalIdByName n = some i) := by
    cases op with
    | addTerminal id name =>
      simp only [VOp.run, addTerminal]
      split
      · exact ⟨fun _ _ h => h, fun _ _ h => h⟩
      · rename_i h1
        split
        · exact ⟨fun _ _ h => h, fun _ _ h => h⟩
        · refine ⟨fun n i hn => ?_, fun _ _ h => h⟩
          have h1' : v.tNameToId.get name = none := by simpa [HMap.containsKey] using h1
          have hne : name ≠ n := by
            rintro rfl; simp [getTerminalIdByName, h1'] at hn
          simpa [getTerminalIdByName, HMap.get_insert, hne] using hn
    | addNamedNonterminal id name =>
      simp only [VOp.run, addNamedNonterminal]
      split
      · exact ⟨fun _ _ h => h, fun _ _ h => h⟩
      · rename_i h1
        simp only [Bool.or_eq_true, decide_eq_true_eq, not_or, Bool.not_eq_true] at h1
        refine ⟨fun _ _ h => h, fun n i hn => ?_⟩
        have h1' : v.ntNameToId.get name = none := (HMap.containsKey_eq_false _ _).1 h1.1
        have hne : name ≠ n := by
          rintro rfl; simp [getNonterminalIdByName, h1'] at hn
        simpa [getNonterminalIdByName, HMap.get_insert, hne] using hn
    | addUnnamedNonterminal id =>
      simp only [VOp.run, addUnnamedNonterminal]
      split <;> exact ⟨fun _ _ h => h, fun _ _ h => h⟩
  refine ⟨A.1, fun n i hn => ?_, A.2, fun n i hn => ?_, fun i hi => ?_, fun i hi => ?_⟩
  · exact (h'.t_inv n i).1 (A.1 n i ((h.t_inv n i).2 hn))
  · exact (h'.n_inv n i).1 (A.2 n i ((h.n_inv n i).2 hn))
  · simp only [isTerminalId, decide_eq_true_eq] at hi ⊢
    obtain ⟨n, hn⟩ := (h.t_mem i).1 hi
    exact (h'.t_mem i).2 ⟨n, (h'.t_inv n i).1 (A.1 n i ((h.t_inv n i).2 hn))⟩
  · simp only [isNonterminalId, decide_eq_true_eq] at hi ⊢
    cases op with
    | addTerminal id name =>
      simp only [VOp.run, addTerminal]
      split
      · exact hi
      · split <;> exact hi
    | addNamedNonterminal id name =>
      simp only [VOp.run, addNamedNonterminal]
      split
      · exact hi
      · exact Finset.mem_insert_of_mem hi
    | addUnnamedNonterminal id =>
      simp only [VOp.run, addUnnamedNonterminal]
      split
      · exact hi
      · exact Finset.mem_insert_of_mem hi

/-- **C02** a binding once visible stays, through every continuation `more` of every history `ops`. -/
theorem C02_bindings_persist (ops more : List VOp) :
    let v := runOps Vocabulary.new ops
    let v' := runOps Vocabulary.new (ops ++ more)
    (∀ n i, v.getTerminalIdByName n = some i → v'.getTerminalIdByName n = some i) ∧
    (∀ n i, v.getTerminalNameById i = some n → v'.getTerminalNameById i = some n) ∧
    (∀ n i, v.getNonterminalIdByName n = some i → v'.getNonterminalIdByName n = some i) ∧
    (∀ n i, v.getNonterminalNameById i = some n → v'.getNonterminalNameById i = some n) ∧
    (∀ i, v.isTerminalId i = true → v'.isTerminalId i = true) ∧
    (∀ i, v.isNonterminalId i = true → v'.isNonterminalId i = true) := by
  have e : runOps Vocabulary.new (ops ++ more) = runOps (runOps Vocabulary.new ops) more := by
    simp [runOps]
  simp only [e]
  clear e
  have hv := vinv_reachable ops
  generalize runOps Vocabulary.new ops = v at hv
  induction more generalizing v with
  | nil => simp [runOps]
  | cons op more ih =>
    have h1 := step_preserves v op hv
    have h2 := ih (op.run v).1 (vinv_step v op hv)
    exact ⟨fun n i h => h2.1 n i (h1.1 n i h), fun n i h => h2.2.1 n i (h1.2.1 n i h),
      fun n i h => h2.2.2.1 n i (h1.2.2.1 n i h), fun n i h => h2.2.2.2.1 n i (h1.2.2.2.1 n i h),
      fun i h => h2.2.2.2.2.1 i (h1.2.2.2.2.1 i h), fun i h => h2.2.2.2.2.2 i (h1.2.2.2.2.2 i h)⟩

/-- **C02** a rejected registration changes nothing at all. -/
theorem C02_rejected_changes_nothing (v : Vocabulary) (op : VOp) (h : (op.run v).2 = false) :
    (op.run v).1 = v := by
  cases op with
  | addTerminal id name =>
    simp only [VOp.run, addTerminal] at h ⊢
    split at h
    · simp [*]
    · split at h
      · simp [*]
      · cases h
  | addNamedNonterminal id name =>
    simp only [VOp.run, addNamedNonterminal] at h ⊢
    split at h
    · simp [*]
    · cases h
  | addUnnamedNonterminal id =>
    simp only [VOp.run, addUnnamedNonterminal] at h ⊢
    split at h
    · simp [*]
    · cases h

/-- **C03** registration succeeds iff name and id are unused. -/
theorem C03_add_succeeds_iff (ops : List VOp) (i : Nat) (n : Str) :
    let v := runOps Vocabulary.new ops
    ((v.addTerminal i n).2 = true ↔ v.getTerminalIdByName n = none ∧ v.getTerminalNameById i = none) ∧
    ((v.addNamedNonterminal i n).2 = true ↔
      v.getNonterminalIdByName n = none ∧ v.isNonterminalId i = false) ∧
    ((v.addUnnamedNonterminal i).2 = true ↔ v.isNonterminalId i = false) := by
  have h := vinv_reachable ops
  generalize runOps Vocabulary.new ops = v at h
  refine ⟨?_, ?_, ?_⟩
  · simp only [addTerminal, getTerminalIdByName, getTerminalNameById]
    have hm : i ∈ v.terminals ↔ v.tIdToName.get i ≠ none := by
      rw [h.t_mem, Option.ne_none_iff_exists']
    split
    · rename_i h1
      obtain ⟨w, hw⟩ := (HMap.containsKey_iff _ _).1 h1
      simp [hw]
    · rename_i h1
      have h1' : v.tNameToId.get n = none := by simpa [HMap.containsKey] using h1
      split
      · rename_i h2; simp [hm.1 h2]
      · rename_i h2
        have : v.tIdToName.get i = none := by
          by_contra hc; exact h2 (hm.2 hc)
        simp [this, h1']
  · simp only [addNamedNonterminal, getNonterminalIdByName, isNonterminalId]
    split
    · rename_i h1
      simp only [Bool.or_eq_true, decide_eq_true_eq, HMap.containsKey_iff] at h1
      rcases h1 with ⟨w, hw⟩ | h1
      · simp [hw]
      · simp [h1]
    · rename_i h1
      simp only [Bool.or_eq_true, decide_eq_true_eq, not_or, Bool.not_eq_true,
        HMap.containsKey_eq_false] at h1
      simp [h1]
  · simp only [addUnnamedNonterminal, isNonterminalId]
    split
    · rename_i h1
      simp only [Bool.or_eq_true, decide_eq_true_eq, HMap.containsKey_iff] at h1
      rcases h1 with ⟨w, hw⟩ | h1
      · simp [h.n_mem i w hw]
      · simp [h1]
    · rename_i h1
      simp only [Bool.or_eq_true, decide_eq_true_eq, not_or] at h1
      simp [h1]

/-- **C03** after success the new binding is visible. -/
theorem C03_add_visible (v : Vocabulary) (i : Nat) (n : Str) :
    ((v.addTerminal i n).2 = true →
      (v.addTerminal i n).1.getTerminalIdByName n = some i ∧
      (v.addTerminal i n).1.getTerminalNameById i = some n ∧
      (v.addTerminal i n).1.isTerminalId i = true ∧
      (v.addTerminal i n).1.isTerminalNameDefined n = true) ∧
    ((v.addNamedNonterminal i n).2 = true →
      (v.addNamedNonterminal i n).1.getNonterminalIdByName n = some i ∧
      (v.addNamedNonterminal i n).1.getNonterminalNameById i = some n ∧
      (v.addNamedNonterminal i n).1.isNonterminalId i = true ∧
      (v.addNamedNonterminal i n).1.isNonterminalNameDefined n = true) ∧
    ((v.addUnnamedNonterminal i).2 = true →
      (v.addUnnamedNonterminal i).1.isNonterminalId i = true ∧
      (v.addUnnamedNonterminal i).1.getNonterminalNameById i = none) := by
  refine ⟨fun h => ?_, fun h => ?_, fun h => ?_⟩
  · simp only [addTerminal] at h ⊢
    split at h
    · cases h
    · rename_i h1
      split at h
      · cases h
      · rename_i h2
        rw [if_neg h1, if_neg h2]
        simp [getTerminalIdByName, getTerminalNameById, isTerminalId, isTerminalNameDefined,
          HMap.containsKey]
  · simp only [addNamedNonterminal] at h ⊢
    split at h
    · cases h
    · rename_i h1
      rw [if_neg h1]
      simp [getNonterminalIdByName, getNonterminalNameById, isNonterminalId,
          isNonterminalNameDefined, HMap.containsKey]
  · simp only [addUnnamedNonterminal] at h ⊢
    split at h
    · cases h
    · rename_i h1
      rw [if_neg h1]
      simp only [Bool.or_eq_true, decide_eq_true_eq, not_or, Bool.not_eq_true,
        HMap.containsKey_eq_false] at h1
      simp [h1, isNonterminalId, getNonterminalNameById]

/-- **C03** and a registration affects no other name or id: all other lookups answer as before. -/
theorem C03_add_frame (v : Vocabulary) (i j : Nat) (n m : Str) (hij : j ≠ i) (hnm : m ≠ n) :
    (v.addTerminal i n).1.getTerminalIdByName m = v.getTerminalIdByName m ∧
    (v.addTerminal i n).1.getTerminalNameById j = v.getTerminalNameById j ∧
    (v.addTerminal i n).1.isTerminalId j = v.isTerminalId j ∧
    (v.addNamedNonterminal i n).1.getNonterminalIdByName m = v.getNonterminalIdByName m ∧
    (v.addNamedNonterminal i n).1.getNonterminalNameById j = v.getNonterminalNameById j ∧
    (v.addNamedNonterminal i n).1.isNonterminalId j = v.isNonterminalId j ∧
    (v.addUnnamedNonterminal i).1.isNonterminalId j = v.isNonterminalId j ∧
    (v.addUnnamedNonterminal i).1.getNonterminalIdByName m = v.getNonterminalIdByName m ∧
    (v.addTerminal i n).1.nonterminals = v.nonterminals ∧
    (v.addNamedNonterminal i n).1.terminals = v.terminals ∧
    (v.addUnnamedNonterminal i).1.terminals = v.terminals := by
  simp only [addTerminal, addNamedNonterminal, addUnnamedNonterminal, getTerminalIdByName,
    getTerminalNameById, isTerminalId, getNonterminalIdByName, getNonterminalNameById,
    isNonterminalId]
  split <;> split <;> split <;> (try split) <;>
    simp [HMap.get_insert, hij, hij.symm, hnm.symm]

/-- **C04** `get_terminal_name` panics exactly on unregistered ids. -/
theorem C04_terminal_name_total (ops : List VOp) (i : Nat) :
    let v := runOps Vocabulary.new ops
    (v.isTerminalId i = true ↔ ∃ n, v.getTerminalName i = .ok n) ∧
    (v.isTerminalId i = false ↔ v.getTerminalName i = .error .panic) := by
  have h := vinv_reachable ops
  generalize runOps Vocabulary.new ops = v at h
  simp only [isTerminalId, getTerminalName, decide_eq_true_eq, decide_eq_false_iff_not, h.t_mem]
  cases v.tIdToName.get i <;> simp

/-- **C04** ids 0 and 1 are `_START` and `_STOP` in every reachable vocabulary. -/
theorem C04_reserved (ops : List VOp) :
    let v := runOps Vocabulary.new ops
    v.getTerminalName 0 = .ok startName ∧ v.getTerminalName 1 = .ok stopName ∧
    v.getTerminalIdByName startName = some 0 ∧ v.getTerminalIdByName stopName = some 1 := by
  have h := vinv_reachable ops
  refine ⟨?_, ?_, (h.t_inv _ _).2 h.start, (h.t_inv _ _).2 h.stop⟩
  · simp [getTerminalName, h.start]
  · simp [getTerminalName, h.stop]

/-- **C04** the default name of a nonterminal: its registered name, else its decimal id. -/
theorem C04_nonterminal_default_name (v : Vocabulary) (i : Nat) :
    (∀ n, v.getNonterminalNameById i = some n → v.getNonterminalNameWithDefault i = n) ∧
    (v.getNonterminalNameById i = none → v.getNonterminalNameWithDefault i = Nat.toDigits 10 i) := by
  constructor
  · intro n h
    simp only [getNonterminalNameById] at h
    simp [getNonterminalNameWithDefault, h]
  · intro h
    simp only [getNonterminalNameById] at h
    simp [getNonterminalNameWithDefault, h, natToString]

/-- non-vacuity: a history with two rejected duplicates and an anonymous rule -/
example :
    let v := runOps Vocabulary.new
      [.addTerminal 2 ['A'], .addTerminal 2 ['B'], .addTerminal 3 ['A'],
       .addNamedNonterminal 0 ['r'], .addUnnamedNonterminal 9]
    v.getTerminalIdByName ['A'] = some 2 ∧ v.getTerminalIdByName ['B'] = none ∧
    v.getNonterminalNameById 0 = some ['r'] ∧ v.isNonterminalId 9 = true ∧
    v.getNonterminalNameWithDefault 9 = ['9'] ∧
    ((VOp.addTerminal 2 ['B']).run v).2 = false := by decide

end Syntaxis
