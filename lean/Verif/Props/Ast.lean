import Verif.Model.AstAccess
import Verif.Spec.AstFull
import Verif.Props.Parser
import Verif.Props.LexerV1

/-!
# C36–C38: syntax tree accessors
-/

namespace Syntaxis
open Grammar

/-! ## C36 -/

/-- the token of a terminal child of type `a` -/
def Ast.asTerminal (a : Nat) : Ast → Option Token
  | .terminal tok => if tok.tokenType = a then some tok else none
  | _ => none

/-- the token of an error child of type `a` -/
def Ast.asError (a : Nat) : Ast → Option Token
  | .error tok => if tok.tokenType = a then some tok else none
  | _ => none

/-- the context of a rule child with index `a` -/
def Ast.asRule (a : Nat) : Ast → Option RuleContext
  | .rule n i kids => if i = a then some ⟨n, kids, i⟩ else none
  | _ => none

theorem terminalsLoop_eq (a : Nat) (ks : List Ast) (acc : List Token) :
    RuleContext.terminalsLoop a ks acc = acc ++ ks.filterMap (Ast.asTerminal a) := by
  induction ks generalizing acc with
  | nil => simp [RuleContext.terminalsLoop]
  | cons k ks ih =>
    cases k with
    | terminal tok =>
      by_cases h : tok.tokenType = a <;> simp [RuleContext.terminalsLoop, ih, Ast.asTerminal, h]
    | error tok => simp [RuleContext.terminalsLoop, ih, Ast.asTerminal, List.filterMap_cons]
    | rule n i c => simp [RuleContext.terminalsLoop, ih, Ast.asTerminal, List.filterMap_cons]

theorem errornodesLoop_eq (a : Nat) (ks : List Ast) (acc : List Token) :
    RuleContext.errornodesLoop a ks acc = acc ++ ks.filterMap (Ast.asError a) := by
  induction ks generalizing acc with
  | nil => simp [RuleContext.errornodesLoop]
  | cons k ks ih =>
    cases k with
    | error tok =>
      by_cases h : tok.tokenType = a <;> simp [RuleContext.errornodesLoop, ih, Ast.asError, h]
    | terminal tok => simp [RuleContext.errornodesLoop, ih, Ast.asError, List.filterMap_cons]
    | rule n i c => simp [RuleContext.errornodesLoop, ih, Ast.asError, List.filterMap_cons]

theorem ruleContextsLoop_eq (a : Nat) (ks : List Ast) (acc : List RuleContext) :
    RuleContext.ruleContextsLoop a ks acc = acc ++ ks.filterMap (Ast.asRule a) := by
  induction ks generalizing acc with
  | nil => simp [RuleContext.ruleContextsLoop]
  | cons k ks ih =>
    cases k with
    | rule n i c =>
      by_cases h : i = a <;> simp [RuleContext.ruleContextsLoop, ih, Ast.asRule, h]
    | terminal tok => simp [RuleContext.ruleContextsLoop, ih, Ast.asRule, List.filterMap_cons]
    | error tok => simp [RuleContext.ruleContextsLoop, ih, Ast.asRule, List.filterMap_cons]

/-- **C36** the list accessors return exactly the direct children of that kind and type, in order. -/
theorem C36_lists (r : RuleContext) (a : Nat) :
    r.getTerminals a = r.children.filterMap (Ast.asTerminal a) ∧
    r.getErrornodes a = r.children.filterMap (Ast.asError a) ∧
    r.getRuleContexts a = r.children.filterMap (Ast.asRule a) :=
  ⟨by simp [RuleContext.getTerminals, terminalsLoop_eq],
   by simp [RuleContext.getErrornodes, errornodesLoop_eq],
   by simp [RuleContext.getRuleContexts, ruleContextsLoop_eq]⟩

/-- **C36** the indexed accessors return the `i`-th of them, or `None` when there are fewer. -/
theorem C36_indexed (r : RuleContext) (a i : Nat) :
    r.getTerminal a i = (r.children.filterMap (Ast.asTerminal a))[i]? ∧
    r.getErrornode a i = (r.children.filterMap (Ast.asError a))[i]? ∧
    r.getRuleContext a i = (r.children.filterMap (Ast.asRule a))[i]? := by
  obtain ⟨h1, h2, h3⟩ := C36_lists r a
  simp only [RuleContext.getTerminal, RuleContext.getErrornode, RuleContext.getRuleContext, h1, h2, h3]
  refine ⟨?_, ?_, ?_⟩ <;> (split <;> simp_all)

/-- how many children the three accessors return for the given types -/
def RuleContext.countOf (r : RuleContext) (ts es rs : List Nat) : Nat :=
  (ts.map fun a => (r.getTerminals a).length).sum + (es.map fun a => (r.getErrornodes a).length).sum +
    (rs.map fun a => (r.getRuleContexts a).length).sum

theorem sum_one {n : Nat} : ∀ {l : List Nat}, l.Nodup → n ∈ l → (l.map fun a => if n = a then 1 else 0).sum = 1
  | [], _, h => by simp at h
  | x :: l, hd, h => by
    rw [List.nodup_cons] at hd
    rw [List.map_cons, List.sum_cons]
    by_cases hx : n = x
    · subst hx
      have : ∀ {l : List Nat}, n ∉ l → (l.map fun a => if n = a then 1 else 0).sum = 0 := by
        intro l hl
        induction l with
        | nil => rfl
        | cons y l ih =>
          simp only [List.mem_cons, not_or] at hl
          rw [List.map_cons, List.sum_cons, if_neg hl.1, ih hl.2]
      rw [this hd.1, if_pos rfl]
    · rw [if_neg hx, sum_one hd.2 ((List.mem_cons.1 h).resolve_left hx)]

theorem sum_map_add {f g : Nat → Nat} (l : List Nat) :
    (l.map fun a => f a + g a).sum = (l.map f).sum + (l.map g).sum := by
  induction l with
  | nil => rfl
  | cons a l ih => simp only [List.map_cons, List.sum_cons, ih]; omega

/-- **C36** The accessors account for the children: those of one kind and type appear among all children in the same
order, and counting them over all the types that occur gives the number of children. -/
theorem C36_children (r : RuleContext) :
    (∀ a, r.getChildren.filterMap (Ast.asTerminal a) = r.getTerminals a ∧
      r.getChildren.filterMap (Ast.asError a) = r.getErrornodes a ∧
      r.getChildren.filterMap (Ast.asRule a) = r.getRuleContexts a) ∧
    ∀ ts es rs : List Nat, ts.Nodup → es.Nodup → rs.Nodup →
      (∀ t, Ast.terminal t ∈ r.getChildren → t.tokenType ∈ ts) →
      (∀ t, Ast.error t ∈ r.getChildren → t.tokenType ∈ es) →
      (∀ n i ks, Ast.rule n i ks ∈ r.getChildren → i ∈ rs) →
      r.countOf ts es rs = r.getChildCount := by
  refine ⟨fun a => ?_, ?_⟩
  · obtain ⟨h1, h2, h3⟩ := C36_lists r a
    exact ⟨h1.symm, h2.symm, h3.symm⟩
  · obtain ⟨n, kids, i⟩ := r
    intro ts es rs ht he hr
    simp only [RuleContext.countOf, C36_lists, RuleContext.getChildren, RuleContext.getChildCount]
    induction kids with
    | nil => intros; simp
    | cons k kids ih =>
      intro h1 h2 h3
      have ih := ih (fun t h => h1 t (by simp [h])) (fun t h => h2 t (by simp [h])) (fun n i ks h => h3 n i ks (by simp [h]))
      cases k with
      | terminal t =>
        have e : ∀ a, (List.filterMap (Ast.asTerminal a) (.terminal t :: kids)).length =
            (if t.tokenType = a then 1 else 0) + (List.filterMap (Ast.asTerminal a) kids).length := by
          intro a
          by_cases h : t.tokenType = a <;> simp [Ast.asTerminal, h]
          omega
        simp only [e, sum_map_add, sum_one ht (h1 t (by simp))]
        simp only [List.filterMap_cons, Ast.asError, Ast.asRule, List.length_cons]
        omega
      | error t =>
        have e : ∀ a, (List.filterMap (Ast.asError a) (.error t :: kids)).length =
            (if t.tokenType = a then 1 else 0) + (List.filterMap (Ast.asError a) kids).length := by
          intro a
          by_cases h : t.tokenType = a <;> simp [Ast.asError, h]
          omega
        simp only [e, sum_map_add, sum_one he (h2 t (by simp))]
        simp only [List.filterMap_cons, Ast.asTerminal, Ast.asRule, List.length_cons]
        omega
      | rule m j c =>
        have e : ∀ a, (List.filterMap (Ast.asRule a) (.rule m j c :: kids)).length =
            (if j = a then 1 else 0) + (List.filterMap (Ast.asRule a) kids).length := by
          intro a
          by_cases h : j = a <;> simp [Ast.asRule, h]
          omega
        simp only [e, sum_map_add, sum_one hr (h3 m j c (by simp))]
        simp only [List.filterMap_cons, Ast.asTerminal, Ast.asError, List.length_cons]
        omega

/-- non-vacuity of the second part of `C36_children` -/
example : RuleContext.countOf
    ⟨[], [.terminal (tk 2), .rule [] 2 [.terminal (tk 2)], .error (tk 2), .terminal (tk 3)], 0⟩ [3, 2] [2] [5, 2] = 4 := by
  decide

/-- non-vacuity: the second token of type 2 among mixed children -/
example : RuleContext.getTerminal
    ⟨[], [.terminal (tk 2), .rule [] 2 [.terminal (tk 2)], .error (tk 2), .terminal { tk 2 with text := ['x'] }], 0⟩
    2 1 = some { tk 2 with text := ['x'] } := by decide

/-! ## C37 -/

mutual
theorem startTokenOf_sound : ∀ {k : Ast} {tok : Token}, startTokenOf k = some tok → k.leaves.head? = some tok
  | .terminal t, tok, h => by simpa [startTokenOf, Ast.leaves] using h
  | .error t, tok, h => by simpa [startTokenOf, Ast.leaves] using h
  | .rule n i kids, tok, h => by
    simp only [startTokenOf] at h
    simpa [Ast.leaves] using startToken_sound h
theorem startToken_sound : ∀ {ks : List Ast} {tok : Token}, startToken ks = some tok → (Ast.leavesList ks).head? = some tok
  | [], tok, h => by simp [startToken] at h
  | k :: ks, tok, h => by
    simp only [startToken] at h
    simp [Ast.leavesList, startTokenOf_sound h]
end

mutual
theorem firstTerminalOf_sound : ∀ {k : Ast} {tok : Token}, firstTerminalOf k = some tok → k.leaves.head? = some tok
  | .terminal t, tok, h => by simpa [firstTerminalOf, Ast.leaves] using h
  | .error t, tok, h => by simpa [firstTerminalOf, Ast.leaves] using h
  | .rule n i kids, tok, h => by
    simp only [firstTerminalOf] at h
    simpa [Ast.leaves] using firstTerminal_sound h
theorem firstTerminal_sound : ∀ {ks : List Ast} {tok : Token}, firstTerminal ks = some tok → (Ast.leavesList ks).head? = some tok
  | [], tok, h => by simp [firstTerminal] at h
  | k :: ks, tok, h => by
    simp only [firstTerminal] at h
    simp [Ast.leavesList, firstTerminalOf_sound h]
end

mutual
theorem endTokenOf_sound : ∀ {k : Ast} {tok : Token}, endTokenOf k = some tok → k.leaves.getLast? = some tok
  | .terminal t, tok, h => by simpa [endTokenOf, Ast.leaves] using h
  | .error t, tok, h => by simpa [endTokenOf, Ast.leaves] using h
  | .rule n i kids, tok, h => by
    simp only [endTokenOf] at h
    simpa [Ast.leaves] using stopToken_sound h
theorem stopToken_sound : ∀ {ks : List Ast} {tok : Token}, endToken ks = some tok → (Ast.leavesList ks).getLast? = some tok
  | [], tok, h => by simp [endToken] at h
  | [k], tok, h => by
    simp only [endToken] at h
    simp [Ast.leavesList, endTokenOf_sound h]
  | x :: k :: ks, tok, h => by
    rw [endToken] at h
    have := stopToken_sound h
    rw [Ast.leavesList, List.getLast?_append, this]
    rfl
end

mutual
theorem lastTerminalOf_sound : ∀ {k : Ast} {tok : Token}, lastTerminalOf k = some tok → k.leaves.getLast? = some tok
  | .terminal t, tok, h => by simpa [lastTerminalOf, Ast.leaves] using h
  | .error t, tok, h => by simpa [lastTerminalOf, Ast.leaves] using h
  | .rule n i kids, tok, h => by
    simp only [lastTerminalOf] at h
    simpa [Ast.leaves] using lastTerminal_sound h
theorem lastTerminal_sound : ∀ {ks : List Ast} {tok : Token}, lastTerminal ks = some tok → (Ast.leavesList ks).getLast? = some tok
  | [], tok, h => by simp [lastTerminal] at h
  | [k], tok, h => by
    simp only [lastTerminal] at h
    simp [Ast.leavesList, lastTerminalOf_sound h]
  | x :: k :: ks, tok, h => by
    rw [lastTerminal] at h
    have := lastTerminal_sound h
    rw [Ast.leavesList, List.getLast?_append, this]
    rfl
end

mutual
theorem FullList.startOf : ∀ {k : Ast}, k.Full → ∃ tok, startTokenOf k = some tok
  | .terminal t, _ => ⟨t, rfl⟩
  | .error t, _ => ⟨t, rfl⟩
  | .rule n i kids, h => by
    simp only [Ast.Full] at h
    simpa [startTokenOf] using FullList.start h.1 h.2
theorem FullList.start : ∀ {ks : List Ast}, ks ≠ [] → Ast.FullList ks → ∃ tok, startToken ks = some tok
  | [], h, _ => absurd rfl h
  | k :: ks, _, h => by
    simp only [Ast.FullList] at h
    simpa [startToken] using FullList.startOf h.1
end

mutual
theorem FullList.stopOf : ∀ {k : Ast}, k.Full → ∃ tok, endTokenOf k = some tok
  | .terminal t, _ => ⟨t, rfl⟩
  | .error t, _ => ⟨t, rfl⟩
  | .rule n i kids, h => by
    simp only [Ast.Full] at h
    simpa [endTokenOf] using FullList.stop h.1 h.2
theorem FullList.stop : ∀ {ks : List Ast}, ks ≠ [] → Ast.FullList ks → ∃ tok, endToken ks = some tok
  | [], h, _ => absurd rfl h
  | [k], _, h => by
    simp only [Ast.FullList] at h
    simpa [endToken] using FullList.stopOf h.1
  | x :: k :: ks, _, h => by
    rw [Ast.FullList] at h
    rw [endToken]
    exact FullList.stop (by simp) h.2
end

mutual
theorem FullList.firstOf : ∀ {k : Ast}, k.Full → k.ErrorFree → ∃ tok, firstTerminalOf k = some tok
  | .terminal t, _, _ => ⟨t, rfl⟩
  | .error t, _, h => h.elim
  | .rule n i kids, h, he => by
    simp only [Ast.Full, Ast.ErrorFree] at h he
    simpa [firstTerminalOf] using FullList.first h.1 h.2 he
theorem FullList.first : ∀ {ks : List Ast}, ks ≠ [] → Ast.FullList ks → Ast.ErrorFreeList ks → ∃ tok, firstTerminal ks = some tok
  | [], h, _, _ => absurd rfl h
  | k :: ks, _, h, he => by
    simp only [Ast.FullList, Ast.ErrorFreeList] at h he
    simpa [firstTerminal] using FullList.firstOf h.1 he.1
end

mutual
theorem FullList.lastOf : ∀ {k : Ast}, k.Full → k.ErrorFree → ∃ tok, lastTerminalOf k = some tok
  | .terminal t, _, _ => ⟨t, rfl⟩
  | .error t, _, h => h.elim
  | .rule n i kids, h, he => by
    simp only [Ast.Full, Ast.ErrorFree] at h he
    simpa [lastTerminalOf] using FullList.last h.1 h.2 he
theorem FullList.last : ∀ {ks : List Ast}, ks ≠ [] → Ast.FullList ks → Ast.ErrorFreeList ks → ∃ tok, lastTerminal ks = some tok
  | [], h, _, _ => absurd rfl h
  | [k], _, h, he => by
    simp only [Ast.FullList, Ast.ErrorFreeList] at h he
    simpa [lastTerminal] using FullList.lastOf h.1 he.1
  | x :: k :: ks, _, h, he => by
    rw [Ast.FullList] at h
    rw [Ast.ErrorFreeList] at he
    rw [lastTerminal]
    exact FullList.last (by simp) h.2 he.2
end

/-- **C37** whatever token is returned is the right one, on every tree. -/
theorem C37_sound (r : RuleContext) (tok : Token) :
    (r.getStartToken = some tok → r.toAst.leaves.head? = some tok) ∧
    (r.getStopToken = some tok → r.toAst.leaves.getLast? = some tok) ∧
    (r.getFirstTerminal = some tok → r.toAst.leaves.head? = some tok) ∧
    (r.getLastTerminal = some tok → r.toAst.leaves.getLast? = some tok) := by
  simp only [RuleContext.toAst, Ast.leaves]
  exact ⟨startToken_sound, stopToken_sound, firstTerminal_sound, lastTerminal_sound⟩

theorem tips_ne_nil : ∀ k : Ast, k.tips ≠ []
  | .terminal t => by simp [Ast.tips]
  | .error t => by simp [Ast.tips]
  | .rule n i [] => by simp [Ast.tips]
  | .rule n i (k :: ks) => by
    have := tips_ne_nil k
    simp [Ast.tips, Ast.tipsList, this]

mutual
theorem tips_startOf : ∀ k : Ast, startTokenOf k = k.tips.head?.bind Ast.tipToken ∧
    firstTerminalOf k = k.tips.head?.bind Ast.tipTerminal
  | .terminal t => by simp [startTokenOf, firstTerminalOf, Ast.tips, Ast.tipToken, Ast.tipTerminal]
  | .error t => by simp [startTokenOf, firstTerminalOf, Ast.tips, Ast.tipToken, Ast.tipTerminal]
  | .rule n i [] => by
    simp [startTokenOf, firstTerminalOf, startToken, firstTerminal, Ast.tips, Ast.tipToken, Ast.tipTerminal]
  | .rule n i (k :: ks) => by
    have h := tips_startOf k
    obtain ⟨x, l, hx⟩ := List.exists_cons_of_ne_nil (tips_ne_nil k)
    simp only [hx] at h
    simp [startTokenOf, firstTerminalOf, startToken, firstTerminal, Ast.tips, Ast.tipsList, hx, h]
end

mutual
theorem tips_stopOf : ∀ k : Ast, endTokenOf k = k.tips.getLast?.bind Ast.tipToken ∧
    lastTerminalOf k = k.tips.getLast?.bind Ast.tipTerminal
  | .terminal t => by simp [endTokenOf, lastTerminalOf, Ast.tips, Ast.tipToken, Ast.tipTerminal]
  | .error t => by simp [endTokenOf, lastTerminalOf, Ast.tips, Ast.tipToken, Ast.tipTerminal]
  | .rule n i [] => by
    simp [endTokenOf, lastTerminalOf, endToken, lastTerminal, Ast.tips, Ast.tipToken, Ast.tipTerminal]
  | .rule n i (k :: ks) => by
    have h := tips_stop (k :: ks) (by simp)
    simpa [endTokenOf, lastTerminalOf, Ast.tips] using h
theorem tips_stop : ∀ ks : List Ast, ks ≠ [] →
    endToken ks = (Ast.tipsList ks).getLast?.bind Ast.tipToken ∧
    lastTerminal ks = (Ast.tipsList ks).getLast?.bind Ast.tipTerminal
  | [], h => absurd rfl h
  | [k], _ => by simpa [endToken, lastTerminal, Ast.tipsList] using tips_stopOf k
  | x :: k :: ks, _ => by
    have h := tips_stop (k :: ks) (by simp)
    have hne : Ast.tipsList (k :: ks) ≠ [] := by
      have := tips_ne_nil k
      simp [Ast.tipsList, this]
    obtain ⟨y, hy⟩ : ∃ y, (Ast.tipsList (k :: ks)).getLast? = some y :=
      ⟨_, List.getLast?_eq_some_getLast hne⟩
    rw [endToken, lastTerminal, Ast.tipsList, List.getLast?_append, h.1, h.2, hy]
    exact ⟨rfl, rfl⟩
end

/-- **C37**, exactly: on every tree the accessors look at the first (last) childless node; if that is an
empty rule node they return `None`, and the terminal accessors return `None` on an error node too. -/
theorem C37_exact (r : RuleContext) :
    r.getStartToken = r.toAst.tips.head?.bind Ast.tipToken ∧
    r.getStopToken = r.toAst.tips.getLast?.bind Ast.tipToken ∧
    r.getFirstTerminal = r.toAst.tips.head?.bind Ast.tipTerminal ∧
    r.getLastTerminal = r.toAst.tips.getLast?.bind Ast.tipTerminal := by
  have h1 := tips_startOf r.toAst
  have h2 := tips_stopOf r.toAst
  simp only [RuleContext.toAst, startTokenOf, firstTerminalOf, endTokenOf, lastTerminalOf] at h1 h2
  exact ⟨h1.1, h2.1, h1.2, h2.2⟩

/-- non-vacuity: an error node first, an empty rule last -/
example : (⟨[], [.rule [] 1 [.error (tk 2), .terminal (tk 3)], .rule [] 2 []], 0⟩ : RuleContext).getStartToken
      = some (tk 2) ∧
    (⟨[], [.rule [] 1 [.error (tk 2), .terminal (tk 3)], .rule [] 2 []], 0⟩ : RuleContext).getFirstTerminal
      = none ∧
    (⟨[], [.rule [] 1 [.error (tk 2), .terminal (tk 3)], .rule [] 2 []], 0⟩ : RuleContext).getStopToken
      = none := by decide +kernel

/-- **C37**, what holds: on trees without empty rule nodes (and without error nodes for the terminal
accessors) the tokens are found.  Missing (false): trees with empty rule nodes. -/
theorem C37_found_partial (r : RuleContext) (hf : r.toAst.Full) :
    r.getStartToken = r.toAst.leaves.head? ∧ r.getStopToken = r.toAst.leaves.getLast? ∧
    (r.toAst.ErrorFree → r.getFirstTerminal = r.toAst.leaves.head? ∧
      r.getLastTerminal = r.toAst.leaves.getLast?) := by
  simp only [RuleContext.toAst, Ast.leaves, Ast.Full, Ast.ErrorFree] at hf ⊢
  obtain ⟨t1, h1⟩ := FullList.start hf.1 hf.2
  obtain ⟨t2, h2⟩ := FullList.stop hf.1 hf.2
  refine ⟨by rw [RuleContext.getStartToken, h1, startToken_sound h1],
    by rw [RuleContext.getStopToken, h2, stopToken_sound h2], fun he => ?_⟩
  obtain ⟨t3, h3⟩ := FullList.first hf.1 hf.2 he
  obtain ⟨t4, h4⟩ := FullList.last hf.1 hf.2 he
  exact ⟨by rw [RuleContext.getFirstTerminal, h3, firstTerminal_sound h3],
    by rw [RuleContext.getLastTerminal, h4, lastTerminal_sound h4]⟩

/-- **C37** is false of the code: with an empty rule as first (last) child nothing is returned, whatever
other children there are. -/
theorem C37_empty_child_hides (n : Str) (i : Nat) (r : RuleContext) (ks : List Ast) :
    (r.children = .rule n i [] :: ks → r.getStartToken = none ∧ r.getFirstTerminal = none) ∧
    (r.children = ks ++ [.rule n i []] → r.getStopToken = none ∧ r.getLastTerminal = none) := by
  constructor
  · intro h
    simp [RuleContext.getStartToken, RuleContext.getFirstTerminal, h, startToken, firstTerminal, startTokenOf, firstTerminalOf]
  · intro h
    simp only [RuleContext.getStopToken, RuleContext.getLastTerminal, h]
    clear h
    have : ∀ k, endToken (ks ++ [k]) = endToken [k] ∧ lastTerminal (ks ++ [k]) = lastTerminal [k] := by
      intro k
      induction ks with
      | nil => simp
      | cons x ks ih =>
        cases ks with
        | nil => exact ⟨by simp [endToken], by simp [lastTerminal]⟩
        | cons y ks =>
          rw [List.cons_append, List.cons_append, endToken, lastTerminal]
          exact ih
    rw [(this _).1, (this _).2]
    simp [endToken, lastTerminal, endTokenOf, lastTerminalOf]

/-- `s : a RULE_REF ; a : ;` with both rules named -/
def emptyFirst : Grammar where
  name := []
  vocabulary := ((Vocabulary.new.addTerminal 2 "RULE_REF".toList).1.addNamedNonterminal 0 ['s']).1.addNamedNonterminal 1 ['a'] |>.1
  productions := [⟨0, [.nt 1, .t 2]⟩, ⟨1, []⟩]

/-- some iteration order of it -/
def emptyFirstOrder : IterOrder emptyFirst where
  ids := [0, 1]
  ids_mem := by
    intro i
    have : emptyFirst.vocabulary.nonterminals = {0, 1} := by decide
    rw [this]; simp
  ord := emptyFirst.productions
  ord_perm := List.Perm.refl _
  ord_nodup := by decide

/-- lexer, table and parser of `main.rs` in sequence, on rule 0, followed by `f` -/
def pipeline {α : Type} (g : Grammar) (o : IterOrder g) (input : Str)
    (f : RuleContext → MismatchLog → Res α) : Res α := do
  let (toks, _, _) ← (V1.lexer isDigit09 input).scanAll V1.WHITE_SPACE 0 100
  let ts ← runTable g o incSetOrder 100
  let (r, log) ← (parserOf g ts toks).parse 100
  f r log

/-- **C37** is false of the code: such a tree is built by the parser without any message. -/
theorem C37_start_token_lost :
    pipeline emptyFirst emptyFirstOrder "abc".toList (fun r log =>
      .ok (r.getStartToken.isSome, r.toAst.leaves.map Token.text, log)) =
    .ok (false, ["abc".toList], []) := by decide +kernel

/-! ### trees built by the parser -/

theorem fullList_append {a b : List Ast} (ha : Ast.FullList a) (hb : Ast.FullList b) :
    Ast.FullList (a ++ b) := by
  induction a with
  | nil => exact hb
  | cons x a ih =>
    simp only [Ast.FullList, List.cons_append] at ha ⊢
    exact ⟨ha.1, ih ha.2⟩

theorem Run.empty {ps : Parser} {α : List Item} {c : Nat} {f : List PTree} {ks : List Ast} {d : Nat}
    {l : MismatchLog} (h : Run ps α c f ks d l) (hk : ks = []) : PTree.yields f = [] := by
  induction h with
  | nil => rfl
  | t => cases hk
  | @nt A tok p c c1 c2 rest f1 f2 ks1 ks2 l1 l2 _ _ _ _ ih1 ih2 =>
    rw [List.append_eq_nil_iff] at hk
    obtain ⟨hw, h2⟩ := hk
    simp only [Parser.wrap] at hw
    split at hw
    · cases hw
    · simp [PTree.yields, PTree.yield, ih1 hw, ih2 h2]

theorem Run.full {ps : Parser} {P : List Production} (hT : TableOf P ps.table)
    (hn : ∀ A n, ps.vocabulary.getNonterminalNameById A = some n → ¬ Nullable P [.nt A])
    {α : List Item} {c : Nat} {f : List PTree} {ks : List Ast} {d : Nat} {l : MismatchLog}
    (h : Run ps α c f ks d l) : Ast.FullList ks := by
  induction h with
  | nil => trivial
  | t _ _ ih => exact ⟨trivial, ih⟩
  | @nt A tok p c c1 c2 rest f1 f2 ks1 ks2 l1 l2 htok hp hr1 hr2 ih1 ih2 =>
    refine fullList_append ?_ ih2
    simp only [Parser.wrap]
    split
    · rename_i n hname
      refine ⟨⟨?_, ih1⟩, trivial⟩
      intro hk
      obtain ⟨hp1, hp2⟩ := hT _ _ _ hp
      obtain ⟨hv, hroot⟩ := hr1.valid hT
      have hy := PTree.Valids.derives hv
      rw [hroot, hr1.empty hk] at hy
      refine hn A n hname ?_
      rw [← hp2]
      refine Relation.ReflTransGen.head (Step.mk (u := []) (v := []) p hp1) ?_
      have := yields_iff.1 hy
      simpa [Derives] using this
    · exact ih1

/-- **C37** for trees built by the parser: if no named rule can derive the empty string, the start token
is the first token parsed and the stop token the last one. -/
theorem C37_parser_trees_partial (g : Grammar) (o : IterOrder g) (so : SetOrder) (fuel : Nat) (ts : TableState)
    (h : runTable g o so fuel = .ok ts) (toks : List Token) (A fuel' : Nat) (r : RuleContext)
    (log : MismatchLog) (hr : (parserOf g ts toks).parseRule A fuel' = .ok (r, log))
    (hn : ∀ B n, g.vocabulary.getNonterminalNameById B = some n → ¬ Nullable g.productions [.nt B])
    (hA : (g.vocabulary.getNonterminalNameById A).isSome) :
    ∃ k, 0 < k ∧ k ≤ toks.length ∧ r.getStartToken = toks[0]? ∧ r.getStopToken = toks[k - 1]? ∧
      r.toAst.leaves = toks.take k := by
  obtain ⟨k, hk, hl⟩ := C18_leaves_are_consumed_tokens _ A fuel' r log hr
  obtain ⟨c, hr⟩ := Parser.parseRule_ok.1 hr
  obtain ⟨_, _, tok, p, f, htok, hp, hrun⟩ := parseAst_run hr
  have hfull := hrun.full (tableOf_of h) hn
  obtain ⟨hv, hroot⟩ := hrun.valid (tableOf_of h)
  have hne : r.children ≠ [] := by
    intro hk
    obtain ⟨n, hA⟩ := Option.isSome_iff_exists.1 hA
    refine hn A n hA ?_
    obtain ⟨hp1, hp2⟩ := tableOf_of h _ _ _ hp
    have hy := PTree.Valids.derives hv
    rw [hroot, hrun.empty hk] at hy
    rw [← hp2]
    refine Relation.ReflTransGen.head (Step.mk (u := []) (v := []) p hp1) ?_
    have := yields_iff.1 hy
    simpa [Derives] using this
  obtain ⟨h1, h2, _⟩ := C37_found_partial r ⟨hne, hfull⟩
  obtain ⟨t, ht⟩ := FullList.start hne hfull
  have ht' := startToken_sound ht
  simp only [parserOf] at hk hl
  have hkpos : 0 < k := by
    rcases Nat.eq_zero_or_pos k with rfl | hp
    · simp only [RuleContext.toAst, Ast.leaves, List.take_zero] at hl
      rw [hl] at ht'; cases ht'
    · exact hp
  refine ⟨k, hkpos, hk, ?_, ?_, hl⟩
  · rw [h1, hl, List.head?_take, if_neg (by omega), List.head?_eq_getElem?]
  · rw [h2, hl, List.getLast?_eq_getElem?, List.length_take, Nat.min_eq_left hk, List.getElem?_take,
      if_pos (by omega)]

/-- non-vacuity: in `llGrammar` no named rule is nullable (see `llGrammar_table` for the table) -/
example : ∀ B n, llGrammar.vocabulary.getNonterminalNameById B = some n →
    ¬ Nullable llGrammar.productions [.nt B] := by
  intro B n hB hnull
  have hB' : B = 0 ∨ B = 2 := by
    by_contra hc
    rw [not_or] at hc
    have h0 : llGrammar.vocabulary.getNonterminalNameById B = none := by
      simp only [llGrammar, Vocabulary.getNonterminalNameById, Vocabulary.addNamedNonterminal,
        Vocabulary.addUnnamedNonterminal]
      simp [Vocabulary.new, Vocabulary.addTerminal, Vocabulary.blank, HMap.containsKey, HMap.get, HMap.empty,
        HMap.find, HMap.insert, HMap.erase, Vocabulary.startName, Vocabulary.stopName]
      rw [if_neg (Ne.symm hc.2), if_neg (Ne.symm hc.1)]
    rw [h0] at hB; cases hB
  have h2 : ¬ Nul llGrammar.productions [.nt 2] := by
    intro h
    obtain ⟨⟨p, hp, hl, hr⟩, _⟩ := nul_nt.1 h
    simp only [llGrammar, List.mem_cons, List.not_mem_nil, or_false] at hp
    rcases hp with rfl | rfl | rfl | rfl <;> simp at hl
    exact not_nul_t hr
  rw [← nul_iff] at hnull
  rcases hB' with rfl | rfl
  · obtain ⟨⟨p, hp, hl, hr⟩, _⟩ := nul_nt.1 hnull
    simp only [llGrammar, List.mem_cons, List.not_mem_nil, or_false] at hp
    rcases hp with rfl | rfl | rfl | rfl <;> simp at hl
    exact h2 (nul_cons.1 hr).1
  · exact h2 hnull

/-! ## C38 -/

theorem covered_append (a b : List Token) : covered (a ++ b) = covered a ++ covered b := by
  simp [covered]

/-- **C38**, what holds: for every tree without empty rule nodes whose leaves are (in order) some of the
scanned tokens other than `_STOP`, `get_text` is the source text from the first leaf to the last leaf,
including everything skipped in between.  Missing (false): trees with empty rule nodes or `_STOP`. -/
theorem C38_get_text_partial {ms : List Matcher} {names : List Str} {input : Str} (hok : LexerOk ms names)
    (toks : List Token) (l : Lexer) (h : Scans Lexer.scan (Lexer.new ms names input) toks l)
    (r : RuleContext) (hf : r.toAst.Full) (hs : r.toAst.leaves.Sublist toks)
    (hstop : ∀ t ∈ r.toAst.leaves, t.tokenType ≠ 1) :
    ∃ i j a b, i ≤ j ∧ toks[i]? = some a ∧ toks[j]? = some b ∧ r.toAst.leaves.head? = some a ∧
      r.toAst.leaves.getLast? = some b ∧
      r.getText input = .ok (covered ((toks.take (j + 1)).drop i)) := by
  obtain ⟨h1, h2, _⟩ := C37_found_partial r hf
  have hlne : r.toAst.leaves ≠ [] := by
    obtain ⟨t, ht⟩ := FullList.start hf.1 hf.2
    have := startToken_sound ht
    intro he
    simp only [RuleContext.toAst, Ast.leaves] at he
    rw [he] at this; cases this
  generalize hL : r.toAst.leaves = L at *
  obtain ⟨a, ha⟩ : ∃ a, L.head? = some a := ⟨_, List.head?_eq_some_head hlne⟩
  obtain ⟨b, hb⟩ : ∃ b, L.getLast? = some b := ⟨_, List.getLast?_eq_some_getLast hlne⟩
  obtain ⟨hidx, _, _⟩ := C31_end_token hok toks l h
  have ham : a ∈ L := List.mem_of_mem_head? ha
  have hbm : b ∈ L := List.mem_of_getLast? hb
  obtain ⟨i, hi⟩ := List.getElem?_of_mem (hs.subset ham)
  obtain ⟨j, hj⟩ := List.getElem?_of_mem (hs.subset hbm)
  have hpw : toks.Pairwise (fun x y => x.tokenIndex < y.tokenIndex) := by
    rw [List.pairwise_iff_getElem]
    intro m n hm hn hlt
    rw [hidx m _ (List.getElem?_eq_getElem hm), hidx n _ (List.getElem?_eq_getElem hn)]
    exact hlt
  have hij : i ≤ j := by
    have hpl := hpw.sublist hs
    have hle : a.tokenIndex ≤ b.tokenIndex := by
      cases L with
      | nil => exact absurd rfl hlne
      | cons x L =>
        simp only [List.head?_cons, Option.some.injEq] at ha
        subst ha
        rcases List.mem_cons.1 hbm with rfl | hbm
        · exact Nat.le_refl _
        · exact Nat.le_of_lt ((List.pairwise_cons.1 hpl).1 b hbm)
    rw [hidx i a hi, hidx j b hj] at hle
    exact hle
  refine ⟨i, j, a, b, hij, hi, hj, ha, hb, ?_⟩
  obtain ⟨a1, a2, a3⟩ := C29_offsets hok toks l h i a hi (hstop a ham)
  obtain ⟨b1, b2, b3⟩ := C29_offsets hok toks l h j b hj (hstop b hbm)
  obtain ⟨rest, hin, _⟩ := C29_lossless hok toks l h
  simp only [RuleContext.getText, h1, h2, ha, hb]
  have e1 : toks.take (j + 1) = toks.take i ++ (toks.take (j + 1)).drop i := by
    conv_lhs => rw [← List.take_append_drop i (toks.take (j + 1))]
    rw [List.take_take, Nat.min_eq_left (by omega)]
  have e2 : covered (toks.take (j + 1)) = covered (toks.take j) ++ b.text := by
    rw [List.take_add_one, hj, covered_append]
    simp [covered, hstop b hbm]
  have e3 : input = covered (toks.take i) ++ (covered ((toks.take (j + 1)).drop i) ++
      (covered (toks.drop (j + 1)) ++ rest)) := by
    rw [← List.append_assoc, ← covered_append, ← e1, ← List.append_assoc, ← covered_append,
      List.take_append_drop]
    exact hin
  have e4 : b.charStopIndex = byteLen (covered (toks.take i)) +
      byteLen (covered ((toks.take (j + 1)).drop i)) := by
    rw [b2, b1, ← byteLen_append, ← e2, ← byteLen_append, ← covered_append, ← e1]
  rw [a1, e4]
  conv_lhs => rw [e3]
  exact slice_append _ _ _

/-- `s : RULE_REF RULE_REF ;` -/
def twoRefs : Grammar where
  name := []
  vocabulary := ((Vocabulary.new.addTerminal 2 "RULE_REF".toList).1.addNamedNonterminal 0 ['s']).1
  productions := [⟨0, [.t 2, .t 2]⟩]

/-- some iteration order of it -/
def twoRefsOrder : IterOrder twoRefs where
  ids := [0]
  ids_mem := by
    intro i
    have : twoRefs.vocabulary.nonterminals = {0} := by decide
    rw [this]; simp
  ord := twoRefs.productions
  ord_perm := List.Perm.refl _
  ord_nodup := by decide

/-- non-vacuity of `C38_get_text_partial`: skipped white space is part of the text -/
example : pipeline twoRefs twoRefsOrder " ab  εε".toList (fun r _ => r.getText " ab  εε".toList) =
    .ok "ab  ε".toList := by decide +kernel

/-- **C38** is false of the code: when the input ends too early the parser takes `_STOP` as a leaf, and
`get_text` of the result panics. -/
theorem C38_stop_leaf_panics :
    pipeline twoRefs twoRefsOrder "ab".toList (fun r _ => r.getText "ab".toList) = .error .panic := by
  decide +kernel

/-- **C38** is false of the code: with an empty rule as first child the text is empty, although the node
covers the whole input. -/
theorem C38_text_lost :
    pipeline emptyFirst emptyFirstOrder "abc".toList (fun r log => do
      let t ← r.getText "abc".toList
      .ok (t, r.toAst.leaves.map Token.text, log)) = .ok ([], ["abc".toList], []) := by decide +kernel

end Syntaxis
