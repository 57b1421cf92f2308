import Verif.Model.GrammarVisitor
import Verif.Props.Traversal
import Verif.Props.Vocabulary

/-! # The first two passes as folds over the topmost selected nodes -/

namespace Syntaxis

theorem litVisitor_quiet (lc : LexConsts) : (litVisitor lc).Quiet :=
  ⟨⟨_, fun _ => rfl⟩, fun _ b => ⟨b, fun _ => rfl⟩, fun _ _ _ => rfl⟩

theorem litVisitor_opaque (lc : LexConsts) : (litVisitor lc).Opaque := by
  intro k f h c th th'
  cases k <;> simp [litVisitor] at h <;> subst h <;> rfl

theorem symVisitor_quiet (lc : LexConsts) : (symVisitor lc).Quiet :=
  ⟨⟨_, fun _ => rfl⟩, fun _ b => ⟨b, fun _ => rfl⟩, fun _ _ _ => rfl⟩

theorem symVisitor_opaque (lc : LexConsts) : (symVisitor lc).Opaque := by
  intro k f h c th th'
  cases k <;> simp [symVisitor] at h <;> subst h <;> rfl

theorem runLit_eq (lc : LexConsts) (r : RuleContext) (s : LitState) :
    runLit lc r s = (Ast.frontierList (litVisitor lc).overridden r.children).foldlM
      (fun s a => (litVisitor lc).callOn a s) s := by
  rw [← Visitor.loop_frontier (litVisitor lc) (litVisitor_quiet lc) (litVisitor_opaque lc) r r.children () s]
  have h : (litVisitor lc).accept .ruleList r s = (litVisitor lc).visitLoop r r.children () s := rfl
  rw [runLit, h]
  cases (litVisitor lc).visitLoop r r.children () s <;> rfl

theorem runSym_eq (lc : LexConsts) (r : RuleContext) (s : SymState) :
    runSym lc r s = (Ast.frontierList (symVisitor lc).overridden r.children).foldlM
      (fun s a => (symVisitor lc).callOn a s) s := by
  rw [← Visitor.loop_frontier (symVisitor lc) (symVisitor_quiet lc) (symVisitor_opaque lc) r r.children () s]
  have h : (symVisitor lc).accept .ruleList r s = (symVisitor lc).visitLoop r r.children () s := rfl
  rw [runSym, h]
  cases (symVisitor lc).visitLoop r r.children () s <;> rfl

theorem foldlM_inv {σ : Type} {f : σ → Ast → Res σ} {I : σ → Prop}
    (hf : ∀ s a s', I s → f s a = .ok s' → I s') (l : List Ast) (s s' : σ) (hs : I s)
    (h : l.foldlM f s = .ok s') : I s' := by
  induction l generalizing s with
  | nil => cases h; exact hs
  | cons a l ih =>
    rw [List.foldlM_cons, bind_eq_ok] at h
    obtain ⟨s1, h1, h2⟩ := h
    exact ih s1 (hf s a s1 hs h1) h2

theorem ofIndex_parserRule {i : Nat} : RuleKind.ofIndex i = some .parserRule ↔ i = 1 := by
  rcases i with _|_|_|_|_|_|_|_|_|i <;> simp [RuleKind.ofIndex]
theorem ofIndex_lexerRule {i : Nat} : RuleKind.ofIndex i = some .lexerRule ↔ i = 7 := by
  rcases i with _|_|_|_|_|_|_|_|_|i <;> simp [RuleKind.ofIndex]
theorem ofIndex_element {i : Nat} : RuleKind.ofIndex i = some .element ↔ i = 5 := by
  rcases i with _|_|_|_|_|_|_|_|_|i <;> simp [RuleKind.ofIndex]

theorem lit_overridden (lc : LexConsts) (c : RuleContext) :
    (litVisitor lc).overridden c = decide (c.ruleIndex = 5) := by
  obtain ⟨n, ks, i⟩ := c
  rcases i with _|_|_|_|_|_|_|_|_|i <;> rfl

theorem sym_overridden (lc : LexConsts) (c : RuleContext) :
    (symVisitor lc).overridden c = decide (c.ruleIndex = 1 ∨ c.ruleIndex = 7) := by
  obtain ⟨n, ks, i⟩ := c
  rcases i with _|_|_|_|_|_|_|_|_|i <;> rfl

theorem sym_callOn (lc : LexConsts) (a : Ast) (s : SymState) :
    (symVisitor lc).callOn a s =
      match a with
      | .rule n 1 ks => (symVisitParserRule lc ⟨n, ks, 1⟩ s).map Prod.snd
      | .rule n 7 ks => (symVisitLexerRule lc ⟨n, ks, 7⟩ s).map Prod.snd
      | _ => .ok s := by
  cases a with
  | terminal t => rfl
  | error t => rfl
  | rule n i ks => rcases i with _|_|_|_|_|_|_|_|_|i <;> rfl

theorem lit_callOn (lc : LexConsts) (a : Ast) (s : LitState) :
    (litVisitor lc).callOn a s =
      match a with
      | .rule n 5 ks => (litVisitElement lc ⟨n, ks, 5⟩ s).map Prod.snd
      | _ => .ok s := by
  cases a with
  | terminal t => rfl
  | error t => rfl
  | rule n i ks => rcases i with _|_|_|_|_|_|_|_|_|i <;> rfl

/-- what holds of the state of the second pass -/
structure SymInv (n0 r0 : Nat) (s : SymState) : Prop where
  voc : VInv s.grammar.vocabulary
  tok : ∀ i, i ∈ s.grammar.vocabulary.terminals ↔ i < 2 ∨ (n0 ≤ i ∧ i < s.nextTokenId)
  next : s.nextTokenId = n0 + s.data.length
  data : ∀ k d, s.data[k]? = some d → d.tokenType = n0 + k ∧
    s.grammar.vocabulary.getTerminalNameById (n0 + k) = some d.tokenName
  nts : ∀ i ∈ s.grammar.vocabulary.nonterminals, r0 ≤ i ∧ i < s.nextRuleId ∧
    ∃ n, s.grammar.vocabulary.getNonterminalNameById i = some n
  first : s.nextRuleId = r0 ∨ r0 ∈ s.grammar.vocabulary.nonterminals
  le : r0 ≤ s.nextRuleId
  prods : s.grammar.productions = []

theorem SymInv.print {n0 r0 : Nat} {s : SymState} (h : SymInv n0 r0 s) (line : Str) : SymInv n0 r0 (s.print line) :=
  ⟨h.voc, h.tok, h.next, h.data, h.nts, h.first, h.le, h.prods⟩

theorem symInv_init (name : Str) (n0 r0 : Nat) (h0 : 2 ≤ n0) : SymInv n0 r0
    { grammar := Grammar.new name, data := [], nextTokenId := n0, nextRuleId := r0 } where
  voc := vinv_new
  tok i := by
    have : (Grammar.new name).vocabulary.terminals = insert 1 (insert 0 ∅) := rfl
    simp only [this, Finset.mem_insert, Finset.notMem_empty, or_false]
    omega
  next := rfl
  data k d h := by simp at h
  nts i h := by
    have : (Grammar.new name).vocabulary.nonterminals = ∅ := rfl
    simp [this] at h
  first := .inl rfl
  le := Nat.le_refl _
  prods := rfl

theorem addTerminal_fresh {v : Vocabulary} {i : Nat} {n : Str} (h1 : v.isTerminalNameDefined n = false)
    (h2 : i ∉ v.terminals) : (v.addTerminal i n).1 = { v with
        terminals := insert i v.terminals
        tNameToId := v.tNameToId.insert n i
        tIdToName := v.tIdToName.insert i n } := by
  rw [Vocabulary.isTerminalNameDefined] at h1
  simp [Vocabulary.addTerminal, h1, h2]

theorem symInv_lexerRule (lc : LexConsts) {n0 r0 : Nat} (h0 : 2 ≤ n0) (c : RuleContext) (s s' : SymState)
    (hs : SymInv n0 r0 s) (h : symVisitLexerRule lc c s = .ok ((), s')) : SymInv n0 r0 s' := by
  rw [symVisitLexerRule, bind_eq_ok] at h
  obtain ⟨tk, _, h⟩ := h
  dsimp only at h
  split at h
  · cases h; exact hs.print _
  · rename_i hd
    rw [bind_eq_ok] at h
    obtain ⟨rg, _, h⟩ := h
    rw [bind_eq_ok] at h
    obtain ⟨lit, _, h⟩ := h
    rw [bind_eq_ok] at h
    obtain ⟨re, _, h⟩ := h
    cases re with
    | none => cases h; exact hs.print _
    | some regex =>
      cases h
      have hd : s.grammar.vocabulary.isTerminalNameDefined tk.text = false := by simpa using hd
      have hn : s.nextTokenId ∉ s.grammar.vocabulary.terminals := by
        rw [hs.tok]
        have := hs.next
        omega
      have hv := vinv_step s.grammar.vocabulary (.addTerminal s.nextTokenId tk.text) hs.voc
      constructor
      · exact hv
      · intro i
        simp only [addTerminal_fresh hd hn, Finset.mem_insert, hs.tok]
        have := hs.next
        omega
      · simp only [List.length_append, List.length_singleton, hs.next]; omega
      · intro k d hk
        simp only [addTerminal_fresh hd hn, Vocabulary.getTerminalNameById] at hk ⊢
        have hnx := hs.next
        rcases Nat.lt_trichotomy k s.data.length with hlt | heq | hgt
        · rw [List.getElem?_append_left hlt] at hk
          obtain ⟨h1, h2⟩ := hs.data k d hk
          refine ⟨h1, ?_⟩
          rw [HMap.get_insert_ne _ _ (by omega)]
          exact h2
        · subst heq
          simp at hk
          subst hk
          refine ⟨hnx, ?_⟩
          rw [← hnx]
          simp
        · rw [List.getElem?_eq_none (by simp; omega)] at hk
          cases hk
      · intro i hi
        have := hs.nts i (by simpa only [addTerminal_fresh hd hn] using hi)
        simpa only [addTerminal_fresh hd hn, Vocabulary.getNonterminalNameById] using this
      · have := hs.first
        simpa only [addTerminal_fresh hd hn] using this
      · exact hs.le
      · exact hs.prods

theorem symInv_parserRule (lc : LexConsts) {n0 r0 : Nat} (c : RuleContext) (s s' : SymState)
    (hs : SymInv n0 r0 s) (h : symVisitParserRule lc c s = .ok ((), s')) : SymInv n0 r0 s' := by
  rw [symVisitParserRule, bind_eq_ok] at h
  obtain ⟨tk, _, h⟩ := h
  dsimp only at h
  split at h
  · cases h; exact hs.print _
  · cases h
    have hv := vinv_step s.grammar.vocabulary (.addNamedNonterminal s.nextRuleId tk.text) hs.voc
    have hle := hs.le
    by_cases hc : (s.grammar.vocabulary.ntNameToId.containsKey tk.text ||
        decide (s.nextRuleId ∈ s.grammar.vocabulary.nonterminals)) = true
    · have e : (s.grammar.vocabulary.addNamedNonterminal s.nextRuleId tk.text).1 = s.grammar.vocabulary := by
        simp only [Vocabulary.addNamedNonterminal, hc, if_true]
      simp only [e]
      refine ⟨hs.voc, hs.tok, hs.next, hs.data, ?_, ?_, Nat.le_succ_of_le hle, hs.prods⟩
      · intro i hi
        obtain ⟨a, b, c⟩ := hs.nts i hi
        exact ⟨a, Nat.lt_succ_of_lt b, c⟩
      · right
        rcases hs.first with h1 | h1
        · exfalso
          have hno : ∀ i, i ∉ s.grammar.vocabulary.nonterminals := by
            intro i hi
            obtain ⟨a, b, _⟩ := hs.nts i hi
            omega
          simp only [Bool.or_eq_true, decide_eq_true_eq] at hc
          rcases hc with hc | hc
          · obtain ⟨i, hi⟩ := (HMap.containsKey_iff _ _).1 hc
            exact hno i (hs.voc.n_mem i _ ((hs.voc.n_inv _ i).1 hi))
          · exact hno _ hc
        · exact h1
    · have hc' : (s.grammar.vocabulary.ntNameToId.containsKey tk.text ||
        decide (s.nextRuleId ∈ s.grammar.vocabulary.nonterminals)) = false := by simpa using hc
      have e : (s.grammar.vocabulary.addNamedNonterminal s.nextRuleId tk.text).1 = { s.grammar.vocabulary with
          nonterminals := insert s.nextRuleId s.grammar.vocabulary.nonterminals
          ntNameToId := s.grammar.vocabulary.ntNameToId.insert tk.text s.nextRuleId
          ntIdToName := s.grammar.vocabulary.ntIdToName.insert s.nextRuleId tk.text } := by
        simp [Vocabulary.addNamedNonterminal, hc']
      refine ⟨hv, ?_, hs.next, ?_, ?_, ?_, Nat.le_succ_of_le hle, hs.prods⟩
      · simpa only [e] using hs.tok
      · simpa only [e, Vocabulary.getTerminalNameById] using hs.data
      · intro i hi
        simp only [e, Finset.mem_insert, Vocabulary.getNonterminalNameById] at hi ⊢
        rw [HMap.get_insert]
        rcases hi with rfl | hi
        · exact ⟨hle, Nat.lt_succ_self _, tk.text, by simp⟩
        · obtain ⟨a, b, c⟩ := hs.nts i hi
          refine ⟨a, Nat.lt_succ_of_lt b, ?_⟩
          rw [if_neg (by omega)]
          exact c
      · right
        simp only [e, Finset.mem_insert]
        rcases hs.first with h1 | h1
        · exact .inl h1.symm
        · exact .inr h1

theorem map_snd_ok {α β : Type} {x : Res (α × β)} {b : β} (h : x.map Prod.snd = .ok b) :
    ∃ a, x = .ok (a, b) := by
  cases x with
  | error e => cases h
  | ok p => cases h; exact ⟨p.1, rfl⟩

theorem symInv_run (lc : LexConsts) {n0 r0 : Nat} (h0 : 2 ≤ n0) (r : RuleContext) (s s' : SymState)
    (hs : SymInv n0 r0 s) (h : runSym lc r s = .ok s') : SymInv n0 r0 s' := by
  rw [runSym_eq] at h
  refine foldlM_inv (I := SymInv n0 r0) ?_ _ s s' hs h
  intro s a s' hs ha
  rw [sym_callOn] at ha
  split at ha
  · obtain ⟨_, h⟩ := map_snd_ok ha
    exact symInv_parserRule lc _ s s' hs h
  · obtain ⟨_, h⟩ := map_snd_ok ha
    exact symInv_lexerRule lc h0 _ s s' hs h
  · cases ha; exact hs

/-- the first pass changes nothing when it returns -/
theorem runLit_ok {lc : LexConsts} {r : RuleContext} {s s' : LitState} (h : runLit lc r s = .ok s') : s' = s := by
  rw [runLit_eq] at h
  refine foldlM_inv (I := fun x => x = s) ?_ _ s s' rfl h
  intro s1 a s2 hs ha
  rw [lit_callOn] at ha
  split at ha
  · obtain ⟨_, h⟩ := map_snd_ok ha
    rw [litVisitElement] at h
    split at h <;> cases h
    exact hs
  · cases ha; exact hs

open Classical in
theorem runLit_cases (lc : LexConsts) (l : List Ast) (s : LitState) :
    l.foldlM (fun s a => (litVisitor lc).callOn a s) s =
      if ∃ n ks, Ast.rule n 5 ks ∈ l ∧ ((⟨n, ks, 5⟩ : RuleContext).stringLiteral lc).isSome then .error .panic
      else .ok s := by
  induction l with
  | nil => simp; rfl
  | cons a l ih =>
    rw [List.foldlM_cons]
    by_cases ha : ∃ n ks, a = Ast.rule n 5 ks ∧ ((⟨n, ks, 5⟩ : RuleContext).stringLiteral lc).isSome
    · rw [if_pos (by obtain ⟨n, ks, rfl, h⟩ := ha; exact ⟨n, ks, by simp, h⟩)]
      obtain ⟨n, ks, rfl, h⟩ := ha
      rw [lit_callOn]
      obtain ⟨x, hx⟩ := Option.isSome_iff_exists.1 h
      simp [litVisitElement, hx, Except.map]
    · have : (litVisitor lc).callOn a s = .ok s := by
        rw [lit_callOn]
        split
        · rename_i n ks
          have : (⟨n, ks, 5⟩ : RuleContext).stringLiteral lc = none := by
            cases hx : (⟨n, ks, 5⟩ : RuleContext).stringLiteral lc with
            | none => rfl
            | some x => exact absurd ⟨n, ks, rfl, by simp [hx]⟩ ha
          simp [litVisitElement, this, Except.map]
        · rfl
      rw [this, bind_ok, ih]
      congr 1
      apply propext
      constructor
      · rintro ⟨n, ks, h, h'⟩; exact ⟨n, ks, by simp [h], h'⟩
      · rintro ⟨n, ks, h, h'⟩
        rcases List.mem_cons.1 h with h | h
        · exact absurd ⟨n, ks, h.symm, h'⟩ ha
        · exact ⟨n, ks, h, h'⟩

end Syntaxis
