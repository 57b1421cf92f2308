import Verif.Props.Accessors

/-!
# C58: from the text of a grammar file to its grammar
-/

namespace Syntaxis
open Grammar
namespace Shipped

/-! ### the tree of a grammar file -/

/-- the tree of a file, with the rules it is read as -/
theorem tree_of_file {o : IterOrder grammar} {so : SetOrder} {fuel : Nat} {ts : TableState}
    (h : runTable grammar o so fuel = .ok ts) {toks : List Token} {stop : Token} {D : Rules} {L : List (Str × Str)}
    (hw : WFile D L toks) {fuel' : Nat} {r : RuleContext}
    (hp : (parserOf grammar ts (toks ++ [stop])).parse fuel' = .ok (r, [])) (hl : r.toAst.leaves = toks) :
    readRules .v1 r.children = some D ∧ readLexRules .v1 r.children = L.map some ∧ ∀ k ∈ r.children, FileNode k := by
  rw [Parser.parse_eq] at hp
  obtain ⟨n, kids, e, D', L', h1, h2, h3, h4⟩ := parseRule_sem h hp (by omega)
  simp only [RuleContext.toAst, List.cons.injEq, Ast.rule.injEq, and_true] at e
  rw [← e.2.2] at h1 h2 h3 h4
  have : Ast.leavesList r.children = toks := by
    rw [← hl]
    simp [RuleContext.toAst, Ast.leaves]
  rw [this] at h1
  obtain ⟨rfl, rfl⟩ := hw.det h1
  exact ⟨h2, h3, h4⟩

/-- the rules of a file are the topmost rule nodes -/
theorem topmost_file {r : RuleContext} (h : ∀ k ∈ r.children, FileNode k) : topmost [1, 7] r = r.children := by
  rw [topmost]
  revert h
  generalize r.children = ks
  intro h
  induction ks with
  | nil => rfl
  | cons k ks ih =>
    rw [Ast.frontierList, ih fun k hk => h k (List.mem_cons_of_mem _ hk)]
    obtain ⟨n, ks', ⟨rfl, _⟩ | ⟨rfl, _⟩⟩ := h k (List.mem_cons_self ..) <;> simp [Ast.frontier]

/-- **C58** (refuted) The program cannot process its own output: whatever grammar file the v1 parser has read, if
the file contains at least one rule then building the grammar from the tree panics, because the visitors look for
the token types of the older lexer. -/
theorem C58_pipeline_panics (o : IterOrder grammar) (so : SetOrder) (fuel : Nat) (ts : TableState)
    (h : runTable grammar o so fuel = .ok ts) (toks : List Token) (stop : Token) (D : Rules) (L : List (Str × Str))
    (hw : WFile D L toks) (hne : toks ≠ []) (fuel' : Nat) (r : RuleContext)
    (hp : (parserOf grammar ts (toks ++ [stop])).parse fuel' = .ok (r, [])) (hl : r.toAst.leaves = toks)
    (fuel2 n0 r0 : Nat) (name : Str) (hf : sizeOf r.toAst ≤ fuel2) :
    buildGrammar .old fuel2 r (Grammar.new name) n0 r0 = .error .panic := by
  obtain ⟨_, _, hk⟩ := tree_of_file h hw hp hl
  refine not_ok_panic (C47_fails_by_panic hf _) ?_
  rw [C47_build_succeeds_iff hf]
  rintro ⟨_, s2, hs, _⟩
  rw [runSym_eq, sym_topmost, topmost_file hk] at hs
  rw [Parser.parse_eq] at hp
  have he := C51_accessors_miss_tokens o so fuel ts h _ 0 fuel' (by omega) r hp
  cases hc : r.children with
  | nil =>
    apply hne
    rw [← hl]
    simp [RuleContext.toAst, Ast.leaves, hc, Ast.leavesList]
  | cons k ks =>
    rw [hc, List.foldlM_cons] at hs
    have hm : ∀ x : RuleContext, k = x.toAst → x ∈ r.toAst.pre := by
      rintro x rfl
      simp [RuleContext.toAst, Ast.pre, Ast.preList, hc]
    obtain ⟨n, ks', ⟨rfl, _⟩ | ⟨rfl, _⟩⟩ := hk k (by rw [hc]; exact List.mem_cons_self ..)
    · have := (he ⟨n, ks', 1⟩ (hm _ rfl)).1
      rw [sym_callOn] at hs
      simp only [symVisitParserRule, this] at hs
      cases hs
    · have := (he ⟨n, ks', 7⟩ (hm _ rfl)).1
      rw [sym_callOn] at hs
      simp only [symVisitLexerRule, this] at hs
      cases hs

/-! ### the second pass on a grammar file -/

theorem frontier_leaves_sub {hide : RuleContext → Bool} {x : Ast} {t : Token} (ht : t ∈ x.leaves) :
    (∀ k : Ast, x ∈ k.frontier hide → t ∈ k.leaves) ∧
    ∀ ks : List Ast, x ∈ Ast.frontierList hide ks → t ∈ Ast.leavesList ks := by
  have key : ∀ n, (∀ k : Ast, sizeOf k ≤ n → x ∈ k.frontier hide → t ∈ k.leaves) ∧
      ∀ ks : List Ast, sizeOf ks ≤ n → x ∈ Ast.frontierList hide ks → t ∈ Ast.leavesList ks := by
    intro n
    induction n with
    | zero =>
      constructor
      · intro k hk; cases k <;> simp at hk
      · intro ks hk; cases ks <;> simp at hk
    | succ n ih =>
      constructor
      · intro k hk hx
        cases k with
        | terminal a => rw [Ast.frontier, List.mem_singleton] at hx; exact hx ▸ ht
        | error a => rw [Ast.frontier, List.mem_singleton] at hx; exact hx ▸ ht
        | rule m i kids =>
          rw [Ast.frontier] at hx
          split at hx
          · rw [List.mem_singleton] at hx; exact hx ▸ ht
          · simp only [Ast.rule.sizeOf_spec] at hk
            exact ih.2 kids (by omega) hx
      · intro ks hk hx
        cases ks with
        | nil => cases hx
        | cons k ks =>
          simp only [List.cons.sizeOf_spec] at hk
          rw [Ast.frontierList, List.mem_append] at hx
          rw [Ast.leavesList, List.mem_append]
          rcases hx with hx | hx
          · exact .inl (ih.1 k (by omega) hx)
          · exact .inr (ih.2 ks (by omega) hx)
  exact ⟨fun k hx => (key _).1 k (Nat.le_refl _) hx, fun ks hx => (key _).2 ks (Nat.le_refl _) hx⟩

theorem firstText_mem {ty : Nat} {ks : List Ast} (h : (firstText ty ks).isSome = true) :
    ∃ t ∈ Ast.leavesList ks, t.tokenType = ty := by
  induction ks with
  | nil => cases h
  | cons k ks ih =>
    rw [Ast.leavesList]
    cases k with
    | terminal t =>
      rw [firstText] at h
      split at h
      · rename_i e
        exact ⟨t, by simp [Ast.leaves], e⟩
      · obtain ⟨t, h1, h2⟩ := ih h
        exact ⟨t, List.mem_append_right _ h1, h2⟩
    | error t =>
      obtain ⟨t, h1, h2⟩ := ih h
      exact ⟨t, List.mem_append_right _ h1, h2⟩
    | rule n i kids =>
      obtain ⟨t, h1, h2⟩ := ih h
      exact ⟨t, List.mem_append_right _ h1, h2⟩

/-- no string literal among the leaves, no string literal in an element -/
theorem not_hasLiteral {lc : LexConsts} {r : RuleContext}
    (h : ∀ t ∈ r.toAst.leaves, t.tokenType ≠ lc.STRING_LITERAL) : ¬ HasLiteral lc r := by
  rintro ⟨e, h1, h2, h3⟩
  obtain ⟨t, ht, hty⟩ := firstText_mem h3
  have he : t ∈ e.leaves := by
    cases e with
    | terminal t => cases h2
    | error t => cases h2
    | rule n i kids => exact ht
  refine h t ?_ hty
  have := (frontier_leaves_sub he).2 _ h1
  simpa [RuleContext.toAst, Ast.leaves] using this

/-- the second pass on a parser rule of a file -/
theorem sym_parserRule {n0 r0 : Nat} {n : Str} {ks : List Ast} (hk : ParserRuleKids ks) (s : SymState)
    (hs : SymInv n0 r0 s) (h0 : 2 ≤ n0) :
    ∃ s' m, (symVisitor .v1).callOn (.rule n 1 ks) s = .ok s' ∧ SymInv n0 r0 s' ∧
      firstText LexConsts.v1.RULE_REF ks = some m ∧
      (∀ x, s'.grammar.vocabulary.isTerminalNameDefined x = s.grammar.vocabulary.isTerminalNameDefined x) ∧
      (∀ x, (s.grammar.vocabulary.getNonterminalIdByName x).isSome = true →
        (s'.grammar.vocabulary.getNonterminalIdByName x).isSome = true) ∧
      (s.grammar.vocabulary.isTerminalNameDefined m = false →
        (s'.grammar.vocabulary.getNonterminalIdByName m).isSome = true) := by
  obtain ⟨t, c, b, e, rfl, ht, -, -, -⟩ := hk
  have h1 : (⟨n, [.terminal t, .terminal c, b, .terminal e], 1⟩ : RuleContext).ruleRef .v1 = some t := by
    simp [RuleContext.ruleRef, getTerminal_zero, asTerminal_t, ht, LexConsts.v1]
  have hcall : (symVisitor .v1).callOn (.rule n 1 [.terminal t, .terminal c, b, .terminal e]) s =
    (symVisitParserRule .v1 ⟨n, [.terminal t, .terminal c, b, .terminal e], 1⟩ s).map Prod.snd := rfl
  have hft : firstText LexConsts.v1.RULE_REF [.terminal t, .terminal c, b, .terminal e] = some t.text := by
    simp [firstText, ht, LexConsts.v1]
  have hok : ∃ s', (symVisitor .v1).callOn (.rule n 1 [.terminal t, .terminal c, b, .terminal e]) s = .ok s' := by
    rw [hcall, symVisitParserRule, h1, unwrap_some, bind_ok]
    dsimp only
    split <;> exact ⟨_, rfl⟩
  obtain ⟨s', hs'⟩ := hok
  obtain ⟨hi, _, _, hd⟩ := symVisit_other (by simp [Ast.isRule]) hs h0 hs'
  refine ⟨s', t.text, hs', hi, hft, hd, ?_⟩
  rw [hcall, symVisitParserRule, h1, unwrap_some, bind_ok] at hs'
  dsimp only at hs'
  split at hs'
  · rename_i hm
    cases hs'
    exact ⟨fun x h => h, fun h => by rw [h] at hm; cases hm⟩
  · cases hs'
    have hnew : s.nextRuleId ∉ s.grammar.vocabulary.nonterminals := by
      intro hin
      have := (hs.nts _ hin).2.1
      omega
    simp only [Vocabulary.getNonterminalIdByName, Vocabulary.addNamedNonterminal]
    by_cases hc : s.grammar.vocabulary.ntNameToId.containsKey t.text = true
    · simp only [hc, Bool.true_or, if_true]
      refine ⟨fun x h => h, fun _ => ?_⟩
      obtain ⟨a, ha⟩ := (HMap.containsKey_iff _ _).1 hc
      rw [ha]
      rfl
    · simp only [hc, hnew, decide_false, Bool.or_self, Bool.false_eq_true, if_false, HMap.get_insert]
      refine ⟨fun x h => ?_, fun _ => by simp⟩
      split
      · rfl
      · exact h

/-- the second pass on a file returns and knows all names that are defined -/
theorem sym_file {n0 r0 : Nat} (h0 : 2 ≤ n0) (l : List Ast) : ∀ (s : SymState), SymInv n0 r0 s →
    (∀ k ∈ l, FileNode k) →
    (∀ k ∈ l, k.isRule 7 = true → ∃ m q, readLex .v1 k = some (m, '/' :: q ++ ['/'])) →
    ∃ s', l.foldlM (fun s a => (symVisitor .v1).callOn a s) s = .ok s' ∧ SymInv n0 r0 s' ∧
      (∀ x, s'.grammar.vocabulary.isTerminalNameDefined x = true ↔
        s.grammar.vocabulary.isTerminalNameDefined x = true ∨
        ∃ k ∈ l, k.isRule 7 = true ∧ ∃ t, readLex .v1 k = some (x, t)) ∧
      (∀ x, (s.grammar.vocabulary.getNonterminalIdByName x).isSome = true →
        (s'.grammar.vocabulary.getNonterminalIdByName x).isSome = true) ∧
      ∀ k ∈ l, k.isRule 1 = true → ∀ m, firstText LexConsts.v1.RULE_REF k.kids = some m →
        s'.grammar.vocabulary.isTerminalNameDefined m = false →
        (s'.grammar.vocabulary.getNonterminalIdByName m).isSome = true := by
  induction l with
  | nil =>
    intro s hs _ _
    exact ⟨s, rfl, hs, fun x => by simp, fun x h => h, fun k hk => by cases hk⟩
  | cons k l ih =>
    intro s hs hf hq
    obtain ⟨n, ks, ⟨rfl, hk⟩ | ⟨rfl, hk⟩⟩ := hf k (List.mem_cons_self ..)
    · obtain ⟨s1, m, e1, i1, ft, d1, n1, m1⟩ := sym_parserRule (n := n) hk s hs h0
      obtain ⟨s', e2, i2, d2, n2, m2⟩ := ih s1 i1 (fun k hk => hf k (List.mem_cons_of_mem _ hk))
        (fun k hk => hq k (List.mem_cons_of_mem _ hk))
      refine ⟨s', by rw [List.foldlM_cons, e1]; exact e2, i2, ?_, fun x h => n2 x (n1 x h), ?_⟩
      · intro x
        rw [d2, d1]
        simp [Ast.isRule]
      · intro k hk h1 m' hm' hd
        rcases List.mem_cons.1 hk with rfl | hk
        · rw [Ast.kids, ft] at hm'
          cases hm'
          refine n2 _ (m1 ?_)
          have := (d2 m).not.1 (by simp [hd])
          rw [d1] at this
          simpa using fun h => this (.inl h)
        · exact m2 k hk h1 m' hm' hd
    · obtain ⟨m, q, hmq⟩ := hq _ (List.mem_cons_self ..) rfl
      obtain ⟨s1, e1, i1, -, -, d1⟩ := symVisit_step rfl hmq s hs h0
      have hc := e1
      rw [sym_callOn] at hc
      obtain ⟨_, hc⟩ := map_snd_ok hc
      have hnt : ∀ x, s1.grammar.vocabulary.getNonterminalIdByName x = s.grammar.vocabulary.getNonterminalIdByName x := by
        intro x
        rw [symVisitLexerRule, bind_eq_ok] at hc
        obtain ⟨tk, _, hc⟩ := hc
        dsimp only at hc
        split at hc
        · cases hc; rfl
        · rw [bind_eq_ok] at hc
          obtain ⟨rg, _, hc⟩ := hc
          rw [bind_eq_ok] at hc
          obtain ⟨lit, _, hc⟩ := hc
          rw [bind_eq_ok] at hc
          obtain ⟨re, _, hc⟩ := hc
          cases re with
          | none => cases hc; rfl
          | some regex =>
            cases hc
            simp only [Vocabulary.getNonterminalIdByName, Vocabulary.addTerminal]
            split
            · rfl
            · split <;> rfl
      obtain ⟨s', e2, i2, d2, n2, m2⟩ := ih s1 i1 (fun k hk => hf k (List.mem_cons_of_mem _ hk))
        (fun k hk => hq k (List.mem_cons_of_mem _ hk))
      refine ⟨s', by rw [List.foldlM_cons, e1]; exact e2, i2, ?_, fun x h => n2 x (by rw [hnt]; exact h), ?_⟩
      · intro x
        rw [d2, d1]
        simp only [List.mem_cons, exists_eq_or_imp, hmq, Ast.isRule, beq_self_eq_true, true_and, Option.some.injEq,
          Prod.mk.injEq, exists_and_left, exists_eq', and_true]
        constructor
        · rintro ((rfl | h) | h)
          · exact .inr (.inl rfl)
          · exact .inl h
          · exact .inr (.inr h)
        · rintro (h | rfl | h)
          · exact .inl (.inr h)
          · exact .inl (.inl rfl)
          · exact .inr h
      · intro k hk h1 m' hm' hd
        rcases List.mem_cons.1 hk with rfl | hk
        · cases h1
        · exact m2 k hk h1 m' hm' hd

theorem readRules_names {ks : List Ast} {D : Rules} (h : readRules .v1 ks = some D) {n : Str} {alts : List (List Elem)}
    (hn : (n, alts) ∈ D) : ∃ k ∈ ks, k.isRule 1 = true ∧ firstText LexConsts.v1.RULE_REF k.kids = some n := by
  induction ks generalizing D with
  | nil => cases h; cases hn
  | cons k ks ih =>
    rw [readRules] at h
    split at h
    · rename_i hk
      split at h
      · rename_i n' alts' D' h1 h2 h3
        cases h
        rcases List.mem_cons.1 hn with e | hn
        · cases e
          exact ⟨k, List.mem_cons_self .., hk, h1⟩
        · obtain ⟨k', h4, h5⟩ := ih h3 hn
          exact ⟨k', List.mem_cons_of_mem _ h4, h5⟩
      · cases h
    · obtain ⟨k', h4, h5⟩ := ih h hn
      exact ⟨k', List.mem_cons_of_mem _ h4, h5⟩

theorem defined_iff (v : Vocabulary) (x : Str) :
    v.isTerminalNameDefined x = true ↔ (v.getTerminalIdByName x).isSome = true := by
  rw [Vocabulary.isTerminalNameDefined, HMap.containsKey_iff, Option.isSome_iff_exists]
  rfl

theorem defined_new (name x : Str) : (Grammar.new name).vocabulary.isTerminalNameDefined x = true ↔
    x = "_START".toList ∨ x = "_STOP".toList := by
  have e : (Grammar.new name).vocabulary.tNameToId =
      ((HMap.empty).insert Vocabulary.startName 0).insert Vocabulary.stopName 1 := rfl
  show _ ↔ x = Vocabulary.startName ∨ x = Vocabulary.stopName
  simp only [Vocabulary.isTerminalNameDefined, e, HMap.containsKey_iff, HMap.get_insert, HMap.get_empty]
  by_cases h1 : Vocabulary.stopName = x
  · simp [h1]
  · by_cases h2 : Vocabulary.startName = x
    · rw [if_neg h1, if_pos h2]; simp [h2]
    · rw [if_neg h1, if_neg h2]
      constructor
      · rintro ⟨a, ha⟩; cases ha
      · rintro (h | h)
        · exact absurd h.symm h2
        · exact absurd h.symm h1

theorem build_sym {lc : LexConsts} {fuel n0 r0 : Nat} {ast : RuleContext} {name : Str} {s2 : SymState}
    {s3 : ProdState} (h : buildStates lc fuel ast (Grammar.new name) n0 r0 = .ok (s2, s3)) :
    runSym lc ast { grammar := Grammar.new name, data := [], nextTokenId := n0, nextRuleId := r0 } = .ok s2 := by
  rw [buildStates, bind_eq_ok] at h
  obtain ⟨s1, h1, h⟩ := h
  rw [bind_eq_ok] at h
  obtain ⟨s2', h2, h⟩ := h
  rw [bind_eq_ok] at h
  obtain ⟨s3', h3, h⟩ := h
  cases h
  cases runLit_ok h1
  exact h2

/-- **C58** (partial) With the token constants of the v1 lexer the whole way from the tokens of a grammar file to
the grammar would work: for every complete file without string literals the visitors return, the lexer data are
the lexer rules as written (numbered from `n0`, the first definition of a name counts), and every parser rule
gets a number whose words are the words of the EBNF rules as written (the latter under the condition on suffixes
of C46).  What is missing is that the visitors use these constants: see `C58_pipeline_panics`. -/
theorem C58_pipeline_partial (o : IterOrder grammar) (so : SetOrder) (fuel : Nat) (ts : TableState)
    (h : runTable grammar o so fuel = .ok ts) (toks : List Token) (stop : Token) (D : Rules)
    (defs : List (Str × Str)) (hw : WFile D (defs.map fun d => (d.1, '/' :: d.2 ++ ['/'])) toks) (fuel' : Nat)
    (r : RuleContext) (hp : (parserOf grammar ts (toks ++ [stop])).parse fuel' = .ok (r, []))
    (hl : r.toAst.leaves = toks) (hnl : ∀ t ∈ toks, t.tokenType ≠ 13) (hcomp : Complete D defs)
    (fuel2 n0 r0 : Nat) (name : Str) (hf : sizeOf r.toAst ≤ fuel2) (h0 : 2 ≤ n0) :
    ∃ g data, buildGrammar .v1 fuel2 r (Grammar.new name) n0 r0 = .ok (g, data) ∧
      data = numbered n0 (firstWins ["_START".toList, "_STOP".toList] defs) ∧
      ∀ n alts, (n, alts) ∈ D → ∃ A, g.vocabulary.getNonterminalIdByName n = some A ∧
        (SuffixesApart D g.vocabulary → ∀ w, Sentence g.productions A w ↔
          Word D g.vocabulary.getTerminalIdByName [.ref n] w) := by
  obtain ⟨hD, hL, hk⟩ := tree_of_file h hw hp hl
  have hlex : ∀ k ∈ r.children, k.isRule 7 = true → ∃ d ∈ defs, readLex .v1 k = some (d.1, '/' :: d.2 ++ ['/']) := by
    intro k hk1 hk7
    have : readLex .v1 k ∈ readLexRules .v1 r.children := List.mem_map_of_mem (List.mem_filter.2 ⟨hk1, hk7⟩)
    rw [hL, List.map_map] at this
    obtain ⟨d, hd, e⟩ := List.mem_map.1 this
    exact ⟨d, hd, e.symm⟩
  have hlex' : ∀ d ∈ defs, ∃ k ∈ r.children, k.isRule 7 = true ∧ readLex .v1 k = some (d.1, '/' :: d.2 ++ ['/']) := by
    intro d hd
    have : some (d.1, '/' :: d.2 ++ ['/']) ∈ readLexRules .v1 r.children := by
      rw [hL, List.map_map]
      exact List.mem_map.2 ⟨d, hd, rfl⟩
    obtain ⟨k, h1, h2⟩ := List.mem_map.1 this
    obtain ⟨h1, h3⟩ := List.mem_filter.1 h1
    exact ⟨k, h1, h3, h2⟩
  obtain ⟨s2, e2, i2, d2, -, m2⟩ := sym_file h0 r.children _ (symInv_init name n0 r0 h0) hk
    (fun k hk1 hk7 => by obtain ⟨d, _, h⟩ := hlex k hk1 hk7; exact ⟨d.1, d.2, h⟩)
  have hrun : runSym .v1 r { grammar := Grammar.new name, data := [], nextTokenId := n0, nextRuleId := r0 } = .ok s2 := by
    rw [runSym_eq, sym_topmost, topmost_file hk]
    exact e2
  have hdef : ∀ x, s2.grammar.vocabulary.isTerminalNameDefined x = true ↔
      (x = "_START".toList ∨ x = "_STOP".toList) ∨ ∃ q, (x, q) ∈ defs := by
    intro x
    rw [d2, defined_new]
    refine or_congr_right ⟨?_, ?_⟩
    · rintro ⟨k, h1, h7, t, ht⟩
      obtain ⟨d, hd, h3⟩ := hlex k h1 h7
      rw [ht] at h3
      cases h3
      exact ⟨d.2, hd⟩
    · rintro ⟨q, hq⟩
      obtain ⟨k, h1, h7, h3⟩ := hlex' _ hq
      exact ⟨k, h1, h7, _, h3⟩
  have hnt : ∀ n alts, (n, alts) ∈ D → (s2.grammar.vocabulary.getNonterminalIdByName n).isSome = true := by
    intro n alts hn
    obtain ⟨k, h1, h2, h3⟩ := readRules_names hD hn
    refine m2 k h1 h2 n h3 ?_
    obtain ⟨a1, a2, a3⟩ := hcomp.apart n alts hn
    rw [Bool.eq_false_iff]
    intro hh
    rcases (hdef n).1 hh with (h | h) | ⟨q, h⟩
    · exact a1 h
    · exact a2 h
    · exact a3 q h
  have hall : AllKnown s2.grammar.vocabulary D := by
    intro n alts hn
    refine ⟨hnt n alts hn, ?_, ?_⟩
    · intro m hm
      rw [← defined_iff, hdef]
      exact .inr (hcomp.tokens n alts hn m hm)
    · intro m hm
      obtain ⟨alts', h1⟩ := hcomp.rules n alts hn m hm
      exact hnt m alts' h1
  have hlit : ¬ HasLiteral .v1 r := not_hasLiteral (by rw [hl]; exact hnl)
  obtain ⟨⟨g, data⟩, hb⟩ := (C47_build_succeeds_iff hf (Grammar.new name)).2 ⟨hlit, s2, hrun, D, hD, hall⟩
  refine ⟨g, data, hb, ?_, ?_⟩
  · obtain ⟨s2', s3, hbs, rfl, rfl⟩ := buildGrammar_ok hb
    refine C50_symbol_visitor r defs name h0 ?_ (build_sym hbs)
    rw [lexNodes, topmost_file hk]
    have := hL
    rwa [readLexRules, List.map_map] at this
  · intro n alts hn
    have hA : ∃ A, g.vocabulary.getNonterminalIdByName n = some A := by
      obtain ⟨s2', s3, hbs, rfl, rfl⟩ := buildGrammar_ok hb
      have e := build_sym hbs
      rw [hrun] at e
      cases e
      have hN := (build_ok h0 hf hbs).names
      obtain ⟨A, hA⟩ := Option.isSome_iff_exists.1 (hnt n alts hn)
      refine ⟨A, ?_⟩
      rw [← hA]
      simp only [Vocabulary.getNonterminalIdByName, hN.2.2.2.1]
    obtain ⟨A, hA⟩ := hA
    exact ⟨A, hA, fun hs w => C46_apart_partial h0 hf hb hD hs n A hA w⟩

/-- a complete file without string literals: `s : A s | epsilon ; A : /a/ ;`; the parser reads it -/
example (o : IterOrder grammar) (so : SetOrder) (fuel : Nat) (ts : TableState)
    (h : runTable grammar o so fuel = .ok ts) (stop : Token) (hs : stop.tokenType = 1) :
    ∃ D defs toks, WFile D (defs.map fun d => (d.1, '/' :: d.2 ++ ['/'])) toks ∧ toks ≠ [] ∧
      (∀ t ∈ toks, t.tokenType ≠ 13) ∧ Complete D defs ∧ SuffixesSeparate D ∧
      ∃ fuel' r, (parserOf grammar ts (toks ++ [stop])).parse fuel' = .ok (r, []) ∧ r.toAst.leaves = toks := by
  let k (a : Nat) (s : String) : Token := { Syntaxis.tk a with text := s.toList }
  have hw : WFile [("s".toList, [[.tok "A".toList, .ref "s".toList], []])]
      ([("A".toList, "a".toList)].map fun d => (d.1, '/' :: d.2 ++ ['/']))
      [k 2 "s", k 4 ":", k 3 "A", k 2 "s", k 6 "|", k 7 "epsilon", k 5 ";", k 3 "A", k 4 ":", k 14 "/a/", k 5 ";"] :=
    .parserRule (n := k 2 "s") (c := k 4 ":") (s := k 5 ";") rfl rfl
      (.cons (.seq (.cons (.plain (.token (t := k 3 "A") rfl)) (.one (.plain (.rule (t := k 2 "s") rfl)))))
        (o := k 6 "|") rfl (.one (.epsilon (t := k 7 "epsilon") rfl))) rfl
      (.lexerRule (n := k 3 "A") (c := k 4 ":") (r := k 14 "/a/") (s := k 5 ";") rfl rfl rfl rfl .nil)
  refine ⟨_, _, _, hw, by simp, ?_, ⟨?_, ?_, ?_⟩, ?_, ?_⟩
  · simp [k, Syntaxis.tk, Token.new]
  · simp [altsTokNames, seqTokNames, Elem.tokNames]
  · simp [altsRuleNames, seqRuleNames, Elem.ruleNames]
  · simp
  · intro f
    simp [altsSuffixes, seqSuffixes, Elem.suffixes]
  · obtain ⟨fuel', r, h1, h2, _⟩ := (C57_read_as_written o so fuel ts h _ stop hs _ _).1 hw
    exact ⟨fuel', r, h1, h2⟩

end Shipped
end Syntaxis
