import Verif.Spec.Messages
import Verif.Props.LexerRules
import Verif.Props.Toolchain

/-!
# C80: the messages about repeated definitions
-/

namespace Syntaxis

variable {lc : LexConsts}

/-- the messages, definition by definition: a token or a rule is reported if a token of its name is already
defined -/
def reports : List Str → List Defn → List Str
  | _, [] => []
  | seen, .token n _ :: ds => if n ∈ seen then tokenTwice n :: reports seen ds else reports (n :: seen) ds
  | seen, .rule n :: ds => if n ∈ seen then ruleTwice n :: reports seen ds else reports seen ds

theorem symVisit_token_out {n0 r0 : Nat} {k : Ast} (hk : k.isRule 7 = true) {m r : Str}
    (h : readLex lc k = some (m, '/' :: r ++ ['/'])) (s : SymState) (hs : SymInv n0 r0 s) (h0 : 2 ≤ n0) :
    ∃ s', (symVisitor lc).callOn k s = .ok s' ∧ SymInv n0 r0 s' ∧
      s'.out = (if s.grammar.vocabulary.isTerminalNameDefined m = true then s.out ++ [tokenTwice m] else s.out) ∧
      (∀ x, s'.grammar.vocabulary.isTerminalNameDefined x = true ↔
        x = m ∨ s.grammar.vocabulary.isTerminalNameDefined x = true) := by
  obtain ⟨s1, e1, e2, e3, e4, e5⟩ := symVisit_step hk h s hs h0
  refine ⟨s1, e1, e2, ?_, e5⟩
  cases k with
  | terminal t => cases hk
  | error t => cases hk
  | rule n i ks =>
    simp only [Ast.isRule, beq_iff_eq] at hk
    subst hk
    obtain ⟨⟨tk, h1, h1'⟩, rg, tk2, h2, h3, h3'⟩ := readLex_model h
    have hcall : (symVisitor lc).callOn (.rule n 7 ks) s = (symVisitLexerRule lc ⟨n, ks, 7⟩ s).map Prod.snd := rfl
    rw [hcall, symVisitLexerRule, h1, unwrap_some, bind_ok] at e1
    dsimp only at e1
    rw [h1'] at e1
    by_cases hm : s.grammar.vocabulary.isTerminalNameDefined m = true
    · simp only [if_pos hm] at e1 ⊢
      cases e1
      rfl
    · simp only [if_neg hm] at e1 ⊢
      rw [h2, unwrap_some, bind_ok, h3, unwrap_some, bind_ok, h3', C50_regex_text, bind_ok] at e1
      cases e1
      rfl

theorem symVisit_rule_out {n0 r0 : Nat} {k : Ast} (hk : k.isRule 1 = true) {m : Str}
    (h : firstText lc.RULE_REF k.kids = some m) (s : SymState) (hs : SymInv n0 r0 s) (h0 : 2 ≤ n0) :
    ∃ s', (symVisitor lc).callOn k s = .ok s' ∧ SymInv n0 r0 s' ∧
      s'.out = (if s.grammar.vocabulary.isTerminalNameDefined m = true then s.out ++ [ruleTwice m] else s.out) ∧
      (∀ x, s'.grammar.vocabulary.isTerminalNameDefined x = true ↔
        s.grammar.vocabulary.isTerminalNameDefined x = true) := by
  cases k with
  | terminal t => cases hk
  | error t => cases hk
  | rule n i ks =>
    simp only [Ast.isRule, beq_iff_eq] at hk
    subst hk
    have e := getTerminal_text ⟨n, ks, 1⟩ lc.RULE_REF
    have e : Option.map (·.text) ((⟨n, ks, 1⟩ : RuleContext).ruleRef lc) = some m := e.trans h
    rw [Option.map_eq_some_iff] at e
    obtain ⟨tk, h1, h1'⟩ := e
    have hcall : (symVisitor lc).callOn (.rule n 1 ks) s = (symVisitParserRule lc ⟨n, ks, 1⟩ s).map Prod.snd := rfl
    have hex : ∃ s', (symVisitor lc).callOn (.rule n 1 ks) s = .ok s' ∧
        s'.out = (if s.grammar.vocabulary.isTerminalNameDefined m = true then s.out ++ [ruleTwice m] else s.out) := by
      rw [hcall, symVisitParserRule, h1, unwrap_some, bind_ok]
      dsimp only
      rw [h1']
      by_cases hm : s.grammar.vocabulary.isTerminalNameDefined m = true
      · simp only [if_pos hm]
        exact ⟨_, rfl, rfl⟩
      · simp only [if_neg hm]
        exact ⟨_, rfl, rfl⟩
    obtain ⟨s1, e1, e2⟩ := hex
    obtain ⟨g1, g2, g3, g4⟩ := symVisit_other (by simp [Ast.isRule]) hs h0 e1
    exact ⟨s1, e1, g1, e2, fun x => by rw [g4]⟩

/-- the lines printed by the pass that registers the names -/
theorem symbol_messages (ast : RuleContext) (ds : List Defn) (name : Str) {n0 r0 : Nat} (h0 : 2 ≤ n0)
    (hds : (topmost [1, 7] ast).map (readDefn lc) = ds.map some)
    (hre : ∀ n t, Defn.token n t ∈ ds → ∃ r, t = '/' :: r ++ ['/']) :
    ∃ s', runSym lc ast { grammar := Grammar.new name, data := [], nextTokenId := n0, nextRuleId := r0 } = .ok s' ∧
      s'.out = reports ["_START".toList, "_STOP".toList] ds := by
  rw [runSym_eq, sym_topmost]
  have key : ∀ (l : List Ast) (ds : List Defn) (seen : List Str) (s : SymState), SymInv n0 r0 s →
      (∀ x, s.grammar.vocabulary.isTerminalNameDefined x = true ↔ x ∈ seen) →
      l.map (readDefn lc) = ds.map some → (∀ n t, Defn.token n t ∈ ds → ∃ r, t = '/' :: r ++ ['/']) →
      ∃ s', l.foldlM (fun s a => (symVisitor lc).callOn a s) s = .ok s' ∧ s'.out = s.out ++ reports seen ds := by
    intro l
    induction l with
    | nil =>
      intro ds seen s _ _ hd _
      cases ds with
      | nil => exact ⟨s, rfl, by simp [reports]⟩
      | cons d ds => cases hd
    | cons k l ih =>
      intro ds seen s hs hseen hd hre
      cases ds with
      | nil => cases hd
      | cons d ds =>
        simp only [List.map_cons, List.cons.injEq] at hd
        obtain ⟨hd1, hd2⟩ := hd
        rw [readDefn] at hd1
        split at hd1
        · rename_i hk
          rw [Option.map_eq_some_iff] at hd1
          obtain ⟨m, hm, rfl⟩ := hd1
          obtain ⟨s1, e1, e2, e3, e4⟩ := symVisit_rule_out hk hm s hs h0
          obtain ⟨s2, f1, f2⟩ := ih ds seen s1 e2 (fun x => by rw [e4, hseen]) hd2
            (fun n t h => hre n t (List.mem_cons_of_mem _ h))
          refine ⟨s2, by rw [List.foldlM_cons, e1, bind_ok]; exact f1, ?_⟩
          rw [f2, e3, reports]
          simp only [hseen]
          split <;> simp
        · split at hd1
          · rename_i hk
            rw [Option.map_eq_some_iff] at hd1
            obtain ⟨⟨m, t⟩, hm, rfl⟩ := hd1
            obtain ⟨r, rfl⟩ := hre m t List.mem_cons_self
            obtain ⟨s1, e1, e2, e3, e4⟩ := symVisit_token_out hk hm s hs h0
            obtain ⟨s2, f1, f2⟩ := ih ds (if m ∈ seen then seen else m :: seen) s1 e2 (fun x => by
                rw [e4, hseen]
                split
                · rename_i hin
                  constructor
                  · rintro (rfl | h)
                    · exact hin
                    · exact h
                  · exact .inr
                · simp) hd2 (fun n t h => hre n t (List.mem_cons_of_mem _ h))
            refine ⟨s2, by rw [List.foldlM_cons, e1, bind_ok]; exact f1, ?_⟩
            rw [f2, e3, reports]
            simp only [hseen]
            split <;> simp
          · cases hd1
  obtain ⟨s', h1, h2⟩ := key _ ds ["_START".toList, "_STOP".toList] _ (symInv_init name n0 r0 h0) (fun x => by
    have e : (Grammar.new name).vocabulary.tNameToId =
        ((HMap.empty).insert Vocabulary.startName 0).insert Vocabulary.stopName 1 := rfl
    simp only [Vocabulary.isTerminalNameDefined, e, HMap.containsKey_iff, HMap.get_insert, HMap.get_empty,
      List.mem_cons, List.not_mem_nil, or_false]
    show _ ↔ x = Vocabulary.startName ∨ x = Vocabulary.stopName
    by_cases h1 : Vocabulary.stopName = x
    · simp [h1]
    · by_cases h2 : Vocabulary.startName = x
      · rw [if_neg h1, if_pos h2]; simp [h2]
      · rw [if_neg h1, if_neg h2]
        simp [Ne.symm h1, Ne.symm h2]) hds hre
  exact ⟨s', h1, by simpa using h2⟩

theorem tokenTwice_inj {a b : Str} : tokenTwice a = tokenTwice b ↔ a = b := by
  rw [tokenTwice, tokenTwice, List.append_cancel_left_eq]

theorem ruleTwice_ne {a b : Str} : ruleTwice a ≠ tokenTwice b := by
  intro h
  have := congrArg (fun l => l[5]?) h
  simp [ruleTwice, tokenTwice] at this

theorem reports_count (n : Str) (ds : List Defn) (seen : List Str) :
    (reports seen ds).count (tokenTwice n) =
      ds.countP (Defn.isToken n) - if n ∈ seen then 0 else 1 := by
  induction ds generalizing seen with
  | nil => simp [reports]
  | cons d ds ih =>
    cases d with
    | rule m =>
      rw [reports, List.countP_cons_of_neg (by simp [Defn.isToken])]
      split
      · rw [List.count_cons_of_ne ruleTwice_ne, ih]
      · rw [ih]
    | token m t =>
      rw [reports]
      by_cases hm : m = n
      · subst hm
        rw [List.countP_cons_of_pos (by simp [Defn.isToken])]
        split
        · rename_i h
          rw [List.count_cons_self, ih, if_pos h]
          omega
        · rename_i h
          rw [ih, if_pos List.mem_cons_self]
          omega
      · rw [List.countP_cons_of_neg (by simp [Defn.isToken, hm])]
        split
        · rw [List.count_cons_of_ne (fun h => hm (tokenTwice_inj.1 h)), ih]
        · rw [ih]
          have : (n ∈ m :: seen) ↔ n ∈ seen := by simp [Ne.symm hm]
          simp only [this]

theorem reports_rules (ds : List Defn) (seen : List Str) (h : ∀ m, Defn.rule m ∈ ds → m ∉ seen ∧
    ∀ t, Defn.token m t ∉ ds) (n : Str) : ruleTwice n ∉ reports seen ds := by
  induction ds generalizing seen with
  | nil => simp [reports]
  | cons d ds ih =>
    cases d with
    | rule m =>
      rw [reports, if_neg (h m List.mem_cons_self).1]
      exact ih seen (fun k hk => ⟨(h k (List.mem_cons_of_mem _ hk)).1,
        fun t ht => (h k (List.mem_cons_of_mem _ hk)).2 t (List.mem_cons_of_mem _ ht)⟩)
    | token m t =>
      rw [reports]
      split
      · rw [List.mem_cons, not_or]
        refine ⟨ruleTwice_ne, ih seen (fun k hk => ⟨(h k (List.mem_cons_of_mem _ hk)).1,
          fun t ht => (h k (List.mem_cons_of_mem _ hk)).2 t (List.mem_cons_of_mem _ ht)⟩)⟩
      · refine ih _ (fun k hk => ⟨?_, fun t ht => (h k (List.mem_cons_of_mem _ hk)).2 t (List.mem_cons_of_mem _ ht)⟩)
        rw [List.mem_cons, not_or]
        refine ⟨?_, (h k (List.mem_cons_of_mem _ hk)).1⟩
        rintro rfl
        exact (h k (List.mem_cons_of_mem _ hk)).2 t List.mem_cons_self

/-- **C80**, what holds: for every name but `_START` and `_STOP`, the message about the repeated token is printed
once for every definition of the token after the first one.  Missing (false): the same for rules,
`C80_rules_silent`. -/
theorem C80_tokens_partial (ast : RuleContext) (ds : List Defn) (name : Str) {n0 r0 : Nat} (h0 : 2 ≤ n0)
    (hds : (topmost [1, 7] ast).map (readDefn lc) = ds.map some)
    (hre : ∀ n t, Defn.token n t ∈ ds → ∃ r, t = '/' :: r ++ ['/']) :
    ∃ s', runSym lc ast { grammar := Grammar.new name, data := [], nextTokenId := n0, nextRuleId := r0 } = .ok s' ∧
      ∀ n, n ≠ "_START".toList → n ≠ "_STOP".toList →
        s'.out.count (tokenTwice n) = ds.countP (Defn.isToken n) - 1 := by
  obtain ⟨s', h1, h2⟩ := symbol_messages ast ds name (r0 := r0) h0 hds hre
  refine ⟨s', h1, fun n e1 e2 => ?_⟩
  rw [h2, reports_count, if_neg]
  simp only [List.mem_cons, List.not_mem_nil, or_false, not_or]
  exact ⟨e1, e2⟩

/-- **C80** is false of the code for rules: as long as no rule has the name of a token, which is always so in a
text, no message about a repeated rule is printed, however often a rule is defined. -/
theorem C80_rules_silent (ast : RuleContext) (ds : List Defn) (name : Str) {n0 r0 : Nat} (h0 : 2 ≤ n0)
    (hds : (topmost [1, 7] ast).map (readDefn lc) = ds.map some)
    (hre : ∀ n t, Defn.token n t ∈ ds → ∃ r, t = '/' :: r ++ ['/'])
    (hsep : ∀ m, Defn.rule m ∈ ds → m ≠ "_START".toList ∧ m ≠ "_STOP".toList ∧ ∀ t, Defn.token m t ∉ ds) :
    ∃ s', runSym lc ast { grammar := Grammar.new name, data := [], nextTokenId := n0, nextRuleId := r0 } = .ok s' ∧
      (∀ n, ruleTwice n ∉ s'.out) ∧
      ((∀ n, ds.countP (Defn.isToken n) ≤ 1) → (∀ t, Defn.token "_START".toList t ∉ ds) →
        (∀ t, Defn.token "_STOP".toList t ∉ ds) → s'.out = []) := by
  obtain ⟨s', h1, h2⟩ := symbol_messages ast ds name (r0 := r0) h0 hds hre
  have hr : ∀ n, ruleTwice n ∉ s'.out := fun n => by
    rw [h2]
    refine reports_rules ds _ (fun m hm => ⟨?_, (hsep m hm).2.2⟩) n
    simp only [List.mem_cons, List.not_mem_nil, or_false, not_or]
    exact ⟨(hsep m hm).1, (hsep m hm).2.1⟩
  refine ⟨s', h1, hr, fun hc ha hb => ?_⟩
  have hall : ∀ (ds : List Defn) seen, ∀ l ∈ reports seen ds, (∃ n, l = tokenTwice n) ∨ ∃ n, l = ruleTwice n := by
    intro ds
    induction ds with
    | nil => simp [reports]
    | cons d ds ih =>
      intro seen l hl
      cases d with
      | rule m =>
        rw [reports] at hl
        split at hl
        · rcases List.mem_cons.1 hl with rfl | hl
          · exact .inr ⟨m, rfl⟩
          · exact ih _ l hl
        · exact ih _ l hl
      | token m t =>
        rw [reports] at hl
        split at hl
        · rcases List.mem_cons.1 hl with rfl | hl
          · exact .inl ⟨m, rfl⟩
          · exact ih _ l hl
        · exact ih _ l hl
  rw [List.eq_nil_iff_forall_not_mem]
  intro l hl
  rcases hall ds _ l (h2 ▸ hl) with ⟨n, rfl⟩ | ⟨n, rfl⟩
  · have hz := List.count_pos_iff.2 hl
    rw [h2, reports_count] at hz
    split at hz
    · rename_i hin
      have hp : 0 < ds.countP (Defn.isToken n) := by omega
      obtain ⟨d, hd, hd'⟩ := List.countP_pos_iff.1 hp
      cases d with
      | rule m => cases hd'
      | token m t =>
        simp only [Defn.isToken, beq_iff_eq] at hd'
        subst hd'
        simp only [List.mem_cons, List.not_mem_nil, or_false] at hin
        rcases hin with rfl | rfl
        · exact ha t hd
        · exact hb t hd
    · have := hc n
      omega
  · exact hr n hl

namespace ExTree

/-- `a : B ; B : /b/ ; a : C ; C : /c/ ; B : /x/ ; B : /y/ ; a : ;` -/
def repeated : RuleContext := ⟨[], [rule "a" [alt [el (tk 6 "B") []]], lex "B" "/b/", rule "a" [alt [el (tk 6 "C") []]],
  lex "C" "/c/", lex "B" "/x/", lex "B" "/y/", rule "a" [eps]], 0⟩

/-- its definitions -/
def repeatedDefs : List Defn := [.rule "a".toList, .token "B".toList "/b/".toList, .rule "a".toList,
  .token "C".toList "/c/".toList, .token "B".toList "/x/".toList, .token "B".toList "/y/".toList, .rule "a".toList]

/-- The hypotheses of C80 hold of a tree in which a rule and a token are defined three times. -/
example : (topmost [1, 7] repeated).map (readDefn .old) = repeatedDefs.map some ∧
    (∀ n t, Defn.token n t ∈ repeatedDefs → ∃ r, t = '/' :: r ++ ['/']) ∧
    (∀ m, Defn.rule m ∈ repeatedDefs → m ≠ "_START".toList ∧ m ≠ "_STOP".toList ∧
      ∀ t, Defn.token m t ∉ repeatedDefs) ∧
    repeatedDefs.countP (Defn.isParserRule "a".toList) = 3 := by
  refine ⟨rfl, ?_, ?_, by decide +kernel⟩
  · intro n t h
    simp only [repeatedDefs, List.mem_cons, Defn.token.injEq, List.not_mem_nil, or_false, reduceCtorEq, false_or] at h
    rcases h with ⟨_, rfl⟩ | ⟨_, rfl⟩ | ⟨_, rfl⟩ | ⟨_, rfl⟩
    exacts [⟨['b'], rfl⟩, ⟨['c'], rfl⟩, ⟨['x'], rfl⟩, ⟨['y'], rfl⟩]
  · intro m h
    have : m = "a".toList := by
      simp only [repeatedDefs, List.mem_cons, Defn.rule.injEq, List.not_mem_nil, or_false, reduceCtorEq, false_or] at h
      rcases h with rfl | rfl | rfl <;> rfl
    subst this
    refine ⟨by decide, by decide, fun t h => ?_⟩
    simp [repeatedDefs] at h

example : (runSym .old repeated { grammar := Grammar.new [], data := [], nextTokenId := 2, nextRuleId := 0 }).map (·.out) =
    .ok ["重复定义 token: B".toList, "重复定义 token: B".toList] := by decide +kernel

end ExTree

end Syntaxis
