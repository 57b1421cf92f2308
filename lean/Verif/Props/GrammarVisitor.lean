import Verif.Lemmas.SymPass
import Verif.Lemmas.ElabInv
import Verif.Lemmas.Lexer
import Verif.Props.Table
import Verif.Props.Parser

/-!
# C43–C47: from a syntax tree to a grammar

All statements are about the three passes of `load_ast` on an arbitrary tree, for arbitrary token constants
`lc`, grammar name, first token id `n0 ≥ 2` (0 and 1 are reserved) and first rule id `r0`.  `sizeOf` of the
tree bounds the recursion depth.
-/

namespace Syntaxis
open Grammar

variable {lc : LexConsts} {ast : RuleContext} {name : Str} {n0 r0 fuel : Nat}

/-! ### the passes taken apart -/

/-- what the three passes do when they return -/
structure Built (lc : LexConsts) (ast : RuleContext) (n0 r0 : Nat) (s2 : SymState) (s3 : ProdState) : Prop where
  sym : SymInv n0 r0 s2
  rules : ∃ D, readRules lc ast.children = some D ∧
    elabRules D (ProdState.new s2.grammar s2.nextRuleId) = .ok s3

theorem build_ok (h0 : 2 ≤ n0) (hf : sizeOf ast.toAst ≤ fuel) {s2 : SymState} {s3 : ProdState}
    (h : buildStates lc fuel ast (Grammar.new name) n0 r0 = .ok (s2, s3)) : Built lc ast n0 r0 s2 s3 := by
  rw [buildStates, bind_eq_ok] at h
  obtain ⟨s1, h1, h⟩ := h
  rw [bind_eq_ok] at h
  obtain ⟨s2', h2, h⟩ := h
  rw [bind_eq_ok] at h
  obtain ⟨s3', h3, h⟩ := h
  cases h
  have := runLit_ok h1
  subst this
  refine ⟨symInv_run lc h0 ast _ _ (symInv_init name n0 r0 h0) h2, ?_⟩
  rw [prodVisitRuleList_eq lc fuel ast hf] at h3
  cases hD : readRules lc ast.children with
  | none => rw [hD] at h3; cases h3
  | some D => rw [hD] at h3; exact ⟨D, rfl, h3⟩

/-- the names known to the production pass -/
def envOf (s2 : SymState) : Env where
  tok := s2.grammar.vocabulary.getTerminalIdByName
  nt := s2.grammar.vocabulary.getNonterminalIdByName
  base := s2.nextRuleId

theorem runInv_init {s2 : SymState} (h : SymInv n0 r0 s2) :
    RunInv (envOf s2) s2.grammar.vocabulary.nonterminals (ProdState.new s2.grammar s2.nextRuleId) where
  le := Nat.le_refl _
  tok _ := rfl
  nt _ := rfl
  tokOk n a ha := (h.voc.t_mem a).2 ⟨n, (h.voc.t_inv n a).1 ha⟩
  ntOk n A hA := h.voc.n_mem A n ((h.voc.n_inv n A).1 hA)
  inj n m A hn hm := by
    have h1 := (h.voc.n_inv n A).1 hn
    have h2 := (h.voc.n_inv m A).1 hm
    rw [h1] at h2
    exact Option.some.inj h2
  old i hi := (h.nts i hi).2.1
  ids i := by
    simp only [ProdState.new, envOf]
    constructor
    · exact .inl
    · rintro (h1 | h1)
      · exact h1
      · omega
  named i n hi := h.voc.n_mem i n hi
  closed p hp := by
    have : p ∈ s2.grammar.productions := hp
    rw [h.prods] at this
    cases this
  nodup := by
    show s2.grammar.productions.Nodup
    rw [h.prods]
    exact List.nodup_nil
  cache f i X hX := by cases f <;> cases hX
  block rs X hX := by cases hX
  alloc i := by
    simp only [ProdState.new, envOf, List.not_mem_nil, false_iff]
    omega
  allocNodup := List.nodup_nil

theorem Built.inv {s2 : SymState} {s3 : ProdState} (h : Built lc ast n0 r0 s2 s3) :
    RunInv (envOf s2) s2.grammar.vocabulary.nonterminals s3 := by
  obtain ⟨D, _, hr⟩ := h.rules
  exact (elabRules_inv D (runInv_init h.sym) hr).1

theorem buildGrammar_ok {g : Grammar} {data : List LexerRuleData}
    (h : buildGrammar lc fuel ast (Grammar.new name) n0 r0 = .ok (g, data)) :
    ∃ s2 s3, buildStates lc fuel ast (Grammar.new name) n0 r0 = .ok (s2, s3) ∧ g = s3.grammar ∧ data = s2.data := by
  rw [buildGrammar, bind_eq_ok] at h
  obtain ⟨⟨s2, s3⟩, h1, h2⟩ := h
  cases h2
  exact ⟨s2, s3, h1, rfl, rfl⟩

/-! ### the terminals are not touched by the production pass -/

theorem insertProd_voc (s : ProdState) (p : Production) :
    (s.insertProd p).grammar.vocabulary = s.grammar.vocabulary := insertProduction_vocabulary _ _

theorem insertOrPrint_voc (s : ProdState) (p : Production) (line : Str) :
    (s.insertOrPrint p line).grammar.vocabulary = s.grammar.vocabulary := insertProduction_vocabulary _ _

/-- names and terminals are the same -/
def SameNames (v v' : Vocabulary) : Prop :=
  v'.tNameToId = v.tNameToId ∧ v'.tIdToName = v.tIdToName ∧ v'.terminals = v.terminals ∧
  v'.ntNameToId = v.ntNameToId ∧ v'.ntIdToName = v.ntIdToName

theorem SameNames.refl (v : Vocabulary) : SameNames v v := ⟨rfl, rfl, rfl, rfl, rfl⟩
theorem SameNames.trans {u v w : Vocabulary} (h : SameNames u v) (h' : SameNames v w) : SameNames u w :=
  ⟨h'.1.trans h.1, h'.2.1.trans h.2.1, h'.2.2.1.trans h.2.2.1, h'.2.2.2.1.trans h.2.2.2.1,
    h'.2.2.2.2.trans h.2.2.2.2⟩

theorem sameNames_addUnnamed (s : ProdState) (i : Nat) :
    SameNames s.grammar.vocabulary (s.addUnnamed i).grammar.vocabulary := by
  simp only [ProdState.addUnnamed, Vocabulary.addUnnamedNonterminal]
  split <;> exact .refl _

theorem sameNames_applySuffix (f : Suffix) (x : Item) (s : ProdState) :
    SameNames s.grammar.vocabulary (applySuffix f x s).2.grammar.vocabulary := by
  simp only [applySuffix]
  split
  · exact .refl _
  · simp only [(setCache_fields _ f _ _).1, insertProd_voc]
    exact sameNames_addUnnamed { s with uses := (f, x) :: s.uses } s.nextRuleId

theorem sameNames_finishBlock (rs : List (List Item)) (s : ProdState) :
    SameNames s.grammar.vocabulary (finishBlock rs s).2.grammar.vocabulary := by
  simp only [finishBlock]
  split
  · exact .refl _
  · simp only
    rw [(foldl_insertProd s.nextRuleId rs _).2.2.1]
    exact sameNames_addUnnamed s s.nextRuleId

mutual
theorem elabElem_names (e : Elem) {s s' : ProdState} {x : Item} (h : elabElem e s = .ok (x, s')) :
    SameNames s.grammar.vocabulary s'.grammar.vocabulary := by
  cases e with
  | tok n => rw [elabElem, bind_eq_ok] at h; obtain ⟨a, _, h⟩ := h; cases h; exact .refl _
  | ref n => rw [elabElem, bind_eq_ok] at h; obtain ⟨a, _, h⟩ := h; cases h; exact .refl _
  | group alts =>
    rw [elabElem, bind_eq_ok] at h
    obtain ⟨⟨rs, s1⟩, h1, h⟩ := h
    cases h
    exact (elabAlts_names alts h1).trans (sameNames_finishBlock rs s1)
  | rep f e =>
    rw [elabElem, bind_eq_ok] at h
    obtain ⟨⟨y, s1⟩, h1, h⟩ := h
    have h : applySuffix f y s1 = (x, s') := Except.ok.inj h
    have := (elabElem_names e h1).trans (sameNames_applySuffix f y s1)
    rwa [h] at this
theorem elabSeq_names (es : List Elem) {s s' : ProdState} {α : List Item} (h : elabSeq es s = .ok (α, s')) :
    SameNames s.grammar.vocabulary s'.grammar.vocabulary := by
  cases es with
  | nil => rw [elabSeq] at h; cases h; exact .refl _
  | cons e es =>
    rw [elabSeq, bind_eq_ok] at h
    obtain ⟨⟨y, s1⟩, h1, h⟩ := h
    rw [bind_eq_ok] at h
    obtain ⟨⟨ys, s2⟩, h2, h⟩ := h
    cases h
    exact (elabElem_names e h1).trans (elabSeq_names es h2)
theorem elabAlts_names (as : List (List Elem)) {s s' : ProdState} {rs : List (List Item)}
    (h : elabAlts as s = .ok (rs, s')) : SameNames s.grammar.vocabulary s'.grammar.vocabulary := by
  cases as with
  | nil => rw [elabAlts] at h; cases h; exact .refl _
  | cons a as =>
    rw [elabAlts, bind_eq_ok] at h
    obtain ⟨⟨y, s1⟩, h1, h⟩ := h
    rw [bind_eq_ok] at h
    obtain ⟨⟨ys, s2⟩, h2, h⟩ := h
    cases h
    exact (elabSeq_names a h1).trans (elabAlts_names as h2)
end

theorem elabNamed_names (A : Nat) (as : List (List Elem)) {s s' : ProdState} (h : elabNamed A as s = .ok s') :
    SameNames s.grammar.vocabulary s'.grammar.vocabulary := by
  induction as generalizing s with
  | nil => rw [elabNamed] at h; cases h; exact .refl _
  | cons a as ih =>
    rw [elabNamed, bind_eq_ok] at h
    obtain ⟨⟨y, s1⟩, h1, h⟩ := h
    have := ih h
    rw [insertOrPrint_voc] at this
    exact (elabSeq_names a h1).trans this

theorem elabRules_names (rs : Rules) {s s' : ProdState} (h : elabRules rs s = .ok s') :
    SameNames s.grammar.vocabulary s'.grammar.vocabulary := by
  induction rs generalizing s with
  | nil => rw [elabRules] at h; cases h; exact .refl _
  | cons r rs ih =>
    rw [elabRules, bind_eq_ok] at h
    obtain ⟨A, _, h⟩ := h
    rw [bind_eq_ok] at h
    obtain ⟨s1, h1, h⟩ := h
    exact (elabNamed_names A _ h1).trans (ih h)

theorem Built.names {s2 : SymState} {s3 : ProdState} (h : Built lc ast n0 r0 s2 s3) :
    SameNames s2.grammar.vocabulary s3.grammar.vocabulary := by
  obtain ⟨D, _, hr⟩ := h.rules
  exact elabRules_names D hr

/-! ### C43 -/

/-- **C43** the `k`-th entry of the lexer data has token type `n0 + k`, and the vocabulary of the grammar
relates exactly this id and the entry's name. -/
theorem C43_token_numbering (h0 : 2 ≤ n0) (hf : sizeOf ast.toAst ≤ fuel) {g : Grammar}
    {data : List LexerRuleData} (h : buildGrammar lc fuel ast (Grammar.new name) n0 r0 = .ok (g, data))
    (k : Nat) (d : LexerRuleData) (hk : data[k]? = some d) :
    d.tokenType = n0 + k ∧ g.vocabulary.getTerminalNameById d.tokenType = some d.tokenName ∧
    g.vocabulary.getTerminalIdByName d.tokenName = some d.tokenType := by
  obtain ⟨s2, s3, hb, rfl, rfl⟩ := buildGrammar_ok h
  have hB := build_ok h0 hf hb
  obtain ⟨h1, h2⟩ := hB.sym.data k d hk
  have hn := hB.names
  rw [h1]
  simp only [Vocabulary.getTerminalNameById, Vocabulary.getTerminalIdByName, hn.1, hn.2.1]
  exact ⟨trivial, h2, (hB.sym.voc.t_inv _ _).2 h2⟩

/-- **C43** the names of the lexer data are distinct. -/
theorem C43_names_distinct (h0 : 2 ≤ n0) (hf : sizeOf ast.toAst ≤ fuel) {g : Grammar}
    {data : List LexerRuleData} (h : buildGrammar lc fuel ast (Grammar.new name) n0 r0 = .ok (g, data)) :
    (data.map (·.tokenName)).Nodup := by
  rw [List.nodup_iff_injective_getElem]
  intro i j hij
  have hi : i.1 < data.length := by simpa using i.2
  have hj : j.1 < data.length := by simpa using j.2
  simp only [List.getElem_map] at hij
  obtain ⟨a1, _, a3⟩ := C43_token_numbering h0 hf h i.1 _ (List.getElem?_eq_getElem hi)
  obtain ⟨b1, _, b3⟩ := C43_token_numbering h0 hf h j.1 _ (List.getElem?_eq_getElem hj)
  rw [hij, b3] at a3
  have := Option.some.inj a3
  exact Fin.ext (by omega)

/-- **C43** the terminals of the vocabulary are the two reserved ones and those of the lexer data: the
numbering is dense. -/
theorem C43_dense (h0 : 2 ≤ n0) (hf : sizeOf ast.toAst ≤ fuel) {g : Grammar}
    {data : List LexerRuleData} (h : buildGrammar lc fuel ast (Grammar.new name) n0 r0 = .ok (g, data))
    (i : Nat) : g.vocabulary.isTerminalId i = true ↔ i < 2 ∨ (n0 ≤ i ∧ i < n0 + data.length) := by
  obtain ⟨s2, s3, hb, rfl, rfl⟩ := buildGrammar_ok h
  have hB := build_ok h0 hf hb
  rw [Vocabulary.isTerminalId, decide_eq_true_eq, hB.names.2.2.1, hB.sym.tok, hB.sym.next]

/-- **C43** With the counter of `load_ast` (2), every token scanned by the lexer generated from the data
carries a type and a name that belong together in the vocabulary, and it was matched by the regex of the rule
with that type (or is the end token). -/
theorem C43_generated_lexer_agrees (hf : sizeOf ast.toAst ≤ fuel) {g : Grammar} {data : List LexerRuleData}
    (h : buildGrammar lc fuel ast (Grammar.new name) 2 r0 = .ok (g, data)) (compile : Str → Matcher)
    (input : Str) (l l' : Lexer) (tok : Token) (hre : l.regexList = (generatedLexer compile data input).regexList)
    (hna : l.tokenNames = (generatedLexer compile data input).tokenNames) (hs : l.scan = .ok (some tok, l')) :
    g.vocabulary.getTerminalNameById tok.tokenType = some tok.tokenName ∧
    ((tok.tokenType = 1 ∧ l.cursor = byteLen l.input) ∨
      ∃ d ∈ data, d.tokenType = tok.tokenType ∧ d.tokenName = tok.tokenName ∧
        ∃ rest, dropBytes l.input l.cursor = .ok rest ∧
          compile d.regex rest = some (tok.charStopIndex - tok.charStartIndex)) := by
  rw [Lexer.scan] at hs
  split at hs
  · cases hs
  · split at hs
    · rename_i h1 h2
      cases hs
      refine ⟨?_, .inl ⟨rfl, by omega⟩⟩
      obtain ⟨s2, s3, hb, rfl, rfl⟩ := buildGrammar_ok h
      have hB := build_ok (Nat.le_refl 2) hf hb
      have := hB.sym.voc.stop
      rw [← hB.names.2.1] at this
      exact this
    · rw [Lexer.scanToken, bind_eq_ok] at hs
      obtain ⟨rest, hr, hs⟩ := hs
      rw [hre] at hs
      rcases longest_cases rest (generatedLexer compile data input).regexList with ⟨h3, _⟩ | ⟨i, n, h3, h4⟩
      · rw [h3] at hs; simp at hs
      · rw [h3] at hs
        dsimp only at hs
        rw [if_neg (by omega)] at hs
        rw [bind_eq_ok] at hs
        obtain ⟨text, _, hs⟩ := hs
        rw [bind_eq_ok] at hs
        obtain ⟨nm, hnm, hs⟩ := hs
        cases hs
        obtain ⟨_, ⟨m, hm, hmr⟩, _⟩ := h4
        simp only [generatedLexer, Lexer.new, List.getElem?_map, Option.map_eq_some_iff] at hm
        obtain ⟨d, hd, rfl⟩ := hm
        obtain ⟨a1, a2, a3⟩ := C43_token_numbering (Nat.le_refl 2) hf h i d hd
        rw [unwrap_eq_ok, hna] at hnm
        simp only [generatedLexer, Lexer.new, List.getElem?_cons_succ, List.getElem?_map, hd, Option.map_some,
          Option.some.injEq] at hnm
        subst hnm
        have ht : d.tokenType = i + 2 := by omega
        refine ⟨by rw [← ht]; exact a2, .inr ⟨d, List.mem_of_getElem? hd, ht, rfl, rest, hr, ?_⟩⟩
        simpa using hmr

/-! ### C44 -/

/-- **C44** two named rules never share an id, and named ids are below every anonymous one. -/
theorem C44_named_injective (h0 : 2 ≤ n0) (hf : sizeOf ast.toAst ≤ fuel) {g : Grammar}
    {data : List LexerRuleData} (h : buildGrammar lc fuel ast (Grammar.new name) n0 r0 = .ok (g, data))
    (n m : Str) (A : Nat) (hn : g.vocabulary.getNonterminalIdByName n = some A)
    (hm : g.vocabulary.getNonterminalIdByName m = some A) : n = m := by
  obtain ⟨s2, s3, hb, rfl, rfl⟩ := buildGrammar_ok h
  have hI := (build_ok h0 hf hb).inv
  rw [hI.nt] at hn hm
  exact hI.inj n m A hn hm

/-- **C44** the ids given to anonymous nonterminals are pairwise distinct and differ from those of all named
rules, and together these are all nonterminals. -/
theorem C44_anonymous_fresh (h0 : 2 ≤ n0) (hf : sizeOf ast.toAst ≤ fuel) {s2 : SymState} {s3 : ProdState}
    (h : buildStates lc fuel ast (Grammar.new name) n0 r0 = .ok (s2, s3)) :
    s3.allocated.Nodup ∧
    (∀ i ∈ s3.allocated, ∀ n, s3.grammar.vocabulary.getNonterminalIdByName n ≠ some i) ∧
    (∀ i, i ∈ s3.grammar.vocabulary.nonterminals ↔
      i ∈ s3.allocated ∨ ∃ n, s3.grammar.vocabulary.getNonterminalIdByName n = some i) := by
  have hB := build_ok h0 hf h
  have hI := hB.inv
  refine ⟨hI.allocNodup, ?_, ?_⟩
  · intro i hi n hn
    rw [hI.nt] at hn
    have h1 := hI.old i (hI.ntOk n i hn)
    have h2 := (hI.alloc i).1 hi
    omega
  · intro i
    rw [hI.ids, hI.alloc]
    constructor
    · rintro (h1 | h1)
      · obtain ⟨_, _, n, hn⟩ := hB.sym.nts i h1
        exact .inr ⟨n, by rw [hI.nt]; exact (hB.sym.voc.n_inv n i).2 hn⟩
      · exact .inl h1
    · rintro (h1 | ⟨n, h1⟩)
      · exact .inr h1
      · rw [hI.nt] at h1
        exact .inl (hI.ntOk n i h1)

/-! ### C45 -/

/-- **C45** every symbol in a production of the grammar is registered, and productions are not repeated. -/
theorem C45_closed (h0 : 2 ≤ n0) (hf : sizeOf ast.toAst ≤ fuel) {g : Grammar}
    {data : List LexerRuleData} (h : buildGrammar lc fuel ast (Grammar.new name) n0 r0 = .ok (g, data)) :
    (∀ p ∈ g.productions, g.vocabulary.isNonterminalId p.left = true ∧
      (∀ B, Item.nt B ∈ p.right → g.vocabulary.isNonterminalId B = true) ∧
      ∀ a, Item.t a ∈ p.right → g.vocabulary.isTerminalId a = true) ∧ g.productions.Nodup := by
  obtain ⟨s2, s3, hb, rfl, rfl⟩ := buildGrammar_ok h
  have hI := (build_ok h0 hf hb).inv
  refine ⟨fun p hp => ?_, hI.nodup⟩
  obtain ⟨h1, h2⟩ := hI.closed p hp
  simp only [Vocabulary.isNonterminalId, Vocabulary.isTerminalId, decide_eq_true_eq]
  exact ⟨h1, fun B hB => h2 _ hB, fun a ha => h2 _ ha⟩

theorem C45_wellFormed (h0 : 2 ≤ n0) (hf : sizeOf ast.toAst ≤ fuel) {g : Grammar}
    {data : List LexerRuleData} (h : buildGrammar lc fuel ast (Grammar.new name) n0 r0 = .ok (g, data)) :
    g.WellFormed := by
  intro p hp
  obtain ⟨h1, h2, _⟩ := (C45_closed h0 hf h).1 p hp
  simp only [Vocabulary.isNonterminalId, decide_eq_true_eq] at h1 h2
  exact ⟨h1, h2⟩

theorem readRules_ne_nil {kids : List Ast} {D : Rules} (h : readRules lc kids = some D)
    (hk : ∃ k ∈ kids, Ast.isRule 1 k = true) : D ≠ [] := by
  induction kids generalizing D with
  | nil => simp at hk
  | cons k ks ih =>
    rw [readRules] at h
    split at h
    · split at h
      · cases h; simp
      · cases h
    · rename_i hn
      obtain ⟨x, hx, hx'⟩ := hk
      rcases List.mem_cons.1 hx with rfl | hx
      · exact absurd hx' hn
      · exact ih h ⟨x, hx, hx'⟩

/-- **C45** With the rule counter of `load_ast` (0): if the tree has a parser rule, FIRST, FOLLOW and the
table are computed without panic, for all hash orders. -/
theorem C45_tables_computed (h0 : 2 ≤ n0) (hf : sizeOf ast.toAst ≤ fuel) {g : Grammar}
    {data : List LexerRuleData} (h : buildGrammar lc fuel ast (Grammar.new name) n0 0 = .ok (g, data))
    (hk : ∃ k ∈ ast.children, Ast.isRule 1 k = true) (o : IterOrder g) (so : SetOrder) :
    ∃ n ts, ∀ fuel, n ≤ fuel → runTable g o so fuel = .ok ts := by
  refine C14_table_returns g o so (C45_wellFormed h0 hf h) ?_
  obtain ⟨s2, s3, hb, rfl, rfl⟩ := buildGrammar_ok h
  have hB := build_ok h0 hf hb
  have hI := hB.inv
  rw [hI.ids]
  left
  rcases hB.sym.first with h1 | h1
  · obtain ⟨D, hD, hr⟩ := hB.rules
    have hne := readRules_ne_nil hD hk
    obtain ⟨_, _, hdef, _⟩ := elabRules_inv D (runInv_init hB.sym) hr
    cases D with
    | nil => exact absurd rfl hne
    | cons r D =>
      obtain ⟨A, hA⟩ := hdef r.1 r.2 (by simp)
      have := hI.old A (hI.ntOk _ A hA)
      simp only [envOf] at this
      omega
  · exact h1

/-! ### C46 -/

/-- **C46** (partial) The words derivable from a named rule of the produced grammar are exactly the words of
its EBNF definition, provided no suffix is applied both to a token and to a rule that happen to have the same
number.  Without this the claim is false: see `C46_cache_collision`. -/
theorem C46_language_preserved_partial (h0 : 2 ≤ n0) (hf : sizeOf ast.toAst ≤ fuel) {s2 : SymState}
    {s3 : ProdState} (h : buildStates lc fuel ast (Grammar.new name) n0 r0 = .ok (s2, s3))
    (hc : NoClash s3.uses) {D : Rules} (hD : readRules lc ast.children = some D) (n : Str) (A : Nat)
    (hA : s3.grammar.vocabulary.getNonterminalIdByName n = some A) (w : List Nat) :
    Sentence s3.grammar.productions A w ↔
      Word D s3.grammar.vocabulary.getTerminalIdByName [.ref n] w := by
  have hB := build_ok h0 hf h
  obtain ⟨D', hD', hr⟩ := hB.rules
  rw [hD] at hD'
  cases hD'
  obtain ⟨hI, _, _, hrep⟩ := elabRules_inv D (runInv_init hB.sym) hr
  obtain ⟨h1, h2⟩ := hrep hc
  have htok : s3.grammar.vocabulary.getTerminalIdByName = (envOf s2).tok := funext hI.tok
  rw [hI.nt] at hA
  have hN : NamedRep (envOf s2) s3.nextRuleId s3.grammar.productions D := by
    constructor
    · intro m B hB' β hβ
      rcases h1 B β (hI.old B (hI.ntOk m B hB')) hβ with h3 | ⟨m', alts, alt, h3, h4, h5, h6⟩
      · have : (⟨B, β⟩ : Production) ∈ s2.grammar.productions := h3
        rw [hB.sym.prods] at this
        cases this
      · have := hI.inj m m' B hB' h3
        subst this
        exact ⟨alts, alt, h4, h5, h6⟩
    · intro m B hB' alts alt h3 h4
      exact h2 m alts alt B h3 h4 hB'
  have hseq : RepSeq (envOf s2) s3.nextRuleId s3.grammar.productions [.ref n] [.nt A] := by
    rw [RepSeq]
    exact ⟨_, [], rfl, by rw [Rep]; exact ⟨A, hA, rfl⟩, by rw [RepSeq]⟩
  rw [Sentence, ← yields_iff, htok]
  exact ⟨fun hy => word_of_yields hN hy _ hseq, fun hw => yields_of_word hN hw _ hseq⟩

/-- kind of an item -/
def Item.isTok : Item → Bool
  | .t _ => true
  | .nt _ => false

theorem applySuffix_uses (f : Suffix) (x : Item) (s : ProdState) :
    (applySuffix f x s).2.uses = (f, x) :: s.uses := by
  simp only [applySuffix]
  split
  · rfl
  · simp only [(setCache_fields _ f _ _).2.2.1]; rfl

theorem applySuffix_nt (f : Suffix) (x : Item) (s : ProdState) : (applySuffix f x s).1.isTok = false := by
  simp only [applySuffix]
  split <;> rfl

theorem finishBlock_uses (rs : List (List Item)) (s : ProdState) : (finishBlock rs s).2.uses = s.uses := by
  simp only [finishBlock]
  split
  · rfl
  · simp only
    rw [(foldl_insertProd s.nextRuleId rs _).2.2.2]
    rfl

mutual
theorem elabElem_uses (e : Elem) {s s' : ProdState} {x : Item} (h : elabElem e s = .ok (x, s')) :
    x.isTok = e.isTok ∧
    ∀ u ∈ s'.uses, u ∈ s.uses ∨ (u.1, u.2.isTok) ∈ e.suffixes := by
  cases e with
  | tok n => rw [elabElem, bind_eq_ok] at h; obtain ⟨a, _, h⟩ := h; cases h; exact ⟨rfl, fun _ h => .inl h⟩
  | ref n => rw [elabElem, bind_eq_ok] at h; obtain ⟨a, _, h⟩ := h; cases h; exact ⟨rfl, fun _ h => .inl h⟩
  | group alts =>
    rw [elabElem, bind_eq_ok] at h
    obtain ⟨⟨rs, s1⟩, h1, h⟩ := h
    cases h
    refine ⟨rfl, fun u hu => ?_⟩
    rw [finishBlock_uses] at hu
    rw [Elem.suffixes]
    exact elabAlts_uses alts h1 u hu
  | rep f e =>
    rw [elabElem, bind_eq_ok] at h
    obtain ⟨⟨y, s1⟩, h1, h⟩ := h
    have h : applySuffix f y s1 = (x, s') := Except.ok.inj h
    have hx := applySuffix_nt f y s1
    have hus := applySuffix_uses f y s1
    rw [h] at hx hus
    obtain ⟨i1, i2⟩ := elabElem_uses e h1
    refine ⟨hx, fun u hu => ?_⟩
    have hu : u ∈ (f, y) :: s1.uses := by rw [← hus]; exact hu
    rw [Elem.suffixes, List.mem_cons]
    rcases List.mem_cons.1 hu with rfl | hu
    · exact .inr (.inl (by rw [i1]))
    · rcases i2 u hu with h3 | h3
      · exact .inl h3
      · exact .inr (.inr h3)
theorem elabSeq_uses (es : List Elem) {s s' : ProdState} {α : List Item} (h : elabSeq es s = .ok (α, s')) :
    ∀ u ∈ s'.uses, u ∈ s.uses ∨ (u.1, u.2.isTok) ∈ seqSuffixes es := by
  cases es with
  | nil => rw [elabSeq] at h; cases h; exact fun _ h => .inl h
  | cons e es =>
    rw [elabSeq, bind_eq_ok] at h
    obtain ⟨⟨y, s1⟩, h1, h⟩ := h
    rw [bind_eq_ok] at h
    obtain ⟨⟨ys, s2⟩, h2, h⟩ := h
    cases h
    intro u hu
    rw [seqSuffixes, List.mem_append]
    rcases elabSeq_uses es h2 u hu with h3 | h3
    · rcases (elabElem_uses e h1).2 u h3 with h4 | h4
      · exact .inl h4
      · exact .inr (.inl h4)
    · exact .inr (.inr h3)
theorem elabAlts_uses (as : List (List Elem)) {s s' : ProdState} {rs : List (List Item)}
    (h : elabAlts as s = .ok (rs, s')) :
    ∀ u ∈ s'.uses, u ∈ s.uses ∨ (u.1, u.2.isTok) ∈ altsSuffixes as := by
  cases as with
  | nil => rw [elabAlts] at h; cases h; exact fun _ h => .inl h
  | cons a as =>
    rw [elabAlts, bind_eq_ok] at h
    obtain ⟨⟨y, s1⟩, h1, h⟩ := h
    rw [bind_eq_ok] at h
    obtain ⟨⟨ys, s2⟩, h2, h⟩ := h
    cases h
    intro u hu
    rw [altsSuffixes, List.mem_append]
    rcases elabAlts_uses as h2 u hu with h3 | h3
    · rcases elabSeq_uses a h1 u h3 with h4 | h4
      · exact .inl h4
      · exact .inr (.inl h4)
    · exact .inr (.inr h3)
end

theorem elabNamed_uses (A : Nat) (as : List (List Elem)) {s s' : ProdState} (h : elabNamed A as s = .ok s') :
    ∀ u ∈ s'.uses, u ∈ s.uses ∨ (u.1, u.2.isTok) ∈ altsSuffixes as := by
  induction as generalizing s with
  | nil => rw [elabNamed] at h; cases h; exact fun _ h => .inl h
  | cons a as ih =>
    rw [elabNamed, bind_eq_ok] at h
    obtain ⟨⟨y, s1⟩, h1, h⟩ := h
    intro u hu
    rw [altsSuffixes, List.mem_append]
    rcases ih h u hu with h3 | h3
    · rcases elabSeq_uses a h1 u h3 with h4 | h4
      · exact .inl h4
      · exact .inr (.inl h4)
    · exact .inr (.inr h3)

theorem elabRules_uses (rs : Rules) {s s' : ProdState} (h : elabRules rs s = .ok s') :
    ∀ u ∈ s'.uses, u ∈ s.uses ∨ ∃ r ∈ rs, (u.1, u.2.isTok) ∈ altsSuffixes r.2 := by
  induction rs generalizing s with
  | nil => rw [elabRules] at h; cases h; exact fun _ h => .inl h
  | cons r rs ih =>
    rw [elabRules, bind_eq_ok] at h
    obtain ⟨A, _, h⟩ := h
    rw [bind_eq_ok] at h
    obtain ⟨s1, h1, h⟩ := h
    intro u hu
    rcases ih h u hu with h3 | ⟨q, hq, h3⟩
    · rcases elabNamed_uses A _ h1 u h3 with h4 | h4
      · exact .inl h4
      · exact .inr ⟨r, by simp, h4⟩
    · exact .inr ⟨q, by simp [hq], h3⟩

/-- suffixes that are kept apart in the source do not collide in the caches -/
theorem noClash_of_separate (h0 : 2 ≤ n0) (hf : sizeOf ast.toAst ≤ fuel) {s2 : SymState} {s3 : ProdState}
    (hb : buildStates lc fuel ast (Grammar.new name) n0 r0 = .ok (s2, s3))
    {D : Rules} (hD : readRules lc ast.children = some D) (hs : SuffixesSeparate D) : NoClash s3.uses := by
  obtain ⟨D', hD', hr⟩ := (build_ok h0 hf hb).rules
  rw [hD] at hD'
  cases hD'
  intro f x y hx hy hxy
  have key : ∀ u ∈ s3.uses, ∃ r ∈ D, (u.1, u.2.isTok) ∈ altsSuffixes r.2 := by
    intro u hu
    rcases elabRules_uses D hr u hu with h1 | h1
    · cases h1
    · exact h1
  have kx := key _ hx
  have ky := key _ hy
  cases x <;> cases y <;> simp only [Item.isTok, Item.bare] at kx ky hxy
  · rw [hxy]
  · exact absurd ⟨ky, kx⟩ (hs f)
  · exact absurd ⟨kx, ky⟩ (hs f)
  · rw [hxy]

/-- what an element that has a suffix is read as -/
def Stands (E : Env) (N : Nat) : Elem → Item → Prop
  | .tok t, x => ∃ a, E.tok t = some a ∧ x = .t a
  | .ref n, x => ∃ A, E.nt n = some A ∧ x = .nt A
  | _, x => ∃ X, x = .nt X ∧ E.base ≤ X ∧ X < N

theorem Stands.mono {E : Env} {N N' : Nat} (h : N ≤ N') {e : Elem} {x : Item} (hs : Stands E N e x) : Stands E N' e x := by
  cases e with
  | tok t => exact hs
  | ref n => exact hs
  | group alts => obtain ⟨X, h1, h2, h3⟩ := hs; exact ⟨X, h1, h2, by omega⟩
  | rep f e => obtain ⟨X, h1, h2, h3⟩ := hs; exact ⟨X, h1, h2, by omega⟩

mutual
theorem elabElem_operands {E : Env} {N : Finset Nat} (e : Elem) {s s' : ProdState} {x : Item} (hi : RunInv E N s)
    (h : elabElem e s = .ok (x, s')) : Stands E s'.nextRuleId e x ∧
    ∀ u ∈ s'.uses, u ∈ s.uses ∨ ∃ e', (u.1, e') ∈ e.operands ∧ Stands E s'.nextRuleId e' u.2 := by
  cases e with
  | tok n =>
    rw [elabElem, bind_eq_ok] at h
    obtain ⟨a, ha, h⟩ := h
    cases h
    rw [unwrap_eq_ok, hi.tok] at ha
    exact ⟨⟨a, ha, rfl⟩, fun _ h => .inl h⟩
  | ref n =>
    rw [elabElem, bind_eq_ok] at h
    obtain ⟨a, ha, h⟩ := h
    cases h
    rw [unwrap_eq_ok, hi.nt] at ha
    exact ⟨⟨a, ha, rfl⟩, fun _ h => .inl h⟩
  | group alts =>
    rw [elabElem, bind_eq_ok] at h
    obtain ⟨⟨rs, s1⟩, h1, h⟩ := h
    obtain ⟨a1, a2, a3, a4⟩ := elabAlts_inv alts hi h1
    obtain ⟨g1, g2, g3, g4, g5⟩ := finishBlock_inv rs a1 a3
    cases h
    refine ⟨⟨_, rfl, g3, g4⟩, fun u hu => ?_⟩
    rw [finishBlock_uses] at hu
    rw [Elem.operands]
    rcases elabAlts_operands alts hi h1 u hu with h3 | ⟨e', h3, h4⟩
    · exact .inl h3
    · exact .inr ⟨e', h3, h4.mono g2.le⟩
  | rep f e =>
    rw [elabElem, bind_eq_ok] at h
    obtain ⟨⟨y, s1⟩, h1, h⟩ := h
    obtain ⟨a1, a2, a3, a4⟩ := elabElem_inv e hi h1
    obtain ⟨g1, g2, X, z, g3, g4, g5, -⟩ := applySuffix_inv f y a1 a3
    have h : applySuffix f y s1 = (x, s') := Except.ok.inj h
    have hus := applySuffix_uses f y s1
    rw [h] at g2 g3 g5 hus
    dsimp only at g2 g3 g5 hus
    obtain ⟨i1, i2⟩ := elabElem_operands e hi h1
    refine ⟨⟨X, g3, g4, g5⟩, fun u hu => ?_⟩
    rw [hus] at hu
    rw [Elem.operands]
    rcases List.mem_cons.1 hu with rfl | hu
    · exact .inr ⟨e, by simp, i1.mono g2.le⟩
    · rcases i2 u hu with h3 | ⟨e', h3, h4⟩
      · exact .inl h3
      · exact .inr ⟨e', by simp [h3], h4.mono g2.le⟩
theorem elabSeq_operands {E : Env} {N : Finset Nat} (es : List Elem) {s s' : ProdState} {α : List Item} (hi : RunInv E N s)
    (h : elabSeq es s = .ok (α, s')) :
    ∀ u ∈ s'.uses, u ∈ s.uses ∨ ∃ e', (u.1, e') ∈ seqOperands es ∧ Stands E s'.nextRuleId e' u.2 := by
  cases es with
  | nil => rw [elabSeq] at h; cases h; exact fun _ h => .inl h
  | cons e es =>
    rw [elabSeq, bind_eq_ok] at h
    obtain ⟨⟨y, s1⟩, h1, h⟩ := h
    rw [bind_eq_ok] at h
    obtain ⟨⟨ys, s2⟩, h2, h⟩ := h
    cases h
    intro u hu
    obtain ⟨a1, -⟩ := elabElem_inv e hi h1
    obtain ⟨-, b2, -⟩ := elabSeq_inv es a1 h2
    rw [seqOperands]
    rcases elabSeq_operands es a1 h2 u hu with h3 | ⟨e', h3, h4⟩
    · rcases (elabElem_operands e hi h1).2 u h3 with h4 | ⟨e', h4, h5⟩
      · exact .inl h4
      · exact .inr ⟨e', List.mem_append_left _ h4, h5.mono b2.le⟩
    · exact .inr ⟨e', List.mem_append_right _ h3, h4⟩
theorem elabAlts_operands {E : Env} {N : Finset Nat} (as : List (List Elem)) {s s' : ProdState} {rs : List (List Item)}
    (hi : RunInv E N s) (h : elabAlts as s = .ok (rs, s')) :
    ∀ u ∈ s'.uses, u ∈ s.uses ∨ ∃ e', (u.1, e') ∈ altsOperands as ∧ Stands E s'.nextRuleId e' u.2 := by
  cases as with
  | nil => rw [elabAlts] at h; cases h; exact fun _ h => .inl h
  | cons a as =>
    rw [elabAlts, bind_eq_ok] at h
    obtain ⟨⟨y, s1⟩, h1, h⟩ := h
    rw [bind_eq_ok] at h
    obtain ⟨⟨ys, s2⟩, h2, h⟩ := h
    cases h
    intro u hu
    obtain ⟨a1, -⟩ := elabSeq_inv a hi h1
    obtain ⟨-, b2, -⟩ := elabAlts_inv as a1 h2
    rw [altsOperands]
    rcases elabAlts_operands as a1 h2 u hu with h3 | ⟨e', h3, h4⟩
    · rcases elabSeq_operands a hi h1 u h3 with h4 | ⟨e', h4, h5⟩
      · exact .inl h4
      · exact .inr ⟨e', List.mem_append_left _ h4, h5.mono b2.le⟩
    · exact .inr ⟨e', List.mem_append_right _ h3, h4⟩
end

theorem elabNamed_operands {E : Env} {N : Finset Nat} {A : Nat} (hA : A ∈ N) (as : List (List Elem)) {s s' : ProdState}
    (hi : RunInv E N s) (h : elabNamed A as s = .ok s') :
    ∀ u ∈ s'.uses, u ∈ s.uses ∨ ∃ e', (u.1, e') ∈ altsOperands as ∧ Stands E s'.nextRuleId e' u.2 := by
  induction as generalizing s with
  | nil => rw [elabNamed] at h; cases h; exact fun _ h => .inl h
  | cons a as ih =>
    rw [elabNamed, bind_eq_ok] at h
    obtain ⟨⟨β, s1⟩, h1, h⟩ := h
    dsimp only at h
    obtain ⟨a1, a2, a3, -⟩ := elabSeq_inv a hi h1
    obtain ⟨g1, g2⟩ := insertNamed_inv a1 hA β _ a3
    obtain ⟨-, k2, -⟩ := elabNamed_inv hA as g1 h
    intro u hu
    rw [altsOperands]
    rcases ih g1 h u hu with h3 | ⟨e', h3, h4⟩
    · rcases elabSeq_operands a hi h1 u h3 with h4 | ⟨e', h4, h5⟩
      · exact .inl h4
      · exact .inr ⟨e', List.mem_append_left _ h4, h5.mono (g2.trans k2).le⟩
    · exact .inr ⟨e', List.mem_append_right _ h3, h4⟩

theorem elabRules_operands {E : Env} {N : Finset Nat} (rs : Rules) {s s' : ProdState} (hi : RunInv E N s)
    (h : elabRules rs s = .ok s') :
    ∀ u ∈ s'.uses, u ∈ s.uses ∨ ∃ e', Applied rs u.1 e' ∧ Stands E s'.nextRuleId e' u.2 := by
  induction rs generalizing s with
  | nil => rw [elabRules] at h; cases h; exact fun _ h => .inl h
  | cons r rs ih =>
    rw [elabRules, bind_eq_ok] at h
    obtain ⟨A, hA, h⟩ := h
    rw [unwrap_eq_ok, hi.nt] at hA
    rw [bind_eq_ok] at h
    obtain ⟨s1, h1, h⟩ := h
    obtain ⟨a1, -⟩ := elabNamed_inv (hi.ntOk _ A hA) _ hi h1
    obtain ⟨-, b2, -⟩ := elabRules_inv rs a1 h
    intro u hu
    rcases ih a1 h u hu with h3 | ⟨e', ⟨q, hq, h3⟩, h4⟩
    · rcases elabNamed_operands (hi.ntOk _ A hA) _ hi h1 u h3 with h4 | ⟨e', h4, h5⟩
      · exact .inl h4
      · exact .inr ⟨e', ⟨r, by simp, h4⟩, h5.mono b2.le⟩
    · exact .inr ⟨e', ⟨q, by simp [hq], h3⟩, h4⟩

/-- suffixes that are kept apart by the numbers do not collide in the caches -/
theorem noClash_of_apart (h0 : 2 ≤ n0) (hf : sizeOf ast.toAst ≤ fuel) {s2 : SymState} {s3 : ProdState}
    (hb : buildStates lc fuel ast (Grammar.new name) n0 r0 = .ok (s2, s3))
    {D : Rules} (hD : readRules lc ast.children = some D) (hs : SuffixesApart D s3.grammar.vocabulary) :
    NoClash s3.uses := by
  have hB := build_ok h0 hf hb
  obtain ⟨D', hD', hr⟩ := hB.rules
  rw [hD] at hD'
  cases hD'
  have hi := runInv_init hB.sym
  obtain ⟨hI, -⟩ := elabRules_inv D hi hr
  have key : ∀ u ∈ s3.uses, ∃ e, Applied D u.1 e ∧ Stands (envOf s2) s3.nextRuleId e u.2 := by
    intro u hu
    rcases elabRules_operands D hi hr u hu with h1 | h1
    · cases h1
    · exact h1
  have no : ∀ f a, (f, Item.t a) ∈ s3.uses → (f, Item.nt a) ∈ s3.uses → False := by
    intro f a h1 h2
    obtain ⟨e, ha, hst⟩ := key _ h1
    obtain ⟨e', ha', hst'⟩ := key _ h2
    cases e with
    | tok t =>
      obtain ⟨b, hb1, hb2⟩ := hst
      cases hb2
      have hv : s3.grammar.vocabulary.getTerminalIdByName t = some a := by rw [hI.tok]; exact hb1
      obtain ⟨c1, c2⟩ := hs f t a ha hv
      have anon : (∃ X, Item.nt a = .nt X ∧ (envOf s2).base ≤ X ∧ X < s3.nextRuleId) →
          ((∃ alts, Applied D f (.group alts)) ∨ (∃ k e, Applied D f (.rep k e))) → False := by
        rintro ⟨X, hX, hX1, hX2⟩ hg
        cases hX
        obtain ⟨r, hr⟩ := c2 hg ((hI.ids a).2 (.inr ⟨hX1, hX2⟩))
        rw [hI.nt] at hr
        have := hI.old a (hI.ntOk r a hr)
        omega
      cases e' with
      | tok t' => obtain ⟨b, _, hb⟩ := hst'; cases hb
      | ref r =>
        obtain ⟨A, hA, hA'⟩ := hst'
        cases hA'
        exact c1 r ha' (by rw [hI.nt]; exact hA)
      | group alts => exact anon hst' (.inl ⟨alts, ha'⟩)
      | rep k e => exact anon hst' (.inr ⟨k, e, ha'⟩)
    | ref r => obtain ⟨A, _, hA⟩ := hst; cases hA
    | group alts => obtain ⟨X, hX, _⟩ := hst; cases hX
    | rep k e => obtain ⟨X, hX, _⟩ := hst; cases hX
  intro f x y hx hy hxy
  cases x <;> cases y <;> simp only [Item.bare] at hxy
  · rw [hxy]
  · subst hxy; exact (no _ _ hy hx).elim
  · subst hxy; exact (no _ _ hx hy).elim
  · rw [hxy]

mutual
theorem operands_suffixes (e : Elem) : ∀ f x, (f, x) ∈ e.operands → (f, x.isTok) ∈ e.suffixes := by
  cases e with
  | tok n => intro f x h; simp [Elem.operands] at h
  | ref n => intro f x h; simp [Elem.operands] at h
  | group alts => intro f x h; rw [Elem.operands] at h; rw [Elem.suffixes]; exact operands_suffixesAlts alts f x h
  | rep k e =>
    intro f x h
    rw [Elem.operands, List.mem_cons] at h
    rw [Elem.suffixes, List.mem_cons]
    rcases h with h | h
    · cases h; exact .inl rfl
    · exact .inr (operands_suffixes e f x h)
theorem operands_suffixesSeq (es : List Elem) : ∀ f x, (f, x) ∈ seqOperands es → (f, x.isTok) ∈ seqSuffixes es := by
  cases es with
  | nil => intro f x h; simp [seqOperands] at h
  | cons e es =>
    intro f x h
    rw [seqOperands, List.mem_append] at h
    rw [seqSuffixes, List.mem_append]
    exact h.imp (operands_suffixes e f x) (operands_suffixesSeq es f x)
theorem operands_suffixesAlts (as : List (List Elem)) : ∀ f x, (f, x) ∈ altsOperands as → (f, x.isTok) ∈ altsSuffixes as := by
  cases as with
  | nil => intro f x h; simp [altsOperands] at h
  | cons e es =>
    intro f x h
    rw [altsOperands, List.mem_append] at h
    rw [altsSuffixes, List.mem_append]
    exact h.imp (operands_suffixesSeq e f x) (operands_suffixesAlts es f x)
end

/-- what is kept apart in the source is kept apart by the numbers, whatever they are -/
theorem SuffixesSeparate.apart {D : Rules} (h : SuffixesSeparate D) (v : Vocabulary) : SuffixesApart D v := by
  intro f t n ⟨r, hr, ht⟩ _
  have ht' : ∃ r ∈ D, (f, true) ∈ altsSuffixes r.2 := ⟨r, hr, operands_suffixesAlts _ _ _ ht⟩
  have no : ∀ e, e.isTok = false → ¬ Applied D f e := by
    rintro e he ⟨q, hq, hm⟩
    exact h f ⟨ht', q, hq, by rw [← he]; exact operands_suffixesAlts _ _ _ hm⟩
  refine ⟨fun m hm => absurd hm (no _ rfl), ?_⟩
  rintro (⟨_, hg⟩ | ⟨_, _, hg⟩)
  · exact absurd hg (no _ rfl)
  · exact absurd hg (no _ rfl)

/-- **C46** (partial) the same with a condition on the source and the numbers of its symbols: a token and a rule that are
written with the same suffix have different numbers, and a token with a suffix that is also written behind a group or a
repetition does not have the number of a rule without name. -/
theorem C46_apart_partial (h0 : 2 ≤ n0) (hf : sizeOf ast.toAst ≤ fuel) {g : Grammar}
    {data : List LexerRuleData} (h : buildGrammar lc fuel ast (Grammar.new name) n0 r0 = .ok (g, data))
    {D : Rules} (hD : readRules lc ast.children = some D) (hs : SuffixesApart D g.vocabulary) (n : Str) (A : Nat)
    (hA : g.vocabulary.getNonterminalIdByName n = some A) (w : List Nat) :
    Sentence g.productions A w ↔ Word D g.vocabulary.getTerminalIdByName [.ref n] w := by
  obtain ⟨s2, s3, hb, rfl, rfl⟩ := buildGrammar_ok h
  exact C46_language_preserved_partial h0 hf hb (noClash_of_apart h0 hf hb hD hs) hD n A hA w

/-- **C46** (partial) the same with a condition on the source alone: no suffix is applied both directly to a
token and to something else. -/
theorem C46_separate_suffixes_partial (h0 : 2 ≤ n0) (hf : sizeOf ast.toAst ≤ fuel) {g : Grammar}
    {data : List LexerRuleData} (h : buildGrammar lc fuel ast (Grammar.new name) n0 r0 = .ok (g, data))
    {D : Rules} (hD : readRules lc ast.children = some D) (hs : SuffixesSeparate D) (n : Str) (A : Nat)
    (hA : g.vocabulary.getNonterminalIdByName n = some A) (w : List Nat) :
    Sentence g.productions A w ↔ Word D g.vocabulary.getTerminalIdByName [.ref n] w := by
  obtain ⟨s2, s3, hb, rfl, rfl⟩ := buildGrammar_ok h
  exact C46_language_preserved_partial h0 hf hb (noClash_of_separate h0 hf hb hD hs) hD n A hA w

/-! ### C47 -/

/-- the rule nodes with one of these rule indices that are not inside another such node -/
def topmost (is : List Nat) (ast : RuleContext) : List Ast :=
  Ast.frontierList (fun c => decide (c.ruleIndex ∈ is)) ast.children

theorem lit_topmost (lc : LexConsts) (ast : RuleContext) :
    Ast.frontierList (litVisitor lc).overridden ast.children = topmost [5] ast := by
  rw [topmost]
  congr 1
  funext c
  rw [lit_overridden]
  simp

theorem sym_topmost (lc : LexConsts) (ast : RuleContext) :
    Ast.frontierList (symVisitor lc).overridden ast.children = topmost [1, 7] ast := by
  rw [topmost]
  congr 1
  funext c
  rw [sym_overridden]
  simp

/-- a string literal is written in an element that is not inside another element -/
def HasLiteral (lc : LexConsts) (ast : RuleContext) : Prop :=
  ∃ e ∈ topmost [5] ast, e.isRule 5 = true ∧ (firstText lc.STRING_LITERAL e.kids).isSome = true

theorem runLit_iff (lc : LexConsts) (ast : RuleContext) (s : LitState) :
    (HasLiteral lc ast → runLit lc ast s = .error .panic) ∧ (¬ HasLiteral lc ast → runLit lc ast s = .ok s) := by
  classical
  have key : (∃ n ks, Ast.rule n 5 ks ∈ topmost [5] ast ∧
      ((⟨n, ks, 5⟩ : RuleContext).stringLiteral lc).isSome) ↔ HasLiteral lc ast := by
    have ht : ∀ n ks, ((⟨n, ks, 5⟩ : RuleContext).stringLiteral lc).isSome =
        (firstText lc.STRING_LITERAL ks).isSome := by
      intro n ks
      have := getTerminal_text ⟨n, ks, 5⟩ lc.STRING_LITERAL
      rw [← this, Option.isSome_map]
      rfl
    constructor
    · rintro ⟨n, ks, h1, h2⟩
      rw [ht] at h2
      exact ⟨_, h1, by simp [Ast.isRule], h2⟩
    · rintro ⟨e, h1, h2, h3⟩
      cases e with
      | terminal t => cases h2
      | error t => cases h2
      | rule n i ks =>
        simp only [Ast.isRule, beq_iff_eq] at h2
        subst h2
        exact ⟨n, ks, h1, by rw [ht]; exact h3⟩
  rw [runLit_eq, runLit_cases, lit_topmost]
  exact ⟨fun h => if_pos (key.2 h), fun h => if_neg (fun h' => h (key.1 h'))⟩

/-- the names used in these alternatives are known -/
def NamesKnown (v : Vocabulary) (toks refs : List Str) : Prop :=
  (∀ m ∈ toks, (v.getTerminalIdByName m).isSome = true) ∧
  ∀ m ∈ refs, (v.getNonterminalIdByName m).isSome = true

theorem NamesKnown.congr {v v' : Vocabulary} (h : SameNames v v') {a b : List Str} : NamesKnown v' a b ↔ NamesKnown v a b := by
  simp only [NamesKnown, Vocabulary.getTerminalIdByName, Vocabulary.getNonterminalIdByName, h.1, h.2.2.2.1]

theorem NamesKnown.append {v : Vocabulary} {a b c d : List Str} :
    NamesKnown v (a ++ b) (c ++ d) ↔ NamesKnown v a c ∧ NamesKnown v b d := by
  simp only [NamesKnown, List.mem_append, or_imp, forall_and]
  tauto

theorem unwrap_isSome {α : Type} (o : Option α) : (∃ a, unwrap o = .ok a) ↔ o.isSome = true := by
  cases o <;> simp

mutual
theorem elabElem_ok_iff (e : Elem) (s : ProdState) :
    (∃ r, elabElem e s = .ok r) ↔ NamesKnown s.grammar.vocabulary e.tokNames e.ruleNames := by
  cases e with
  | tok n =>
    simp only [elabElem, bind_eq_ok, NamesKnown, Elem.tokNames, Elem.ruleNames, List.mem_singleton, forall_eq,
      List.not_mem_nil, false_imp_iff, implies_true, and_true, ← unwrap_isSome]
    exact ⟨fun ⟨_, a, h, _⟩ => ⟨a, h⟩, fun ⟨a, h⟩ => ⟨_, a, h, rfl⟩⟩
  | ref n =>
    simp only [elabElem, bind_eq_ok, NamesKnown, Elem.tokNames, Elem.ruleNames, List.mem_singleton, forall_eq,
      List.not_mem_nil, false_imp_iff, implies_true, true_and, ← unwrap_isSome]
    exact ⟨fun ⟨_, a, h, _⟩ => ⟨a, h⟩, fun ⟨a, h⟩ => ⟨_, a, h, rfl⟩⟩
  | group alts =>
    rw [Elem.tokNames, Elem.ruleNames, ← elabAlts_ok_iff alts s, elabElem]
    simp only [bind_eq_ok]
    exact ⟨fun ⟨_, a, h, _⟩ => ⟨a, h⟩, fun ⟨a, h⟩ => ⟨_, a, h, rfl⟩⟩
  | rep f e =>
    rw [Elem.tokNames, Elem.ruleNames, ← elabElem_ok_iff e s, elabElem]
    simp only [bind_eq_ok]
    exact ⟨fun ⟨_, a, h, _⟩ => ⟨a, h⟩, fun ⟨a, h⟩ => ⟨_, a, h, rfl⟩⟩
theorem elabSeq_ok_iff (es : List Elem) (s : ProdState) :
    (∃ r, elabSeq es s = .ok r) ↔ NamesKnown s.grammar.vocabulary (seqTokNames es) (seqRuleNames es) := by
  cases es with
  | nil => simp [elabSeq, NamesKnown, seqTokNames, seqRuleNames]
  | cons e es =>
    rw [seqTokNames, seqRuleNames, NamesKnown.append, ← elabElem_ok_iff e s, elabSeq]
    simp only [bind_eq_ok]
    constructor
    · rintro ⟨_, ⟨x, s1⟩, h1, ⟨xs, s2⟩, h2, _⟩
      exact ⟨⟨_, h1⟩, (NamesKnown.congr (elabElem_names e h1)).1 ((elabSeq_ok_iff es s1).1 ⟨_, h2⟩)⟩
    · rintro ⟨⟨⟨x, s1⟩, h1⟩, h2⟩
      obtain ⟨⟨xs, s2⟩, h3⟩ := (elabSeq_ok_iff es s1).2 ((NamesKnown.congr (elabElem_names e h1)).2 h2)
      exact ⟨_, _, h1, _, h3, rfl⟩
theorem elabAlts_ok_iff (as : List (List Elem)) (s : ProdState) :
    (∃ r, elabAlts as s = .ok r) ↔ NamesKnown s.grammar.vocabulary (altsTokNames as) (altsRuleNames as) := by
  cases as with
  | nil => simp [elabAlts, NamesKnown, altsTokNames, altsRuleNames]
  | cons a as =>
    rw [altsTokNames, altsRuleNames, NamesKnown.append, ← elabSeq_ok_iff a s, elabAlts]
    simp only [bind_eq_ok]
    constructor
    · rintro ⟨_, ⟨x, s1⟩, h1, ⟨xs, s2⟩, h2, _⟩
      exact ⟨⟨_, h1⟩, (NamesKnown.congr (elabSeq_names a h1)).1 ((elabAlts_ok_iff as s1).1 ⟨_, h2⟩)⟩
    · rintro ⟨⟨⟨x, s1⟩, h1⟩, h2⟩
      obtain ⟨⟨xs, s2⟩, h3⟩ := (elabAlts_ok_iff as s1).2 ((NamesKnown.congr (elabSeq_names a h1)).2 h2)
      exact ⟨_, _, h1, _, h3, rfl⟩
end

theorem elabNamed_ok_iff (A : Nat) (as : List (List Elem)) (s : ProdState) :
    (∃ r, elabNamed A as s = .ok r) ↔ NamesKnown s.grammar.vocabulary (altsTokNames as) (altsRuleNames as) := by
  induction as generalizing s with
  | nil => simp [elabNamed, NamesKnown, altsTokNames, altsRuleNames]
  | cons a as ih =>
    rw [altsTokNames, altsRuleNames, NamesKnown.append, ← elabSeq_ok_iff a s, elabNamed]
    simp only [bind_eq_ok]
    constructor
    · rintro ⟨r, ⟨x, s1⟩, h1, h2⟩
      have := (ih (s1.insertOrPrint ⟨A, x⟩ _)).1 ⟨r, h2⟩
      rw [insertOrPrint_voc] at this
      exact ⟨⟨_, h1⟩, (NamesKnown.congr (elabSeq_names a h1)).1 this⟩
    · rintro ⟨⟨⟨x, s1⟩, h1⟩, h2⟩
      have := (NamesKnown.congr (elabSeq_names a h1)).2 h2
      rw [← insertOrPrint_voc s1 ⟨A, x⟩ (chars! "产生式重复")] at this
      obtain ⟨r, h3⟩ := (ih _).2 this
      exact ⟨r, _, h1, h3⟩

/-- every name used or defined by the rules is known -/
def AllKnown (v : Vocabulary) (D : Rules) : Prop :=
  ∀ n alts, (n, alts) ∈ D → (v.getNonterminalIdByName n).isSome = true ∧
    NamesKnown v (altsTokNames alts) (altsRuleNames alts)

theorem elabRules_ok_iff (D : Rules) (s : ProdState) :
    (∃ r, elabRules D s = .ok r) ↔ AllKnown s.grammar.vocabulary D := by
  induction D generalizing s with
  | nil => simp [elabRules, AllKnown]
  | cons r D ih =>
    obtain ⟨n, alts⟩ := r
    have hcons : AllKnown s.grammar.vocabulary ((n, alts) :: D) ↔
        ((s.grammar.vocabulary.getNonterminalIdByName n).isSome = true ∧
          NamesKnown s.grammar.vocabulary (altsTokNames alts) (altsRuleNames alts)) ∧
        AllKnown s.grammar.vocabulary D := by
      constructor
      · exact fun h => ⟨h n alts (by simp), fun m as hm => h m as (by simp [hm])⟩
      · rintro ⟨h1, h2⟩ m as hm
        rcases List.mem_cons.1 hm with hm | hm
        · cases hm; exact h1
        · exact h2 m as hm
    have hcg : ∀ {v v' : Vocabulary}, SameNames v v' → (AllKnown v' D ↔ AllKnown v D) := by
      intro v v' hv
      simp only [AllKnown, NamesKnown.congr hv, Vocabulary.getNonterminalIdByName, hv.2.2.2.1]
    rw [hcons, elabRules]
    simp only [bind_eq_ok]
    constructor
    · rintro ⟨r, A, h1, s1, h2, h3⟩
      exact ⟨⟨(unwrap_isSome _).1 ⟨A, h1⟩, (elabNamed_ok_iff A alts s).1 ⟨s1, h2⟩⟩,
        (hcg (elabNamed_names A alts h2)).1 ((ih s1).1 ⟨r, h3⟩)⟩
    · rintro ⟨⟨h1, h2⟩, h3⟩
      obtain ⟨A, h1⟩ := (unwrap_isSome _).2 h1
      obtain ⟨s1, h2⟩ := (elabNamed_ok_iff A alts s).2 h2
      obtain ⟨r, h3⟩ := (ih s1).2 ((hcg (elabNamed_names A alts h2)).2 h3)
      exact ⟨r, A, h1, s1, h2, h3⟩

/-- **C47** Exactly when the three passes succeed: no string literal in a topmost element, the second pass
returns, the parser rules can be read, and all names they define or refer to are known. -/
theorem C47_build_succeeds_iff (hf : sizeOf ast.toAst ≤ fuel) (g0 : Grammar) :
    (∃ r, buildGrammar lc fuel ast g0 n0 r0 = .ok r) ↔
      ¬ HasLiteral lc ast ∧
      ∃ s2, runSym lc ast { grammar := g0, data := [], nextTokenId := n0, nextRuleId := r0 } = .ok s2 ∧
        ∃ D, readRules lc ast.children = some D ∧ AllKnown s2.grammar.vocabulary D := by
  by_cases hl : HasLiteral lc ast
  · simp [buildGrammar, buildStates, (runLit_iff lc ast _).1 hl, hl]
  · simp only [hl, not_false_eq_true, true_and, buildGrammar, buildStates, (runLit_iff lc ast _).2 hl, bind_ok]
    constructor
    · rintro ⟨r, h⟩
      rw [bind_eq_ok] at h
      obtain ⟨_, h, _⟩ := h
      rw [bind_eq_ok] at h
      obtain ⟨s2, h2, h⟩ := h
      rw [bind_eq_ok] at h
      obtain ⟨s3, h3, _⟩ := h
      refine ⟨s2, h2, ?_⟩
      rw [prodVisitRuleList_eq lc fuel ast hf] at h3
      cases hD : readRules lc ast.children with
      | none => rw [hD] at h3; cases h3
      | some D => rw [hD] at h3; exact ⟨D, rfl, (elabRules_ok_iff D _).1 ⟨s3, h3⟩⟩
    · rintro ⟨s2, h2, D, hD, hk⟩
      obtain ⟨s3, h3⟩ := (elabRules_ok_iff D (ProdState.new s2.grammar s2.nextRuleId)).2 hk
      refine ⟨(s3.grammar, s2.data), ?_⟩
      rw [h2, bind_ok, prodVisitRuleList_eq lc fuel ast hf, hD]
      simp only [h3, bind_ok]

theorem symVisitLexerRule_error (c : RuleContext) (s : SymState) :
    ∀ x, symVisitLexerRule lc c s = .error x → x = .panic := by
  have hdrop : ∀ (s : Str) n x, dropBytes s n = .error x → x = .panic := by
    intro s
    induction s with
    | nil => intro n x h; cases n <;> simp [dropBytes] at h; exact h.symm
    | cons c s ih =>
      intro n x h
      cases n with
      | zero => simp [dropBytes] at h
      | succ n =>
        rw [dropBytes] at h
        split at h
        · cases h; rfl
        · exact ih _ x h
  have htake : ∀ (s : Str) n x, takeBytes s n = .error x → x = .panic := by
    intro s
    induction s with
    | nil => intro n x h; cases n <;> simp [takeBytes] at h; exact h.symm
    | cons c s ih =>
      intro n x h
      cases n with
      | zero => simp [takeBytes] at h
      | succ n =>
        rw [takeBytes] at h
        split at h
        · cases h; rfl
        · exact error_panic_bind (ih _) (fun a _ e he => by cases he) x h
  have hslice : ∀ (s : Str) a b x, slice s a b = .error x → x = .panic := by
    intro s a b
    refine error_panic_bind (hdrop s a) (fun t _ x h => ?_)
    split at h
    · cases h; rfl
    · exact htake _ _ x h
  have hre : ∀ (t : Str) x, ruleRegex t = .error x → x = .panic := by
    intro t x h
    rw [ruleRegex] at h
    split at h
    · cases h
    · exact error_panic_bind (hslice _ _ _) (fun a _ e he => by cases he) x h
  refine error_panic_bind (unwrap_panic _) (fun tk _ x h => ?_)
  dsimp only at h
  split at h
  · cases h
  · refine error_panic_bind (unwrap_panic _) (fun a _ => error_panic_bind (unwrap_panic _)
      (fun b _ => error_panic_bind (hre _) (fun re _ e he => ?_))) x h
    cases re <;> cases he

/-- **C47** failure is always a panic, never divergence. -/
theorem C47_fails_by_panic (hf : sizeOf ast.toAst ≤ fuel) (g0 : Grammar) :
    ∀ e, buildGrammar lc fuel ast g0 n0 r0 = .error e → e = .panic := by
  have hfold : ∀ (l : List Ast) (s : SymState),
      ∀ e, l.foldlM (fun s a => (symVisitor lc).callOn a s) s = .error e → e = .panic := by
    intro l
    induction l with
    | nil => intro s e h; cases h
    | cons a l ih =>
      intro s
      rw [List.foldlM_cons]
      refine error_panic_bind (fun e h => ?_) (fun s' _ => ih s')
      rw [sym_callOn] at h
      have hmap : ∀ (x : Res (Unit × SymState)), (∀ e, x = .error e → e = .panic) →
          x.map Prod.snd = .error e → e = .panic := by
        intro x hx h
        cases x with
        | ok p => cases h
        | error e' => cases h; exact hx _ rfl
      split at h
      · refine hmap _ (error_panic_bind (unwrap_panic _) (fun tk _ x h => ?_)) h
        dsimp only at h
        split at h <;> cases h
      · exact hmap _ (symVisitLexerRule_error _ s) h
      · cases h
  refine error_panic_bind (error_panic_bind ?_ (fun s1 _ => error_panic_bind ?_ (fun s2 _ =>
    error_panic_bind ?_ (fun s3 _ e h => by cases h)))) (fun p _ e h => by cases h)
  · intro e h
    by_cases hl : HasLiteral lc ast
    · rw [(runLit_iff lc ast _).1 hl] at h; cases h; rfl
    · rw [(runLit_iff lc ast _).2 hl] at h; cases h
  · intro e h
    rw [runSym_eq] at h
    exact hfold _ _ e h
  · intro e h
    rw [prodVisitRuleList_eq lc fuel ast hf] at h
    cases hD : readRules lc ast.children with
    | none => rw [hD] at h; cases h; rfl
    | some D => rw [hD] at h; exact elabRules_error D _ e h

/-- a lexer rule that is not inside another rule defines the token -/
def DefinesToken (lc : LexConsts) (ast : RuleContext) (m : Str) : Prop :=
  ∃ k ∈ topmost [1, 7] ast, k.isRule 7 = true ∧ firstText lc.TOKEN_REF k.kids = some m

/-- a parser rule that is not inside another rule defines the rule -/
def DefinesRule (lc : LexConsts) (ast : RuleContext) (m : Str) : Prop :=
  ∃ k ∈ topmost [1, 7] ast, k.isRule 1 = true ∧ firstText lc.RULE_REF k.kids = some m

theorem foldlM_inv_mem {σ : Type} {f : σ → Ast → Res σ} {I : σ → Prop} (l : List Ast)
    (hf : ∀ s a s', a ∈ l → I s → f s a = .ok s' → I s') (s s' : σ) (hs : I s)
    (h : l.foldlM f s = .ok s') : I s' := by
  induction l generalizing s with
  | nil => cases h; exact hs
  | cons a l ih =>
    rw [List.foldlM_cons, bind_eq_ok] at h
    obtain ⟨s1, h1, h2⟩ := h
    exact ih (fun s b s' hb => hf s b s' (by simp [hb])) s1 (hf s a s1 (by simp) hs h1) h2

theorem known_defined (s s2 : SymState) (h : runSym lc ast s = .ok s2) :
    (∀ m a, s2.grammar.vocabulary.getTerminalIdByName m = some a →
      (s.grammar.vocabulary.getTerminalIdByName m).isSome = true ∨ DefinesToken lc ast m) ∧
    (∀ m a, s2.grammar.vocabulary.getNonterminalIdByName m = some a →
      (s.grammar.vocabulary.getNonterminalIdByName m).isSome = true ∨ DefinesRule lc ast m) := by
  rw [runSym_eq, sym_topmost] at h
  refine foldlM_inv_mem (I := fun s2 => (∀ m a, s2.grammar.vocabulary.getTerminalIdByName m = some a →
      (s.grammar.vocabulary.getTerminalIdByName m).isSome = true ∨ DefinesToken lc ast m) ∧
    (∀ m a, s2.grammar.vocabulary.getNonterminalIdByName m = some a →
      (s.grammar.vocabulary.getNonterminalIdByName m).isSome = true ∨ DefinesRule lc ast m)) _ ?_ s s2
      ⟨fun m a h => .inl (by simp [h]), fun m a h => .inl (by simp [h])⟩ h
  intro s1 k s1' hk hI hr
  rw [sym_callOn] at hr
  split at hr
  · rename_i n ks
    obtain ⟨_, hr⟩ := map_snd_ok hr
    rw [symVisitParserRule, bind_eq_ok] at hr
    obtain ⟨tk, htk, hr⟩ := hr
    dsimp only at hr
    split at hr
    · cases hr; exact hI
    · cases hr
      have htext : firstText lc.RULE_REF ks = some tk.text := by
        rw [unwrap_eq_ok] at htk
        have := getTerminal_text ⟨n, ks, 1⟩ lc.RULE_REF
        rw [← this]
        show Option.map _ ((⟨n, ks, 1⟩ : RuleContext).ruleRef lc) = _
        rw [htk]; rfl
      constructor
      · intro m a hm
        refine hI.1 m a ?_
        simp only [Vocabulary.addNamedNonterminal] at hm
        split at hm <;> exact hm
      · intro m a hm
        simp only [Vocabulary.addNamedNonterminal] at hm
        split at hm
        · exact hI.2 m a hm
        · simp only [Vocabulary.getNonterminalIdByName] at hm
          rw [HMap.get_insert] at hm
          split at hm
          · rename_i he
            subst he
            exact .inr ⟨_, hk, by simp [Ast.isRule], htext⟩
          · exact hI.2 m a hm
  · rename_i n ks
    obtain ⟨_, hr⟩ := map_snd_ok hr
    rw [symVisitLexerRule, bind_eq_ok] at hr
    obtain ⟨tk, htk, hr⟩ := hr
    dsimp only at hr
    split at hr
    · cases hr; exact hI
    · rw [bind_eq_ok] at hr
      obtain ⟨_, _, hr⟩ := hr
      rw [bind_eq_ok] at hr
      obtain ⟨_, _, hr⟩ := hr
      rw [bind_eq_ok] at hr
      obtain ⟨re, _, hr⟩ := hr
      cases re with
      | none => cases hr; exact hI
      | some re =>
        cases hr
        have htext : firstText lc.TOKEN_REF ks = some tk.text := by
          rw [unwrap_eq_ok] at htk
          have := getTerminal_text ⟨n, ks, 7⟩ lc.TOKEN_REF
          rw [← this]
          show Option.map _ ((⟨n, ks, 7⟩ : RuleContext).tokenRef lc) = _
          rw [htk]; rfl
        constructor
        · intro m a hm
          simp only [Vocabulary.addTerminal] at hm
          split at hm
          · exact hI.1 m a hm
          · split at hm
            · exact hI.1 m a hm
            · simp only [Vocabulary.getTerminalIdByName] at hm
              rw [HMap.get_insert] at hm
              split at hm
              · rename_i he
                subst he
                exact .inr ⟨_, hk, by simp [Ast.isRule], htext⟩
              · exact hI.1 m a hm
        · intro m a hm
          refine hI.2 m a ?_
          simp only [Vocabulary.addTerminal] at hm
          split at hm
          · exact hm
          · split at hm <;> exact hm
  · cases hr; exact hI

theorem not_ok_panic {α : Type} {x : Res α} (h1 : ∀ e, x = .error e → e = .panic) (h2 : ¬ ∃ r, x = .ok r) :
    x = .error .panic := by
  cases x with
  | ok r => exact absurd ⟨r, rfl⟩ h2
  | error e => rw [h1 e rfl]

/-- **C47** If a parser rule refers, at any depth, to a token that no lexer rule defines (and that is not one
of the two reserved names), building the grammar panics. -/
theorem C47_undefined_token_panics (hf : sizeOf ast.toAst ≤ fuel) {D : Rules}
    (hD : readRules lc ast.children = some D) {n m : Str} {alts : List (List Elem)} (hn : (n, alts) ∈ D)
    (hm : m ∈ altsTokNames alts) (hu : ¬ DefinesToken lc ast m) (h1 : m ≠ "_START".toList)
    (h2 : m ≠ "_STOP".toList) :
    buildGrammar lc fuel ast (Grammar.new name) n0 r0 = .error .panic := by
  refine not_ok_panic (C47_fails_by_panic hf _) ?_
  rw [C47_build_succeeds_iff hf]
  rintro ⟨_, s2, hs, D', hD', hk⟩
  rw [hD] at hD'
  cases hD'
  obtain ⟨a, ha⟩ := Option.isSome_iff_exists.1 ((hk n alts hn).2.1 m hm)
  rcases (known_defined _ s2 hs).1 m a ha with h3 | h3
  · have e : (Grammar.new name).vocabulary.tNameToId =
        ((HMap.empty).insert Vocabulary.startName 0).insert Vocabulary.stopName 1 := rfl
    simp only [Vocabulary.getTerminalIdByName, e, HMap.get_insert, HMap.get_empty] at h3
    rw [if_neg (fun h => h2 h.symm), if_neg (fun h => h1 h.symm)] at h3
    cases h3
  · exact hu h3

/-- **C47** If a parser rule refers, at any depth, to a rule that no parser rule defines, building the grammar
panics. -/
theorem C47_undefined_rule_panics (hf : sizeOf ast.toAst ≤ fuel) {D : Rules}
    (hD : readRules lc ast.children = some D) {n m : Str} {alts : List (List Elem)} (hn : (n, alts) ∈ D)
    (hm : m ∈ altsRuleNames alts) (hu : ¬ DefinesRule lc ast m) :
    buildGrammar lc fuel ast (Grammar.new name) n0 r0 = .error .panic := by
  refine not_ok_panic (C47_fails_by_panic hf _) ?_
  rw [C47_build_succeeds_iff hf]
  rintro ⟨_, s2, hs, D', hD', hk⟩
  rw [hD] at hD'
  cases hD'
  obtain ⟨a, ha⟩ := Option.isSome_iff_exists.1 ((hk n alts hn).2.2 m hm)
  rcases (known_defined _ s2 hs).2 m a ha with h3 | h3
  · cases h3
  · exact hu h3

theorem mem_frontierList {hide : RuleContext → Bool} {k x : Ast} {ks : List Ast} (hk : k ∈ ks)
    (hx : x ∈ k.frontier hide) : x ∈ Ast.frontierList hide ks := by
  induction ks with
  | nil => cases hk
  | cons a ks ih =>
    rw [Ast.frontierList, List.mem_append]
    rcases List.mem_cons.1 hk with rfl | hk
    · exact .inl hx
    · exact .inr (ih hk)

theorem frontier_descend {is : List Nat} {k x : Ast} {i : Nat} (hi : k.isRule i = true) (his : i ∉ is)
    (hx : x ∈ Ast.frontierList (fun c => decide (c.ruleIndex ∈ is)) k.kids) :
    x ∈ k.frontier (fun c => decide (c.ruleIndex ∈ is)) := by
  cases k with
  | terminal t => cases hi
  | error t => cases hi
  | rule n j ks =>
    simp only [Ast.isRule, beq_iff_eq] at hi
    subst hi
    rw [Ast.frontier, if_neg (by simpa using his)]
    exact hx

/-- **C47** A string literal written directly in an alternative of a parser rule makes the first pass panic,
and so the whole construction. -/
theorem C47_literal_panics (rule block alt elem : Ast) (tok : Token) (h1 : rule ∈ ast.children)
    (h1' : rule.isRule 1 = true) (h2 : block ∈ rule.kids) (h2' : block.isRule 2 = true) (h3 : alt ∈ block.kids)
    (h3' : alt.isRule 3 = true) (h4 : elem ∈ alt.kids) (h4' : elem.isRule 5 = true)
    (h5 : Ast.terminal tok ∈ elem.kids) (h5' : tok.tokenType = lc.STRING_LITERAL) (g0 : Grammar) (s : LitState) :
    runLit lc ast s = .error .panic ∧ buildGrammar lc fuel ast g0 n0 r0 = .error .panic := by
  have hself : elem ∈ elem.frontier (fun c => decide (c.ruleIndex ∈ [5])) := by
    cases elem with
    | terminal t => cases h4'
    | error t => cases h4'
    | rule n j ks =>
      simp only [Ast.isRule, beq_iff_eq] at h4'
      subst h4'
      simp [Ast.frontier]
  have htext : (firstText lc.STRING_LITERAL elem.kids).isSome = true := by
    generalize elem.kids = ks at h5
    induction ks with
    | nil => cases h5
    | cons k ks ih =>
      rcases List.mem_cons.1 h5 with rfl | h6
      · simp [firstText, h5']
      · cases k with
        | terminal t =>
          rw [firstText]
          split
          · rfl
          · exact ih h6
        | error t => exact ih h6
        | rule n i l => exact ih h6
  have hl : HasLiteral lc ast :=
    ⟨elem, mem_frontierList h1 (frontier_descend h1' (by simp) (mem_frontierList h2 (frontier_descend h2' (by simp)
      (mem_frontierList h3 (frontier_descend h3' (by simp) (mem_frontierList h4 hself)))))), h4', htext⟩
  refine ⟨(runLit_iff lc ast s).1 hl, ?_⟩
  simp [buildGrammar, buildStates, (runLit_iff lc ast _).1 hl]

/-! ### a concrete tree: `a : (B a)* C | ; B : /b/ ; C : /\/c/ ;` and others -/

namespace ExTree

/-- a token of the old lexer -/
def tk (ty : Nat) (text : String) : Ast := .terminal (.new ty [] text.toList)
/-- a rule node -/
def nd (i : Nat) (kids : List Ast) : Ast := .rule [] i kids
/-- `name : block ;` -/
def rule (name : String) (alts : List Ast) : Ast := nd 1 [tk 7 name, tk 8 ":", nd 2 alts, tk 10 ";"]
/-- an alternative -/
def alt (elems : List Ast) : Ast := nd 3 elems
/-- the empty alternative -/
def eps : Ast := nd 3 [nd 4 []]
/-- an element with optional suffix -/
def el (k : Ast) (suffix : List Ast) : Ast := nd 5 (k :: suffix)
/-- `*` -/
def star : List Ast := [nd 6 [tk 11 "*"]]
/-- `+` -/
def plus : List Ast := [nd 6 [tk 12 "+"]]
/-- `NAME : /re/ ;` -/
def lex (name re : String) : Ast := nd 7 [tk 6 name, tk 8 ":", nd 8 [tk 21 re], tk 10 ";"]

/-- `a : (B a)* C | ε ; B : /b/ ; B : /x/ ; C : /\/c/ ;` -/
def tree : RuleContext := ⟨[], [
  rule "a" [alt [el (nd 2 [alt [el (tk 6 "B") [], el (tk 7 "a") []]]) star, el (tk 6 "C") []], eps],
  lex "B" "/b/", lex "B" "/x/", lex "C" "/\\/c/"], 0⟩

theorem tree_size : sizeOf tree.toAst ≤ 5000 := by decide +kernel

theorem tree_builds : (buildGrammar .old 5000 tree (Grammar.new "g".toList) 2 0).map
      (fun r => (r.1.productions, r.2.map (fun d => (d.tokenType, d.tokenName, d.regex)))) =
    .ok ([⟨1, [.t 2, .nt 0]⟩, ⟨2, []⟩, ⟨2, [.nt 1, .nt 2]⟩, ⟨0, [.nt 2, .t 3]⟩, ⟨0, []⟩],
      [(2, "B".toList, "^(b)".toList), (3, "C".toList, "^(/c)".toList)]) := by decide +kernel

/-- the rules of the tree -/
def rules : Rules :=
  [("a".toList, [[.rep .star (.group [[.tok "B".toList, .ref "a".toList]]), .tok "C".toList], []])]

theorem tree_rules : readRules .old tree.children = some rules := by rfl

/-- non-vacuity of the hypotheses of C43–C46, with two lexer rules kept and one dropped -/
example : ∃ g data, sizeOf tree.toAst ≤ 5000 ∧
    buildGrammar .old 5000 tree (Grammar.new "g".toList) 2 0 = .ok (g, data) ∧
    data.length = 2 ∧ g.productions.length = 5 ∧ readRules .old tree.children = some rules ∧
    SuffixesSeparate rules ∧ (∃ k ∈ tree.children, Ast.isRule 1 k = true) := by
  have h := tree_builds
  cases hb : buildGrammar .old 5000 tree (Grammar.new "g".toList) 2 0 with
  | error e => rw [hb] at h; cases h
  | ok r =>
    rw [hb] at h
    have h' := Except.ok.inj h
    have h1 := congrArg (fun p => p.1.length) h'
    have h2 := congrArg (fun p => p.2.length) h'
    simp only [List.length_map, List.length_cons, List.length_nil] at h1 h2
    refine ⟨r.1, r.2, tree_size, rfl, h2, h1, tree_rules, ?_, _, List.mem_cons_self, rfl⟩
    rintro f ⟨⟨x, hx, hx'⟩, _⟩
    simp only [rules, List.mem_singleton] at hx
    subst hx
    simp [altsSuffixes, seqSuffixes, Elem.suffixes, Elem.isTok] at hx'

/-- `r : A* u* ; s : A ; u : B ; A : /a/ ; B : /b/ ;` — token `A` and rule `u` both have number 2 -/
def clash : RuleContext := ⟨[], [
  rule "r" [alt [el (tk 6 "A") star, el (tk 7 "u") star]],
  rule "s" [alt [el (tk 6 "A") []]],
  rule "u" [alt [el (tk 6 "B") []]],
  lex "A" "/a/", lex "B" "/b/"], 0⟩

/-- the rules of the tree -/
def clashRules : Rules :=
  [("r".toList, [[.rep .star (.tok "A".toList), .rep .star (.ref "u".toList)]]),
   ("s".toList, [[.tok "A".toList]]), ("u".toList, [[.tok "B".toList]])]

theorem clash_rules : readRules .old clash.children = some clashRules := by rfl

theorem clash_builds : (loadAst 5000 clash).map (fun r => (r.1.productions,
      r.1.vocabulary.getNonterminalIdByName "r".toList, r.1.vocabulary.getTerminalIdByName "B".toList)) =
    .ok ([⟨3, []⟩, ⟨3, [.t 2, .nt 3]⟩, ⟨0, [.nt 3, .nt 3]⟩, ⟨1, [.t 2]⟩, ⟨2, [.t 3]⟩], some 0, some 3) := by
  decide +kernel

end ExTree

/-- a set of symbols closed under productions is closed under derivation -/
theorem derives_within {P : List Production} {ok : Item → Prop}
    (hP : ∀ p ∈ P, ok (.nt p.left) → ∀ x ∈ p.right, ok x) {α β : List Item} (h : Derives P α β)
    (hα : ∀ x ∈ α, ok x) : ∀ x ∈ β, ok x := by
  induction h with
  | refl => exact hα
  | tail _ hs ih =>
    cases hs with
    | mk p hp u v =>
      intro x hx
      simp only [List.mem_append] at hx
      rcases hx with hx | hx | hx
      · exact ih x (by simp [hx])
      · exact hP p hp (ih _ (by simp)) x hx
      · exact ih x (by simp [hx])

/-- **C46** is false without the side condition: for `r : A* u* ; s : A ; u : B ;`, where token `A` and rule
`u` have the same number, the word `B` of rule `r` is not derivable in the produced grammar, because `u*` is
silently replaced by `A*`. -/
theorem C46_cache_collision :
    ∃ (ast : RuleContext) (fuel : Nat) (g : Grammar) (data : List LexerRuleData) (D : Rules) (n : Str) (A : Nat)
      (w : List Nat), sizeOf ast.toAst ≤ fuel ∧ loadAst fuel ast = .ok (g, data) ∧
      readRules .old ast.children = some D ∧ g.vocabulary.getNonterminalIdByName n = some A ∧
      Word D g.vocabulary.getTerminalIdByName [.ref n] w ∧ ¬ Sentence g.productions A w := by
  have h := ExTree.clash_builds
  cases hb : loadAst 5000 ExTree.clash with
  | error e => rw [hb] at h; cases h
  | ok r =>
    obtain ⟨g, data⟩ := r
    rw [hb] at h
    have h' := Except.ok.inj h
    simp only [Prod.mk.injEq] at h'
    obtain ⟨h1, h2, h3⟩ := h'
    refine ⟨ExTree.clash, 5000, g, data, ExTree.clashRules, "r".toList, 0, [3], by decide +kernel, hb,
      ExTree.clash_rules, h2, ?_, ?_⟩
    · have hu : Word ExTree.clashRules g.vocabulary.getTerminalIdByName [.ref "u".toList] ([3] ++ []) :=
        .ref (List.mem_cons_of_mem _ (List.mem_cons_of_mem _ List.mem_cons_self)) List.mem_cons_self
          (.tok h3 .nil) .nil
      have hr : Word ExTree.clashRules g.vocabulary.getTerminalIdByName
          [.rep .star (.tok "A".toList), .rep .star (.ref "u".toList)] ([3] ++ [] ++ []) :=
        .starNil (.starCons hu (.starNil .nil))
      exact .ref (w := []) List.mem_cons_self List.mem_cons_self hr .nil
    · intro hs
      rw [h1] at hs
      have := derives_within (ok := fun x => x = .t 2 ∨ x = .nt 0 ∨ x = .nt 3) (by decide) hs (by decide)
        (.t 3) (by decide)
      revert this
      decide

/-- `r : A* u* ; u : B ; A : /a/ ; B : /b/ ;` — token `A` has number 2 and rule `u` has number 1 -/
def ExTree.mixed : RuleContext := ⟨[], [
  ExTree.rule "r" [ExTree.alt [ExTree.el (ExTree.tk 6 "A") ExTree.star, ExTree.el (ExTree.tk 7 "u") ExTree.star]],
  ExTree.rule "u" [ExTree.alt [ExTree.el (ExTree.tk 6 "B") []]],
  ExTree.lex "A" "/a/", ExTree.lex "B" "/b/"], 0⟩

/-- the rules of the tree -/
def ExTree.mixedRules : Rules :=
  [("r".toList, [[.rep .star (.tok "A".toList), .rep .star (.ref "u".toList)]]), ("u".toList, [[.tok "B".toList]])]

theorem ExTree.mixed_builds : (loadAst 5000 ExTree.mixed).map (fun r => (r.1.productions,
      r.1.vocabulary.getNonterminalIdByName "u".toList, r.1.vocabulary.getTerminalIdByName "A".toList)) =
    .ok ([⟨2, []⟩, ⟨2, [.t 2, .nt 2]⟩, ⟨3, []⟩, ⟨3, [.nt 1, .nt 3]⟩, ⟨0, [.nt 2, .nt 3]⟩, ⟨1, [.t 3]⟩],
      some 1, some 2) := by
  decide +kernel

/-- non-vacuity of the hypotheses of `C46_apart_partial`: the same suffix behind a token and behind a rule -/
example : ∃ g data, sizeOf ExTree.mixed.toAst ≤ 5000 ∧ loadAst 5000 ExTree.mixed = .ok (g, data) ∧
    readRules .old ExTree.mixed.children = some ExTree.mixedRules ∧ SuffixesApart ExTree.mixedRules g.vocabulary ∧
    ¬ SuffixesSeparate ExTree.mixedRules := by
  have h := ExTree.mixed_builds
  cases hb : loadAst 5000 ExTree.mixed with
  | error e => rw [hb] at h; cases h
  | ok r =>
    obtain ⟨g, data⟩ := r
    rw [hb] at h
    have h' := Except.ok.inj h
    simp only [Prod.mk.injEq] at h'
    obtain ⟨-, h2, h3⟩ := h'
    refine ⟨g, data, by decide +kernel, rfl, rfl, ?_, ?_⟩
    · intro f t n ht hn
      have ht' : t = "A".toList := by
        obtain ⟨x, hx, hx'⟩ := ht
        simp only [ExTree.mixedRules, List.mem_cons, List.not_mem_nil, or_false] at hx
        rcases hx with rfl | rfl <;> simp [altsOperands, seqOperands, Elem.operands] at hx' <;> simp [hx'.2]
      subst ht'
      rw [h3] at hn
      cases hn
      refine ⟨fun r hr => ?_, ?_⟩
      · obtain ⟨x, hx, hx'⟩ := hr
        have : r = "u".toList := by
          simp only [ExTree.mixedRules, List.mem_cons, List.not_mem_nil, or_false] at hx
          rcases hx with rfl | rfl <;> simp [altsOperands, seqOperands, Elem.operands] at hx' <;> simp [hx'.2]
        rw [this, h2]
        decide
      · rintro (⟨alts, x, hx, hx'⟩ | ⟨k, e, x, hx, hx'⟩) <;>
          simp only [ExTree.mixedRules, List.mem_cons, List.not_mem_nil, or_false] at hx <;>
          rcases hx with rfl | rfl <;> simp [altsOperands, seqOperands, Elem.operands] at hx'
    · intro hs
      exact hs .star ⟨⟨_, List.mem_cons_self, by decide⟩, ⟨_, List.mem_cons_self, by decide⟩⟩

/-- non-vacuity of `C47_undefined_token_panics`, `C47_undefined_rule_panics` and `C47_literal_panics` -/
example : ∃ ast D, readRules .old ast.children = some D ∧
    D = [("r".toList, [[.rep .star (.group [[.tok "B".toList, .ref "q".toList]])]])] ∧
    ¬ DefinesToken .old ast "B".toList ∧ ¬ DefinesRule .old ast "q".toList := by
  refine ⟨⟨[], [ExTree.rule "r" [ExTree.alt [ExTree.el (ExTree.nd 2 [ExTree.alt [ExTree.el (ExTree.tk 6 "B") [],
    ExTree.el (ExTree.tk 7 "q") []]]) ExTree.star]], ExTree.lex "A" "/a/"], 0⟩, _, by rfl, rfl, ?_, ?_⟩
  · rw [DefinesToken]; decide +kernel
  · rw [DefinesRule]; decide +kernel

example : HasLiteral .old ⟨[], [ExTree.rule "r" [ExTree.alt [ExTree.el (ExTree.tk 19 "'+'") []]]], 0⟩ ∧
    ¬ HasLiteral .old ExTree.tree := by
  simp only [HasLiteral]; decide +kernel

end Syntaxis
