import Verif.Props.Table
import Verif.Lemmas.Parser
import Mathlib.Data.Finset.Lattice.Fold

/-!
# C18–C27: the table-driven parser

`parse()` is the entry point for rule 0 (`Parser.parse_eq`), the generated entry points are
`Parser.parseRule`; the theorems are about all of them.
-/

namespace Syntaxis
open Grammar

/-- the parser of `main.rs:83-84` for the grammar `g` and the result of `ll1_table` -/
def parserOf (g : Grammar) (ts : TableState) (toks : List Token) : Parser :=
  { tokens := toks, table := ts.table, vocabulary := g.vocabulary }

theorem Parser.parse_eq (ps : Parser) (fuel : Nat) : ps.parse fuel = ps.parseRule 0 fuel := rfl

theorem Parser.parseRule_ok {ps : Parser} {A fuel : Nat} {r : RuleContext} {log : MismatchLog} :
    ps.parseRule A fuel = .ok (r, log) ↔ ∃ c, ps.parseAst fuel 0 A = .ok (r, c, log) := by
  simp only [Parser.parseRule, bind_eq_ok]
  constructor
  · rintro ⟨⟨r', c, l'⟩, h, h'⟩
    cases h'
    exact ⟨c, h⟩
  · rintro ⟨c, h⟩
    exact ⟨_, h, rfl⟩

theorem tableSound_of {g : Grammar} {o : IterOrder g} {so : SetOrder} {fuel : Nat} {ts : TableState}
    (h : runTable g o so fuel = .ok ts) : TableSound g.productions ts.table :=
  fun A t p he => C14_table_sound g o so fuel ts h A t p he

theorem tableOf_of {g : Grammar} {o : IterOrder g} {so : SetOrder} {fuel : Nat} {ts : TableState}
    (h : runTable g o so fuel = .ok ts) : TableOf g.productions ts.table :=
  fun A t p he => ⟨(tableSound_of h A t p he).1, (tableSound_of h A t p he).2.1⟩

theorem tableComplete_of {g : Grammar} {o : IterOrder g} {so : SetOrder} {fuel : Nat} {ts : TableState}
    (h : runTable g o so fuel = .ok ts) (hc : ts.conflicts = []) :
    TableComplete g.productions ts.table :=
  fun p hp t ht => (C15_table_complete g o so fuel ts h p hp t ht).2 hc

theorem spells_of_types {g : Grammar} {ts : TableState} {toks : List Token} {w rest : List Nat} {s : Nat}
    (h : toks.map Token.tokenType = w ++ s :: rest) : Spells (parserOf g ts toks) 0 (w ++ [s]) := by
  have e : w ++ s :: rest = (w ++ [s]) ++ rest := by simp
  rw [e] at h
  have : Spells (parserOf g ts toks) 0 ((w ++ [s]) ++ rest) := by
    intro i a hi
    rw [← h, List.getElem?_map] at hi
    cases ht : toks[i]? with
    | none => rw [ht] at hi; cases hi
    | some tok =>
      rw [ht] at hi
      exact ⟨tok, by simpa [parserOf] using ht, by simpa using hi⟩
  exact this.left

/-! ## examples -/

/-- an executable iteration order for token sets: increasing -/
def incSetOrder : SetOrder where
  enum := fun _ _ s => (List.range (s.sup id + 1)).filter (· ∈ s)
  nodup := fun _ _ s => List.Nodup.filter _ List.nodup_range
  mem := fun _ _ s t => by
    simp only [List.mem_filter, List.mem_range, decide_eq_true_eq, and_iff_right_iff_imp]
    intro h
    have : id t ≤ s.sup id := Finset.le_sup h
    simp only [id] at this
    omega

/-- An LL(1) grammar with an unnamed rule: `e : t ('+' t)*`, `t : ID`, i.e. `E → T 1`,
`1 → '+' T 1 | ε`, `T → ID` with `'+'` = 3, `ID` = 2. -/
def llGrammar : Grammar where
  name := []
  vocabulary := ((Vocabulary.new.addNamedNonterminal 0 ['e']).1.addNamedNonterminal 2 ['t']).1.addUnnamedNonterminal 1 |>.1
  productions := [⟨0, [.nt 2, .nt 1]⟩, ⟨1, [.t 3, .nt 2, .nt 1]⟩, ⟨1, []⟩, ⟨2, [.t 2]⟩]

/-- some iteration order of it -/
def llOrder : IterOrder llGrammar where
  ids := [2, 0, 1]
  ids_mem := by
    intro i
    have : llGrammar.vocabulary.nonterminals = {0, 1, 2} := by decide
    rw [this]; simp; tauto
  ord := llGrammar.productions.reverse
  ord_perm := List.reverse_perm _
  ord_nodup := by decide

theorem llGrammar_run : ((runTable llGrammar llOrder incSetOrder 10).map (·.conflicts)) = .ok [] := by
  decide +kernel

/-- the example has a conflict-free table -/
theorem llGrammar_table : ∃ ts, runTable llGrammar llOrder incSetOrder 10 = .ok ts ∧ ts.conflicts = [] := by
  have h := llGrammar_run
  cases hr : runTable llGrammar llOrder incSetOrder 10 with
  | error e => rw [hr] at h; cases h
  | ok ts => rw [hr] at h; exact ⟨ts, rfl, by simpa [Except.map] using h⟩

/-- a token of a given type -/
def tk (a : Nat) : Token := Token.new a [] []

/-! ## C18 -/

/-- **C18** whatever the parser is given, if it returns, the leaves of the tree are a prefix of the
token vector. -/
theorem C18_leaves_are_consumed_tokens (ps : Parser) (A fuel : Nat) (r : RuleContext)
    (log : MismatchLog) (h : ps.parseRule A fuel = .ok (r, log)) :
    ∃ k, k ≤ ps.tokens.length ∧ r.toAst.leaves = ps.tokens.take k := by
  obtain ⟨c, h⟩ := Parser.parseRule_ok.1 h
  obtain ⟨_, _, tok, p, f, htok, hp, hr⟩ := parseAst_run h
  obtain ⟨_, h2, h3⟩ := hr.leaves
  exact ⟨c, h2 (Nat.zero_le _), by simpa [RuleContext.toAst, Ast.leaves] using h3⟩

/-- non-vacuity, with a mismatch: `ID ID ID _STOP` (the second token should be `'+'`) -/
example : ((runTable llGrammar llOrder incSetOrder 10).bind fun ts =>
    ((parserOf llGrammar { ts with table := ts.table.insert (1, 2) ⟨1, [.t 3, .nt 2, .nt 1]⟩ }
      [tk 2, tk 2, tk 2, tk 1]).parse 10).map fun r => (r.1.toAst.leaves.map Token.tokenType, r.2)) =
    .ok ([2, 2, 2], [(3, 1)]) := by decide +kernel

/-! ## C19 -/

/-- **C19** a mismatch-free result spells a sentence. -/
theorem C19_parser_sound (g : Grammar) (o : IterOrder g) (so : SetOrder) (fuel : Nat) (ts : TableState)
    (h : runTable g o so fuel = .ok ts) (v : Vocabulary) (toks : List Token) (A fuel' : Nat)
    (r : RuleContext)
    (hr : Parser.parseRule { tokens := toks, table := ts.table, vocabulary := v } A fuel' = .ok (r, [])) :
    Sentence g.productions A (r.toAst.leaves.map Token.tokenType) := by
  obtain ⟨c, hr⟩ := Parser.parseRule_ok.1 hr
  obtain ⟨_, _, tok, p, f, htok, hp, hrun⟩ := parseAst_run hr
  obtain ⟨h1, h2⟩ := hrun.valid (tableOf_of h)
  have hy := hrun.yield rfl
  have := PTree.Valids.derives h1
  rw [h2, hy] at this
  obtain ⟨hp1, rfl⟩ := tableOf_of h _ _ _ hp
  refine yields_iff.1 ?_
  simpa [RuleContext.toAst, Ast.leaves] using Yields.nt p hp1 this Yields.nil

/-! ## C20 -/

/-- **C20** completeness for any entry rule `A` and any lookahead token `s` in FOLLOW of it. -/
theorem C20_parser_complete_follow (g : Grammar) (o : IterOrder g) (so : SetOrder) (fuel : Nat)
    (ts : TableState) (h : runTable g o so fuel = .ok ts) (hc : ts.conflicts = []) (A s : Nat)
    (hs : InFollow g.productions A s) (w rest : List Nat) (hw : Sentence g.productions A w)
    (toks : List Token) (ht : toks.map Token.tokenType = w ++ s :: rest) :
    ∃ n r, (∀ fuel', n ≤ fuel' → (parserOf g ts toks).parseRule A fuel' = .ok (r, [])) ∧
      r.toAst.leaves = toks.take w.length := by
  obtain ⟨f, hf1, hf2, hf3⟩ := (yields_iff.2 hw).tree
  obtain ⟨t, rfl⟩ : ∃ t, f = [t] := by
    cases f with
    | nil => simp at hf2
    | cons t f => cases f with
      | nil => exact ⟨t, rfl⟩
      | cons t' f => simp at hf2
  simp only [List.map_cons, List.map_nil, List.cons.injEq, and_true] at hf2
  simp only [PTree.yields, List.append_nil] at hf3
  simp only [PTree.Valids, and_true] at hf1
  have hsp := spells_of_types (g := g) (ts := ts) ht
  rw [← hf3] at hsp
  obtain ⟨ks, hrun⟩ := run_complete_tree (tableComplete_of h hc) hf1 (s := s)
    (fun B hB => by rw [hf2] at hB; cases hB; exact flw_iff.2 hs) hsp
  rw [hf2] at hrun
  generalize hl : ([] : MismatchLog) = l0 at hrun
  cases hrun with
  | nt htok hp hrun hnil =>
    cases hnil
    simp only [List.append_nil] at hl
    subst hl
    obtain ⟨n, hn⟩ := run_parseAst htok hp hrun
    refine ⟨n, _, fun fuel' hf => Parser.parseRule_ok.2 ⟨_, hn fuel' hf⟩, ?_⟩
    have := hrun.leaves.2.2
    simp only [RuleContext.toAst, Ast.leaves, this]
    simp [parserOf, hf3]

/-- FOLLOW of the start rule contains `_STOP`. -/
theorem stop_follows_start (P : List Production) : InFollow P 0 1 :=
  Or.inr ⟨rfl, [], Derives.refl _⟩

/-- **C20** every sentence followed by `_STOP` is parsed by `parse()`. -/
theorem C20_parser_complete (g : Grammar) (o : IterOrder g) (so : SetOrder) (fuel : Nat)
    (ts : TableState) (h : runTable g o so fuel = .ok ts) (hc : ts.conflicts = []) (w rest : List Nat)
    (hw : Sentence g.productions 0 w) (toks : List Token)
    (ht : toks.map Token.tokenType = w ++ 1 :: rest) :
    ∃ n r, (∀ fuel', n ≤ fuel' → (parserOf g ts toks).parse fuel' = .ok (r, [])) ∧
      r.toAst.leaves = toks.take w.length :=
  C20_parser_complete_follow g o so fuel ts h hc 0 1 (stop_follows_start _) w rest hw toks ht

/-- `ID '+' ID` is a sentence of the example -/
theorem llGrammar_sentence : Sentence llGrammar.productions 0 [2, 3, 2] := by
  refine yields_iff.1 (Yields.nt (w1 := [2, 3, 2]) (w2 := []) ⟨0, [.nt 2, .nt 1]⟩ (by decide) ?_ Yields.nil)
  refine Yields.nt (w1 := [2]) (w2 := [3, 2]) ⟨2, [.t 2]⟩ (by decide) (Yields.t 2 Yields.nil) ?_
  refine Yields.nt (w1 := [3, 2]) (w2 := []) ⟨1, [.t 3, .nt 2, .nt 1]⟩ (by decide) (Yields.t 3 ?_) Yields.nil
  refine Yields.nt (w1 := [2]) (w2 := []) ⟨2, [.t 2]⟩ (by decide) (Yields.t 2 Yields.nil) ?_
  exact Yields.nt (w1 := []) (w2 := []) ⟨1, []⟩ (by decide) Yields.nil Yields.nil

/-- non-vacuity of C19–C22 -/
example : ∃ ts n r, (∀ fuel', n ≤ fuel' →
    (parserOf llGrammar ts [tk 2, tk 3, tk 2, tk 1]).parse fuel' = .ok (r, [])) ∧
      r.toAst.leaves = [tk 2, tk 3, tk 2] := by
  obtain ⟨ts, h, hc⟩ := llGrammar_table
  obtain ⟨n, r, hr⟩ := C20_parser_complete _ _ _ _ ts h hc [2, 3, 2] [] llGrammar_sentence
    [tk 2, tk 3, tk 2, tk 1] rfl
  exact ⟨ts, n, r, hr⟩

/-! ## C21 -/

/-- **C21** with a conflict-free table the parser returns or panics on every token vector, from every
rule. -/
theorem C21_parser_terminates (g : Grammar) (o : IterOrder g) (so : SetOrder) (fuel : Nat)
    (ts : TableState) (h : runTable g o so fuel = .ok ts) (hc : ts.conflicts = [])
    (toks : List Token) (A : Nat) :
    ∃ n res, res ≠ .error .fuel ∧ ∀ fuel', n ≤ fuel' → (parserOf g ts toks).parseRule A fuel' = res := by
  rcases halts_all (ps := parserOf g ts toks) (tableSound_of h) (tableComplete_of h hc) [.nt A] 0 with
    ⟨f, ks, d, l, hr⟩ | hp
  · cases hr with
    | nt htok hp hrun _ =>
      obtain ⟨n, hn⟩ := run_parseAst htok hp hrun
      exact ⟨n, .ok _, by simp, fun fuel' hf => Parser.parseRule_ok.2 ⟨_, hn fuel' hf⟩⟩
  · obtain ⟨n, hn⟩ := panics_parseAst hp
    refine ⟨n, .error .panic, by simp, fun fuel' hf => ?_⟩
    simp only [Parser.parseRule, hn fuel' hf, bind_error]

/-! ## C22 -/

/-- **C22** parsing decides the language. -/
theorem C22_parser_decides (g : Grammar) (o : IterOrder g) (so : SetOrder) (fuel : Nat)
    (ts : TableState) (h : runTable g o so fuel = .ok ts) (hc : ts.conflicts = []) (w : List Nat)
    (toks : List Token) (ht : toks.map Token.tokenType = w ++ [1]) :
    Sentence g.productions 0 w ↔
      ∃ fuel' r, (parserOf g ts toks).parse fuel' = .ok (r, []) ∧ r.toAst.leaves = toks.take w.length := by
  constructor
  · intro hw
    obtain ⟨n, r, h1, h2⟩ := C20_parser_complete g o so fuel ts h hc w [] hw toks ht
    exact ⟨n, r, h1 n (Nat.le_refl _), h2⟩
  · rintro ⟨fuel', r, h1, h2⟩
    have := C19_parser_sound g o so fuel ts h g.vocabulary toks 0 fuel' r h1
    rw [h2, List.map_take, ht] at this
    simpa using this

/-! ## C23 -/

/-- `S → a` with `a` = 2 -/
def tinyGrammar : Grammar where
  name := []
  vocabulary := (Vocabulary.new.addNamedNonterminal 0 ['s']).1
  productions := [⟨0, [.t 2]⟩]

/-- the only iteration order of it -/
def tinyOrder : IterOrder tinyGrammar where
  ids := [0]
  ids_mem := by
    intro i
    have : tinyGrammar.vocabulary.nonterminals = {0} := by decide
    rw [this]; simp
  ord := tinyGrammar.productions
  ord_perm := List.Perm.refl _
  ord_nodup := by decide

/-- **C23** is false of the code: `parse()` returns without mismatch report on the tokens `a a _STOP`
of the conflict-free grammar `S → a`, although `a a` is not a sentence; the second `a` is ignored. -/
theorem C23_trailing_input_accepted :
    (∃ ts, runTable tinyGrammar tinyOrder incSetOrder 5 = .ok ts ∧ ts.conflicts = [] ∧
      ∃ r, (parserOf tinyGrammar ts [tk 2, tk 2, tk 1]).parse 5 = .ok (r, [])) ∧
    ¬ Sentence tinyGrammar.productions 0 [2, 2] := by
  constructor
  · have h : ((runTable tinyGrammar tinyOrder incSetOrder 5).bind fun ts =>
        ((parserOf tinyGrammar ts [tk 2, tk 2, tk 1]).parse 5).map fun r => (ts.conflicts, r.2)) =
        .ok ([], []) := by decide +kernel
    cases hr : runTable tinyGrammar tinyOrder incSetOrder 5 with
    | error e => rw [hr] at h; cases h
    | ok ts =>
      rw [hr] at h
      change Except.map _ _ = _ at h
      cases hp : (parserOf tinyGrammar ts [tk 2, tk 2, tk 1]).parse 5 with
      | error e => rw [hp] at h; cases h
      | ok x =>
        rw [hp] at h
        simp only [Except.map, Except.ok.injEq, Prod.mk.injEq] at h
        exact ⟨ts, rfl, h.1, x.1, by rw [hp, ← h.2]⟩
  · intro hs
    obtain ⟨p, hp, _, hy⟩ := yields_single.1 (yields_iff.2 hs)
    simp only [tinyGrammar, List.mem_singleton] at hp
    subst hp
    cases hy with
    | t a hy => cases hy

/-- **C23**, what holds: a mismatch-free `parse()` establishes that a prefix of the tokens is a
sentence.  Missing: that the prefix reaches `_STOP`. -/
theorem C23_prefix_is_sentence_partial (g : Grammar) (o : IterOrder g) (so : SetOrder) (fuel : Nat)
    (ts : TableState) (h : runTable g o so fuel = .ok ts) (toks : List Token) (fuel' : Nat)
    (r : RuleContext) (hr : (parserOf g ts toks).parse fuel' = .ok (r, [])) :
    ∃ k, k ≤ toks.length ∧ r.toAst.leaves = toks.take k ∧
      Sentence g.productions 0 ((toks.take k).map Token.tokenType) := by
  obtain ⟨k, hk, he⟩ := C18_leaves_are_consumed_tokens _ _ _ _ _ hr
  have := C19_parser_sound g o so fuel ts h g.vocabulary toks 0 fuel' r hr
  rw [he] at this
  exact ⟨k, hk, he, this⟩

/-! ## C24 -/

theorem conformsList_append {v : Vocabulary} {P : List Production} (a b : List Ast) :
    Ast.ConformsList v P (a ++ b) ↔ Ast.ConformsList v P a ∧ Ast.ConformsList v P b := by
  induction a with
  | nil => simp [Ast.ConformsList]
  | cons x a ih => simp [Ast.ConformsList, ih, and_assoc]

theorem Run.conforms {ps : Parser} {P : List Production} (hT : TableOf P ps.table) {α : List Item}
    {c : Nat} {f : List PTree} {ks : List Ast} {d : Nat} {l : MismatchLog}
    (h : Run ps α c f ks d l) (hl : l = []) :
    Derives (anonymous ps.vocabulary P) α (ks.map Ast.sym) ∧ Ast.ConformsList ps.vocabulary P ks := by
  induction h with
  | nil c => exact ⟨Derives.refl _, trivial⟩
  | @t a tok c c' rest f ks l htok _ ih =>
    simp only [List.append_eq_nil_iff] at hl
    obtain ⟨h1, h2⟩ := ih hl.2
    have ha : a = tok.tokenType := by
      by_contra hne
      simp [hne] at hl
    refine ⟨?_, by simpa [Ast.ConformsList, Ast.Conforms] using h2⟩
    simpa [Ast.sym, ha] using Derives.cons (Item.t a) h1
  | @nt A tok p c c1 c2 rest f1 f2 ks1 ks2 l1 l2 htok hp _ _ ih1 ih2 =>
    simp only [List.append_eq_nil_iff] at hl
    obtain ⟨a1, a2⟩ := ih1 hl.1
    obtain ⟨b1, b2⟩ := ih2 hl.2
    obtain ⟨hp1, hp2⟩ := hT _ _ _ hp
    simp only [Parser.wrap]
    cases hn : ps.vocabulary.getNonterminalNameById A with
    | none =>
      simp only [List.map_append, conformsList_append, a2, b2, and_self, and_true]
      have hmem : p ∈ anonymous ps.vocabulary P := by
        simp [anonymous, hp1, hp2, hn]
      have := Derives.head hmem rest
      rw [hp2] at this
      exact this.trans (a1.append b1)
    | some n =>
      have hd : ps.vocabulary.getNonterminalNameWithDefault A = n := by
        simp only [Vocabulary.getNonterminalNameById] at hn
        simp [Vocabulary.getNonterminalNameWithDefault, hn]
      simp only [List.singleton_append, List.map_cons, Ast.sym, Ast.ConformsList, Ast.Conforms, hn, hd,
        true_and]
      exact ⟨Derives.cons (Item.nt A) b1, ⟨⟨p, hp1, hp2, a1⟩, a2⟩, b2⟩

/-- **C24** a mismatch-free tree conforms to the grammar: below the root every rule node is a named
rule under its vocabulary name, and the children of every node (including the root, which is the
requested rule under its name or, if unnamed, its number) spell a string derivable from one of its
productions by expanding unnamed rules only. -/
theorem C24_tree_conforms (g : Grammar) (o : IterOrder g) (so : SetOrder) (fuel : Nat) (ts : TableState)
    (h : runTable g o so fuel = .ok ts) (toks : List Token) (A fuel' : Nat) (r : RuleContext)
    (hr : (parserOf g ts toks).parseRule A fuel' = .ok (r, [])) :
    r.ruleIndex = A ∧ r.ruleName = g.vocabulary.getNonterminalNameWithDefault A ∧
    (∃ p ∈ g.productions, p.left = A ∧
      Derives (anonymous g.vocabulary g.productions) p.right (r.children.map Ast.sym)) ∧
    Ast.ConformsList g.vocabulary g.productions r.children := by
  obtain ⟨c, hr⟩ := Parser.parseRule_ok.1 hr
  obtain ⟨e1, e2, tok, p, f, htok, hp, hrun⟩ := parseAst_run hr
  obtain ⟨h1, h2⟩ := hrun.conforms (tableOf_of h) rfl
  obtain ⟨hp1, hp2⟩ := tableOf_of h _ _ _ hp
  exact ⟨e1, e2, ⟨p, hp1, hp2, h1⟩, h2⟩

/-- non-vacuity: the root has the children `t '+' t` although its only production is `T 1` -/
example : ((runTable llGrammar llOrder incSetOrder 10).bind fun ts =>
    ((parserOf llGrammar ts [tk 2, tk 3, tk 2, tk 1]).parse 10).map fun r =>
      (r.1.children.map Ast.sym, r.2)) = .ok ([.nt 2, .t 3, .nt 2], []) := by decide +kernel

/-! ## C25 -/

/-- **C25** without printed conflict every rule with a nonempty FOLLOW set is unambiguous. -/
theorem C25_unambiguous_follow (g : Grammar) (o : IterOrder g) (so : SetOrder) (fuel : Nat)
    (ts : TableState) (h : runTable g o so fuel = .ok ts) (hc : ts.conflicts = []) (A s : Nat)
    (hs : InFollow g.productions A s) (t t' : PTree) (ht : t.Valid g.productions)
    (ht' : t'.Valid g.productions) (hr : t.root = .nt A) (hr' : t'.root = .nt A)
    (hy : t.yield = t'.yield) : t = t' := by
  have key : ∀ u : PTree, u.Valid g.productions → u.root = .nt A → u.yield = t.yield →
      ∃ ks, Run (parserOf g ts ((t.yield ++ [s]).map tk)) [.nt A] 0 [u] ks (0 + t.yield.length) [] := by
    intro u hu hur huy
    have hsp := spells_of_types (g := g) (ts := ts) (toks := (t.yield ++ [s]).map tk) (w := t.yield)
      (s := s) (rest := []) (by simp [Function.comp_def, tk, Token.new])
    rw [← huy] at hsp
    have := run_complete_tree (tableComplete_of h hc) hu (s := s)
      (fun B hB => by rw [hur] at hB; cases hB; exact flw_iff.2 hs) hsp
    rwa [hur, huy] at this
  obtain ⟨ks, h1⟩ := key t ht hr rfl
  obtain ⟨ks', h2⟩ := key t' ht' hr' hy.symm
  have := (h1.det h2).1
  simpa using this

/-- **C25** without printed conflict every sentence of the start rule has exactly one derivation
tree. -/
theorem C25_unambiguous (g : Grammar) (o : IterOrder g) (so : SetOrder) (fuel : Nat)
    (ts : TableState) (h : runTable g o so fuel = .ok ts) (hc : ts.conflicts = []) (w : List Nat)
    (hw : Sentence g.productions 0 w) :
    ∃! t : PTree, t.Valid g.productions ∧ t.root = .nt 0 ∧ t.yield = w := by
  obtain ⟨f, hf1, hf2, hf3⟩ := (yields_iff.2 hw).tree
  obtain ⟨t, rfl⟩ : ∃ t, f = [t] := by
    cases f with
    | nil => simp at hf2
    | cons t f => cases f with
      | nil => exact ⟨t, rfl⟩
      | cons t' f => simp at hf2
  simp only [List.map_cons, List.map_nil, List.cons.injEq, and_true] at hf2
  simp only [PTree.yields, List.append_nil] at hf3
  simp only [PTree.Valids, and_true] at hf1
  refine ⟨t, ⟨hf1, hf2, hf3⟩, ?_⟩
  rintro t' ⟨h1, h2, h3⟩
  exact (C25_unambiguous_follow g o so fuel ts h hc 0 1 (stop_follows_start _) t t' hf1 h1 hf2 h2
    (hf3.trans h3.symm)).symm

/-- non-vacuity of C25 -/
example : ∃! t : PTree, t.Valid llGrammar.productions ∧ t.root = .nt 0 ∧ t.yield = [2, 3, 2] := by
  obtain ⟨ts, h, hc⟩ := llGrammar_table
  exact C25_unambiguous _ _ _ _ ts h hc _ llGrammar_sentence

end Syntaxis
