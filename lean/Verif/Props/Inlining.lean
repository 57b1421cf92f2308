import Verif.Lemmas.Unfold
import Verif.Props.Rewriting

/-!
# C102: rules can be inlined; C103: recursion at one end of a rule can be replaced by a repetition
-/

namespace Syntaxis
open Grammar

variable {lc : LexConsts} {ast ast' : RuleContext} {fuel fuel' n0 : Nat} {name name' : Str} {D D' : Rules}

/-! ## C102 -/

/-- **C102** replacing references to rules by the alternatives of the rule, anywhere, keeps the words. -/
theorem C102_rules (h : UnfoldedRules D D') (tok : Str → Option Nat) (s : List Elem) (w : List Nat) :
    Word D tok s w ↔ Word D' tok s w :=
  ⟨fun hw => h.forward hw s (.same s), fun hw => h.backward hw s (.same s)⟩

/-- **C102**, what holds: if in both files the suffixes of tokens are kept apart from the others by the numbers, every rule has
the same sentences in both built grammars.  Missing (false, `C102_inlining_matters`): files where they are not. -/
theorem C102_language_partial (h : ChangedFile UnfoldedRules lc ast ast' D D') {g g' : Grammar} (hs : SuffixesApart D g.vocabulary)
    (hs' : SuffixesApart D' g'.vocabulary) (h0 : 2 ≤ n0) (hf : sizeOf ast.toAst ≤ fuel) (hf' : sizeOf ast'.toAst ≤ fuel')
    {data data' : List LexerRuleData} {r0 r0' : Nat}
    (hb : buildGrammar lc fuel ast (Grammar.new name) n0 r0 = .ok (g, data))
    (hb' : buildGrammar lc fuel' ast' (Grammar.new name') n0 r0' = .ok (g', data')) (n : Str) (A A' : Nat)
    (hA : g.vocabulary.getNonterminalIdByName n = some A) (hA' : g'.vocabulary.getNonterminalIdByName n = some A')
    (w : List Nat) : Sentence g.productions A w ↔ Sentence g'.productions A' w :=
  h.language C102_rules hs hs' h0 hf hf' hb hb' n A A' hA hA' w

/-- **C102**, what holds: if the table of one of the files has no conflict, its parser accepts, completely and
without a message, exactly the sentences of the other.  Missing (false): as for `C102_language_partial`. -/
theorem C102_accepts_partial (h : ChangedFile UnfoldedRules lc ast ast' D D') {g g' : Grammar} (hs : SuffixesApart D g.vocabulary)
    (hs' : SuffixesApart D' g'.vocabulary) (h0 : 2 ≤ n0) (hD : D ≠ []) (hf : sizeOf ast.toAst ≤ fuel)
    (hf' : sizeOf ast'.toAst ≤ fuel') {data data' : List LexerRuleData}
    (hb : buildGrammar lc fuel ast (Grammar.new name) n0 0 = .ok (g, data))
    (hb' : buildGrammar lc fuel' ast' (Grammar.new name') n0 0 = .ok (g', data')) (w : List Nat)
    (toks : List Token) (htoks : toks.map Token.tokenType = w ++ [1]) :
    data' = data ∧
    (∀ (o' : IterOrder g') so' k' ts', runTable g' o' so' k' = .ok ts' → ts'.conflicts = [] →
      (Sentence g.productions 0 w ↔
        ∃ j r, (parserOf g' ts' toks).parse j = .ok (r, []) ∧ r.toAst.leaves = toks.take w.length)) ∧
    (∀ (o : IterOrder g) so k ts, runTable g o so k = .ok ts → ts.conflicts = [] →
      (Sentence g'.productions 0 w ↔
        ∃ j r, (parserOf g ts toks).parse j = .ok (r, []) ∧ r.toAst.leaves = toks.take w.length)) :=
  ⟨(C84_tokens h0 hf hf' hb hb' h.lexNodes).1,
    fun _ _ _ _ ht hc => (h.accepts C102_rules hs hs' h0 hD hf hf' hb hb' ht hc w toks htoks).2,
    fun _ _ _ _ ht hc => (h.swap.accepts (fun h' tok s w => (C102_rules h' tok s w).symm) hs' hs h0
      (h.nonempty hD) hf' hf hb' hb ht hc w toks htoks).2⟩

/-! ## C103 -/

/-- **C103** `n : n α | β` and `n : β α*` have the same words, and so has every other rule; `α` and `β` may refer
to `n`. -/
theorem C103_left {n : Str} {α β : List (List Elem)} (h : LeftRecursionRemoved n α β D D') (tok : Str → Option Nat)
    (s : List Elem) (w : List Nat) : Word D tok s w ↔ Word D' tok s w :=
  ⟨h.forward, h.backward⟩

/-- **C103** `n : α n | β` and `n : α* β` have the same words, and so has every other rule; `α` and `β` may refer
to `n`. -/
theorem C103_right {n : Str} {α β : List (List Elem)} (h : RightRecursionRemoved n α β D D') (tok : Str → Option Nat)
    (s : List Elem) (w : List Nat) : Word D tok s w ↔ Word D' tok s w :=
  ⟨h.forward, h.backward⟩

/-- recursion of one rule removed at either end -/
def RecursionRemoved (n : Str) (α β : List (List Elem)) (D D' : Rules) : Prop :=
  LeftRecursionRemoved n α β D D' ∨ RightRecursionRemoved n α β D D'

theorem RecursionRemoved.words {n : Str} {α β : List (List Elem)} (h : RecursionRemoved n α β D D')
    (tok : Str → Option Nat) (s : List Elem) (w : List Nat) : Word D tok s w ↔ Word D' tok s w :=
  h.elim (fun h => C103_left h tok s w) fun h => C103_right h tok s w

/-- **C103**, what holds: if in both files the suffixes of tokens are kept apart from the others by the numbers, every rule has
the same sentences in both built grammars.  Missing (false, `C103_removal_matters`): files where they are not. -/
theorem C103_language_partial {n : Str} {α β : List (List Elem)}
    (h : ChangedFile (RecursionRemoved n α β) lc ast ast' D D') {g g' : Grammar} (hs : SuffixesApart D g.vocabulary)
    (hs' : SuffixesApart D' g'.vocabulary) (h0 : 2 ≤ n0) (hf : sizeOf ast.toAst ≤ fuel) (hf' : sizeOf ast'.toAst ≤ fuel')
    {data data' : List LexerRuleData} {r0 r0' : Nat}
    (hb : buildGrammar lc fuel ast (Grammar.new name) n0 r0 = .ok (g, data))
    (hb' : buildGrammar lc fuel' ast' (Grammar.new name') n0 r0' = .ok (g', data')) (m : Str) (A A' : Nat)
    (hA : g.vocabulary.getNonterminalIdByName m = some A) (hA' : g'.vocabulary.getNonterminalIdByName m = some A')
    (w : List Nat) : Sentence g.productions A w ↔ Sentence g'.productions A' w :=
  h.language RecursionRemoved.words hs hs' h0 hf hf' hb hb' m A A' hA hA' w

/-- **C103**, what holds: if the table of the file with the repetition has no conflict, its parser accepts, completely
and without a message, exactly the sentences of the recursive file.  Missing (false): as for
`C103_language_partial`. -/
theorem C103_accepts_partial {n : Str} {α β : List (List Elem)}
    (h : ChangedFile (RecursionRemoved n α β) lc ast ast' D D') {g g' : Grammar} (hs : SuffixesApart D g.vocabulary)
    (hs' : SuffixesApart D' g'.vocabulary) (h0 : 2 ≤ n0) (hD : D ≠ []) (hf : sizeOf ast.toAst ≤ fuel)
    (hf' : sizeOf ast'.toAst ≤ fuel') {data data' : List LexerRuleData}
    (hb : buildGrammar lc fuel ast (Grammar.new name) n0 0 = .ok (g, data))
    (hb' : buildGrammar lc fuel' ast' (Grammar.new name') n0 0 = .ok (g', data')) {o' : IterOrder g'}
    {so' : SetOrder} {k' : Nat} {ts' : TableState}
    (ht' : runTable g' o' so' k' = .ok ts') (hc' : ts'.conflicts = []) (w : List Nat)
    (toks : List Token) (htoks : toks.map Token.tokenType = w ++ [1]) :
    data' = data ∧ (Sentence g.productions 0 w ↔
      ∃ j r, (parserOf g' ts' toks).parse j = .ok (r, []) ∧ r.toAst.leaves = toks.take w.length) :=
  h.accepts RecursionRemoved.words hs hs' h0 hD hf hf' hb hb' ht' hc' w toks htoks

/-! ## examples -/

namespace ExTree

/-- `r : A* (B)* ; s : A ; u : B ; A : /a/ ; B : /b/ ;`, the file `clash` with `u` inlined in `r` -/
def clash5 : RuleContext := ⟨[], [
  rule "r" [alt [el (tk 6 "A") star, el (nd 2 [alt [el (tk 6 "B") []]]) star]],
  rule "s" [alt [el (tk 6 "A") []]],
  rule "u" [alt [el (tk 6 "B") []]],
  lex "A" "/a/", lex "B" "/b/"], 0⟩

/-- the rules of the tree -/
def clash5Rules : Rules :=
  [("r".toList, [[.rep .star (.tok "A".toList), .rep .star (.group [[.tok "B".toList]])]]),
   ("s".toList, [[.tok "A".toList]]), ("u".toList, [[.tok "B".toList]])]

theorem clash5_builds : (loadAst 5000 clash5).map (fun r => (r.1.productions,
      r.1.vocabulary.getNonterminalIdByName "r".toList)) =
    .ok ([⟨3, []⟩, ⟨3, [.t 2, .nt 3]⟩, ⟨4, [.t 3]⟩, ⟨5, []⟩, ⟨5, [.nt 4, .nt 5]⟩, ⟨0, [.nt 3, .nt 5]⟩, ⟨1, [.t 2]⟩,
      ⟨2, [.t 3]⟩], some 0) := by
  decide +kernel

theorem alternativesOf_other {D : Rules} {n : Str} (h : n ∉ D.map Prod.fst) : alternativesOf D n = [] := by
  rw [alternativesOf, List.flatMap_eq_nil_iff]
  intro r hr
  rw [if_neg]
  rintro rfl
  exact h (List.mem_map_of_mem hr)

theorem clash_unfolded : ChangedFile UnfoldedRules .old clash clash5 clashRules clash5Rules where
  nodes := nodes_ok (by decide +kernel)
  nodes' := nodes_ok (by decide +kernel)
  lexer := by rfl
  read := clash_rules
  read' := by rfl
  rules n := by
    by_cases h : n ∈ ["r".toList, "s".toList, "u".toList]
    · simp only [List.mem_cons, List.not_mem_nil, or_false] at h
      rcases h with rfl | rfl | rfl
      · have e1 : alternativesOf clashRules "r".toList =
          [[.rep .star (.tok "A".toList), .rep .star (.ref "u".toList)]] := rfl
        have e2 : alternativesOf clash5Rules "r".toList =
          [[.rep .star (.tok "A".toList), .rep .star (.group [[.tok "B".toList]])]] := rfl
        have e3 : Unfolds clashRules [.rep .star (.tok "A".toList), .rep .star (.ref "u".toList)]
            [.rep .star (.tok "A".toList), .rep .star (.group [[.tok "B".toList]])] :=
          .rep _ (.same _) (.rep _ (.unfold "u".toList .nil) .nil)
        rw [e1, e2]
        simpa using e3
      · exact ⟨fun a ha => ⟨a, ha, .same a⟩, fun a ha => ⟨a, ha, .same a⟩⟩
      · exact ⟨fun a ha => ⟨a, ha, .same a⟩, fun a ha => ⟨a, ha, .same a⟩⟩
    · rw [alternativesOf_other (D := clashRules) h, alternativesOf_other (D := clash5Rules) h]
      simp
  first := by rfl

/-- `r : r A | B ; q : B* ; A : /a/ ; B : /b/ ;` -/
def leftRec : RuleContext := ⟨[], [
  rule "r" [alt [el (tk 7 "r") [], el (tk 6 "A") []], alt [el (tk 6 "B") []]],
  rule "q" [alt [el (tk 6 "B") star]],
  lex "A" "/a/", lex "B" "/b/"], 0⟩

/-- `r : (B) (A)* ; q : B* ; A : /a/ ; B : /b/ ;` -/
def leftRep : RuleContext := ⟨[], [
  rule "r" [alt [el (nd 2 [alt [el (tk 6 "B") []]]) [], el (nd 2 [alt [el (tk 6 "A") []]]) star]],
  rule "q" [alt [el (tk 6 "B") star]],
  lex "A" "/a/", lex "B" "/b/"], 0⟩

/-- the rules of `leftRec` -/
def leftRecRules : Rules :=
  [("r".toList, [[.ref "r".toList, .tok "A".toList], [.tok "B".toList]]), ("q".toList, [[.rep .star (.tok "B".toList)]])]

/-- the rules of `leftRep` -/
def leftRepRules : Rules :=
  [("r".toList, [[.group [[.tok "B".toList]], .rep .star (.group [[.tok "A".toList]])]]),
   ("q".toList, [[.rep .star (.tok "B".toList)]])]

theorem leftRec_builds : (loadAst 5000 leftRec).map (fun r => (r.1.productions,
      r.1.vocabulary.getNonterminalIdByName "q".toList)) =
    .ok ([⟨0, [.nt 0, .t 2]⟩, ⟨0, [.t 3]⟩, ⟨2, []⟩, ⟨2, [.t 3, .nt 2]⟩, ⟨1, [.nt 2]⟩], some 1) := by
  decide +kernel

theorem leftRep_builds : (loadAst 5000 leftRep).map (fun r => (r.1.productions,
      r.1.vocabulary.getNonterminalIdByName "q".toList)) =
    .ok ([⟨2, [.t 3]⟩, ⟨3, [.t 2]⟩, ⟨4, []⟩, ⟨4, [.nt 3, .nt 4]⟩, ⟨0, [.nt 2, .nt 4]⟩, ⟨1, [.nt 4]⟩], some 1) := by
  decide +kernel

theorem left_removed : ChangedFile (RecursionRemoved "r".toList [[.tok "A".toList]] [[.tok "B".toList]]) .old leftRec
    leftRep leftRecRules leftRepRules where
  nodes := nodes_ok (by decide +kernel)
  nodes' := nodes_ok (by decide +kernel)
  lexer := by rfl
  read := by rfl
  read' := by rfl
  rules := .inl
    { before := fun _ => Iff.rfl
      after := fun _ => List.mem_singleton
      others := by
        intro m hm a
        have e : ("r".toList = m) = False := eq_false (Ne.symm hm)
        simp only [alternativesOf, leftRecRules, leftRepRules, List.flatMap_cons, e, if_false] }
  first := by rfl

/-- `e : e P t | t ; t : N | L e R ;` with lexer rules -/
def exprRec : RuleContext := ⟨[], [
  rule "e" [alt [el (tk 7 "e") [], el (tk 6 "P") [], el (tk 7 "t") []], alt [el (tk 7 "t") []]],
  rule "t" [alt [el (tk 6 "N") []], alt [el (tk 6 "L") [], el (tk 7 "e") [], el (tk 6 "R") []]],
  lex "P" "/p/", lex "N" "/n/", lex "L" "/l/", lex "R" "/r/"], 0⟩

/-- `e : (t) (P t)* ; t : N | L e R ;` with lexer rules -/
def exprRep : RuleContext := ⟨[], [
  rule "e" [alt [el (nd 2 [alt [el (tk 7 "t") []]]) [],
    el (nd 2 [alt [el (tk 6 "P") [], el (tk 7 "t") []]]) star]],
  rule "t" [alt [el (tk 6 "N") []], alt [el (tk 6 "L") [], el (tk 7 "e") [], el (tk 6 "R") []]],
  lex "P" "/p/", lex "N" "/n/", lex "L" "/l/", lex "R" "/r/"], 0⟩

/-- `e : ((N | L e R)) (P t)* ; t : N | L e R ;` with lexer rules -/
def exprIn : RuleContext := ⟨[], [
  rule "e" [alt [
    el (nd 2 [alt [el (nd 2 [alt [el (tk 6 "N") []], alt [el (tk 6 "L") [], el (tk 7 "e") [], el (tk 6 "R") []]]) []]]) [],
    el (nd 2 [alt [el (tk 6 "P") [], el (tk 7 "t") []]]) star]],
  rule "t" [alt [el (tk 6 "N") []], alt [el (tk 6 "L") [], el (tk 7 "e") [], el (tk 6 "R") []]],
  lex "P" "/p/", lex "N" "/n/", lex "L" "/l/", lex "R" "/r/"], 0⟩

/-- the alternatives of `t` -/
def termAlts : List (List Elem) := [[.tok "N".toList], [.tok "L".toList, .ref "e".toList, .tok "R".toList]]

/-- the rules of `exprRec` -/
def exprRecRules : Rules :=
  [("e".toList, [[.ref "e".toList, .tok "P".toList, .ref "t".toList], [.ref "t".toList]]), ("t".toList, termAlts)]

/-- the rules of `exprRep` -/
def exprRepRules : Rules :=
  [("e".toList, [[.group [[.ref "t".toList]], .rep .star (.group [[.tok "P".toList, .ref "t".toList]])]]),
   ("t".toList, termAlts)]

/-- the rules of `exprIn` -/
def exprInRules : Rules :=
  [("e".toList, [[.group [[.group termAlts]], .rep .star (.group [[.tok "P".toList, .ref "t".toList]])]]),
   ("t".toList, termAlts)]

theorem expr_removed : ChangedFile (RecursionRemoved "e".toList [[.tok "P".toList, .ref "t".toList]]
    [[.ref "t".toList]]) .old exprRec exprRep exprRecRules exprRepRules where
  nodes := nodes_ok (by decide +kernel)
  nodes' := nodes_ok (by decide +kernel)
  lexer := by rfl
  read := by rfl
  read' := by rfl
  rules := .inl
    { before := fun _ => Iff.rfl
      after := fun _ => List.mem_singleton
      others := by
        intro m hm a
        have e : ("e".toList = m) = False := eq_false (Ne.symm hm)
        simp only [alternativesOf, exprRecRules, exprRepRules, List.flatMap_cons, e, if_false] }
  first := by rfl

theorem expr_unfolded : ChangedFile UnfoldedRules .old exprRep exprIn exprRepRules exprInRules where
  nodes := nodes_ok (by decide +kernel)
  nodes' := nodes_ok (by decide +kernel)
  lexer := by rfl
  read := by rfl
  read' := by rfl
  rules n := by
    by_cases h : n ∈ ["e".toList, "t".toList]
    · simp only [List.mem_cons, List.not_mem_nil, or_false] at h
      rcases h with rfl | rfl
      · have e1 : alternativesOf exprRepRules "e".toList =
          [[.group [[.ref "t".toList]], .rep .star (.group [[.tok "P".toList, .ref "t".toList]])]] := rfl
        have e2 : alternativesOf exprInRules "e".toList =
          [[.group [[.group termAlts]], .rep .star (.group [[.tok "P".toList, .ref "t".toList]])]] := rfl
        have e3 : Unfolds exprRepRules
            [.group [[.ref "t".toList]], .rep .star (.group [[.tok "P".toList, .ref "t".toList]])]
            [.group [[.group termAlts]], .rep .star (.group [[.tok "P".toList, .ref "t".toList]])] := by
          have hu : Unfolds exprRepRules [.ref "t".toList] [.group termAlts] := .unfold "t".toList .nil
          refine .group (fun _ => [.group termAlts]) (fun _ => [.ref "t".toList]) ?_ ?_ ?_ ?_ (.same _)
          · simp
          · simpa using hu
          · simp
          · simpa using hu
        rw [e1, e2]
        simpa using e3
      · exact ⟨fun a ha => ⟨a, ha, .same a⟩, fun a ha => ⟨a, ha, .same a⟩⟩
    · rw [alternativesOf_other (D := exprRepRules) h, alternativesOf_other (D := exprInRules) h]
      simp
  first := by rfl

theorem exprRec_separate : SuffixesSeparate exprRecRules := by
  rintro f ⟨⟨x, hx, hx'⟩, _⟩
  simp only [exprRecRules, List.mem_cons, List.not_mem_nil, or_false] at hx
  rcases hx with rfl | rfl <;> simp [termAlts, altsSuffixes, seqSuffixes, Elem.suffixes, Elem.isTok] at hx'

theorem exprRep_separate : SuffixesSeparate exprRepRules := by
  rintro f ⟨⟨x, hx, hx'⟩, _⟩
  simp only [exprRepRules, List.mem_cons, List.not_mem_nil, or_false] at hx
  rcases hx with rfl | rfl <;> simp [termAlts, altsSuffixes, seqSuffixes, Elem.suffixes, Elem.isTok] at hx'

theorem exprIn_separate : SuffixesSeparate exprInRules := by
  rintro f ⟨⟨x, hx, hx'⟩, _⟩
  simp only [exprInRules, List.mem_cons, List.not_mem_nil, or_false] at hx
  rcases hx with rfl | rfl <;> simp [termAlts, altsSuffixes, seqSuffixes, Elem.suffixes, Elem.isTok] at hx'

end ExTree

/-- **C102** is false without the side condition: inlining `u` in `r : A* u* ; s : A ; u : B ;` adds a word to the
language of `r`. -/
theorem C102_inlining_matters :
    ∃ (ast ast' : RuleContext) (D D' : Rules) (fuel : Nat) (g g' : Grammar) (data data' : List LexerRuleData) (n : Str)
      (A A' : Nat) (w : List Nat), ChangedFile UnfoldedRules .old ast ast' D D' ∧ sizeOf ast.toAst ≤ fuel ∧
      sizeOf ast'.toAst ≤ fuel ∧ loadAst fuel ast = .ok (g, data) ∧ loadAst fuel ast' = .ok (g', data') ∧
      g.vocabulary.getNonterminalIdByName n = some A ∧ g'.vocabulary.getNonterminalIdByName n = some A' ∧
      ¬ Sentence g.productions A w ∧ Sentence g'.productions A' w := by
  have h := ExTree.clash_builds
  have h2 := ExTree.clash5_builds
  cases hb : loadAst 5000 ExTree.clash with
  | error e => rw [hb] at h; cases h
  | ok r =>
    cases hb2 : loadAst 5000 ExTree.clash5 with
    | error e => rw [hb2] at h2; cases h2
    | ok r2 =>
      obtain ⟨g, data⟩ := r
      obtain ⟨g2, data2⟩ := r2
      rw [hb] at h
      rw [hb2] at h2
      have h' := Except.ok.inj h
      have h2' := Except.ok.inj h2
      simp only [Prod.mk.injEq] at h' h2'
      refine ⟨ExTree.clash, ExTree.clash5, ExTree.clashRules, ExTree.clash5Rules, 5000, g, g2, data, data2,
        "r".toList, 0, 0, [3], ExTree.clash_unfolded, by decide +kernel, by decide +kernel, hb, hb2, h'.2.1, h2'.2, ?_, ?_⟩
      · intro hs
        rw [h'.1] at hs
        have := derives_within (ok := fun x => x = .t 2 ∨ x = .nt 0 ∨ x = .nt 3) (by decide) hs (by decide)
          (.t 3) (by decide)
        revert this
        decide
      · have s1 := Step.mk (P := g2.productions) ⟨0, [.nt 3, .nt 5]⟩ (by simp [h2'.1]) [] []
        have s2 := Step.mk (P := g2.productions) ⟨3, []⟩ (by simp [h2'.1]) [] [.nt 5]
        have s3 := Step.mk (P := g2.productions) ⟨5, [.nt 4, .nt 5]⟩ (by simp [h2'.1]) [] []
        have s4 := Step.mk (P := g2.productions) ⟨4, [.t 3]⟩ (by simp [h2'.1]) [] [.nt 5]
        have s5 := Step.mk (P := g2.productions) ⟨5, []⟩ (by simp [h2'.1]) [.t 3] []
        exact ((((Relation.ReflTransGen.single s1).tail s2).tail s3).tail s4).tail s5

/-- **C103** is false without the side condition: writing `r : (B) (A)* ;` for `r : r A | B ;` removes a word from the
language of the other rule, `q : B* ;`. -/
theorem C103_removal_matters :
    ∃ (ast ast' : RuleContext) (D D' : Rules) (m : Str) (α β : List (List Elem)) (fuel : Nat) (g g' : Grammar)
      (data data' : List LexerRuleData) (n : Str)
      (A A' : Nat) (w : List Nat), ChangedFile (RecursionRemoved m α β) .old ast ast' D D' ∧ sizeOf ast.toAst ≤ fuel ∧
      sizeOf ast'.toAst ≤ fuel ∧ loadAst fuel ast = .ok (g, data) ∧ loadAst fuel ast' = .ok (g', data') ∧
      g.vocabulary.getNonterminalIdByName n = some A ∧ g'.vocabulary.getNonterminalIdByName n = some A' ∧
      Sentence g.productions A w ∧ ¬ Sentence g'.productions A' w := by
  have h := ExTree.leftRec_builds
  have h2 := ExTree.leftRep_builds
  cases hb : loadAst 5000 ExTree.leftRec with
  | error e => rw [hb] at h; cases h
  | ok r =>
    cases hb2 : loadAst 5000 ExTree.leftRep with
    | error e => rw [hb2] at h2; cases h2
    | ok r2 =>
      obtain ⟨g, data⟩ := r
      obtain ⟨g2, data2⟩ := r2
      rw [hb] at h
      rw [hb2] at h2
      have h' := Except.ok.inj h
      have h2' := Except.ok.inj h2
      simp only [Prod.mk.injEq] at h' h2'
      refine ⟨ExTree.leftRec, ExTree.leftRep, ExTree.leftRecRules, ExTree.leftRepRules, _, _, _, 5000, g, g2, data, data2,
        "q".toList, 1, 1, [3], ExTree.left_removed, by decide +kernel, by decide +kernel, hb, hb2, h'.2, h2'.2, ?_, ?_⟩
      · have s1 := Step.mk (P := g.productions) ⟨1, [.nt 2]⟩ (by simp [h'.1]) [] []
        have s2 := Step.mk (P := g.productions) ⟨2, [.t 3, .nt 2]⟩ (by simp [h'.1]) [] []
        have s3 := Step.mk (P := g.productions) ⟨2, []⟩ (by simp [h'.1]) [.t 3] []
        exact ((Relation.ReflTransGen.single s1).tail s2).tail s3
      · intro hs
        rw [h2'.1] at hs
        have := derives_within (ok := fun x => x = .t 2 ∨ x = .nt 1 ∨ x = .nt 3 ∨ x = .nt 4) (by decide) hs (by decide)
          (.t 3) (by decide)
        revert this
        decide

/-- **C103** the way around **C27**: the table of `e : e P t | t ; t : N | L e R ;` has conflicts, that of
`e : (t) (P t)* ; t : N | L e R ;` has none; the files meet the hypotheses of `C103_accepts_partial`. -/
theorem C103_left_repaired :
    ChangedFile (RecursionRemoved "e".toList [[.tok "P".toList, .ref "t".toList]] [[.ref "t".toList]]) .old
      ExTree.exprRec ExTree.exprRep ExTree.exprRecRules ExTree.exprRepRules ∧
    SuffixesSeparate ExTree.exprRecRules ∧ SuffixesSeparate ExTree.exprRepRules ∧
    sizeOf ExTree.exprRec.toAst ≤ 5000 ∧ sizeOf ExTree.exprRep.toAst ≤ 5000 ∧
    (ExTree.conflictsOf ExTree.exprRec).map (·.length) = .ok 2 ∧ ExTree.conflictsOf ExTree.exprRep = .ok [] :=
  ⟨ExTree.expr_removed, ExTree.exprRec_separate, ExTree.exprRep_separate, by decide +kernel, by decide +kernel,
    by decide +kernel, by decide +kernel⟩

/-- non-vacuity of `C102_accepts_partial` -/
example : ChangedFile UnfoldedRules .old ExTree.exprRep ExTree.exprIn ExTree.exprRepRules ExTree.exprInRules ∧
    SuffixesSeparate ExTree.exprRepRules ∧ SuffixesSeparate ExTree.exprInRules ∧
    sizeOf ExTree.exprRep.toAst ≤ 5000 ∧ sizeOf ExTree.exprIn.toAst ≤ 5000 ∧
    ExTree.conflictsOf ExTree.exprRep = .ok [] ∧ ExTree.conflictsOf ExTree.exprIn = .ok [] :=
  ⟨ExTree.expr_unfolded, ExTree.exprRep_separate, ExTree.exprIn_separate, by decide +kernel, by decide +kernel,
    by decide +kernel, by decide +kernel⟩

end Syntaxis
