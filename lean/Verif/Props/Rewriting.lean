import Verif.Lemmas.EbnfLaws
import Verif.Props.Reorder
import Verif.Props.Recursion

/-!
# C101: a grammar file can be rewritten by the laws of regular expressions
-/

namespace Syntaxis
open Grammar

/-! ## rules -/

theorem RewrittenRules.half {D D' : Rules} (h : RewrittenRules D D') {tok : Str → Option Nat} {s : List Elem}
    {w : List Nat} (hw : Word D tok s w) : Word D' tok s w := by
  induction hw with
  | nil => exact .nil
  | tok hn _ ih => exact .tok hn ih
  | ref hd ha _ _ ih1 ih2 =>
    obtain ⟨alt, ha', h1⟩ := word_group.1 (((h _).words _).1 (word_group.2 ⟨_, mem_alternativesOf.2 ⟨_, hd, ha⟩, ih1⟩))
    obtain ⟨alts, hd', ha'⟩ := mem_alternativesOf.1 ha'
    exact .ref hd' ha' h1 ih2
  | group ha _ _ ih1 ih2 => exact .group ha ih1 ih2
  | starNil _ ih => exact .starNil ih
  | starCons _ _ ih1 ih2 => exact .starCons ih1 ih2
  | plusOne _ _ ih1 ih2 => exact .plusOne ih1 ih2
  | plusCons _ _ ih1 ih2 => exact .plusCons ih1 ih2
  | optNil _ ih => exact .optNil ih
  | optOne _ _ ih1 ih2 => exact .optOne ih1 ih2

/-- **C101** rewriting the rules by the laws keeps the words of every rule and of every sequence of elements. -/
theorem C101_rules {D D' : Rules} (h : RewrittenRules D D') (tok : Str → Option Nat) (s : List Elem) (w : List Nat) :
    Word D tok s w ↔ Word D' tok s w :=
  ⟨h.half, RewrittenRules.half fun n => (h n).symm⟩

/-! ## files -/

/-- two files with the same lexer rules in the same order and the same first rule, whose rules are related by `R` -/
structure ChangedFile (R : Rules → Rules → Prop) (lc : LexConsts) (ast ast' : RuleContext) (D D' : Rules) : Prop where
  nodes : ∀ k ∈ ast.children, k.isRule 1 = true ∨ k.isRule 7 = true
  nodes' : ∀ k ∈ ast'.children, k.isRule 1 = true ∨ k.isRule 7 = true
  lexer : ast.children.filter (Ast.isRule 7) = ast'.children.filter (Ast.isRule 7)
  read : readRules lc ast.children = some D
  read' : readRules lc ast'.children = some D'
  rules : R D D'
  first : D.head?.map Prod.fst = D'.head?.map Prod.fst

/-- two files with the same lexer rules in the same order and the same first rule, one with the rules of the other
rewritten -/
abbrev RewrittenFile := ChangedFile RewrittenRules

variable {lc : LexConsts} {ast ast' : RuleContext} {fuel fuel' n0 : Nat} {name name' : Str} {R : Rules → Rules → Prop}

theorem ChangedFile.lexNodes {D D' : Rules} (h : ChangedFile R lc ast ast' D D') :
    lexNodes [1, 7] ast = lexNodes [1, 7] ast' := by
  rw [Syntaxis.lexNodes, Syntaxis.lexNodes, topmost, topmost, topmost_children h.nodes, topmost_children h.nodes',
    h.lexer]

theorem ChangedFile.swap {D D' : Rules} (h : ChangedFile R lc ast ast' D D') :
    ChangedFile (fun a b => R b a) lc ast' ast D' D where
  nodes := h.nodes'
  nodes' := h.nodes
  lexer := h.lexer.symm
  read := h.read'
  read' := h.read
  rules := h.rules
  first := h.first.symm

theorem ChangedFile.nonempty {D D' : Rules} (h : ChangedFile R lc ast ast' D D') (hD : D ≠ []) : D' ≠ [] := by
  rintro rfl
  have := h.first
  cases D with
  | nil => exact hD rfl
  | cons r D => simp at this

theorem ChangedFile.language {D D' : Rules} (h : ChangedFile R lc ast ast' D D')
    (hR : R D D' → ∀ tok s w, Word D tok s w ↔ Word D' tok s w) {g g' : Grammar} (hs : SuffixesApart D g.vocabulary)
    (hs' : SuffixesApart D' g'.vocabulary) (h0 : 2 ≤ n0) (hf : sizeOf ast.toAst ≤ fuel) (hf' : sizeOf ast'.toAst ≤ fuel')
    {data data' : List LexerRuleData} {r0 r0' : Nat}
    (hb : buildGrammar lc fuel ast (Grammar.new name) n0 r0 = .ok (g, data))
    (hb' : buildGrammar lc fuel' ast' (Grammar.new name') n0 r0' = .ok (g', data')) (n : Str) (A A' : Nat)
    (hA : g.vocabulary.getNonterminalIdByName n = some A) (hA' : g'.vocabulary.getNonterminalIdByName n = some A')
    (w : List Nat) : Sentence g.productions A w ↔ Sentence g'.productions A' w := by
  obtain ⟨_, ht, _⟩ := C84_tokens h0 hf hf' hb hb' h.lexNodes
  have ht : g'.vocabulary.getTerminalIdByName = g.vocabulary.getTerminalIdByName := funext ht
  rw [C46_apart_partial h0 hf hb h.read hs n A hA w,
    C46_apart_partial h0 hf' hb' h.read' hs' n A' hA' w, ht]
  exact hR h.rules _ _ _

theorem ChangedFile.accepts {D D' : Rules} (h : ChangedFile R lc ast ast' D D')
    (hR : R D D' → ∀ tok s w, Word D tok s w ↔ Word D' tok s w) {g g' : Grammar} (hs : SuffixesApart D g.vocabulary)
    (hs' : SuffixesApart D' g'.vocabulary) (h0 : 2 ≤ n0) (hD : D ≠ []) (hf : sizeOf ast.toAst ≤ fuel)
    (hf' : sizeOf ast'.toAst ≤ fuel') {data data' : List LexerRuleData}
    (hb : buildGrammar lc fuel ast (Grammar.new name) n0 0 = .ok (g, data))
    (hb' : buildGrammar lc fuel' ast' (Grammar.new name') n0 0 = .ok (g', data')) {o' : IterOrder g'}
    {so' : SetOrder} {k' : Nat} {ts' : TableState}
    (ht' : runTable g' o' so' k' = .ok ts') (hc' : ts'.conflicts = []) (w : List Nat)
    (toks : List Token) (htoks : toks.map Token.tokenType = w ++ [1]) :
    data' = data ∧ (Sentence g.productions 0 w ↔
      ∃ j r, (parserOf g' ts' toks).parse j = .ok (r, []) ∧ r.toAst.leaves = toks.take w.length) := by
  refine ⟨(C84_tokens h0 hf hf' hb hb' h.lexNodes).1, ?_⟩
  rw [← C22_parser_decides g' o' so' k' ts' ht' hc' w toks htoks]
  have hfst := h.first
  have hr := h.read
  have hr' := h.read'
  have hl := fun n A A' h1 h2 => h.language hR hs hs' h0 hf hf' hb hb' n A A' h1 h2 w
  match D, D', hD with
  | (n, alts) :: D, [], _ => simp at hfst
  | (n, alts) :: D, (n', alts') :: D', _ =>
    simp only [List.head?_cons, Option.map_some, Option.some.injEq] at hfst
    subst hfst
    exact hl n 0 0 (C77_first_rule h0 hf hb h.nodes hr) (C77_first_rule h0 hf' hb' h.nodes' hr')

/-- **C101**, what holds: if in both files the suffixes of tokens are kept apart from the others by the numbers, every rule has
the same sentences in both built grammars.  Missing (false, `C101_rewriting_matters`): files where they are not. -/
theorem C101_language_partial {D D' : Rules} (h : RewrittenFile lc ast ast' D D') {g g' : Grammar} (hs : SuffixesApart D g.vocabulary)
    (hs' : SuffixesApart D' g'.vocabulary) (h0 : 2 ≤ n0) (hf : sizeOf ast.toAst ≤ fuel) (hf' : sizeOf ast'.toAst ≤ fuel')
    {data data' : List LexerRuleData} {r0 r0' : Nat}
    (hb : buildGrammar lc fuel ast (Grammar.new name) n0 r0 = .ok (g, data))
    (hb' : buildGrammar lc fuel' ast' (Grammar.new name') n0 r0' = .ok (g', data')) (n : Str) (A A' : Nat)
    (hA : g.vocabulary.getNonterminalIdByName n = some A) (hA' : g'.vocabulary.getNonterminalIdByName n = some A')
    (w : List Nat) : Sentence g.productions A w ↔ Sentence g'.productions A' w :=
  h.language C101_rules hs hs' h0 hf hf' hb hb' n A A' hA hA' w

/-- **C101**, what holds: if the table of the rewritten file has no conflict, its parser accepts, completely and
without a message, exactly the sentences of the file before rewriting.  Missing (false): as for
`C101_language_partial`. -/
theorem C101_repaired_partial {D D' : Rules} (h : RewrittenFile lc ast ast' D D') {g g' : Grammar} (hs : SuffixesApart D g.vocabulary)
    (hs' : SuffixesApart D' g'.vocabulary) (h0 : 2 ≤ n0) (hD : D ≠ []) (hf : sizeOf ast.toAst ≤ fuel)
    (hf' : sizeOf ast'.toAst ≤ fuel') {data data' : List LexerRuleData}
    (hb : buildGrammar lc fuel ast (Grammar.new name) n0 0 = .ok (g, data))
    (hb' : buildGrammar lc fuel' ast' (Grammar.new name') n0 0 = .ok (g', data')) {o' : IterOrder g'}
    {so' : SetOrder} {k' : Nat} {ts' : TableState}
    (ht' : runTable g' o' so' k' = .ok ts') (hc' : ts'.conflicts = []) (w : List Nat)
    (toks : List Token) (htoks : toks.map Token.tokenType = w ++ [1]) :
    data' = data ∧ (Sentence g.productions 0 w ↔
      ∃ j r, (parserOf g' ts' toks).parse j = .ok (r, []) ∧ r.toAst.leaves = toks.take w.length) :=
  h.accepts C101_rules hs hs' h0 hD hf hf' hb hb' ht' hc' w toks htoks

/-- **C101**, what holds: if neither table has a conflict, the two parsers accept the same token lists
completely and without a message.  Missing (false): as for `C101_language_partial`; and with conflicts
(`C101_plus_repaired`). -/
theorem C101_accepts_partial {D D' : Rules} (h : RewrittenFile lc ast ast' D D') {g g' : Grammar} (hs : SuffixesApart D g.vocabulary)
    (hs' : SuffixesApart D' g'.vocabulary) (h0 : 2 ≤ n0) (hD : D ≠ []) (hf : sizeOf ast.toAst ≤ fuel)
    (hf' : sizeOf ast'.toAst ≤ fuel') {data data' : List LexerRuleData}
    (hb : buildGrammar lc fuel ast (Grammar.new name) n0 0 = .ok (g, data))
    (hb' : buildGrammar lc fuel' ast' (Grammar.new name') n0 0 = .ok (g', data')) {o : IterOrder g} {o' : IterOrder g'}
    {so so' : SetOrder} {k k' : Nat} {ts ts' : TableState} (ht : runTable g o so k = .ok ts)
    (ht' : runTable g' o' so' k' = .ok ts') (hc : ts.conflicts = []) (hc' : ts'.conflicts = []) (w : List Nat)
    (toks : List Token) (htoks : toks.map Token.tokenType = w ++ [1]) :
    (∃ j r, (parserOf g ts toks).parse j = .ok (r, []) ∧ r.toAst.leaves = toks.take w.length) ↔
      ∃ j r, (parserOf g' ts' toks).parse j = .ok (r, []) ∧ r.toAst.leaves = toks.take w.length := by
  rw [← C22_parser_decides g o so k ts ht hc w toks htoks]
  exact (C101_repaired_partial h hs hs' h0 hD hf hf' hb hb' ht' hc' w toks htoks).2

/-! ## examples -/

namespace ExTree

/-- `?` -/
def question : List Ast := [nd 6 [tk 13 "?"]]

/-- `r : A* (u+)? ; s : A ; u : B ; A : /a/ ; B : /b/ ;`, the file `clash` rewritten -/
def clash4 : RuleContext := ⟨[], [
  rule "r" [alt [el (tk 6 "A") star, el (nd 2 [alt [el (tk 7 "u") plus]]) question]],
  rule "s" [alt [el (tk 6 "A") []]],
  rule "u" [alt [el (tk 6 "B") []]],
  lex "A" "/a/", lex "B" "/b/"], 0⟩

/-- the rules of the tree -/
def clash4Rules : Rules :=
  [("r".toList, [[.rep .star (.tok "A".toList), .rep .question (.group [[.rep .plus (.ref "u".toList)]])]]),
   ("s".toList, [[.tok "A".toList]]), ("u".toList, [[.tok "B".toList]])]

theorem clash4_builds : (loadAst 5000 clash4).map (fun r => (r.1.vocabulary.getNonterminalIdByName "r".toList,
      r.1.vocabulary.getTerminalIdByName "B".toList)) = .ok (some 0, some 3) := by
  decide +kernel

/-- rewriting the only alternative of a rule -/
theorem rewrite_alts {s t : List Elem} (h : Rewrite s t) : Rewrite [.group [s]] [.group [t]] :=
  (Rewrite.single s).trans (h.trans (Rewrite.single t).symm)

theorem clash_rewritten : RewrittenFile .old clash clash4 clashRules clash4Rules where
  nodes := nodes_ok (by decide +kernel)
  nodes' := nodes_ok (by decide +kernel)
  lexer := by rfl
  read := clash_rules
  read' := by rfl
  rules n := by
    by_cases h1 : "r".toList = n
    · subst h1
      refine rewrite_alts (.append (s := [_]) (s' := [_]) (.refl _) ?_)
      exact (Rewrite.star _).trans (.rep _ (Rewrite.single _).symm)
    · by_cases h2 : "s".toList = n
      · subst h2
        exact .refl _
      · by_cases h3 : "u".toList = n
        · subst h3
          exact .refl _
        · have e : ∀ D : Rules, D.map Prod.fst = ["r".toList, "s".toList, "u".toList] → alternativesOf D n = [] := by
            intro D hD
            rw [alternativesOf, List.flatMap_eq_nil_iff]
            intro r hr
            have : r.1 ∈ D.map Prod.fst := List.mem_map_of_mem hr
            rw [hD] at this
            simp only [List.mem_cons, List.not_mem_nil, or_false] at this
            rw [if_neg]
            rintro rfl
            rcases this with e | e | e
            · exact h1 e.symm
            · exact h2 e.symm
            · exact h3 e.symm
          rw [e clashRules rfl, e clash4Rules rfl]
          exact .refl _
  first := by rfl

theorem clash4_separate : SuffixesSeparate clash4Rules := by
  rintro f ⟨⟨y, hy, hy'⟩, x, hx, hx'⟩
  simp only [clash4Rules, List.mem_cons, List.not_mem_nil, or_false] at hx hy
  rcases hx with rfl | rfl | rfl <;> rcases hy with rfl | rfl | rfl <;>
    simp [altsSuffixes, seqSuffixes, Elem.suffixes, Elem.isTok] at hx' hy'
  subst hy'
  simp at hx'

/-- `list : ITEM+ END ; ITEM : /i/ ; END : /e/ ;` -/
def manyPlus : RuleContext := ⟨[], [
  rule "list" [alt [el (tk 6 "ITEM") plus, el (tk 6 "END") []]],
  lex "ITEM" "/i/", lex "END" "/e/"], 0⟩

/-- `list : ITEM ITEM* END ; ITEM : /i/ ; END : /e/ ;` -/
def manyStar : RuleContext := ⟨[], [
  rule "list" [alt [el (tk 6 "ITEM") [], el (tk 6 "ITEM") star, el (tk 6 "END") []]],
  lex "ITEM" "/i/", lex "END" "/e/"], 0⟩

/-- `list : (ITEM ITEM*) END ; ITEM : /i/ ; END : /e/ ;` -/
def manyGroup : RuleContext := ⟨[], [
  rule "list" [alt [el (nd 2 [alt [el (tk 6 "ITEM") [], el (tk 6 "ITEM") star]]) [], el (tk 6 "END") []]],
  lex "ITEM" "/i/", lex "END" "/e/"], 0⟩

/-- the rules of `manyPlus` -/
def manyPlusRules : Rules := [("list".toList, [[.rep .plus (.tok "ITEM".toList), .tok "END".toList]])]
/-- the rules of `manyStar` -/
def manyStarRules : Rules :=
  [("list".toList, [[.tok "ITEM".toList, .rep .star (.tok "ITEM".toList), .tok "END".toList]])]
/-- the rules of `manyGroup` -/
def manyGroupRules : Rules :=
  [("list".toList, [[.group [[.tok "ITEM".toList, .rep .star (.tok "ITEM".toList)]], .tok "END".toList]])]

theorem rewritten_one {m : Str} {as bs : List (List Elem)} (h : Rewrite [.group as] [.group bs]) :
    RewrittenRules [(m, as)] [(m, bs)] := by
  intro n
  by_cases e : m = n
  · simpa [alternativesOf, e] using h
  · simpa [alternativesOf, e] using Rewrite.refl _

theorem many_rewritten : RewrittenFile .old manyPlus manyStar manyPlusRules manyStarRules where
  nodes := nodes_ok (by decide +kernel)
  nodes' := nodes_ok (by decide +kernel)
  lexer := by rfl
  read := by rfl
  read' := by rfl
  rules := rewritten_one (rewrite_alts (.append (s := [_]) (s' := [_, _]) (.plus _) (.refl _)))
  first := by rfl

theorem many_grouped : RewrittenFile .old manyGroup manyStar manyGroupRules manyStarRules where
  nodes := nodes_ok (by decide +kernel)
  nodes' := nodes_ok (by decide +kernel)
  lexer := by rfl
  read := by rfl
  read' := by rfl
  rules := rewritten_one (rewrite_alts (.append (s := [_]) (s' := [_, _]) (.single _) (.refl _)))
  first := by rfl

theorem manyPlus_separate : SuffixesSeparate manyPlusRules := by
  rintro f ⟨_, x, hx, hx'⟩
  simp only [manyPlusRules, List.mem_singleton] at hx
  subst hx
  simp [altsSuffixes, seqSuffixes, Elem.suffixes, Elem.isTok] at hx'

theorem manyStar_separate : SuffixesSeparate manyStarRules := by
  rintro f ⟨_, x, hx, hx'⟩
  simp only [manyStarRules, List.mem_singleton] at hx
  subst hx
  simp [altsSuffixes, seqSuffixes, Elem.suffixes, Elem.isTok] at hx'

theorem manyGroup_separate : SuffixesSeparate manyGroupRules := by
  rintro f ⟨_, x, hx, hx'⟩
  simp only [manyGroupRules, List.mem_singleton] at hx
  subst hx
  simp [altsSuffixes, seqSuffixes, Elem.suffixes, Elem.isTok] at hx'

end ExTree

/-- **C101** is false without the side condition: writing `r : A* (u+)? ;` for `r : A* u* ;` adds a word to the
language of `r`. -/
theorem C101_rewriting_matters :
    ∃ (ast ast' : RuleContext) (D D' : Rules) (fuel : Nat) (g g' : Grammar) (data data' : List LexerRuleData) (n : Str)
      (A A' : Nat) (w : List Nat), RewrittenFile .old ast ast' D D' ∧ sizeOf ast.toAst ≤ fuel ∧
      sizeOf ast'.toAst ≤ fuel ∧ loadAst fuel ast = .ok (g, data) ∧ loadAst fuel ast' = .ok (g', data') ∧
      g.vocabulary.getNonterminalIdByName n = some A ∧ g'.vocabulary.getNonterminalIdByName n = some A' ∧
      ¬ Sentence g.productions A w ∧ Sentence g'.productions A' w := by
  have h := ExTree.clash_builds
  have h2 := ExTree.clash4_builds
  cases hb : loadAst 5000 ExTree.clash with
  | error e => rw [hb] at h; cases h
  | ok r =>
    cases hb2 : loadAst 5000 ExTree.clash4 with
    | error e => rw [hb2] at h2; cases h2
    | ok r2 =>
      obtain ⟨g, data⟩ := r
      obtain ⟨g2, data2⟩ := r2
      rw [hb] at h
      rw [hb2] at h2
      have h' := Except.ok.inj h
      have h2' := Except.ok.inj h2
      simp only [Prod.mk.injEq] at h' h2'
      have hsz : sizeOf ExTree.clash4.toAst ≤ 5000 := by decide +kernel
      refine ⟨ExTree.clash, ExTree.clash4, ExTree.clashRules, ExTree.clash4Rules, 5000, g, g2, data, data2,
        "r".toList, 0, 0, [3], ExTree.clash_rewritten, by decide +kernel, hsz, hb, hb2, h'.2.1, h2'.1, ?_, ?_⟩
      · intro hs
        rw [h'.1] at hs
        have := derives_within (ok := fun x => x = .t 2 ∨ x = .nt 0 ∨ x = .nt 3) (by decide) hs (by decide)
          (.t 3) (by decide)
        revert this
        decide
      · rw [C46_separate_suffixes_partial (by decide) hsz hb2 ExTree.clash_rewritten.read' ExTree.clash4_separate
          "r".toList 0 h2'.1]
        refine word_one_ref (alts := [[.rep .star (.tok "A".toList), .rep .question (.group [[.rep .plus (.ref "u".toList)]])]])
          (by simp [ExTree.clash4Rules]) List.mem_cons_self (.starNil ?_)
        refine word_question.2 (.inr (word_group.2 ⟨_, List.mem_singleton.2 rfl, word_pieces.2 ⟨[[3]], by simp, ?_, rfl⟩⟩))
        intro u hu
        rw [List.mem_singleton.1 hu]
        exact word_one_ref (alts := [[.tok "B".toList]]) (by simp [ExTree.clash4Rules]) List.mem_cons_self (.tok h2'.2 .nil)

/-- **C101** the way around **C26**: `list : ITEM+ END` has a conflict, the file rewritten by the first law,
`list : ITEM ITEM* END`, has none, and has the same sentences. -/
theorem C101_plus_repaired :
    RewrittenFile .old ExTree.manyPlus ExTree.manyStar ExTree.manyPlusRules ExTree.manyStarRules ∧
    SuffixesSeparate ExTree.manyPlusRules ∧ SuffixesSeparate ExTree.manyStarRules ∧
    (ExTree.conflictsOf ExTree.manyPlus).map (·.length) = .ok 1 ∧ ExTree.conflictsOf ExTree.manyStar = .ok [] :=
  ⟨ExTree.many_rewritten, ExTree.manyPlus_separate, ExTree.manyStar_separate, by decide +kernel, by decide +kernel⟩

/-- non-vacuity of `C101_accepts_partial`: neither file has a conflict -/
example : RewrittenFile .old ExTree.manyGroup ExTree.manyStar ExTree.manyGroupRules ExTree.manyStarRules ∧
    SuffixesSeparate ExTree.manyGroupRules ∧ SuffixesSeparate ExTree.manyStarRules ∧
    sizeOf ExTree.manyGroup.toAst ≤ 5000 ∧ sizeOf ExTree.manyStar.toAst ≤ 5000 ∧
    ExTree.conflictsOf ExTree.manyGroup = .ok [] ∧ ExTree.conflictsOf ExTree.manyStar = .ok [] :=
  ⟨ExTree.many_grouped, ExTree.manyGroup_separate, ExTree.manyStar_separate, by decide +kernel, by decide +kernel,
    by decide +kernel, by decide +kernel⟩

end Syntaxis
