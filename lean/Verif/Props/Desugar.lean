import Verif.Lemmas.Desugar
import Verif.Props.Duplicates

/-!
# C83: the grammar that is built is the textbook translation of the EBNF grammar

Up to the numbers given to them, the symbols of the built grammar are the elements that occur in the file, and its
productions are the rules of `Expands`.
-/

namespace Syntaxis
open Grammar

variable {lc : LexConsts} {ast : RuleContext} {name : Str} {n0 r0 fuel : Nat}

theorem lookSeq_mem {s : ProdState} {es : List Elem} {β : List Item} (h : lookSeq s es = some β) :
    ∀ e ∈ es, ∃ x, look s e = some x := by
  induction es generalizing β with
  | nil => simp
  | cons a as ih =>
    rw [lookSeq, Option.bind_eq_some_iff] at h
    obtain ⟨x, h1, h2⟩ := h
    rw [Option.map_eq_some_iff] at h2
    obtain ⟨γ, h2, rfl⟩ := h2
    intro e he
    rcases List.mem_cons.1 he with rfl | he
    · exact ⟨x, h1⟩
    · exact ih h2 e he

/-- what the passes leave behind -/
structure Desugared (D : Rules) (s2 : SymState) (s3 : ProdState) : Prop where
  inv : RunInv (envOf s2) s2.grammar.vocabulary.nonterminals s3
  cinv : CInv s3
  tok : ∀ n m a, (envOf s2).tok n = some a → (envOf s2).tok m = some a → n = m
  look : ∀ e, IsSymbol D e → Used s3 e ∧ ∃ x, look s3 e = some x
  prods : ∀ A β, (⟨A, β⟩ : Production) ∈ s3.grammar.productions ↔
    ∃ e a, Expands D e a ∧ Syntaxis.look s3 e = some (.nt A) ∧ lookSeq s3 a = some β
  anon : ∀ A ∈ s3.grammar.vocabulary.nonterminals,
    (∃ n, s3.grammar.vocabulary.getNonterminalIdByName n = some A) ∨
      ∃ e ∈ rulesParts D, Syntaxis.look s3 e = some (.nt A)

theorem lookSeq_pair {s : ProdState} {a b : Elem} {x y : Item} (h1 : look s a = some x) (h2 : look s b = some y) :
    lookSeq s [a, b] = some [x, y] := by
  rw [lookSeq, lookSeq, lookSeq, h1, h2]; rfl

theorem lookSeq_one {s : ProdState} {a : Elem} {x : Item} (h1 : look s a = some x) : lookSeq s [a] = some [x] := by
  rw [lookSeq, lookSeq, h1]; rfl

theorem desugared (h0 : 2 ≤ n0) (hf : sizeOf ast.toAst ≤ fuel) {s2 : SymState} {s3 : ProdState}
    (h : buildStates lc fuel ast (Grammar.new name) n0 r0 = .ok (s2, s3)) (hc : NoClash s3.uses) {D : Rules}
    (hD : readRules lc ast.children = some D) : Desugared D s2 s3 := by
  obtain ⟨h1, _, h3, h4, h5⟩ := altTwice_count h0 hf h hD
  have hB := build_ok h0 hf h
  have hi := hB.inv
  obtain ⟨D', hD', hr⟩ := hB.rules
  rw [hD] at hD'
  cases hD'
  have hi0 := runInv_init hB.sym
  have hS := elabRules_src D hi0 (cinv_init _ _) hr
  have hdef := (elabRules_inv D hi0 hr).2.2.1
  have hlook : ∀ e, IsSymbol D e → Used s3 e ∧ ∃ x, look s3 e = some x := by
    rintro e (he | ⟨r, hr', rfl⟩)
    · exact hS.has e he
    · obtain ⟨A, hA⟩ := hdef r.1 r.2 hr'
      exact ⟨trivial, .nt A, by rw [look, hi.nt, hA]; rfl⟩
  -- the suffix caches
  have hcache : ∀ f i A, (s3.cache f).get i = some A → ∃ e x, .rep f e ∈ rulesParts D ∧ look s3 e = some x ∧
      look s3 (.rep f e) = some (.nt A) ∧
      ∀ β, (⟨A, β⟩ : Production) ∈ s3.grammar.productions ↔
        β = (suffixRights f x A).1 ∨ β = (suffixRights f x A).2 := by
    intro f i A hA
    obtain ⟨_, _, y, hy, hyu, hp⟩ := hi.cache f i A hA
    rcases hS.cache f i A hA with h6 | ⟨e, x, h6, h7, h8⟩
    · cases f <;> cases h6
    · have hu := (hS.has _ h6).1
      rw [Used] at hu
      obtain ⟨_, x', hx', hxu⟩ := hu
      rw [h7] at hx'
      cases hx'
      have : x = y := hc f x y hxu hyu (h8.trans hy.symm)
      subst this
      refine ⟨e, x, h6, h7, ?_, hp⟩
      rw [look, h7, Option.bind_some, h8, hA]
      rfl
  have hrep : ∀ f e, .rep f e ∈ rulesParts D → ∃ A x, look s3 e = some x ∧ look s3 (.rep f e) = some (.nt A) ∧
      ∀ β, (⟨A, β⟩ : Production) ∈ s3.grammar.productions ↔
        β = (suffixRights f x A).1 ∨ β = (suffixRights f x A).2 := by
    intro f e he
    obtain ⟨hu, z, hz⟩ := hS.has _ he
    have hz' := hz
    rw [look, Option.bind_eq_some_iff] at hz
    obtain ⟨x, h6, h7⟩ := hz
    rw [Option.map_eq_some_iff] at h7
    obtain ⟨A, h7, rfl⟩ := h7
    obtain ⟨_, _, y, hy, hyu, hp⟩ := hi.cache f _ A h7
    rw [Used] at hu
    obtain ⟨_, x', hx', hxu⟩ := hu
    rw [h6] at hx'
    cases hx'
    have : x = y := hc f x y hxu hyu hy.symm
    subst this
    exact ⟨A, x, h6, hz', hp⟩
  have hblock : ∀ rs A, s3.blockCache.get rs = some A → ∃ alts, .group alts ∈ rulesParts D ∧
      lookAlts s3 alts = some rs ∧ look s3 (.group alts) = some (.nt A) := by
    intro rs A hA
    rcases h5.src rs A hA with h6 | ⟨alts, h6, _, h7⟩
    · cases h6
    · obtain ⟨r, hr', h8⟩ := List.mem_flatMap.1 h6
      refine ⟨alts, List.mem_flatMap.2 ⟨r, hr', altsGroups_parts _ h8⟩, h7, ?_⟩
      rw [look, h7, Option.bind_some, hA]
      rfl
  have hanon : ∀ A ∈ s3.grammar.vocabulary.nonterminals, (envOf s2).base ≤ A →
      (∃ f i, (s3.cache f).get i = some A) ∨ ∃ rs, s3.blockCache.get rs = some A := by
    intro A hA hle
    rcases (hi.ids A).1 hA with h6 | h6
    · have := hi.old A h6
      omega
    · exact hS.ids A hle h6.2
  refine ⟨hi, h1, tok_inj hB.sym, hlook, ?_, ?_⟩
  · intro A β
    constructor
    · intro hp
      by_cases hA : A < (envOf s2).base
      · obtain ⟨w, h6, h7, h8⟩ := h4 _ hp hA
        exact ⟨.ref w.1, w.2, .rule h6, by rw [look, hi.nt, h7]; rfl, h8⟩
      · rcases hanon A (hi.closed _ hp).1 (by omega) with ⟨f, i, h6⟩ | ⟨rs, h6⟩
        · obtain ⟨e, x, h7, h8, h9, h10⟩ := hcache f i A h6
          rcases (h10 β).1 hp with rfl | rfl
          · cases f
            · exact ⟨_, _, .starNil h7, h9, rfl⟩
            · exact ⟨_, _, .plusOne h7, h9, lookSeq_one h8⟩
            · exact ⟨_, _, .optNil h7, h9, rfl⟩
          · cases f
            · exact ⟨_, _, .starCons h7, h9, lookSeq_pair h8 h9⟩
            · exact ⟨_, _, .plusCons h7, h9, lookSeq_pair h8 h9⟩
            · exact ⟨_, _, .optOne h7, h9, lookSeq_one h8⟩
        · obtain ⟨alts, h7, h8, h9⟩ := hblock rs A h6
          obtain ⟨a, ha, hl⟩ := (lookAlts_mem h8 β).1 (((hi.block rs A h6).2.2 β).1 hp)
          exact ⟨_, a, .group h7 ha, h9, hl⟩
    · rintro ⟨e, a, he, hA, hβ⟩
      cases he with
      | rule hw =>
        obtain ⟨_, B, γ, e1, _, e3, e4⟩ := h3 _ hw
        rw [look, hi.nt, e1] at hA
        cases hA
        rw [e3] at hβ
        cases hβ
        exact e4
      | group hg ha =>
        rw [look, Option.bind_eq_some_iff] at hA
        obtain ⟨rs, h6, h7⟩ := hA
        rw [Option.map_eq_some_iff] at h7
        obtain ⟨B, h7, hB'⟩ := h7
        cases hB'
        exact ((hi.block rs _ h7).2.2 β).2 ((lookAlts_mem h6 β).2 ⟨a, ha, hβ⟩)
      | starNil hg =>
        obtain ⟨B, x, h6, h7, h8⟩ := hrep _ _ hg
        rw [hA] at h7
        cases h7
        cases hβ
        exact (h8 _).2 (.inl rfl)
      | starCons hg =>
        obtain ⟨B, x, h6, h7, h8⟩ := hrep _ _ hg
        rw [lookSeq_pair h6 h7] at hβ
        rw [hA] at h7
        cases h7
        cases hβ
        exact (h8 _).2 (.inr rfl)
      | plusOne hg =>
        obtain ⟨B, x, h6, h7, h8⟩ := hrep _ _ hg
        rw [lookSeq_one h6] at hβ
        rw [hA] at h7
        cases h7
        cases hβ
        exact (h8 _).2 (.inl rfl)
      | plusCons hg =>
        obtain ⟨B, x, h6, h7, h8⟩ := hrep _ _ hg
        rw [lookSeq_pair h6 h7] at hβ
        rw [hA] at h7
        cases h7
        cases hβ
        exact (h8 _).2 (.inr rfl)
      | optNil hg =>
        obtain ⟨B, x, h6, h7, h8⟩ := hrep _ _ hg
        rw [hA] at h7
        cases h7
        cases hβ
        exact (h8 _).2 (.inl rfl)
      | optOne hg =>
        obtain ⟨B, x, h6, h7, h8⟩ := hrep _ _ hg
        rw [lookSeq_one h6] at hβ
        rw [hA] at h7
        cases h7
        cases hβ
        exact (h8 _).2 (.inr rfl)
  · intro A hA
    by_cases hb : A < (envOf s2).base
    · left
      rcases (hi.ids A).1 hA with h6 | h6
      · obtain ⟨_, _, n, hn⟩ := hB.sym.nts A h6
        exact ⟨n, by rw [hi.nt]; exact (hB.sym.voc.n_inv n A).2 hn⟩
      · omega
    · right
      rcases hanon A hA (by omega) with ⟨f, i, h6⟩ | ⟨rs, h6⟩
      · obtain ⟨e, x, h7, _, h9, _⟩ := hcache f i A h6
        exact ⟨_, h7, h9⟩
      · obtain ⟨alts, h7, _, h9⟩ := hblock rs A h6
        exact ⟨_, h7, h9⟩

theorem Expands.left_symbol {D : Rules} {e : Elem} {a : List Elem} (h : Expands D e a) : IsSymbol D e := by
  cases h with
  | rule h =>
    simp only [writtenAlternatives, List.mem_flatMap, List.mem_map] at h
    obtain ⟨r, hr, b, _, hb⟩ := h
    cases hb
    exact .inr ⟨r, hr, rfl⟩
  | group h => exact .inl h
  | starNil h => exact .inl h
  | starCons h => exact .inl h
  | plusOne h => exact .inl h
  | plusCons h => exact .inl h
  | optNil h => exact .inl h
  | optOne h => exact .inl h

theorem rep_inner {D : Rules} {f : Suffix} {e : Elem} (h : .rep f e ∈ rulesParts D) : e ∈ rulesParts D :=
  rulesParts_trans D h (by rw [Elem.parts]; exact List.mem_cons_of_mem _ (mem_parts_self e))

theorem Expands.right_parts {D : Rules} {e : Elem} {a : List Elem} (h : Expands D e a) : ∀ x ∈ a, x ∈ rulesParts D := by
  intro x hx
  cases h with
  | rule h => exact mem_rulesParts.2 ⟨_, h, mem_seqParts.2 ⟨x, hx, mem_parts_self x⟩⟩
  | group h ha =>
    refine rulesParts_trans D h ?_
    rw [Elem.parts]
    exact List.mem_cons_of_mem _ (mem_altsParts.2 ⟨a, ha, x, hx, mem_parts_self x⟩)
  | starNil h => cases hx
  | starCons h =>
    simp only [List.mem_cons, List.not_mem_nil, or_false] at hx
    rcases hx with rfl | rfl
    · exact rep_inner h
    · exact h
  | plusOne h =>
    rw [List.mem_singleton] at hx
    subst hx
    exact rep_inner h
  | plusCons h =>
    simp only [List.mem_cons, List.not_mem_nil, or_false] at hx
    rcases hx with rfl | rfl
    · exact rep_inner h
    · exact h
  | optNil h => cases hx
  | optOne h =>
    rw [List.mem_singleton] at hx
    subst hx
    exact rep_inner h

/-- the item of an element, with a junk value for elements that do not occur -/
def itemOf (s : ProdState) (e : Elem) : Item := (look s e).getD (.t 0)

theorem itemOf_eq {s : ProdState} {e : Elem} {x : Item} (h : look s e = some x) : itemOf s e = x := by
  rw [itemOf, h]; rfl

theorem lookSeq_itemOf {s : ProdState} {es : List Elem} (h : ∀ e ∈ es, ∃ x, look s e = some x) :
    lookSeq s es = some (es.map (itemOf s)) := by
  induction es with
  | nil => rfl
  | cons a as ih =>
    obtain ⟨x, hx⟩ := h a (by simp)
    rw [lookSeq, hx, Option.bind_some, ih (fun e he => h e (by simp [he])), List.map_cons, itemOf_eq hx]
    rfl

theorem look_kind {s : ProdState} {e : Elem} {x : Item} (h : look s e = some x) :
    if e.isTok then ∃ a, x = .t a else ∃ A, x = .nt A := by
  cases e with
  | tok n =>
    rw [look, Option.map_eq_some_iff] at h
    obtain ⟨a, _, rfl⟩ := h
    exact ⟨a, rfl⟩
  | ref n =>
    rw [look, Option.map_eq_some_iff] at h
    obtain ⟨a, _, rfl⟩ := h
    exact ⟨a, rfl⟩
  | group alts =>
    rw [look, Option.bind_eq_some_iff] at h
    obtain ⟨_, _, h⟩ := h
    rw [Option.map_eq_some_iff] at h
    obtain ⟨a, _, rfl⟩ := h
    exact ⟨a, rfl⟩
  | rep f e =>
    rw [look, Option.bind_eq_some_iff] at h
    obtain ⟨_, _, h⟩ := h
    rw [Option.map_eq_some_iff] at h
    obtain ⟨a, _, rfl⟩ := h
    exact ⟨a, rfl⟩

/-- **C83**, what holds: if the suffixes of tokens are kept apart from the others by the numbers, there is a numbering
of the elements that gives tokens and rules the numbers of the vocabulary, gives different symbols different numbers,
and under which the productions are exactly the rules of `Expands`; every registered rule is a named one or the number
of an element that occurs.  Missing (false): other grammars, `C83_collision`. -/
theorem C83_translation_partial (h0 : 2 ≤ n0) (hf : sizeOf ast.toAst ≤ fuel) {g : Grammar}
    {data : List LexerRuleData} (h : buildGrammar lc fuel ast (Grammar.new name) n0 r0 = .ok (g, data))
    {D : Rules} (hD : readRules lc ast.children = some D) (hs : SuffixesApart D g.vocabulary) :
    ∃ num : Elem → Item,
      (∀ n a, g.vocabulary.getTerminalIdByName n = some a → num (.tok n) = .t a) ∧
      (∀ n A, g.vocabulary.getNonterminalIdByName n = some A → num (.ref n) = .nt A) ∧
      (∀ e, IsSymbol D e → if e.isTok then ∃ a, num e = .t a else ∃ A, num e = .nt A) ∧
      (∀ e e', IsSymbol D e → IsSymbol D e' → num e = num e' → e = e') ∧
      (∀ p, p ∈ g.productions ↔ ∃ e a, Expands D e a ∧ num e = .nt p.left ∧ a.map num = p.right) ∧
      ∀ A, g.vocabulary.isNonterminalId A = true → (∃ n, g.vocabulary.getNonterminalIdByName n = some A) ∨
        ∃ e ∈ rulesParts D, num e = .nt A := by
  obtain ⟨s2, s3, hb, rfl, rfl⟩ := buildGrammar_ok h
  have hc := noClash_of_apart h0 hf hb hD hs
  obtain ⟨hi, hci, ht, hl, hp, ha⟩ := desugared h0 hf hb hc hD
  refine ⟨itemOf s3, ?_, ?_, ?_, ?_, ?_, ?_⟩
  · intro n a hn
    exact itemOf_eq (by rw [look, hn]; rfl)
  · intro n A hn
    exact itemOf_eq (by rw [look, hn]; rfl)
  · intro e he
    obtain ⟨_, x, hx⟩ := hl e he
    rw [itemOf_eq hx]
    exact look_kind hx
  · intro e e' he he' heq
    obtain ⟨hu, x, hx⟩ := hl e he
    obtain ⟨hu', x', hx'⟩ := hl e' he'
    rw [itemOf_eq hx, itemOf_eq hx'] at heq
    subst heq
    exact look_inj hi hci hc ht e e' hu hu' hx hx'
  · intro p
    rw [show p = ⟨p.left, p.right⟩ from rfl, hp]
    refine exists_congr fun e => exists_congr fun a => and_congr_right fun he => ?_
    obtain ⟨_, x, hx⟩ := hl e he.left_symbol
    rw [lookSeq_itemOf (fun y hy => (hl y (.inl (he.right_parts y hy))).2), itemOf_eq hx, hx]
    simp
  · intro A hA
    rw [Vocabulary.isNonterminalId, decide_eq_true_eq] at hA
    rcases ha A hA with h1 | ⟨e, h1, h2⟩
    · exact .inl h1
    · exact .inr ⟨e, h1, itemOf_eq h2⟩

/-- **C83** is false without the side condition: the grammar built from `r : A* u* ; s : A ; u : B ;`, where token `A`
and rule `u` have the same number, is not the translation under any numbering that keeps the symbols apart. -/
theorem C83_collision :
    ∃ (ast : RuleContext) (fuel : Nat) (g : Grammar) (data : List LexerRuleData) (D : Rules),
      sizeOf ast.toAst ≤ fuel ∧ loadAst fuel ast = .ok (g, data) ∧ readRules .old ast.children = some D ∧
      ¬ ∃ num : Elem → Item,
        (∀ e, IsSymbol D e → if e.isTok then ∃ a, num e = .t a else ∃ A, num e = .nt A) ∧
        (∀ e e', IsSymbol D e → IsSymbol D e' → num e = num e' → e = e') ∧
        ∀ p, p ∈ g.productions ↔ ∃ e a, Expands D e a ∧ num e = .nt p.left ∧ a.map num = p.right := by
  have h := ExTree.clash_builds
  cases hb : loadAst 5000 ExTree.clash with
  | error e => rw [hb] at h; cases h
  | ok r =>
    obtain ⟨g, data⟩ := r
    rw [hb] at h
    have h' := Except.ok.inj h
    simp only [Prod.mk.injEq] at h'
    obtain ⟨h1, _, _⟩ := h'
    refine ⟨ExTree.clash, 5000, g, data, ExTree.clashRules, by decide +kernel, hb, ExTree.clash_rules, ?_⟩
    rintro ⟨num, hk, hi, hp⟩
    have key : ∀ e : Elem, .rep .star e ∈ rulesParts ExTree.clashRules → num (.rep .star e) = .nt 3 := by
      intro e he
      obtain ⟨A, hA⟩ := hk (.rep .star e) (.inl he)
      have := (hp ⟨A, []⟩).2 ⟨_, [], .starNil he, hA, rfl⟩
      rw [h1] at this
      simp only [List.mem_cons, Production.mk.injEq, List.not_mem_nil, or_false, reduceCtorEq, and_false,
        and_true, or_self] at this
      rw [hA, this]
    have m1 : .rep .star (.tok "A".toList) ∈ rulesParts ExTree.clashRules := by
      simp [rulesParts, ExTree.clashRules, altsParts, seqParts, Elem.parts]
    have m2 : .rep .star (.ref "u".toList) ∈ rulesParts ExTree.clashRules := by
      simp [rulesParts, ExTree.clashRules, altsParts, seqParts, Elem.parts]
    have := hi _ _ (.inl m1) (.inl m2) ((key _ m1).trans (key _ m2).symm)
    simp at this

/-- non-vacuity of `C83_translation_partial`: `a : (B a)* C | ε ;` has the symbols `a`, `(B a)*`, `(B a)`, `B`, `C` -/
example : ∃ g data, sizeOf ExTree.tree.toAst ≤ 5000 ∧
    buildGrammar .old 5000 ExTree.tree (Grammar.new "g".toList) 2 0 = .ok (g, data) ∧
    readRules .old ExTree.tree.children = some ExTree.rules ∧ SuffixesSeparate ExTree.rules ∧
    (rulesParts ExTree.rules).length = 5 ∧ g.productions.length = 5 ∧
    Expands ExTree.rules (.rep .star (.group [[.tok "B".toList, .ref "a".toList]])) [] := by
  have h := ExTree.tree_builds
  cases hb : buildGrammar .old 5000 ExTree.tree (Grammar.new "g".toList) 2 0 with
  | error e => rw [hb] at h; cases h
  | ok r =>
    rw [hb] at h
    have h1 := congrArg (fun p => p.1.length) (Except.ok.inj h)
    simp only [List.length_cons, List.length_nil] at h1
    refine ⟨r.1, r.2, ExTree.tree_size, rfl, ExTree.tree_rules, ?_, by rfl, h1, .starNil ?_⟩
    · rintro f ⟨⟨x, hx, hx'⟩, _⟩
      simp only [ExTree.rules, List.mem_singleton] at hx
      subst hx
      simp [altsSuffixes, seqSuffixes, Elem.suffixes, Elem.isTok] at hx'
    · simp [rulesParts, ExTree.rules, altsParts, seqParts, Elem.parts]

end Syntaxis
