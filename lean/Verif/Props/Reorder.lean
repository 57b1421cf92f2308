import Verif.Lemmas.Iso
import Verif.Lemmas.Rename
import Verif.Props.Desugar
import Verif.Props.Toolchain

/-!
# C84, C85: the order and the names of the parser rules make no difference; extensions only add

Two grammar files with the same lexer rules and the same alternatives for every rule, up to a translation of the rule
names, give the same tokens, the same language, the same verdict about conflicts and the same parse trees.  A file that
contains all rules of another describes all its words and has all its conflicts.
-/

namespace Syntaxis
open Grammar

variable {lc : LexConsts} {n0 r0 : Nat}

/-! ## the tokens depend on the lexer rules only -/

/-- the parts of the state that lexer rules read and write are the same -/
def TokPart (s t : SymState) : Prop :=
  t.data = s.data ∧ t.nextTokenId = s.nextTokenId ∧
  t.grammar.vocabulary.tNameToId = s.grammar.vocabulary.tNameToId ∧
  t.grammar.vocabulary.tIdToName = s.grammar.vocabulary.tIdToName ∧
  t.grammar.vocabulary.terminals = s.grammar.vocabulary.terminals

theorem TokPart.refl (s : SymState) : TokPart s s := ⟨rfl, rfl, rfl, rfl, rfl⟩
theorem TokPart.trans {s t u : SymState} (h : TokPart s t) (h' : TokPart t u) : TokPart s u :=
  ⟨h'.1.trans h.1, h'.2.1.trans h.2.1, h'.2.2.1.trans h.2.2.1, h'.2.2.2.1.trans h.2.2.2.1,
    h'.2.2.2.2.trans h.2.2.2.2⟩
theorem TokPart.symm {s t : SymState} (h : TokPart s t) : TokPart t s :=
  ⟨h.1.symm, h.2.1.symm, h.2.2.1.symm, h.2.2.2.1.symm, h.2.2.2.2.symm⟩

theorem tokPart_parserRule {k : Ast} (hk : k.isRule 7 = false) {s s' : SymState}
    (h : (symVisitor lc).callOn k s = .ok s') : TokPart s s' := by
  rw [sym_callOn] at h
  split at h
  · obtain ⟨_, h⟩ := map_snd_ok h
    rw [symVisitParserRule, bind_eq_ok] at h
    obtain ⟨tk, _, h⟩ := h
    dsimp only at h
    split at h
    · cases h
      exact .refl s
    · cases h
      simp only [Vocabulary.addNamedNonterminal]
      split <;> exact ⟨rfl, rfl, rfl, rfl, rfl⟩
  · simp [Ast.isRule] at hk
  · cases h
    exact .refl s

theorem tokPart_lexerRule {k : Ast} (hk : k.isRule 7 = true) {s s' t : SymState} (ht : TokPart s t)
    (h : (symVisitor lc).callOn k s = .ok s') : ∃ t', (symVisitor lc).callOn k t = .ok t' ∧ TokPart s' t' := by
  cases k with
  | terminal t => cases hk
  | error t => cases hk
  | rule n i ks =>
    simp only [Ast.isRule, beq_iff_eq] at hk
    subst hk
    rw [sym_callOn] at h ⊢
    obtain ⟨_, h⟩ := map_snd_ok h
    obtain ⟨h1, h2, h3, h4, h5⟩ := ht
    show ∃ t', (symVisitLexerRule lc ⟨n, ks, 7⟩ t).map Prod.snd = .ok t' ∧ TokPart s' t'
    rw [symVisitLexerRule, bind_eq_ok] at h
    rw [symVisitLexerRule]
    obtain ⟨tk, htk, h⟩ := h
    rw [htk, bind_ok]
    dsimp only at h ⊢
    have hd : t.grammar.vocabulary.isTerminalNameDefined tk.text = s.grammar.vocabulary.isTerminalNameDefined tk.text := by
      simp only [Vocabulary.isTerminalNameDefined, h3]
    rw [hd]
    by_cases hdef : s.grammar.vocabulary.isTerminalNameDefined tk.text = true
    · rw [if_pos hdef] at h ⊢
      cases h
      exact ⟨_, rfl, h1, h2, h3, h4, h5⟩
    · rw [if_neg hdef] at h ⊢
      rw [bind_eq_ok] at h
      obtain ⟨rg, e1, h⟩ := h
      rw [bind_eq_ok] at h
      obtain ⟨lit, e2, h⟩ := h
      rw [bind_eq_ok] at h
      obtain ⟨re, e3, h⟩ := h
      rw [e1, bind_ok, e2, bind_ok, e3, bind_ok]
      cases re with
      | none =>
        cases h
        exact ⟨_, rfl, h1, h2, h3, h4, h5⟩
      | some re =>
        cases h
        refine ⟨_, rfl, ?_⟩
        simp only [TokPart, h1, h2, Vocabulary.addTerminal, h3, h4, h5]
        refine ⟨trivial, trivial, ?_⟩
        split
        · exact ⟨h3, h4, h5⟩
        · split
          · exact ⟨h3, h4, h5⟩
          · exact ⟨rfl, rfl, rfl⟩

theorem tokPart_fold {l : List Ast} {s s' t : SymState} (ht : TokPart s t)
    (h : l.foldlM (fun s a => (symVisitor lc).callOn a s) s = .ok s') :
    ∃ t', (l.filter (Ast.isRule 7)).foldlM (fun s a => (symVisitor lc).callOn a s) t = .ok t' ∧ TokPart s' t' := by
  induction l generalizing s t with
  | nil => cases h; exact ⟨t, rfl, ht⟩
  | cons k l ih =>
    rw [List.foldlM_cons, bind_eq_ok] at h
    obtain ⟨s1, h1, h2⟩ := h
    by_cases hk : k.isRule 7 = true
    · obtain ⟨t1, h3, h4⟩ := tokPart_lexerRule hk ht h1
      obtain ⟨t', h5, h6⟩ := ih h4 h2
      refine ⟨t', ?_, h6⟩
      rw [List.filter_cons_of_pos hk, List.foldlM_cons, h3, bind_ok, h5]
    · rw [Bool.not_eq_true] at hk
      obtain ⟨t', h5, h6⟩ := ih ((tokPart_parserRule hk h1).symm.trans ht) h2
      exact ⟨t', by rw [List.filter_cons_of_neg (by simp [hk]), h5], h6⟩

section
variable {ast ast' : RuleContext} {name name' : Str} {fuel fuel' : Nat}

/-- what the second pass does to the tokens -/
theorem tokPart_pass {s2 : SymState} {s3 : ProdState}
    (h : buildStates lc fuel ast (Grammar.new name) n0 r0 = .ok (s2, s3)) :
    ∃ t', (lexNodes [1, 7] ast).foldlM (fun s a => (symVisitor lc).callOn a s)
        ({ grammar := Grammar.new [], data := [], nextTokenId := n0, nextRuleId := 0 } : SymState) = .ok t' ∧
      TokPart s2 t' := by
  rw [buildStates, bind_eq_ok] at h
  obtain ⟨s1, h1, h⟩ := h
  rw [bind_eq_ok] at h
  obtain ⟨s2', h2, h⟩ := h
  rw [bind_eq_ok] at h
  obtain ⟨s3', h3, h⟩ := h
  cases h
  have := runLit_ok h1
  subst this
  rw [runSym_eq, sym_topmost] at h2
  exact tokPart_fold (by exact ⟨rfl, rfl, rfl, rfl, rfl⟩) h2

theorem tokPart_build {s2 s2' : SymState} {s3 s3' : ProdState}
    (h : buildStates lc fuel ast (Grammar.new name) n0 r0 = .ok (s2, s3)) {r0' : Nat}
    (h' : buildStates lc fuel' ast' (Grammar.new name') n0 r0' = .ok (s2', s3'))
    (hl : lexNodes [1, 7] ast = lexNodes [1, 7] ast') : TokPart s2 s2' := by
  obtain ⟨t, e1, e2⟩ := tokPart_pass h
  obtain ⟨t', e1', e2'⟩ := tokPart_pass h'
  rw [← hl, e1] at e1'
  cases e1'
  exact e2.trans e2'.symm

/-- **C84** The tokens — the data of the lexer and the numbers in the vocabulary — depend on the lexer rules and their
order only. -/
theorem C84_tokens (h0 : 2 ≤ n0) (hf : sizeOf ast.toAst ≤ fuel) (hf' : sizeOf ast'.toAst ≤ fuel')
    {g g' : Grammar} {data data' : List LexerRuleData} {r0' : Nat}
    (h : buildGrammar lc fuel ast (Grammar.new name) n0 r0 = .ok (g, data))
    (h' : buildGrammar lc fuel' ast' (Grammar.new name') n0 r0' = .ok (g', data'))
    (hl : lexNodes [1, 7] ast = lexNodes [1, 7] ast') :
    data' = data ∧ (∀ n, g'.vocabulary.getTerminalIdByName n = g.vocabulary.getTerminalIdByName n) ∧
    ∀ i, g'.vocabulary.getTerminalNameById i = g.vocabulary.getTerminalNameById i := by
  obtain ⟨s2, s3, hb, rfl, rfl⟩ := buildGrammar_ok h
  obtain ⟨s2', s3', hb', rfl, rfl⟩ := buildGrammar_ok h'
  obtain ⟨e1, _, e3, e4, _⟩ := tokPart_build hb hb' hl
  obtain ⟨a1, a2, _⟩ := (build_ok h0 hf hb).names
  obtain ⟨b1, b2, _⟩ := (build_ok h0 hf' hb').names
  refine ⟨e1, fun n => ?_, fun i => ?_⟩
  · rw [Vocabulary.getTerminalIdByName, Vocabulary.getTerminalIdByName, a1, b1, e3]
  · rw [Vocabulary.getTerminalNameById, Vocabulary.getTerminalNameById, a2, b2, e4]

/-! ## one grammar inside another -/

theorem SubAlternatives.parts {D D' : Rules} (h : SubAlternatives D D') {e : Elem} (he : e ∈ rulesParts D) :
    e ∈ rulesParts D' := by
  rw [mem_rulesParts] at he ⊢
  obtain ⟨w, hw, he⟩ := he
  exact ⟨w, h w hw, he⟩

theorem SubAlternatives.expands {D D' : Rules} (h : SubAlternatives D D') {e : Elem} {a : List Elem}
    (he : Expands D e a) : Expands D' e a := by
  cases he with
  | rule hw => exact .rule (h _ hw)
  | group hg ha => exact .group (h.parts hg) ha
  | starNil hg => exact .starNil (h.parts hg)
  | starCons hg => exact .starCons (h.parts hg)
  | plusOne hg => exact .plusOne (h.parts hg)
  | plusCons hg => exact .plusCons (h.parts hg)
  | optNil hg => exact .optNil (h.parts hg)
  | optOne hg => exact .optOne (h.parts hg)

theorem mem_altsSuffixes {alts : List (List Elem)} {x : Suffix × Bool} :
    x ∈ altsSuffixes alts ↔ ∃ a ∈ alts, x ∈ seqSuffixes a := by
  induction alts with
  | nil => simp [altsSuffixes]
  | cons a as ih => simp [altsSuffixes, ih]

theorem rulesSuffixes {D : Rules} {x : Suffix × Bool} :
    (∃ r ∈ D, x ∈ altsSuffixes r.2) ↔ ∃ w ∈ writtenAlternatives D, x ∈ seqSuffixes w.2 := by
  simp only [mem_altsSuffixes, writtenAlternatives, List.mem_flatMap, List.mem_map]
  constructor
  · rintro ⟨r, hr, a, ha, hx⟩
    exact ⟨_, ⟨r, hr, a, ha, rfl⟩, hx⟩
  · rintro ⟨w, ⟨r, hr, a, ha, rfl⟩, hx⟩
    exact ⟨r, hr, a, ha, hx⟩

theorem SubAlternatives.separate {D D' : Rules} (h : SubAlternatives D D') (hs : SuffixesSeparate D') :
    SuffixesSeparate D := by
  intro f
  have := hs f
  simp only [rulesSuffixes] at this ⊢
  rintro ⟨⟨w, h1, h2⟩, w', h1', h2'⟩
  exact this ⟨⟨w, h w h1, h2⟩, w', h w' h1', h2'⟩

/-- the item of an element and the item of its translation, or the same token -/
def SameSymbol (ν : Str → Str) (D D' : Rules) (s s' : ProdState) (x y : Item) : Prop :=
  (∃ e, IsSymbol D e ∧ IsSymbol D' (e.rename ν) ∧ look s e = some x ∧ look s' (e.rename ν) = some y) ∨
    ∃ a, x = .t a ∧ y = .t a

/-- the rules of the first file, translated, are in the second; the tokens have the same numbers -/
structure Into (ν : Str → Str) (D D' : Rules) (s2 s2' : SymState) (s3 s3' : ProdState) : Prop where
  left : Desugared D s2 s3
  right : Desugared D' s2' s3'
  clash : NoClash s3.uses
  clash' : NoClash s3'.uses
  inj : Function.Injective ν
  sub : SubAlternatives (renameRules ν D) D'
  tok : ∀ n a, s3.grammar.vocabulary.getTerminalIdByName n = some a →
    s3'.grammar.vocabulary.getTerminalIdByName n = some a

end

section
variable {ast : RuleContext} {name : Str} {fuel : Nat}
variable {ν : Str → Str} {D D' : Rules} {s2 s2' : SymState} {s3 s3' : ProdState}

/-- the items of an element and its translation are the same token, or two rules -/
theorem Into.kind (h : Into ν D D' s2 s2' s3 s3') {e : Elem} {x y : Item} (h1 : look s3 e = some x)
    (h2 : look s3' (e.rename ν) = some y) : (∃ a, x = .t a ∧ y = .t a) ∨ ∃ A B, x = .nt A ∧ y = .nt B := by
  cases e with
  | tok n =>
    left
    rw [look, Option.map_eq_some_iff] at h1
    rw [Elem.rename, look] at h2
    obtain ⟨a, h1, rfl⟩ := h1
    rw [h.tok n a h1] at h2
    exact ⟨a, rfl, (Option.some.inj h2).symm⟩
  | ref n =>
    obtain ⟨A, h3⟩ := look_kind h1
    obtain ⟨B, h4⟩ := look_kind h2
    exact .inr ⟨A, B, h3, h4⟩
  | group alts =>
    obtain ⟨A, h3⟩ := look_kind h1
    obtain ⟨B, h4⟩ := look_kind h2
    exact .inr ⟨A, B, h3, h4⟩
  | rep f e =>
    obtain ⟨A, h3⟩ := look_kind h1
    obtain ⟨B, h4⟩ := look_kind h2
    exact .inr ⟨A, B, h3, h4⟩

theorem Into.fn (h : Into ν D D' s2 s2' s3 s3') {x y z : Item} (hy : SameSymbol ν D D' s3 s3' x y)
    (hz : SameSymbol ν D D' s3 s3' x z) : y = z := by
  rcases hy with ⟨e, i1, _, h1, h2⟩ | ⟨b, rfl, rfl⟩
  · rcases hz with ⟨e', i1', _, h1', h2'⟩ | ⟨b, rfl, rfl⟩
    · have := look_inj h.left.inv h.left.cinv h.clash h.left.tok e e' (h.left.look e i1).1 (h.left.look e' i1').1 h1 h1'
      subst this
      rw [h2] at h2'
      exact Option.some.inj h2'
    · rcases h.kind h1 h2 with ⟨a, h3, h4⟩ | ⟨_, _, h3, _⟩
      · rw [h4, ← h3]
      · cases h3
  · rcases hz with ⟨e', i1', _, h1', h2'⟩ | ⟨b, h3, rfl⟩
    · rcases h.kind h1' h2' with ⟨a, h3, h4⟩ | ⟨_, _, h3, _⟩
      · rw [h4, ← h3]
      · cases h3
    · exact h3

theorem Into.inj' (h : Into ν D D' s2 s2' s3 s3') {x y z : Item} (hy : SameSymbol ν D D' s3 s3' x z)
    (hz : SameSymbol ν D D' s3 s3' y z) : x = y := by
  rcases hy with ⟨e, _, i1, h1, h2⟩ | ⟨b, rfl, rfl⟩
  · rcases hz with ⟨e', _, i1', h1', h2'⟩ | ⟨b, rfl, rfl⟩
    · have := rename_inj h.inj _ _ (look_inj h.right.inv h.right.cinv h.clash' h.right.tok _ _ (h.right.look _ i1).1
        (h.right.look _ i1').1 h2 h2')
      subst this
      rw [h1] at h1'
      exact Option.some.inj h1'
    · rcases h.kind h1 h2 with ⟨a, h3, h4⟩ | ⟨_, _, _, h3⟩
      · rw [h3, ← h4]
      · cases h3
  · rcases hz with ⟨e', _, i1', h1', h2'⟩ | ⟨b, rfl, h3⟩
    · rcases h.kind h1' h2' with ⟨a, h3, h4⟩ | ⟨_, _, _, h3⟩
      · rw [h3, ← h4]
      · cases h3
    · exact h3

theorem Into.part (h : Into ν D D' s2 s2' s3 s3') {e : Elem} (he : e ∈ rulesParts D) :
    e.rename ν ∈ rulesParts D' := by
  refine h.sub.parts ?_
  rw [rulesParts_rename]
  exact List.mem_map_of_mem he

theorem Into.expand (h : Into ν D D' s2 s2' s3 s3') {a : List Elem} (ha : ∀ e ∈ a, e ∈ rulesParts D) :
    ∃ β β', lookSeq s3 a = some β ∧ lookSeq s3' (renameSeq ν a) = some β' ∧
      List.Forall₂ (SameSymbol ν D D' s3 s3') β β' := by
  induction a with
  | nil => exact ⟨[], [], rfl, rfl, .nil⟩
  | cons e a ih =>
    obtain ⟨γ, γ', h3, h4, h5⟩ := ih (fun e he => ha e (by simp [he]))
    have hm := ha e (by simp)
    have hm' := h.part hm
    obtain ⟨_, x, hx⟩ := h.left.look e (.inl hm)
    obtain ⟨_, y, hy⟩ := h.right.look _ (.inl hm')
    exact ⟨x :: γ, y :: γ', by rw [lookSeq, hx, Option.bind_some, h3]; rfl,
      by rw [renameSeq, lookSeq, hy, Option.bind_some, h4]; rfl, .cons (.inl ⟨e, .inl hm, .inl hm', hx, hy⟩) h5⟩

/-- an expansion gives corresponding productions -/
theorem Into.prod (h : Into ν D D' s2 s2' s3 s3') {e : Elem} {a : List Elem} (he : Expands D e a) :
    ∃ A A' β β', look s3 e = some (.nt A) ∧ lookSeq s3 a = some β ∧ look s3' (e.rename ν) = some (.nt A') ∧
      lookSeq s3' (renameSeq ν a) = some β' ∧ SameSymbol ν D D' s3 s3' (.nt A) (.nt A') ∧
      List.Forall₂ (SameSymbol ν D D' s3 s3') β β' := by
  have he' := h.sub.expands (expands_rename (ν := ν) he)
  obtain ⟨β, β', h3, h4, h5⟩ := h.expand he.right_parts
  obtain ⟨_, x, hx⟩ := h.left.look e he.left_symbol
  obtain ⟨_, y, hy⟩ := h.right.look _ he'.left_symbol
  have hs : SameSymbol ν D D' s3 s3' x y := .inl ⟨e, he.left_symbol, he'.left_symbol, hx, hy⟩
  have hnt : ∃ A, x = .nt A := by
    have := look_kind hx
    cases he <;> exact this
  obtain ⟨A, rfl⟩ := hnt
  rcases h.kind hx hy with ⟨_, h6, _⟩ | ⟨_, B, _, rfl⟩
  · cases h6
  · exact ⟨A, B, β, β', hx, h3, hy, h4, hs, h5⟩

theorem Into.hom (h : Into ν D D' s2 s2' s3 s3') :
    Hom (SameSymbol ν D D' s3 s3') s3.grammar.productions s3'.grammar.productions where
  tok a := .inr ⟨a, rfl, rfl⟩
  fn _ _ _ h1 h2 := h.fn h1 h2
  inj _ _ _ h1 h2 := h.inj' h1 h2
  fwd p hp := by
    obtain ⟨e, a, he, h1, h2⟩ := (h.left.prods p.left p.right).1 hp
    obtain ⟨A, A', β, β', e1, e2, e3, e4, e5, e6⟩ := h.prod he
    rw [h1] at e1
    rw [h2] at e2
    cases e1
    cases e2
    exact ⟨⟨A', β'⟩, (h.right.prods A' β').2 ⟨_, _, h.sub.expands (expands_rename he), e3, e4⟩, e5, e6⟩

theorem Into.iso (h : Into ν D D' s2 s2' s3 s3') (hsub : SubAlternatives D' (renameRules ν D)) :
    Iso (SameSymbol ν D D' s3 s3') s3.grammar.productions s3'.grammar.productions where
  toHom := h.hom
  bwd q hq := by
    obtain ⟨e', a', he', h1, h2⟩ := (h.right.prods q.left q.right).1 hq
    obtain ⟨e, a, rfl, rfl, he⟩ := expands_rename_inv (hsub.expands he')
    obtain ⟨A, A', β, β', e1, e2, e3, e4, e5, e6⟩ := h.prod he
    rw [h1] at e3
    rw [h2] at e4
    cases e3
    cases e4
    exact ⟨⟨A, β⟩, (h.left.prods A β).2 ⟨_, _, he, e1, e2⟩, e5, e6⟩

/-- corresponding rules have corresponding names or both have none -/
theorem Into.names (h : Into ν D D' s2 s2' s3 s3')
    (hv : ∀ n i, s3.grammar.vocabulary.ntNameToId.get n = some i ↔ s3.grammar.vocabulary.ntIdToName.get i = some n)
    (hv' : ∀ n i, s3'.grammar.vocabulary.ntNameToId.get n = some i ↔ s3'.grammar.vocabulary.ntIdToName.get i = some n)
    {A A' : Nat} (hA : SameSymbol ν D D' s3 s3' (.nt A) (.nt A')) :
    s3'.grammar.vocabulary.getNonterminalNameById A' = (s3.grammar.vocabulary.getNonterminalNameById A).map ν := by
  have anon : ∀ {D : Rules} {s2 : SymState} {s3 : ProdState}, Desugared D s2 s3 → ∀ A, (envOf s2).base ≤ A →
      s3.grammar.vocabulary.getNonterminalNameById A = none := by
    intro D s2 s3 hd A hle
    cases hn : s3.grammar.vocabulary.getNonterminalNameById A with
    | none => rfl
    | some n =>
      have := hd.inv.old A (hd.inv.named A n hn)
      omega
  have fresh : ∀ {D : Rules} {s2 : SymState} {s3 : ProdState}, Desugared D s2 s3 → ∀ (e : Elem) A,
      look s3 e = some (.nt A) → (∀ n, e ≠ .ref n) → (envOf s2).base ≤ A := by
    intro D s2 s3 hd e A he hne
    cases e with
    | tok n =>
      obtain ⟨_, h3⟩ := look_kind he
      cases h3
    | ref n => exact absurd rfl (hne n)
    | group alts =>
      rw [look, Option.bind_eq_some_iff] at he
      obtain ⟨rs, _, he⟩ := he
      rw [Option.map_eq_some_iff] at he
      obtain ⟨B, he, hB⟩ := he
      cases hB
      exact (hd.inv.block rs _ he).1
    | rep f e =>
      rw [look, Option.bind_eq_some_iff] at he
      obtain ⟨x, _, he⟩ := he
      rw [Option.map_eq_some_iff] at he
      obtain ⟨B, he, hB⟩ := he
      cases hB
      exact (hd.inv.cache f _ _ he).1
  rcases hA with ⟨e, _, _, h1, h2⟩ | ⟨a, h1, _⟩
  · have hren : (∀ n, e ≠ .ref n) → ∀ n, e.rename ν ≠ .ref n := by
      intro hne n he
      cases e <;> simp only [Elem.rename, reduceCtorEq] at he
      exact hne _ rfl
    by_cases hr : ∃ n, e = .ref n
    · obtain ⟨n, rfl⟩ := hr
      rw [Elem.rename] at h2
      rw [look, Option.map_eq_some_iff] at h1 h2
      obtain ⟨B, h1, hB⟩ := h1
      obtain ⟨B', h2, hB'⟩ := h2
      cases hB
      cases hB'
      rw [Vocabulary.getNonterminalNameById, Vocabulary.getNonterminalNameById, (hv n _).1 h1,
        (hv' (ν n) _).1 h2]
      rfl
    · have hr' : ∀ n, e ≠ .ref n := fun n hn => hr ⟨n, hn⟩
      rw [anon h.left A (fresh h.left e A h1 hr'), anon h.right A' (fresh h.right _ A' h2 (hren hr'))]
      rfl
  · cases h1

theorem vinv_build (h0 : 2 ≤ n0) (hf : sizeOf ast.toAst ≤ fuel)
    (h : buildStates lc fuel ast (Grammar.new name) n0 r0 = .ok (s2, s3)) :
    (∀ n i, s3.grammar.vocabulary.ntNameToId.get n = some i ↔ s3.grammar.vocabulary.ntIdToName.get i = some n) := by
  have hB := build_ok h0 hf h
  obtain ⟨_, _, _, e4, e5⟩ := hB.names
  intro n i
  rw [e4, e5]
  exact hB.sym.voc.n_inv n i

end

/-! ## the theorems -/

/-- entries of conflict-free tables correspond -/
theorem Hom.entry {ρ : Item → Item → Prop} {P Q : List Production} (h : Hom ρ P Q) (hz : ρ (.nt 0) (.nt 0))
    {T T' : Table} (hT : TableSound P T) (hT' : TableComplete Q T') {A A' t : Nat} {p : Production}
    (hA : ρ (.nt A) (.nt A')) (he : T.get (A, t) = some p) :
    ∃ q, T'.get (A', t) = some q ∧ List.Forall₂ ρ p.right q.right := by
  obtain ⟨hp, rfl, hpr⟩ := hT A t p he
  obtain ⟨q, hq, hl, hr⟩ := h.fwd p hp
  cases h.fn _ _ _ hA hl
  exact ⟨q, hT' q hq t (h.predicts hz hl hr hpr), hr⟩

section
variable {ast ast' : RuleContext} {name name' : Str} {fuel fuel' : Nat}

/-- two files with the same lexer rules in the same order and, after translating the rule names one to one, the same
alternatives for every rule name and the same first rule -/
structure Reordered (lc : LexConsts) (ν : Str → Str) (ast ast' : RuleContext) (D D' : Rules) : Prop where
  inj : Function.Injective ν
  nodes : ∀ k ∈ ast.children, k.isRule 1 = true ∨ k.isRule 7 = true
  nodes' : ∀ k ∈ ast'.children, k.isRule 1 = true ∨ k.isRule 7 = true
  lexer : ast.children.filter (Ast.isRule 7) = ast'.children.filter (Ast.isRule 7)
  read : readRules lc ast.children = some D
  read' : readRules lc ast'.children = some D'
  same : SameAlternatives (renameRules ν D) D'
  first : (D.head?.map Prod.fst).map ν = D'.head?.map Prod.fst

theorem Reordered.lexNodes {ν : Str → Str} {D D' : Rules} (h : Reordered lc ν ast ast' D D') :
    lexNodes [1, 7] ast = lexNodes [1, 7] ast' := by
  rw [Syntaxis.lexNodes, Syntaxis.lexNodes, topmost, topmost, topmost_children h.nodes, topmost_children h.nodes',
    h.lexer]

theorem readRules_mem {ks : List Ast} {D : Rules} (h : readRules lc ks = some D) {k : Ast} (hk : k ∈ ks)
    (h1 : k.isRule 1 = true) {n : Str} (hn : firstText lc.RULE_REF k.kids = some n) : ∃ r ∈ D, r.1 = n := by
  induction ks generalizing D with
  | nil => cases hk
  | cons a ks ih =>
    rw [readRules] at h
    rcases List.mem_cons.1 hk with rfl | hk
    · rw [if_pos h1, hn] at h
      split at h
      · rename_i m alts rs e1 e2 e3
        cases e1
        cases h
        exact ⟨_, List.mem_cons_self, rfl⟩
      · cases h
    · split at h
      · split at h
        · rename_i m alts rs e1 e2 e3
          cases h
          obtain ⟨r, hr, e⟩ := ih e3 hk
          exact ⟨r, List.mem_cons_of_mem _ hr, e⟩
        · cases h
      · exact ih h hk

/-- a named rule of the grammar is defined in the file -/
theorem named_symbol (h0 : 2 ≤ n0) (hf : sizeOf ast.toAst ≤ fuel) {g : Grammar} {data : List LexerRuleData}
    (hb : buildGrammar lc fuel ast (Grammar.new name) n0 r0 = .ok (g, data))
    (hk : ∀ k ∈ ast.children, k.isRule 1 = true ∨ k.isRule 7 = true) {D : Rules}
    (hD : readRules lc ast.children = some D) {n : Str} {A : Nat}
    (hn : g.vocabulary.getNonterminalIdByName n = some A) : IsSymbol D (.ref n) := by
  obtain ⟨s2, s3, hst, rfl, rfl⟩ := buildGrammar_ok hb
  obtain ⟨_, _, _, e4, _⟩ := (build_ok h0 hf hst).names
  rw [Vocabulary.getNonterminalIdByName, e4] at hn
  rw [buildStates, bind_eq_ok] at hst
  obtain ⟨s1, h1, hst⟩ := hst
  rw [bind_eq_ok] at hst
  obtain ⟨s2', h2, hst⟩ := hst
  rw [bind_eq_ok] at hst
  obtain ⟨s3', h3, hst⟩ := hst
  cases hst
  have e := runLit_ok h1
  rcases (known_defined _ _ h2).2 n A hn with h4 | ⟨k, h4, h5, h6⟩
  · rw [e] at h4
    cases h4
  · rw [topmost, topmost_children hk] at h4
    obtain ⟨r, hr, hrn⟩ := readRules_mem hD h4 h5 h6
    exact .inr ⟨r, hr, by rw [hrn]⟩

/-- the correspondence, with what is known about it -/
theorem Reordered.iso {ν : Str → Str} {D D' : Rules} (h : Reordered lc ν ast ast' D D') {g g' : Grammar} (hs : SuffixesApart D g.vocabulary)
    (hs' : SuffixesApart D' g'.vocabulary) (h0 : 2 ≤ n0)
    (hf : sizeOf ast.toAst ≤ fuel) (hf' : sizeOf ast'.toAst ≤ fuel') {data data' : List LexerRuleData}
    (hb : buildGrammar lc fuel ast (Grammar.new name) n0 0 = .ok (g, data))
    (hb' : buildGrammar lc fuel' ast' (Grammar.new name') n0 0 = .ok (g', data')) :
    ∃ ρ, Iso ρ g.productions g'.productions ∧
      (∀ n A A', g.vocabulary.getNonterminalIdByName n = some A → g'.vocabulary.getNonterminalIdByName (ν n) = some A' →
        ρ (.nt A) (.nt A')) ∧
      (D ≠ [] → ρ (.nt 0) (.nt 0)) ∧
      ∀ A A', ρ (.nt A) (.nt A') →
        g'.vocabulary.getNonterminalNameById A' = (g.vocabulary.getNonterminalNameById A).map ν := by
  have htok := (C84_tokens h0 hf hf' hb hb' h.lexNodes).2.1
  have hsym : ∀ n A, g.vocabulary.getNonterminalIdByName n = some A → IsSymbol D (.ref n) :=
    fun n A => named_symbol h0 hf hb h.nodes h.read
  have hsym' : ∀ n A, g'.vocabulary.getNonterminalIdByName n = some A → IsSymbol D' (.ref n) :=
    fun n A => named_symbol h0 hf' hb' h.nodes' h.read'
  have hfirst : ∀ n alts E, D = (n, alts) :: E → g.vocabulary.getNonterminalIdByName n = some 0 := by
    rintro n alts E rfl
    exact C77_first_rule h0 hf hb h.nodes h.read
  have hfirst' : ∀ n alts E, D' = (n, alts) :: E → g'.vocabulary.getNonterminalIdByName n = some 0 := by
    rintro n alts E rfl
    exact C77_first_rule h0 hf' hb' h.nodes' h.read'
  obtain ⟨s2, s3, hst, rfl, rfl⟩ := buildGrammar_ok hb
  obtain ⟨s2', s3', hst', rfl, rfl⟩ := buildGrammar_ok hb'
  have hc := noClash_of_apart h0 hf hst h.read hs
  have hsub : SubAlternatives (renameRules ν D) D' := fun w => (h.same w).1
  have hsub' : SubAlternatives D' (renameRules ν D) := fun w => (h.same w).2
  have hc' := noClash_of_apart h0 hf' hst' h.read' hs'
  have B : Into ν D D' s2 s2' s3 s3' := ⟨desugared h0 hf hst hc h.read, desugared h0 hf' hst' hc' h.read', hc, hc',
    h.inj, hsub, fun n a hn => by rw [htok, hn]⟩
  have hn : ∀ n A A', s3.grammar.vocabulary.getNonterminalIdByName n = some A →
      s3'.grammar.vocabulary.getNonterminalIdByName (ν n) = some A' → SameSymbol ν D D' s3 s3' (.nt A) (.nt A') := by
    intro n A A' h1 h2
    exact .inl ⟨.ref n, hsym n A h1, hsym' _ A' h2, by rw [look, h1]; rfl, by rw [Elem.rename, look, h2]; rfl⟩
  refine ⟨_, B.iso hsub', hn, ?_, fun A A' hA => B.names (vinv_build h0 hf hst) (vinv_build h0 hf' hst') hA⟩
  intro hne
  have hfst := h.first
  cases D with
  | nil => exact absurd rfl hne
  | cons r D =>
    cases D' with
    | nil => cases hfst
    | cons r' D' =>
      simp only [List.head?_cons, Option.map_some, Option.some.injEq] at hfst
      refine hn r.1 0 0 (hfirst r.1 r.2 D rfl) ?_
      rw [hfst]
      exact hfirst' r'.1 r'.2 D' rfl

/-- **C84**, what holds: the two grammars give corresponding rule names the same language.  Missing (false): files in which a
token and something else with the same number have the same suffix, `C84_order_matters`. -/
theorem C84_language_partial {ν : Str → Str} {D D' : Rules} (h : Reordered lc ν ast ast' D D') {g g' : Grammar} (hs : SuffixesApart D g.vocabulary)
    (hs' : SuffixesApart D' g'.vocabulary) (h0 : 2 ≤ n0)
    (hf : sizeOf ast.toAst ≤ fuel) (hf' : sizeOf ast'.toAst ≤ fuel') {data data' : List LexerRuleData}
    (hb : buildGrammar lc fuel ast (Grammar.new name) n0 0 = .ok (g, data))
    (hb' : buildGrammar lc fuel' ast' (Grammar.new name') n0 0 = .ok (g', data')) (n : Str) (A A' : Nat)
    (hA : g.vocabulary.getNonterminalIdByName n = some A) (hA' : g'.vocabulary.getNonterminalIdByName (ν n) = some A')
    (w : List Nat) : Sentence g.productions A w ↔ Sentence g'.productions A' w := by
  obtain ⟨ρ, hi, hn, _, _⟩ := h.iso hs hs' h0 hf hf' hb hb'
  exact hi.sentence_iff (hn n A A' hA hA') w

/-- **C84**, what holds: for all hash orders, the table of one grammar is printed without conflict message iff that of
the other is.  Missing (false): as for `C84_language_partial`. -/
theorem C84_conflicts_partial {ν : Str → Str} {D D' : Rules} (h : Reordered lc ν ast ast' D D') {g g' : Grammar} (hs : SuffixesApart D g.vocabulary)
    (hs' : SuffixesApart D' g'.vocabulary) (h0 : 2 ≤ n0)
    (hD : D ≠ []) (hf : sizeOf ast.toAst ≤ fuel) (hf' : sizeOf ast'.toAst ≤ fuel')
    {data data' : List LexerRuleData} (hb : buildGrammar lc fuel ast (Grammar.new name) n0 0 = .ok (g, data))
    (hb' : buildGrammar lc fuel' ast' (Grammar.new name') n0 0 = .ok (g', data')) {o : IterOrder g} {o' : IterOrder g'}
    {so so' : SetOrder} {k k' : Nat} {ts ts' : TableState} (ht : runTable g o so k = .ok ts)
    (ht' : runTable g' o' so' k' = .ok ts') : ts.conflicts = [] ↔ ts'.conflicts = [] := by
  obtain ⟨ρ, hi, _, hz, _⟩ := h.iso hs hs' h0 hf hf' hb hb'
  rw [C16_conflict_iff_not_ll1 g o so k ts ht, C16_conflict_iff_not_ll1 g' o' so' k' ts' ht']
  exact hi.ll1_iff (hz hD)

/-- **C84**, what holds: without conflicts, parsing the same tokens from corresponding rules has the same outcome in both:
a panic, or the same tree up to the translation of the names and the numbers of the rules, and the same messages.  Missing (false): as for
`C84_language_partial`. -/
theorem C84_parse_partial {ν : Str → Str} {D D' : Rules} (h : Reordered lc ν ast ast' D D') {g g' : Grammar} (hs : SuffixesApart D g.vocabulary)
    (hs' : SuffixesApart D' g'.vocabulary) (h0 : 2 ≤ n0)
    (hD : D ≠ []) (hf : sizeOf ast.toAst ≤ fuel) (hf' : sizeOf ast'.toAst ≤ fuel')
    {data data' : List LexerRuleData} (hb : buildGrammar lc fuel ast (Grammar.new name) n0 0 = .ok (g, data))
    (hb' : buildGrammar lc fuel' ast' (Grammar.new name') n0 0 = .ok (g', data')) {o : IterOrder g} {o' : IterOrder g'}
    {so so' : SetOrder} {k k' : Nat} {ts ts' : TableState} (ht : runTable g o so k = .ok ts)
    (ht' : runTable g' o' so' k' = .ok ts') (hc : ts.conflicts = []) (toks : List Token) (n : Str) (A A' : Nat)
    (hA : g.vocabulary.getNonterminalIdByName n = some A) (hA' : g'.vocabulary.getNonterminalIdByName (ν n) = some A') :
    ∃ m, ∀ j, m ≤ j → (parserOf g ts toks).parseRule A j ≠ .error .fuel ∧
      ((parserOf g ts toks).parseRule A j).map (fun r => (r.1.toAst.relabel ν, r.2)) =
        ((parserOf g' ts' toks).parseRule A' j).map (fun r => (r.1.toAst.relabel id, r.2)) := by
  have hc' := (C84_conflicts_partial h hs hs' h0 hD hf hf' hb hb' ht ht').1 hc
  obtain ⟨ρ, hi, hn, hz, hnm⟩ := h.iso hs hs' h0 hf hf' hb hb'
  have hz := hz hD
  have hρ := hn n A A' hA hA'
  have hps : SamePs ν ρ (parserOf g ts toks) (parserOf g' ts' toks) := by
    refine ⟨⟨rfl, ?_, hnm⟩, ?_⟩
    · intro A A' t p hA he
      exact hi.entry hz (tableSound_of ht) (tableComplete_of ht' hc') hA he
    · intro A A' t hA he
      cases he' : (parserOf g' ts' toks).table.get (A', t) with
      | none => rfl
      | some q =>
        obtain ⟨p, hp, _⟩ := hi.symm.toHom.entry (A := A') (A' := A) hz (tableSound_of ht') (tableComplete_of ht hc) hA he'
        have : (parserOf g ts toks).table.get (A, t) = some p := hp
        rw [he] at this
        cases this
  rcases halts_all (ps := parserOf g ts toks) (tableSound_of ht) (tableComplete_of ht hc) [.nt A] 0 with
    ⟨f, ks, d, l, hr⟩ | hp
  · cases hr with
    | nt htok hp hrun hrest =>
      obtain ⟨q, hq, hpq⟩ := hps.some _ _ _ _ hρ hp
      obtain ⟨f', ks', hrun', hks⟩ := hi.run hps.toSubPs hpq hrun
      obtain ⟨m, hm⟩ := run_parseAst htok hp hrun
      obtain ⟨m', hm'⟩ := run_parseAst (ps := parserOf g' ts' toks) htok hq hrun'
      refine ⟨max m m', fun j hj => ?_⟩
      rw [Parser.parseRule_ok.2 ⟨_, hm j (by omega)⟩, Parser.parseRule_ok.2 ⟨_, hm' j (by omega)⟩]
      have hname := hnm A A' hρ
      simp only [Vocabulary.getNonterminalNameById] at hname
      refine ⟨by simp, ?_⟩
      simp only [Except.map, RuleContext.toAst, Ast.relabel, hks, parserOf, Vocabulary.getNonterminalNameWithDefault]
      cases hg : g.vocabulary.ntIdToName.get A with
      | none =>
        have hv := (buildGrammar_ok hb)
        obtain ⟨s2, s3, hst, rfl, rfl⟩ := hv
        have := (vinv_build h0 hf hst n A).1 hA
        rw [hg] at this
        cases this
      | some m => rw [hname, hg]; rfl
  · obtain ⟨m, hm⟩ := panics_parseAst hp
    obtain ⟨m', hm'⟩ := panics_parseAst (hi.panics hps (.cons hρ .nil) hp)
    refine ⟨max m m', fun j hj => ?_⟩
    simp only [Parser.parseRule, hm j (by omega), hm' j (by omega), bind_error]
    exact ⟨by simp, rfl⟩

end

/-! ## extensions -/

theorem tokNames_mono {k : Ast} {s s' : SymState} (h : (symVisitor lc).callOn k s = .ok s') :
    (∃ more, s'.data = s.data ++ more) ∧ ∀ n a, s.grammar.vocabulary.getTerminalIdByName n = some a →
      s'.grammar.vocabulary.getTerminalIdByName n = some a := by
  by_cases hk : k.isRule 7 = true
  · cases k with
    | terminal t => cases hk
    | error t => cases hk
    | rule n i ks =>
      simp only [Ast.isRule, beq_iff_eq] at hk
      subst hk
      rw [sym_callOn] at h
      obtain ⟨_, h⟩ := map_snd_ok h
      rw [symVisitLexerRule, bind_eq_ok] at h
      obtain ⟨tk, htk, h⟩ := h
      dsimp only at h
      by_cases hdef : s.grammar.vocabulary.isTerminalNameDefined tk.text = true
      · rw [if_pos hdef] at h
        cases h
        exact ⟨⟨[], by rw [List.append_nil]; rfl⟩, fun _ _ h => h⟩
      · rw [if_neg hdef] at h
        rw [bind_eq_ok] at h
        obtain ⟨rg, e1, h⟩ := h
        rw [bind_eq_ok] at h
        obtain ⟨lit, e2, h⟩ := h
        rw [bind_eq_ok] at h
        obtain ⟨re, e3, h⟩ := h
        cases re with
        | none =>
          cases h
          exact ⟨⟨[], by rw [List.append_nil]; rfl⟩, fun _ _ h => h⟩
        | some re =>
          cases h
          refine ⟨⟨_, rfl⟩, fun n a hn => ?_⟩
          simp only [Vocabulary.getTerminalIdByName, Vocabulary.addTerminal] at hn ⊢
          split
          · exact hn
          · split
            · exact hn
            · rename_i hc _
              rw [HMap.get_insert]
              split
              · rename_i he
                subst he
                exact absurd ((HMap.containsKey_iff _ _).2 ⟨a, hn⟩) hc
              · exact hn
  · obtain ⟨h1, _, h3, _⟩ := tokPart_parserRule (by simpa using hk) h
    refine ⟨⟨[], by rw [h1, List.append_nil]⟩, fun n a hn => ?_⟩
    rw [Vocabulary.getTerminalIdByName, h3]
    exact hn

theorem tokNames_fold {l : List Ast} {s s' : SymState}
    (h : l.foldlM (fun s a => (symVisitor lc).callOn a s) s = .ok s') :
    (∃ more, s'.data = s.data ++ more) ∧ ∀ n a, s.grammar.vocabulary.getTerminalIdByName n = some a →
      s'.grammar.vocabulary.getTerminalIdByName n = some a := by
  induction l generalizing s with
  | nil => cases h; exact ⟨⟨[], by simp⟩, fun _ _ h => h⟩
  | cons k l ih =>
    rw [List.foldlM_cons, bind_eq_ok] at h
    obtain ⟨s1, h1, h2⟩ := h
    obtain ⟨⟨m1, e1⟩, f1⟩ := tokNames_mono h1
    obtain ⟨⟨m2, e2⟩, f2⟩ := ih h2
    exact ⟨⟨m1 ++ m2, by rw [e2, e1, List.append_assoc]⟩, fun n a hn => f2 n a (f1 n a hn)⟩

section
variable {ast ast' : RuleContext} {name name' : Str} {fuel fuel' : Nat}

/-- the second file has the lexer rules of the first and possibly more behind them, every alternative of the first, and
the same first rule -/
structure Extends (lc : LexConsts) (ast ast' : RuleContext) (D D' : Rules) : Prop where
  nodes : ∀ k ∈ ast.children, k.isRule 1 = true ∨ k.isRule 7 = true
  nodes' : ∀ k ∈ ast'.children, k.isRule 1 = true ∨ k.isRule 7 = true
  lexer : ast.children.filter (Ast.isRule 7) <+: ast'.children.filter (Ast.isRule 7)
  read : readRules lc ast.children = some D
  read' : readRules lc ast'.children = some D'
  sub : SubAlternatives D D'
  first : D.head?.map Prod.fst = D'.head?.map Prod.fst

/-- **C85** The tokens of the shorter file keep their numbers, names and regexes. -/
theorem C85_tokens {D D' : Rules} (h : Extends lc ast ast' D D') (h0 : 2 ≤ n0) (hf : sizeOf ast.toAst ≤ fuel)
    (hf' : sizeOf ast'.toAst ≤ fuel') {g g' : Grammar} {data data' : List LexerRuleData} {r0 r0' : Nat}
    (hb : buildGrammar lc fuel ast (Grammar.new name) n0 r0 = .ok (g, data))
    (hb' : buildGrammar lc fuel' ast' (Grammar.new name') n0 r0' = .ok (g', data')) :
    data <+: data' ∧ ∀ n a, g.vocabulary.getTerminalIdByName n = some a →
      g'.vocabulary.getTerminalIdByName n = some a := by
  obtain ⟨s2, s3, hst, rfl, rfl⟩ := buildGrammar_ok hb
  obtain ⟨s2', s3', hst', rfl, rfl⟩ := buildGrammar_ok hb'
  obtain ⟨a1, _⟩ := (build_ok h0 hf hst).names
  obtain ⟨b1, _⟩ := (build_ok h0 hf' hst').names
  obtain ⟨t, e1, e2⟩ := tokPart_pass hst
  obtain ⟨t', e1', e2'⟩ := tokPart_pass hst'
  rw [lexNodes, topmost, topmost_children h.nodes] at e1
  rw [lexNodes, topmost, topmost_children h.nodes'] at e1'
  obtain ⟨more, hm⟩ := h.lexer
  rw [← hm, List.foldlM_append, e1, bind_ok] at e1'
  obtain ⟨⟨m, hd⟩, hn⟩ := tokNames_fold e1'
  constructor
  · refine ⟨m, ?_⟩
    rw [← e2.1, ← hd, e2'.1]
  · intro n a ha
    rw [Vocabulary.getTerminalIdByName, a1, ← e2.2.2.1] at ha
    rw [Vocabulary.getTerminalIdByName, b1, ← e2'.2.2.1]
    exact hn n a ha

/-- the embedding, with what is known about it -/
theorem Extends.hom {D D' : Rules} (h : Extends lc ast ast' D D') {g g' : Grammar} (hs : SuffixesApart D g.vocabulary)
    (hs' : SuffixesApart D' g'.vocabulary) (h0 : 2 ≤ n0)
    (hf : sizeOf ast.toAst ≤ fuel) (hf' : sizeOf ast'.toAst ≤ fuel') {data data' : List LexerRuleData}
    (hb : buildGrammar lc fuel ast (Grammar.new name) n0 0 = .ok (g, data))
    (hb' : buildGrammar lc fuel' ast' (Grammar.new name') n0 0 = .ok (g', data')) :
    ∃ ρ, Hom ρ g.productions g'.productions ∧
      (∀ n A A', g.vocabulary.getNonterminalIdByName n = some A → g'.vocabulary.getNonterminalIdByName n = some A' →
        ρ (.nt A) (.nt A')) ∧ (D ≠ [] → ρ (.nt 0) (.nt 0)) ∧
      ∀ A A', ρ (.nt A) (.nt A') →
        g'.vocabulary.getNonterminalNameById A' = (g.vocabulary.getNonterminalNameById A).map id := by
  have htok := (C85_tokens h h0 hf hf' hb hb').2
  have hsym : ∀ n A, g.vocabulary.getNonterminalIdByName n = some A → IsSymbol D (.ref n) :=
    fun n A => named_symbol h0 hf hb h.nodes h.read
  have hsym' : ∀ n A, g'.vocabulary.getNonterminalIdByName n = some A → IsSymbol D' (.ref n) :=
    fun n A => named_symbol h0 hf' hb' h.nodes' h.read'
  have hfirst : ∀ n alts E, D = (n, alts) :: E → g.vocabulary.getNonterminalIdByName n = some 0 := by
    rintro n alts E rfl
    exact C77_first_rule h0 hf hb h.nodes h.read
  have hfirst' : ∀ n alts E, D' = (n, alts) :: E → g'.vocabulary.getNonterminalIdByName n = some 0 := by
    rintro n alts E rfl
    exact C77_first_rule h0 hf' hb' h.nodes' h.read'
  obtain ⟨s2, s3, hst, rfl, rfl⟩ := buildGrammar_ok hb
  obtain ⟨s2', s3', hst', rfl, rfl⟩ := buildGrammar_ok hb'
  have hc := noClash_of_apart h0 hf hst h.read hs
  have hc' := noClash_of_apart h0 hf' hst' h.read' hs'
  have B : Into id D D' s2 s2' s3 s3' := ⟨desugared h0 hf hst hc h.read, desugared h0 hf' hst' hc' h.read', hc, hc',
    Function.injective_id, by rw [renameRules_id]; exact h.sub, htok⟩
  have hn : ∀ n A A', s3.grammar.vocabulary.getNonterminalIdByName n = some A →
      s3'.grammar.vocabulary.getNonterminalIdByName n = some A' → SameSymbol id D D' s3 s3' (.nt A) (.nt A') := by
    intro n A A' h1 h2
    exact .inl ⟨.ref n, hsym n A h1, hsym' _ A' h2, by rw [look, h1]; rfl, by rw [rename_id, look, h2]; rfl⟩
  refine ⟨_, B.hom, hn, ?_, fun A A' hA => B.names (vinv_build h0 hf hst) (vinv_build h0 hf' hst') hA⟩
  intro hne
  have hfst := h.first
  cases D with
  | nil => exact absurd rfl hne
  | cons r D =>
    cases D' with
    | nil => cases hfst
    | cons r' D' =>
      simp only [List.head?_cons, Option.map_some, Option.some.injEq] at hfst
      refine hn r.1 0 0 (hfirst r.1 r.2 D rfl) ?_
      rw [hfst]
      exact hfirst' r'.1 r'.2 D' rfl

/-- **C85**, what holds: every word of a rule is a word of the same rule in the longer file.  Missing (false): files in
which a token and something else with the same number have the same suffix, `C85_word_lost`. -/
theorem C85_language_partial {D D' : Rules} (h : Extends lc ast ast' D D') {g g' : Grammar} (hs : SuffixesApart D g.vocabulary)
    (hs' : SuffixesApart D' g'.vocabulary) (h0 : 2 ≤ n0)
    (hf : sizeOf ast.toAst ≤ fuel) (hf' : sizeOf ast'.toAst ≤ fuel') {data data' : List LexerRuleData}
    (hb : buildGrammar lc fuel ast (Grammar.new name) n0 0 = .ok (g, data))
    (hb' : buildGrammar lc fuel' ast' (Grammar.new name') n0 0 = .ok (g', data')) (n : Str) (A A' : Nat)
    (hA : g.vocabulary.getNonterminalIdByName n = some A) (hA' : g'.vocabulary.getNonterminalIdByName n = some A')
    (w : List Nat) (hw : Sentence g.productions A w) : Sentence g'.productions A' w := by
  obtain ⟨ρ, hi, hn, _⟩ := h.hom hs hs' h0 hf hf' hb hb'
  exact hi.sentence (hn n A A' hA hA') hw

/-- **C85**, what holds: if the shorter file has a conflict, for any hash order, so has the longer, for every hash order.
Missing (false): as for `C85_language_partial`. -/
theorem C85_conflicts_partial {D D' : Rules} (h : Extends lc ast ast' D D') {g g' : Grammar} (hs : SuffixesApart D g.vocabulary)
    (hs' : SuffixesApart D' g'.vocabulary) (h0 : 2 ≤ n0)
    (hD : D ≠ []) (hf : sizeOf ast.toAst ≤ fuel) (hf' : sizeOf ast'.toAst ≤ fuel')
    {data data' : List LexerRuleData} (hb : buildGrammar lc fuel ast (Grammar.new name) n0 0 = .ok (g, data))
    (hb' : buildGrammar lc fuel' ast' (Grammar.new name') n0 0 = .ok (g', data')) {o : IterOrder g} {o' : IterOrder g'}
    {so so' : SetOrder} {k k' : Nat} {ts ts' : TableState} (ht : runTable g o so k = .ok ts)
    (ht' : runTable g' o' so' k' = .ok ts') (hc : ts.conflicts ≠ []) : ts'.conflicts ≠ [] := by
  obtain ⟨ρ, hi, _, hz, _⟩ := h.hom hs hs' h0 hf hf' hb hb'
  intro hc'
  rw [C16_conflict_iff_not_ll1 g' o' so' k' ts' ht'] at hc'
  exact hc ((C16_conflict_iff_not_ll1 g o so k ts ht).2 (hi.ll1 (hz hD) hc'))

/-- **C85**, what holds: if the longer file has no conflicts, whatever the shorter file parses, with or without messages,
the longer parses to the same tree up to the numbers of the rules, with the same messages.  Missing (false): as for
`C85_language_partial`. -/
theorem C85_parse_partial {D D' : Rules} (h : Extends lc ast ast' D D') {g g' : Grammar} (hs : SuffixesApart D g.vocabulary)
    (hs' : SuffixesApart D' g'.vocabulary) (h0 : 2 ≤ n0)
    (hD : D ≠ []) (hf : sizeOf ast.toAst ≤ fuel) (hf' : sizeOf ast'.toAst ≤ fuel')
    {data data' : List LexerRuleData} (hb : buildGrammar lc fuel ast (Grammar.new name) n0 0 = .ok (g, data))
    (hb' : buildGrammar lc fuel' ast' (Grammar.new name') n0 0 = .ok (g', data')) {o : IterOrder g} {o' : IterOrder g'}
    {so so' : SetOrder} {k k' : Nat} {ts ts' : TableState} (ht : runTable g o so k = .ok ts)
    (ht' : runTable g' o' so' k' = .ok ts') (hc : ts'.conflicts = []) (toks : List Token) (n : Str) (A A' : Nat)
    (hA : g.vocabulary.getNonterminalIdByName n = some A) (hA' : g'.vocabulary.getNonterminalIdByName n = some A')
    {i : Nat} {r : RuleContext} {log : MismatchLog} (hp : (parserOf g ts toks).parseRule A i = .ok (r, log)) :
    ∃ r', r'.toAst.relabel id = r.toAst.relabel id ∧
      ∃ m, ∀ j, m ≤ j → (parserOf g' ts' toks).parseRule A' j = .ok (r', log) := by
  obtain ⟨ρ, hi, hn, hz, hnm⟩ := h.hom hs hs' h0 hf hf' hb hb'
  have hρ := hn n A A' hA hA'
  have hps : SubPs id ρ (parserOf g ts toks) (parserOf g' ts' toks) :=
    ⟨rfl, fun A A' t p hA he => hi.entry (hz hD) (tableSound_of ht) (tableComplete_of ht' hc) hA he, hnm⟩
  obtain ⟨c, hp⟩ := Parser.parseRule_ok.1 hp
  obtain ⟨h1, h2, tok, p, f, htok, hp, hrun⟩ := parseAst_run hp
  obtain ⟨q, hq, hpq⟩ := hps.some _ _ _ _ hρ hp
  obtain ⟨f', ks', hrun', hks⟩ := hi.run hps hpq hrun
  obtain ⟨m', hm'⟩ := run_parseAst (ps := parserOf g' ts' toks) htok hq hrun'
  refine ⟨_, ?_, m', fun j hj => Parser.parseRule_ok.2 ⟨_, hm' j hj⟩⟩
  have hname := hnm A A' hρ
  simp only [Vocabulary.getNonterminalNameById, Option.map_id, id] at hname
  simp only [RuleContext.toAst, Ast.relabel, h2, parserOf, Vocabulary.getNonterminalNameWithDefault, hname]
  rw [hks]
  cases hg : g.vocabulary.ntIdToName.get A with
  | none =>
    obtain ⟨s2, s3, hst, rfl, rfl⟩ := buildGrammar_ok hb
    have := (vinv_build h0 hf hst n A).1 hA
    rw [hg] at this
    cases this
  | some m => rfl

end

/-! ## the side condition is needed -/

namespace ExTree

/-- `r : A* u* ; u : B ; s : A ; A : /a/ ; B : /b/ ;`, the file `clash` with two rules exchanged -/
def clash2 : RuleContext := ⟨[], [
  rule "r" [alt [el (tk 6 "A") star, el (tk 7 "u") star]],
  rule "u" [alt [el (tk 6 "B") []]],
  rule "s" [alt [el (tk 6 "A") []]],
  lex "A" "/a/", lex "B" "/b/"], 0⟩

/-- the rules of the tree -/
def clash2Rules : Rules :=
  [("r".toList, [[.rep .star (.tok "A".toList), .rep .star (.ref "u".toList)]]),
   ("u".toList, [[.tok "B".toList]]), ("s".toList, [[.tok "A".toList]])]

theorem clash2_builds : (loadAst 5000 clash2).map (fun r => (r.1.productions,
      r.1.vocabulary.getNonterminalIdByName "r".toList)) =
    .ok ([⟨3, []⟩, ⟨3, [.t 2, .nt 3]⟩, ⟨4, []⟩, ⟨4, [.nt 1, .nt 4]⟩, ⟨0, [.nt 3, .nt 4]⟩, ⟨1, [.t 3]⟩, ⟨2, [.t 2]⟩],
      some 0) := by
  decide +kernel

theorem nodes_ok {r : RuleContext} (h : (r.children.all fun k => k.isRule 1 || k.isRule 7) = true) :
    ∀ k ∈ r.children, k.isRule 1 = true ∨ k.isRule 7 = true := by
  intro k hk
  have := List.all_eq_true.1 h k hk
  simpa using this

theorem clash_reordered : Reordered .old id clash clash2 clashRules clash2Rules where
  inj := Function.injective_id
  nodes := nodes_ok (by decide +kernel)
  nodes' := nodes_ok (by decide +kernel)
  lexer := by rfl
  read := clash_rules
  read' := by rfl
  same w := by
    rw [renameRules_id]
    simp only [clashRules, clash2Rules, writtenAlternatives, List.flatMap_cons, List.flatMap_nil, List.map_cons,
      List.map_nil, List.mem_append, List.not_mem_nil, or_false]
    tauto
  first := by rfl

/-- `a : B a ; b : C B* ; a : b ;` with lexer rules `B`, `C` -/
def split : RuleContext := ⟨[], [
  rule "a" [alt [el (tk 6 "B") [], el (tk 7 "a") []]],
  lex "B" "/b/",
  rule "b" [alt [el (tk 6 "C") [], el (tk 6 "B") star]],
  lex "C" "/c/",
  rule "a" [alt [el (tk 7 "b") []]]], 0⟩

/-- `xa : xb | B xa ; B : /b/ ; C : /c/ ; xb : C B* ;` -/
def joined : RuleContext := ⟨[], [
  rule "xa" [alt [el (tk 7 "xb") []], alt [el (tk 6 "B") [], el (tk 7 "xa") []]],
  lex "B" "/b/", lex "C" "/c/",
  rule "xb" [alt [el (tk 6 "C") [], el (tk 6 "B") star]]], 0⟩

/-- the rules of `split` -/
def splitRules : Rules := [("a".toList, [[.tok "B".toList, .ref "a".toList]]),
  ("b".toList, [[.tok "C".toList, .rep .star (.tok "B".toList)]]), ("a".toList, [[.ref "b".toList]])]

/-- the rules of `joined` -/
def joinedRules : Rules := [('x' :: "a".toList, [[.ref ('x' :: "b".toList)], [.tok "B".toList, .ref ('x' :: "a".toList)]]),
  ('x' :: "b".toList, [[.tok "C".toList, .rep .star (.tok "B".toList)]])]

theorem split_reordered : Reordered .old (List.cons 'x') split joined splitRules joinedRules where
  inj := List.cons_injective
  nodes := nodes_ok (by decide +kernel)
  nodes' := nodes_ok (by decide +kernel)
  lexer := by rfl
  read := by rfl
  read' := by rfl
  same w := by
    simp only [splitRules, joinedRules, renameRules, renameAlts, renameSeq, Elem.rename, writtenAlternatives, List.flatMap_cons, List.flatMap_nil, List.map_cons,
      List.map_nil, List.mem_append, List.not_mem_nil, or_false, List.mem_cons]
    tauto
  first := by rfl

theorem split_separate : SuffixesSeparate splitRules := by
  rintro f ⟨_, x, hx, hx'⟩
  simp only [splitRules, List.mem_cons, List.not_mem_nil, or_false] at hx
  rcases hx with rfl | rfl | rfl <;> simp [altsSuffixes, seqSuffixes, Elem.suffixes, Elem.isTok] at hx'

/-- `r : A* u* ; u : B ; A : /a/ ; B : /b/ ;`, the file `clash` without rule `s` -/
def short : RuleContext := ⟨[], [
  rule "r" [alt [el (tk 6 "A") star, el (tk 7 "u") star]],
  rule "u" [alt [el (tk 6 "B") []]],
  lex "A" "/a/", lex "B" "/b/"], 0⟩

/-- the rules of the tree -/
def shortRules : Rules :=
  [("r".toList, [[.rep .star (.tok "A".toList), .rep .star (.ref "u".toList)]]), ("u".toList, [[.tok "B".toList]])]

theorem short_builds : (loadAst 5000 short).map (fun r => (r.1.productions,
      r.1.vocabulary.getNonterminalIdByName "r".toList)) =
    .ok ([⟨2, []⟩, ⟨2, [.t 2, .nt 2]⟩, ⟨3, []⟩, ⟨3, [.nt 1, .nt 3]⟩, ⟨0, [.nt 2, .nt 3]⟩, ⟨1, [.t 3]⟩], some 0) := by
  decide +kernel

theorem short_extends : Extends .old short clash shortRules clashRules where
  nodes := nodes_ok (by decide +kernel)
  nodes' := nodes_ok (by decide +kernel)
  lexer := ⟨[], by rfl⟩
  read := by rfl
  read' := clash_rules
  sub w := by
    simp only [clashRules, shortRules, writtenAlternatives, List.flatMap_cons, List.flatMap_nil, List.map_cons,
      List.map_nil, List.mem_append, List.not_mem_nil, or_false]
    tauto
  first := by rfl

/-- `a : B a ; b : C B* ; a : b | C D ; D : /d/ ;`, an extension of `split` with a conflict -/
def longer : RuleContext := ⟨[], [
  rule "a" [alt [el (tk 6 "B") [], el (tk 7 "a") []]],
  lex "B" "/b/",
  rule "b" [alt [el (tk 6 "C") [], el (tk 6 "B") star]],
  lex "C" "/c/", lex "D" "/d/",
  rule "a" [alt [el (tk 7 "b") []], alt [el (tk 6 "C") [], el (tk 6 "D") []]]], 0⟩

/-- the rules of `longer` -/
def longerRules : Rules := [("a".toList, [[.tok "B".toList, .ref "a".toList]]),
  ("b".toList, [[.tok "C".toList, .rep .star (.tok "B".toList)]]),
  ("a".toList, [[.ref "b".toList], [.tok "C".toList, .tok "D".toList]])]

theorem longer_extends : Extends .old split longer splitRules longerRules where
  nodes := nodes_ok (by decide +kernel)
  nodes' := nodes_ok (by decide +kernel)
  lexer := ⟨[lex "D" "/d/"], by rfl⟩
  read := by rfl
  read' := by rfl
  sub w := by
    simp only [splitRules, longerRules, writtenAlternatives, List.flatMap_cons, List.flatMap_nil, List.map_cons,
      List.map_nil, List.mem_append, List.not_mem_nil, or_false, List.mem_cons]
    tauto
  first := by rfl

theorem longer_separate : SuffixesSeparate longerRules := by
  rintro f ⟨_, x, hx, hx'⟩
  simp only [longerRules, List.mem_cons, List.not_mem_nil, or_false] at hx
  rcases hx with rfl | rfl | rfl <;> simp [altsSuffixes, seqSuffixes, Elem.suffixes, Elem.isTok] at hx'

/-- an iteration order: increasing numbers, productions in the order of insertion -/
def plainOrder (g : Grammar) (h : g.productions.Nodup) : IterOrder g where
  ids := (List.range (g.vocabulary.nonterminals.sup id + 1)).filter (· ∈ g.vocabulary.nonterminals)
  ids_mem t := by
    simp only [List.mem_filter, List.mem_range, decide_eq_true_eq, and_iff_right_iff_imp]
    intro h
    have : id t ≤ g.vocabulary.nonterminals.sup id := Finset.le_sup h
    simp only [id] at this
    omega
  ord := g.productions
  ord_perm := .refl _
  ord_nodup := h

/-- the conflicts of a file -/
def conflictsOf (r : RuleContext) : Res (List (Production × Production)) := do
  let (g, _) ← loadAst 5000 r
  if h : g.productions.Nodup then (runTable g (plainOrder g h) incSetOrder 50).map (·.conflicts) else .error .panic

end ExTree

/-- **C84** is false without the side condition: exchanging the second and third rule of
`r : A* u* ; s : A ; u : B ;` adds a word to the language of `r`. -/
theorem C84_order_matters :
    ∃ (ast ast' : RuleContext) (D D' : Rules) (fuel : Nat) (g g' : Grammar) (data data' : List LexerRuleData) (n : Str)
      (A A' : Nat) (w : List Nat), Reordered .old id ast ast' D D' ∧ sizeOf ast.toAst ≤ fuel ∧ sizeOf ast'.toAst ≤ fuel ∧
      loadAst fuel ast = .ok (g, data) ∧ loadAst fuel ast' = .ok (g', data') ∧
      g.vocabulary.getNonterminalIdByName n = some A ∧ g'.vocabulary.getNonterminalIdByName n = some A' ∧
      ¬ Sentence g.productions A w ∧ Sentence g'.productions A' w := by
  have h := ExTree.clash_builds
  have h2 := ExTree.clash2_builds
  cases hb : loadAst 5000 ExTree.clash with
  | error e => rw [hb] at h; cases h
  | ok r =>
    cases hb2 : loadAst 5000 ExTree.clash2 with
    | error e => rw [hb2] at h2; cases h2
    | ok r2 =>
      obtain ⟨g, data⟩ := r
      obtain ⟨g2, data2⟩ := r2
      rw [hb] at h
      rw [hb2] at h2
      have h' := Except.ok.inj h
      have h2' := Except.ok.inj h2
      simp only [Prod.mk.injEq] at h' h2'
      refine ⟨ExTree.clash, ExTree.clash2, ExTree.clashRules, ExTree.clash2Rules, 5000, g, g2, data, data2,
        "r".toList, 0, 0, [3], ExTree.clash_reordered, by decide +kernel, by decide +kernel, hb, hb2, h'.2.1, h2'.2, ?_, ?_⟩
      · intro hs
        rw [h'.1] at hs
        have := derives_within (ok := fun x => x = .t 2 ∨ x = .nt 0 ∨ x = .nt 3) (by decide) hs (by decide)
          (.t 3) (by decide)
        revert this
        decide
      · rw [h2'.1]
        have s1 := Step.mk (P := [⟨3, []⟩, ⟨3, [.t 2, .nt 3]⟩, ⟨4, []⟩, ⟨4, [.nt 1, .nt 4]⟩, ⟨0, [.nt 3, .nt 4]⟩,
          ⟨1, [.t 3]⟩, ⟨2, [.t 2]⟩]) ⟨0, [.nt 3, .nt 4]⟩ (by simp) [] []
        have s2 := Step.mk (P := [⟨3, []⟩, ⟨3, [.t 2, .nt 3]⟩, ⟨4, []⟩, ⟨4, [.nt 1, .nt 4]⟩, ⟨0, [.nt 3, .nt 4]⟩,
          ⟨1, [.t 3]⟩, ⟨2, [.t 2]⟩]) ⟨3, []⟩ (by simp) [] [.nt 4]
        have s3 := Step.mk (P := [⟨3, []⟩, ⟨3, [.t 2, .nt 3]⟩, ⟨4, []⟩, ⟨4, [.nt 1, .nt 4]⟩, ⟨0, [.nt 3, .nt 4]⟩,
          ⟨1, [.t 3]⟩, ⟨2, [.t 2]⟩]) ⟨4, [.nt 1, .nt 4]⟩ (by simp) [] []
        have s4 := Step.mk (P := [⟨3, []⟩, ⟨3, [.t 2, .nt 3]⟩, ⟨4, []⟩, ⟨4, [.nt 1, .nt 4]⟩, ⟨0, [.nt 3, .nt 4]⟩,
          ⟨1, [.t 3]⟩, ⟨2, [.t 2]⟩]) ⟨1, [.t 3]⟩ (by simp) [] [.nt 4]
        have s5 := Step.mk (P := [⟨3, []⟩, ⟨3, [.t 2, .nt 3]⟩, ⟨4, []⟩, ⟨4, [.nt 1, .nt 4]⟩, ⟨0, [.nt 3, .nt 4]⟩,
          ⟨1, [.t 3]⟩, ⟨2, [.t 2]⟩]) ⟨4, []⟩ (by simp) [.t 3] []
        exact ((((Relation.ReflTransGen.single s1).tail s2).tail s3).tail s4).tail s5

/-- non-vacuity: `a : B a ; b : C B* ; a : b ;` and `xa : xb | B xa ; xb : C B* ;`, with the lexer rules between the
parser rules, meet all hypotheses; the tables have no conflicts -/
example : Reordered .old (List.cons 'x') ExTree.split ExTree.joined ExTree.splitRules ExTree.joinedRules ∧
    SuffixesSeparate ExTree.splitRules ∧ sizeOf ExTree.split.toAst ≤ 5000 ∧ sizeOf ExTree.joined.toAst ≤ 5000 ∧
    ExTree.conflictsOf ExTree.split = .ok [] ∧ ExTree.conflictsOf ExTree.joined = .ok [] :=
  ⟨ExTree.split_reordered, ExTree.split_separate, by decide +kernel, by decide +kernel, by decide +kernel,
    by decide +kernel⟩

/-- **C85** is false without the side condition: adding `s : A ;` in front of the last rule of `r : A* u* ; u : B ;`
removes a word from the language of `r`. -/
theorem C85_word_lost :
    ∃ (ast ast' : RuleContext) (D D' : Rules) (fuel : Nat) (g g' : Grammar) (data data' : List LexerRuleData) (n : Str)
      (A A' : Nat) (w : List Nat), Extends .old ast ast' D D' ∧ sizeOf ast.toAst ≤ fuel ∧ sizeOf ast'.toAst ≤ fuel ∧
      loadAst fuel ast = .ok (g, data) ∧ loadAst fuel ast' = .ok (g', data') ∧
      g.vocabulary.getNonterminalIdByName n = some A ∧ g'.vocabulary.getNonterminalIdByName n = some A' ∧
      Sentence g.productions A w ∧ ¬ Sentence g'.productions A' w := by
  have h := ExTree.clash_builds
  have h2 := ExTree.short_builds
  cases hb : loadAst 5000 ExTree.clash with
  | error e => rw [hb] at h; cases h
  | ok r =>
    cases hb2 : loadAst 5000 ExTree.short with
    | error e => rw [hb2] at h2; cases h2
    | ok r2 =>
      obtain ⟨g, data⟩ := r
      obtain ⟨g2, data2⟩ := r2
      rw [hb] at h
      rw [hb2] at h2
      have h' := Except.ok.inj h
      have h2' := Except.ok.inj h2
      simp only [Prod.mk.injEq] at h' h2'
      refine ⟨ExTree.short, ExTree.clash, ExTree.shortRules, ExTree.clashRules, 5000, g2, g, data2, data,
        "r".toList, 0, 0, [3], ExTree.short_extends, by decide +kernel, by decide +kernel, hb2, hb, h2'.2, h'.2.1, ?_, ?_⟩
      · rw [h2'.1]
        have step : ∀ p, p ∈ ([⟨2, []⟩, ⟨2, [.t 2, .nt 2]⟩, ⟨3, []⟩, ⟨3, [.nt 1, .nt 3]⟩, ⟨0, [.nt 2, .nt 3]⟩,
          ⟨1, [.t 3]⟩] : List Production) → ∀ u v, Step ([⟨2, []⟩, ⟨2, [.t 2, .nt 2]⟩, ⟨3, []⟩, ⟨3, [.nt 1, .nt 3]⟩,
            ⟨0, [.nt 2, .nt 3]⟩, ⟨1, [.t 3]⟩] : List Production) (u ++ .nt p.left :: v) (u ++ (p.right ++ v)) :=
          fun p hp u v => .mk p hp u v
        exact ((((Relation.ReflTransGen.single (step ⟨0, [.nt 2, .nt 3]⟩ (by simp) [] [])).tail
          (step ⟨2, []⟩ (by simp) [] [.nt 3])).tail (step ⟨3, [.nt 1, .nt 3]⟩ (by simp) [] [])).tail
          (step ⟨1, [.t 3]⟩ (by simp) [] [.nt 3])).tail (step ⟨3, []⟩ (by simp) [.t 3] [])
      · intro hs
        rw [h'.1] at hs
        have := derives_within (ok := fun x => x = .t 2 ∨ x = .nt 0 ∨ x = .nt 3) (by decide) hs (by decide)
          (.t 3) (by decide)
        revert this
        decide

/-- non-vacuity: a file and an extension by a lexer rule and an alternative that clashes with another -/
example : Extends .old ExTree.split ExTree.longer ExTree.splitRules ExTree.longerRules ∧
    SuffixesSeparate ExTree.longerRules ∧ sizeOf ExTree.split.toAst ≤ 5000 ∧ sizeOf ExTree.longer.toAst ≤ 5000 ∧
    ExTree.conflictsOf ExTree.split = .ok [] ∧ (ExTree.conflictsOf ExTree.longer).map List.length = .ok 1 :=
  ⟨ExTree.longer_extends, ExTree.longer_separate, by decide +kernel, by decide +kernel, by decide +kernel,
    by decide +kernel⟩

end Syntaxis
