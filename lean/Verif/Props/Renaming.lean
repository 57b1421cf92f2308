import Verif.Spec.Renaming
import Verif.Lemmas.SymPass
import Verif.Props.Parser
import Verif.Props.Ast
import Verif.Props.Toolchain

/-!
# C107: the names of rules and tokens carry no meaning
-/

namespace Syntaxis
open Grammar

/-! ### two runs side by side -/

theorem Alike.bind {α β γ δ : Type _} {R : α → β → Prop} {S : γ → δ → Prop} {x : Res α} {y : Res β} {k : α → Res γ}
    {k' : β → Res δ} (h : Alike R x y) (hk : ∀ a b, R a b → Alike S (k a) (k' b)) : Alike S (x >>= k) (y >>= k') := by
  cases h with
  | ok h => exact hk _ _ h
  | error e => exact .error e

theorem Alike.unwrap {α β : Type _} (g : α → β) (o : Option α) :
    Alike (fun a b => b = g a) (unwrap o) (unwrap (o.map g)) := by
  cases o with
  | none => exact .error _
  | some a => exact .ok rfl

theorem Alike.refl {α : Type _} (x : Res α) : Alike Eq x x := by
  cases x with
  | ok a => exact .ok rfl
  | error e => exact .error e

/-! ### the accessors -/

theorem mapTokensList_eq (h : Token → Token) (ks : List Ast) : Ast.mapTokensList h ks = ks.map (Ast.mapTokens h) := by
  induction ks with
  | nil => rfl
  | cons k ks ih => rw [Ast.mapTokensList, ih, List.map_cons]

variable {h : Token → Token} (ht : ∀ t, (h t).tokenType = t.tokenType)

include ht in
theorem getTerminal_mapTokens (r : RuleContext) (a : Nat) : (r.mapTokens h).getTerminal a 0 = (r.getTerminal a 0).map h := by
  have e : (r.mapTokens h).getTerminals a = (r.getTerminals a).map h := by
    simp only [RuleContext.getTerminals, RuleContext.mapTokens, terminalsLoop_eq, List.nil_append]
    induction r.children with
    | nil => rfl
    | cons k ks ih =>
      cases k with
      | terminal t =>
        by_cases hc : t.tokenType = a
        · simp [Ast.mapTokensList, Ast.mapTokens, Ast.asTerminal, ht, hc, ih]
        · simp [Ast.mapTokensList, Ast.mapTokens, Ast.asTerminal, ht, hc, ih]
      | error t => simp [Ast.mapTokensList, Ast.mapTokens, Ast.asTerminal, List.filterMap_cons, ih]
      | rule n i ks => simp [Ast.mapTokensList, Ast.mapTokens, Ast.asTerminal, List.filterMap_cons, ih]
  simp only [RuleContext.getTerminal, e, List.length_map]
  split <;> simp

theorem getRuleContexts_mapTokens (r : RuleContext) (a : Nat) :
    (r.mapTokens h).getRuleContexts a = (r.getRuleContexts a).map (RuleContext.mapTokens h) := by
  simp only [RuleContext.getRuleContexts, RuleContext.mapTokens, ruleContextsLoop_eq, List.nil_append]
  induction r.children with
  | nil => rfl
  | cons k ks ih =>
    cases k with
    | terminal t => simp [Ast.mapTokensList, Ast.mapTokens, Ast.asRule, List.filterMap_cons, ih]
    | error t => simp [Ast.mapTokensList, Ast.mapTokens, Ast.asRule, List.filterMap_cons, ih]
    | rule n i kids =>
      by_cases hc : i = a
      · simp [Ast.mapTokensList, Ast.mapTokens, Ast.asRule, hc, ih, RuleContext.mapTokens]
      · simp [Ast.mapTokensList, Ast.mapTokens, Ast.asRule, hc, ih]

theorem getRuleContext_mapTokens (r : RuleContext) (a : Nat) :
    (r.mapTokens h).getRuleContext a 0 = (r.getRuleContext a 0).map (RuleContext.mapTokens h) := by
  simp only [RuleContext.getRuleContext, getRuleContexts_mapTokens, List.length_map]
  split <;> simp

mutual
theorem frontier_mapTokens {p : RuleContext → Bool} (hp : ∀ r, p (r.mapTokens h) = p r) : ∀ a : Ast,
    (a.mapTokens h).frontier p = (a.frontier p).map (Ast.mapTokens h)
  | .terminal t => rfl
  | .error t => rfl
  | .rule n i ks => by
    have := hp ⟨n, ks, i⟩
    simp only [RuleContext.mapTokens] at this
    rw [Ast.mapTokens, Ast.frontier, Ast.frontier, this, frontierList_mapTokens hp ks]
    split
    · simp [Ast.mapTokens]
    · rfl
theorem frontierList_mapTokens {p : RuleContext → Bool} (hp : ∀ r, p (r.mapTokens h) = p r) : ∀ ks : List Ast,
    Ast.frontierList p (Ast.mapTokensList h ks) = (Ast.frontierList p ks).map (Ast.mapTokens h)
  | [] => rfl
  | k :: ks => by
    rw [Ast.mapTokensList, Ast.frontierList, Ast.frontierList, frontier_mapTokens hp k, frontierList_mapTokens hp ks,
      List.map_append]
end

theorem foldlM_alike {σ τ : Type _} {R : σ → τ → Prop} {k : σ → Ast → Res σ} {k' : τ → Ast → Res τ}
    (hk : ∀ s s' a, R s s' → Alike R (k s a) (k' s' (a.mapTokens h))) : ∀ (l : List Ast) (s : σ) (s' : τ), R s s' →
    Alike R (l.foldlM k s) ((l.map (Ast.mapTokens h)).foldlM k' s')
  | [], _, _, hs => .ok hs
  | a :: l, s, s', hs => by
    rw [List.map_cons, List.foldlM_cons, List.foldlM_cons]
    exact (hk s s' a hs).bind fun x y hxy => foldlM_alike hk l x y hxy

/-! ### the vocabulary -/

variable {f : Str → Str} (hf : Function.Injective f)

namespace Vocabulary.Renamed
variable {v v' : Vocabulary} (hv : Vocabulary.Renamed f v v')

include hv in
theorem tokenDefined (n : Str) : v'.isTerminalNameDefined (f n) = v.isTerminalNameDefined n := by
  have := hv.tokenId n
  unfold getTerminalIdByName at this
  rw [isTerminalNameDefined, isTerminalNameDefined, HMap.containsKey, HMap.containsKey, this]

include hv in
theorem ruleDefined (n : Str) : v'.isNonterminalNameDefined (f n) = v.isNonterminalNameDefined n := by
  have := hv.ruleId n
  unfold getNonterminalIdByName at this
  rw [isNonterminalNameDefined, isNonterminalNameDefined, HMap.containsKey, HMap.containsKey, this]

include hv hf in
theorem addTerminal (i : Nat) (n : Str) : Vocabulary.Renamed f (v.addTerminal i n).1 (v'.addTerminal i (f n)).1 := by
  have h1 := hv.tokenDefined n
  unfold isTerminalNameDefined at h1
  unfold Vocabulary.addTerminal
  rw [h1, hv.tokens]
  split
  · exact hv
  · split
    · exact hv
    · refine ⟨hv.rules, by simp [hv.tokens], hv.ruleName, fun j => ?_, hv.ruleId, fun m => ?_⟩
      · have := hv.tokenName j
        simp only [getTerminalNameById, HMap.get_insert] at this ⊢
        split
        · rfl
        · exact this
      · have := hv.tokenId m
        simp only [getTerminalIdByName, HMap.get_insert, hf.eq_iff] at this ⊢
        split
        · rfl
        · exact this

include hv hf in
theorem addNamedNonterminal (i : Nat) (n : Str) :
    Vocabulary.Renamed f (v.addNamedNonterminal i n).1 (v'.addNamedNonterminal i (f n)).1 := by
  have h1 := hv.ruleDefined n
  unfold isNonterminalNameDefined at h1
  unfold Vocabulary.addNamedNonterminal
  rw [h1, hv.rules]
  split
  · exact hv
  · refine ⟨by simp [hv.rules], hv.tokens, fun j => ?_, hv.tokenName, fun m => ?_, hv.tokenId⟩
    · have := hv.ruleName j
      simp only [getNonterminalNameById, HMap.get_insert] at this ⊢
      split
      · rfl
      · exact this
    · have := hv.ruleId m
      simp only [getNonterminalIdByName, HMap.get_insert, hf.eq_iff] at this ⊢
      split
      · rfl
      · exact this

include hv in
theorem addUnnamedNonterminal (i : Nat) :
    Vocabulary.Renamed f (v.addUnnamedNonterminal i).1 (v'.addUnnamedNonterminal i).1 := by
  have h1 := hv.ruleName i
  unfold getNonterminalNameById at h1
  unfold Vocabulary.addUnnamedNonterminal
  rw [HMap.containsKey, HMap.containsKey, h1, Option.isSome_map, hv.rules]
  split
  · exact hv
  · exact ⟨by simp [hv.rules], hv.tokens, hv.ruleName, hv.tokenName, hv.ruleId, hv.tokenId⟩

end Vocabulary.Renamed

theorem renamed_new (hf : Function.Injective f) (h0 : f Vocabulary.startName = Vocabulary.startName)
    (h1 : f Vocabulary.stopName = Vocabulary.stopName) : Vocabulary.Renamed f Vocabulary.new Vocabulary.new := by
  have hb : Vocabulary.Renamed f Vocabulary.blank Vocabulary.blank :=
    ⟨rfl, rfl, fun _ => rfl, fun _ => rfl, fun _ => rfl, fun _ => rfl⟩
  have := (hb.addTerminal hf 0 Vocabulary.startName).addTerminal hf 1 Vocabulary.stopName
  rw [h0, h1] at this
  exact this

/-! ### the first two passes -/

variable (lc : LexConsts)

theorem renamed_type (t : Token) : (t.renamed lc f).tokenType = t.tokenType := by
  unfold Token.renamed
  split <;> rfl

/-- the first visitor -/
def LitAlike (f : Str → Str) (s s' : LitState) : Prop :=
  s.data = [] ∧ ∃ v', Vocabulary.Renamed f s.grammar.vocabulary v' ∧ s' = { s with grammar := { s.grammar with vocabulary := v' } }

/-- the second visitor -/
structure SymAlike (f : Str → Str) (s s' : SymState) : Prop where
  voc : Vocabulary.Renamed f s.grammar.vocabulary s'.grammar.vocabulary
  grammar : s'.grammar = { s.grammar with vocabulary := s'.grammar.vocabulary }
  data : s'.data = s.data.map (LexerRuleData.renamed f)
  nextToken : s'.nextTokenId = s.nextTokenId
  nextRule : s'.nextRuleId = s.nextRuleId

theorem lit_step {s s' : LitState} (hs : LitAlike f s s') (a : Ast) :
    Alike (LitAlike f) ((litVisitor lc).callOn a s) ((litVisitor lc).callOn (a.mapTokens (Token.renamed lc f)) s') := by
  rw [lit_callOn, lit_callOn]
  cases a with
  | terminal t => exact .ok hs
  | error t => exact .ok hs
  | rule n i ks =>
    by_cases hi : i = 5
    · subst hi
      simp only [Ast.mapTokens, litVisitElement, RuleContext.stringLiteral]
      have := getTerminal_mapTokens (renamed_type (f := f) lc) ⟨n, ks, 5⟩ lc.STRING_LITERAL
      simp only [RuleContext.mapTokens] at this
      rw [this]
      cases RuleContext.getTerminal ⟨n, ks, 5⟩ lc.STRING_LITERAL 0 with
      | none => exact .ok hs
      | some t => exact .error _
    · simp only [Ast.mapTokens]
      split
      · rename_i heq
        cases heq
        exact absurd rfl hi
      · split
        · rename_i heq
          cases heq
          exact absurd rfl hi
        · exact .ok hs

theorem lit_alike {s s' : LitState} (hs : LitAlike f s s') (r : RuleContext) :
    Alike (LitAlike f) (runLit lc r s) (runLit lc (r.mapTokens (Token.renamed lc f)) s') := by
  rw [runLit_eq, runLit_eq, RuleContext.mapTokens, frontierList_mapTokens]
  · exact foldlM_alike (fun s s' a hs => lit_step lc hs a) _ _ _ hs
  · intro r
    rw [lit_overridden, lit_overridden]
    rfl

theorem renamed_text_of {t : Token}
    (h : t.tokenType = lc.RULE_REF ∨ t.tokenType = lc.TOKEN_REF ∨ t.tokenType = lc.STRING_LITERAL) :
    (t.renamed lc f).text = f t.text := by
  rw [Token.renamed, if_pos h]

theorem getTerminal_type {r : RuleContext} {a : Nat} {t : Token} (h : r.getTerminal a 0 = some t) : t.tokenType = a := by
  rw [(C36_indexed r a 0).1] at h
  have := List.mem_of_getElem? h
  rw [List.mem_filterMap] at this
  obtain ⟨k, -, hk⟩ := this
  cases k with
  | terminal t' =>
    simp only [Ast.asTerminal] at hk
    split at hk
    · cases hk
      assumption
    · cases hk
  | error t' => cases hk
  | rule n i ks => cases hk

/-- the text of the first token of a kind, renamed or not -/
theorem text_alike (r : RuleContext) (a : Nat) (u : Str → Str)
    (hu : ∀ t : Token, t.tokenType = a → (t.renamed lc f).text = u t.text) :
    Alike (fun t t' : Token => t'.text = u t.text) (unwrap (r.getTerminal a 0))
      (unwrap ((r.mapTokens (Token.renamed lc f)).getTerminal a 0)) := by
  rw [getTerminal_mapTokens (renamed_type lc)]
  cases h : r.getTerminal a 0 with
  | none => exact .error _
  | some t => exact .ok (hu t (getTerminal_type h))

include hf in
theorem sym_lexerRule {lc : LexConsts} (hl : lc.Apart) {s s' : SymState} (hs : SymAlike f s s') (r : RuleContext) :
    Alike (fun x y => SymAlike f x.2 y.2) (symVisitLexerRule lc r s)
      (symVisitLexerRule lc (r.mapTokens (Token.renamed lc f)) s') := by
  unfold symVisitLexerRule
  refine (text_alike lc r lc.TOKEN_REF f fun t ht => renamed_text_of lc (.inr (.inl ht))).bind fun t t' htt => ?_
  dsimp only
  rw [htt, hs.voc.tokenDefined]
  split
  · exact .ok ⟨hs.voc, hs.grammar, hs.data, hs.nextToken, hs.nextRule⟩
  · refine Alike.bind (R := fun x y => y = x.mapTokens (Token.renamed lc f)) ?_ fun x y hxy => ?_
    · rw [RuleContext.regular, RuleContext.regular, getRuleContext_mapTokens]
      exact Alike.unwrap _ _
    · subst hxy
      refine (text_alike lc x lc.REGULAR_LITERAL id fun t ht => ?_).bind fun u u' huu => ?_
      · rw [Token.renamed, if_neg]
        · rfl
        · rw [ht]
          exact fun h => h.elim hl.1 (fun h => h.elim hl.2.1 hl.2.2)
      · rw [huu]
        refine (Alike.refl (ruleRegex u.text)).bind fun x y hxy => ?_
        subst hxy
        cases x with
        | none => exact .ok ⟨hs.voc, hs.grammar, hs.data, hs.nextToken, hs.nextRule⟩
        | some regex =>
          refine .ok ⟨?_, ?_, ?_, ?_, hs.nextRule⟩
          · dsimp only
            rw [hs.nextToken]
            exact hs.voc.addTerminal hf _ _
          · dsimp only
            rw [hs.grammar]
          · simp [hs.data, hs.nextToken, LexerRuleData.renamed]
          · simp [hs.nextToken]

include hf in
theorem sym_parserRule' {lc : LexConsts} {s s' : SymState} (hs : SymAlike f s s') (r : RuleContext) :
    Alike (fun x y => SymAlike f x.2 y.2) (symVisitParserRule lc r s)
      (symVisitParserRule lc (r.mapTokens (Token.renamed lc f)) s') := by
  unfold symVisitParserRule
  refine (text_alike lc r lc.RULE_REF f fun t ht => renamed_text_of lc (.inl ht)).bind fun t t' htt => ?_
  dsimp only
  rw [htt, hs.voc.tokenDefined]
  split
  · exact .ok ⟨hs.voc, hs.grammar, hs.data, hs.nextToken, hs.nextRule⟩
  · refine .ok ⟨?_, ?_, hs.data, hs.nextToken, ?_⟩
    · dsimp only
      rw [hs.nextRule]
      exact hs.voc.addNamedNonterminal hf _ _
    · dsimp only
      rw [hs.grammar]
    · simp [hs.nextRule]

theorem Alike.map {α β γ δ : Type _} {R : α → β → Prop} {S : γ → δ → Prop} {x : Res α} {y : Res β} {g : α → γ}
    {g' : β → δ} (h : Alike R x y) (hg : ∀ a b, R a b → S (g a) (g' b)) : Alike S (x.map g) (y.map g') := by
  cases h with
  | ok h => exact .ok (hg _ _ h)
  | error e => exact .error e

include hf in
theorem sym_step' {lc : LexConsts} (hl : lc.Apart) {s s' : SymState} (hs : SymAlike f s s') (a : Ast) :
    Alike (SymAlike f) ((symVisitor lc).callOn a s) ((symVisitor lc).callOn (a.mapTokens (Token.renamed lc f)) s') := by
  cases a with
  | terminal t => exact .ok hs
  | error t => exact .ok hs
  | rule n i ks =>
    by_cases h1 : i = 1
    · subst h1
      exact (sym_parserRule' hf hs ⟨n, ks, 1⟩).map fun _ _ h => h
    · by_cases h7 : i = 7
      · subst h7
        exact (sym_lexerRule hf hl hs ⟨n, ks, 7⟩).map fun _ _ h => h
      · have e : ∀ (ks : List Ast) (s : SymState), (symVisitor lc).callOn (.rule n i ks) s = .ok s := by
          intro ks s
          rw [sym_callOn]
          split
          · rename_i heq
            cases heq
            exact absurd rfl h1
          · rename_i heq
            cases heq
            exact absurd rfl h7
          · rfl
        rw [Ast.mapTokens, e, e]
        exact .ok hs

include hf in
theorem sym_alike {lc : LexConsts} (hl : lc.Apart) {s s' : SymState} (hs : SymAlike f s s') (r : RuleContext) :
    Alike (SymAlike f) (runSym lc r s) (runSym lc (r.mapTokens (Token.renamed lc f)) s') := by
  rw [runSym_eq, runSym_eq, RuleContext.mapTokens, frontierList_mapTokens]
  · exact foldlM_alike (fun s s' a hs => sym_step' hf hl hs a) _ _ _ hs
  · intro r
    rw [sym_overridden, sym_overridden]
    rfl

/-! ### the third pass -/

/-- the third visitor -/
def ProdAlike (f : Str → Str) (s s' : ProdState) : Prop :=
  ∃ v', Vocabulary.Renamed f s.grammar.vocabulary v' ∧ s' = { s with grammar := { s.grammar with vocabulary := v' } }

theorem insertProduction_alike (g : Grammar) (v' : Vocabulary) (p : Production) :
    ({ g with vocabulary := v' } : Grammar).insertProduction p =
      ({ (g.insertProduction p).1 with vocabulary := v' }, (g.insertProduction p).2) := by
  unfold Grammar.insertProduction
  dsimp only
  split <;> rfl

theorem ProdAlike.insertProd {s s' : ProdState} (hs : ProdAlike f s s') (p : Production) :
    ProdAlike f (s.insertProd p) (s'.insertProd p) := by
  obtain ⟨v', hv, rfl⟩ := hs
  refine ⟨v', ?_, ?_⟩
  · rw [ProdState.insertProd, insertProduction_vocabulary]
    exact hv
  · rw [ProdState.insertProd, ProdState.insertProd, insertProduction_alike]

theorem ProdAlike.insertOrPrint {s s' : ProdState} (hs : ProdAlike f s s') (p : Production) (line : Str) :
    ProdAlike f (s.insertOrPrint p line) (s'.insertOrPrint p line) := by
  obtain ⟨v', hv, rfl⟩ := hs
  refine ⟨v', ?_, ?_⟩
  · rw [ProdState.insertOrPrint, ProdState.insertProd, insertProduction_vocabulary]
    exact hv
  · rw [ProdState.insertOrPrint, ProdState.insertOrPrint, ProdState.insertProd, ProdState.insertProd, insertProduction_alike]

theorem ProdAlike.addUnnamed {s s' : ProdState} (hs : ProdAlike f s s') (i : Nat) :
    ProdAlike f (s.addUnnamed i) (s'.addUnnamed i) := by
  obtain ⟨v', hv, rfl⟩ := hs
  exact ⟨_, hv.addUnnamedNonterminal i, rfl⟩

theorem ProdAlike.setCache {s s' : ProdState} (hs : ProdAlike f s s') (x : Suffix) (i j : Nat) :
    ProdAlike f (s.setCache x i j) (s'.setCache x i j) := by
  obtain ⟨v', hv, rfl⟩ := hs
  cases x <;> exact ⟨v', hv, rfl⟩

theorem ProdAlike.bump {s s' : ProdState} (hs : ProdAlike f s s') :
    ProdAlike f { s with nextRuleId := s.nextRuleId + 1 } { s' with nextRuleId := s'.nextRuleId + 1 } := by
  obtain ⟨v', hv, rfl⟩ := hs
  exact ⟨v', hv, rfl⟩

theorem applySuffix_alike {s s' : ProdState} (hs : ProdAlike f s s') (x : Suffix) (item : Item) :
    (applySuffix x item s').1 = (applySuffix x item s).1 ∧
      ProdAlike f (applySuffix x item s).2 (applySuffix x item s').2 := by
  obtain ⟨v', hv, rfl⟩ := hs
  have hs1 : ProdAlike f { s with uses := (x, item) :: s.uses }
      { { s with grammar := { s.grammar with vocabulary := v' } } with uses := (x, item) :: s.uses } := ⟨v', hv, rfl⟩
  unfold applySuffix
  dsimp only
  have hc : ∀ (g : Grammar) (u : List (Suffix × Item)), ProdState.cache { s with grammar := g, uses := u } x = s.cache x := by
    intro g u
    cases x <;> rfl
  rw [hc, show ProdState.cache { s with uses := (x, item) :: s.uses } x = s.cache x from hc _ _]
  cases (s.cache x).get item.bare with
  | some i => exact ⟨rfl, hs1⟩
  | none =>
    have := (((hs1.addUnnamed s.nextRuleId).insertProd ⟨s.nextRuleId, (suffixRights x item s.nextRuleId).1⟩).insertProd
      ⟨s.nextRuleId, (suffixRights x item s.nextRuleId).2⟩).setCache x item.bare s.nextRuleId
    exact ⟨rfl, this.bump⟩

/-- results of the third visitor -/
def ResAlike {α : Type} (f : Str → Str) (x y : α × ProdState) : Prop := y.1 = x.1 ∧ ProdAlike f x.2 y.2

theorem finishBlock_alike {s s' : ProdState} (hs : ProdAlike f s s') (rights : List (List Item)) :
    ResAlike f (finishBlock rights s) (finishBlock rights s') := by
  have hc : s'.blockCache = s.blockCache ∧ s'.nextRuleId = s.nextRuleId := by
    obtain ⟨v', hv, rfl⟩ := hs
    exact ⟨rfl, rfl⟩
  unfold finishBlock
  rw [hc.1, hc.2]
  split
  · exact ⟨rfl, hs⟩
  · refine ⟨rfl, ?_⟩
    dsimp only
    have h1 : ProdAlike f { s.addUnnamed s.nextRuleId with blockCache := (s.addUnnamed s.nextRuleId).blockCache.insert rights s.nextRuleId }
        { s'.addUnnamed s.nextRuleId with blockCache := (s'.addUnnamed s.nextRuleId).blockCache.insert rights s.nextRuleId } := by
      obtain ⟨v', hv, e⟩ := hs.addUnnamed s.nextRuleId
      rw [e]
      exact ⟨v', hv, rfl⟩
    have h3 : ∀ (i : Nat) (l : List (List Item)) (a b : ProdState), ProdAlike f a b →
        ProdAlike f (l.foldl (fun s right => s.insertOrPrint ⟨i, right⟩ (chars! "重复产生式")) a)
          (l.foldl (fun s right => s.insertOrPrint ⟨i, right⟩ (chars! "重复产生式")) b) := by
      intro i l
      induction l with
      | nil => exact fun _ _ h => h
      | cons x l ih =>
        intro a b hab
        exact ih _ _ (hab.insertOrPrint _ _)
    exact (h3 s.nextRuleId rights _ _ h1).bump

/-- `visit_element` on the renamed tree -/
def ElemAlike (lc : LexConsts) (f : Str → Str) (e : ElemFn) : Prop :=
  ∀ r s s', ProdAlike f s s' → Alike (ResAlike f) (e r s) (e (r.mapTokens (Token.renamed lc f)) s')

variable {lc}

theorem visitElements_alike {e : ElemFn} (he : ElemAlike lc f e) : ∀ (l : List RuleContext) (s s' : ProdState),
    ProdAlike f s s' → Alike (ResAlike f) (visitElements e l s)
      (visitElements e (l.map (RuleContext.mapTokens (Token.renamed lc f))) s')
  | [], _, _, hs => .ok ⟨rfl, hs⟩
  | r :: l, s, s', hs => by
    rw [List.map_cons, visitElements, visitElements]
    refine (he r s s' hs).bind fun x y hxy => ?_
    refine (visitElements_alike he l x.2 y.2 hxy.2).bind fun u w huw => ?_
    exact .ok ⟨by simp [hxy.1, huw.1], huw.2⟩

theorem visitAlternative_alike {e : ElemFn} (he : ElemAlike lc f e) (r : RuleContext) {s s' : ProdState}
    (hs : ProdAlike f s s') :
    Alike (ResAlike f) (visitAlternative e r s) (visitAlternative e (r.mapTokens (Token.renamed lc f)) s') := by
  unfold visitAlternative
  rw [RuleContext.epsilon, RuleContext.epsilon, getRuleContext_mapTokens]
  cases r.getRuleContext 4 0 with
  | some x => exact .ok ⟨rfl, hs⟩
  | none =>
    rw [RuleContext.elementList, RuleContext.elementList, getRuleContexts_mapTokens]
    exact visitElements_alike he _ _ _ hs

theorem visitAlternatives_alike {e : ElemFn} (he : ElemAlike lc f e) : ∀ (l : List RuleContext) (s s' : ProdState),
    ProdAlike f s s' → Alike (ResAlike f) (visitAlternatives e l s)
      (visitAlternatives e (l.map (RuleContext.mapTokens (Token.renamed lc f))) s')
  | [], _, _, hs => .ok ⟨rfl, hs⟩
  | r :: l, s, s', hs => by
    rw [List.map_cons, visitAlternatives, visitAlternatives]
    refine (visitAlternative_alike he r hs).bind fun x y hxy => ?_
    refine (visitAlternatives_alike he l x.2 y.2 hxy.2).bind fun u w huw => ?_
    exact .ok ⟨by simp [hxy.1, huw.1], huw.2⟩

theorem visitBlock_alike {e : ElemFn} (he : ElemAlike lc f e) (r : RuleContext) {s s' : ProdState}
    (hs : ProdAlike f s s') :
    Alike (ResAlike f) (visitBlock e r s) (visitBlock e (r.mapTokens (Token.renamed lc f)) s') := by
  unfold visitBlock
  rw [RuleContext.alternativeList, RuleContext.alternativeList, getRuleContexts_mapTokens]
  refine (visitAlternatives_alike he _ _ _ hs).bind fun x y hxy => ?_
  obtain ⟨x1, x2⟩ := x
  obtain ⟨y1, y2⟩ := y
  obtain ⟨h1, h2⟩ := hxy
  dsimp only at h1 h2 ⊢
  rw [h1]
  exact .ok (finishBlock_alike h2 x1)

theorem suffixOf_alike (r : RuleContext) : suffixOf lc (r.mapTokens (Token.renamed lc f)) = suffixOf lc r := by
  unfold suffixOf
  rw [RuleContext.ebnfSuffix, RuleContext.ebnfSuffix, getRuleContext_mapTokens]
  cases r.getRuleContext 6 0 with
  | none => rfl
  | some x =>
    simp only [Option.map_some, RuleContext.star, RuleContext.plus, getTerminal_mapTokens (renamed_type lc),
      Option.isSome_map]
    rfl

theorem visitElement_alike (lc : LexConsts) : ∀ n, ElemAlike lc f (visitElement lc n)
  | 0 => fun _ _ _ _ => .error _
  | n + 1 => by
    intro r s s' hs
    have ih := visitElement_alike lc n
    obtain ⟨v', hv, e⟩ := id hs
    rw [visitElement, visitElement]
    have fin : ∀ x y : Item × ProdState, ResAlike f x y → Alike (ResAlike f)
        (match suffixOf lc r with
          | some x' => .ok (applySuffix x' x.1 x.2)
          | none => .ok (x.1, x.2))
        (match suffixOf lc (r.mapTokens (Token.renamed lc f)) with
          | some x' => .ok (applySuffix x' y.1 y.2)
          | none => .ok (y.1, y.2)) := by
      rintro ⟨x1, x2⟩ ⟨y1, y2⟩ ⟨h1, h2⟩
      dsimp only at h1 h2 ⊢
      rw [h1, suffixOf_alike]
      cases suffixOf lc r with
      | none => exact .ok ⟨rfl, h2⟩
      | some x => exact .ok (applySuffix_alike h2 x x1)
    rw [RuleContext.tokenRef, RuleContext.tokenRef, getTerminal_mapTokens (renamed_type lc), RuleContext.stringLiteral,
      RuleContext.stringLiteral, getTerminal_mapTokens (renamed_type lc), RuleContext.ruleRef, RuleContext.ruleRef,
      getTerminal_mapTokens (renamed_type lc), RuleContext.block, RuleContext.block, getRuleContext_mapTokens]
    cases h1 : r.getTerminal lc.TOKEN_REF 0 with
    | some t =>
      dsimp only [Option.map_some]
      rw [renamed_text_of lc (.inr (.inl (getTerminal_type h1))),
        show s'.grammar.vocabulary = v' by rw [e], hv.tokenId]
      exact (Alike.refl _).bind fun a b hab => fin (_, _) (_, _) ⟨by rw [hab], hs⟩
    | none =>
      cases h2 : r.getTerminal lc.STRING_LITERAL 0 with
      | some t =>
        dsimp only [Option.map_some, Option.map_none]
        rw [renamed_text_of lc (.inr (.inr (getTerminal_type h2))),
          show s'.grammar.vocabulary = v' by rw [e], hv.tokenId]
        exact (Alike.refl _).bind fun a b hab => fin (_, _) (_, _) ⟨by rw [hab], hs⟩
      | none =>
        cases h3 : r.getTerminal lc.RULE_REF 0 with
        | some t =>
          dsimp only [Option.map_some, Option.map_none]
          rw [renamed_text_of lc (.inl (getTerminal_type h3)),
            show s'.grammar.vocabulary = v' by rw [e], hv.ruleId]
          exact (Alike.refl _).bind fun a b hab => fin (_, _) (_, _) ⟨by rw [hab], hs⟩
        | none =>
          cases h4 : r.getRuleContext 2 0 with
          | none => exact .error _
          | some b =>
            dsimp only [Option.map_some, Option.map_none]
            exact (visitBlock_alike ih b hs).bind fun a b hab => fin (_, _) (_, _) ⟨by rw [hab.1], hab.2⟩

theorem visitNamed_alike {e : ElemFn} (he : ElemAlike lc f e) (id : Nat) : ∀ (l : List RuleContext) (s s' : ProdState),
    ProdAlike f s s' → Alike (ProdAlike f) (visitNamed e id l s)
      (visitNamed e id (l.map (RuleContext.mapTokens (Token.renamed lc f))) s')
  | [], _, _, hs => .ok hs
  | r :: l, s, s', hs => by
    rw [List.map_cons, visitNamed, visitNamed]
    refine (visitAlternative_alike he r hs).bind fun x y hxy => ?_
    obtain ⟨x1, x2⟩ := x
    obtain ⟨y1, y2⟩ := y
    obtain ⟨h1, h2⟩ := hxy
    dsimp only at h1 h2 ⊢
    rw [h1]
    exact visitNamed_alike he id l _ _ (h2.insertOrPrint _ _)

theorem prodVisitRules_alike {e : ElemFn} (he : ElemAlike lc f e) : ∀ (l : List RuleContext) (s s' : ProdState),
    ProdAlike f s s' → Alike (ProdAlike f) (prodVisitRules lc e l s)
      (prodVisitRules lc e (l.map (RuleContext.mapTokens (Token.renamed lc f))) s')
  | [], _, _, hs => .ok hs
  | r :: l, s, s', hs => by
    rw [List.map_cons, prodVisitRules, prodVisitRules]
    refine Alike.bind (R := ProdAlike f) ?_ fun x y hxy => prodVisitRules_alike he l x y hxy
    unfold prodVisitParserRule
    refine (text_alike lc r lc.RULE_REF f fun t ht => renamed_text_of lc (.inl ht)).bind fun t t' htt => ?_
    obtain ⟨v', hv, e⟩ := id hs
    dsimp only
    rw [htt, show s'.grammar.vocabulary = v' by rw [e], hv.ruleId]
    refine (Alike.refl _).bind fun a b hab => ?_
    subst hab
    rw [RuleContext.block, RuleContext.block, getRuleContext_mapTokens]
    refine (Alike.unwrap _ _).bind fun x y hxy => ?_
    subst hxy
    rw [RuleContext.alternativeList, RuleContext.alternativeList, getRuleContexts_mapTokens]
    exact visitNamed_alike he a _ _ _ hs

/-! ### the parser -/

theorem renamedList_append (f : Str → Str) (a b : List Ast) :
    Ast.renamedList f (a ++ b) = Ast.renamedList f a ++ Ast.renamedList f b := by
  induction a with
  | nil => rfl
  | cons k ks ih => rw [List.cons_append, Ast.renamedList, ih, Ast.renamedList, List.cons_append]

/-- results of `parse_ast`: only nodes of rules without a name keep their name, which is a number -/
def ParsedAlike (f : Str → Str) (v : Vocabulary) (A : Nat) (x y : RuleContext × Nat × MismatchLog) : Prop :=
  y.1.children = Ast.renamedList f x.1.children ∧ y.1.ruleIndex = x.1.ruleIndex ∧ y.2 = x.2 ∧
    ((v.getNonterminalNameById A).isSome → y.1.ruleName = f x.1.ruleName)

theorem parseItems_alike {ps ps' : Parser} (hv : Vocabulary.Renamed f ps.vocabulary ps'.vocabulary)
    (ht : ps'.tokens = ps.tokens.map (Token.kindRenamed f)) {call call' : Nat → Nat → Res (RuleContext × Nat × MismatchLog)}
    (hc : ∀ c A, Alike (ParsedAlike f ps.vocabulary A) (call c A) (call' c A)) : ∀ (l : List Item) (st st' : ItemState),
    st' = { st with children := Ast.renamedList f st.children } →
    Alike (fun a b : ItemState => b = { a with children := Ast.renamedList f a.children })
      (ps.parseItems call l st) (ps'.parseItems call' l st')
  | [], _, _, hs => .ok hs
  | .nt i :: l, st, st', hs => by
    subst hs
    rw [Parser.parseItems, Parser.parseItems]
    refine (hc st.cursor i).bind fun x y hxy => ?_
    obtain ⟨r, c, lg⟩ := x
    obtain ⟨r', c', lg'⟩ := y
    obtain ⟨h1, h2, h3, h4⟩ := hxy
    dsimp only at h1 h2 h3 h4 ⊢
    cases h3
    refine parseItems_alike hv ht hc l _ _ ?_
    rw [hv.ruleName i]
    cases hn : ps.vocabulary.getNonterminalNameById i with
    | none => simp [renamedList_append, h1]
    | some n =>
      rw [hn] at h4
      simp [renamedList_append, RuleContext.toAst, h1, h2, h4 rfl, Ast.renamed, Ast.renamedList]
  | .t a :: l, st, st', hs => by
    subst hs
    rw [Parser.parseItems, Parser.parseItems]
    refine Alike.bind (R := fun t t' => t' = Token.kindRenamed f t) ?_ fun t t' htt => ?_
    · rw [Parser.tokenAt, Parser.tokenAt, ht, List.getElem?_map]
      exact Alike.unwrap _ _
    · subst htt
      refine parseItems_alike hv ht hc l _ _ ?_
      rw [ItemState.mk.injEq]
      exact ⟨by simp [renamedList_append, Ast.renamed, Ast.renamedList], rfl, rfl⟩

theorem parseAst_alike {ps ps' : Parser} (hv : Vocabulary.Renamed f ps.vocabulary ps'.vocabulary)
    (ht : ps'.tokens = ps.tokens.map (Token.kindRenamed f)) (htab : ps'.table = ps.table) : ∀ fuel c A,
    Alike (ParsedAlike f ps.vocabulary A) (ps.parseAst fuel c A) (ps'.parseAst fuel c A)
  | 0, _, _ => .error _
  | fuel + 1, c, A => by
    rw [Parser.parseAst, Parser.parseAst]
    refine Alike.bind (R := fun t t' => t' = Token.kindRenamed f t) ?_ fun t t' htt => ?_
    · rw [Parser.tokenAt, Parser.tokenAt, ht, List.getElem?_map]
      exact Alike.unwrap _ _
    · subst htt
      rw [htab]
      refine (Alike.refl _).bind fun p p' hp => ?_
      subst hp
      refine (parseItems_alike hv ht (parseAst_alike hv ht htab fuel) p.right _ _ rfl).bind fun x y hxy => ?_
      subst hxy
      refine .ok ⟨rfl, rfl, rfl, fun hn => ?_⟩
      have := hv.ruleName A
      unfold Vocabulary.getNonterminalNameById at this hn
      obtain ⟨n, hn⟩ := Option.isSome_iff_exists.1 hn
      rw [hn] at this
      simp only [Vocabulary.getNonterminalNameWithDefault, hn, this, Option.map_some]

/-! ### the lexer -/

/-- the lexer with other names -/
def Lexer.renamed (f : Str → Str) (l : Lexer) : Lexer := { l with tokenNames := l.tokenNames.map f }

theorem scan_alike (h1 : f Vocabulary.stopName = Vocabulary.stopName) (l : Lexer) :
    Alike (fun x y => y = (x.1.map (Token.kindRenamed f), x.2.renamed f)) l.scan (l.renamed f).scan := by
  have h1' : f "_STOP".toList = "_STOP".toList := h1
  unfold Lexer.scan
  rw [show (l.renamed f).cursor = l.cursor from rfl, show (l.renamed f).input = l.input from rfl]
  split
  · exact .ok rfl
  · split
    · refine .ok ?_
      simp only [Option.map_some, Token.kindRenamed, h1']
      rfl
    · unfold Lexer.scanToken
      rw [show (l.renamed f).cursor = l.cursor from rfl, show (l.renamed f).input = l.input from rfl,
        show (l.renamed f).regexList = l.regexList from rfl]
      refine (Alike.refl _).bind fun rest rest' hr => ?_
      subst hr
      dsimp only
      split
      · exact .ok rfl
      · refine (Alike.refl _).bind fun text text' hx => ?_
        subst hx
        refine Alike.bind (R := fun n n' => n' = f n) ?_ fun n n' hn => ?_
        · rw [show (l.renamed f).tokenNames = l.tokenNames.map f from rfl, List.getElem?_map]
          exact Alike.unwrap _ _
        · subst hn
          exact .ok rfl

theorem scanLoop_alike (h1 : f Vocabulary.stopName = Vocabulary.stopName) (skip : Nat → Bool) (channel : Nat) :
    ∀ (fuel : Nat) (acc : List Token) (l : Lexer),
    Alike (fun x y => y = (x.1.map (Token.kindRenamed f), x.2.renamed f)) (Lexer.scanLoop Lexer.scan skip channel fuel acc l)
      (Lexer.scanLoop Lexer.scan skip channel fuel (acc.map (Token.kindRenamed f)) (l.renamed f))
  | 0, _, _ => .error _
  | fuel + 1, acc, l => by
    rw [Lexer.scanLoop, Lexer.scanLoop]
    refine (scan_alike h1 l).bind fun x y hxy => ?_
    subst hxy
    obtain ⟨t, l'⟩ := x
    cases t with
    | none => exact .ok rfl
    | some t =>
      dsimp only [Option.map_some]
      rw [show (Token.kindRenamed f t).tokenType = t.tokenType from rfl,
        show (Token.kindRenamed f t).channel = t.channel from rfl]
      split
      · exact scanLoop_alike h1 skip channel fuel acc l'
      · split
        · have := scanLoop_alike h1 skip channel fuel (acc ++ [t]) l'
          rw [List.map_append] at this
          exact this
        · exact scanLoop_alike h1 skip channel fuel acc l'

/-! ## C107 -/

/-- **C107** A one-to-one renaming of the rules and tokens of a grammar file (which keeps the two reserved names) leaves the
grammar as it is, but for the names: the same numbers, the same productions, the same lexer rules in the same order.  If one
of the files is not accepted, neither is the other. -/
theorem C107_grammar (hf : Function.Injective f) (h0 : f Vocabulary.startName = Vocabulary.startName)
    (h1 : f Vocabulary.stopName = Vocabulary.stopName) (lc : LexConsts) (hl : lc.Apart) (fuel : Nat) (ast : RuleContext)
    (name : Str) (n0 r0 : Nat) :
    Alike (fun x y => Vocabulary.Renamed f x.1.vocabulary y.1.vocabulary ∧ y.1.name = x.1.name ∧
        y.1.productions = x.1.productions ∧ y.2 = x.2.map (LexerRuleData.renamed f))
      (buildGrammar lc fuel ast (Grammar.new name) n0 r0)
      (buildGrammar lc fuel (ast.mapTokens (Token.renamed lc f)) (Grammar.new name) n0 r0) := by
  unfold buildGrammar buildStates
  refine Alike.bind (R := fun x y => ProdAlike f x.2 y.2 ∧ y.1.data = x.1.data.map (LexerRuleData.renamed f)) ?_
    fun x y hxy => ?_
  · have hnew := renamed_new hf h0 h1
    refine (lit_alike lc (s := ⟨Grammar.new name, n0, []⟩) (s' := ⟨Grammar.new name, n0, []⟩)
      ⟨rfl, Vocabulary.new, hnew, rfl⟩ ast).bind fun s1 s1' hs1 => ?_
    obtain ⟨hd, v', hv, rfl⟩ := hs1
    refine (sym_alike hf hl (s := ⟨s1.grammar, s1.data, s1.nextTokenId, r0, []⟩)
      (s' := ⟨{ s1.grammar with vocabulary := v' }, s1.data, s1.nextTokenId, r0, []⟩)
      ⟨hv, rfl, by simp [hd], rfl, rfl⟩ ast).bind fun s2 s2' hs2 => ?_
    unfold prodVisitRuleList
    rw [RuleContext.parserRuleList, RuleContext.parserRuleList, getRuleContexts_mapTokens, hs2.nextRule]
    refine (prodVisitRules_alike (visitElement_alike lc fuel) _ (ProdState.new s2.grammar s2.nextRuleId)
      (ProdState.new s2'.grammar s2.nextRuleId) ⟨_, hs2.voc, ?_⟩).bind fun s3 s3' hs3 => ?_
    · rw [hs2.grammar]
      rfl
    · exact .ok ⟨hs3, hs2.data⟩
  · obtain ⟨⟨v', hv, e⟩, hd⟩ := hxy
    obtain ⟨x1, x2⟩ := x
    obtain ⟨y1, y2⟩ := y
    dsimp only at hv e hd ⊢
    subst e
    exact .ok ⟨hv, rfl, rfl, hd⟩

/-- **C107** The tables, and with them the conflicts reported, do not depend on the names: every order in which the sets of
one grammar are enumerated is one of the other, and gives the same table. -/
theorem C107_tables (g g' : Grammar) (hv : Vocabulary.Renamed f g.vocabulary g'.vocabulary)
    (hp : g'.productions = g.productions) (o : IterOrder g) :
    ∃ o' : IterOrder g', o'.ids = o.ids ∧ o'.ord = o.ord ∧ ∀ so fuel, runTable g' o' so fuel = runTable g o so fuel :=
  ⟨⟨o.ids, by rw [hv.rules]; exact o.ids_mem, o.ord, by rw [hp]; exact o.ord_perm, o.ord_nodup⟩, rfl, rfl, fun _ _ => rfl⟩

/-- **C107** The generated lexer finds the same tokens, under other names. -/
theorem C107_tokens (h0 : f Vocabulary.startName = Vocabulary.startName)
    (h1 : f Vocabulary.stopName = Vocabulary.stopName) (compile : Str → Matcher) (data : List LexerRuleData) (input : Str)
    (whiteSpace channel fuel : Nat) :
    Alike (fun x y => y.1 = x.1.map (Token.kindRenamed f) ∧ y.2.1 = x.2.1)
      ((generatedLexer compile data input).scanAll whiteSpace channel fuel)
      ((generatedLexer compile (data.map (LexerRuleData.renamed f)) input).scanAll whiteSpace channel fuel) := by
  have e : generatedLexer compile (data.map (LexerRuleData.renamed f)) input =
      (generatedLexer compile data input).renamed f := by
    have h0' : f "_START".toList = "_START".toList := h0
    have h1' : f "_STOP".toList = "_STOP".toList := h1
    simp only [generatedLexer, Lexer.renamed, Lexer.new, List.map_cons, h0', h1', List.map_map]
    rfl
  rw [e, Lexer.scanAll, Lexer.scanAll]
  refine (scanLoop_alike h1 _ channel fuel [] _).bind fun x y hxy => ?_
  subst hxy
  dsimp only
  rw [show (x.2.renamed f).cursor = x.2.cursor from rfl, show (x.2.renamed f).input = x.2.input from rfl]
  split
  · refine (Alike.refl _).bind fun a b hab => ?_
    subst hab
    exact .ok ⟨rfl, rfl⟩
  · exact .ok ⟨rfl, rfl⟩

/-- **C107** From any rule that has a name the parser makes the same tree, under other names, with the same messages. -/
theorem C107_trees (g g' : Grammar) (hv : Vocabulary.Renamed f g.vocabulary g'.vocabulary) (ts : TableState)
    (toks : List Token) (A fuel : Nat) (hA : (g.vocabulary.getNonterminalNameById A).isSome) :
    (parserOf g' ts (toks.map (Token.kindRenamed f))).parseRule A fuel =
      ((parserOf g ts toks).parseRule A fuel).map fun x => (x.1.renamed f, x.2) := by
  have h := parseAst_alike (ps := parserOf g ts toks) (ps' := parserOf g' ts (toks.map (Token.kindRenamed f))) hv rfl rfl
    fuel 0 A
  unfold Parser.parseRule
  generalize (parserOf g ts toks).parseAst fuel 0 A = x at h
  generalize (parserOf g' ts (toks.map (Token.kindRenamed f))).parseAst fuel 0 A = y at h
  cases h with
  | error e => rfl
  | @ok a b h =>
    obtain ⟨r, c, lg⟩ := a
    obtain ⟨⟨n, ks, i⟩, c', lg'⟩ := b
    obtain ⟨h1, h2, h3, h4⟩ := h
    dsimp only at h1 h2 h3 h4
    cases h3
    subst h1 h2
    rw [h4 hA]
    rfl

/-- **C107** All of it together: if a grammar file gives a lexer and a table, and these turn an input into a tree, then the
renamed file gives a lexer and the same table, and they turn the input into the renamed tree, with the same messages.
`whiteSpace` is the number that the source of the lexer refers to as `WHITE_SPACE`: that source is only complete if the
renaming keeps this name (C66). -/
theorem C107_renaming (hf : Function.Injective f) (h0 : f Vocabulary.startName = Vocabulary.startName)
    (h1 : f Vocabulary.stopName = Vocabulary.stopName) (lc : LexConsts) (hl : lc.Apart) (compile : Str → Matcher)
    (so : SetOrder) (fuel : Nat) (ast : RuleContext) (name : Str) (n0 r0 : Nat) (g : Grammar) (data : List LexerRuleData)
    (hb : buildGrammar lc fuel ast (Grammar.new name) n0 r0 = .ok (g, data)) (o : IterOrder g) (ts : TableState)
    (ht : runTable g o so fuel = .ok ts) (input : Str) (whiteSpace : Nat) (toks : List Token) (p : Option Str) (l : Lexer)
    (hs : (generatedLexer compile data input).scanAll whiteSpace 0 fuel = .ok (toks, p, l)) (A : Nat)
    (hA : (g.vocabulary.getNonterminalNameById A).isSome) (r : RuleContext) (log : MismatchLog)
    (hr : (parserOf g ts toks).parseRule A fuel = .ok (r, log)) :
    ∃ g' toks' l', ∃ o' : IterOrder g',
      buildGrammar lc fuel (ast.mapTokens (Token.renamed lc f)) (Grammar.new name) n0 r0 =
        .ok (g', data.map (LexerRuleData.renamed f)) ∧
      o'.ids = o.ids ∧ o'.ord = o.ord ∧ runTable g' o' so fuel = .ok ts ∧
      (generatedLexer compile (data.map (LexerRuleData.renamed f)) input).scanAll whiteSpace 0 fuel = .ok (toks', p, l') ∧
      toks'.map (fun t => (t.tokenType, t.text)) = toks.map (fun t => (t.tokenType, t.text)) ∧
      (parserOf g' ts toks').parseRule A fuel = .ok (r.renamed f, log) := by
  have hg := C107_grammar hf h0 h1 lc hl fuel ast name n0 r0
  rw [hb] at hg
  generalize buildGrammar lc fuel (ast.mapTokens (Token.renamed lc f)) (Grammar.new name) n0 r0 = y at hg
  cases hg with
  | @ok _ y hg =>
    obtain ⟨g', data'⟩ := y
    obtain ⟨hv, -, hp, rfl⟩ := hg
    obtain ⟨o', ho1, ho2, ho3⟩ := C107_tables g g' hv hp o
    have hx := C107_tokens h0 h1 compile data input whiteSpace 0 fuel
    rw [hs] at hx
    generalize hy : (generatedLexer compile (data.map (LexerRuleData.renamed f)) input).scanAll whiteSpace 0 fuel = y at hx
    cases hx with
    | @ok _ y hx =>
      obtain ⟨toks', p', l'⟩ := y
      obtain ⟨hx1, hx2⟩ := hx
      dsimp only at hx1 hx2
      subst hx1 hx2
      refine ⟨g', _, l', o', rfl, ho1, ho2, (ho3 so fuel).trans ht, rfl, by simp [Token.kindRenamed], ?_⟩
      rw [C107_trees g g' hv ts toks A fuel hA, hr]
      rfl

/-! ### examples -/

/-- a renaming: `x` in front of every name but the reserved ones -/
def prefixed (s : Str) : Str := if s = Vocabulary.startName ∨ s = Vocabulary.stopName then s else 'x' :: s

theorem prefixed_injective : Function.Injective prefixed := by
  intro a b hab
  unfold prefixed at hab
  split at hab
  · rename_i ha
    split at hab
    · exact hab
    · rcases ha with rfl | rfl <;> cases hab
  · split at hab
    · rename_i hb
      rcases hb with rfl | rfl <;> cases hab
    · exact (List.cons.inj hab).2

/-- non-vacuity of `C107_grammar`: a file is built, and the renamed file is another file -/
example : (loadAst 5000 ToolEx.tree).isOk = true ∧ LexConsts.Apart .old ∧ LexConsts.Apart .v1 ∧
    prefixed Vocabulary.startName = Vocabulary.startName ∧ prefixed Vocabulary.stopName = Vocabulary.stopName ∧
    (loadAst 5000 (ToolEx.tree.mapTokens (Token.renamed .old prefixed))).map
      (fun r => (r.1.productions, r.2.map (·.tokenName), r.1.vocabulary.getNonterminalNameById 0)) =
      .ok (ToolEx.grammar.productions, ["xNUM".toList, "xOPEN".toList, "xWHITE_SPACE".toList], some "xs".toList) := by
  refine ⟨by decide +kernel, ?_, ?_, by decide, by decide, by decide +kernel⟩ <;> (unfold LexConsts.Apart; decide)

/-- **C107** One-to-one is needed: when two rules of a file get the same name, its grammar changes. -/
theorem C107_merged_names : ∃ f : Str → Str, f Vocabulary.startName = Vocabulary.startName ∧
    f Vocabulary.stopName = Vocabulary.stopName ∧
    (loadAst 5000 ToolEx.tree).map (·.1.productions) ≠
      (loadAst 5000 (ToolEx.tree.mapTokens (Token.renamed .old f))).map (·.1.productions) := by
  refine ⟨fun s => if s = ['p'] then ['s'] else s, by decide, by decide, by decide +kernel⟩

end Syntaxis
