import Verif.Spec.Ebnf
import Verif.Props.Ast

/-! # The production visitor works on the EBNF reading of the tree -/

namespace Syntaxis

mutual
/-- the production visitor on EBNF elements -/
def elabElem : Elem → ProdState → Res (Item × ProdState)
  | .tok n, s => do .ok (Item.t (← unwrap (s.grammar.vocabulary.getTerminalIdByName n)), s)
  | .ref n, s => do .ok (Item.nt (← unwrap (s.grammar.vocabulary.getNonterminalIdByName n)), s)
  | .group alts, s => do
    let (rights, s) ← elabAlts alts s
    .ok (Item.nt (finishBlock rights s).1, (finishBlock rights s).2)
  | .rep f e, s => do
    let (item, s) ← elabElem e s
    .ok (applySuffix f item s)
def elabSeq : List Elem → ProdState → Res (List Item × ProdState)
  | [], s => .ok ([], s)
  | e :: es, s => do
    let (item, s) ← elabElem e s
    let (items, s) ← elabSeq es s
    .ok (item :: items, s)
def elabAlts : List (List Elem) → ProdState → Res (List (List Item) × ProdState)
  | [], s => .ok ([], s)
  | a :: as, s => do
    let (right, s) ← elabSeq a s
    let (rights, s) ← elabAlts as s
    .ok (right :: rights, s)
end

/-- run, or panic when there is no reading -/
def orPanic {α β : Type} (f : α → ProdState → Res (β × ProdState)) : Option α → ProdState → Res (β × ProdState)
  | none, _ => .error .panic
  | some a, s => f a s

theorem error_panic_bind {α β : Type} {x : Res α} {f : α → Res β} (hx : ∀ e, x = .error e → e = .panic)
    (hf : ∀ a, x = .ok a → ∀ e, f a = .error e → e = .panic) : ∀ e, (x >>= f) = .error e → e = .panic := by
  intro e h
  cases x with
  | ok a => exact hf a rfl e (by simpa using h)
  | error e' => simp at h; exact hx e (by rw [h])

theorem unwrap_panic {α : Type} (o : Option α) : ∀ e, unwrap o = .error e → e = .panic := by
  intro e h
  cases o with
  | none => simp at h; exact h.symm
  | some a => simp at h

mutual
theorem elabElem_error (e : Elem) (s : ProdState) : ∀ x, elabElem e s = .error x → x = .panic := by
  cases e with
  | tok n =>
    rw [elabElem]
    exact error_panic_bind (unwrap_panic _) (fun a _ x h => by simp at h)
  | ref n =>
    rw [elabElem]
    exact error_panic_bind (unwrap_panic _) (fun a _ x h => by simp at h)
  | group alts =>
    rw [elabElem]
    exact error_panic_bind (elabAlts_error alts s) (fun a _ x h => by simp at h)
  | rep f e =>
    rw [elabElem]
    exact error_panic_bind (elabElem_error e s) (fun a _ x h => by simp at h)
theorem elabSeq_error (es : List Elem) (s : ProdState) : ∀ x, elabSeq es s = .error x → x = .panic := by
  cases es with
  | nil => intro x h; simp [elabSeq] at h
  | cons e es =>
    rw [elabSeq]
    exact error_panic_bind (elabElem_error e s) (fun a _ => error_panic_bind (elabSeq_error es a.2)
      (fun a _ x h => by simp at h))
theorem elabAlts_error (as : List (List Elem)) (s : ProdState) : ∀ x, elabAlts as s = .error x → x = .panic := by
  cases as with
  | nil => intro x h; simp [elabAlts] at h
  | cons a as =>
    rw [elabAlts]
    exact error_panic_bind (elabSeq_error a s) (fun b _ => error_panic_bind (elabAlts_error as b.2)
      (fun a _ x h => by simp at h))
end

/-! ## accessors -/

theorem getTerminal_text (r : RuleContext) (ty : Nat) :
    (r.getTerminal ty 0).map (·.text) = firstText ty r.children := by
  rw [(C36_indexed r ty 0).1]
  obtain ⟨n, kids, i⟩ := r
  simp only
  induction kids with
  | nil => rfl
  | cons k ks ih =>
    cases k with
    | terminal t =>
      by_cases h : t.tokenType = ty
      · simp [firstText, Ast.asTerminal, h, List.filterMap_cons]
      · simpa [firstText, Ast.asTerminal, h, List.filterMap_cons] using ih
    | error t => simpa [firstText, Ast.asTerminal, List.filterMap_cons] using ih
    | rule n i c => simpa [firstText, Ast.asTerminal, List.filterMap_cons] using ih

theorem getRuleContexts_eq (r : RuleContext) (i : Nat) :
    r.getRuleContexts i = r.children.filterMap (Ast.asRule i) := (C36_lists r i).2.2

theorem asRule_toAst {i : Nat} {k : Ast} {r : RuleContext} (h : k.asRule i = some r) :
    k = r.toAst ∧ k.isRule i = true := by
  cases k with
  | rule n j c =>
    simp only [Ast.asRule] at h
    split at h
    · rename_i hj
      cases h
      exact ⟨rfl, by simp [Ast.isRule, hj]⟩
    · cases h
  | _ => simp [Ast.asRule] at h

theorem asRule_of_isRule {i : Nat} {k : Ast} (h : k.isRule i = true) : ∃ r, k.asRule i = some r := by
  cases k with
  | rule n j c =>
    have : i = j := by simpa [Ast.isRule] using h
    exact ⟨_, by simp [Ast.asRule, this]; rfl⟩
  | _ => simp [Ast.isRule] at h

theorem asRule_of_not_isRule {i : Nat} {k : Ast} (h : ¬ k.isRule i = true) : k.asRule i = none := by
  cases k with
  | rule n j c =>
    have : ¬ i = j := by simpa [Ast.isRule] using h
    simp [Ast.asRule, Ne.symm this]
  | _ => simp [Ast.asRule]

theorem getRuleContext_zero (r : RuleContext) (i : Nat) :
    (r.getRuleContext i 0).map RuleContext.toAst = r.children.find? (Ast.isRule i) := by
  rw [(C36_indexed r i 0).2.2]
  obtain ⟨n, kids, j⟩ := r
  simp only
  induction kids with
  | nil => rfl
  | cons k ks ih =>
    by_cases h : k.isRule i = true
    · obtain ⟨r, hr⟩ := asRule_of_isRule h
      simp [List.filterMap_cons, hr, List.find?_cons, h, (asRule_toAst hr).1.symm]
    · simpa [List.filterMap_cons, asRule_of_not_isRule h, List.find?_cons, h] using ih

theorem size_kid {r : RuleContext} {k : Ast} (h : k ∈ r.children) : sizeOf k < sizeOf r.toAst := by
  have := List.sizeOf_lt_of_mem h
  simp only [RuleContext.toAst, Ast.rule.sizeOf_spec]
  omega

/-! ## the visitor reads the tree -/

section
variable (lc : LexConsts) (elem : ElemFn) (m : Nat)
  (H : ∀ r : RuleContext, sizeOf r.toAst < m → ∀ s, elem r s = orPanic elabElem (readElem lc r.toAst) s)
include H

theorem visitElements_eq (kids : List Ast) (hm : ∀ k ∈ kids, sizeOf k < m) (s : ProdState) :
    visitElements elem (kids.filterMap (Ast.asRule 5)) s = orPanic elabSeq (readElems lc kids) s := by
  induction kids generalizing s with
  | nil => simp [visitElements, readElems, orPanic, elabSeq]
  | cons k ks ih =>
    have ih := fun s => ih (fun x hx => hm x (by simp [hx])) s
    rw [readElems]
    by_cases h : k.isRule 5 = true
    · obtain ⟨r, hr⟩ := asRule_of_isRule h
      rw [if_pos h]
      simp only [List.filterMap_cons, hr, visitElements]
      obtain ⟨rfl, -⟩ := asRule_toAst hr
      rw [H r (hm _ (by simp)) s]
      cases he : readElem lc r.toAst with
      | none => simp [orPanic]
      | some e =>
        simp only [orPanic]
        cases hx : elabElem e s with
        | error x =>
          have := elabElem_error e s x hx
          subst this
          simp only [bind_error]
          cases readElems lc ks with
          | none => rfl
          | some es => simp [elabSeq, hx]
        | ok p =>
          simp only [bind_ok, ih]
          cases readElems lc ks with
          | none => simp [orPanic]
          | some es => simp [orPanic, elabSeq, hx]
    · rw [if_neg h]
      simp only [List.filterMap_cons, asRule_of_not_isRule h]
      exact ih s

theorem visitAlternative_eq (r : RuleContext) (hm : sizeOf r.toAst ≤ m) (s : ProdState) :
    visitAlternative elem r s = orPanic elabSeq (readAlt lc r.toAst) s := by
  unfold visitAlternative
  have hz := getRuleContext_zero r 4
  rw [RuleContext.toAst, readAlt]
  cases he : r.epsilon with
  | some x =>
    rw [RuleContext.epsilon] at he
    rw [he] at hz
    have hany : r.children.any (Ast.isRule 4) = true := by
      rw [List.any_eq_true]
      exact ⟨_, List.mem_of_find?_eq_some hz.symm, List.find?_some hz.symm⟩
    simp [hany, orPanic, elabSeq]
  | none =>
    rw [RuleContext.epsilon] at he
    rw [he] at hz
    have hany : ¬ r.children.any (Ast.isRule 4) = true := by
      have := List.find?_eq_none.1 hz.symm
      simp only [List.any_eq_true, not_exists, not_and]
      exact this
    simp only
    rw [if_neg hany, RuleContext.elementList, getRuleContexts_eq]
    exact visitElements_eq lc elem m H _ (fun k hk => by have := size_kid hk; omega) s

theorem visitAlternatives_eq (kids : List Ast) (hm : ∀ k ∈ kids, sizeOf k ≤ m) (s : ProdState) :
    visitAlternatives elem (kids.filterMap (Ast.asRule 3)) s = orPanic elabAlts (readAlts lc kids) s := by
  induction kids generalizing s with
  | nil => simp [visitAlternatives, readAlts, orPanic, elabAlts]
  | cons k ks ih =>
    have ih := fun s => ih (fun x hx => hm x (by simp [hx])) s
    rw [readAlts]
    by_cases h : k.isRule 3 = true
    · obtain ⟨r, hr⟩ := asRule_of_isRule h
      rw [if_pos h]
      simp only [List.filterMap_cons, hr, visitAlternatives]
      obtain ⟨rfl, -⟩ := asRule_toAst hr
      rw [visitAlternative_eq lc elem m H r (hm _ (by simp)) s]
      cases he : readAlt lc r.toAst with
      | none => simp [orPanic]
      | some e =>
        simp only [orPanic]
        cases hx : elabSeq e s with
        | error x =>
          have := elabSeq_error e s x hx
          subst this
          simp only [bind_error]
          cases readAlts lc ks with
          | none => rfl
          | some es => simp [elabAlts, hx]
        | ok p =>
          simp only [bind_ok, ih]
          cases readAlts lc ks with
          | none => simp [orPanic]
          | some es => simp [orPanic, elabAlts, hx]
    · rw [if_neg h]
      simp only [List.filterMap_cons, asRule_of_not_isRule h]
      exact ih s

end

theorem readBlock_eq (lc : LexConsts) (kids : List Ast) :
    readBlock lc kids = (kids.find? (Ast.isRule 2)).bind (readAltsOf lc) := by
  induction kids with
  | nil => rfl
  | cons k ks ih =>
    rw [readBlock, List.find?_cons]
    by_cases h : k.isRule 2 = true
    · simp [h]
    · simp [h, ih]

theorem suffixOf_eq (lc : LexConsts) (r : RuleContext) : suffixOf lc r = readSuffix lc r.children := by
  have hz := getRuleContext_zero r 6
  unfold suffixOf readSuffix
  cases he : r.ebnfSuffix with
  | none =>
    rw [RuleContext.ebnfSuffix] at he
    rw [he] at hz
    rw [← hz]; rfl
  | some x =>
    rw [RuleContext.ebnfSuffix] at he
    rw [he] at hz
    rw [← hz]
    have h1 := getTerminal_text x lc.STAR
    have h2 := getTerminal_text x lc.PLUS
    simp only [Option.map_some, RuleContext.star, RuleContext.plus, RuleContext.toAst, Ast.kids, ← h1, ← h2,
      Option.isSome_map]
    rfl

theorem withSuffix_elab (f : Option Suffix) (e : Elem) (s : ProdState) :
    elabElem (withSuffix f e) s = (do
      let (item, s) ← elabElem e s
      match f with
      | some f => .ok (applySuffix f item s)
      | none => .ok (item, s)) := by
  cases f with
  | none =>
    simp only [withSuffix]
    cases elabElem e s <;> rfl
  | some f => rw [withSuffix, elabElem]

/-- **refinement** with enough fuel `visit_element` is the elaboration of the element read from the node, and
a panic if the node cannot be read -/
theorem visitElement_eq (lc : LexConsts) (fuel : Nat) : ∀ r : RuleContext, sizeOf r.toAst ≤ fuel → ∀ s,
    visitElement lc fuel r s = orPanic elabElem (readElem lc r.toAst) s := by
  induction fuel with
  | zero => intro r hr; simp [RuleContext.toAst] at hr
  | succ n ih =>
    intro r hr s
    rw [visitElement, RuleContext.toAst, readElem, suffixOf_eq]
    have h1 := getTerminal_text r lc.TOKEN_REF
    have h2 := getTerminal_text r lc.STRING_LITERAL
    have h3 := getTerminal_text r lc.RULE_REF
    rw [← RuleContext.tokenRef] at h1
    rw [← RuleContext.stringLiteral] at h2
    rw [← RuleContext.ruleRef] at h3
    rw [← h1, ← h2, ← h3]
    cases r.tokenRef lc with
    | some t =>
      simp only [Option.map_some, orPanic, withSuffix_elab, elabElem]
      cases unwrap (s.grammar.vocabulary.getTerminalIdByName t.text) <;> rfl
    | none =>
      cases r.stringLiteral lc with
      | some t =>
        simp only [Option.map_some, Option.map_none, orPanic, withSuffix_elab, elabElem]
        cases unwrap (s.grammar.vocabulary.getTerminalIdByName t.text) <;> rfl
      | none =>
        cases r.ruleRef lc with
        | some t =>
          simp only [Option.map_some, Option.map_none, orPanic, withSuffix_elab, elabElem]
          cases unwrap (s.grammar.vocabulary.getNonterminalIdByName t.text) <;> rfl
        | none =>
          simp only [Option.map_none]
          rw [readBlock_eq]
          have hz := getRuleContext_zero r 2
          rw [← RuleContext.block] at hz
          rw [← hz]
          cases hb : r.block with
          | none => simp [orPanic]
          | some b =>
            rw [hb] at hz
            have hmem := List.mem_of_find?_eq_some hz.symm
            have hsz := size_kid hmem
            have := visitAlternatives_eq lc (visitElement lc n) (n+1) (fun r hr => ih r (by omega)) b.children
              (fun k hk => by have := size_kid hk; omega) s
            simp only [Option.map_some, Option.bind_some, visitBlock, RuleContext.alternativeList,
              getRuleContexts_eq, this]
            rw [RuleContext.toAst, readAltsOf]
            cases readAlts lc b.children with
            | none => simp [orPanic]
            | some as =>
              simp only [Option.map_some, orPanic, withSuffix_elab, elabElem]
              cases elabAlts as s <;> rfl

/-- the production visitor on the alternatives of a named rule -/
def elabNamed (id : Nat) : List (List Elem) → ProdState → Res ProdState
  | [], s => .ok s
  | a :: as, s => do
    let (right, s) ← elabSeq a s
    elabNamed id as (s.insertOrPrint ⟨id, right⟩ (chars! "产生式重复"))

/-- the production visitor on EBNF rules -/
def elabRules : Rules → ProdState → Res ProdState
  | [], s => .ok s
  | (n, alts) :: rs, s => do
    let id ← unwrap (s.grammar.vocabulary.getNonterminalIdByName n)
    let s ← elabNamed id alts s
    elabRules rs s

theorem elabNamed_error (id : Nat) (as : List (List Elem)) (s : ProdState) :
    ∀ x, elabNamed id as s = .error x → x = .panic := by
  induction as generalizing s with
  | nil => intro x h; simp [elabNamed] at h
  | cons a as ih =>
    rw [elabNamed]
    exact error_panic_bind (elabSeq_error a s) (fun b _ => ih _)

theorem elabRules_error (rs : Rules) (s : ProdState) : ∀ x, elabRules rs s = .error x → x = .panic := by
  induction rs generalizing s with
  | nil => intro x h; simp [elabRules] at h
  | cons r rs ih =>
    rw [elabRules]
    exact error_panic_bind (unwrap_panic _) (fun b _ => error_panic_bind (elabNamed_error _ _ _) (fun s _ => ih s))

theorem visitNamed_eq (lc : LexConsts) (elem : ElemFn) (m : Nat)
    (H : ∀ r : RuleContext, sizeOf r.toAst < m → ∀ s, elem r s = orPanic elabElem (readElem lc r.toAst) s)
    (id : Nat) (kids : List Ast) (hm : ∀ k ∈ kids, sizeOf k ≤ m) (s : ProdState) :
    visitNamed elem id (kids.filterMap (Ast.asRule 3)) s =
      match readAlts lc kids with
      | none => .error .panic
      | some as => elabNamed id as s := by
  induction kids generalizing s with
  | nil => simp [visitNamed, readAlts, elabNamed]
  | cons k ks ih =>
    have ih := fun s => ih (fun x hx => hm x (by simp [hx])) s
    rw [readAlts]
    by_cases h : k.isRule 3 = true
    · obtain ⟨r, hr⟩ := asRule_of_isRule h
      rw [if_pos h]
      simp only [List.filterMap_cons, hr, visitNamed]
      obtain ⟨rfl, -⟩ := asRule_toAst hr
      rw [visitAlternative_eq lc elem m H r (hm _ (by simp)) s]
      cases he : readAlt lc r.toAst with
      | none => simp [orPanic]
      | some e =>
        simp only [orPanic]
        cases hx : elabSeq e s with
        | error x =>
          have := elabSeq_error e s x hx
          subst this
          simp only [bind_error]
          cases readAlts lc ks with
          | none => rfl
          | some es => simp [elabNamed, hx]
        | ok p =>
          simp only [bind_ok, ih]
          cases readAlts lc ks with
          | none => simp
          | some es => simp [elabNamed, hx]
    · rw [if_neg h]
      simp only [List.filterMap_cons, asRule_of_not_isRule h]
      exact ih s

theorem prodVisitRules_eq (lc : LexConsts) (elem : ElemFn) (m : Nat)
    (H : ∀ r : RuleContext, sizeOf r.toAst < m → ∀ s, elem r s = orPanic elabElem (readElem lc r.toAst) s)
    (kids : List Ast) (hm : ∀ k ∈ kids, sizeOf k ≤ m) (s : ProdState) :
    prodVisitRules lc elem (kids.filterMap (Ast.asRule 1)) s =
      match readRules lc kids with
      | none => .error .panic
      | some rs => elabRules rs s := by
  induction kids generalizing s with
  | nil => simp [prodVisitRules, readRules, elabRules]
  | cons k ks ih =>
    have ih := fun s => ih (fun x hx => hm x (by simp [hx])) s
    rw [readRules]
    by_cases h : k.isRule 1 = true
    · obtain ⟨r, hr⟩ := asRule_of_isRule h
      rw [if_pos h]
      simp only [List.filterMap_cons, hr, prodVisitRules, prodVisitParserRule]
      obtain ⟨rfl, -⟩ := asRule_toAst hr
      have h3 := getTerminal_text r lc.RULE_REF
      rw [← RuleContext.ruleRef] at h3
      simp only [RuleContext.toAst, Ast.kids]
      rw [← h3, readBlock_eq]
      cases r.ruleRef lc with
      | none => simp
      | some t =>
        have hz := getRuleContext_zero r 2
        rw [← RuleContext.block] at hz
        rw [← hz]
        simp only [unwrap_some, bind_ok, Option.map_some]
        cases hid : s.grammar.vocabulary.getNonterminalIdByName t.text with
        | none =>
          simp only [unwrap_none, bind_error]
          split
          · rfl
          · rename_i rs hx
            split at hx
            · rename_i h1 h2 h3
              cases h1; cases hx
              simp [elabRules, hid]
            · cases hx
        | some id =>
          simp only [unwrap_some, bind_ok]
          cases hb : r.block with
          | none => simp
          | some b =>
            rw [hb] at hz
            have hmem := List.mem_of_find?_eq_some hz.symm
            have hsz := size_kid hmem
            have hsr := hm r.toAst (by simp)
            have := visitNamed_eq lc elem m H id b.children
              (fun k hk => by have := size_kid hk; omega) s
            simp only [unwrap_some, bind_ok, Option.map_some, Option.bind_some, RuleContext.alternativeList,
              getRuleContexts_eq, this]
            rw [RuleContext.toAst, readAltsOf]
            cases readAlts lc b.children with
            | none => simp
            | some as =>
              simp only
              cases hx : elabNamed id as s with
              | error x =>
                have := elabNamed_error id as s x hx
                subst this
                simp only [bind_error]
                cases readRules lc ks with
                | none => rfl
                | some es => simp [elabRules, hx, hid]
              | ok p =>
                simp only [bind_ok, ih]
                cases readRules lc ks with
                | none => simp
                | some es => simp [elabRules, hx, hid]
    · rw [if_neg h]
      simp only [List.filterMap_cons, asRule_of_not_isRule h]
      exact ih s

/-- **refinement** of the third pass -/
theorem prodVisitRuleList_eq (lc : LexConsts) (fuel : Nat) (r : RuleContext) (hf : sizeOf r.toAst ≤ fuel)
    (s : ProdState) :
    prodVisitRuleList lc fuel r s =
      match readRules lc r.children with
      | none => .error .panic
      | some rs => elabRules rs s := by
  rw [prodVisitRuleList, RuleContext.parserRuleList, getRuleContexts_eq]
  exact prodVisitRules_eq lc (visitElement lc fuel) fuel (fun r hr => visitElement_eq lc fuel r (by omega))
    r.children (fun k hk => by have := size_kid hk; omega) s

end Syntaxis
