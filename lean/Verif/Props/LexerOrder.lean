import Verif.Props.Reorder
import Verif.Props.Renumber
import Verif.Props.LexerRules
import Verif.Props.Rounds

/-!
# C100: the order of the lexer rules in a grammar file makes no difference
-/

namespace Syntaxis
open Grammar

/-! ## renumbered grammars -/

section
variable {τ : Nat → Nat}

theorem ll1_renum {P Q : List Production} (h : RenumOf τ P Q) (hτ : Function.Injective τ) (h1 : τ 1 = 1) :
    LL1 Q ↔ LL1 P := by
  constructor
  · intro hl p hp q hq e hne t ⟨h2, h3⟩
    exact hl (p.renum τ) ((h _).2 ⟨p, hp, rfl⟩) (q.renum τ) ((h _).2 ⟨q, hq, rfl⟩) e
      (fun e => hne (Production.renum_inj hτ e)) (τ t)
      ⟨(Predicts.renum_iff h h1).2 ⟨t, rfl, h2⟩, (Predicts.renum_iff h h1).2 ⟨t, rfl, h3⟩⟩
  · intro hl p' hp' q' hq' e hne t ⟨h2, h3⟩
    obtain ⟨p, hp, rfl⟩ := (h _).1 hp'
    obtain ⟨q, hq, rfl⟩ := (h _).1 hq'
    obtain ⟨s, rfl, h2'⟩ := (Predicts.renum_iff h h1).1 h2
    obtain ⟨s', e', h3'⟩ := (Predicts.renum_iff h h1).1 h3
    cases hτ e'
    exact hl p hp q hq e (fun e => hne (by rw [e])) s ⟨h2', h3'⟩

/-- the grammar with renumbered token types -/
def Grammar.renum (τ : Nat → Nat) (g : Grammar) : Grammar := { g with productions := g.productions.map (Production.renum τ) }

theorem renumbered_renum (τ : Nat → Nat) (g : Grammar) : Renumbered τ g (g.renum τ) where
  productions p := by
    simp only [Grammar.renum, List.mem_map]
    exact ⟨fun ⟨q, hq, e⟩ => ⟨q, hq, e.symm⟩, fun ⟨q, hq, e⟩ => ⟨q, hq, e.symm⟩⟩
  names _ := rfl

/-- an iteration order of the renumbered grammar -/
def renumOrder (hτ : Function.Injective τ) {g : Grammar} (o : IterOrder g) : IterOrder (g.renum τ) where
  ids := o.ids
  ids_mem := o.ids_mem
  ord := o.ord.map (Production.renum τ)
  ord_perm := o.ord_perm.map _
  ord_nodup := o.ord_nodup.map (Production.renum_inj hτ)

theorem renum_wellFormed {g : Grammar} (h : g.WellFormed) : (g.renum τ).WellFormed := by
  intro p hp
  obtain ⟨q, hq, rfl⟩ := List.mem_map.1 hp
  obtain ⟨h1, h2⟩ := h q hq
  refine ⟨h1, fun B hB => h2 B ?_⟩
  obtain ⟨x, hx, e⟩ := List.mem_map.1 hB
  cases x with
  | nt A => simp only [Item.renum, Item.nt.injEq] at e; rw [← e]; exact hx
  | t a => cases e

/-- the tables of corresponding grammars without conflicts give the same results -/
theorem Iso.parse_same {ν : Str → Str} {ρ : Item → Item → Prop} {g g' : Grammar} (hi : Iso ρ g.productions g'.productions)
    (hz : ρ (.nt 0) (.nt 0))
    (hnm : ∀ A A', ρ (.nt A) (.nt A') →
      g'.vocabulary.getNonterminalNameById A' = (g.vocabulary.getNonterminalNameById A).map ν)
    {o : IterOrder g} {o' : IterOrder g'}
    {so so' : SetOrder} {k k' : Nat} {ts ts' : TableState} (ht : runTable g o so k = .ok ts)
    (ht' : runTable g' o' so' k' = .ok ts') (hc : ts.conflicts = []) (hc' : ts'.conflicts = []) (toks : List Token)
    {A A' : Nat} (hρ : ρ (.nt A) (.nt A')) {m0 : Str} (hm0 : g.vocabulary.getNonterminalNameById A = some m0) :
    ∃ m, ∀ j, m ≤ j → (parserOf g ts toks).parseRule A j ≠ .error .fuel ∧
      ((parserOf g ts toks).parseRule A j).map (fun r => (r.1.toAst.relabel ν, r.2)) =
        ((parserOf g' ts' toks).parseRule A' j).map (fun r => (r.1.toAst.relabel id, r.2)) := by
  have hps : SamePs ν ρ (parserOf g ts toks) (parserOf g' ts' toks) := by
    refine ⟨⟨rfl, ?_, hnm⟩, ?_⟩
    · intro A A' t p hA he
      exact hi.entry hz (tableSound_of ht) (tableComplete_of ht' hc') hA he
    · intro A A' t hA he
      cases he' : (parserOf g' ts' toks).table.get (A', t) with
      | none => rfl
      | some q =>
        obtain ⟨p, hp, _⟩ := hi.symm.toHom.entry (A := A') (A' := A) hz (tableSound_of ht') (tableComplete_of ht hc) hA he'
        have : (parserOf g ts toks).table.get (A, t) = some p := hp
        rw [he] at this
        cases this
  rcases halts_all (ps := parserOf g ts toks) (tableSound_of ht) (tableComplete_of ht hc) [.nt A] 0 with
    ⟨f, ks, d, l, hr⟩ | hp
  · cases hr with
    | nt htok hp hrun hrest =>
      obtain ⟨q, hq, hpq⟩ := hps.some _ _ _ _ hρ hp
      obtain ⟨f', ks', hrun', hks⟩ := hi.run hps.toSubPs hpq hrun
      obtain ⟨m, hm⟩ := run_parseAst htok hp hrun
      obtain ⟨m', hm'⟩ := run_parseAst (ps := parserOf g' ts' toks) htok hq hrun'
      refine ⟨max m m', fun j hj => ?_⟩
      rw [Parser.parseRule_ok.2 ⟨_, hm j (by omega)⟩, Parser.parseRule_ok.2 ⟨_, hm' j (by omega)⟩]
      have hname := hnm A A' hρ
      simp only [Vocabulary.getNonterminalNameById] at hname hm0
      refine ⟨by simp, ?_⟩
      simp only [Except.map, RuleContext.toAst, Ast.relabel, hks, parserOf, Vocabulary.getNonterminalNameWithDefault]
      rw [hname, hm0]; rfl
  · obtain ⟨m, hm⟩ := panics_parseAst hp
    obtain ⟨m', hm'⟩ := panics_parseAst (hi.panics hps (.cons hρ .nil) hp)
    refine ⟨max m m', fun j hj => ?_⟩
    simp only [Parser.parseRule, hm j (by omega), hm' j (by omega), bind_error]
    exact ⟨by simp, rfl⟩

end

/-! ## the same rules over renumbered tokens -/

/-- the renumbered item of an element in one grammar and its item in the other, or the same token -/
def SameElem (τ : Nat → Nat) (D : Rules) (s s' : ProdState) (x y : Item) : Prop :=
  (∃ e x0, IsSymbol D e ∧ look s e = some x0 ∧ x = x0.renum τ ∧ look s' e = some y) ∨ ∃ a, x = .t a ∧ y = .t a

/-- two files with the same rules; the numbers of the tokens correspond -/
structure Over (τ : Nat → Nat) (D : Rules) (s2 s2' : SymState) (s3 s3' : ProdState) : Prop where
  left : Desugared D s2 s3
  right : Desugared D s2' s3'
  clash : NoClash s3.uses
  clash' : NoClash s3'.uses
  inj : Function.Injective τ
  tok : ∀ n a, s3.grammar.vocabulary.getTerminalIdByName n = some a →
    s3'.grammar.vocabulary.getTerminalIdByName n = some (τ a)

section
variable {τ : Nat → Nat} {D : Rules} {s2 s2' : SymState} {s3 s3' : ProdState}

theorem Over.kind (h : Over τ D s2 s2' s3 s3') {e : Elem} {x y : Item} (h1 : look s3 e = some x)
    (h2 : look s3' e = some y) : (∃ a, x = .t a ∧ y = .t (τ a)) ∨ ∃ A B, x = .nt A ∧ y = .nt B := by
  cases e with
  | tok n =>
    left
    rw [look, Option.map_eq_some_iff] at h1
    rw [look] at h2
    obtain ⟨a, h1, rfl⟩ := h1
    rw [h.tok n a h1] at h2
    exact ⟨a, rfl, (Option.some.inj h2).symm⟩
  | ref n =>
    obtain ⟨A, h3⟩ := look_kind h1
    obtain ⟨B, h4⟩ := look_kind h2
    exact .inr ⟨A, B, h3, h4⟩
  | group alts =>
    obtain ⟨A, h3⟩ := look_kind h1
    obtain ⟨B, h4⟩ := look_kind h2
    exact .inr ⟨A, B, h3, h4⟩
  | rep f e =>
    obtain ⟨A, h3⟩ := look_kind h1
    obtain ⟨B, h4⟩ := look_kind h2
    exact .inr ⟨A, B, h3, h4⟩

theorem Over.tok_eq (h : Over τ D s2 s2' s3 s3') {e : Elem} {x y : Item} {a : Nat} (h1 : look s3 e = some x)
    (h2 : look s3' e = some y) (ha : x.renum τ = .t a ∨ y = .t a) : x.renum τ = y := by
  rcases h.kind h1 h2 with ⟨b, rfl, rfl⟩ | ⟨A, B, rfl, rfl⟩
  · rfl
  · rcases ha with ha | ha <;> cases ha

theorem Over.fn (h : Over τ D s2 s2' s3 s3') {x y z : Item} (hy : SameElem τ D s3 s3' x y)
    (hz : SameElem τ D s3 s3' x z) : y = z := by
  rcases hy with ⟨e, x0, i1, h1, rfl, h2⟩ | ⟨b, rfl, rfl⟩
  · rcases hz with ⟨e', x0', i1', h1', hx, h2'⟩ | ⟨b, hb, rfl⟩
    · cases Item.renum_inj h.inj hx
      have := look_inj h.left.inv h.left.cinv h.clash h.left.tok e e' (h.left.look e i1).1 (h.left.look e' i1').1 h1 h1'
      subst this
      rw [h2] at h2'
      exact Option.some.inj h2'
    · rw [← h.tok_eq h1 h2 (.inl hb), hb]
  · rcases hz with ⟨e', x0', i1', h1', hx, h2'⟩ | ⟨b, h3, rfl⟩
    · rw [← h.tok_eq h1' h2' (.inl hx.symm), hx]
    · exact h3

theorem Over.inj' (h : Over τ D s2 s2' s3 s3') {x y z : Item} (hy : SameElem τ D s3 s3' x z)
    (hz : SameElem τ D s3 s3' y z) : x = y := by
  rcases hy with ⟨e, x0, i1, h1, rfl, h2⟩ | ⟨b, rfl, rfl⟩
  · rcases hz with ⟨e', x0', i1', h1', rfl, h2'⟩ | ⟨b, rfl, hb⟩
    · have := look_inj h.right.inv h.right.cinv h.clash' h.right.tok _ _ (h.right.look _ i1).1
        (h.right.look _ i1').1 h2 h2'
      subst this
      rw [h1] at h1'
      rw [Option.some.inj h1']
    · rw [h.tok_eq h1 h2 (.inr hb), hb]
  · rcases hz with ⟨e', x0', i1', h1', rfl, h2'⟩ | ⟨b, rfl, h3⟩
    · exact (h.tok_eq h1' h2' (.inr rfl)).symm
    · exact h3

theorem Over.expand (h : Over τ D s2 s2' s3 s3') {a : List Elem} (ha : ∀ e ∈ a, e ∈ rulesParts D) :
    ∃ β β', lookSeq s3 a = some β ∧ lookSeq s3' a = some β' ∧
      List.Forall₂ (SameElem τ D s3 s3') (β.map (Item.renum τ)) β' := by
  induction a with
  | nil => exact ⟨[], [], rfl, rfl, .nil⟩
  | cons e a ih =>
    obtain ⟨γ, γ', h3, h4, h5⟩ := ih (fun e he => ha e (by simp [he]))
    have hm := ha e (by simp)
    obtain ⟨_, x, hx⟩ := h.left.look e (.inl hm)
    obtain ⟨_, y, hy⟩ := h.right.look _ (.inl hm)
    exact ⟨x :: γ, y :: γ', by rw [lookSeq, hx, Option.bind_some, h3]; rfl,
      by rw [lookSeq, hy, Option.bind_some, h4]; rfl, .cons (.inl ⟨e, x, .inl hm, hx, rfl, hy⟩) h5⟩

theorem Over.prod (h : Over τ D s2 s2' s3 s3') {e : Elem} {a : List Elem} (he : Expands D e a) :
    ∃ A A' β β', look s3 e = some (.nt A) ∧ lookSeq s3 a = some β ∧ look s3' e = some (.nt A') ∧
      lookSeq s3' a = some β' ∧ SameElem τ D s3 s3' (.nt A) (.nt A') ∧
      List.Forall₂ (SameElem τ D s3 s3') (β.map (Item.renum τ)) β' := by
  obtain ⟨β, β', h3, h4, h5⟩ := h.expand he.right_parts
  obtain ⟨_, x, hx⟩ := h.left.look e he.left_symbol
  obtain ⟨_, y, hy⟩ := h.right.look _ he.left_symbol
  have hnt : ∃ A, x = .nt A := by
    have := look_kind hx
    cases he <;> exact this
  obtain ⟨A, rfl⟩ := hnt
  rcases h.kind hx hy with ⟨_, h6, _⟩ | ⟨_, B, _, rfl⟩
  · cases h6
  · exact ⟨A, B, β, β', hx, h3, hy, h4, .inl ⟨e, _, he.left_symbol, hx, rfl, hy⟩, h5⟩

theorem Over.iso (h : Over τ D s2 s2' s3 s3') :
    Iso (SameElem τ D s3 s3') (s3.grammar.renum τ).productions s3'.grammar.productions where
  tok a := .inr ⟨a, rfl, rfl⟩
  fn _ _ _ h1 h2 := h.fn h1 h2
  inj _ _ _ h1 h2 := h.inj' h1 h2
  fwd p hp := by
    obtain ⟨p, hp', rfl⟩ := List.mem_map.1 hp
    obtain ⟨e, a, he, h1, h2⟩ := (h.left.prods p.left p.right).1 hp'
    obtain ⟨A, A', β, β', e1, e2, e3, e4, e5, e6⟩ := h.prod he
    rw [h1] at e1
    rw [h2] at e2
    cases e1
    cases e2
    exact ⟨⟨A', β'⟩, (h.right.prods A' β').2 ⟨_, _, he, e3, e4⟩, e5, e6⟩
  bwd q hq := by
    obtain ⟨e, a, he, h1, h2⟩ := (h.right.prods q.left q.right).1 hq
    obtain ⟨A, A', β, β', e1, e2, e3, e4, e5, e6⟩ := h.prod he
    rw [h1] at e3
    rw [h2] at e4
    cases e3
    cases e4
    exact ⟨(⟨A, β⟩ : Production).renum τ, List.mem_map_of_mem ((h.left.prods A β).2 ⟨_, _, he, e1, e2⟩), e5, e6⟩

/-- corresponding rules have the same name or both have none -/
theorem Over.names (h : Over τ D s2 s2' s3 s3')
    (hv : ∀ n i, s3.grammar.vocabulary.ntNameToId.get n = some i ↔ s3.grammar.vocabulary.ntIdToName.get i = some n)
    (hv' : ∀ n i, s3'.grammar.vocabulary.ntNameToId.get n = some i ↔ s3'.grammar.vocabulary.ntIdToName.get i = some n)
    {A A' : Nat} (hA : SameElem τ D s3 s3' (.nt A) (.nt A')) :
    s3'.grammar.vocabulary.getNonterminalNameById A' = s3.grammar.vocabulary.getNonterminalNameById A := by
  have anon : ∀ {s2 : SymState} {s3 : ProdState}, Desugared D s2 s3 → ∀ A, (envOf s2).base ≤ A →
      s3.grammar.vocabulary.getNonterminalNameById A = none := by
    intro s2 s3 hd A hle
    cases hn : s3.grammar.vocabulary.getNonterminalNameById A with
    | none => rfl
    | some n =>
      have := hd.inv.old A (hd.inv.named A n hn)
      omega
  have fresh : ∀ {s2 : SymState} {s3 : ProdState}, Desugared D s2 s3 → ∀ (e : Elem) A,
      look s3 e = some (.nt A) → (∀ n, e ≠ .ref n) → (envOf s2).base ≤ A := by
    intro s2 s3 hd e A he hne
    cases e with
    | tok n =>
      obtain ⟨_, h3⟩ := look_kind he
      cases h3
    | ref n => exact absurd rfl (hne n)
    | group alts =>
      rw [look, Option.bind_eq_some_iff] at he
      obtain ⟨rs, _, he⟩ := he
      rw [Option.map_eq_some_iff] at he
      obtain ⟨B, he, hB⟩ := he
      cases hB
      exact (hd.inv.block rs _ he).1
    | rep f e =>
      rw [look, Option.bind_eq_some_iff] at he
      obtain ⟨x, _, he⟩ := he
      rw [Option.map_eq_some_iff] at he
      obtain ⟨B, he, hB⟩ := he
      cases hB
      exact (hd.inv.cache f _ _ he).1
  rcases hA with ⟨e, x0, _, h1, hx, h2⟩ | ⟨a, h1, _⟩
  · have hx : x0 = .nt A := by
      cases x0 with
      | nt B => exact hx.symm
      | t b => cases hx
    subst hx
    by_cases hr : ∃ n, e = .ref n
    · obtain ⟨n, rfl⟩ := hr
      rw [look, Option.map_eq_some_iff] at h1 h2
      obtain ⟨B, h1, hB⟩ := h1
      obtain ⟨B', h2, hB'⟩ := h2
      cases hB
      cases hB'
      rw [Vocabulary.getNonterminalNameById, Vocabulary.getNonterminalNameById, (hv n _).1 h1, (hv' n _).1 h2]
    · have hr' : ∀ n, e ≠ .ref n := fun n hn => hr ⟨n, hn⟩
      rw [anon h.left A (fresh h.left e A h1 hr'), anon h.right A' (fresh h.right e A' h2 hr')]
  · cases h1

end

/-! ## the theorems -/

/-- two files with the same parser rules in the same order, and the same lexer rules in any order; every token is defined
once, by a regular expression -/
structure LexReordered (lc : LexConsts) (ast ast' : RuleContext) (D : Rules) (defs defs' : List (Str × Str)) : Prop where
  nodes : ∀ k ∈ ast.children, k.isRule 1 = true ∨ k.isRule 7 = true
  nodes' : ∀ k ∈ ast'.children, k.isRule 1 = true ∨ k.isRule 7 = true
  read : readRules lc ast.children = some D
  read' : readRules lc ast'.children = some D
  lex : readLexRules lc ast.children = defs.map fun d => some (d.1, '/' :: d.2 ++ ['/'])
  lex' : readLexRules lc ast'.children = defs'.map fun d => some (d.1, '/' :: d.2 ++ ['/'])
  perm : defs.Perm defs'
  once : (defs.map Prod.fst).Nodup
  free : ∀ d ∈ defs, d.1 ≠ "_START".toList ∧ d.1 ≠ "_STOP".toList

/-- the same lexer rule with another number -/
def LexerRuleData.renum (τ : Nat → Nat) (d : LexerRuleData) : LexerRuleData := { d with tokenType := τ d.tokenType }

theorem firstWins_all {seen : List Str} {ds : List (Str × Str)} (h : (ds.map Prod.fst).Nodup)
    (hs : ∀ d ∈ ds, d.1 ∉ seen) : firstWins seen ds = ds := by
  induction ds generalizing seen with
  | nil => rfl
  | cons d ds ih =>
    rw [List.map_cons, List.nodup_cons] at h
    rw [firstWins, if_neg (hs d (by simp)), ih h.2]
    intro d' hd'
    rw [List.mem_cons, not_or]
    exact ⟨fun e => h.1 (e ▸ List.mem_map_of_mem hd'), hs d' (by simp [hd'])⟩

theorem getElem?_numbered (l : List (Str × Str)) (i k : Nat) :
    (numbered i l)[k]? = (l[k]?).map fun d => ⟨i + k, d.1, "^(".toList ++ unescapeSlash d.2 ++ ")".toList⟩ := by
  induction l generalizing i k with
  | nil => simp [numbered]
  | cons d l ih =>
    cases k with
    | zero => simp [numbered]
    | succ k =>
      simp only [numbered, List.getElem?_cons_succ, ih]
      congr 1
      funext d
      rw [Nat.add_right_comm, Nat.add_assoc]

section
variable {lc : LexConsts} {ast ast' : RuleContext} {name name' : Str} {fuel fuel' : Nat}

/-- the data of the lexer -/
theorem data_of {D : Rules} {defs defs' : List (Str × Str)} (h : LexReordered lc ast ast' D defs defs')
    {g : Grammar} {data : List LexerRuleData} (hb : buildGrammar lc fuel ast (Grammar.new name) 2 0 = .ok (g, data)) :
    data = numbered 2 defs := by
  obtain ⟨s2, s3, hst, rfl, rfl⟩ := buildGrammar_ok hb
  rw [buildStates, bind_eq_ok] at hst
  obtain ⟨s1, h1, hst⟩ := hst
  rw [bind_eq_ok] at hst
  obtain ⟨s2', h2, hst⟩ := hst
  rw [bind_eq_ok] at hst
  obtain ⟨s3', h3, hst⟩ := hst
  cases hst
  have e := runLit_ok h1
  subst e
  rw [C50_symbol_visitor ast defs name (Nat.le_refl 2) ?_ h2, firstWins_all h.once]
  · intro d hd
    obtain ⟨e1, e2⟩ := h.free d hd
    rw [List.mem_cons, List.mem_singleton, not_or]
    exact ⟨e1, e2⟩
  · rw [lexNodes, topmost, topmost_children h.nodes]
    exact h.lex

theorem LexReordered.symm {D : Rules} {defs defs' : List (Str × Str)} (h : LexReordered lc ast ast' D defs defs') :
    LexReordered lc ast' ast D defs' defs :=
  ⟨h.nodes', h.nodes, h.read', h.read, h.lex', h.lex, h.perm.symm, (h.perm.map _).nodup_iff.1 h.once,
    fun d hd => h.free d (h.perm.mem_iff.2 hd)⟩

/-- the numbers of the token names -/
theorem tokenIds (hf : sizeOf ast.toAst ≤ fuel) {g : Grammar} {data : List LexerRuleData}
    (hb : buildGrammar lc fuel ast (Grammar.new name) 2 0 = .ok (g, data)) (n : Str) (i : Nat) :
    g.vocabulary.getTerminalIdByName n = some i ↔
      ("_START".toList :: "_STOP".toList :: data.map (·.tokenName))[i]? = some n := by
  obtain ⟨s2, s3, hst, rfl, rfl⟩ := buildGrammar_ok hb
  have hB := build_ok (Nat.le_refl 2) hf hst
  obtain ⟨a1, _⟩ := hB.names
  have hs := hB.sym
  rw [Vocabulary.getTerminalIdByName, a1, hs.voc.t_inv]
  match i with
  | 0 => rw [hs.voc.start]; rfl
  | 1 => rw [hs.voc.stop]; rfl
  | k + 2 =>
    simp only [List.getElem?_cons_succ, List.getElem?_map]
    cases hd : s2.data[k]? with
    | some d =>
      have := (hs.data k d hd).2
      rw [Nat.add_comm] at this
      rw [Vocabulary.getTerminalNameById] at this
      rw [this]
      rfl
    | none =>
      simp only [Option.map_none, reduceCtorEq, iff_false]
      intro hn
      have := (hs.tok (k + 2)).1 ((hs.voc.t_mem _).2 ⟨n, hn⟩)
      have hl := List.getElem?_eq_none_iff.1 hd
      have := hs.next
      omega

theorem names_numbered (l : List (Str × Str)) (i : Nat) : (numbered i l).map (·.tokenName) = l.map Prod.fst := by
  induction l generalizing i with
  | nil => rfl
  | cons d l ih => simp only [numbered, List.map_cons, ih]

/-- **C100** the numbers of the tokens correspond: reordering the lexer rules gives every token another number, and the data
of the lexer is the renumbered data in another order. -/
theorem C100_tokens {D : Rules} {defs defs' : List (Str × Str)} (h : LexReordered lc ast ast' D defs defs')
    (hf : sizeOf ast.toAst ≤ fuel) (hf' : sizeOf ast'.toAst ≤ fuel') {g g' : Grammar} {data data' : List LexerRuleData}
    (hb : buildGrammar lc fuel ast (Grammar.new name) 2 0 = .ok (g, data))
    (hb' : buildGrammar lc fuel' ast' (Grammar.new name') 2 0 = .ok (g', data')) :
    ∃ τ : Nat → Nat, Function.Injective τ ∧ τ 1 = 1 ∧ (∀ n, g'.vocabulary.getTerminalIdByName n =
      (g.vocabulary.getTerminalIdByName n).map τ) ∧ data'.Perm (data.map (LexerRuleData.renum τ)) := by
  have hd := data_of h hb
  have hd' := data_of h.symm hb'
  let mk : Str × Str → Matcher × Str := fun d => (fun _ => none, d.1)
  have hr : ∀ l : List (Str × Str), ruleNames (l.map mk) = "_START".toList :: "_STOP".toList :: l.map Prod.fst := by
    intro l
    simp [ruleNames, mk, Function.comp_def]
  have hres : ∀ x ∈ defs.map Prod.fst, x ≠ "_START".toList ∧ x ≠ "_STOP".toList := by
    intro x hx
    obtain ⟨d, hd, rfl⟩ := List.mem_map.1 hx
    exact h.free d hd
  have hnd : (ruleNames (defs.map mk)).Nodup := by
    rw [hr, List.nodup_cons, List.nodup_cons]
    refine ⟨?_, fun hm => (hres _ hm).2 rfl, h.once⟩
    rw [List.mem_cons, not_or]
    exact ⟨by decide, fun hm => (hres _ hm).1 rfl⟩
  obtain ⟨τ, hτ, h1, hi⟩ := C99_numbering _ _ (h.perm.map mk) hnd
  have hid := tokenIds hf hb
  have hid' := tokenIds hf' hb'
  rw [hd, names_numbered] at hid
  rw [hd', names_numbered] at hid'
  rw [hr, hr] at hi
  have htok : ∀ n, g'.vocabulary.getTerminalIdByName n = (g.vocabulary.getTerminalIdByName n).map τ := by
    intro n
    cases e : g.vocabulary.getTerminalIdByName n with
    | some i =>
      have := (hid n i).1 e
      refine (hid' n (τ i)).2 ?_
      rw [hi i (List.getElem?_eq_some_iff.1 this).1, this]
    | none =>
      cases e' : g'.vocabulary.getTerminalIdByName n with
      | none => rfl
      | some i' =>
        have hm := List.mem_of_getElem? ((hid' n i').1 e')
        have hp : ("_START".toList :: "_STOP".toList :: defs.map Prod.fst).Perm
            ("_START".toList :: "_STOP".toList :: defs'.map Prod.fst) := .cons _ (.cons _ (h.perm.map _))
        obtain ⟨i, hi⟩ := List.mem_iff_getElem?.1 (hp.mem_iff.2 hm)
        rw [(hid n i).2 hi] at e
        cases e
  refine ⟨τ, hτ, h1, htok, ?_⟩
  have nodup_num : ∀ (l : List (Str × Str)) i, (numbered i l).Nodup := by
    intro l i
    rw [List.nodup_iff_getElem?_ne_getElem?]
    intro a b hab hb
    rw [getElem?_numbered, getElem?_numbered]
    have hb : b < l.length := by
      have := congrArg List.length (names_numbered l i)
      simp only [List.length_map] at this
      omega
    rw [List.getElem?_eq_getElem hb, List.getElem?_eq_getElem (by omega)]
    simp only [Option.map_some, ne_eq, Option.some.injEq, LexerRuleData.mk.injEq, not_and]
    intro h
    omega
  have hlen : ∀ {a b : List (Str × Str)}, a.Perm b → (numbered 2 a).length = (numbered 2 b).length := by
    intro a b hp
    have e1 := congrArg List.length (names_numbered a 2)
    have e2 := congrArg List.length (names_numbered b 2)
    simp only [List.length_map] at e1 e2
    rw [e1, e2, hp.length_eq]
  have hinj : Function.Injective (LexerRuleData.renum τ) := by
    intro a b e
    cases a; cases b
    simp only [LexerRuleData.renum, LexerRuleData.mk.injEq] at e ⊢
    exact ⟨hτ e.1, e.2⟩
  have hnd2 : ((numbered 2 defs).map (LexerRuleData.renum τ)).Nodup := (nodup_num defs 2).map hinj
  rw [hd, hd']
  refine ((List.subperm_of_subset hnd2 ?_).perm_of_length_le ?_).symm
  · intro d hd0
    obtain ⟨d0, hd1, rfl⟩ := List.mem_map.1 hd0
    obtain ⟨k, hk⟩ := List.mem_iff_getElem?.1 hd1
    rw [getElem?_numbered, Option.map_eq_some_iff] at hk
    obtain ⟨x, hx, rfl⟩ := hk
    obtain ⟨k', hk'⟩ := List.mem_iff_getElem?.1 (h.perm.mem_iff.1 (List.mem_of_getElem? hx))
    have e : ("_START".toList :: "_STOP".toList :: defs.map Prod.fst)[k + 2]? = some x.1 := by
      simp [List.getElem?_map, hx]
    have e' : ("_START".toList :: "_STOP".toList :: defs'.map Prod.fst)[k' + 2]? = some x.1 := by
      simp [List.getElem?_map, hk']
    have := htok x.1
    rw [(hid _ _).2 e, (hid' _ _).2 e', Option.map_some, Option.some.injEq] at this
    refine List.mem_iff_getElem?.2 ⟨k', ?_⟩
    rw [getElem?_numbered, hk']
    simp only [Option.map_some, LexerRuleData.renum]
    rw [Nat.add_comm 2 k, ← this, Nat.add_comm]
  · rw [List.length_map]
    exact (hlen h.perm).ge

/-- the correspondence of the rules, with what is known about it -/
theorem LexReordered.iso {D : Rules} {defs defs' : List (Str × Str)} (h : LexReordered lc ast ast' D defs defs')
    {g g' : Grammar} (hs : SuffixesApart D g.vocabulary) (hs' : SuffixesApart D g'.vocabulary)
    (hf : sizeOf ast.toAst ≤ fuel) (hf' : sizeOf ast'.toAst ≤ fuel') {data data' : List LexerRuleData}
    (hb : buildGrammar lc fuel ast (Grammar.new name) 2 0 = .ok (g, data))
    (hb' : buildGrammar lc fuel' ast' (Grammar.new name') 2 0 = .ok (g', data'))
    {τ : Nat → Nat} (hτ : Function.Injective τ)
    (htok : ∀ n, g'.vocabulary.getTerminalIdByName n = (g.vocabulary.getTerminalIdByName n).map τ) :
    τ 1 = 1 ∧ ∃ ρ, Iso ρ (g.renum τ).productions g'.productions ∧
      (∀ n A A', g.vocabulary.getNonterminalIdByName n = some A → g'.vocabulary.getNonterminalIdByName n = some A' →
        ρ (.nt A) (.nt A')) ∧
      (D ≠ [] → ρ (.nt 0) (.nt 0)) ∧
      (∀ A A', ρ (.nt A) (.nt A') →
        g'.vocabulary.getNonterminalNameById A' = g.vocabulary.getNonterminalNameById A) ∧
      (∀ n A, g.vocabulary.getNonterminalIdByName n = some A → g.vocabulary.getNonterminalNameById A = some n) ∧
      (D ≠ [] → 0 ∈ g.vocabulary.nonterminals) := by
  have hsym : ∀ n A, g.vocabulary.getNonterminalIdByName n = some A → IsSymbol D (.ref n) :=
    fun n A => named_symbol (Nat.le_refl 2) hf hb h.nodes h.read
  have hfirst : ∀ n alts E, D = (n, alts) :: E → g.vocabulary.getNonterminalIdByName n = some 0 := by
    rintro n alts E rfl
    exact C77_first_rule (Nat.le_refl 2) hf hb h.nodes h.read
  have hfirst' : ∀ n alts E, D = (n, alts) :: E → g'.vocabulary.getNonterminalIdByName n = some 0 := by
    rintro n alts E rfl
    exact C77_first_rule (Nat.le_refl 2) hf' hb' h.nodes' h.read'
  have h1 : τ 1 = 1 := by
    have e := (tokenIds hf hb "_STOP".toList 1).2 rfl
    have e' := (tokenIds hf' hb' "_STOP".toList 1).2 rfl
    rw [htok, e] at e'
    exact Option.some.inj e'
  obtain ⟨s2, s3, hst, rfl, rfl⟩ := buildGrammar_ok hb
  obtain ⟨s2', s3', hst', rfl, rfl⟩ := buildGrammar_ok hb'
  have hc := noClash_of_apart (Nat.le_refl 2) hf hst h.read hs
  have hc' := noClash_of_apart (Nat.le_refl 2) hf' hst' h.read' hs'
  have B : Over τ D s2 s2' s3 s3' := ⟨desugared (Nat.le_refl 2) hf hst hc h.read, desugared (Nat.le_refl 2) hf' hst' hc' h.read',
    hc, hc', hτ, fun n a hn => by rw [htok, hn]; rfl⟩
  have hn : ∀ n A A', s3.grammar.vocabulary.getNonterminalIdByName n = some A →
      s3'.grammar.vocabulary.getNonterminalIdByName n = some A' → SameElem τ D s3 s3' (.nt A) (.nt A') := by
    intro n A A' h1 h2
    exact .inl ⟨.ref n, .nt A, hsym n A h1, by rw [look, h1]; rfl, rfl, by rw [look, h2]; rfl⟩
  have hv := vinv_build (Nat.le_refl 2) hf hst
  have hB := build_ok (Nat.le_refl 2) hf hst
  refine ⟨h1, _, B.iso, hn, ?_, fun A A' hA => B.names hv (vinv_build (Nat.le_refl 2) hf' hst') hA,
    fun n A hA => (hv n A).1 hA, ?_⟩
  · intro hne
    cases D with
    | nil => exact absurd rfl hne
    | cons r D => exact hn r.1 0 0 (hfirst r.1 r.2 D rfl) (hfirst' r.1 r.2 D rfl)
  · intro hne
    cases D with
    | nil => exact absurd rfl hne
    | cons r D =>
      have h0 := hfirst r.1 r.2 D rfl
      have hI := hB.inv
      exact (hI.ids 0).2 (.inl (hI.named 0 r.1 ((hv r.1 0).1 h0)))

/-- **C100**, what holds: the sentences of a rule are the renumbered sentences of the rule of the same name.  Missing (false):
files in which a token and something else with the same number have the same suffix, `C100_order_matters`. -/
theorem C100_language_partial {D : Rules} {defs defs' : List (Str × Str)} (h : LexReordered lc ast ast' D defs defs')
    {g g' : Grammar} (hs : SuffixesApart D g.vocabulary) (hs' : SuffixesApart D g'.vocabulary)
    (hf : sizeOf ast.toAst ≤ fuel) (hf' : sizeOf ast'.toAst ≤ fuel') {data data' : List LexerRuleData}
    (hb : buildGrammar lc fuel ast (Grammar.new name) 2 0 = .ok (g, data))
    (hb' : buildGrammar lc fuel' ast' (Grammar.new name') 2 0 = .ok (g', data'))
    {τ : Nat → Nat} (hτ : Function.Injective τ)
    (htok : ∀ n, g'.vocabulary.getTerminalIdByName n = (g.vocabulary.getTerminalIdByName n).map τ) (n : Str) (A A' : Nat)
    (hA : g.vocabulary.getNonterminalIdByName n = some A) (hA' : g'.vocabulary.getNonterminalIdByName n = some A')
    (w : List Nat) : Sentence g'.productions A' w ↔ ∃ v, w = v.map τ ∧ Sentence g.productions A v := by
  obtain ⟨_, ρ, hi, hn, _⟩ := h.iso hs hs' hf hf' hb hb' hτ htok
  rw [← hi.sentence_iff (hn n A A' hA hA') w, C99_language (renumbered_renum τ g)]

/-- **C100**, what holds: for all hash orders, a conflict is printed for one file iff one is printed for the other.  Missing
(false): as for `C100_language_partial`. -/
theorem C100_conflicts_partial {D : Rules} {defs defs' : List (Str × Str)} (h : LexReordered lc ast ast' D defs defs')
    {g g' : Grammar} (hs : SuffixesApart D g.vocabulary) (hs' : SuffixesApart D g'.vocabulary) (hD : D ≠ [])
    (hf : sizeOf ast.toAst ≤ fuel) (hf' : sizeOf ast'.toAst ≤ fuel') {data data' : List LexerRuleData}
    (hb : buildGrammar lc fuel ast (Grammar.new name) 2 0 = .ok (g, data))
    (hb' : buildGrammar lc fuel' ast' (Grammar.new name') 2 0 = .ok (g', data')) {o : IterOrder g} {o' : IterOrder g'}
    {so so' : SetOrder} {k k' : Nat} {ts ts' : TableState} (ht : runTable g o so k = .ok ts)
    (ht' : runTable g' o' so' k' = .ok ts') : ts.conflicts = [] ↔ ts'.conflicts = [] := by
  obtain ⟨τ, hτ, _, htok, _⟩ := C100_tokens h hf hf' hb hb'
  obtain ⟨h1, ρ, hi, _, hz, _⟩ := h.iso hs hs' hf hf' hb hb' hτ htok
  rw [C16_conflict_iff_not_ll1 g o so k ts ht, C16_conflict_iff_not_ll1 g' o' so' k' ts' ht', ← hi.ll1_iff (hz hD)]
  exact (ll1_renum (renumbered_renum τ g).productions hτ h1).symm

/-- **C100**, what holds: without conflicts, parsing the renumbered tokens from the rule of the same name has the same outcome:
a panic, or the same tree and the same messages up to the numbers.  Missing (false): as for `C100_language_partial`. -/
theorem C100_parse_partial {D : Rules} {defs defs' : List (Str × Str)} (h : LexReordered lc ast ast' D defs defs')
    {g g' : Grammar} (hs : SuffixesApart D g.vocabulary) (hs' : SuffixesApart D g'.vocabulary) (hD : D ≠ [])
    (hf : sizeOf ast.toAst ≤ fuel) (hf' : sizeOf ast'.toAst ≤ fuel') {data data' : List LexerRuleData}
    (hb : buildGrammar lc fuel ast (Grammar.new name) 2 0 = .ok (g, data))
    (hb' : buildGrammar lc fuel' ast' (Grammar.new name') 2 0 = .ok (g', data')) {o : IterOrder g} {o' : IterOrder g'}
    {so so' : SetOrder} {k k' : Nat} {ts ts' : TableState} (ht : runTable g o so k = .ok ts)
    (ht' : runTable g' o' so' k' = .ok ts') (hc : ts.conflicts = [])
    {τ : Nat → Nat} (hτ : Function.Injective τ)
    (htok : ∀ n, g'.vocabulary.getTerminalIdByName n = (g.vocabulary.getTerminalIdByName n).map τ)
    (toks : List Token) (n : Str) (A A' : Nat)
    (hA : g.vocabulary.getNonterminalIdByName n = some A) (hA' : g'.vocabulary.getNonterminalIdByName n = some A') :
    ∃ m, ∀ j, m ≤ j → (parserOf g ts toks).parseRule A j ≠ .error .fuel ∧
      ((parserOf g ts toks).parseRule A j).map (fun r => ((r.1.renum τ).toAst.relabel id, r.2.renum τ)) =
        ((parserOf g' ts' (toks.map (Token.renum τ))).parseRule A' j).map (fun r => (r.1.toAst.relabel id, r.2)) := by
  have hc' := (C100_conflicts_partial h hs hs' hD hf hf' hb hb' ht ht').1 hc
  obtain ⟨h1, ρ, hi, hn, hz, hnm, hid, h0⟩ := h.iso hs hs' hf hf' hb hb' hτ htok
  obtain ⟨ts2, ht2⟩ := C74_table_rounds (g.renum τ) (renumOrder hτ o) so
    (renum_wellFormed (C45_wellFormed (Nat.le_refl 2) hf hb)) (h0 hD)
  have ht2 := ht2 _ (Nat.lt_succ_self _)
  have hc2 := (C99_conflicts (renumbered_renum τ g) hτ h1 ht ht2).2 hc
  obtain ⟨m, hm⟩ := hi.parse_same (g := g.renum τ) (ν := id) (hz hD)
    (fun A A' hA => by rw [Option.map_id, id, hnm A A' hA]; rfl) ht2 ht' hc2 hc' (toks.map (Token.renum τ)) (hn n A A' hA hA')
    (m0 := n) (hid n A hA)
  refine ⟨m, fun j hj => ?_⟩
  obtain ⟨e1, e2⟩ := hm j hj
  rw [C99_parse (renumbered_renum τ g) hτ h1 ht ht2 hc toks A j] at e1 e2
  refine ⟨fun e => e1 (by rw [e]; rfl), ?_⟩
  rw [← e2]
  cases (parserOf g ts toks).parseRule A j <;> rfl

/-- the rules of the lexer generated from this data -/
def rulesOf (compile : Str → Matcher) (data : List LexerRuleData) : List (Matcher × Str) :=
  data.map fun d => (compile d.regex, d.tokenName)

theorem generatedLexer_rules (compile : Str → Matcher) (data : List LexerRuleData) (input : Str) :
    generatedLexer compile data input =
      Lexer.new ((rulesOf compile data).map Prod.fst) (ruleNames (rulesOf compile data)) input := by
  simp [generatedLexer, rulesOf, ruleNames, Function.comp_def]

/-- **C100**, what holds: from the text to the tree.  If no two lexer rules report the same match in the text, the two generated
lexers print the same, the tokens of one are those of the other with other type numbers, and if the tables have no conflicts
the generated parsers return the same tree and messages up to the numbers.  Missing (false): as for `C100_language_partial`. -/
theorem C100_text_partial {D : Rules} {defs defs' : List (Str × Str)} (h : LexReordered lc ast ast' D defs defs')
    {g g' : Grammar} (hs : SuffixesApart D g.vocabulary) (hs' : SuffixesApart D g'.vocabulary) (hD : D ≠ [])
    (hf : sizeOf ast.toAst ≤ fuel) (hf' : sizeOf ast'.toAst ≤ fuel') {data data' : List LexerRuleData}
    (hb : buildGrammar lc fuel ast (Grammar.new name) 2 0 = .ok (g, data))
    (hb' : buildGrammar lc fuel' ast' (Grammar.new name') 2 0 = .ok (g', data')) {o : IterOrder g} {o' : IterOrder g'}
    {so so' : SetOrder} {k k' : Nat} {ts ts' : TableState} (ht : runTable g o so k = .ok ts)
    (ht' : runTable g' o' so' k' = .ok ts') (hc : ts.conflicts = []) (compile : Str → Matcher) (hm : ∀ r, (compile r).Ok)
    (input : Str) (hd : ∀ rest, rest <:+ input → ∀ d ∈ data, ∀ d' ∈ data, ∀ n, 0 < n → compile d.regex rest = some n →
      compile d'.regex rest = some n → d = d') (ws : Str) (w w' : Nat)
    (hw : g.vocabulary.getTerminalIdByName ws = some w) (hw' : g'.vocabulary.getTerminalIdByName ws = some w')
    (channel : Nat) :
    ∃ τ n toks printed l l', (∀ j, n ≤ j →
        Lexer.scanAll w channel j (generatedLexer compile data input) = .ok (toks, printed, l) ∧
        Lexer.scanAll w' channel j (generatedLexer compile data' input) = .ok (toks.map (Token.renum τ), printed, l')) ∧
      ∃ m, ∀ j, m ≤ j → (parserOf g ts toks).parse j ≠ .error .fuel ∧
        ((parserOf g ts toks).parse j).map (fun r => ((r.1.renum τ).toAst.relabel id, r.2.renum τ)) =
          ((parserOf g' ts' (toks.map (Token.renum τ))).parse j).map (fun r => (r.1.toAst.relabel id, r.2)) := by
  obtain ⟨τ, hτ, h1, htok, hperm⟩ := C100_tokens h hf hf' hb hb'
  obtain ⟨_, ρ, hi, hn, hz, hnm, hid, h0⟩ := h.iso hs hs' hf hf' hb hb' hτ htok
  obtain ⟨ts2, ht2⟩ := C74_table_rounds (g.renum τ) (renumOrder hτ o) so
    (renum_wellFormed (C45_wellFormed (Nat.le_refl 2) hf hb)) (h0 hD)
  have ht2 := ht2 _ (Nat.lt_succ_self _)
  have hrs : (rulesOf compile data).Perm (rulesOf compile data') := by
    have e : rulesOf compile (data.map (LexerRuleData.renum τ)) = rulesOf compile data := by
      simp [rulesOf, LexerRuleData.renum, Function.comp_def]
    rw [← e]
    exact (hperm.map _).symm
  have hnames : ∀ data : List LexerRuleData, ruleNames (rulesOf compile data) =
      "_START".toList :: "_STOP".toList :: data.map (·.tokenName) := by
    intro data
    simp [ruleNames, rulesOf, Function.comp_def]
  have hid0 := tokenIds hf hb
  have hid' := tokenIds hf' hb'
  rw [← hnames] at hid0 hid'
  have hnd : (ruleNames (rulesOf compile data)).Nodup := by
    rw [List.nodup_iff_getElem?_ne_getElem?]
    intro i j hij hj e
    obtain ⟨x, hx⟩ : ∃ x, (ruleNames (rulesOf compile data))[j]? = some x := ⟨_, List.getElem?_eq_getElem hj⟩
    have e1 := (hid0 x j).2 hx
    rw [(hid0 x i).2 (by rw [e, hx])] at e1
    have := Option.some.inj e1
    omega
  have hix : ∀ i < (ruleNames (rulesOf compile data)).length,
      (ruleNames (rulesOf compile data'))[τ i]? = (ruleNames (rulesOf compile data))[i]? := by
    intro i hi
    obtain ⟨x, hx⟩ : ∃ x, (ruleNames (rulesOf compile data))[i]? = some x := ⟨_, List.getElem?_eq_getElem hi⟩
    rw [hx]
    refine (hid' x _).1 ?_
    rw [htok, (hid0 x i).2 hx]
    rfl
  have hww : w' = τ w := by
    rw [htok, hw] at hw'
    exact (Option.some.inj hw').symm
  subst hww
  obtain ⟨n, toks, printed, l, l', e1, -⟩ := C99_text (rulesOf compile data) (rulesOf compile data') hrs
    (by
      intro r hr
      obtain ⟨d, _, rfl⟩ := List.mem_map.1 hr
      exact hm _) hnd hτ hix input
    (by
      intro rest hsuf r hr r' hr' n hn e e'
      obtain ⟨d, hdm, rfl⟩ := List.mem_map.1 hr
      obtain ⟨d', hdm', rfl⟩ := List.mem_map.1 hr'
      rw [hd rest hsuf d hdm d' hdm' n hn e e'])
    (renumbered_renum τ g) ht ht2 hc w channel
  refine ⟨τ, n, toks, printed, l, l', fun j hj => ?_, ?_⟩
  · rw [generatedLexer_rules, generatedLexer_rules]
    exact e1 j hj
  · cases D with
    | nil => exact absurd rfl hD
    | cons r D =>
      exact C100_parse_partial h hs hs' hD hf hf' hb hb' ht ht' hc hτ htok toks r.1 0 0
        (C77_first_rule (Nat.le_refl 2) hf hb h.nodes h.read) (C77_first_rule (Nat.le_refl 2) hf' hb' h.nodes' h.read')

end

/-! ## the side condition is needed -/

namespace ExTree

/-- `r : A* u* ; s : A ; u : B ; B : /b/ ; A : /a/ ;`, the file `clash` with the lexer rules exchanged -/
def clash3 : RuleContext := ⟨[], [
  rule "r" [alt [el (tk 6 "A") star, el (tk 7 "u") star]],
  rule "s" [alt [el (tk 6 "A") []]],
  rule "u" [alt [el (tk 6 "B") []]],
  lex "B" "/b/", lex "A" "/a/"], 0⟩

theorem clash3_builds : (loadAst 5000 clash3).map (fun r => (r.1.productions,
      r.1.vocabulary.getNonterminalIdByName "r".toList, r.1.vocabulary.getTerminalIdByName "B".toList)) =
    .ok ([⟨3, []⟩, ⟨3, [.t 3, .nt 3]⟩, ⟨4, []⟩, ⟨4, [.nt 2, .nt 4]⟩, ⟨0, [.nt 3, .nt 4]⟩, ⟨1, [.t 3]⟩, ⟨2, [.t 2]⟩],
      some 0, some 2) := by
  decide +kernel

theorem clash_lex : LexReordered .old clash clash3 clashRules [("A".toList, "a".toList), ("B".toList, "b".toList)]
    [("B".toList, "b".toList), ("A".toList, "a".toList)] where
  nodes := nodes_ok (by decide +kernel)
  nodes' := nodes_ok (by decide +kernel)
  read := by rfl
  read' := by rfl
  lex := by decide +kernel
  lex' := by decide +kernel
  perm := .swap ..
  once := by decide
  free := by decide

/-- the file `split` with the lexer rules exchanged and between the parser rules -/
def split2 : RuleContext := ⟨[], [
  lex "C" "/c/",
  rule "a" [alt [el (tk 6 "B") [], el (tk 7 "a") []]],
  rule "b" [alt [el (tk 6 "C") [], el (tk 6 "B") star]],
  lex "B" "/b/",
  rule "a" [alt [el (tk 7 "b") []]]], 0⟩

end ExTree

/-- **C100** is false without the side condition: exchanging the lexer rules of `r : A* u* ; s : A ; u : B ; A : /a/ ; B : /b/ ;`
adds the word `b` to the language of `r`. -/
theorem C100_order_matters :
    ∃ (ast ast' : RuleContext) (D : Rules) (defs defs' : List (Str × Str)) (fuel : Nat) (g g' : Grammar)
      (data data' : List LexerRuleData) (n t : Str) (A A' a a' : Nat), LexReordered .old ast ast' D defs defs' ∧
      sizeOf ast.toAst ≤ fuel ∧ sizeOf ast'.toAst ≤ fuel ∧
      loadAst fuel ast = .ok (g, data) ∧ loadAst fuel ast' = .ok (g', data') ∧
      g.vocabulary.getNonterminalIdByName n = some A ∧ g'.vocabulary.getNonterminalIdByName n = some A' ∧
      g.vocabulary.getTerminalIdByName t = some a ∧ g'.vocabulary.getTerminalIdByName t = some a' ∧
      ¬ Sentence g.productions A [a] ∧ Sentence g'.productions A' [a'] := by
  have h := ExTree.clash_builds
  have h2 := ExTree.clash3_builds
  cases hb : loadAst 5000 ExTree.clash with
  | error e => rw [hb] at h; cases h
  | ok r =>
    cases hb2 : loadAst 5000 ExTree.clash3 with
    | error e => rw [hb2] at h2; cases h2
    | ok r2 =>
      obtain ⟨g, data⟩ := r
      obtain ⟨g2, data2⟩ := r2
      rw [hb] at h
      rw [hb2] at h2
      have h' := Except.ok.inj h
      have h2' := Except.ok.inj h2
      simp only [Prod.mk.injEq] at h' h2'
      refine ⟨ExTree.clash, ExTree.clash3, ExTree.clashRules, _, _, 5000, g, g2, data, data2,
        "r".toList, "B".toList, 0, 0, 3, 2, ExTree.clash_lex, by decide +kernel, by decide +kernel, hb, hb2, h'.2.1, h2'.2.1,
        h'.2.2, h2'.2.2, ?_, ?_⟩
      · intro hs
        rw [h'.1] at hs
        have := derives_within (ok := fun x => x = .t 2 ∨ x = .nt 0 ∨ x = .nt 3) (by decide) hs (by decide)
          (.t 3) (by decide)
        revert this
        decide
      · rw [h2'.1]
        have s1 := Step.mk (P := [⟨3, []⟩, ⟨3, [.t 3, .nt 3]⟩, ⟨4, []⟩, ⟨4, [.nt 2, .nt 4]⟩, ⟨0, [.nt 3, .nt 4]⟩,
          ⟨1, [.t 3]⟩, ⟨2, [.t 2]⟩]) ⟨0, [.nt 3, .nt 4]⟩ (by simp) [] []
        have s2 := Step.mk (P := [⟨3, []⟩, ⟨3, [.t 3, .nt 3]⟩, ⟨4, []⟩, ⟨4, [.nt 2, .nt 4]⟩, ⟨0, [.nt 3, .nt 4]⟩,
          ⟨1, [.t 3]⟩, ⟨2, [.t 2]⟩]) ⟨3, []⟩ (by simp) [] [.nt 4]
        have s3 := Step.mk (P := [⟨3, []⟩, ⟨3, [.t 3, .nt 3]⟩, ⟨4, []⟩, ⟨4, [.nt 2, .nt 4]⟩, ⟨0, [.nt 3, .nt 4]⟩,
          ⟨1, [.t 3]⟩, ⟨2, [.t 2]⟩]) ⟨4, [.nt 2, .nt 4]⟩ (by simp) [] []
        have s4 := Step.mk (P := [⟨3, []⟩, ⟨3, [.t 3, .nt 3]⟩, ⟨4, []⟩, ⟨4, [.nt 2, .nt 4]⟩, ⟨0, [.nt 3, .nt 4]⟩,
          ⟨1, [.t 3]⟩, ⟨2, [.t 2]⟩]) ⟨2, [.t 2]⟩ (by simp) [] [.nt 4]
        have s5 := Step.mk (P := [⟨3, []⟩, ⟨3, [.t 3, .nt 3]⟩, ⟨4, []⟩, ⟨4, [.nt 2, .nt 4]⟩, ⟨0, [.nt 3, .nt 4]⟩,
          ⟨1, [.t 3]⟩, ⟨2, [.t 2]⟩]) ⟨4, []⟩ (by simp) [.t 2] []
        exact ((((Relation.ReflTransGen.single s1).tail s2).tail s3).tail s4).tail s5

/-- non-vacuity: `a : B a ; b : C B* ; a : b ;` with the lexer rules in two orders meets all hypotheses; the tables have no
conflicts -/
example : LexReordered .old ExTree.split ExTree.split2 ExTree.splitRules [("B".toList, "b".toList), ("C".toList, "c".toList)]
      [("C".toList, "c".toList), ("B".toList, "b".toList)] ∧
    SuffixesSeparate ExTree.splitRules ∧ sizeOf ExTree.split.toAst ≤ 5000 ∧ sizeOf ExTree.split2.toAst ≤ 5000 ∧
    ExTree.conflictsOf ExTree.split = .ok [] ∧ ExTree.conflictsOf ExTree.split2 = .ok [] :=
  ⟨⟨ExTree.nodes_ok (by decide +kernel), ExTree.nodes_ok (by decide +kernel), by rfl, by rfl, by decide +kernel,
    by decide +kernel, .swap .., by decide, by decide⟩, ExTree.split_separate, by decide +kernel, by decide +kernel,
    by decide +kernel, by decide +kernel⟩

end Syntaxis
