import Verif.Props.Parser

/-!
# C26, C27: `item+` and left recursion
-/

namespace Syntaxis
open Grammar

/-! ## C26 -/

/-- the two productions `ProductionVisitor` creates for `item+` (`grammar_visitor.rs:222-246`) -/
def plusLong (X : Nat) (i : Item) : Production := ⟨X, [i, .nt X]⟩
/-- see `plusLong` -/
def plusShort (X : Nat) (i : Item) : Production := ⟨X, [i]⟩

/-- rule `X` is the desugared `item+` in `P` -/
def PlusRule (P : List Production) (X : Nat) (i : Item) : Prop :=
  ∀ p, (p ∈ P ∧ p.left = X) ↔ p = plusLong X i ∨ p = plusShort X i

theorem PlusRule.long {P : List Production} {X : Nat} {i : Item} (h : PlusRule P X i) :
    plusLong X i ∈ P := ((h _).2 (Or.inl rfl)).1
theorem PlusRule.short {P : List Production} {X : Nat} {i : Item} (h : PlusRule P X i) :
    plusShort X i ∈ P := ((h _).2 (Or.inr rfl)).1

theorem PlusRule.nul {P : List Production} {X : Nat} {i : Item} (h : PlusRule P X i)
    (hn : Nul P [Item.nt X]) : Nul P [i] := by
  obtain ⟨⟨p, hp, hl, hn⟩, _⟩ := nul_nt.1 hn
  rcases (h p).1 ⟨hp, hl⟩ with rfl | rfl
  · exact (nul_cons.1 hn).1
  · exact hn

theorem PlusRule.fst {P : List Production} {X : Nat} {i : Item} (h : PlusRule P X i) {t : Nat}
    {α : List Item} (hf : Fst P t α) :
    (α = [Item.nt X] ∨ α = [i, Item.nt X] ∨ α = [i]) → Fst P t [i] := by
  induction hf with
  | here rest =>
    rintro (e | e | e)
    · cases e
    · simp only [List.cons.injEq] at e
      rw [← e.1]; exact Fst.here _
    · simp only [List.cons.injEq] at e
      rw [← e.1]; exact Fst.here _
  | down p hp rest hf ih =>
    rintro (e | e | e)
    · simp only [List.cons.injEq, Item.nt.injEq] at e
      rcases (h p).1 ⟨hp, e.1⟩ with rfl | rfl
      · exact ih (Or.inr (Or.inl rfl))
      · exact ih (Or.inr (Or.inr rfl))
    · simp only [List.cons.injEq] at e
      rw [← e.1]; exact Fst.down p hp _ hf
    · simp only [List.cons.injEq] at e
      rw [← e.1]; exact Fst.down p hp _ hf
  | skip A rest hn hf ih =>
    rintro (e | e | e)
    · simp only [List.cons.injEq] at e
      rw [e.2] at hf; exact absurd hf fst_nil
    · simp only [List.cons.injEq] at e
      exact ih (Or.inl e.2)
    · simp only [List.cons.injEq] at e
      rw [e.2] at hf; exact absurd hf fst_nil

/-- exactly the same tokens predict the two productions of an `item+` rule -/
theorem PlusRule.predicts {P : List Production} {X : Nat} {i : Item} (h : PlusRule P X i) (t : Nat) :
    Predicts P (plusLong X i) t ↔ Predicts P (plusShort X i) t := by
  simp only [Predicts, plusLong, plusShort, ← fst_iff, ← nul_iff]
  constructor
  · rintro (hf | ⟨hn, hw⟩)
    · exact Or.inl (h.fst hf (Or.inr (Or.inl rfl)))
    · exact Or.inr ⟨(nul_cons.1 hn).1, hw⟩
  · rintro (hf | ⟨hn, hw⟩)
    · exact Or.inl (hf.append_right [Item.nt X])
    · refine Or.inr ⟨?_, hw⟩
      rw [nul_cons]
      exact ⟨hn, nul_nt.2 ⟨⟨_, h.short, rfl, hn⟩, Nul.nil⟩⟩

/-- **C26** a grammar with an `item+` whose item can begin with some token always gets a printed
conflict. -/
theorem C26_plus_conflict (g : Grammar) (o : IterOrder g) (so : SetOrder) (fuel : Nat)
    (ts : TableState) (h : runTable g o so fuel = .ok ts) (X : Nat) (i : Item)
    (hX : PlusRule g.productions X i) (t : Nat) (ht : InFirst g.productions [i] t) :
    ts.conflicts ≠ [] := by
  rw [ne_eq, C16_conflict_iff_not_ll1 g o so fuel ts h]
  intro hll
  have hs : Predicts g.productions (plusShort X i) t := Or.inl ht
  exact hll _ hX.long _ hX.short rfl (by simp [plusLong, plusShort]) t ⟨(hX.predicts t).2 hs, hs⟩

/-- Whatever the hash order, either all entries of an `item+` rule are the recursive production or
all are the non-recursive one. -/
theorem plus_entries (g : Grammar) (o : IterOrder g) (so : SetOrder) (fuel : Nat)
    (ts : TableState) (h : runTable g o so fuel = .ok ts) (X : Nat) (i : Item)
    (hX : PlusRule g.productions X i) :
    (∀ t p, ts.table.get (X, t) = some p → p = plusLong X i) ∨
    (∀ t p, ts.table.get (X, t) = some p → p = plusShort X i) := by
  have hl := (IterOrder.mem o _).2 hX.long
  have hs := (IterOrder.mem o _).2 hX.short
  obtain ⟨a, b, e⟩ := List.append_of_mem hl
  have hne : plusLong X i ≠ plusShort X i := by simp [plusLong, plusShort]
  -- an entry is one of the two, and the other one does not come later
  have key : ∀ t p, ts.table.get (X, t) = some p → ∃ pre post, o.ord = pre ++ p :: post ∧
      (p = plusLong X i ∨ p = plusShort X i) ∧ plusLong X i ∉ post ∧ plusShort X i ∉ post := by
    intro t p he
    obtain ⟨pre, post, e, hpl, hpr, hpost⟩ := (C17_last_iterated_wins g o so fuel ts h X t p).1 he
    have hp : p ∈ g.productions := (IterOrder.mem o p).1 (by rw [e]; simp)
    have hp' := (hX p).1 ⟨hp, hpl⟩
    have both : Predicts g.productions (plusLong X i) t ∧ Predicts g.productions (plusShort X i) t := by
      rcases hp' with rfl | rfl
      · exact ⟨hpr, (hX.predicts t).1 hpr⟩
      · exact ⟨(hX.predicts t).2 hpr, hpr⟩
    exact ⟨pre, post, e, hp', fun hm => hpost _ hm ⟨rfl, both.1⟩, fun hm => hpost _ hm ⟨rfl, both.2⟩⟩
  by_cases hb : plusShort X i ∈ b
  · right
    intro t p he
    obtain ⟨pre, post, e', hp', h1, h2⟩ := key t p he
    rcases hp' with rfl | rfl
    · exfalso
      have hpre : plusShort X i ∈ pre := by
        rw [e'] at hs
        simp only [List.mem_append, List.mem_cons] at hs
        rcases hs with hs | hs | hs
        · exact hs
        · exact absurd hs.symm hne
        · exact absurd hs h2
      have hnd := o.ord_nodup
      rw [e] at e' hnd
      obtain ⟨d1, d2, d3⟩ := List.nodup_append.1 hnd
      have hsplit := (List.append_eq_append_iff).1 e'
      rcases hsplit with ⟨c, hc1, hc2⟩ | ⟨c, hc1, hc2⟩
      · cases c with
        | nil => simp only [List.append_nil] at hc1; subst hc1; exact d3 _ hpre _ (by simp [hb]) rfl
        | cons x c =>
          simp only [List.cons_append, List.cons.injEq] at hc2
          obtain ⟨rfl, hc2⟩ := hc2
          rw [hc2] at d2
          simp at d2
      · cases c with
        | nil => simp only [List.append_nil] at hc1; subst hc1; exact d3 _ hpre _ (by simp [hb]) rfl
        | cons x c =>
          simp only [List.cons_append, List.cons.injEq] at hc2
          obtain ⟨rfl, hc2⟩ := hc2
          exact d3 (plusLong X i) (by rw [hc1]; simp) (plusLong X i) (by simp) rfl
    · rfl
  · left
    intro t p he
    obtain ⟨pre, post, e', hp', h1, h2⟩ := key t p he
    rcases hp' with rfl | rfl
    · rfl
    · exfalso
      have hpre : plusLong X i ∈ pre := by
        rw [e'] at hl
        simp only [List.mem_append, List.mem_cons] at hl
        rcases hl with hl | hl | hl
        · exact hl
        · exact absurd hl hne
        · exact absurd hl h1
      obtain ⟨u, v, rfl⟩ := List.append_of_mem hpre
      have hnd := o.ord_nodup
      rw [e] at e' hnd
      have e'' : a ++ plusLong X i :: b = u ++ plusLong X i :: (v ++ plusShort X i :: post) := by
        rw [e']; simp
      obtain ⟨d1, d2, d3⟩ := List.nodup_append.1 hnd
      rcases (List.append_eq_append_iff).1 e'' with ⟨c, hc1, hc2⟩ | ⟨c, hc1, hc2⟩
      · cases c with
        | nil =>
          simp only [List.nil_append, List.cons.injEq, true_and] at hc2
          exact hb (by rw [hc2]; simp)
        | cons x c =>
          simp only [List.cons_append, List.cons.injEq] at hc2
          obtain ⟨rfl, hc2⟩ := hc2
          rw [hc2] at d2
          simp at d2
      · cases c with
        | nil =>
          simp only [List.nil_append, List.cons.injEq, true_and] at hc2
          exact hb (by rw [← hc2]; simp)
        | cons x c =>
          simp only [List.cons_append, List.cons.injEq] at hc2
          obtain ⟨rfl, hc2⟩ := hc2
          exact d3 (plusLong X i) (by rw [hc1]; simp) (plusLong X i) (by simp) rfl

theorem Run.no_long {ps : Parser} {X : Nat} {i : Item}
    (hT : ∀ t p, ps.table.get (X, t) = some p → p = plusLong X i) {α : List Item} {c : Nat}
    {f : List PTree} {ks : List Ast} {d : Nat} {l : MismatchLog} (h : Run ps α c f ks d l) :
    Item.nt X ∉ α := by
  induction h with
  | nil c => simp
  | t _ _ ih => simpa using ih
  | nt htok hp _ _ ih1 ih2 =>
    simp only [List.mem_cons, Item.nt.injEq, not_or]
    refine ⟨?_, ih2⟩
    rintro rfl
    rw [hT _ _ hp] at ih1
    simp [plusLong] at ih1

/-- **C26** is false of the code: for every grammar with an `item+` rule `X`, every hash order and
every input, either the parser never returns from `X`, or every mismatch-free result of `X` is a
single repetition of the item. -/
theorem C26_plus_unusable (g : Grammar) (o : IterOrder g) (so : SetOrder) (fuel : Nat)
    (ts : TableState) (h : runTable g o so fuel = .ok ts) (X : Nat) (i : Item)
    (hX : PlusRule g.productions X i) :
    (∀ toks fuel' r, (parserOf g ts toks).parseRule X fuel' ≠ .ok r) ∨
    (∀ toks fuel' r, (parserOf g ts toks).parseRule X fuel' = .ok (r, []) →
      Derives g.productions [i] ((r.toAst.leaves.map Token.tokenType).map Item.t)) := by
  rcases plus_entries g o so fuel ts h X i hX with hall | hall
  · left
    rintro toks fuel' ⟨r, log⟩ hr
    obtain ⟨c, hr⟩ := Parser.parseRule_ok.1 hr
    obtain ⟨_, _, tok, p, f, htok, hp, hrun⟩ := parseAst_run hr
    have := Run.no_long (ps := parserOf g ts toks) hall hrun
    rw [hall _ _ hp] at this
    simp [plusLong] at this
  · right
    intro toks fuel' r hr
    obtain ⟨c, hr⟩ := Parser.parseRule_ok.1 hr
    obtain ⟨_, _, tok, p, f, htok, hp, hrun⟩ := parseAst_run hr
    rw [hall _ _ hp] at hrun
    obtain ⟨h1, h2⟩ := hrun.valid (tableOf_of h)
    have := PTree.Valids.derives h1
    rw [h2, hrun.yield rfl] at this
    simpa [RuleContext.toAst, Ast.leaves, plusShort] using yields_iff.1 this

/-- **C26** in particular for a token item: no hash order lets the parser accept both one and two
repetitions. -/
theorem C26_plus_never_both (g : Grammar) (o : IterOrder g) (so : SetOrder) (fuel : Nat)
    (ts : TableState) (h : runTable g o so fuel = .ok ts) (X a : Nat)
    (hX : PlusRule g.productions X (.t a)) (toks toks' : List Token) (f f' : Nat)
    (r r' : RuleContext) :
    ¬ ((parserOf g ts toks).parseRule X f = .ok (r, []) ∧ r.toAst.leaves.length = 1 ∧
       (parserOf g ts toks').parseRule X f' = .ok (r', []) ∧ r'.toAst.leaves.length = 2) := by
  rintro ⟨h1, h2, h3, h4⟩
  rcases C26_plus_unusable g o so fuel ts h X (.t a) hX with hu | hu
  · exact hu _ _ _ h1
  · have := yields_iff.2 (hu _ _ _ h3)
    generalize hw : r'.toAst.leaves.map Token.tokenType = w at this
    cases this with
    | t _ hy =>
      cases hy
      have := congrArg List.length hw
      simp only [List.length_map, h4] at this
      cases this

/-- **C26**, what holds: a mismatch-free result of an `item+` rule is one or more repetitions of the
item.  Missing (false): that all of these are accepted. -/
theorem C26_plus_sound_partial (g : Grammar) (o : IterOrder g) (so : SetOrder) (fuel : Nat)
    (ts : TableState) (h : runTable g o so fuel = .ok ts) (X : Nat) (i : Item)
    (hX : PlusRule g.productions X i) (toks : List Token) (fuel' : Nat) (r : RuleContext)
    (hr : (parserOf g ts toks).parseRule X fuel' = .ok (r, [])) :
    ∃ ws : List (List Nat), ws ≠ [] ∧ (∀ w ∈ ws, Derives g.productions [i] (w.map Item.t)) ∧
      r.toAst.leaves.map Token.tokenType = ws.flatten := by
  rcases C26_plus_unusable g o so fuel ts h X i hX with hu | hu
  · exact absurd hr (hu _ _ _)
  · exact ⟨[r.toAst.leaves.map Token.tokenType], by simp, by simpa using hu _ _ _ hr, by simp⟩

/-- `s : ID+` as desugared: `S → 1`, `1 → ID 1 | ID` -/
def plusGrammar : Grammar where
  name := []
  vocabulary := (Vocabulary.new.addNamedNonterminal 0 ['s']).1.addUnnamedNonterminal 1 |>.1
  productions := [⟨0, [.nt 1]⟩, ⟨1, [.t 2]⟩, ⟨1, [.t 2, .nt 1]⟩]

/-- the order with the non-recursive production first -/
def plusOrder : IterOrder plusGrammar where
  ids := [0, 1]
  ids_mem := by
    intro i
    have : plusGrammar.vocabulary.nonterminals = {0, 1} := by decide
    rw [this]; simp
  ord := plusGrammar.productions
  ord_perm := List.Perm.refl _
  ord_nodup := by decide

/-- the order with the non-recursive production last -/
def plusOrder' : IterOrder plusGrammar where
  ids := [0, 1]
  ids_mem := plusOrder.ids_mem
  ord := plusGrammar.productions.reverse
  ord_perm := List.reverse_perm _
  ord_nodup := by decide

/-- non-vacuity of C26 -/
example : PlusRule plusGrammar.productions 1 (.t 2) ∧
    InFirst plusGrammar.productions [.t 2] 2 := by
  refine ⟨?_, [], Derives.refl _⟩
  rintro ⟨l, r⟩
  simp only [plusGrammar, List.mem_cons, List.not_mem_nil, or_false, plusLong, plusShort,
    Production.mk.injEq]
  constructor
  · rintro ⟨h1, rfl⟩
    rcases h1 with h1 | h1 | h1
    · simp at h1
    · exact Or.inr h1
    · exact Or.inl h1
  · rintro (⟨rfl, rfl⟩ | ⟨rfl, rfl⟩) <;> simp

/-- the two orders: `ID ID _STOP` panics at `_STOP`, or only the first `ID` is consumed -/
example : ((runTable plusGrammar plusOrder incSetOrder 10).bind fun ts =>
    ((parserOf plusGrammar ts [tk 2, tk 2, tk 1]).parse 10).map fun r =>
      r.1.toAst.leaves.length) = .error .panic ∧
  ((runTable plusGrammar plusOrder' incSetOrder 10).bind fun ts =>
    ((parserOf plusGrammar ts [tk 2, tk 2, tk 1]).parse 10).map fun r =>
      r.1.toAst.leaves.length) = .ok 1 := by
  constructor <;> decide +kernel

/-! ## C27 -/

/-- **C27** a left-recursive table entry makes the parser recurse for ever on its lookahead. -/
theorem C27_left_recursive_entry_diverges (ps : Parser) (c A : Nat) (tok : Token) (p : Production)
    (rest : List Item) (htok : ps.tokens[c]? = some tok)
    (hp : ps.table.get (A, tok.tokenType) = some p) (hr : p.right = Item.nt A :: rest) (fuel : Nat) :
    ps.parseAst fuel c A = .error .fuel := by
  induction fuel with
  | zero => rfl
  | succ fuel ih =>
    rw [Parser.parseAst]
    simp only [Parser.tokenAt, htok, hp, unwrap_some, bind_ok, hr, Parser.parseItems, ih, bind_error]

/-- `S → S ID | ID` -/
def leftGrammar : Grammar where
  name := []
  vocabulary := (Vocabulary.new.addNamedNonterminal 0 ['s']).1
  productions := [⟨0, [.t 2]⟩, ⟨0, [.nt 0, .t 2]⟩]

/-- an order with the left-recursive production last -/
def leftOrder : IterOrder leftGrammar where
  ids := [0]
  ids_mem := by
    intro i
    have : leftGrammar.vocabulary.nonterminals = {0} := by decide
    rw [this]; simp
  ord := leftGrammar.productions
  ord_perm := List.Perm.refl _
  ord_nodup := by decide

/-- **C27** is false of the code: for `S → S ID | ID` some hash order gives a table with which
parsing `ID _STOP`, a sentence, never returns. -/
theorem C27_left_recursion_diverges :
    ∃ ts, runTable leftGrammar leftOrder incSetOrder 10 = .ok ts ∧
      ∀ fuel, (parserOf leftGrammar ts [tk 2, tk 1]).parse fuel = .error .fuel := by
  have h : ((runTable leftGrammar leftOrder incSetOrder 10).map fun ts => ts.table.get (0, 2)) =
      .ok (some ⟨0, [.nt 0, .t 2]⟩) := by decide +kernel
  cases hr : runTable leftGrammar leftOrder incSetOrder 10 with
  | error e => rw [hr] at h; cases h
  | ok ts =>
    rw [hr] at h
    simp only [Except.map, Except.ok.injEq] at h
    refine ⟨ts, rfl, fun fuel => ?_⟩
    have := C27_left_recursive_entry_diverges (parserOf leftGrammar ts [tk 2, tk 1]) 0 0 (tk 2)
      ⟨0, [.nt 0, .t 2]⟩ [.t 2] rfl h rfl fuel
    rw [Parser.parse_eq, Parser.parseRule, this, bind_error]

/-- `B` stands at the left end of a string derived from `A` in one step, after a nullable prefix -/
def LeftEdge (P : List Production) (A B : Nat) : Prop :=
  ∃ p ∈ P, p.left = A ∧ ∃ u v, p.right = u ++ Item.nt B :: v ∧ Nullable P u

/-- `A` is left-recursive, directly or indirectly -/
def LeftRecursive (P : List Production) (A : Nat) : Prop := Relation.TransGen (LeftEdge P) A A

theorem LeftEdge.fst {P : List Production} {A B t : Nat} (h : LeftEdge P A B)
    (hf : Fst P t [Item.nt B]) : Fst P t [Item.nt A] := by
  obtain ⟨p, hp, rfl, u, v, e, hn⟩ := h
  refine fst_nt.2 (Or.inl ⟨p, hp, rfl, ?_⟩)
  rw [e]
  exact Fst.append_left (nul_iff.2 hn) (hf.append_right v)

/-- **C27** left recursion, direct or indirect, of a rule that can begin with some token is always
reported as a conflict. -/
theorem C27_left_recursion_reported (g : Grammar) (o : IterOrder g) (so : SetOrder) (fuel : Nat)
    (ts : TableState) (h : runTable g o so fuel = .ok ts) (A t : Nat)
    (hA : LeftRecursive g.productions A) (ht : InFirst g.productions [.nt A] t) :
    ts.conflicts ≠ [] := by
  intro hc
  have hll := (C16_conflict_iff_not_ll1 g o so fuel ts h).1 hc
  have hback : ∀ C, Relation.ReflTransGen (LeftEdge g.productions) C A → Fst g.productions t [Item.nt C] := by
    intro C hC
    induction hC using Relation.ReflTransGen.head_induction_on with
    | refl => exact fst_iff.2 ht
    | head e _ ih => exact e.fst ih
  -- a nullable rule of FOLLOW cannot begin with `t` as well
  have hnot : ∀ D, Nul g.productions [Item.nt D] → Fst g.productions t [Item.nt D] →
      Flw g.productions t D → False := by
    intro D hn hf hfl
    refine ll1_no_self_overlap hll hf hn ?_
    intro u1 E v1 e1 _
    cases u1 with
    | nil =>
      simp only [List.nil_append, List.cons.injEq, Item.nt.injEq] at e1
      rw [← e1.1]; exact hfl
    | cons y u1 => simp at e1
  -- along the cycle the derivation of `t` would get smaller and smaller
  have main : ∀ α, Fst g.productions t α →
      (∀ u1 D v1, α = u1 ++ Item.nt D :: v1 → Fst g.productions t v1 → Flw g.productions t D) →
      ∀ u B v, α = u ++ Item.nt B :: v → Nul g.productions u →
        Relation.TransGen (LeftEdge g.productions) B A → False := by
    intro α hα
    induction hα with
    | here rest =>
      intro _ u B v e hu _
      cases u with
      | nil => cases e
      | cons x u =>
        simp only [List.cons_append, List.cons.injEq] at e
        rw [← e.1] at hu
        exact not_nul_t hu
    | down p hp rest hf ih =>
      intro hctx u B v e hu hB
      cases u with
      | nil =>
        simp only [List.nil_append, List.cons.injEq, Item.nt.injEq] at e
        obtain ⟨rfl, rfl⟩ := e
        obtain ⟨C, ⟨q, hq, hql, u, v, e, hn⟩, hCA⟩ := Relation.TransGen.head'_iff.1 hB
        have hCt := hback C hCA
        have hpq : p = q := by
          by_contra hne
          refine hll p hp q hq hql.symm hne t ⟨Or.inl (fst_iff.1 hf), Or.inl ?_⟩
          rw [e]
          exact fst_iff.1 (Fst.append_left (nul_iff.2 hn) (hCt.append_right v))
        subst hpq
        exact ih (fun u1 D v1 e1 h1 => Flw.first p hp u1 v1 D e1 h1) u C v e (nul_iff.2 hn)
          (Relation.TransGen.trans_right hCA hA)
      | cons x u =>
        simp only [List.cons_append, List.cons.injEq] at e
        obtain ⟨rfl, rfl⟩ := e
        refine hnot p.left (nul_cons.1 hu).1 (fst_nt.2 (Or.inl ⟨p, hp, rfl, hf⟩)) ?_
        refine hctx [] p.left _ rfl ?_
        exact Fst.append_left (nul_cons.1 hu).2 ((hback B hB.to_reflTransGen).append_right v)
    | skip D rest hn hf ih =>
      intro hctx u B v e hu hB
      cases u with
      | nil =>
        simp only [List.nil_append, List.cons.injEq, Item.nt.injEq] at e
        obtain ⟨rfl, rfl⟩ := e
        exact hnot D hn (hback D hB.to_reflTransGen) (hctx [] D _ rfl hf)
      | cons x u =>
        simp only [List.cons_append, List.cons.injEq] at e
        obtain ⟨rfl, rfl⟩ := e
        exact ih (fun u1 D' v1 e h1 => hctx (Item.nt D :: u1) D' v1 (by rw [e]; rfl) h1) u B v rfl
          (nul_cons.1 hu).2 hB
  refine main [Item.nt A] (fst_iff.2 ht) ?_ [] A [] rfl Nul.nil hA
  intro u1 D v1 e h1
  cases u1 with
  | nil =>
    simp only [List.nil_append, List.cons.injEq] at e
    rw [← e.2] at h1
    exact absurd h1 fst_nil
  | cons y u1 => simp at e

/-- non-vacuity: the rule of `leftGrammar` is left-recursive -/
example : LeftRecursive leftGrammar.productions 0 ∧ InFirst leftGrammar.productions [.nt 0] 2 :=
  ⟨.single ⟨⟨0, [.nt 0, .t 2]⟩, by decide, rfl, [], [.t 2], rfl, Derives.refl _⟩,
    [], Derives.single (p := ⟨0, [.t 2]⟩) (by decide)⟩

/-- **C27**, what holds: parsing terminates whenever no conflict was printed (which excludes left
recursion by `C27_left_recursion_reported`).  Missing (false): termination for left-recursive rules. -/
theorem C27_terminates_without_conflict_partial (g : Grammar) (o : IterOrder g) (so : SetOrder)
    (fuel : Nat) (ts : TableState) (h : runTable g o so fuel = .ok ts) (hc : ts.conflicts = [])
    (toks : List Token) : ∃ n, ∀ fuel', n ≤ fuel' → (parserOf g ts toks).parse fuel' ≠ .error .fuel := by
  obtain ⟨n, res, hne, hr⟩ := C21_parser_terminates g o so fuel ts h hc toks 0
  exact ⟨n, fun fuel' hf => by rw [Parser.parse_eq, hr fuel' hf]; exact hne⟩

end Syntaxis
