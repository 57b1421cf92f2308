import Verif.Props.ParserDepth
import Verif.Props.Recursion
import Mathlib.Data.Finset.Card
import Mathlib.Data.Finset.Prod

/-!
# C78: the parser runs for ever only by left recursion
-/

namespace Syntaxis
open Grammar

variable {ps : Parser}

/-- the call of the parsing function for rule `s.2` at token `s.1` makes the call for rule `t.2` at token `t.1`:
it predicts a right-hand side `u B v`, and the loop gets through `u` -/
def Calls (ps : Parser) (s t : Nat × Nat) : Prop :=
  ∃ tok p u v n st, ps.tokens[s.1]? = some tok ∧ ps.table.get (s.2, tok.tokenType) = some p ∧
    p.right = u ++ Item.nt t.2 :: v ∧
    ps.parseItems (ps.parseAst n) u { children := [], cursor := s.1, log := [] } = .ok st ∧ st.cursor = t.1

/-- the call never ends -/
def Hangs (ps : Parser) (s : Nat × Nat) : Prop := ∀ n, ps.parseAst n s.1 s.2 = .error .fuel

theorem not_done {α : Type} {x : Res α} : ¬ Done x ↔ x = .error .fuel := by
  simp [Done]

theorem items_append (call : Nat → Nat → Res (RuleContext × Nat × MismatchLog)) (u v : List Item) (st : ItemState) :
    ps.parseItems call (u ++ v) st = (ps.parseItems call u st).bind fun st => ps.parseItems call v st := by
  induction u generalizing st with
  | nil => rfl
  | cons x u ih =>
    cases x with
    | t a =>
      simp only [List.cons_append, Parser.parseItems]
      cases ps.tokenAt st.cursor with
      | error e => rfl
      | ok tok => simp only [bind_ok]; exact ih _
    | nt A =>
      simp only [List.cons_append, Parser.parseItems]
      cases call st.cursor A with
      | error e => rfl
      | ok x => simp only [bind_ok]; exact ih _

theorem items_done_le {n m : Nat} (h : n ≤ m) {α : List Item} {st : ItemState}
    (hd : Done (ps.parseItems (ps.parseAst n) α st)) :
    ps.parseItems (ps.parseAst m) α st = ps.parseItems (ps.parseAst n) α st :=
  done_mono_items (fun _ _ hd => done_le h hd) α st hd

/-- a call that ends within some depth makes only calls that end within a smaller depth -/
theorem Calls.depth {s t : Nat × Nat} (h : Calls ps s t) {n : Nat} (hd : Done (ps.parseAst n s.1 s.2)) :
    ∃ m < n, Done (ps.parseAst m t.1 t.2) := by
  obtain ⟨tok, p, u, v, k, st, htok, hp, hr, hu, hc⟩ := h
  cases n with
  | zero => exact absurd rfl hd
  | succ n =>
    refine ⟨n, Nat.lt_succ_self n, fun he => hd ?_⟩
    rw [Parser.parseAst]
    simp only [Parser.tokenAt, htok, hp, unwrap_some, bind_ok, hr]
    rw [items_append]
    by_cases hdu : Done (ps.parseItems (ps.parseAst n) u { children := [], cursor := s.1, log := [] })
    · have e : ps.parseItems (ps.parseAst n) u { children := [], cursor := s.1, log := [] } = .ok st := by
        rcases Nat.le_total n k with h | h
        · rw [← items_done_le h hdu, hu]
        · rw [items_done_le h (by rw [hu]; simp [Done]), hu]
      rw [e]
      simp only [Except.bind, Parser.parseItems, hc, he, bind_error]
    · rw [not_done.1 hdu]
      rfl

/-- a call that makes an endless call is endless -/
theorem Calls.hangs {s t : Nat × Nat} (h : Calls ps s t) (ht : Hangs ps t) : Hangs ps s := by
  intro n
  by_contra hd
  obtain ⟨m, _, hm⟩ := h.depth hd
  exact hm (ht m)

/-- a call that leads back to itself is endless -/
theorem hangs_of_loop {s : Nat × Nat} (h : Relation.TransGen (Calls ps) s s) : Hangs ps s := by
  have key : ∀ {s t}, Relation.TransGen (Calls ps) s t → ∀ n, Done (ps.parseAst n s.1 s.2) →
      ∃ m < n, Done (ps.parseAst m t.1 t.2) := by
    intro s t h
    induction h with
    | single h => exact fun n hd => h.depth hd
    | tail _ h ih =>
      intro n hd
      obtain ⟨m, hm, hd⟩ := ih n hd
      obtain ⟨k, hk, hd⟩ := h.depth hd
      exact ⟨k, by omega, hd⟩
  intro n
  induction n using Nat.strong_induction_on with
  | _ n ih =>
    by_contra hd
    obtain ⟨m, hm, hd⟩ := key h n hd
    exact hd (ih m hm)

theorem items_hang (α : List Item) : ∀ st : ItemState,
    (∀ n, ps.parseItems (ps.parseAst n) α st = .error .fuel) →
    ∃ u B v n st', α = u ++ Item.nt B :: v ∧ ps.parseItems (ps.parseAst n) u st = .ok st' ∧ Hangs ps (st'.cursor, B) := by
  induction α with
  | nil => intro st h; cases h 0
  | cons x α ih =>
    intro st h
    cases x with
    | t a =>
      cases ht : ps.tokenAt st.cursor with
      | error e =>
        have := h 0
        simp only [Parser.parseItems, ht, bind_error] at this
        cases this
        simp only [Parser.tokenAt] at ht
        cases hx : ps.tokens[st.cursor]? <;> rw [hx] at ht <;> cases ht
      | ok tok =>
        simp only [Parser.parseItems, ht, bind_ok] at h
        obtain ⟨u, B, v, n, st', h1, h2, h3⟩ := ih _ h
        refine ⟨.t a :: u, B, v, n, st', by rw [h1]; rfl, ?_, h3⟩
        simp only [Parser.parseItems, ht, bind_ok]
        exact h2
    | nt A =>
      by_cases hA : Hangs ps (st.cursor, A)
      · exact ⟨[], A, α, 0, st, rfl, rfl, hA⟩
      · obtain ⟨n, hn⟩ : ∃ n, Done (ps.parseAst n st.cursor A) := by
          by_contra hc
          exact hA fun n => by
            by_contra hd
            exact hc ⟨n, hd⟩
        have hle : ∀ m, n ≤ m → ps.parseAst m st.cursor A = ps.parseAst n st.cursor A := fun m hm => done_le hm hn
        cases hx : ps.parseAst n st.cursor A with
        | error e =>
          have := h n
          simp only [Parser.parseItems, hx, bind_error] at this
          rw [hx] at hn
          cases this
          exact absurd rfl hn
        | ok x =>
          obtain ⟨r, c', l⟩ := x
          have hrest : ∀ m, n ≤ m → ∀ cs, cs = (match ps.vocabulary.getNonterminalNameById A with
              | some _ => st.children ++ [r.toAst]
              | none => st.children ++ r.children) →
              ps.parseItems (ps.parseAst m) α { children := cs, cursor := c', log := st.log ++ l } = .error .fuel := by
            intro m hm cs hcs
            have := h m
            simp only [Parser.parseItems, hle m hm, hx, bind_ok] at this
            rw [hcs]
            exact this
          obtain ⟨u, B, v, k, st', h1, h2, h3⟩ := ih _ fun m => by
            by_contra hd
            have e := items_done_le (Nat.le_max_left m n) hd
            rw [hrest (max m n) (Nat.le_max_right ..) _ rfl] at e
            exact hd e.symm
          refine ⟨.nt A :: u, B, v, max n k, st', by rw [h1]; rfl, ?_, h3⟩
          simp only [Parser.parseItems, hle _ (Nat.le_max_left n k), hx, bind_ok]
          have hd : Done (ps.parseItems (ps.parseAst k) u _) := fun he => by cases h2.symm.trans he
          exact (items_done_le (Nat.le_max_right n k) hd).trans h2

/-- an endless call makes an endless call -/
theorem Hangs.next {s : Nat × Nat} (h : Hangs ps s) :
    s.1 < ps.tokens.length ∧ ∃ t, Calls ps s t ∧ Hangs ps t := by
  have h1 := h 1
  rw [Parser.parseAst] at h1
  cases ht : ps.tokens[s.1]? with
  | none => rw [Parser.tokenAt, ht] at h1; cases h1
  | some tok =>
    cases hp : ps.table.get (s.2, tok.tokenType) with
    | none => simp only [Parser.tokenAt, ht, hp, unwrap_some, bind_ok] at h1; cases h1
    | some p =>
      refine ⟨(List.getElem?_eq_some_iff.1 ht).1, ?_⟩
      obtain ⟨u, B, v, n, st, e1, e2, e3⟩ := items_hang (ps := ps) p.right
        { children := [], cursor := s.1, log := [] } fun n => by
          have := h (n + 1)
          rw [Parser.parseAst] at this
          simp only [Parser.tokenAt, ht, hp, unwrap_some, bind_ok] at this
          cases hx : ps.parseItems (ps.parseAst n) p.right { children := [], cursor := s.1, log := [] } with
          | error e => rw [hx] at this; simpa using this
          | ok x => rw [hx] at this; cases this
      exact ⟨(st.cursor, B), ⟨tok, p, u, v, n, st, ht, hp, e1, e2, rfl⟩, e3⟩

/-- **C78** Whatever the table: the parser runs for ever from rule `A` exactly when the calls it makes lead to a call
that leads back to itself: the same rule at the same token. -/
theorem C78_hangs_iff (ps : Parser) (ids : Finset Nat)
    (hids : ∀ A t p B, A ∈ ids → ps.table.get (A, t) = some p → Item.nt B ∈ p.right → B ∈ ids)
    (A : Nat) (hA : A ∈ ids) :
    (∀ fuel, ps.parseRule A fuel = .error .fuel) ↔
      ∃ s, Relation.ReflTransGen (Calls ps) (0, A) s ∧ Relation.TransGen (Calls ps) s s := by
  have hrule : (∀ fuel, ps.parseRule A fuel = .error .fuel) ↔ Hangs ps (0, A) := by
    refine forall_congr' fun n => ?_
    rw [Parser.parseRule]
    cases ps.parseAst n 0 A with
    | error e => simp
    | ok x => simp
  rw [hrule]
  constructor
  · intro h
    have step : ∀ s : { s : Nat × Nat // Hangs ps s }, ∃ t : { s : Nat × Nat // Hangs ps s }, Calls ps s.1 t.1 :=
      fun s => let ⟨_, t, h1, h2⟩ := s.2.next; ⟨⟨t, h2⟩, h1⟩
    choose next hnext using step
    let chain : Nat → { s : Nat × Nat // Hangs ps s } := fun n => Nat.rec ⟨(0, A), h⟩ (fun _ s => next s) n
    have hstep : ∀ n, Calls ps (chain n).1 (chain (n + 1)).1 := fun n => hnext (chain n)
    have hreach : ∀ n k, Relation.ReflTransGen (Calls ps) (chain n).1 (chain (n + k)).1 := by
      intro n k
      induction k with
      | zero => exact .refl
      | succ k ih => exact ih.tail (hstep _)
    have hin : ∀ n, (chain n).1.2 ∈ ids := by
      intro n
      induction n with
      | zero => exact hA
      | succ n ih =>
        obtain ⟨tok, p, u, v, _, _, _, hp, hr, _⟩ := hstep n
        exact hids _ _ p _ ih hp (by rw [hr]; simp)
    have hmem : ∀ n, (chain n).1 ∈ Finset.range ps.tokens.length ×ˢ ids := fun n =>
      Finset.mem_product.2 ⟨Finset.mem_range.2 (chain n).2.next.1, hin n⟩
    obtain ⟨i, _, j, _, hne, he⟩ := Finset.exists_ne_map_eq_of_card_lt_of_maps_to
      (s := Finset.range ((Finset.range ps.tokens.length ×ˢ ids).card + 1))
      (t := Finset.range ps.tokens.length ×ˢ ids) (by simp) (f := fun n => (chain n).1) (fun n _ => hmem n)
    have hloop : ∀ i j, i < j → (chain i).1 = (chain j).1 → Relation.TransGen (Calls ps) (chain i).1 (chain i).1 := by
      intro i j hij he
      obtain ⟨k, rfl⟩ : ∃ k, j = i + 1 + k := ⟨j - (i + 1), by omega⟩
      have := Relation.TransGen.head' (hstep i) (hreach (i + 1) k)
      rwa [← he] at this
    have h0 : ∀ i, Relation.ReflTransGen (Calls ps) (0, A) (chain i).1 := fun i => by
      have := hreach 0 i
      rw [Nat.zero_add] at this
      exact this
    rcases Nat.lt_or_gt_of_ne hne with hlt | hlt
    · exact ⟨_, h0 i, hloop i j hlt he⟩
    · exact ⟨_, h0 j, hloop j i hlt he.symm⟩
  · rintro ⟨s, h1, h2⟩
    have := hangs_of_loop h2
    revert h1
    generalize (0, A) = s0
    intro h1
    induction h1 using Relation.ReflTransGen.head_induction_on with
    | refl => exact this
    | head h _ ih => exact h.hangs ih

/-! ## the grammar -/

theorem Run.null {P : List Production} (hT : TableOf P ps.table) {α : List Item} {c : Nat} {f : List PTree}
    {ks : List Ast} {d : Nat} {l : MismatchLog} (h : Run ps α c f ks d l) (hd : d = c) : Nul P α := by
  induction h with
  | nil => exact Nul.nil
  | t _ h _ => have := h.leaves.1; omega
  | nt htok hp h1 h2 ih1 ih2 =>
    have a1 := h1.leaves.1
    have a2 := h2.leaves.1
    obtain ⟨m1, m2⟩ := hT _ _ _ hp
    exact nul_nt.2 ⟨⟨_, m1, m2, ih1 (by omega)⟩, ih2 (by omega)⟩

theorem Calls.cursor {s t : Nat × Nat} (h : Calls ps s t) : s.1 ≤ t.1 := by
  obtain ⟨tok, p, u, v, n, st, _, _, _, hu, hc⟩ := h
  obtain ⟨f, ks, l, hr, _⟩ := parseItems_run (fun _ _ _ _ _ h => parseAst_run h) hu
  rw [← hc]
  exact hr.leaves.1

theorem Calls.edge {P : List Production} (hT : TableOf P ps.table) {s t : Nat × Nat} (h : Calls ps s t) :
    (∃ p ∈ P, p.left = s.2 ∧ Item.nt t.2 ∈ p.right) ∧ (s.1 = t.1 → LeftEdge P s.2 t.2) := by
  obtain ⟨tok, p, u, v, n, st, _, hp, hr, hu, hc⟩ := h
  obtain ⟨m1, m2⟩ := hT _ _ _ hp
  refine ⟨⟨p, m1, m2, by rw [hr]; simp⟩, fun he => ⟨p, m1, m2, u, v, hr, ?_⟩⟩
  obtain ⟨f, ks, l, hr, _⟩ := parseItems_run (fun _ _ _ _ _ h => parseAst_run h) hu
  exact nul_iff.1 (hr.null hT (by rw [hc]; exact he.symm))

/-- `B` is used, directly or indirectly, by `A` -/
def UsedBy (P : List Production) (A B : Nat) : Prop :=
  Relation.ReflTransGen (fun A B => ∃ p ∈ P, p.left = A ∧ Item.nt B ∈ p.right) A B

/-- **C78** Whatever conflicts were printed and whatever the hash order: if the parser runs for ever from rule `A`,
then `A` uses a left-recursive rule. -/
theorem C78_hang_is_left_recursion (g : Grammar) (o : IterOrder g) (so : SetOrder) (fuel : Nat) (ts : TableState)
    (h : runTable g o so fuel = .ok ts) (toks : List Token) (A : Nat)
    (hh : ∀ fuel', (parserOf g ts toks).parseRule A fuel' = .error .fuel) :
    ∃ B, UsedBy g.productions A B ∧ LeftRecursive g.productions B := by
  have hT : TableOf g.productions (parserOf g ts toks).table := tableOf_of h
  obtain ⟨s, h1, h2⟩ := (C78_hangs_iff (parserOf g ts toks) (insert A (ruleIds g.productions)) (by
    intro A t p B _ hp hB
    obtain ⟨h1, _⟩ := hT A t p hp
    rw [Finset.mem_insert, ruleIds, List.mem_toFinset, List.mem_append]
    exact .inr (.inr (List.mem_flatMap.2 ⟨p, h1, List.mem_filterMap.2 ⟨_, hB, rfl⟩⟩)))
    A (Finset.mem_insert_self ..)).1 hh
  refine ⟨s.2, ?_, ?_⟩
  · have key : ∀ {s t : Nat × Nat}, Relation.ReflTransGen (Calls (parserOf g ts toks)) s t →
        UsedBy g.productions s.2 t.2 := by
      intro s t h
      induction h with
      | refl => exact .refl
      | tail _ h ih => exact Relation.ReflTransGen.tail ih (h.edge hT).1
    exact key h1
  · have hmono : ∀ {s t : Nat × Nat}, Relation.ReflTransGen (Calls (parserOf g ts toks)) s t → s.1 ≤ t.1 := by
      intro s t h
      induction h with
      | refl => exact Nat.le_refl _
      | tail _ h ih => exact Nat.le_trans ih h.cursor
    have key : ∀ {s t : Nat × Nat}, Relation.TransGen (Calls (parserOf g ts toks)) s t → s.1 = t.1 →
        Relation.TransGen (LeftEdge g.productions) s.2 t.2 := by
      intro s t h
      induction h with
      | single h => exact fun he => .single ((h.edge hT).2 he)
      | tail h1 h ih =>
        intro he
        have a := hmono h1.to_reflTransGen
        have b := h.cursor
        exact (ih (by omega)).tail ((h.edge hT).2 (by omega))
    exact key h2 rfl

/-- **C78** Hence a grammar whose start rule uses no left-recursive rule can be parsed with even if it has conflicts:
whatever the hash order and the tokens, `parse()` returns or panics, within a call depth of the number of rules times
the number of tokens plus one. -/
theorem C78_ends_without_left_recursion (g : Grammar) (o : IterOrder g) (so : SetOrder) (fuel : Nat) (ts : TableState)
    (h : runTable g o so fuel = .ok ts) (toks : List Token) (A : Nat) (hA : A ∈ ruleIds g.productions)
    (hn : ∀ B, UsedBy g.productions A B → ¬ LeftRecursive g.productions B) (fuel' : Nat)
    (hf : (ruleIds g.productions).card * (toks.length + 1) ≤ fuel') :
    (parserOf g ts toks).parseRule A fuel' ≠ .error .fuel := by
  intro he
  obtain ⟨B, h1, h2⟩ := C78_hang_is_left_recursion g o so fuel ts h toks A fun n => by
    by_contra hd
    have hids : ∀ A t p B, A ∈ ruleIds g.productions → (parserOf g ts toks).table.get (A, t) = some p →
        Item.nt B ∈ p.right → B ∈ ruleIds g.productions := by
      intro A t p B _ hp hB
      obtain ⟨h1, _⟩ := tableOf_of h A t p hp
      rw [ruleIds, List.mem_toFinset, List.mem_append]
      exact Or.inr (List.mem_flatMap.2 ⟨p, h1, List.mem_filterMap.2 ⟨_, hB, rfl⟩⟩)
    have e := C62_depth_bound (parserOf g ts toks) _ hids A hA n hd
    have hd' : Done ((parserOf g ts toks).parseAst ((ruleIds g.productions).card * (toks.length + 1)) 0 A) := by
      intro hx
      have e' : (parserOf g ts toks).parseRule A ((ruleIds g.productions).card * (toks.length + 1)) = .error .fuel := by
        rw [Parser.parseRule, hx, bind_error]
      exact hd (by rw [← e]; exact e')
    have := done_le hf hd'
    rw [Parser.parseRule, this, ← Parser.parseRule] at he
    exact hd (by rw [← e]; exact he)
  exact hn B h1 h2

/-- non-vacuity: `S → 1`, `1 → ID 1 | ID` has a conflict and no left recursion … -/
example : ∃ ts, runTable plusGrammar plusOrder incSetOrder 10 = .ok ts ∧ ts.conflicts ≠ [] ∧
    0 ∈ ruleIds plusGrammar.productions ∧ ∀ B, ¬ LeftRecursive plusGrammar.productions B := by
  have h : ((runTable plusGrammar plusOrder incSetOrder 10).map fun ts => ts.conflicts.isEmpty) = .ok false := by
    decide +kernel
  have hlt : ∀ A B, LeftEdge plusGrammar.productions A B → A = 0 ∧ B = 1 := by
    rintro A B ⟨p, hp, rfl, u, v, hr, hn⟩
    simp only [plusGrammar, List.mem_cons, List.not_mem_nil, or_false] at hp
    have hu := nul_iff.2 hn
    rcases hp with rfl | rfl | rfl
    · cases u with
      | nil => simp at hr; exact ⟨rfl, hr.1.symm⟩
      | cons x u => simp at hr
    · cases u with
      | nil => simp at hr
      | cons x u => simp at hr
    · cases u with
      | nil => simp at hr
      | cons x u =>
        simp only [List.cons_append, List.cons.injEq] at hr
        rw [← hr.1] at hu
        cases hu
  cases hr : runTable plusGrammar plusOrder incSetOrder 10 with
  | error e => rw [hr] at h; cases h
  | ok ts =>
    rw [hr] at h
    refine ⟨ts, rfl, fun e => ?_, by decide, fun B hB => ?_⟩
    · simp [Except.map, e] at h
    · have key : ∀ {A B}, Relation.TransGen (LeftEdge plusGrammar.productions) A B → A = 0 ∧ B = 1 := by
        intro A B h
        induction h with
        | single h => exact hlt _ _ h
        | tail _ h ih =>
          obtain ⟨h1, h2⟩ := hlt _ _ h
          omega
      obtain ⟨h1, h2⟩ := key hB
      omega

/-- … and the grammar `S → S ID | ID` hangs -/
example : ∃ ts, runTable leftGrammar leftOrder incSetOrder 10 = .ok ts ∧
    ∀ fuel', (parserOf leftGrammar ts [tk 2, tk 1]).parseRule 0 fuel' = .error .fuel :=
  C27_left_recursion_diverges

end Syntaxis
