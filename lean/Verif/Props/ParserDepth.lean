import Verif.Props.ParserErrors

/-!
# C62: the recursion depth of the parser

`fuel` of `parseAst` is the depth of the call stack.  If the parser finishes at all, it does so within a
depth bounded by the number of rules times the number of cursor positions.
-/

namespace Syntaxis
open Grammar

variable {ps : Parser}

/-- the result is not "the stack was exhausted" -/
def Done {α : Type} (x : Res α) : Prop := x ≠ .error .fuel

theorem done_mono_items {f g : Nat → Nat → Res (RuleContext × Nat × MismatchLog)}
    (hfg : ∀ c A, Done (f c A) → g c A = f c A) (α : List Item) (st : ItemState)
    (h : Done (ps.parseItems f α st)) : ps.parseItems g α st = ps.parseItems f α st := by
  induction α generalizing st with
  | nil => rfl
  | cons x α ih =>
    cases x with
    | t a =>
      simp only [Parser.parseItems] at h ⊢
      cases ht : ps.tokenAt st.cursor with
      | error e => rfl
      | ok tok =>
        rw [ht] at h
        simp only [bind_ok] at h ⊢
        exact ih _ h
    | nt A =>
      simp only [Parser.parseItems] at h ⊢
      cases hf : f st.cursor A with
      | error e =>
        have hd : Done (f st.cursor A) := by
          rw [hf] at h ⊢
          simpa [Done] using h
        rw [hfg _ _ hd, hf]
        rfl
      | ok x =>
        rw [hfg _ _ (by rw [hf]; simp [Done]), hf]
        rw [hf] at h
        simp only [bind_ok] at h ⊢
        exact ih _ h

theorem done_mono (n : Nat) : ∀ c A, Done (ps.parseAst n c A) → ps.parseAst (n + 1) c A = ps.parseAst n c A := by
  induction n with
  | zero => intro c A h; exact absurd rfl h
  | succ n ih =>
    intro c A h
    rw [Parser.parseAst, Parser.parseAst]
    rw [Parser.parseAst] at h
    cases ht : ps.tokenAt c with
    | error e => rfl
    | ok tok =>
      rw [ht] at h
      simp only [bind_ok] at h ⊢
      cases hp : unwrap (ps.table.get (A, tok.tokenType)) with
      | error e => rfl
      | ok p =>
        rw [hp] at h
        simp only [bind_ok] at h ⊢
        have hd : Done (ps.parseItems (ps.parseAst n) p.right { children := [], cursor := c, log := [] }) := by
          intro he
          rw [he] at h
          exact h rfl
        rw [done_mono_items ih _ _ hd]

theorem done_le {n m : Nat} (hnm : n ≤ m) {c A : Nat} (h : Done (ps.parseAst n c A)) :
    ps.parseAst m c A = ps.parseAst n c A := by
  induction m, hnm using Nat.le_induction with
  | base => rfl
  | succ m _ ih => rw [done_mono m c A (by rw [ih]; exact h), ih]

/-- the loop needs more depth only because of one of its calls -/
theorem items_blame {f g : Nat → Nat → Res (RuleContext × Nat × MismatchLog)}
    (hfg : ∀ c A, Done (f c A) → g c A = f c A)
    (hcur : ∀ c A r c' l, c ≤ ps.tokens.length → f c A = .ok (r, c', l) → c' ≤ ps.tokens.length)
    (α : List Item) (st : ItemState) (hst : st.cursor ≤ ps.tokens.length)
    (hf : ¬ Done (ps.parseItems f α st)) (hg : Done (ps.parseItems g α st)) :
    ∃ c A, c ≤ ps.tokens.length ∧ Item.nt A ∈ α ∧ ¬ Done (f c A) ∧ Done (g c A) := by
  induction α generalizing st with
  | nil => exact absurd hg hf
  | cons x α ih =>
    cases x with
    | t a =>
      simp only [Parser.parseItems] at hf hg
      cases ht : ps.tokenAt st.cursor with
      | error e => rw [ht] at hf hg; exact absurd hg hf
      | ok tok =>
        rw [ht] at hf hg
        simp only [bind_ok] at hf hg
        have hlt : st.cursor < ps.tokens.length := by
          simp only [Parser.tokenAt, unwrap_eq_ok] at ht
          exact (List.getElem?_eq_some_iff.1 ht).1
        obtain ⟨c, A, h1, h2, h3⟩ := ih _ (by exact hlt) hf hg
        exact ⟨c, A, h1, List.mem_cons_of_mem _ h2, h3⟩
    | nt A =>
      simp only [Parser.parseItems] at hf hg
      by_cases hd : Done (f st.cursor A)
      · cases hfa : f st.cursor A with
        | error e =>
          rw [hfg _ _ hd, hfa] at hg
          rw [hfa] at hf
          exact absurd hg hf
        | ok x =>
          obtain ⟨r, c', l⟩ := x
          rw [hfg _ _ hd, hfa] at hg
          rw [hfa] at hf
          simp only [bind_ok] at hf hg
          obtain ⟨c, B, h1, h2, h3⟩ := ih _ (hcur _ _ _ _ _ hst hfa) hf hg
          exact ⟨c, B, h1, List.mem_cons_of_mem _ h2, h3⟩
      · refine ⟨st.cursor, A, hst, List.mem_cons_self, hd, ?_⟩
        intro he
        rw [he] at hg
        exact hg rfl

theorem parseAst_cursor {n c A : Nat} {r : RuleContext} {c' : Nat} {l : MismatchLog}
    (hc : c ≤ ps.tokens.length) (h : ps.parseAst n c A = .ok (r, c', l)) : c' ≤ ps.tokens.length := by
  obtain ⟨_, _, tok, p, f, htok, hp, hrun⟩ := parseAst_run h
  exact hrun.leaves.2.1 hc

/-- a call that needs depth `n + 2` makes a call that needs depth `n + 1` -/
theorem ast_blame {n c A : Nat} (hc : c ≤ ps.tokens.length) (h1 : ¬ Done (ps.parseAst (n + 1) c A))
    (h2 : Done (ps.parseAst (n + 2) c A)) :
    ∃ c' B p, c' ≤ ps.tokens.length ∧ (∃ t, ps.table.get (A, t) = some p) ∧ Item.nt B ∈ p.right ∧
      ¬ Done (ps.parseAst n c' B) ∧ Done (ps.parseAst (n + 1) c' B) := by
  rw [Parser.parseAst] at h1 h2
  cases ht : ps.tokenAt c with
  | error e => rw [ht] at h1 h2; exact absurd h2 h1
  | ok tok =>
    rw [ht] at h1 h2
    simp only [bind_ok] at h1 h2
    cases hp : unwrap (ps.table.get (A, tok.tokenType)) with
    | error e => rw [hp] at h1 h2; exact absurd h2 h1
    | ok p =>
      rw [hp] at h1 h2
      simp only [bind_ok] at h1 h2
      obtain ⟨c', B, g1, g2, g3⟩ := items_blame (ps := ps) (f := ps.parseAst n) (g := ps.parseAst (n + 1))
        (done_mono n) (fun _ _ _ _ _ => parseAst_cursor) p.right { children := [], cursor := c, log := [] } hc
        (by
          intro hd
          cases hx : ps.parseItems (ps.parseAst n) p.right { children := [], cursor := c, log := [] } with
          | error e =>
            rw [hx] at hd h1
            exact h1 (by simpa [Done] using hd)
          | ok x => rw [hx] at h1; exact h1 (by simp [Done]))
        (by
          intro he
          rw [he] at h2
          exact h2 rfl)
      exact ⟨c', B, p, g1, ⟨_, unwrap_eq_ok.1 hp⟩, g2, g3⟩

/-- every smaller depth is needed by some call of a set of rules closed under the table -/
theorem depth_chain {ids : Finset Nat}
    (hids : ∀ A t p B, A ∈ ids → ps.table.get (A, t) = some p → Item.nt B ∈ p.right → B ∈ ids) :
    ∀ (n c A : Nat), c ≤ ps.tokens.length → A ∈ ids → ¬ Done (ps.parseAst n c A) →
      Done (ps.parseAst (n + 1) c A) → ∀ m ≤ n, ∃ c' B, c' ≤ ps.tokens.length ∧ B ∈ ids ∧
        ¬ Done (ps.parseAst m c' B) ∧ Done (ps.parseAst (m + 1) c' B) := by
  intro n
  induction n with
  | zero =>
    intro c A hc hA h1 h2 m hm
    obtain rfl : m = 0 := by omega
    exact ⟨c, A, hc, hA, h1, h2⟩
  | succ n ih =>
    intro c A hc hA h1 h2 m hm
    rcases Nat.lt_or_ge m (n + 1) with hlt | hge
    · obtain ⟨c', B, p, g1, ⟨t, g2⟩, g3, g4, g5⟩ := ast_blame hc h1 h2
      exact ih c' B g1 (hids A t p B hA g2 g3) g4 g5 m (by omega)
    · obtain rfl : m = n + 1 := by omega
      exact ⟨c, A, hc, hA, h1, h2⟩

theorem depth_bound {ids : Finset Nat}
    (hids : ∀ A t p B, A ∈ ids → ps.table.get (A, t) = some p → Item.nt B ∈ p.right → B ∈ ids)
    {n c A : Nat} (hc : c ≤ ps.tokens.length) (hA : A ∈ ids) (h1 : ¬ Done (ps.parseAst n c A))
    (h2 : Done (ps.parseAst (n + 1) c A)) : n + 1 ≤ ids.card * (ps.tokens.length + 1) := by
  have hch := depth_chain hids n c A hc hA h1 h2
  choose! C B k1 k2 k3 k4 using hch
  have hinj : Set.InjOn (fun m => (B m, C m)) (Finset.range (n + 1)) := by
    have key : ∀ m m', m ≤ n → m' ≤ n → m < m' → (B m, C m) ≠ (B m', C m') := by
      intro m m' hm hm' hlt he
      simp only [Prod.mk.injEq] at he
      have hd := k4 m hm
      rw [he.1, he.2] at hd
      refine k3 m' hm' ?_
      have := done_le (ps := ps) (n := m + 1) (m := m') (by omega) hd
      rw [this]; exact hd
    intro m hm m' hm' he
    simp only [Finset.coe_range, Set.mem_Iio] at hm hm'
    rcases Nat.lt_trichotomy m m' with h | h | h
    · exact absurd he (key m m' (by omega) (by omega) h)
    · exact h
    · exact absurd he.symm (key m' m (by omega) (by omega) h)
  have hsub : (Finset.range (n + 1)).image (fun m => (B m, C m)) ⊆ ids ×ˢ Finset.range (ps.tokens.length + 1) := by
    intro x hx
    obtain ⟨m, hm, rfl⟩ := Finset.mem_image.1 hx
    have hm' : m ≤ n := by have := Finset.mem_range.1 hm; omega
    exact Finset.mem_product.2 ⟨k2 m hm', Finset.mem_range.2 (by have := k1 m hm'; simp only; omega)⟩
  have := Finset.card_le_card hsub
  rw [Finset.card_image_of_injOn hinj] at this
  simpa using this

/-- **C62** whatever the table: if the parser finishes with some stack depth, then it finishes with the same
result at depth `rules · (tokens + 1)`, where `rules` is the number of rules reachable through the table. -/
theorem C62_depth_bound (ps : Parser) (ids : Finset Nat)
    (hids : ∀ A t p B, A ∈ ids → ps.table.get (A, t) = some p → Item.nt B ∈ p.right → B ∈ ids)
    (A : Nat) (hA : A ∈ ids) (fuel : Nat) (hd : ps.parseRule A fuel ≠ .error .fuel) :
    ps.parseRule A (ids.card * (ps.tokens.length + 1)) = ps.parseRule A fuel := by
  have hd' : Done (ps.parseAst fuel 0 A) := by
    intro he
    rw [Parser.parseRule, he] at hd
    exact hd rfl
  -- the least sufficient depth
  obtain ⟨k, hk1, hk2⟩ : ∃ k, Done (ps.parseAst k 0 A) ∧ ∀ j < k, ¬ Done (ps.parseAst j 0 A) := by
    classical
    have hex : ∃ k, Done (ps.parseAst k 0 A) := ⟨fuel, hd'⟩
    exact ⟨Nat.find hex, Nat.find_spec hex, fun j hj => Nat.find_min hex hj⟩
  have hkf : k ≤ fuel := by
    by_contra hc
    exact hk2 fuel (by omega) hd'
  have hkb : k ≤ ids.card * (ps.tokens.length + 1) := by
    cases k with
    | zero => omega
    | succ k => exact depth_bound hids (Nat.zero_le _) hA (hk2 k (by omega)) hk1
  rw [Parser.parseRule, Parser.parseRule, done_le hkb hk1, done_le hkf hk1]

/-- the rules of a grammar: left-hand sides and rules mentioned on right-hand sides -/
def ruleIds (P : List Production) : Finset Nat :=
  (P.map Production.left ++ P.flatMap fun p => p.right.filterMap fun
    | .nt B => some B
    | .t _ => none).toFinset

/-- **C62** for a conflict-free grammar `parse()` returns or panics within depth `rules · (tokens + 1)`. -/
theorem C62_ll1_depth (g : Grammar) (o : IterOrder g) (so : SetOrder) (fuel : Nat)
    (ts : TableState) (h : runTable g o so fuel = .ok ts) (hc : ts.conflicts = [])
    (toks : List Token) (A : Nat) (hA : A ∈ ruleIds g.productions) (fuel' : Nat)
    (hf : (ruleIds g.productions).card * (toks.length + 1) ≤ fuel') :
    (parserOf g ts toks).parseRule A fuel' ≠ .error .fuel := by
  obtain ⟨n, res, hres, hn⟩ := C21_parser_terminates g o so fuel ts h hc toks A
  have hids : ∀ A t p B, A ∈ ruleIds g.productions → (parserOf g ts toks).table.get (A, t) = some p →
      Item.nt B ∈ p.right → B ∈ ruleIds g.productions := by
    intro A t p B _ hp hB
    obtain ⟨h1, _⟩ := tableOf_of h A t p hp
    rw [ruleIds, List.mem_toFinset, List.mem_append]
    exact Or.inr (List.mem_flatMap.2 ⟨p, h1, List.mem_filterMap.2 ⟨_, hB, rfl⟩⟩)
  have h1 := C62_depth_bound (parserOf g ts toks) _ hids A hA n (by rw [hn n (Nat.le_refl _)]; exact hres)
  rw [hn n (Nat.le_refl _)] at h1
  simp only [Parser.parseRule] at h1 ⊢
  have hd : Done ((parserOf g ts toks).parseAst ((ruleIds g.productions).card * (toks.length + 1)) 0 A) := by
    intro he
    have : (parserOf g ts toks).tokens = toks := rfl
    rw [this, he] at h1
    exact hres h1.symm
  rw [done_le hf hd]
  intro he
  have : (parserOf g ts toks).tokens = toks := rfl
  rw [this] at h1
  rw [h1] at he
  exact hres he

/-- non-vacuity: `ID '+' ID` needs depth at most 3 · 5 -/
example : ∃ ts, (parserOf llGrammar ts [tk 2, tk 3, tk 2, tk 1]).parseRule 0 15 ≠ .error .fuel := by
  obtain ⟨ts, h, hc⟩ := llGrammar_table
  have hcard : (ruleIds llGrammar.productions).card = 3 := by decide
  exact ⟨ts, C62_ll1_depth _ _ _ _ ts h hc _ 0 (by decide) 15 (by rw [hcard]; decide)⟩

end Syntaxis
