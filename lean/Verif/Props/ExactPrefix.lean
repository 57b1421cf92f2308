import Verif.Props.WholeInput
import Verif.Spec.LeftAt

/-!
# C23: exactly what `parse()` accepts

`parse()` ignores what follows the tokens it consumed.  Here it is described exactly which inputs it accepts without a
mismatch and how many of their tokens it consumes, and with it for which grammars the claim of C23 holds.
-/

namespace Syntaxis
open Grammar

variable {P : List Production} {ps : Parser}

theorem LeftAt.yields {next : Option Nat} {α : List Item} {w : List Nat} (h : LeftAt P next α w) : Yields P α w := by
  induction h with
  | nil => exact .nil
  | t a _ ih => exact .t a ih
  | before hs _ _ ih => exact (yields_iff.2 hs).append ih
  | last p hp _ _ _ ih1 ih2 => simpa using Yields.nt p hp ih1 ih2

/-- in these symbols every rule may be followed by what can come next -/
def Inner (P : List Production) (α : List Item) : Prop :=
  ∀ u B v, α = u ++ Item.nt B :: v → ∀ a, Fst P a v → Flw P a B

theorem Inner.tail {x : Item} {α : List Item} (h : Inner P (x :: α)) : Inner P α :=
  fun u B v e => h (x :: u) B v (by simp [e])

theorem Inner.right {p : Production} (hp : p ∈ P) : Inner P p.right :=
  fun u B v e _ ha => Flw.first p hp u v B e ha

theorem Run.append_one {x : Item} {α : List Item} {c c1 c2 : Nat} {t : PTree} {f : List PTree} {ks1 ks2 : List Ast}
    (h1 : Run ps [x] c [t] ks1 c1 []) (h2 : Run ps α c1 f ks2 c2 []) : ∃ ks, Run ps (x :: α) c (t :: f) ks c2 [] := by
  generalize hl : ([] : MismatchLog) = l0 at h1
  cases h1 with
  | t htok h1 =>
    cases h1
    exact ⟨_, Run.t htok h2⟩
  | nt htok hp hr hnil =>
    cases hnil
    simp only [List.append_nil] at hl
    subst hl
    exact ⟨_, Run.nt htok hp hr h2⟩

/-- what is described is parsed -/
theorem LeftAt.run (hT : TableComplete P ps.table) {next : Option Nat} {α : List Item} {w : List Nat}
    (h : LeftAt P next α w) : ∀ {c : Nat}, Inner P α → Spells ps c w →
      (ps.tokens[c + w.length]?).map Token.tokenType = next → ∃ f ks, Run ps α c f ks (c + w.length) [] := by
  induction h with
  | nil => exact fun _ _ _ => ⟨_, _, by simpa using Run.nil _⟩
  | @t a α w _ ih =>
    intro c hi hsp hn
    obtain ⟨tok, htok, rfl⟩ := hsp.head
    obtain ⟨f, ks, hr⟩ := ih hi.tail hsp.tail (by rw [← hn]; congr 2; simp; omega)
    have := Run.t (a := tok.tokenType) htok hr
    refine ⟨.leaf tok.tokenType :: f, .terminal tok :: ks, ?_⟩
    rw [show c + (tok.tokenType :: w).length = c + 1 + w.length by simp; omega]
    simpa using this
  | @before A α w1 w2 hs hne hl ih =>
    intro c hi hsp hn
    obtain ⟨f, ks, hr⟩ := ih (c := c + w1.length) hi.tail hsp.right (by rw [← hn]; congr 2; simp; omega)
    obtain ⟨f1, hf1, hf2, hf3⟩ := (yields_iff.2 hs).tree
    obtain ⟨t, rfl⟩ : ∃ t, f1 = [t] := by
      cases f1 with
      | nil => simp at hf2
      | cons t f => cases f with
        | nil => exact ⟨t, rfl⟩
        | cons t' f => simp at hf2
    simp only [List.map_cons, List.map_nil, List.cons.injEq, and_true] at hf2
    simp only [PTree.yields, List.append_nil] at hf3
    simp only [PTree.Valids, and_true] at hf1
    cases w2 with
    | nil => exact absurd rfl hne
    | cons a w2 =>
      have hfl : Flw P a A := hi [] A α rfl a hl.yields.fst
      obtain ⟨ks1, h1⟩ := run_complete_tree hT hf1 (s := a) (c := c)
        (fun B hB => by rw [hf2] at hB; cases hB; exact hfl)
        (by rw [hf3]; rw [show w1 ++ a :: w2 = (w1 ++ [a]) ++ w2 by simp] at hsp; exact hsp.left)
      rw [hf2, hf3] at h1
      obtain ⟨ks', h'⟩ := h1.append_one hr
      refine ⟨t :: f, ks', ?_⟩
      rw [show c + (w1 ++ a :: w2).length = c + w1.length + (a :: w2).length by simp; omega]
      exact h'
  | @last p α w hp hl hfol _ ih1 ih2 =>
    intro c hi hsp hn
    obtain ⟨f1, ks1, h1⟩ := ih1 (Inner.right hp) hsp hn
    obtain ⟨f2, ks2, h2⟩ := ih2 (c := c + w.length) hi.tail (by intro i a hi; simp at hi) (by simpa using hn)
    have hpred : ∃ tok, ps.tokens[c]? = some tok ∧ Predicts P p tok.tokenType := by
      cases w with
      | nil =>
        obtain ⟨s, hs, hf⟩ := hfol rfl
        rw [hs] at hn
        simp only [List.length_nil, Nat.add_zero, Option.map_eq_some_iff] at hn
        obtain ⟨tok, htok, rfl⟩ := hn
        exact ⟨tok, htok, .inr ⟨nul_iff.1 hl.yields.nul, hf⟩⟩
      | cons a w =>
        obtain ⟨tok, htok, rfl⟩ := hsp.head
        exact ⟨tok, htok, .inl (fst_iff.1 hl.yields.fst)⟩
    obtain ⟨tok, htok, hpr⟩ := hpred
    have := Run.nt (A := p.left) htok (hT p hp _ hpr) h1 (by simpa using h2)
    rw [List.append_nil] at this
    exact ⟨_, _, this⟩

/-- a run without leaves stays where it is -/
theorem Run.stays {α : List Item} {c d : Nat} {f : List PTree} {ks : List Ast} {l : MismatchLog}
    (h : Run ps α c f ks d l) (hc : c ≤ ps.tokens.length) (hk : Ast.leavesList ks = []) : d = c := by
  obtain ⟨h1, h2, h3⟩ := h.leaves
  have := congrArg List.length h3
  rw [hk] at this
  simp only [List.length_nil, List.length_take, List.length_drop] at this
  have := h2 hc
  omega

/-- with tables without conflicts the parser moves on at a token the symbols can begin with -/
theorem Run.moves (hT : TableComplete P ps.table) {α : List Item} {c d : Nat}
    {f : List PTree} {ks : List Ast} {l : MismatchLog} (h : Run ps α c f ks d l) :
    ∀ tok, ps.tokens[c]? = some tok → Fst P tok.tokenType α → c < d := by
  induction h with
  | nil c => intro tok _ hf; cases hf
  | t _ h _ =>
    intro _ _ _
    have := h.leaves.1
    omega
  | @nt A tok' p c c1 c2 rest f1 f2 ks1 ks2 l1 l2 htok hp h1 h2 ih1 ih2 =>
    intro tok ht hf
    rw [htok] at ht
    cases ht
    have l1 := h1.leaves.1
    have l2 := h2.leaves.1
    by_contra hc
    have e : c1 = c := by omega
    subst e
    generalize hα : Item.nt A :: rest = α at hf
    cases hf with
    | here => cases hα
    | down q hq _ hf =>
      cases hα
      have := hT q hq _ (.inl (fst_iff.1 hf))
      rw [hp] at this
      cases this
      exact hc (Nat.lt_of_lt_of_le (ih1 _ htok hf) l2)
    | skip B _ _ hf =>
      cases hα
      exact hc (ih2 _ htok hf)

/-- what is parsed is described -/
theorem Run.leftAt (hS : TableSound P ps.table) (hT : TableComplete P ps.table) {α : List Item} {c d : Nat}
    {f : List PTree} {ks : List Ast} {l : MismatchLog} (h : Run ps α c f ks d l) : l = [] →
      LeftAt P ((ps.tokens[d]?).map Token.tokenType) α ((Ast.leavesList ks).map Token.tokenType) := by
  induction h with
  | nil c => exact fun _ => by simpa [Ast.leavesList] using LeftAt.nil
  | @t a tok c c' rest f ks l htok _ ih =>
    intro hl
    simp only [List.append_eq_nil_iff] at hl
    have ha : a = tok.tokenType := by
      by_contra hne
      simp [hne] at hl
    subst ha
    simpa [Ast.leavesList, Ast.leaves] using LeftAt.t tok.tokenType (ih hl.2)
  | @nt A tok p c c1 c2 rest f1 f2 ks1 ks2 l1 l2 htok hp h1 h2 ih1 ih2 =>
    intro hl
    simp only [List.append_eq_nil_iff] at hl
    obtain ⟨hl1, hl2⟩ := hl
    obtain ⟨hp1, hp2, hp3⟩ := hS _ _ _ hp
    have i1 := ih1 hl1
    have i2 := ih2 hl2
    rw [leavesList_append, leavesList_wrap, List.map_append]
    by_cases hw : Ast.leavesList ks2 = []
    · have hlt := (List.getElem?_eq_some_iff.1 htok).1
      have hc := h2.stays (h1.leaves.2.1 (by omega)) hw
      subst hc
      rw [hw] at i2 ⊢
      rw [List.map_nil, List.append_nil]
      subst hp2
      refine .last p hp1 i1 (fun he => ?_) i2
      have hc := h1.stays (by omega) (List.map_eq_nil_iff.1 he)
      subst hc
      refine ⟨tok.tokenType, by rw [htok]; rfl, ?_⟩
      rcases hp3 with hf | ⟨_, hf⟩
      · exact absurd (h1.moves hT _ htok (fst_iff.2 hf)) (Nat.lt_irrefl _)
      · exact hf
    · refine .before ?_ (by simpa using hw) i2
      have := Yields.nt p hp1 i1.yields .nil
      rw [hp2, List.append_nil] at this
      exact yields_iff.1 this

theorem spells_take {g : Grammar} {ts : TableState} {toks : List Token} (k : Nat) :
    Spells (parserOf g ts toks) 0 ((toks.take k).map Token.tokenType) := by
  intro i a hi
  simp only [List.getElem?_map, Option.map_eq_some_iff] at hi
  obtain ⟨tok, ht, rfl⟩ := hi
  rw [List.getElem?_take] at ht
  split at ht
  · exact ⟨tok, by simpa [parserOf] using ht, rfl⟩
  · cases ht

/-- **C23**, exactly: with tables without conflicts, from every rule and for every input, the parser returns without a
mismatch after `k` tokens iff these are derived from the rule in such a way that every rule that matches nothing at their
end may be followed by the next token. -/
theorem C23_exact (g : Grammar) (o : IterOrder g) (so : SetOrder) (fuel : Nat) (ts : TableState)
    (h : runTable g o so fuel = .ok ts) (hc : ts.conflicts = []) (A : Nat) (toks : List Token) (k : Nat)
    (hk : k ≤ toks.length) :
    (∃ fuel' r, (parserOf g ts toks).parseRule A fuel' = .ok (r, []) ∧ r.toAst.leaves.length = k) ↔
      LeftAt g.productions ((toks[k]?).map Token.tokenType) [.nt A] ((toks.take k).map Token.tokenType) := by
  constructor
  · rintro ⟨fuel', r, hr, hlen⟩
    obtain ⟨c, hr⟩ := Parser.parseRule_ok.1 hr
    obtain ⟨_, _, tok, p, f, htok, hp, hrun⟩ := parseAst_run hr
    obtain ⟨_, h2, h3⟩ := hrun.leaves
    have hl : r.toAst.leaves = toks.take c := by simpa [RuleContext.toAst, Ast.leaves, parserOf] using h3
    have hck : c = k := by
      rw [← hlen, hl, List.length_take]
      exact (Nat.min_eq_left (h2 (Nat.zero_le _))).symm
    subst hck
    have := Run.leftAt (tableSound_of h) (tableComplete_of h hc) (Run.nt htok hp hrun (Run.nil _)) rfl
    rw [List.append_nil, leavesList_wrap, h3] at this
    simpa [parserOf] using this
  · intro hl
    have hlen : ((toks.take k).map Token.tokenType).length = k := by simp [hk]
    obtain ⟨f, ks, hr⟩ := LeftAt.run (ps := parserOf g ts toks) (tableComplete_of h hc) hl (c := 0)
      (by
        intro u B v e a ha
        cases u with
        | nil => simp only [List.nil_append, List.cons.injEq] at e; rw [← e.2] at ha; cases ha
        | cons x u => simp at e)
      (spells_take k) (by rw [hlen, Nat.zero_add]; rfl)
    rw [hlen, Nat.zero_add] at hr
    generalize hl0 : ([] : MismatchLog) = l0 at hr
    cases hr with
    | nt htok hp hrun hnil =>
      cases hnil
      simp only [List.append_nil] at hl0
      subst hl0
      obtain ⟨n, hn⟩ := run_parseAst htok hp hrun
      refine ⟨n, _, Parser.parseRule_ok.2 ⟨_, hn n (Nat.le_refl _)⟩, ?_⟩
      have := hrun.leaves.2.2
      simp only [RuleContext.toAst, Ast.leaves, this]
      simp [parserOf, hk]

/-- what no production contains is not derived from a rule -/
theorem derives_tokens {x : Nat} (hP : ∀ p ∈ P, .t x ∉ p.right) {A : Nat} {β : List Item}
    (h : Derives P [.nt A] β) : ∀ y ∈ β, y ≠ .t x := by
  induction h with
  | refl => simp
  | tail _ hs ih =>
    cases hs with
    | mk p hp u v =>
      intro y hy e
      subst e
      simp only [List.mem_append] at hy ih
      rcases hy with hy | hy | hy
      · exact ih _ (.inl hy) rfl
      · exact hP p hp hy
      · exact ih _ (.inr (by simp [hy])) rfl

/-- **C23**, the grammars it holds for: with tables without conflicts and rules that do not mention the
end token, `parse()` accepts only texts that are sentences as
a whole iff no derivation from the start rule can be left at another token than the end token. -/
theorem C23_holds_iff (g : Grammar) (o : IterOrder g) (so : SetOrder) (fuel : Nat) (ts : TableState)
    (h : runTable g o so fuel = .ok ts) (hc : ts.conflicts = []) (hP : ∀ p ∈ g.productions, .t 1 ∉ p.right) :
    (∀ w toks fuel' r, 1 ∉ w → toks.map Token.tokenType = w ++ [1] → (parserOf g ts toks).parse fuel' = .ok (r, []) →
        Sentence g.productions 0 w) ↔
      ∀ w s, 1 ∉ w → s ≠ 1 → ¬ LeftAt g.productions (some s) [.nt 0] w := by
  constructor
  · intro hall w s hw hs hl
    let toks := (w ++ [s] ++ [1]).map fun a => Token.new a [] []
    have htypes : toks.map Token.tokenType = w ++ [s] ++ [1] := by
      simp only [toks, List.map_map]
      exact (List.map_congr_left fun _ _ => rfl).trans (List.map_id _)
    have hlen : toks.length = w.length + 2 := by simp [toks]
    obtain ⟨fuel', r, hr, hk⟩ := (C23_exact g o so fuel ts h hc 0 toks w.length (by omega)).2 (by
      rw [List.map_take, ← List.getElem?_map, htypes]
      simpa using hl)
    have hsent := hall (w ++ [s]) toks fuel' r (by simp [hw, Ne.symm hs]) htypes hr
    obtain ⟨n, r', hr', hk'⟩ := C20_parser_complete g o so fuel ts h hc (w ++ [s]) [] hsent toks htypes
    obtain ⟨c, hr⟩ := Parser.parseRule_ok.1 hr
    obtain ⟨_, _, tok, p, f, htok, hp, hrun⟩ := parseAst_run hr
    obtain ⟨m, hm⟩ := run_parseAst htok hp hrun
    have h1 := Parser.parseRule_ok.2 ⟨_, hm (n + m) (by omega)⟩
    have h2 := hr' (n + m) (by omega)
    have h2 := h1.symm.trans h2
    have e := congrArg (fun x => x.1.toAst.leaves.length) (Except.ok.inj h2)
    have e1 : (r'.toAst.leaves).length = w.length + 1 := by rw [hk', List.length_take, hlen]; simp
    simp only [e1] at e
    simp only [RuleContext.toAst, Ast.leaves] at e hk
    omega
  · intro hno w toks fuel' r hw ht hr
    obtain ⟨k, hk, he⟩ := C18_leaves_are_consumed_tokens _ _ _ _ _ hr
    have hk' : k ≤ toks.length := hk
    have hlen : toks.length = w.length + 1 := by simpa using congrArg List.length ht
    have hl := (C23_exact g o so fuel ts h hc 0 toks k hk').1 ⟨fuel', r, hr, by
      rw [he, List.length_take]; exact Nat.min_eq_left hk'⟩
    rw [List.map_take, ← List.getElem?_map, ht] at hl
    rcases Nat.lt_trichotomy k w.length with hlt | rfl | hgt
    · rw [List.getElem?_append_left hlt, List.getElem?_eq_getElem hlt, List.take_append_of_le_length (by omega)] at hl
      exact absurd hl (hno _ _ (fun hm => hw (List.mem_of_mem_take hm)) (fun e => hw (e ▸ List.getElem_mem hlt)))
    · have := hl.yields
      rw [List.take_left] at this
      exact yields_iff.1 this
    · have := hl.yields
      rw [List.take_of_length_le (by simp; omega)] at this
      have hd := this.derives
      exact absurd (derives_tokens hP hd (.t 1) (by simp)) (by simp)

/-- non-vacuity, and both cases of `C23_holds_iff`: `S → a` can be left anywhere, `e : t ('+' t)*` only at the end -/
example : LeftAt tinyGrammar.productions (some 2) [.nt 0] [2] ∧ (∀ p ∈ tinyGrammar.productions, .t 1 ∉ p.right) ∧
    (∀ p ∈ llGrammar.productions, .t 1 ∉ p.right) ∧
    (∀ w s, 1 ∉ w → s ≠ 1 → ¬ LeftAt llGrammar.productions (some s) [.nt 0] w) := by
  refine ⟨.last ⟨0, [.t 2]⟩ (by decide) (.t 2 .nil) (by simp) .nil, by decide, by decide, ?_⟩
  obtain ⟨ts, h, hc⟩ := llGrammar_table
  refine (C23_holds_iff _ _ _ _ ts h hc (by decide)).1 fun w toks fuel' r hw ht hr => ?_
  obtain ⟨w', stop, rest, rfl, h1, _, h3⟩ := C23_whole_input _ _ _ _ ts h (· ∈ [0, 1]) llGrammar_ends.1 (by decide)
    llGrammar_ends.2 toks fuel' r hr
  have hmem : ∀ a ∈ w', a.tokenType ≠ 1 := fun a ha he =>
    absurd (derives_tokens (x := 1) (by decide) h3 (.t 1) (by
      simp only [List.map_map, List.mem_map, Function.comp]
      exact ⟨a, ha, by rw [he]⟩)) (by simp)
  rw [List.map_append, List.map_cons, h1] at ht
  rw [← List.dropLast_concat (l₁ := w) (b := 1), ← ht]
  cases rest with
  | nil => simpa using h3
  | cons x rest =>
    have := congrArg List.dropLast ht
    rw [List.dropLast_concat, List.dropLast_append_of_ne_nil (by simp)] at this
    exact absurd (this ▸ by simp) hw

end Syntaxis
