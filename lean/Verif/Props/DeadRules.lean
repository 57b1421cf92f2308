import Verif.Spec.Reach
import Verif.Lemmas.Iso
import Verif.Props.ParserDepth

/-!
# C96: rules that cannot be reached
-/

namespace Syntaxis
open Grammar

variable {P Q : List Production}

theorem DeadRules.hom (h : DeadRules P Q) : Hom Eq P Q where
  tok _ := rfl
  fn _ _ _ h1 h2 := h1.symm.trans h2
  inj _ _ _ h1 h2 := h1.trans h2.symm
  fwd p hp := ⟨p, h.sub p hp, rfl, List.forall₂_eq_eq_eq ▸ rfl⟩

theorem Reaches.self (A : Nat) : Reaches P A A := ⟨[], [], Derives.refl _⟩

theorem Reaches.right {A : Nat} {p : Production} (hp : p ∈ P) (h : Reaches P A p.left) {B : Nat} (hB : Item.nt B ∈ p.right) :
    Reaches P A B := by
  obtain ⟨u, v, h⟩ := h
  obtain ⟨x, y, e⟩ := List.append_of_mem hB
  refine ⟨u ++ x, y ++ v, h.tail ?_⟩
  have := Step.mk p hp u v
  rw [e] at this
  simpa using this

theorem DeadRules.mem (h : DeadRules P Q) {p : Production} (hp : p ∈ Q) (hr : Reaches Q 0 p.left) : p ∈ P := by
  by_contra hn
  exact h.dead p hp hn hr

theorem DeadRules.derives (h : DeadRules P Q) {β : List Item} : Derives P [.nt 0] β ↔ Derives Q [.nt 0] β := by
  constructor
  · intro hd
    exact Derives.mono h.sub hd
  · intro hd
    induction hd with
    | refl => exact Derives.refl _
    | tail hd hs ih =>
      cases hs with
      | mk p hp u v => exact ih.tail (.mk p (h.mem hp ⟨u, v, hd⟩) u v)

/-- **C96** the sentences are the same, conflicts or not. -/
theorem C96_sentences (h : DeadRules P Q) (w : List Nat) : Sentence P 0 w ↔ Sentence Q 0 w := h.derives

/-- **C96** what can follow a rule in a string derived from the start rule is the same, conflicts or not. -/
theorem C96_follow (h : DeadRules P Q) (B t : Nat) : InFollowFromStart P B t ↔ InFollowFromStart Q B t := by
  simp only [InFollowFromStart, h.derives]

section
variable {g g' : Grammar} {o : IterOrder g} {o' : IterOrder g'} {so so' : SetOrder} {k k' : Nat} {ts ts' : TableState}

/-- **C96**, what holds of conflicts: rules that cannot be reached hide none.  Missing (false): that they add none,
`C96_conflict_added`. -/
theorem C96_conflicts_partial (h : DeadRules g.productions g'.productions) (ht : runTable g o so k = .ok ts)
    (ht' : runTable g' o' so' k' = .ok ts') (hc : ts'.conflicts = []) : ts.conflicts = [] := by
  rw [C16_conflict_iff_not_ll1 g o so k ts ht]
  rw [C16_conflict_iff_not_ll1 g' o' so' k' ts' ht'] at hc
  exact h.hom.ll1 rfl hc

theorem DeadRules.run (h : DeadRules g.productions g'.productions) (ht : runTable g o so k = .ok ts)
    (ht' : runTable g' o' so' k' = .ok ts') (hc : ts'.conflicts = [])
    (hn : ∀ A, Reaches g'.productions 0 A → g'.vocabulary.getNonterminalNameById A = g.vocabulary.getNonterminalNameById A)
    {toks : List Token} {α : List Item} {c c' : Nat} {f : List PTree} {ks : List Ast} {l : MismatchLog}
    (hr : Run (parserOf g ts toks) α c f ks c' l) (hα : ∀ B, Item.nt B ∈ α → Reaches g'.productions 0 B) :
    Run (parserOf g' ts' toks) α c f ks c' l := by
  induction hr with
  | nil c => exact .nil c
  | t htok _ ih => exact .t htok (ih fun B hB => hα B (by simp [hB]))
  | @nt A tok p c c1 c2 rest f1 f2 ks1 ks2 l1 l2 htok hp _ _ ih1 ih2 =>
    obtain ⟨hp1, hp2, hp3⟩ := tableSound_of ht _ _ _ hp
    have hA := hα A (by simp)
    have hq := tableComplete_of ht' hc p (h.sub p hp1) tok.tokenType
      (h.hom.predicts rfl rfl (List.forall₂_eq_eq_eq ▸ rfl) hp3)
    rw [hp2] at hq
    have hw : (parserOf g ts toks).wrap A ks1 = (parserOf g' ts' toks).wrap A ks1 := by
      have := hn A hA
      simp only [Parser.wrap, parserOf, Vocabulary.getNonterminalNameWithDefault, Vocabulary.getNonterminalNameById] at this ⊢
      rw [this]
    rw [hw]
    refine .nt htok hq (ih1 fun B hB => ?_) (ih2 fun B hB => hα B (by simp [hB]))
    exact Reaches.right (h.sub p hp1) (hp2 ▸ hA) hB

/-- **C96**, what holds of parsing: if no conflict is printed for the larger grammar, whatever the parser returns for the
smaller, with or without messages, it returns for the larger.  Missing (false): that it returns nothing else for the
larger, `C96_panic_gone`, and grammars with conflicts, `C96_sentence_lost`. -/
theorem C96_parse_partial (h : DeadRules g.productions g'.productions) (ht : runTable g o so k = .ok ts)
    (ht' : runTable g' o' so' k' = .ok ts') (hc : ts'.conflicts = [])
    (hn : ∀ A, Reaches g'.productions 0 A → g'.vocabulary.getNonterminalNameById A = g.vocabulary.getNonterminalNameById A)
    (toks : List Token) (i : Nat) (r : RuleContext) (log : MismatchLog) (hr : (parserOf g ts toks).parse i = .ok (r, log)) :
    ∃ m, ∀ j, m ≤ j → (parserOf g' ts' toks).parse j = .ok (r, log) := by
  rw [Parser.parse_eq] at hr
  obtain ⟨c, hr⟩ := Parser.parseRule_ok.1 hr
  obtain ⟨h1, h2, tok, p, f, htok, hp, hrun⟩ := parseAst_run hr
  obtain ⟨hp1, hp2, hp3⟩ := tableSound_of ht _ _ _ hp
  have hq := tableComplete_of ht' hc p (h.sub p hp1) tok.tokenType
    (h.hom.predicts rfl rfl (List.forall₂_eq_eq_eq ▸ rfl) hp3)
  rw [hp2] at hq
  obtain ⟨m, hm⟩ := run_parseAst (ps := parserOf g' ts' toks) htok hq (h.run ht ht' hc hn hrun fun B hB =>
    Reaches.right (h.sub p hp1) (by rw [hp2]; exact Reaches.self 0) hB)
  refine ⟨m, fun j hj => ?_⟩
  rw [Parser.parse_eq]
  have hname := hn 0 (Reaches.self 0)
  simp only [Vocabulary.getNonterminalNameById] at hname
  have : r = { ruleName := (parserOf g' ts' toks).vocabulary.getNonterminalNameWithDefault 0, children := r.children,
               ruleIndex := 0 } := by
    cases r
    simp only at h1 h2
    rw [h1, h2]
    simp only [parserOf, Vocabulary.getNonterminalNameWithDefault, hname]
  rw [this]
  exact Parser.parseRule_ok.2 ⟨c, hm j hj⟩

/-- **C96**, what holds of parsing: if no conflict is printed for the larger grammar, both accept the same inputs, with the
same trees.  Missing (false): as for `C96_parse_partial`. -/
theorem C96_accepts_partial (h : DeadRules g.productions g'.productions) (ht : runTable g o so k = .ok ts)
    (ht' : runTable g' o' so' k' = .ok ts') (hc : ts'.conflicts = [])
    (hn : ∀ A, Reaches g'.productions 0 A → g'.vocabulary.getNonterminalNameById A = g.vocabulary.getNonterminalNameById A)
    (w : List Nat) (toks : List Token) (hw : toks.map Token.tokenType = w ++ [1]) (r : RuleContext) :
    (∃ i, (parserOf g ts toks).parse i = .ok (r, []) ∧ r.toAst.leaves = toks.take w.length) ↔
    (∃ i, (parserOf g' ts' toks).parse i = .ok (r, []) ∧ r.toAst.leaves = toks.take w.length) := by
  constructor
  · rintro ⟨i, h1, h2⟩
    obtain ⟨m, hm⟩ := C96_parse_partial h ht ht' hc hn toks i r [] h1
    exact ⟨m, hm m (Nat.le_refl _), h2⟩
  · rintro ⟨i, h1, h2⟩
    have hs := (C22_parser_decides g' o' so' k' ts' ht' hc w toks hw).2 ⟨i, r, h1, h2⟩
    obtain ⟨i', r', h3, h4⟩ := (C22_parser_decides g o so k ts ht (C96_conflicts_partial h ht ht' hc) w toks hw).1
      ((C96_sentences h w).2 hs)
    obtain ⟨m, hm⟩ := C96_parse_partial h ht ht' hc hn toks i' r' [] h3
    have e : r' = r := by
      have e1 := hm (max m i) (by omega)
      rw [Parser.parse_eq] at e1 h1
      obtain ⟨c1, e1⟩ := Parser.parseRule_ok.1 e1
      obtain ⟨c2, e2⟩ := Parser.parseRule_ok.1 h1
      rw [← done_le (Nat.le_max_right m i) (by rw [Done, e2]; simp)] at e2
      rw [e1] at e2
      simp only [Except.ok.injEq, Prod.mk.injEq] at e2
      exact e2.1
    exact ⟨i', e ▸ h3, e ▸ h4⟩

end

/-! ### witnesses -/

/-- `s : A x C ; x : B | ε ;` with `A` = 5, `B` = 2, `C` = 3 -/
def liveGrammar : Grammar where
  name := []
  vocabulary := ((Vocabulary.new.addNamedNonterminal 0 ['s']).1.addNamedNonterminal 1 ['x']).1.addNamedNonterminal 2 ['u'] |>.1
  productions := [⟨0, [.t 5, .nt 1, .t 3]⟩, ⟨1, [.t 2]⟩, ⟨1, []⟩]

/-- with the rule `u : x B ;`, which is not used -/
def deadGrammar : Grammar := { liveGrammar with productions := liveGrammar.productions ++ [⟨2, [.nt 1, .t 2]⟩] }

/-- with the rule `u : x D ;`, `D` = 4, which is not used -/
def deadGrammar2 : Grammar := { liveGrammar with productions := liveGrammar.productions ++ [⟨2, [.nt 1, .t 4]⟩] }

/-- the order as written, for grammars over the rules 0, 1, 2 -/
def threeOrder (g : Grammar) (h : g.vocabulary.nonterminals = {0, 1, 2}) (hn : g.productions.Nodup) : IterOrder g where
  ids := [0, 1, 2]
  ids_mem := by intro i; rw [h]; simp
  ord := g.productions
  ord_perm := .refl _
  ord_nodup := hn

def liveOrder : IterOrder liveGrammar := threeOrder _ (by decide) (by decide)
def deadOrder : IterOrder deadGrammar := threeOrder _ (by decide) (by decide)
def deadOrder2 : IterOrder deadGrammar2 := threeOrder _ (by decide) (by decide)

/-- only 0 and 1 occur in what rule 0 derives -/
theorem live_reach {p : Production} (hp : p.left = 2) {B : Nat} (h : Reaches (liveGrammar.productions ++ [p]) 0 B) :
    B = 0 ∨ B = 1 := by
  obtain ⟨u, v, h⟩ := h
  have key : ∀ β, Derives (liveGrammar.productions ++ [p]) [.nt 0] β → ∀ B, Item.nt B ∈ β → B = 0 ∨ B = 1 := by
    intro β h
    induction h with
    | refl => intro B hB; simp at hB; exact .inl hB
    | tail hd hs ih =>
      cases hs with
      | mk q hq u v =>
        intro B hB
        simp only [List.mem_append] at hB
        rcases hB with hB | hB | hB
        · exact ih B (by simp [hB])
        · have hl := ih q.left (by simp)
          simp only [liveGrammar, List.mem_append, List.mem_cons, List.not_mem_nil, or_false] at hq
          rcases hq with (rfl | rfl | rfl) | rfl
          · simp at hB; exact .inr hB
          · simp at hB
          · simp at hB
          · omega
        · exact ih B (by simp [hB])
  exact key _ h B (by simp)

theorem live_dead {p : Production} (hp : p.left = 2) :
    DeadRules liveGrammar.productions (liveGrammar.productions ++ [p]) where
  sub q hq := List.mem_append_left _ hq
  dead q hq hn hr := by
    rcases List.mem_append.1 hq with h | h
    · exact hn h
    · cases List.mem_singleton.1 h
      rcases live_reach hp hr with h | h <;> omega

theorem run_of_map {α β : Type} {x : Res α} {f : α → β} {y : β} (h : x.map f = .ok y) : ∃ z, x = .ok z ∧ f z = y := by
  cases x with
  | error e => cases h
  | ok z => exact ⟨z, rfl, by simpa [Except.map] using h⟩

/-- **C96** is false of conflicts: a rule that is not used adds one. -/
theorem C96_conflict_added : DeadRules liveGrammar.productions deadGrammar.productions ∧
    (∃ ts, runTable liveGrammar liveOrder incSetOrder 10 = .ok ts ∧ ts.conflicts = []) ∧
    ∀ o so fuel ts, runTable deadGrammar o so fuel = .ok ts → ts.conflicts ≠ [] := by
  refine ⟨live_dead rfl, run_of_map (by decide +kernel), fun o so fuel ts ht hc => ?_⟩
  obtain ⟨ts1, h1, h2⟩ : ∃ ts, runTable deadGrammar deadOrder incSetOrder 10 = .ok ts ∧ ts.conflicts.length = 1 :=
    run_of_map (by decide +kernel)
  rw [C16_conflict_iff_not_ll1 _ o so fuel ts ht, ← C16_conflict_iff_not_ll1 _ _ _ _ ts1 h1] at hc
  rw [hc] at h2
  cases h2

/-- **C96** is false of parsing: with the rule that is not used the sentence `A B C` is no longer parsed, for some hash
order. -/
theorem C96_sentence_lost : DeadRules liveGrammar.productions deadGrammar.productions ∧
    Sentence deadGrammar.productions 0 [5, 2, 3] ∧
    (∃ ts r, runTable liveGrammar liveOrder incSetOrder 10 = .ok ts ∧
      (parserOf liveGrammar ts [tk 5, tk 2, tk 3, tk 1]).parse 10 = .ok (r, []) ∧ r.toAst.leaves = [tk 5, tk 2, tk 3]) ∧
    (∃ ts r log, runTable deadGrammar deadOrder incSetOrder 10 = .ok ts ∧
      (parserOf deadGrammar ts [tk 5, tk 2, tk 3, tk 1]).parse 10 = .ok (r, log) ∧ log = [(3, 1)]) := by
  have h1 : ∃ z, (runTable liveGrammar liveOrder incSetOrder 10).bind (fun ts =>
      ((parserOf liveGrammar ts [tk 5, tk 2, tk 3, tk 1]).parse 10).map fun x => (ts, x)) = .ok z ∧
      (z.2.1.toAst.leaves, z.2.2, z.1.conflicts) = ([tk 5, tk 2, tk 3], [], []) := run_of_map (by decide +kernel)
  have h2 : ∃ z, (runTable deadGrammar deadOrder incSetOrder 10).bind (fun ts =>
      ((parserOf deadGrammar ts [tk 5, tk 2, tk 3, tk 1]).parse 10).map fun x => (ts, x)) = .ok z ∧
      z.2.2 = [(3, 1)] := run_of_map (by decide +kernel)
  obtain ⟨z, hz, e⟩ := h1
  obtain ⟨z', hz', e'⟩ := h2
  obtain ⟨ts, ht, hz⟩ := bind_eq_ok.1 hz
  obtain ⟨ts', ht', hz'⟩ := bind_eq_ok.1 hz'
  obtain ⟨x, hx, rfl⟩ := run_of_map hz
  obtain ⟨x', hx', rfl⟩ := run_of_map hz'
  simp only [Prod.mk.injEq] at e e'
  obtain ⟨r, log⟩ := x
  obtain ⟨r', log'⟩ := x'
  obtain ⟨e1, rfl, e3⟩ := e
  refine ⟨live_dead rfl, ?_, ⟨ts, r, ht, hx, e1⟩, ⟨ts', r', log', ht', hx', e'⟩⟩
  refine (C96_sentences (live_dead rfl) _).1 ?_
  have := C19_parser_sound _ _ _ _ ts ht liveGrammar.vocabulary _ 0 _ r hx
  rw [e1] at this
  exact this

/-- **C96** is false of inputs that are not sentences: without the rule that is not used the parser panics on `A D`, with it
it returns, although there is no conflict. -/
theorem C96_panic_gone : DeadRules liveGrammar.productions deadGrammar2.productions ∧
    ∃ ts ts' r log, runTable liveGrammar liveOrder incSetOrder 10 = .ok ts ∧ ts.conflicts = [] ∧
      runTable deadGrammar2 deadOrder2 incSetOrder 10 = .ok ts' ∧ ts'.conflicts = [] ∧
      (parserOf liveGrammar ts [tk 5, tk 4, tk 1]).parse 10 = .error .panic ∧
      (parserOf deadGrammar2 ts' [tk 5, tk 4, tk 1]).parse 10 = .ok (r, log) := by
  obtain ⟨ts, ht, e⟩ : ∃ ts, runTable liveGrammar liveOrder incSetOrder 10 = .ok ts ∧
      (ts.conflicts, ((parserOf liveGrammar ts [tk 5, tk 4, tk 1]).parse 10).map (fun _ => ())) = ([], .error .panic) :=
    run_of_map (by decide +kernel)
  obtain ⟨ts', ht', e'⟩ : ∃ ts, runTable deadGrammar2 deadOrder2 incSetOrder 10 = .ok ts ∧
      (ts.conflicts, ((parserOf deadGrammar2 ts [tk 5, tk 4, tk 1]).parse 10).map (fun _ => ())) = ([], .ok ()) :=
    run_of_map (by decide +kernel)
  simp only [Prod.mk.injEq] at e e'
  obtain ⟨x, hx, -⟩ := run_of_map e'.2
  refine ⟨live_dead rfl, ts, ts', x.1, x.2, ht, e.1, ht', e'.1, ?_, hx⟩
  cases hp : (parserOf liveGrammar ts [tk 5, tk 4, tk 1]).parse 10 with
  | error f => rw [hp] at e; simpa [Except.map] using e.2
  | ok y => rw [hp] at e; cases e.2

/-- non-vacuity of `C96_accepts_partial` -/
example : ∃ ts ts', runTable liveGrammar liveOrder incSetOrder 10 = .ok ts ∧
    runTable deadGrammar2 deadOrder2 incSetOrder 10 = .ok ts' ∧ ∀ r,
      (∃ i, (parserOf liveGrammar ts [tk 5, tk 2, tk 3, tk 1]).parse i = .ok (r, []) ∧ r.toAst.leaves = [tk 5, tk 2, tk 3]) ↔
      (∃ i, (parserOf deadGrammar2 ts' [tk 5, tk 2, tk 3, tk 1]).parse i = .ok (r, []) ∧ r.toAst.leaves = [tk 5, tk 2, tk 3]) := by
  obtain ⟨h, ts, ts', _, _, h1, _, h2, h3, _⟩ := C96_panic_gone
  exact ⟨ts, ts', h1, h2, fun r => C96_accepts_partial h h1 h2 h3 (fun _ _ => rfl) [5, 2, 3] _ rfl r⟩

end Syntaxis
