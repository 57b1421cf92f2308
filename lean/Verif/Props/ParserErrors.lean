import Verif.Props.Parser
import Verif.Spec.Repair

/-!
# C59–C61: the mismatch messages and what the parser looks at
-/

namespace Syntaxis
open Grammar

variable {ps : Parser}

/-! ## C59 -/

/-- positions from `i` on at which the two words differ, with the letter of the first -/
def diffs : List Nat → List Nat → Nat → List (Nat × Nat)
  | e :: w, a :: ts, i => (if e ≠ a then [(e, i)] else []) ++ diffs w ts (i + 1)
  | _, _, _ => []

theorem diffs_append {w1 t1 : List Nat} (w2 t2 : List Nat) (i : Nat) (h : w1.length = t1.length) :
    diffs (w1 ++ w2) (t1 ++ t2) i = diffs w1 t1 i ++ diffs w2 t2 (i + w1.length) := by
  induction w1 generalizing t1 i with
  | nil =>
    cases t1 with
    | nil => simp [diffs]
    | cons a t1 => simp at h
  | cons e w1 ih =>
    cases t1 with
    | nil => simp at h
    | cons a t1 =>
      simp only [List.length_cons, Nat.add_right_cancel_iff] at h
      simp only [List.cons_append, diffs, ih (i + 1) h, List.append_assoc, List.length_cons]
      rw [show i + 1 + w1.length = i + (w1.length + 1) by omega]

theorem diffs_spec (w ts : List Nat) (i : Nat) (h : w.length = ts.length) :
    ((diffs w ts i).map Prod.snd).Pairwise (· < ·) ∧
    ∀ e j, (e, j) ∈ diffs w ts i ↔ i ≤ j ∧ w[j - i]? = some e ∧ ts[j - i]? ≠ some e := by
  induction w generalizing ts i with
  | nil => simp [diffs]
  | cons b w ih =>
    cases ts with
    | nil => simp at h
    | cons a ts =>
      simp only [List.length_cons, Nat.add_right_cancel_iff] at h
      obtain ⟨h1, h2⟩ := ih ts (i + 1) h
      constructor
      · simp only [diffs, List.map_append]
        by_cases hba : b = a
        · simpa [hba] using h1
        · simp only [ne_eq, hba, not_false_eq_true, if_true, List.map_cons, List.map_nil,
            List.singleton_append, List.pairwise_cons]
          refine ⟨fun j hj => ?_, h1⟩
          obtain ⟨⟨e, j'⟩, hm, rfl⟩ := List.mem_map.1 hj
          have := ((h2 e j').1 hm).1
          simp only
          omega
      · intro e j
        simp only [diffs, List.mem_append, h2]
        constructor
        · rintro (hm | ⟨h3, h4, h5⟩)
          · split at hm
            · rename_i hne
              simp only [List.mem_singleton, Prod.mk.injEq] at hm
              obtain ⟨rfl, rfl⟩ := hm
              simp only [Nat.sub_self, List.getElem?_cons_zero]
              exact ⟨Nat.le_refl _, trivial, fun h => hne (Option.some.inj h).symm⟩
            · cases hm
          · obtain ⟨k, rfl⟩ : ∃ k, j = i + 1 + k := ⟨j - (i + 1), by omega⟩
            rw [show i + 1 + k - (i + 1) = k by omega] at h4 h5
            rw [show i + 1 + k - i = k + 1 by omega]
            exact ⟨by omega, by simpa using h4, by simpa using h5⟩
        · rintro ⟨h3, h4, h5⟩
          by_cases hj : j = i
          · subst hj
            simp only [Nat.sub_self, List.getElem?_cons_zero, Option.some.injEq] at h4 h5
            subst h4
            left
            rw [if_pos (fun h => h5 (by rw [h]))]
            simp
          · obtain ⟨k, rfl⟩ : ∃ k, j = i + 1 + k := ⟨j - (i + 1), by omega⟩
            rw [show i + 1 + k - i = k + 1 by omega] at h4 h5
            rw [show i + 1 + k - (i + 1) = k by omega]
            exact Or.inr ⟨by omega, by simpa using h4, by simpa using h5⟩

theorem Run.diffs {α : List Item} {c : Nat} {f : List PTree} {ks : List Ast} {d : Nat}
    {l : MismatchLog} (h : Run ps α c f ks d l) :
    (PTree.yields f).length = ((Ast.leavesList ks).map Token.tokenType).length ∧
    c + (PTree.yields f).length = d ∧
    l = Syntaxis.diffs (PTree.yields f) ((Ast.leavesList ks).map Token.tokenType) c := by
  induction h with
  | nil c => simp [PTree.yields, Ast.leavesList, Syntaxis.diffs]
  | t htok _ ih =>
    obtain ⟨h1, h2, h3⟩ := ih
    refine ⟨?_, ?_, ?_⟩
    · simpa [PTree.yields, PTree.yield, Ast.leavesList, Ast.leaves] using h1
    · simp [PTree.yields, PTree.yield]; omega
    · simp only [PTree.yields, PTree.yield, Ast.leavesList, Ast.leaves, List.singleton_append,
        List.map_cons, Syntaxis.diffs, ← h3]
  | nt htok hp _ _ ih1 ih2 =>
    obtain ⟨a1, a2, a3⟩ := ih1
    obtain ⟨b1, b2, b3⟩ := ih2
    refine ⟨?_, ?_, ?_⟩
    · simp only [PTree.yields, PTree.yield, List.length_append, leavesList_append, leavesList_wrap,
        List.map_append, a1, b1]
    · simp only [PTree.yields, PTree.yield, List.length_append]; omega
    · simp only [PTree.yields, PTree.yield, leavesList_append, leavesList_wrap, List.map_append]
      rw [diffs_append _ _ _ a1, ← a3, a2, ← b3]

/-- **C59** whenever the parser returns, even for a table with conflicts, some sentence of the entry rule
has as many tokens as were consumed, and the messages list exactly where the consumed tokens differ from
it: replacing each reported token by the expected one yields a sentence. -/
theorem C59_messages_repair (g : Grammar) (o : IterOrder g) (so : SetOrder) (fuel : Nat)
    (ts : TableState) (h : runTable g o so fuel = .ok ts) (v : Vocabulary) (toks : List Token)
    (A fuel' : Nat) (r : RuleContext) (log : MismatchLog)
    (hr : Parser.parseRule { tokens := toks, table := ts.table, vocabulary := v } A fuel' = .ok (r, log)) :
    ∃ w, Sentence g.productions A w ∧
      ReportsDifferences w (r.toAst.leaves.map Token.tokenType) log := by
  obtain ⟨c, hr⟩ := Parser.parseRule_ok.1 hr
  obtain ⟨_, _, tok, p, f, htok, hp, hrun⟩ := parseAst_run hr
  obtain ⟨h1, h2⟩ := hrun.valid (tableOf_of h)
  obtain ⟨d1, d2, d3⟩ := hrun.diffs
  have := PTree.Valids.derives h1
  rw [h2] at this
  obtain ⟨hp1, rfl⟩ := tableOf_of h _ _ _ hp
  refine ⟨PTree.yields f, yields_iff.1 ?_, ?_⟩
  · simpa using Yields.nt p hp1 this Yields.nil
  · obtain ⟨s1, s2⟩ := diffs_spec _ _ 0 d1
    rw [← d3] at s1 s2
    simp only [RuleContext.toAst, Ast.leaves]
    exact ⟨d1, s1, fun e i => by simpa using s2 e i⟩

/-- `S → a b` with `a` = 2, `b` = 3 -/
def abGrammar : Grammar where
  name := []
  vocabulary := (Vocabulary.new.addNamedNonterminal 0 ['s']).1
  productions := [⟨0, [.t 2, .t 3]⟩]

/-- the only iteration order of it -/
def abOrder : IterOrder abGrammar where
  ids := [0]
  ids_mem := by
    intro i
    have : abGrammar.vocabulary.nonterminals = {0} := by decide
    rw [this]; simp
  ord := abGrammar.productions
  ord_perm := List.Perm.refl _
  ord_nodup := by decide

/-- on `a a _STOP` the parser returns and reports that `b` was expected at position 1 -/
theorem abGrammar_run : ∃ ts, runTable abGrammar abOrder incSetOrder 5 = .ok ts ∧ ts.conflicts = [] ∧
    ∃ r, (parserOf abGrammar ts [tk 2, tk 2, tk 1]).parse 5 = .ok (r, [(3, 1)]) ∧
      r.toAst.leaves = [tk 2, tk 2] := by
  have h : ((runTable abGrammar abOrder incSetOrder 5).bind fun ts =>
      ((parserOf abGrammar ts [tk 2, tk 2, tk 1]).parse 5).map fun r =>
        (ts.conflicts, r.2, r.1.toAst.leaves)) = .ok ([], [(3, 1)], [tk 2, tk 2]) := by decide +kernel
  cases hr : runTable abGrammar abOrder incSetOrder 5 with
  | error e => rw [hr] at h; cases h
  | ok ts =>
    rw [hr] at h
    change Except.map _ _ = _ at h
    cases hp : (parserOf abGrammar ts [tk 2, tk 2, tk 1]).parse 5 with
    | error e => rw [hp] at h; cases h
    | ok x =>
      rw [hp] at h
      simp only [Except.map, Except.ok.injEq, Prod.mk.injEq] at h
      exact ⟨ts, rfl, h.1, x.1, by rw [hp, ← h.2.1], h.2.2⟩

/-- non-vacuity: the sentence `a b` is found from the message -/
example : ∃ w, Sentence abGrammar.productions 0 w ∧ ReportsDifferences w [2, 2] [(3, 1)] := by
  obtain ⟨ts, h1, _, r, h2, h3⟩ := abGrammar_run
  have := C59_messages_repair _ _ _ _ ts h1 _ _ 0 5 r _ h2
  rw [h3] at this
  exact this

/-! ## C61 -/

theorem skeletonList_append (a b : List Ast) :
    Ast.skeletonList (a ++ b) = Ast.skeletonList a ++ Ast.skeletonList b := by
  induction a with
  | nil => rfl
  | cons x a ih => simp [Ast.skeletonList, ih]

/-- the parser reads the types of the tokens up to the cursor it returns, nothing else -/
theorem Run.local {α : List Item} {c : Nat} {f : List PTree} {ks : List Ast} {d : Nat}
    {l : MismatchLog} (h : Run ps α c f ks d l) {toks' : List Token}
    (he : ∀ i, i ≤ d → ps.tokens[i]?.map Token.tokenType = toks'[i]?.map Token.tokenType) :
    ∃ ks', Run { ps with tokens := toks' } α c f ks' d l ∧
      Ast.skeletonList ks' = Ast.skeletonList ks := by
  induction h with
  | nil c => exact ⟨[], Run.nil _, rfl⟩
  | @t a tok c c' rest f ks l htok hr ih =>
    obtain ⟨ks', h1, h2⟩ := ih he
    have hc := he c (by have := hr.leaves.1; omega)
    rw [htok] at hc
    obtain ⟨tok', e1, e2⟩ := Option.map_eq_some_iff.1 hc.symm
    have := Run.t (ps := { ps with tokens := toks' }) (a := a) e1 h1
    rw [e2] at this
    exact ⟨_, this, by simp [Ast.skeletonList, Ast.skeleton, h2, e2]⟩
  | @nt A tok p c c1 c2 rest f1 f2 ks1 ks2 l1 l2 htok hp hr1 hr2 ih1 ih2 =>
    have m1 := hr1.leaves.1
    have m2 := hr2.leaves.1
    obtain ⟨k1, g1, g2⟩ := ih1 fun i hi => he i (by omega)
    obtain ⟨k2, g3, g4⟩ := ih2 he
    have hc := he c (by omega)
    rw [htok] at hc
    obtain ⟨tok', e1, e2⟩ := Option.map_eq_some_iff.1 hc.symm
    refine ⟨_, Run.nt (ps := { ps with tokens := toks' }) e1 (by rw [e2]; exact hp) g1 g3, ?_⟩
    rw [skeletonList_append, skeletonList_append, g4]
    congr 1
    simp only [Parser.wrap]
    split <;> simp_all [Ast.skeletonList, Ast.skeleton]

/-- **C61** if the parser returns after consuming `k` tokens, then on any other token vector with the same
types at the positions `0 … k` (one token past the consumed ones) it returns a tree that differs in the
tokens only, whose leaves are the first `k` tokens of that vector, and prints the same messages. -/
theorem C61_types_and_one_lookahead (ps : Parser) (A fuel : Nat) (r : RuleContext) (log : MismatchLog)
    (h : ps.parseRule A fuel = .ok (r, log)) (toks' : List Token)
    (he : ∀ i, i ≤ r.toAst.leaves.length →
      ps.tokens[i]?.map Token.tokenType = toks'[i]?.map Token.tokenType) :
    ∃ n r', (∀ fuel', n ≤ fuel' →
        Parser.parseRule { ps with tokens := toks' } A fuel' = .ok (r', log)) ∧
      r'.toAst.skeleton = r.toAst.skeleton ∧ r'.toAst.leaves = toks'.take r.toAst.leaves.length := by
  obtain ⟨c, h⟩ := Parser.parseRule_ok.1 h
  obtain ⟨e1, e2, tok, p, f, htok, hp, hrun⟩ := parseAst_run h
  obtain ⟨d1, d2, d3⟩ := hrun.diffs
  have hlen : r.toAst.leaves.length = c := by
    simp only [RuleContext.toAst, Ast.leaves]
    rw [← d2, d1]; simp
  rw [hlen] at he ⊢
  obtain ⟨ks', g1, g2⟩ := hrun.local he
  have hc := he 0 (Nat.zero_le _)
  rw [htok] at hc
  obtain ⟨tok', t1, t2⟩ := Option.map_eq_some_iff.1 hc.symm
  obtain ⟨n, hn⟩ := run_parseAst (ps := { ps with tokens := toks' }) t1
    (by rw [t2]; exact hp) g1
  refine ⟨n, _, fun fuel' hf => Parser.parseRule_ok.2 ⟨_, hn fuel' hf⟩, ?_, ?_⟩
  · simp only [RuleContext.toAst, Ast.skeleton, g2, e1, e2]
  · have := g1.leaves.2.2
    simpa [RuleContext.toAst, Ast.leaves] using this

/-- non-vacuity: other texts, and other tokens after the lookahead -/
example : ∃ n r', ∀ fuel', n ≤ fuel' → Parser.parseRule ⟨[{ tk 2 with text := ['x'] }, tk 2, tk 1, tk 7],
    HMap.empty.insert (0, 2) ⟨0, [.t 2, .t 3]⟩, Vocabulary.new⟩ 0 fuel' = .ok (r', [(3, 1)]) := by
  have h : Parser.parseRule ⟨[tk 2, tk 2, tk 1], HMap.empty.insert (0, 2) ⟨0, [.t 2, .t 3]⟩, Vocabulary.new⟩ 0 5 = .ok (⟨Vocabulary.new.getNonterminalNameWithDefault 0,
        [.terminal (tk 2), .terminal (tk 2)], 0⟩, [(3, 1)]) := by rfl
  obtain ⟨n, r', h1, _⟩ := C61_types_and_one_lookahead _ _ _ _ _ h
    [{ tk 2 with text := ['x'] }, tk 2, tk 1, tk 7] (by
      intro i hi
      have : i ≤ 2 := hi
      rcases i with _ | _ | _ | i
      · rfl
      · rfl
      · rfl
      · omega)
  exact ⟨n, r', h1⟩

/-! ## C60 -/

theorem Run.log_ge {α : List Item} {c : Nat} {f : List PTree} {ks : List Ast} {d : Nat}
    {l : MismatchLog} (h : Run ps α c f ks d l) {e i : Nat} (hm : (e, i) ∈ l) : c ≤ i ∧ i < d := by
  obtain ⟨d1, d2, d3⟩ := h.diffs
  rw [d3] at hm
  obtain ⟨h1, h2, _⟩ := ((diffs_spec _ _ c d1).2 e i).1 hm
  refine ⟨h1, ?_⟩
  have := (List.getElem?_eq_some_iff.1 h2).1
  omega

/-- two runs over tokens whose types agree up to the first reported position report it both -/
theorem Run.first_mismatch {α : List Item} {c : Nat} {f : List PTree} {ks : List Ast} {d : Nat}
    {l : MismatchLog} (h : Run ps α c f ks d l) {toks' : List Token} {e i : Nat} {l0 : MismatchLog}
    (hl : l = (e, i) :: l0)
    (he : ∀ j, j ≤ i → ps.tokens[j]?.map Token.tokenType = toks'[j]?.map Token.tokenType)
    {f' : List PTree} {ks' : List Ast} {d' : Nat} {l' : MismatchLog}
    (h' : Run { ps with tokens := toks' } α c f' ks' d' l') : l'.head? = some (e, i) := by
  induction h generalizing f' ks' d' l' l0 with
  | nil c => cases hl
  | @t a tok c c' rest f ks l htok hr ih =>
    cases h' with
    | @t _ tok' _ _ _ _ _ l' htok' hr' =>
      have hci : c ≤ i := (Run.log_ge (Run.t htok hr) (by rw [hl]; exact List.mem_cons_self)).1
      have hc := he c hci
      simp only at htok'
      rw [htok, htok'] at hc
      simp only [Option.map_some, Option.some.injEq] at hc
      rw [← hc]
      by_cases ha : a ≠ tok.tokenType
      · rw [if_pos ha] at hl ⊢
        simp only [List.singleton_append, List.cons.injEq] at hl
        simp [hl.1]
      · rw [if_neg ha] at hl ⊢
        simp only [List.nil_append] at hl ⊢
        exact ih hl hr'
  | @nt A tok p c c1 c2 rest f1 f2 ks1 ks2 l1 l2 htok hp hr1 hr2 ih1 ih2 =>
    have hci : c ≤ i := (Run.log_ge (Run.nt htok hp hr1 hr2) (by rw [hl]; exact List.mem_cons_self)).1
    cases h' with
    | @nt _ tok' p' _ c1' _ _ f1' f2' ks1' ks2' l1' l2' htok' hp' hr1' hr2' =>
      have hc := he c hci
      simp only at htok'
      rw [htok, htok'] at hc
      simp only [Option.map_some, Option.some.injEq] at hc
      rw [← hc] at hp'
      simp only at hp'
      rw [hp] at hp'; cases hp'
      cases l1 with
      | cons x l1 =>
        simp only [List.cons_append, List.cons.injEq] at hl
        have := ih1 (by rw [hl.1]) hr1'
        cases l1' with
        | nil => simp at this
        | cons y l1' => simpa using this
      | nil =>
        simp only [List.nil_append] at hl
        have hc1 : c1 ≤ i := (hr2.log_ge (by rw [hl]; exact List.mem_cons_self)).1
        obtain ⟨k1, q1, _⟩ := hr1.local fun j hj => he j (by omega)
        obtain ⟨_, _, q2, q3⟩ := q1.det hr1'
        subst q2 q3
        simpa using ih2 hl hr2'

/-- **C60** for a conflict-free table the first message is about the earliest wrong token: the tokens
before it start some sentence in which the reported type comes next, and no sentence, followed by `_STOP`
or not, starts with the tokens up to and including the reported one. -/
theorem C60_earliest_error (g : Grammar) (o : IterOrder g) (so : SetOrder) (fuel : Nat)
    (ts : TableState) (h : runTable g o so fuel = .ok ts) (hc : ts.conflicts = [])
    (toks : List Token) (fuel' : Nat) (r : RuleContext) (e i : Nat) (log : MismatchLog)
    (hr : (parserOf g ts toks).parse fuel' = .ok (r, (e, i) :: log)) :
    (∃ v, Sentence g.productions 0 ((toks.map Token.tokenType).take i ++ e :: v)) ∧
    ∀ w, Sentence g.productions 0 w → ¬ (toks.map Token.tokenType).take (i + 1) <+: w ++ [1] := by
  obtain ⟨w, hw, hd1, hd2, hd3⟩ := C59_messages_repair g o so fuel ts h g.vocabulary toks 0 fuel' r _ hr
  obtain ⟨k, hk, hlv⟩ := C18_leaves_are_consumed_tokens _ _ _ _ _ hr
  simp only [parserOf] at hk hlv
  have hi := (hd3 e i).1 List.mem_cons_self
  have hiw := (List.getElem?_eq_some_iff.1 hi.1).1
  have hlen : w.length = k := by rw [hd1, hlv]; simp; omega
  constructor
  · refine ⟨w.drop (i + 1), ?_⟩
    have hpre : (toks.map Token.tokenType).take i = w.take i := by
      apply List.ext_getElem?
      intro j
      by_cases hj : j < i
      · rw [List.getElem?_take_of_lt hj, List.getElem?_take_of_lt hj]
        have hjw : j < w.length := by omega
        have hnot : (w[j], j) ∉ (e, i) :: log := by
          intro hm
          rcases List.mem_cons.1 hm with hm | hm
          · simp only [Prod.mk.injEq] at hm; omega
          · simp only [List.map_cons, List.pairwise_cons] at hd2
            have := hd2.1 j (List.mem_map.2 ⟨_, hm, rfl⟩)
            omega
        rw [hd3] at hnot
        simp only [List.getElem?_eq_getElem hjw, true_and, ne_eq, not_not, hlv] at hnot
        rw [List.getElem?_eq_getElem hjw, ← hnot, List.map_take, List.getElem?_take_of_lt (by omega)]
      · rw [List.getElem?_eq_none (by simp; omega), List.getElem?_eq_none (by simp; omega)]
    rw [hpre]
    have : w.take i ++ e :: w.drop (i + 1) = w := by
      have he := (List.getElem?_eq_some_iff.1 hi.1).2
      rw [← he, ← List.drop_eq_getElem_cons, List.take_append_drop]
    rwa [this]
  · intro w' hw' hpre
    obtain ⟨n, r', hok, _⟩ := C20_parser_complete g o so fuel ts h hc w' [] hw'
      ((w' ++ [1]).map tk) (by simp [tk, Token.new, Function.comp_def])
    have h1 := hok n (Nat.le_refl _)
    obtain ⟨c1, hr⟩ := Parser.parseRule_ok.1 hr
    obtain ⟨c2, h1⟩ := Parser.parseRule_ok.1 h1
    obtain ⟨_, _, tok, p, f, htok, hp, hrun⟩ := parseAst_run hr
    obtain ⟨_, _, tok', p', f', htok', hp', hrun'⟩ := parseAst_run h1
    have hagree : ∀ j, j ≤ i → (parserOf g ts toks).tokens[j]?.map Token.tokenType =
        ((w' ++ [1]).map tk)[j]?.map Token.tokenType := by
      intro j hj
      obtain ⟨t, ht⟩ := hpre
      have e1 : ((w' ++ [1]).map tk)[j]?.map Token.tokenType = (w' ++ [1])[j]? := by
        rw [List.getElem?_map, Option.map_map]
        have : Token.tokenType ∘ tk = id := rfl
        rw [this, Option.map_id]; rfl
      rw [e1, ← ht, List.getElem?_append_left (by simp; omega), List.getElem?_take_of_lt (by omega),
        List.getElem?_map]
      rfl
    have r1 := Run.nt htok hp hrun (Run.nil _)
    have r2 : Run { parserOf g ts toks with tokens := (w' ++ [1]).map tk } _ _ _ _ _ _ :=
      Run.nt htok' hp' hrun' (Run.nil _)
    have := r1.first_mismatch (l0 := log) (List.append_nil _) hagree r2
    simp at this

/-- non-vacuity: no sentence of `S → a b` starts with `a a` -/
example : ∀ w, Sentence abGrammar.productions 0 w → ¬ [2, 2] <+: w ++ [1] := by
  obtain ⟨ts, h1, hc, r, h2, _⟩ := abGrammar_run
  exact (C60_earliest_error _ _ _ _ ts h1 hc _ _ r 3 1 [] h2).2

end Syntaxis
