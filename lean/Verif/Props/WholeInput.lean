import Verif.Props.Parser

/-!
# C23: rules whose parse ends in an empty production

`parse()` ignores what follows the tokens it consumed (`C23_trailing_input_accepted`).  It does not for a start rule
that ends in a repetition: the repetition is left through an empty production, for which the table has entries for
tokens in FOLLOW only.
-/

namespace Syntaxis
open Grammar

/-- every production of these rules is empty or ends in one of these rules -/
def EndsEmpty (P : List Production) (S : Nat → Prop) : Prop :=
  ∀ p ∈ P, S p.left → p.right = [] ∨ ∃ α B, p.right = α ++ [.nt B] ∧ S B

theorem not_inFirst_nil {P : List Production} {t : Nat} : ¬ InFirst P [] t := by
  intro h
  cases fst_iff.2 h

theorem Run.ends {ps : Parser} {P : List Production} (hT : TableSound P ps.table) {S : Nat → Prop}
    (hS : EndsEmpty P S) {α : List Item} {c : Nat} {f : List PTree} {ks : List Ast} {d : Nat} {l : MismatchLog}
    (h : Run ps α c f ks d l) : ∀ β B, α = β ++ [.nt B] → S B →
      ∃ tok C, ps.tokens[d]? = some tok ∧ S C ∧ InFollow P C tok.tokenType := by
  induction h with
  | nil c => intro β B e; simp at e
  | t _ _ ih =>
    intro β B e hB
    cases β with
    | nil => simp at e
    | cons x β =>
      simp only [List.cons_append, List.cons.injEq] at e
      exact ih β B e.2 hB
  | @nt A tok p c c1 c2 rest f1 f2 ks1 ks2 l1 l2 htok hp h1 h2 ih1 ih2 =>
    intro β B e hB
    cases β with
    | cons x β =>
      simp only [List.cons_append, List.cons.injEq] at e
      exact ih2 β B e.2 hB
    | nil =>
      simp only [List.nil_append, List.cons.injEq, Item.nt.injEq] at e
      obtain ⟨rfl, rfl⟩ := e
      cases h2
      obtain ⟨hp1, hp2, hp3⟩ := hT _ _ _ hp
      rcases hS p hp1 (by rw [hp2]; exact hB) with he | ⟨β, C, he, hC⟩
      · rw [he] at h1
        cases h1
        refine ⟨tok, A, htok, hB, ?_⟩
        rcases hp3 with hf | ⟨_, hf⟩
        · rw [he] at hf
          exact absurd hf not_inFirst_nil
        · rwa [hp2] at hf
      · exact ih1 β C he hC

/-- **C23**, positive case: a rule that can only end in an empty production is left at a token that may follow
it, whatever the input and whether or not mismatches were printed. -/
theorem C23_left_at_follow (g : Grammar) (o : IterOrder g) (so : SetOrder) (fuel : Nat) (ts : TableState)
    (h : runTable g o so fuel = .ok ts) (S : Nat → Prop) (hS : EndsEmpty g.productions S) (toks : List Token)
    (A : Nat) (hA : S A) (fuel' : Nat) (r : RuleContext) (log : MismatchLog)
    (hr : (parserOf g ts toks).parseRule A fuel' = .ok (r, log)) :
    ∃ tok B, toks[r.toAst.leaves.length]? = some tok ∧ S B ∧ InFollow g.productions B tok.tokenType := by
  obtain ⟨c, hr⟩ := Parser.parseRule_ok.1 hr
  obtain ⟨_, _, tok, p, f, htok, hp, hrun⟩ := parseAst_run hr
  obtain ⟨_, h2, h3⟩ := hrun.leaves
  have hlen : r.toAst.leaves.length = c := by
    have : r.toAst.leaves = toks.take c := by simpa [RuleContext.toAst, Ast.leaves, parserOf] using h3
    rw [this, List.length_take]
    exact Nat.min_eq_left (h2 (Nat.zero_le _))
  have := Run.ends (tableSound_of h) hS (Run.nt htok hp hrun (Run.nil _)) [] A rfl hA
  rwa [← hlen] at this

/-- **C23**, positive case: if moreover only `_STOP` may follow these rules, a mismatch-free `parse()` establishes
that the tokens before the first `_STOP` it stands at are a sentence. -/
theorem C23_whole_input (g : Grammar) (o : IterOrder g) (so : SetOrder) (fuel : Nat) (ts : TableState)
    (h : runTable g o so fuel = .ok ts) (S : Nat → Prop) (hS : EndsEmpty g.productions S) (h0 : S 0)
    (hF : ∀ B t, S B → InFollow g.productions B t → t = 1) (toks : List Token) (fuel' : Nat) (r : RuleContext)
    (hr : (parserOf g ts toks).parse fuel' = .ok (r, [])) :
    ∃ w stop rest, toks = w ++ stop :: rest ∧ stop.tokenType = 1 ∧ r.toAst.leaves = w ∧
      Sentence g.productions 0 (w.map Token.tokenType) := by
  obtain ⟨k, hk, he⟩ := C18_leaves_are_consumed_tokens _ _ _ _ _ hr
  obtain ⟨tok, B, h1, h2, h3⟩ := C23_left_at_follow g o so fuel ts h S hS toks 0 h0 fuel' r [] hr
  have hs := C19_parser_sound g o so fuel ts h g.vocabulary toks 0 fuel' r hr
  refine ⟨r.toAst.leaves, tok, toks.drop (k + 1), ?_, hF B _ h2 h3, rfl, hs⟩
  have hlen : r.toAst.leaves.length = k := by
    rw [he, List.length_take]
    exact Nat.min_eq_left hk
  rw [hlen] at h1
  obtain ⟨hlt, h1⟩ := List.getElem?_eq_some_iff.1 h1
  rw [he, ← h1]
  simp [parserOf]

/-- FOLLOW sets evaluated for one order are FOLLOW sets -/
theorem follow_stop {g : Grammar} (o : IterOrder g) (fuel : Nat) {S : List Nat}
    (hS : ∀ B ∈ S, B ∈ g.vocabulary.nonterminals)
    (h : (runFollow g o fuel).map (fun W => S.map W.get) = .ok (S.map fun _ => some {1})) (B t : Nat) (hB : B ∈ S)
    (ht : InFollow g.productions B t) : t = 1 := by
  cases hr : runFollow g o fuel with
  | error e => rw [hr] at h; cases h
  | ok W =>
    rw [hr] at h
    simp only [Except.map, Except.ok.injEq, List.map_inj_left] at h
    obtain ⟨s, h1, h2⟩ := C11_follow_exact g o fuel W hr B (hS B hB)
    rw [h B hB, Option.some.injEq] at h1
    subst h1
    simpa using (h2 t).2 ht

/-- the rule `e : t ('+' t)*` -/
theorem llGrammar_ends : EndsEmpty llGrammar.productions (· ∈ [0, 1]) ∧
    ∀ B t, B ∈ [0, 1] → InFollow llGrammar.productions B t → t = 1 := by
  constructor
  · intro p hp
    simp only [llGrammar, List.mem_cons, List.not_mem_nil, or_false] at hp
    rcases hp with rfl | rfl | rfl | rfl
    · exact fun _ => .inr ⟨[.nt 2], 1, rfl, by simp⟩
    · exact fun _ => .inr ⟨[.t 3, .nt 2], 1, rfl, by simp⟩
    · exact fun _ => .inl rfl
    · intro h; simp at h
  · exact follow_stop llOrder 10 (by decide) (by decide +kernel)

/-- non-vacuity -/
example : EndsEmpty llGrammar.productions (· ∈ [0, 1]) ∧
    ∀ B t, B ∈ [0, 1] → InFollow llGrammar.productions B t → t = 1 := llGrammar_ends

end Syntaxis
