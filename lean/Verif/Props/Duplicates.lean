import Mathlib.Data.Set.Card
import Verif.Lemmas.Resolve
import Verif.Props.GrammarVisitor

/-!
# C81: the messages about alternatives that are written twice
-/

namespace Syntaxis
open Grammar

variable {lc : LexConsts} {ast : RuleContext} {name : Str} {n0 r0 fuel : Nat}

theorem cinv_init (g : Grammar) (k : Nat) : CInv (ProdState.new g k) where
  cacheInj f i g j X h _ := by cases f <;> cases h
  blockInj _ _ _ h _ := by cases h
  sep f i rs X h _ := by cases f <;> cases h
  bad := by
    constructor
    · intro h; cases h
    · rintro ⟨_, _, h, _⟩; cases h

/-- what the message about rules counts -/
theorem altTwice_count (h0 : 2 ≤ n0) (hf : sizeOf ast.toAst ≤ fuel) {s2 : SymState} {s3 : ProdState}
    (h : buildStates lc fuel ast (Grammar.new name) n0 r0 = .ok (s2, s3)) {D : Rules}
    (hD : readRules lc ast.children = some D) :
    CInv s3 ∧ s3.out.count altTwice + namedCount (envOf s2) s3 = (writtenAlternatives D).length ∧
      (∀ w ∈ writtenAlternatives D, UsedSeq s3 w.2 ∧ ∃ A β, (envOf s2).nt w.1 = some A ∧ A < (envOf s2).base ∧
        lookSeq s3 w.2 = some β ∧ (⟨A, β⟩ : Production) ∈ s3.grammar.productions) ∧
      (∀ p ∈ s3.grammar.productions, p.left < (envOf s2).base →
        ∃ w ∈ writtenAlternatives D, (envOf s2).nt w.1 = some p.left ∧ lookSeq s3 w.2 = some p.right) ∧
      CStep (D.flatMap fun r => altsGroups r.2) (ProdState.new s2.grammar s2.nextRuleId) s3 := by
  have hB := build_ok h0 hf h
  obtain ⟨D', hD', hr⟩ := hB.rules
  rw [hD] at hD'
  cases hD'
  have hi := runInv_init hB.sym
  obtain ⟨h1, h2, h3, h4⟩ := elabRules_step D hi (cinv_init _ _) hr
  have hz : namedCount (envOf s2) (ProdState.new s2.grammar s2.nextRuleId) = 0 := by
    rw [namedCount, show (ProdState.new s2.grammar s2.nextRuleId).grammar.productions = [] from hB.sym.prods]
    rfl
  refine ⟨h1.inv, ?_, ?_, ?_, h1⟩
  · rw [h2, hz]
    show ([] : List Str).count altTwice + 0 + _ = _
    simp
  · intro w hw
    obtain ⟨e1, A, β, e2, e3, e4⟩ := h3 w hw
    exact ⟨e1, A, β, e2, hi.old _ (hi.ntOk _ _ e2), e3, e4⟩
  · intro p hp hlt
    rcases h4 p.left p.right hlt hp with h5 | h5
    · rw [show (ProdState.new s2.grammar s2.nextRuleId).grammar.productions = [] from hB.sym.prods] at h5
      cases h5
    · exact h5

theorem lookAlts_mem {s : ProdState} {as : List (List Elem)} {rs : List (List Item)} (h : lookAlts s as = some rs)
    (β : List Item) : β ∈ rs ↔ ∃ a ∈ as, lookSeq s a = some β := by
  induction as generalizing rs with
  | nil => rw [lookAlts] at h; cases h; simp
  | cons a as ih =>
    rw [lookAlts, Option.bind_eq_some_iff] at h
    obtain ⟨γ, h1, h2⟩ := h
    rw [Option.map_eq_some_iff] at h2
    obtain ⟨rs', h2, rfl⟩ := h2
    simp only [List.mem_cons, exists_eq_or_imp, ih h2, h1, Option.some.injEq]
    rw [eq_comm]

theorem UsedAlts.mem {s : ProdState} {as : List (List Elem)} (h : UsedAlts s as) {a : List Elem} (ha : a ∈ as) :
    UsedSeq s a := by
  induction as with
  | nil => cases ha
  | cons b as ih =>
    rw [UsedAlts] at h
    rcases List.mem_cons.1 ha with rfl | ha
    · exact h.1
    · exact ih h.2 ha

/-- a block that repeats an alternative has a repeated right-hand side -/
theorem nodup_of_look {s : ProdState} {as : List (List Elem)} {rs : List (List Item)} (h : lookAlts s as = some rs)
    (hn : rs.Nodup) : as.Nodup := by
  induction as generalizing rs with
  | nil => exact List.nodup_nil
  | cons a as ih =>
    rw [lookAlts, Option.bind_eq_some_iff] at h
    obtain ⟨γ, h1, h2⟩ := h
    rw [Option.map_eq_some_iff] at h2
    obtain ⟨rs', h2, rfl⟩ := h2
    rw [List.nodup_cons] at hn ⊢
    exact ⟨fun ha => hn.1 ((lookAlts_mem h2 γ).2 ⟨a, ha, h1⟩), ih h2 hn.2⟩

theorem nodup_look {E : Env} {N : Finset Nat} {s : ProdState} (h : RunInv E N s) (c : CInv s) (hc : NoClash s.uses)
    (ht : ∀ n m a, E.tok n = some a → E.tok m = some a → n = m) {as : List (List Elem)} {rs : List (List Item)}
    (hu : UsedAlts s as) (hl : lookAlts s as = some rs) (hn : as.Nodup) : rs.Nodup := by
  induction as generalizing rs with
  | nil => rw [lookAlts] at hl; cases hl; exact List.nodup_nil
  | cons a as ih =>
    rw [lookAlts, Option.bind_eq_some_iff] at hl
    obtain ⟨γ, h1, h2⟩ := hl
    rw [Option.map_eq_some_iff] at h2
    obtain ⟨rs', h2, rfl⟩ := h2
    rw [List.nodup_cons] at hn ⊢
    rw [UsedAlts] at hu
    refine ⟨fun hm => hn.1 ?_, ih hu.2 h2 hn.2⟩
    obtain ⟨b, hb, hb'⟩ := (lookAlts_mem h2 γ).1 hm
    rw [lookSeq_inj h c hc ht a b hu.1 (hu.2.mem hb) h1 hb']
    exact hb

theorem tok_inj {s2 : SymState} (h : SymInv n0 r0 s2) :
    ∀ n m a, (envOf s2).tok n = some a → (envOf s2).tok m = some a → n = m := by
  intro n m a h1 h2
  have e1 := (h.voc.t_inv n a).1 h1
  have e2 := (h.voc.t_inv m a).1 h2
  rw [e1] at e2
  exact Option.some.inj e2

/-- the named productions, as a finite set -/
theorem namedCount_card {E : Env} {s : ProdState} (hn : s.grammar.productions.Nodup) :
    namedCount E s = {p | p ∈ s.grammar.productions ∧ p.left < E.base}.ncard := by
  classical
  have : {p | p ∈ s.grammar.productions ∧ p.left < E.base} =
      ((s.grammar.productions.filter fun p => decide (p.left < E.base)).toFinset : Set Production) := by
    ext p
    simp
  rw [this, Set.ncard_coe_finset, List.toFinset_card_of_nodup (hn.filter _), namedCount, List.countP_eq_length_filter]

/-- the set of the written alternatives is finite -/
theorem written_finite (D : Rules) : {w | w ∈ writtenAlternatives D}.Finite := List.finite_toSet _

/-- the map from written alternatives to productions -/
noncomputable def prodOf (E : Env) (s : ProdState) (w : Str × List Elem) : Production :=
  ⟨(E.nt w.1).getD 0, (lookSeq s w.2).getD []⟩

theorem named_image (h0 : 2 ≤ n0) (hf : sizeOf ast.toAst ≤ fuel) {s2 : SymState} {s3 : ProdState}
    (h : buildStates lc fuel ast (Grammar.new name) n0 r0 = .ok (s2, s3)) {D : Rules}
    (hD : readRules lc ast.children = some D) :
    {p | p ∈ s3.grammar.productions ∧ p.left < (envOf s2).base} =
      prodOf (envOf s2) s3 '' {w | w ∈ writtenAlternatives D} := by
  obtain ⟨_, _, h3, h4, _⟩ := altTwice_count h0 hf h hD
  ext p
  simp only [Set.mem_setOf_eq, Set.mem_image]
  constructor
  · rintro ⟨h5, h6⟩
    obtain ⟨w, h7, h8, h9⟩ := h4 p h5 h6
    exact ⟨w, h7, by rw [prodOf, h8, h9]; rfl⟩
  · rintro ⟨w, h7, rfl⟩
    obtain ⟨_, A, β, e1, e2, e3, e4⟩ := h3 w h7
    rw [prodOf, e1, e3]
    exact ⟨e4, e2⟩

/-- **C81**, the direction that always holds: every alternative of a rule that repeats an earlier one is reported
(one message for each), and so is every block that repeats an alternative. -/
theorem C81_repetitions_reported (h0 : 2 ≤ n0) (hf : sizeOf ast.toAst ≤ fuel) {s2 : SymState} {s3 : ProdState}
    (h : buildStates lc fuel ast (Grammar.new name) n0 r0 = .ok (s2, s3)) {D : Rules}
    (hD : readRules lc ast.children = some D) :
    (writtenAlternatives D).length ≤
      s3.out.count "产生式重复".toList + {w | w ∈ writtenAlternatives D}.ncard ∧
    ((∃ r ∈ D, ∃ alts ∈ altsGroups r.2, ¬ alts.Nodup) → "重复产生式".toList ∈ s3.out) := by
  rw [show "产生式重复".toList = altTwice by decide +kernel, show "重复产生式".toList = blockTwice by decide +kernel]
  obtain ⟨h1, h2, h3, h4, h5⟩ := altTwice_count h0 hf h hD
  constructor
  · rw [← h2, namedCount_card (build_ok h0 hf h).inv.nodup, named_image h0 hf h hD]
    have := Set.ncard_image_le (f := prodOf (envOf s2) s3) (written_finite D)
    omega
  · rintro ⟨r, hr, alts, ha, hn⟩
    rw [h1.bad]
    obtain ⟨_, rs, X, h6, h7⟩ := h5.has alts (List.mem_flatMap.2 ⟨r, hr, ha⟩)
    exact ⟨rs, X, h7, fun hd => hn (nodup_of_look h6 hd)⟩

/-- C81 under the condition of `C46_language_preserved_partial` -/
theorem duplicates_exact (h0 : 2 ≤ n0) (hf : sizeOf ast.toAst ≤ fuel) {s2 : SymState} {s3 : ProdState}
    (h : buildStates lc fuel ast (Grammar.new name) n0 r0 = .ok (s2, s3)) (hc : NoClash s3.uses) {D : Rules}
    (hD : readRules lc ast.children = some D) :
    s3.out.count altTwice + {w | w ∈ writtenAlternatives D}.ncard = (writtenAlternatives D).length ∧
    (blockTwice ∈ s3.out ↔ ∃ r ∈ D, ∃ alts ∈ altsGroups r.2, ¬ alts.Nodup) := by
  obtain ⟨h1, h2, h3, h4, h5⟩ := altTwice_count h0 hf h hD
  have hB := build_ok h0 hf h
  have hi := hB.inv
  have ht := tok_inj hB.sym
  constructor
  · rw [← h2, namedCount_card hi.nodup, named_image h0 hf h hD, Set.ncard_image_of_injOn]
    intro w hw w' hw' he
    obtain ⟨u1, A, β, e1, e2, e3, e4⟩ := h3 w hw
    obtain ⟨u1', A', β', e1', e2', e3', e4'⟩ := h3 w' hw'
    simp only [prodOf, e1, e3, e1', e3', Option.getD_some, Production.mk.injEq] at he
    obtain ⟨rfl, rfl⟩ := he
    exact Prod.ext (hi.inj _ _ _ e1 e1') (lookSeq_inj hi h1 hc ht _ _ u1 u1' e3 e3')
  · rw [h1.bad]
    constructor
    · rintro ⟨rs, X, h6, h7⟩
      rcases h5.src rs X h6 with h8 | ⟨alts, h8, h9, h10⟩
      · cases h8
      · obtain ⟨r, hr, ha⟩ := List.mem_flatMap.1 h8
        exact ⟨r, hr, alts, ha, fun hn => h7 (nodup_look hi h1 hc ht h9 h10 hn)⟩
    · rintro ⟨r, hr, alts, ha, hn⟩
      obtain ⟨_, rs, X, h6, h7⟩ := h5.has alts (List.mem_flatMap.2 ⟨r, hr, ha⟩)
      exact ⟨rs, X, h7, fun hd => hn (nodup_of_look h6 hd)⟩

/-- **C81**, what holds: if the suffixes of tokens are kept apart from the others by the numbers, there is one message
for every alternative of a rule written again (anywhere in the definitions of that rule), and the message about blocks
is printed iff some block in parentheses repeats an alternative.  Missing (false): other grammars,
`C81_collision_reported`. -/
theorem C81_exact_partial (h0 : 2 ≤ n0) (hf : sizeOf ast.toAst ≤ fuel) {s2 : SymState} {s3 : ProdState}
    (h : buildStates lc fuel ast (Grammar.new name) n0 r0 = .ok (s2, s3)) {D : Rules}
    (hD : readRules lc ast.children = some D) (hs : SuffixesApart D s3.grammar.vocabulary) :
    s3.out.count "产生式重复".toList + {w | w ∈ writtenAlternatives D}.ncard = (writtenAlternatives D).length ∧
    ("重复产生式".toList ∈ s3.out ↔ ∃ r ∈ D, ∃ alts ∈ altsGroups r.2, ¬ alts.Nodup) := by
  rw [show "产生式重复".toList = altTwice by decide +kernel, show "重复产生式".toList = blockTwice by decide +kernel]
  exact duplicates_exact h0 hf h (noClash_of_apart h0 hf h hD hs) hD

/-- **C81** in words: nothing is reported iff nothing is written twice. -/
theorem C81_silent_iff_partial (h0 : 2 ≤ n0) (hf : sizeOf ast.toAst ≤ fuel) {s2 : SymState} {s3 : ProdState}
    (h : buildStates lc fuel ast (Grammar.new name) n0 r0 = .ok (s2, s3)) {D : Rules}
    (hD : readRules lc ast.children = some D) (hs : SuffixesApart D s3.grammar.vocabulary) :
    ("产生式重复".toList ∉ s3.out ↔ (writtenAlternatives D).Nodup) := by
  classical
  have h1 := (C81_exact_partial h0 hf h hD hs).1
  have h2 : {w | w ∈ writtenAlternatives D} = ((writtenAlternatives D).toFinset : Set _) := by ext; simp
  rw [h2, Set.ncard_coe_finset] at h1
  rw [← List.count_eq_zero, ← Multiset.coe_nodup, ← Multiset.toFinset_card_eq_card_iff_nodup]
  show _ ↔ (writtenAlternatives D).toFinset.card = (writtenAlternatives D).length
  omega

namespace ExTree

/-- `a : B | (C | C)* | B ; a : B | ; B : /b/ ; C : /c/ ;` -/
def doubled : RuleContext := ⟨[], [
  rule "a" [alt [el (tk 6 "B") []], alt [el (nd 2 [alt [el (tk 6 "C") []], alt [el (tk 6 "C") []]]) star],
    alt [el (tk 6 "B") []]],
  rule "a" [alt [el (tk 6 "B") []], eps], lex "B" "/b/", lex "C" "/c/"], 0⟩

/-- its rules -/
def doubledRules : Rules := [("a".toList, [[.tok "B".toList], [.rep .star (.group [[.tok "C".toList], [.tok "C".toList]])],
  [.tok "B".toList]]), ("a".toList, [[.tok "B".toList], []])]

theorem doubled_messages : (buildStates .old 5000 doubled (Grammar.new []) 2 0).map (·.2.out) =
    .ok ["重复产生式".toList, "产生式重复".toList, "产生式重复".toList] := by decide +kernel

/-- The hypotheses of C81 hold of a tree with repetitions. -/
example : ∃ s2 s3, sizeOf doubled.toAst ≤ 5000 ∧ buildStates .old 5000 doubled (Grammar.new []) 2 0 = .ok (s2, s3) ∧
    readRules .old doubled.children = some doubledRules ∧ SuffixesSeparate doubledRules ∧
    (∃ r ∈ doubledRules, ∃ alts ∈ altsGroups r.2, ¬ alts.Nodup) ∧ ¬ (writtenAlternatives doubledRules).Nodup := by
  have h := doubled_messages
  cases hb : buildStates .old 5000 doubled (Grammar.new []) 2 0 with
  | error e => rw [hb] at h; cases h
  | ok r =>
    refine ⟨r.1, r.2, by decide +kernel, rfl, rfl, ?_, ?_, ?_⟩
    · rintro f ⟨⟨x, hx, hx'⟩, _⟩
      simp only [doubledRules, List.mem_cons, List.not_mem_nil, or_false] at hx
      rcases hx with rfl | rfl <;> simp [altsSuffixes, seqSuffixes, Elem.suffixes, Elem.isTok] at hx'
    · refine ⟨_, List.mem_cons_self, [[.tok "C".toList], [.tok "C".toList]], ?_, by simp⟩
      simp [altsGroups, seqGroups, Elem.groups]
    · simp [writtenAlternatives, doubledRules]

/-- `r : A* | u* ; s : A ; u : B ; A : /a/ ; B : /b/ ;` — token `A` and rule `u` both have number 2 -/
def clashAlts : RuleContext := ⟨[], [
  rule "r" [alt [el (tk 6 "A") star], alt [el (tk 7 "u") star]],
  rule "s" [alt [el (tk 6 "A") []]],
  rule "u" [alt [el (tk 6 "B") []]],
  lex "A" "/a/", lex "B" "/b/"], 0⟩

/-- its rules -/
def clashAltsRules : Rules :=
  [("r".toList, [[.rep .star (.tok "A".toList)], [.rep .star (.ref "u".toList)]]),
   ("s".toList, [[.tok "A".toList]]), ("u".toList, [[.tok "B".toList]])]

end ExTree

/-- **C81** is false in general: in `r : A* | u* ; s : A ; u : B ;` no alternative is written twice, but token `A` and
rule `u` have the same number, both alternatives become the same production and the second is reported. -/
theorem C81_collision_reported : ∃ (ast : RuleContext) (D : Rules) (s2 : SymState) (s3 : ProdState),
    buildStates .old 5000 ast (Grammar.new []) 2 0 = .ok (s2, s3) ∧ sizeOf ast.toAst ≤ 5000 ∧
    readRules .old ast.children = some D ∧ (writtenAlternatives D).Nodup ∧ "产生式重复".toList ∈ s3.out := by
  have h : (buildStates .old 5000 ExTree.clashAlts (Grammar.new []) 2 0).map (·.2.out) =
    .ok ["产生式重复".toList] := by decide +kernel
  cases hb : buildStates .old 5000 ExTree.clashAlts (Grammar.new []) 2 0 with
  | error e => rw [hb] at h; cases h
  | ok r =>
    rw [hb] at h
    have h' : r.2.out = ["产生式重复".toList] := Except.ok.inj h
    refine ⟨ExTree.clashAlts, ExTree.clashAltsRules, r.1, r.2, hb, by decide +kernel, rfl, ?_, by rw [h']; simp⟩
    simp [writtenAlternatives, ExTree.clashAltsRules]

end Syntaxis
