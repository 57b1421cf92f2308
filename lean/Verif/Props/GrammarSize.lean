import Verif.Spec.GrammarSize
import Verif.Props.Sharing

/-! # C90: the grammar is not larger than the file -/

namespace Syntaxis

variable {lc : LexConsts} {ast : RuleContext} {name : Str} {n0 r0 fuel : Nat}

mutual
theorem parts_groups (e : Elem) {alts : List (List Elem)} (h : .group alts ∈ e.parts) : alts ∈ e.groups := by
  cases e with
  | tok n => simp [Elem.parts] at h
  | ref n => simp [Elem.parts] at h
  | group as =>
    rw [Elem.parts, List.mem_cons] at h
    rw [Elem.groups, List.mem_cons]
    exact h.imp (fun h => Elem.group.inj h) (altsParts_groups as)
  | rep f e =>
    rw [Elem.parts, List.mem_cons] at h
    rw [Elem.groups]
    exact parts_groups e (h.resolve_left nofun)
theorem seqParts_groups (es : List Elem) {alts : List (List Elem)} (h : .group alts ∈ seqParts es) :
    alts ∈ seqGroups es := by
  cases es with
  | nil => simp [seqParts] at h
  | cons e es =>
    rw [seqParts, List.mem_append] at h
    rw [seqGroups, List.mem_append]
    exact h.imp (parts_groups e) (seqParts_groups es)
theorem altsParts_groups (as : List (List Elem)) {alts : List (List Elem)} (h : .group alts ∈ altsParts as) :
    alts ∈ altsGroups as := by
  cases as with
  | nil => simp [altsParts] at h
  | cons a as =>
    rw [altsParts, List.mem_append] at h
    rw [altsGroups, List.mem_append]
    exact h.imp (seqParts_groups a) (altsParts_groups as)
end

theorem mem_rulesGroups {D : Rules} {alts : List (List Elem)} (h : .group alts ∈ rulesParts D) : alts ∈ rulesGroups D := by
  rw [rulesParts, List.mem_flatMap] at h
  obtain ⟨r, hr, h⟩ := h
  exact List.mem_flatMap.2 ⟨r, hr, altsParts_groups _ h⟩

/-- all rules with their symbols -/
def expansions (D : Rules) (own : Suffix → Elem → Elem) : List (Elem × List Elem) :=
  (writtenAlternatives D).map (fun w => (.ref w.1, w.2)) ++
    (rulesGroups D).flatMap (fun alts => alts.map fun a => (.group alts, a)) ++
    (rulesReps D).flatMap fun r => (repRules r.1 (own r.1 r.2) (.rep r.1 r.2)).map fun a => (.rep r.1 r.2, a)

theorem mem_expansions {D : Rules} {own : Suffix → Elem → Elem} {e : Elem} {a : List Elem} (h : ExpandsBy D own e a) :
    (e, a) ∈ expansions D own := by
  rw [expansions, List.mem_append, List.mem_append]
  cases h with
  | rule h => exact .inl (.inl (List.mem_map.2 ⟨_, h, rfl⟩))
  | group h ha => exact .inl (.inr (List.mem_flatMap.2 ⟨_, mem_rulesGroups h, List.mem_map.2 ⟨_, ha, rfl⟩⟩))
  | @rep f e _ h ha =>
    exact .inr (List.mem_flatMap.2 ⟨(f, e), (mem_rulesReps D f e).2 h, List.mem_map.2 ⟨_, ha, rfl⟩⟩)

theorem expansions_lengths (D : Rules) (own : Suffix → Elem → Elem) :
    (expansions D own).map (fun x => x.2.length) = ruleLengths D := by
  rw [expansions, ruleLengths, List.map_append, List.map_append, List.map_map, List.map_flatMap, List.map_flatMap]
  congr 1
  · congr 1
    refine List.flatMap_congr fun alts _ => ?_
    rw [List.map_map]
    rfl
  · refine List.flatMap_congr fun r _ => ?_
    obtain ⟨f, e⟩ := r
    cases f <;> rfl

theorem subperm_map {α β : Type} (f : α → β) {l l' : List α} (h : l.Subperm l') : (l.map f).Subperm (l'.map f) := by
  obtain ⟨m, hm, hs⟩ := h
  exact ⟨m.map f, hm.map f, hs.map f⟩

/-- **C90** The lengths of the productions are among the lengths of the rules the file stands for: each rule gives at
most one production, and there are no others. -/
theorem C90_lengths (h0 : 2 ≤ n0) (hf : sizeOf ast.toAst ≤ fuel) {g : Grammar} {data : List LexerRuleData}
    (h : buildGrammar lc fuel ast (Grammar.new name) n0 r0 = .ok (g, data)) {D : Rules}
    (hD : readRules lc ast.children = some D) :
    (g.productions.map fun p => p.right.length).Subperm (ruleLengths D) := by
  obtain ⟨num, _, _, _, _, hp, _⟩ := C86_translation h0 hf h hD
  have hnd : (g.productions.map fun p => (Item.nt p.left, p.right)).Nodup := by
    refine List.Nodup.map ?_ (C45_closed h0 hf h).2
    rintro ⟨A, α⟩ ⟨B, β⟩ e
    simp only [Prod.mk.injEq, Item.nt.injEq] at e
    rw [e.1, e.2]
  have hsub : (g.productions.map fun p => (Item.nt p.left, p.right)) ⊆
      (expansions D (repeated D num)).map fun x => (num x.1, x.2.map num) := by
    intro x hx
    obtain ⟨p, hpm, rfl⟩ := List.mem_map.1 hx
    obtain ⟨e, a, he, h1, h2⟩ := (hp p).1 hpm
    exact List.mem_map.2 ⟨(e, a), mem_expansions he, by rw [h1, h2]⟩
  have := subperm_map (fun x : Item × List Item => x.2.length) (List.subperm_of_subset hnd hsub)
  rw [List.map_map, List.map_map] at this
  rw [← expansions_lengths D (repeated D num)]
  simpa [Function.comp_def] using this

theorem sum_le_of_subperm {l l' : List Nat} (h : l.Subperm l') : l.sum ≤ l'.sum := by
  obtain ⟨m, hm, hs⟩ := h
  rw [← hm.sum_eq]
  clear hm
  induction hs with
  | slnil => exact Nat.le_refl _
  | cons a _ ih => rw [List.sum_cons]; omega
  | cons_cons a _ ih => rw [List.sum_cons, List.sum_cons]; omega

theorem suffixLengths_length (rs : List (Suffix × Elem)) :
    (rs.flatMap fun r => suffixLengths r.1).length = 2 * rs.length := by
  induction rs with
  | nil => rfl
  | cons r rs ih =>
    rw [List.flatMap_cons, List.length_append, ih, List.length_cons]
    obtain ⟨f, e⟩ := r
    cases f <;> simp [suffixLengths] <;> omega

theorem suffixLengths_sum (rs : List (Suffix × Elem)) :
    (rs.flatMap fun r => suffixLengths r.1).sum ≤ 3 * rs.length := by
  induction rs with
  | nil => simp
  | cons r rs ih =>
    rw [List.flatMap_cons, List.sum_append, List.length_cons]
    have : (suffixLengths r.1).sum ≤ 3 := by cases r.1 <;> decide
    omega

theorem sum_flatMap_lengths (gs : List (List (List Elem))) :
    (gs.flatMap fun alts => alts.map List.length).sum = (gs.map fun alts => (alts.map List.length).sum).sum := by
  induction gs with
  | nil => rfl
  | cons a gs ih => rw [List.flatMap_cons, List.sum_append, ih, List.map_cons, List.sum_cons]

theorem length_flatMap_lengths (gs : List (List (List Elem))) :
    (gs.flatMap fun alts => alts.map List.length).length = (gs.map List.length).sum := by
  induction gs with
  | nil => rfl
  | cons a gs ih => rw [List.flatMap_cons, List.length_append, ih, List.map_cons, List.sum_cons, List.length_map]

/-- **C90** There are at most as many productions as written alternatives and twice the repetitions; their right sides
have at most as many symbols as elements are written and three times the repetitions; and there are at most as many
anonymous rules as blocks and repetitions. -/
theorem C90_size (h0 : 2 ≤ n0) (hf : sizeOf ast.toAst ≤ fuel) {g : Grammar} {data : List LexerRuleData}
    (h : buildGrammar lc fuel ast (Grammar.new name) n0 r0 = .ok (g, data)) {D : Rules}
    (hD : readRules lc ast.children = some D) :
    g.productions.length ≤ alternativeCount D + 2 * (rulesReps D).length ∧
    (g.productions.map fun p => p.right.length).sum ≤ elementCount D + 3 * (rulesReps D).length ∧
    ∀ anon : List Nat, anon.Nodup → (∀ A ∈ anon, g.vocabulary.isNonterminalId A = true ∧
        ∀ n, g.vocabulary.getNonterminalIdByName n ≠ some A) →
      anon.length ≤ (rulesGroups D).length + (rulesReps D).length := by
  have hl := C90_lengths h0 hf h hD
  refine ⟨?_, ?_, ?_⟩
  · have := hl.length_le
    rw [List.length_map, ruleLengths, List.length_append, List.length_append, List.length_map, suffixLengths_length,
      length_flatMap_lengths] at this
    exact this
  · have := sum_le_of_subperm hl
    rw [ruleLengths, List.sum_append, List.sum_append, sum_flatMap_lengths] at this
    have h2 := suffixLengths_sum (rulesReps D)
    rw [elementCount]
    omega
  · intro anon hnd ha
    obtain ⟨num, htok, href, hkind, _, _, hnt, _⟩ := C86_translation h0 hf h hD
    have hsub : anon.map Item.nt ⊆ (rulesGroups D).map (fun alts => num (.group alts)) ++
        (rulesReps D).map fun r => num (.rep r.1 r.2) := by
      intro x hx
      obtain ⟨A, hA, rfl⟩ := List.mem_map.1 hx
      obtain ⟨h1, h2⟩ := ha A hA
      rcases hnt A h1 with ⟨n, hn⟩ | ⟨e, he, hne, hnum⟩
      · exact absurd hn (h2 n)
      · rw [List.mem_append]
        cases e with
        | tok n =>
          obtain ⟨a, ha⟩ := hkind (.tok n) (.inl he)
          rw [hnum] at ha
          cases ha
        | ref n => exact absurd rfl (hne n)
        | group alts => exact .inl (List.mem_map.2 ⟨alts, mem_rulesGroups he, hnum⟩)
        | rep f e => exact .inr (List.mem_map.2 ⟨(f, e), (mem_rulesReps D f e).2 he, hnum⟩)
    have hnd' : (anon.map Item.nt).Nodup := hnd.map fun _ _ h => Item.nt.inj h
    have := (List.subperm_of_subset hnd' hsub).length_le
    simpa using this

/-- non-vacuity: a file with 5 productions -/
example : ∃ g data, sizeOf ExTree.clash.toAst ≤ 5000 ∧ loadAst 5000 ExTree.clash = .ok (g, data) ∧
    readRules .old ExTree.clash.children = some ExTree.clashRules ∧ g.productions.length = 5 ∧
    alternativeCount ExTree.clashRules = 3 ∧ (rulesReps ExTree.clashRules).length = 2 := by
  have h : (loadAst 5000 ExTree.clash).map (fun r => r.1.productions.length) = .ok 5 := by decide +kernel
  cases hb : loadAst 5000 ExTree.clash with
  | error e => rw [hb] at h; cases h
  | ok r =>
    rw [hb] at h
    exact ⟨r.1, r.2, by decide +kernel, rfl, ExTree.clash_rules, Except.ok.inj h, by decide +kernel, by decide +kernel⟩

end Syntaxis
