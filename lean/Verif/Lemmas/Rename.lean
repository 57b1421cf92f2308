import Verif.Spec.Reorder
import Verif.Lemmas.Desugar

/-! # Translating the rule names of EBNF rules -/

namespace Syntaxis

variable {ν : Str → Str}

theorem renameSeq_map (ν : Str → Str) (a : List Elem) : renameSeq ν a = a.map (Elem.rename ν) := by
  induction a with
  | nil => rfl
  | cons e a ih => rw [renameSeq, ih]; rfl

theorem renameAlts_map (ν : Str → Str) (as : List (List Elem)) : renameAlts ν as = as.map (renameSeq ν) := by
  induction as with
  | nil => rfl
  | cons e a ih => rw [renameAlts, ih]; rfl

mutual
theorem rename_inj (hν : Function.Injective ν) : ∀ e e' : Elem, e.rename ν = e'.rename ν → e = e'
  | .tok n, e', h => by cases e' <;> simp_all [Elem.rename]
  | .ref n, e', h => by
    cases e' <;> simp only [Elem.rename, Elem.ref.injEq, reduceCtorEq] at h
    rw [hν h]
  | .group alts, e', h => by
    cases e' <;> simp only [Elem.rename, Elem.group.injEq, reduceCtorEq] at h
    rw [renameAlts_inj hν _ _ h]
  | .rep f e, e', h => by
    cases e' <;> simp only [Elem.rename, Elem.rep.injEq, reduceCtorEq] at h
    rw [h.1, rename_inj hν _ _ h.2]
theorem renameSeq_inj (hν : Function.Injective ν) : ∀ a a' : List Elem, renameSeq ν a = renameSeq ν a' → a = a'
  | [], a', h => by cases a' <;> simp_all [renameSeq]
  | e :: a, a', h => by
    cases a' <;> simp only [renameSeq, List.cons.injEq, reduceCtorEq] at h
    rw [rename_inj hν _ _ h.1, renameSeq_inj hν _ _ h.2]
theorem renameAlts_inj (hν : Function.Injective ν) : ∀ a a' : List (List Elem), renameAlts ν a = renameAlts ν a' → a = a'
  | [], a', h => by cases a' <;> simp_all [renameAlts]
  | e :: a, a', h => by
    cases a' <;> simp only [renameAlts, List.cons.injEq, reduceCtorEq] at h
    rw [renameSeq_inj hν _ _ h.1, renameAlts_inj hν _ _ h.2]
end

mutual
theorem rename_id : ∀ e : Elem, e.rename id = e
  | .tok n => rfl
  | .ref n => rfl
  | .group alts => by rw [Elem.rename, renameAlts_id]
  | .rep f e => by rw [Elem.rename, rename_id]
theorem renameSeq_id : ∀ a : List Elem, renameSeq id a = a
  | [] => rfl
  | e :: a => by rw [renameSeq, rename_id, renameSeq_id]
theorem renameAlts_id : ∀ a : List (List Elem), renameAlts id a = a
  | [] => rfl
  | e :: a => by rw [renameAlts, renameSeq_id, renameAlts_id]
end

theorem renameRules_id (D : Rules) : renameRules id D = D := by
  rw [renameRules]
  conv_rhs => rw [← List.map_id D]
  refine List.map_congr_left fun r _ => ?_
  rw [renameAlts_id]
  rfl

mutual
theorem parts_rename (ν : Str → Str) : ∀ e : Elem, (e.rename ν).parts = e.parts.map (Elem.rename ν)
  | .tok n => rfl
  | .ref n => rfl
  | .group alts => by
    rw [Elem.rename, Elem.parts, Elem.parts, altsParts_rename, List.map_cons, Elem.rename]
  | .rep f e => by
    rw [Elem.rename, Elem.parts, Elem.parts, parts_rename, List.map_cons, Elem.rename]
theorem seqParts_rename (ν : Str → Str) : ∀ a : List Elem, seqParts (renameSeq ν a) = (seqParts a).map (Elem.rename ν)
  | [] => rfl
  | e :: a => by rw [renameSeq, seqParts, seqParts, parts_rename, seqParts_rename, List.map_append]
theorem altsParts_rename (ν : Str → Str) :
    ∀ a : List (List Elem), altsParts (renameAlts ν a) = (altsParts a).map (Elem.rename ν)
  | [] => rfl
  | e :: a => by rw [renameAlts, altsParts, altsParts, seqParts_rename, altsParts_rename, List.map_append]
end

theorem rulesParts_rename (ν : Str → Str) (D : Rules) :
    rulesParts (renameRules ν D) = (rulesParts D).map (Elem.rename ν) := by
  induction D with
  | nil => rfl
  | cons r D ih =>
    simp only [rulesParts, renameRules, List.map_cons, List.flatMap_cons, altsParts_rename, List.map_append] at ih ⊢
    rw [ih]

theorem written_rename (ν : Str → Str) (D : Rules) :
    writtenAlternatives (renameRules ν D) = (writtenAlternatives D).map fun w => (ν w.1, renameSeq ν w.2) := by
  induction D with
  | nil => rfl
  | cons r D ih =>
    simp only [writtenAlternatives, renameRules, List.map_cons, List.flatMap_cons, renameAlts_map, List.map_append,
      List.map_map] at ih ⊢
    rw [ih]
    rfl

theorem isTok_rename (ν : Str → Str) (e : Elem) : (e.rename ν).isTok = e.isTok := by cases e <;> rfl

mutual
theorem suffixes_rename (ν : Str → Str) : ∀ e : Elem, (e.rename ν).suffixes = e.suffixes
  | .tok n => rfl
  | .ref n => rfl
  | .group alts => by rw [Elem.rename, Elem.suffixes, Elem.suffixes, altsSuffixes_rename]
  | .rep f e => by rw [Elem.rename, Elem.suffixes, Elem.suffixes, suffixes_rename, isTok_rename]
theorem seqSuffixes_rename (ν : Str → Str) : ∀ a : List Elem, seqSuffixes (renameSeq ν a) = seqSuffixes a
  | [] => rfl
  | e :: a => by rw [renameSeq, seqSuffixes, seqSuffixes, suffixes_rename, seqSuffixes_rename]
theorem altsSuffixes_rename (ν : Str → Str) : ∀ a : List (List Elem), altsSuffixes (renameAlts ν a) = altsSuffixes a
  | [] => rfl
  | e :: a => by rw [renameAlts, altsSuffixes, altsSuffixes, seqSuffixes_rename, altsSuffixes_rename]
end

theorem separate_rename {D : Rules} (h : SuffixesSeparate D) : SuffixesSeparate (renameRules ν D) := by
  intro f
  have := h f
  simpa only [renameRules, List.mem_map, exists_exists_and_eq_and, altsSuffixes_rename] using this

theorem isSymbol_rename {D : Rules} {e : Elem} (h : IsSymbol D e) : IsSymbol (renameRules ν D) (e.rename ν) := by
  rcases h with h | ⟨r, hr, rfl⟩
  · left
    rw [rulesParts_rename]
    exact List.mem_map_of_mem h
  · exact .inr ⟨_, List.mem_map_of_mem hr, rfl⟩

theorem expands_rename {D : Rules} {e : Elem} {a : List Elem} (h : Expands D e a) :
    Expands (renameRules ν D) (e.rename ν) (renameSeq ν a) := by
  have part : ∀ e, e ∈ rulesParts D → e.rename ν ∈ rulesParts (renameRules ν D) := by
    intro e he
    rw [rulesParts_rename]
    exact List.mem_map_of_mem he
  cases h with
  | rule hw =>
    refine .rule ?_
    rw [written_rename]
    exact List.mem_map.2 ⟨_, hw, rfl⟩
  | group hg ha =>
    refine .group (part _ hg) ?_
    rw [renameAlts_map]
    exact List.mem_map_of_mem ha
  | starNil hg => exact .starNil (part _ hg)
  | starCons hg => exact .starCons (part _ hg)
  | plusOne hg => exact .plusOne (part _ hg)
  | plusCons hg => exact .plusCons (part _ hg)
  | optNil hg => exact .optNil (part _ hg)
  | optOne hg => exact .optOne (part _ hg)

/-- the expansions of translated rules are translations of expansions -/
theorem expands_rename_inv {D : Rules} {e' : Elem} {a' : List Elem} (h : Expands (renameRules ν D) e' a') :
    ∃ e a, e' = e.rename ν ∧ a' = renameSeq ν a ∧ Expands D e a := by
  have part : ∀ f e', .rep f e' ∈ rulesParts (renameRules ν D) → ∃ e, e' = e.rename ν ∧ .rep f e ∈ rulesParts D := by
    intro f e' he
    rw [rulesParts_rename, List.mem_map] at he
    obtain ⟨x, hx, h⟩ := he
    cases x <;> simp only [Elem.rename, reduceCtorEq, Elem.rep.injEq] at h
    obtain ⟨rfl, h⟩ := h
    exact ⟨_, h.symm, hx⟩
  cases h with
  | rule hw =>
    rw [written_rename, List.mem_map] at hw
    obtain ⟨w, hw, h⟩ := hw
    simp only [Prod.mk.injEq] at h
    obtain ⟨rfl, rfl⟩ := h
    exact ⟨.ref w.1, w.2, rfl, rfl, .rule hw⟩
  | group hg ha =>
    rw [rulesParts_rename, List.mem_map] at hg
    obtain ⟨x, hx, h⟩ := hg
    cases x <;> simp only [Elem.rename, reduceCtorEq, Elem.group.injEq] at h
    subst h
    rw [renameAlts_map, List.mem_map] at ha
    obtain ⟨a, ha, rfl⟩ := ha
    exact ⟨_, a, rfl, rfl, .group hx ha⟩
  | starNil hg => obtain ⟨e, rfl, he⟩ := part _ _ hg; exact ⟨_, _, rfl, rfl, .starNil he⟩
  | starCons hg => obtain ⟨e, rfl, he⟩ := part _ _ hg; exact ⟨_, _, rfl, rfl, .starCons he⟩
  | plusOne hg => obtain ⟨e, rfl, he⟩ := part _ _ hg; exact ⟨_, _, rfl, rfl, .plusOne he⟩
  | plusCons hg => obtain ⟨e, rfl, he⟩ := part _ _ hg; exact ⟨_, _, rfl, rfl, .plusCons he⟩
  | optNil hg => obtain ⟨e, rfl, he⟩ := part _ _ hg; exact ⟨_, _, rfl, rfl, .optNil he⟩
  | optOne hg => obtain ⟨e, rfl, he⟩ := part _ _ hg; exact ⟨_, _, rfl, rfl, .optOne he⟩

end Syntaxis
