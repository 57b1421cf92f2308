import Verif.Spec.RegexLang
import Verif.Lemmas.Lexer

/-! # The backtracking matcher reports exactly the matches -/

namespace Syntaxis

/-- non-trivial concatenations suffice -/
theorem Star.nonempty {L : Str → Prop} {u : Str} (h : Star L u) :
    u = [] ∨ ∃ a b, u = a ++ b ∧ a ≠ [] ∧ L a ∧ Star L b := by
  induction h with
  | nil => exact Or.inl rfl
  | @cons a b ha hb ih =>
    by_cases hn : a = []
    · subst hn; simpa using ih
    · exact Or.inr ⟨a, b, rfl, hn, ha, hb⟩

namespace Regex

theorem mem_iterate {m : Str → List Str} {L : Str → Prop}
    (hm : ∀ s t, t ∈ m s ↔ ∃ u, s = u ++ t ∧ L u) (n : Nat) (s t : Str) (hn : s.length ≤ n) :
    t ∈ iterate m n s ↔ ∃ u, s = u ++ t ∧ Star L u := by
  induction n generalizing s with
  | zero =>
    have : s = [] := List.length_eq_zero_iff.1 (Nat.le_zero.1 hn)
    subst this
    simp only [iterate, List.mem_singleton]
    constructor
    · rintro rfl; exact ⟨[], rfl, .nil⟩
    · rintro ⟨u, e, _⟩
      exact (List.append_eq_nil_iff.1 e.symm).2
  | succ n ih =>
    simp only [iterate, List.mem_append, List.mem_flatMap, List.mem_singleton]
    constructor
    · rintro (⟨s', hs', ht⟩ | rfl)
      · split at ht
        · rename_i hlt
          obtain ⟨u, rfl, hu⟩ := (hm _ _).1 hs'
          obtain ⟨w, rfl, hw⟩ := (ih s' (by omega)).1 ht
          exact ⟨u ++ w, by simp, .cons hu hw⟩
        · simp at ht
      · exact ⟨[], rfl, .nil⟩
    · rintro ⟨u, rfl, hu⟩
      rcases hu.nonempty with rfl | ⟨a, b, rfl, ha, hL, hb⟩
      · right; rfl
      · left
        have hpos : 0 < a.length := List.length_pos_iff.2 ha
        refine ⟨b ++ t, (hm _ _).2 ⟨a, by simp, hL⟩, ?_⟩
        rw [if_pos (by simp; omega)]
        exact (ih _ (by simp at hn ⊢; omega)).2 ⟨b, rfl, hb⟩

theorem mem_iterateLazy {m : Str → List Str} {L : Str → Prop}
    (hm : ∀ s t, t ∈ m s ↔ ∃ u, s = u ++ t ∧ L u) (n : Nat) (s t : Str) (hn : s.length ≤ n) :
    t ∈ iterateLazy m n s ↔ ∃ u, s = u ++ t ∧ Star L u := by
  induction n generalizing s with
  | zero =>
    have : s = [] := List.length_eq_zero_iff.1 (Nat.le_zero.1 hn)
    subst this
    simp only [iterateLazy, List.mem_singleton]
    constructor
    · rintro rfl; exact ⟨[], rfl, .nil⟩
    · rintro ⟨u, e, _⟩
      exact (List.append_eq_nil_iff.1 e.symm).2
  | succ n ih =>
    simp only [iterateLazy, List.mem_cons, List.mem_flatMap]
    constructor
    · rintro (rfl | ⟨s', hs', ht⟩)
      · exact ⟨[], rfl, .nil⟩
      · split at ht
        · rename_i hlt
          obtain ⟨u, rfl, hu⟩ := (hm _ _).1 hs'
          obtain ⟨w, rfl, hw⟩ := (ih s' (by omega)).1 ht
          exact ⟨u ++ w, by simp, .cons hu hw⟩
        · simp at ht
    · rintro ⟨u, rfl, hu⟩
      rcases hu.nonempty with rfl | ⟨a, b, rfl, ha, hL, hb⟩
      · left; rfl
      · right
        have hpos : 0 < a.length := List.length_pos_iff.2 ha
        refine ⟨b ++ t, (hm _ _).2 ⟨a, by simp, hL⟩, ?_⟩
        rw [if_pos (by simp; omega)]
        exact (ih _ (by simp at hn ⊢; omega)).2 ⟨b, rfl, hb⟩

theorem mem_run (r : Regex) (s t : Str) : t ∈ r.run s ↔ ∃ u, s = u ++ t ∧ r.Lang u := by
  induction r generalizing s t with
  | cls p =>
    simp only [run, Lang]
    cases s with
    | nil =>
      simp only [List.not_mem_nil, false_iff]
      rintro ⟨u, e, c, _, rfl⟩
      simp at e
    | cons c s =>
      simp only
      by_cases hp : p c = true
      · simp only [hp, if_true, List.mem_singleton]
        constructor
        · rintro rfl; exact ⟨[c], rfl, c, hp, rfl⟩
        · rintro ⟨u, e, d, _, rfl⟩
          simp only [List.singleton_append, List.cons.injEq] at e
          exact e.2.symm
      · simp only [hp]
        simp only [Bool.false_eq_true, if_false, List.not_mem_nil, false_iff]
        rintro ⟨u, e, d, hd, rfl⟩
        simp only [List.singleton_append, List.cons.injEq] at e
        rw [e.1] at hp
        exact hp hd
  | nil =>
    simp only [run, Lang, List.mem_singleton]
    constructor
    · rintro rfl; exact ⟨[], rfl, rfl⟩
    · rintro ⟨u, e, rfl⟩; exact e.symm
  | seq r q ihr ihq =>
    simp only [run, Lang, List.mem_flatMap, ihr, ihq]
    constructor
    · rintro ⟨s', ⟨a, rfl, ha⟩, b, rfl, hb⟩
      exact ⟨a ++ b, by simp, a, b, rfl, ha, hb⟩
    · rintro ⟨u, rfl, a, b, rfl, ha, hb⟩
      exact ⟨b ++ t, ⟨a, by simp, ha⟩, b, rfl, hb⟩
  | alt r q ihr ihq =>
    simp only [run, Lang, List.mem_append, ihr, ihq]
    constructor
    · rintro (⟨u, e, h⟩ | ⟨u, e, h⟩)
      · exact ⟨u, e, Or.inl h⟩
      · exact ⟨u, e, Or.inr h⟩
    · rintro ⟨u, e, h | h⟩
      · exact Or.inl ⟨u, e, h⟩
      · exact Or.inr ⟨u, e, h⟩
  | star r ih => exact mem_iterate ih _ _ _ (Nat.le_refl _)
  | lazyStar r ih => exact mem_iterateLazy ih _ _ _ (Nat.le_refl _)

/-- a reported match is a prefix in the language -/
theorem find_some {r : Regex} {s : Str} {n : Nat} (h : r.find s = some n) :
    ∃ u v, s = u ++ v ∧ r.Lang u ∧ n = byteLen u := by
  simp only [find, Option.map_eq_some_iff] at h
  obtain ⟨v, hv, rfl⟩ := h
  obtain ⟨u, rfl, hu⟩ := (mem_run r s v).1 (List.mem_of_mem_head? hv)
  exact ⟨u, v, rfl, hu, by simp⟩

/-- nothing is reported only if no prefix is in the language -/
theorem find_none {r : Regex} {s : Str} : r.find s = none ↔ ∀ u v, s = u ++ v → ¬ r.Lang u := by
  simp only [find, Option.map_eq_none_iff, List.head?_eq_none_iff]
  constructor
  · intro h u v e hu
    have : v ∈ r.run s := (mem_run r s v).2 ⟨u, e, hu⟩
    rw [h] at this; simp at this
  · intro h
    rw [List.eq_nil_iff_forall_not_mem]
    intro v hv
    obtain ⟨u, e, hu⟩ := (mem_run r s v).1 hv
    exact h u v e hu

theorem find_ok (r : Regex) : Matcher.Ok r.find := by
  intro s n h
  obtain ⟨u, v, e, _, rfl⟩ := find_some h
  exact ⟨u, v, e, rfl⟩

end Regex
end Syntaxis
