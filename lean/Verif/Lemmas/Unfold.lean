import Verif.Spec.Unfold
import Verif.Lemmas.EbnfLaws

/-! # Inlining rules and removing recursion keeps the words -/

namespace Syntaxis

variable {D D' : Rules} {tok : Str → Option Nat}

mutual
theorem Unfolds.cons_same (e : Elem) : ∀ {s t : List Elem}, Unfolds D s t → Unfolds D (e :: s) (e :: t) := by
  intro s t h
  cases e with
  | tok n => exact .tok n h
  | ref n => exact .ref n h
  | group as => exact .group id id (fun a ha => ha) (Unfolds.all_same as) (fun a ha => ha) (Unfolds.all_same as) h
  | rep f e => exact .rep f (Unfolds.cons_same e .nil) h
theorem Unfolds.same (s : List Elem) : Unfolds D s s := by
  cases s with
  | nil => exact .nil
  | cons e s => exact Unfolds.cons_same e (Unfolds.same s)
theorem Unfolds.all_same (as : List (List Elem)) : ∀ a ∈ as, Unfolds D a a := by
  cases as with
  | nil => exact fun a ha => absurd ha List.not_mem_nil
  | cons a as =>
    intro b hb
    rcases List.mem_cons.1 hb with hb | hb
    · rw [hb]
      exact Unfolds.same a
    · exact Unfolds.all_same as b hb
end

theorem UnfoldedRules.forward (h : UnfoldedRules D D') {s : List Elem} {w : List Nat} (hw : Word D tok s w) :
    ∀ t, Unfolds D s t → Word D' tok t w := by
  induction hw with
  | nil =>
    intro t ht
    cases ht
    exact .nil
  | tok hn _ ih =>
    intro t ht
    cases ht with
    | tok _ ht => exact .tok hn (ih _ ht)
  | ref hd ha _ _ ih1 ih2 =>
    intro t ht
    cases ht with
    | ref _ ht =>
      obtain ⟨b, hb, hab⟩ := (h _).1 _ (mem_alternativesOf.2 ⟨_, hd, ha⟩)
      obtain ⟨alts, hd', hb⟩ := mem_alternativesOf.1 hb
      exact .ref hd' hb (ih1 _ hab) (ih2 _ ht)
    | unfold _ ht => exact .group (mem_alternativesOf.2 ⟨_, hd, ha⟩) (ih1 _ (.same _)) (ih2 _ ht)
  | group ha _ _ ih1 ih2 =>
    intro t ht
    cases ht with
    | group f g hf hf' hg hg' ht => exact .group (hf _ ha) (ih1 _ (hf' _ ha)) (ih2 _ ht)
  | starNil _ ih =>
    intro t ht
    cases ht with
    | rep _ he ht => exact .starNil (ih _ ht)
  | starCons _ _ ih1 ih2 =>
    intro t ht
    cases ht with
    | rep _ he ht => exact .starCons (ih1 _ he) (ih2 _ (.rep _ he ht))
  | plusOne _ _ ih1 ih2 =>
    intro t ht
    cases ht with
    | rep _ he ht => exact .plusOne (ih1 _ he) (ih2 _ ht)
  | plusCons _ _ ih1 ih2 =>
    intro t ht
    cases ht with
    | rep _ he ht => exact .plusCons (ih1 _ he) (ih2 _ (.rep _ he ht))
  | optNil _ ih =>
    intro t ht
    cases ht with
    | rep _ he ht => exact .optNil (ih _ ht)
  | optOne _ _ ih1 ih2 =>
    intro t ht
    cases ht with
    | rep _ he ht => exact .optOne (ih1 _ he) (ih2 _ ht)

theorem UnfoldedRules.backward (h : UnfoldedRules D D') {t : List Elem} {w : List Nat} (hw : Word D' tok t w) :
    ∀ s, Unfolds D s t → Word D tok s w := by
  induction hw with
  | nil =>
    intro s hs
    cases hs
    exact .nil
  | tok hn _ ih =>
    intro s hs
    cases hs with
    | tok _ hs => exact .tok hn (ih _ hs)
  | ref hd ha _ _ ih1 ih2 =>
    intro s hs
    cases hs with
    | ref _ hs =>
      obtain ⟨a, ha, hab⟩ := (h _).2 _ (mem_alternativesOf.2 ⟨_, hd, ha⟩)
      obtain ⟨alts, hd', ha⟩ := mem_alternativesOf.1 ha
      exact .ref hd' ha (ih1 _ hab) (ih2 _ hs)
  | group ha _ _ ih1 ih2 =>
    intro s hs
    cases hs with
    | group f g hf hf' hg hg' hs => exact .group (hg _ ha) (ih1 _ (hg' _ ha)) (ih2 _ hs)
    | unfold _ hs =>
      obtain ⟨alts, hd, ha⟩ := mem_alternativesOf.1 ha
      exact .ref hd ha (ih1 _ (.same _)) (ih2 _ hs)
  | starNil _ ih =>
    intro s hs
    cases hs with
    | rep _ he hs => exact .starNil (ih _ hs)
  | starCons _ _ ih1 ih2 =>
    intro s hs
    cases hs with
    | rep _ he hs => exact .starCons (ih1 _ he) (ih2 _ (.rep _ he hs))
  | plusOne _ _ ih1 ih2 =>
    intro s hs
    cases hs with
    | rep _ he hs => exact .plusOne (ih1 _ he) (ih2 _ hs)
  | plusCons _ _ ih1 ih2 =>
    intro s hs
    cases hs with
    | rep _ he hs => exact .plusCons (ih1 _ he) (ih2 _ (.rep _ he hs))
  | optNil _ ih =>
    intro s hs
    cases hs with
    | rep _ he hs => exact .optNil (ih _ hs)
  | optOne _ _ ih1 ih2 =>
    intro s hs
    cases hs with
    | rep _ he hs => exact .optOne (ih1 _ he) (ih2 _ hs)

/-- words are kept if every alternative of a rule of the first file only has words of that rule in the second -/
theorem word_of_alternatives (h : ∀ n, ∀ a ∈ alternativesOf D n, ∀ u, Word D' tok a u → Word D' tok [.ref n] u)
    {s : List Elem} {w : List Nat} (hw : Word D tok s w) : Word D' tok s w := by
  induction hw with
  | nil => exact .nil
  | tok hn _ ih => exact .tok hn ih
  | ref hd ha _ _ ih1 ih2 => exact (h _ _ (mem_alternativesOf.2 ⟨_, hd, ha⟩) _ ih1).append ih2
  | group ha _ _ ih1 ih2 => exact .group ha ih1 ih2
  | starNil _ ih => exact .starNil ih
  | starCons _ _ ih1 ih2 => exact .starCons ih1 ih2
  | plusOne _ _ ih1 ih2 => exact .plusOne ih1 ih2
  | plusCons _ _ ih1 ih2 => exact .plusCons ih1 ih2
  | optNil _ ih => exact .optNil ih
  | optOne _ _ ih1 ih2 => exact .optOne ih1 ih2

theorem word_ref_iff {n : Str} {u : List Nat} : Word D tok [.ref n] u ↔ ∃ a ∈ alternativesOf D n, Word D tok a u := by
  constructor
  · intro h
    cases h with
    | ref hd ha hu h =>
      cases h
      exact ⟨_, mem_alternativesOf.2 ⟨_, hd, ha⟩, by simpa using hu⟩
  · rintro ⟨a, ha, h⟩
    obtain ⟨alts, hd, ha⟩ := mem_alternativesOf.1 ha
    exact word_one_ref hd ha h

variable {n : Str} {α β : List (List Elem)}

theorem LeftRecursionRemoved.forward (h : LeftRecursionRemoved n α β D D') {s : List Elem} {w : List Nat}
    (hw : Word D tok s w) : Word D' tok s w := by
  have hafter := (h.after _).2 rfl
  refine word_of_alternatives ?_ hw
  intro m a ha u hu
  by_cases hm : m = n
  · subst hm
    rcases List.mem_append.1 ((h.before a).1 ha) with ha | ha
    · obtain ⟨s, hs, rfl⟩ := List.mem_map.1 ha
      obtain ⟨x, y, rfl, h1, h2⟩ := word_cons.1 hu
      obtain ⟨b, hb, h3⟩ := word_ref_iff.1 h1
      rw [(h.after b).1 hb] at h3
      obtain ⟨p, q, rfl, h4, h5⟩ := word_cons.1 h3
      obtain ⟨us, h6, rfl⟩ := word_star.1 h5
      refine word_ref_iff.2 ⟨_, hafter, word_cons.2 ⟨p, us.flatten ++ y, by simp, h4, word_star.2 ⟨us ++ [y], ?_, by simp⟩⟩⟩
      intro v hv
      rcases List.mem_append.1 hv with hv | hv
      · exact h6 v hv
      · rw [List.mem_singleton.1 hv]
        exact word_group.2 ⟨s, hs, h2⟩
    · exact word_ref_iff.2 ⟨_, hafter, word_cons.2 ⟨u, [], by simp, word_group.2 ⟨a, ha, hu⟩, word_star.2 ⟨[], by simp, rfl⟩⟩⟩
  · exact word_ref_iff.2 ⟨a, (h.others m hm a).1 ha, hu⟩

theorem LeftRecursionRemoved.backward (h : LeftRecursionRemoved n α β D D') {s : List Elem} {w : List Nat}
    (hw : Word D' tok s w) : Word D tok s w := by
  refine word_of_alternatives ?_ hw
  intro m a ha u hu
  by_cases hm : m = n
  · subst hm
    rw [(h.after a).1 ha] at hu
    obtain ⟨p, q, rfl, h4, h5⟩ := word_cons.1 hu
    obtain ⟨b, hb, h4⟩ := word_group.1 h4
    obtain ⟨us, h6, rfl⟩ := word_star.1 h5
    have key : ∀ (us : List (List Nat)) (p : List Nat), Word D tok [.ref m] p →
        (∀ v ∈ us, Word D tok [.group α] v) → Word D tok [.ref m] (p ++ us.flatten) := by
      intro us
      induction us with
      | nil => intro p hp _; simpa using hp
      | cons v us ih =>
        intro p hp hus
        obtain ⟨s, hs, h7⟩ := word_group.1 (hus v (by simp))
        have := ih (p ++ v) (word_ref_iff.2 ⟨.ref m :: s, (h.before _).2
          (List.mem_append.2 (.inl (List.mem_map.2 ⟨s, hs, rfl⟩))), word_cons.2 ⟨p, v, rfl, hp, h7⟩⟩)
          (fun x hx => hus x (by simp [hx]))
        simpa using this
    exact key us p (word_ref_iff.2 ⟨b, (h.before b).2 (List.mem_append.2 (.inr hb)), h4⟩) h6
  · exact word_ref_iff.2 ⟨a, (h.others m hm a).2 ha, hu⟩

theorem RightRecursionRemoved.forward (h : RightRecursionRemoved n α β D D') {s : List Elem} {w : List Nat}
    (hw : Word D tok s w) : Word D' tok s w := by
  have hafter := (h.after _).2 rfl
  refine word_of_alternatives ?_ hw
  intro m a ha u hu
  by_cases hm : m = n
  · subst hm
    rcases List.mem_append.1 ((h.before a).1 ha) with ha | ha
    · obtain ⟨s, hs, rfl⟩ := List.mem_map.1 ha
      obtain ⟨x, y, rfl, h1, h2⟩ := word_append.1 hu
      obtain ⟨b, hb, h3⟩ := word_ref_iff.1 h2
      rw [(h.after b).1 hb] at h3
      exact word_ref_iff.2 ⟨_, hafter, .starCons (word_group.2 ⟨s, hs, h1⟩) h3⟩
    · exact word_ref_iff.2 ⟨_, hafter, .starNil (word_group.2 ⟨a, ha, hu⟩)⟩
  · exact word_ref_iff.2 ⟨a, (h.others m hm a).1 ha, hu⟩

theorem RightRecursionRemoved.backward (h : RightRecursionRemoved n α β D D') {s : List Elem} {w : List Nat}
    (hw : Word D' tok s w) : Word D tok s w := by
  refine word_of_alternatives ?_ hw
  intro m a ha u hu
  by_cases hm : m = n
  · subst hm
    rw [(h.after a).1 ha] at hu
    obtain ⟨p, q, rfl, h4, h5⟩ := word_cons.1 hu
    obtain ⟨b, hb, h5⟩ := word_group.1 h5
    obtain ⟨us, h6, rfl⟩ := word_star.1 h4
    clear hu
    induction us with
    | nil => exact word_ref_iff.2 ⟨b, (h.before b).2 (List.mem_append.2 (.inr hb)), by simpa using h5⟩
    | cons v us ih =>
      obtain ⟨s, hs, h7⟩ := word_group.1 (h6 v (by simp))
      have hus : ∀ x ∈ us, Word D tok [.group α] x := fun x hx => h6 x (by simp [hx])
      have := ih hus (word_star.2 ⟨us, hus, rfl⟩)
      refine word_ref_iff.2 ⟨s ++ [.ref m], (h.before _).2 (List.mem_append.2 (.inl (List.mem_map.2 ⟨s, hs, rfl⟩))), ?_⟩
      rw [List.flatten_cons, List.append_assoc]
      exact h7.append this
  · exact word_ref_iff.2 ⟨a, (h.others m hm a).2 ha, hu⟩

end Syntaxis
