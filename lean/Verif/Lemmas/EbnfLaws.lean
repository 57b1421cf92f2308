import Verif.Spec.EbnfLaws
import Verif.Lemmas.EbnfSem

/-! # The laws of rewriting keep the words -/

namespace Syntaxis

variable {D : Rules} {tok : Str → Option Nat}

theorem word_append {s t : List Elem} {w : List Nat} :
    Word D tok (s ++ t) w ↔ ∃ u v, w = u ++ v ∧ Word D tok s u ∧ Word D tok t v := by
  constructor
  · induction s generalizing w with
    | nil => exact fun h => ⟨[], w, rfl, .nil, h⟩
    | cons e s ih =>
      intro h
      obtain ⟨u, v, rfl, h1, h2⟩ := h.split e (s ++ t) rfl
      obtain ⟨x, y, rfl, h3, h4⟩ := ih h2
      exact ⟨u ++ x, y, by simp, h1.append h3, h4⟩
  · rintro ⟨u, v, rfl, h1, h2⟩
    exact h1.append h2

theorem word_cons {e : Elem} {t : List Elem} {w : List Nat} :
    Word D tok (e :: t) w ↔ ∃ u v, w = u ++ v ∧ Word D tok [e] u ∧ Word D tok t v :=
  word_append (s := [e])

theorem word_nil {w : List Nat} : Word D tok [] w ↔ w = [] := by
  constructor
  · intro h
    cases h
    rfl
  · rintro rfl
    exact .nil

theorem word_group {as : List (List Elem)} {w : List Nat} :
    Word D tok [.group as] w ↔ ∃ a ∈ as, Word D tok a w := by
  constructor
  · intro h
    cases h with
    | group ha hu h =>
      cases h
      exact ⟨_, ha, by simpa using hu⟩
  · rintro ⟨a, ha, h⟩
    have := Word.group ha h .nil
    rwa [List.append_nil] at this

theorem word_one_ref {n : Str} {alts : List (List Elem)} {alt : List Elem} {u : List Nat} (hd : (n, alts) ∈ D)
    (ha : alt ∈ alts) (h : Word D tok alt u) : Word D tok [.ref n] u := by
  have := Word.ref hd ha h .nil
  rwa [List.append_nil] at this

theorem word_question {e : Elem} {w : List Nat} :
    Word D tok [.rep .question e] w ↔ w = [] ∨ Word D tok [e] w := by
  constructor
  · intro h
    cases h with
    | optNil h =>
      cases h
      exact .inl rfl
    | optOne hu h =>
      cases h
      exact .inr (by simpa using hu)
  · rintro (rfl | h)
    · exact .optNil .nil
    · have := Word.optOne h .nil
      rwa [List.append_nil] at this

theorem star_pieces {gs : List Elem} {w : List Nat} (h : Word D tok gs w) :
    ∀ e, gs = [.rep .star e] → ∃ us : List (List Nat), (∀ u ∈ us, Word D tok [e] u) ∧ w = us.flatten := by
  induction h with
  | starNil h =>
    intro e he
    cases he
    cases h
    exact ⟨[], by simp, rfl⟩
  | starCons hu _ _ ih =>
    intro e he
    cases he
    obtain ⟨us, h1, rfl⟩ := ih _ rfl
    exact ⟨_ :: us, by simpa using ⟨hu, h1⟩, rfl⟩
  | nil => intro e he; cases he
  | tok => intro e he; cases he
  | ref => intro e he; cases he
  | group => intro e he; cases he
  | plusOne => intro e he; cases he
  | plusCons => intro e he; cases he
  | optNil => intro e he; cases he
  | optOne => intro e he; cases he

theorem word_star {e : Elem} {w : List Nat} :
    Word D tok [.rep .star e] w ↔ ∃ us : List (List Nat), (∀ u ∈ us, Word D tok [e] u) ∧ w = us.flatten := by
  constructor
  · exact fun h => star_pieces h e rfl
  · rintro ⟨us, h, rfl⟩
    induction us with
    | nil => exact .starNil .nil
    | cons u us ih => exact .starCons (h u (by simp)) (ih fun v hv => h v (by simp [hv]))

theorem plus_pieces {gs : List Elem} {w : List Nat} (h : Word D tok gs w) :
    ∀ e, gs = [.rep .plus e] → ∃ us : List (List Nat), us ≠ [] ∧ (∀ u ∈ us, Word D tok [e] u) ∧ w = us.flatten := by
  induction h with
  | plusOne hu h =>
    intro e he
    cases he
    cases h
    exact ⟨[_], by simp, by simpa using hu, by simp⟩
  | plusCons hu _ _ ih =>
    intro e he
    cases he
    obtain ⟨us, _, h1, rfl⟩ := ih _ rfl
    exact ⟨_ :: us, by simp, by simpa using ⟨hu, h1⟩, rfl⟩
  | nil => intro e he; cases he
  | tok => intro e he; cases he
  | ref => intro e he; cases he
  | group => intro e he; cases he
  | starNil => intro e he; cases he
  | starCons => intro e he; cases he
  | optNil => intro e he; cases he
  | optOne => intro e he; cases he

theorem word_pieces {e : Elem} {w : List Nat} :
    Word D tok [.rep .plus e] w ↔
      ∃ us : List (List Nat), us ≠ [] ∧ (∀ u ∈ us, Word D tok [e] u) ∧ w = us.flatten := by
  constructor
  · exact fun h => plus_pieces h e rfl
  · rintro ⟨us, hne, h, rfl⟩
    induction us with
    | nil => exact absurd rfl hne
    | cons u us ih =>
      cases us with
      | nil =>
        have := Word.plusOne (h u (by simp)) .nil
        simpa using this
      | cons v us => exact .plusCons (h u (by simp)) (ih (by simp) fun v hv => h v (by simp [hv]))

/-- pieces that are themselves made of pieces -/
theorem pieces_flatten {p q : List Nat → Prop}
    (h : ∀ u, p u → ∃ us : List (List Nat), (∀ v ∈ us, q v) ∧ u = us.flatten) (us : List (List Nat))
    (hus : ∀ u ∈ us, p u) : ∃ vs : List (List Nat), (∀ v ∈ vs, q v) ∧ us.flatten = vs.flatten := by
  induction us with
  | nil => exact ⟨[], by simp, rfl⟩
  | cons u us ih =>
    obtain ⟨vs, h1, h2⟩ := h u (hus u (by simp))
    obtain ⟨vs', h3, h4⟩ := ih fun v hv => hus v (by simp [hv])
    refine ⟨vs ++ vs', ?_, by rw [List.flatten_cons, h2, h4, List.flatten_append]⟩
    intro v hv
    rcases List.mem_append.1 hv with hv | hv
    · exact h1 v hv
    · exact h3 v hv

theorem rep_mono {e e' : Elem} (f : Suffix) (h : ∀ u, Word D tok [e] u → Word D tok [e'] u) {w : List Nat}
    (hw : Word D tok [.rep f e] w) : Word D tok [.rep f e'] w := by
  cases f with
  | star =>
    obtain ⟨us, h1, rfl⟩ := word_star.1 hw
    exact word_star.2 ⟨us, fun u hu => h u (h1 u hu), rfl⟩
  | plus =>
    obtain ⟨us, h0, h1, rfl⟩ := word_pieces.1 hw
    exact word_pieces.2 ⟨us, h0, fun u hu => h u (h1 u hu), rfl⟩
  | question =>
    rcases word_question.1 hw with rfl | h1
    · exact word_question.2 (.inl rfl)
    · exact word_question.2 (.inr (h _ h1))

theorem star_star {e e' : Elem} (h1 : ∀ u, Word D tok [e] u → Word D tok [.rep .star e'] u)
    (h2 : ∀ u, Word D tok [e'] u → Word D tok [e] u) {w : List Nat} :
    Word D tok [.rep .star e] w ↔ Word D tok [.rep .star e'] w := by
  constructor
  · intro h
    obtain ⟨us, h3, rfl⟩ := word_star.1 h
    obtain ⟨vs, h4, h5⟩ := pieces_flatten (fun u hu => word_star.1 (h1 u hu)) us h3
    exact word_star.2 ⟨vs, h4, h5⟩
  · exact rep_mono .star h2

theorem word_one_star {e : Elem} {w : List Nat} (h : Word D tok [e] w) : Word D tok [.rep .star e] w :=
  word_star.2 ⟨[w], by simpa using h, by simp⟩

theorem word_plus_star {e : Elem} {w : List Nat} (h : Word D tok [.rep .plus e] w) : Word D tok [.rep .star e] w := by
  obtain ⟨us, _, h1, rfl⟩ := word_pieces.1 h
  exact word_star.2 ⟨us, h1, rfl⟩

theorem word_star_plus {e : Elem} {w : List Nat} :
    Word D tok [.rep .star e] w ↔ w = [] ∨ Word D tok [.rep .plus e] w := by
  constructor
  · intro h
    obtain ⟨us, h1, rfl⟩ := word_star.1 h
    cases us with
    | nil => exact .inl rfl
    | cons u us => exact .inr (word_pieces.2 ⟨u :: us, by simp, h1, rfl⟩)
  · rintro (rfl | h)
    · exact word_star.2 ⟨[], by simp, rfl⟩
    · exact word_plus_star h

theorem slide_right {s t : List Elem} {v : List Nat} (us : List (List Nat))
    (h : ∀ u ∈ us, Word D tok (s ++ t) u) (hv : Word D tok s v) :
    Word D tok (s ++ [.rep .star (.group [t ++ s])]) (us.flatten ++ v) := by
  induction us with
  | nil =>
    rw [word_append]
    exact ⟨v, [], by simp, hv, word_star.2 ⟨[], by simp, rfl⟩⟩
  | cons u us ih =>
    obtain ⟨a, b, rfl, ha, hb⟩ := word_append.1 (h u (by simp))
    obtain ⟨c, d, hcd, hc, hd⟩ := word_append.1 (ih fun x hx => h x (by simp [hx]))
    rw [word_append]
    refine ⟨a, b ++ c ++ d, by simp [hcd], ha, ?_⟩
    exact .starCons (word_group.2 ⟨_, by simp, hb.append hc⟩) hd

theorem slide_left {s t : List Elem} (us : List (List Nat)) (h : ∀ u ∈ us, Word D tok (t ++ s) u) :
    ∀ v, Word D tok s v → Word D tok (.rep .star (.group [s ++ t]) :: s) (v ++ us.flatten) := by
  induction us with
  | nil =>
    intro v hv
    rw [List.flatten_nil, List.append_nil]
    exact .starNil hv
  | cons u us ih =>
    intro v hv
    obtain ⟨a, b, rfl, ha, hb⟩ := word_append.1 (h u (by simp))
    have := ih (fun x hx => h x (by simp [hx])) b hb
    have h2 := Word.starCons (word_group.2 ⟨_, List.mem_singleton.2 rfl, hv.append ha⟩) this
    simpa using h2

/-- rewriting keeps the words, whatever the rules that are referred to -/
theorem Rewrite.words {s t : List Elem} (h : Rewrite s t) : ∀ w, Word D tok s w ↔ Word D tok t w := by
  induction h with
  | refl s => exact fun w => Iff.rfl
  | symm _ ih => exact fun w => (ih w).symm
  | trans _ _ ih1 ih2 => exact fun w => (ih1 w).trans (ih2 w)
  | append _ _ ih1 ih2 =>
    intro w
    simp only [word_append, ih1, ih2]
  | rep f _ ih => exact fun w => ⟨rep_mono f fun u => (ih u).1, rep_mono f fun u => (ih u).2⟩
  | group f g hf _ hg _ ih1 ih2 =>
    intro w
    simp only [word_group]
    constructor
    · rintro ⟨a, ha, h⟩
      exact ⟨f a, hf a ha, (ih1 a ha w).1 h⟩
    · rintro ⟨b, hb, h⟩
      exact ⟨g b, hg b hb, (ih2 b hb w).1 h⟩
  | single s =>
    intro w
    simp [word_group]
  | nested as bs =>
    intro w
    simp only [word_group, List.mem_append, List.mem_singleton]
    constructor
    · rintro ⟨a, ha | rfl, h⟩
      · exact ⟨a, .inl ha, h⟩
      · obtain ⟨b, hb, h⟩ := word_group.1 h
        exact ⟨b, .inr hb, h⟩
    · rintro ⟨a, ha | ha, h⟩
      · exact ⟨a, .inl ha, h⟩
      · exact ⟨_, .inr rfl, word_group.2 ⟨a, ha, h⟩⟩
  | distrib s t as =>
    intro w
    rw [word_append, word_group]
    constructor
    · rintro ⟨u, v, rfl, h1, h2⟩
      obtain ⟨x, y, rfl, h3, h4⟩ := word_cons.1 h2
      obtain ⟨a, ha, h5⟩ := word_group.1 h3
      refine ⟨_, List.mem_map_of_mem ha, ?_⟩
      have := (h1.append h5).append h4
      rwa [List.append_assoc u] at this
    · rintro ⟨a', ha', h⟩
      obtain ⟨a, ha, rfl⟩ := List.mem_map.1 ha'
      obtain ⟨x, y, rfl, h1, h2⟩ := word_append.1 h
      obtain ⟨u, v, rfl, h3, h4⟩ := word_append.1 h1
      exact ⟨u, v ++ y, by simp, h3, word_cons.2 ⟨v, y, rfl, word_group.2 ⟨a, ha, h4⟩, h2⟩⟩
  | plus e =>
    intro w
    rw [word_pieces, word_cons]
    constructor
    · rintro ⟨us, h0, h1, rfl⟩
      cases us with
      | nil => exact absurd rfl h0
      | cons u us =>
        exact ⟨u, us.flatten, rfl, h1 u (by simp), word_star.2 ⟨us, fun v hv => h1 v (by simp [hv]), rfl⟩⟩
    · rintro ⟨u, v, rfl, h1, h2⟩
      obtain ⟨us, h3, rfl⟩ := word_star.1 h2
      exact ⟨u :: us, by simp, by simpa using ⟨h1, h3⟩, rfl⟩
  | plus' e =>
    intro w
    rw [word_pieces, word_cons]
    constructor
    · rintro ⟨us, h0, h1, rfl⟩
      rw [← List.dropLast_append_getLast h0] at h1 ⊢
      refine ⟨us.dropLast.flatten, us.getLast h0, by simp, word_star.2 ⟨_, fun v hv => h1 v ?_, rfl⟩, h1 _ ?_⟩
      · exact List.mem_append.2 (.inl hv)
      · simp
    · rintro ⟨u, v, rfl, h1, h2⟩
      obtain ⟨us, h3, rfl⟩ := word_star.1 h1
      refine ⟨us ++ [v], by simp, ?_, by simp⟩
      intro x hx
      rcases List.mem_append.1 hx with hx | hx
      · exact h3 x hx
      · rw [List.mem_singleton.1 hx]
        exact h2
  | question e =>
    intro w
    rw [word_question, word_group]
    simp [word_nil, or_comm]
  | star e =>
    intro w
    rw [word_star_plus, word_question]
  | star' e =>
    intro w
    rw [word_star_plus, word_group]
    simp [word_nil, or_comm]
  | starStar e => exact fun w => star_star (fun u h => h) fun u h => word_one_star h
  | starQuestion e =>
    refine fun w => star_star (fun u h => ?_) fun u h => word_question.2 (.inr h)
    rcases word_question.1 h with rfl | h
    · exact word_star.2 ⟨[], by simp, rfl⟩
    · exact word_one_star h
  | starPlus e =>
    exact fun w => star_star (fun u h => word_plus_star h) fun u h => word_pieces.2 ⟨[u], by simp, by simpa using h, by simp⟩
  | twice e =>
    intro w
    rw [word_cons]
    constructor
    · rintro ⟨u, v, rfl, h1, h2⟩
      obtain ⟨us, h3, rfl⟩ := word_star.1 h1
      obtain ⟨vs, h4, rfl⟩ := word_star.1 h2
      refine word_star.2 ⟨us ++ vs, fun x hx => ?_, by simp⟩
      rcases List.mem_append.1 hx with hx | hx
      · exact h3 x hx
      · exact h4 x hx
    · intro h
      exact ⟨[], w, rfl, word_star.2 ⟨[], by simp, rfl⟩, h⟩
  | slide s t =>
    intro w
    constructor
    · intro h
      obtain ⟨u, v, rfl, h1, h2⟩ := word_cons.1 h
      obtain ⟨us, h3, rfl⟩ := word_star.1 h1
      refine slide_right us (fun u hu => ?_) h2
      obtain ⟨_, ha, h4⟩ := word_group.1 (h3 u hu)
      rwa [List.mem_singleton.1 ha] at h4
    · intro h
      obtain ⟨u, v, rfl, h1, h2⟩ := word_append.1 h
      obtain ⟨us, h3, rfl⟩ := word_star.1 h2
      refine slide_left us (fun u hu => ?_) _ h1
      obtain ⟨_, ha, h4⟩ := word_group.1 (h3 u hu)
      rwa [List.mem_singleton.1 ha] at h4

theorem mem_alternativesOf {n : Str} {alt : List Elem} :
    alt ∈ alternativesOf D n ↔ ∃ alts, (n, alts) ∈ D ∧ alt ∈ alts := by
  simp only [alternativesOf, List.mem_flatMap]
  constructor
  · rintro ⟨⟨m, alts⟩, h1, h2⟩
    split at h2
    · rename_i h3
      cases h3
      exact ⟨alts, h1, h2⟩
    · simp at h2
  · rintro ⟨alts, h1, h2⟩
    exact ⟨(n, alts), h1, by simpa using h2⟩

end Syntaxis
