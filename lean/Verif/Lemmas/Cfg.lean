import Verif.Spec.Cfg

/-!
# Structural characterisations of nullability, FIRST, FOLLOW and sentences
-/

namespace Syntaxis

open Relation

variable {P : List Production}

theorem Derives.refl (α : List Item) : Derives P α α := ReflTransGen.refl

theorem Derives.trans {α β γ : List Item} (h : Derives P α β) (h' : Derives P β γ) : Derives P α γ :=
  ReflTransGen.trans h h'

theorem Step.append_left {α β : List Item} (γ : List Item) (h : Step P α β) :
    Step P (γ ++ α) (γ ++ β) := by
  obtain ⟨p, hp, u, v⟩ := h
  have := Step.mk p hp (γ ++ u) v
  simpa [List.append_assoc] using this

theorem Step.append_right {α β : List Item} (γ : List Item) (h : Step P α β) :
    Step P (α ++ γ) (β ++ γ) := by
  obtain ⟨p, hp, u, v⟩ := h
  have := Step.mk p hp u (v ++ γ)
  simpa [List.append_assoc] using this

theorem Derives.append_left {α β : List Item} (γ : List Item) (h : Derives P α β) :
    Derives P (γ ++ α) (γ ++ β) := by
  induction h with
  | refl => exact Derives.refl _
  | tail _ hs ih => exact ReflTransGen.tail ih (hs.append_left γ)

theorem Derives.append_right {α β : List Item} (γ : List Item) (h : Derives P α β) :
    Derives P (α ++ γ) (β ++ γ) := by
  induction h with
  | refl => exact Derives.refl _
  | tail _ hs ih => exact ReflTransGen.tail ih (hs.append_right γ)

theorem Derives.append {α β γ δ : List Item} (h : Derives P α β) (h' : Derives P γ δ) :
    Derives P (α ++ γ) (β ++ δ) :=
  (h.append_right γ).trans (h'.append_left β)

theorem Derives.cons {β γ : List Item} (x : Item) (h : Derives P β γ) :
    Derives P (x :: β) (x :: γ) := by
  simpa using h.append_left [x]

theorem Derives.single {p : Production} (hp : p ∈ P) : Derives P [Item.nt p.left] p.right := by
  have := Step.mk p hp [] []
  exact ReflTransGen.single (by simpa using this)

theorem Derives.head {p : Production} (hp : p ∈ P) (v : List Item) :
    Derives P (Item.nt p.left :: v) (p.right ++ v) := by
  have := Step.mk p hp [] v
  exact ReflTransGen.single (by simpa using this)

theorem Step.mono {P Q : List Production} (h : ∀ p ∈ P, p ∈ Q) {α β} (s : Step P α β) : Step Q α β := by
  obtain ⟨p, hp, u, v⟩ := s
  exact Step.mk p (h p hp) u v

theorem Derives.mono {P Q : List Production} (h : ∀ p ∈ P, p ∈ Q) {α β} (d : Derives P α β) :
    Derives Q α β := by
  induction d with
  | refl => exact Derives.refl _
  | tail _ s ih => exact ReflTransGen.tail ih (s.mono h)

theorem Derives.congr {P Q : List Production} (h : ∀ p, p ∈ P ↔ p ∈ Q) {α β} :
    Derives P α β ↔ Derives Q α β :=
  ⟨Derives.mono fun p hp => (h p).1 hp, Derives.mono fun p hp => (h p).2 hp⟩

theorem Nullable.congr {P Q : List Production} (h : ∀ p, p ∈ P ↔ p ∈ Q) {α} :
    Nullable P α ↔ Nullable Q α := Derives.congr h

theorem InFirst.congr {P Q : List Production} (h : ∀ p, p ∈ P ↔ p ∈ Q) {α t} :
    InFirst P α t ↔ InFirst Q α t := by simp only [InFirst, Derives.congr h]

theorem InFollow.congr {P Q : List Production} (h : ∀ p, p ∈ P ↔ p ∈ Q) {B t} :
    InFollow P B t ↔ InFollow Q B t := by simp only [InFollow, Derives.congr h]

theorem Predicts.congr {P Q : List Production} (h : ∀ p, p ∈ P ↔ p ∈ Q) {p t} :
    Predicts P p t ↔ Predicts Q p t := by
  simp only [Predicts, Nullable.congr h, InFirst.congr h, InFollow.congr h]

theorem LL1.congr {P Q : List Production} (h : ∀ p, p ∈ P ↔ p ∈ Q) : LL1 P ↔ LL1 Q := by
  simp only [LL1, h, Predicts.congr h]

theorem Sentence.congr {P Q : List Production} (h : ∀ p, p ∈ P ↔ p ∈ Q) {A w} :
    Sentence P A w ↔ Sentence Q A w := Derives.congr h

/-! ## decomposition of `u ++ x :: v = a ++ b` -/

theorem append_cons_eq_append {u v a b : List Item} {x : Item} (h : u ++ x :: v = a ++ b) :
    (∃ a', a = u ++ x :: a' ∧ v = a' ++ b) ∨ (∃ b', u = a ++ b' ∧ b = b' ++ x :: v) := by
  rcases List.append_eq_append_iff.1 h with ⟨a', ha, hb⟩ | ⟨c, hc, hd⟩
  · cases a' with
    | nil => right; refine ⟨[], by simp_all, by simp_all⟩
    | cons y ys =>
      left
      simp only [List.cons_append, List.cons.injEq] at hb
      obtain ⟨rfl, hb⟩ := hb
      exact ⟨ys, ha, hb⟩
  · right; exact ⟨c, hc, hd⟩

/-! ## nullability -/

/-- structural nullability -/
inductive Nul (P : List Production) : List Item → Prop
  | nil : Nul P []
  | cons (p : Production) (hp : p ∈ P) (rest : List Item) : Nul P p.right → Nul P rest →
      Nul P (Item.nt p.left :: rest)

theorem Nul.append {α β : List Item} (h : Nul P α) (h' : Nul P β) : Nul P (α ++ β) := by
  induction h with
  | nil => exact h'
  | cons p hp rest h1 _ _ ih2 => exact Nul.cons p hp _ h1 ih2

theorem Nul.of_append {α β : List Item} (h : Nul P (α ++ β)) : Nul P α ∧ Nul P β := by
  induction α with
  | nil => exact ⟨Nul.nil, h⟩
  | cons a α ih =>
    cases h with
    | cons p hp rest h1 h2 => exact ⟨Nul.cons p hp _ h1 (ih h2).1, (ih h2).2⟩

theorem nul_append {α β : List Item} : Nul P (α ++ β) ↔ Nul P α ∧ Nul P β :=
  ⟨Nul.of_append, fun h => h.1.append h.2⟩

theorem nul_cons {x : Item} {β : List Item} : Nul P (x :: β) ↔ Nul P [x] ∧ Nul P β := by
  have := @nul_append P [x] β
  simpa using this

theorem not_nul_t {a : Nat} {β : List Item} : ¬ Nul P (Item.t a :: β) := by
  intro h; cases h

theorem Nul.derives {α : List Item} (h : Nul P α) : Derives P α [] := by
  induction h with
  | nil => exact Derives.refl _
  | cons p hp rest _ _ ih1 ih2 =>
    have h1 := Derives.head hp rest
    have h2 := ih1.append ih2
    exact h1.trans (by simpa using h2)

theorem Nul.back {α β : List Item} (s : Step P α β) (h : Nul P β) : Nul P α := by
  obtain ⟨p, hp, u, v⟩ := s
  rw [nul_append, nul_append] at h
  exact h.1.append (Nul.cons p hp v h.2.1 h.2.2)

theorem nul_iff {α : List Item} : Nul P α ↔ Nullable P α := by
  constructor
  · exact Nul.derives
  · intro h
    induction h using ReflTransGen.head_induction_on with
    | refl => exact Nul.nil
    | head s _ ih => exact Nul.back s ih

theorem nul_nt {A : Nat} {rest : List Item} :
    Nul P (Item.nt A :: rest) ↔ (∃ p ∈ P, p.left = A ∧ Nul P p.right) ∧ Nul P rest := by
  constructor
  · intro h
    generalize he : Item.nt A :: rest = α at h
    cases h with
    | nil => cases he
    | cons p hp rest' h1 h2 =>
      simp only [List.cons.injEq, Item.nt.injEq] at he
      obtain ⟨rfl, rfl⟩ := he
      exact ⟨⟨p, hp, rfl, h1⟩, h2⟩
  · rintro ⟨⟨p, hp, rfl, h1⟩, h2⟩
    exact Nul.cons p hp rest h1 h2

/-! ## FIRST -/

/-- structural FIRST -/
inductive Fst (P : List Production) (t : Nat) : List Item → Prop
  | here (rest : List Item) : Fst P t (Item.t t :: rest)
  | down (p : Production) (hp : p ∈ P) (rest : List Item) : Fst P t p.right →
      Fst P t (Item.nt p.left :: rest)
  | skip (A : Nat) (rest : List Item) : Nul P [Item.nt A] → Fst P t rest →
      Fst P t (Item.nt A :: rest)

theorem Fst.append_right {t : Nat} {α : List Item} (β : List Item) (h : Fst P t α) :
    Fst P t (α ++ β) := by
  induction h with
  | here rest => exact Fst.here _
  | down p hp rest h _ => exact Fst.down p hp _ h
  | skip A rest hn _ ih => exact Fst.skip A _ hn ih

theorem Fst.append_left {t : Nat} {α β : List Item} (hα : Nul P α) (h : Fst P t β) :
    Fst P t (α ++ β) := by
  induction hα with
  | nil => exact h
  | cons p hp rest h1 h2 _ ih2 => exact Fst.skip _ _ (Nul.cons p hp [] h1 Nul.nil) ih2

theorem fst_append {t : Nat} {α β : List Item} :
    Fst P t (α ++ β) ↔ Fst P t α ∨ (Nul P α ∧ Fst P t β) := by
  constructor
  · intro h
    induction α with
    | nil => exact Or.inr ⟨Nul.nil, h⟩
    | cons x α ih =>
      cases h with
      | here rest => exact Or.inl (Fst.here _)
      | down p hp rest h => exact Or.inl (Fst.down p hp _ h)
      | skip A rest hn h =>
        rcases ih h with h | ⟨h1, h2⟩
        · exact Or.inl (Fst.skip _ _ hn h)
        · exact Or.inr ⟨nul_cons.2 ⟨hn, h1⟩, h2⟩
  · rintro (h | ⟨h1, h2⟩)
    · exact h.append_right β
    · exact Fst.append_left h1 h2

theorem fst_nil {t : Nat} : ¬ Fst P t [] := by intro h; cases h

theorem fst_nt {t A : Nat} {rest : List Item} :
    Fst P t (Item.nt A :: rest) ↔
      (∃ p ∈ P, p.left = A ∧ Fst P t p.right) ∨ (Nul P [Item.nt A] ∧ Fst P t rest) := by
  constructor
  · intro h
    generalize he : Item.nt A :: rest = α at h
    cases h with
    | here => cases he
    | down p hp rest' h1 =>
      simp only [List.cons.injEq, Item.nt.injEq] at he
      exact Or.inl ⟨p, hp, he.1.symm, h1⟩
    | skip B rest' h1 h2 =>
      simp only [List.cons.injEq, Item.nt.injEq] at he
      obtain ⟨rfl, rfl⟩ := he
      exact Or.inr ⟨h1, h2⟩
  · rintro (⟨p, hp, rfl, h⟩ | ⟨h1, h2⟩)
    · exact Fst.down p hp rest h
    · exact Fst.skip A rest h1 h2

theorem fst_t {t a : Nat} {β : List Item} : Fst P t (Item.t a :: β) ↔ t = a := by
  constructor
  · intro h; cases h; rfl
  · rintro rfl; exact Fst.here _

theorem Fst.derives {t : Nat} {α : List Item} (h : Fst P t α) :
    ∃ β, Derives P α (Item.t t :: β) := by
  induction h with
  | here rest => exact ⟨rest, Derives.refl _⟩
  | down p hp rest _ ih =>
    obtain ⟨β, hβ⟩ := ih
    exact ⟨β ++ rest, (Derives.head hp rest).trans (by simpa using hβ.append_right rest)⟩
  | skip A rest hn _ ih =>
    obtain ⟨β, hβ⟩ := ih
    exact ⟨β, by simpa using hn.derives.append hβ⟩

theorem Fst.back {t : Nat} {α β : List Item} (s : Step P α β) (h : Fst P t β) : Fst P t α := by
  obtain ⟨p, hp, u, v⟩ := s
  rw [fst_append] at h ⊢
  rcases h with h | ⟨hu, h⟩
  · exact Or.inl h
  · right
    refine ⟨hu, ?_⟩
    rw [fst_append] at h
    rcases h with h | ⟨hr, h⟩
    · exact Fst.down p hp v h
    · exact Fst.skip _ _ (Nul.cons p hp [] hr Nul.nil) h

theorem fst_iff {t : Nat} {α : List Item} : Fst P t α ↔ InFirst P α t := by
  constructor
  · exact Fst.derives
  · rintro ⟨β, h⟩
    generalize hγ : Item.t t :: β = γ at h
    induction h using ReflTransGen.head_induction_on with
    | refl => subst hγ; exact Fst.here _
    | head s _ ih => exact Fst.back s ih

/-! ## FOLLOW -/

/-- structural FOLLOW, as the algorithm propagates it -/
inductive Flw (P : List Production) (t : Nat) : Nat → Prop
  | stop : t = 1 → Flw P t 0
  | first (p : Production) (hp : p ∈ P) (u v : List Item) (B : Nat) :
      p.right = u ++ Item.nt B :: v → Fst P t v → Flw P t B
  | follow (p : Production) (hp : p ∈ P) (u v : List Item) (B : Nat) :
      p.right = u ++ Item.nt B :: v → Nul P v → Flw P t p.left → Flw P t B

theorem Flw.spec {t B : Nat} (h : Flw P t B) : InFollow P B t := by
  induction h with
  | stop h => exact Or.inr ⟨h, [], Derives.refl _⟩
  | first p hp u v B hr hf =>
    obtain ⟨β, hβ⟩ := hf.derives
    left
    refine ⟨p.left, u, β, ?_⟩
    have h1 := Derives.single hp
    rw [hr] at h1
    exact h1.trans ((hβ.cons _).append_left u)
  | follow p hp u v B hr hn _ ih =>
    have h1 : Derives P [Item.nt p.left] (u ++ Item.nt B :: v) := by
      have := Derives.single hp
      rwa [hr] at this
    have h2 : Derives P [Item.nt p.left] (u ++ [Item.nt B]) :=
      h1.trans ((hn.derives.cons _).append_left u)
    rcases ih with ⟨A, u', v', hA⟩ | ⟨ht, u', hu'⟩
    · left
      refine ⟨A, u' ++ u, v', hA.trans ?_⟩
      have := (h2.append_right (Item.t t :: v')).append_left u'
      simpa [List.append_assoc] using this
    · right
      refine ⟨ht, u' ++ u, hu'.trans ?_⟩
      have := h2.append_left u'
      simpa [List.append_assoc] using this

/-- the propagation invariant of a derivation from `[A]` -/
theorem flw_of_derives {t A : Nat} {α : List Item} (h : Derives P [Item.nt A] α) :
    ∀ u B v, α = u ++ Item.nt B :: v →
      (Fst P t v → Flw P t B) ∧ (Nul P v → Flw P t A → Flw P t B) := by
  induction h with
  | refl =>
    intro u B v h
    cases u with
    | nil =>
      simp only [List.nil_append, List.cons.injEq, Item.nt.injEq] at h
      obtain ⟨rfl, rfl⟩ := h
      exact ⟨fun h => absurd h fst_nil, fun _ h => h⟩
    | cons x u => simp at h
  | tail _ s ih =>
    obtain ⟨p, hp, u0, v0⟩ := s
    intro u B v h
    rcases append_cons_eq_append h.symm with ⟨a', ha, hv⟩ | ⟨b', hu, hb⟩
    · -- in the prefix
      subst ha
      have := ih u B (a' ++ Item.nt p.left :: v0) (by simp)
      subst hv
      constructor
      · intro hf
        apply this.1
        rw [fst_append] at hf ⊢
        rcases hf with hf | ⟨h1, h2⟩
        · exact Or.inl hf
        · refine Or.inr ⟨h1, ?_⟩
          rw [fst_append] at h2
          rcases h2 with h2 | ⟨h2, h3⟩
          · exact Fst.down p hp _ h2
          · exact Fst.skip _ _ (Nul.cons p hp [] h2 Nul.nil) h3
      · intro hn
        apply this.2
        rw [nul_append, nul_append] at hn
        exact hn.1.append (Nul.cons p hp _ hn.2.1 hn.2.2)
    · have ihp := ih u0 p.left v0 rfl
      rcases append_cons_eq_append hb.symm with ⟨c', hc, hv⟩ | ⟨d', hd, hv0⟩
      · -- in the right-hand side
        subst hv
        constructor
        · intro hf
          rw [fst_append] at hf
          rcases hf with hf | ⟨hn, hf⟩
          · exact Flw.first p hp b' c' B hc hf
          · exact Flw.follow p hp b' c' B hc hn (ihp.1 hf)
        · intro hn hA
          rw [nul_append] at hn
          exact Flw.follow p hp b' c' B hc hn.1 (ihp.2 hn.2 hA)
      · -- in the suffix
        exact ih (u0 ++ Item.nt p.left :: d') B v (by rw [hv0]; simp)

theorem flw_iff {t B : Nat} : Flw P t B ↔ InFollow P B t := by
  constructor
  · exact Flw.spec
  · rintro (⟨A, u, v, h⟩ | ⟨ht, u, h⟩)
    · exact (flw_of_derives h u B _ rfl).1 (Fst.here _)
    · exact (flw_of_derives h u B [] rfl).2 Nul.nil (Flw.stop ht)

/-! ## sentences -/

/-- big-step generation of words -/
inductive Yields (P : List Production) : List Item → List Nat → Prop
  | nil : Yields P [] []
  | t (a : Nat) {rest : List Item} {w : List Nat} : Yields P rest w →
      Yields P (Item.t a :: rest) (a :: w)
  | nt (p : Production) (hp : p ∈ P) {rest : List Item} {w1 w2 : List Nat} :
      Yields P p.right w1 → Yields P rest w2 → Yields P (Item.nt p.left :: rest) (w1 ++ w2)

theorem Yields.append {α β : List Item} {w1 w2 : List Nat} (h : Yields P α w1) (h' : Yields P β w2) :
    Yields P (α ++ β) (w1 ++ w2) := by
  induction h with
  | nil => exact h'
  | t a _ ih => exact Yields.t a ih
  | nt p hp h1 _ _ ih2 =>
    rw [List.append_assoc]
    exact Yields.nt p hp h1 ih2

theorem Yields.of_append {α β : List Item} {w : List Nat} (h : Yields P (α ++ β) w) :
    ∃ w1 w2, w = w1 ++ w2 ∧ Yields P α w1 ∧ Yields P β w2 := by
  induction α generalizing w with
  | nil => exact ⟨[], w, rfl, Yields.nil, h⟩
  | cons x α ih =>
    cases h with
    | t a h =>
      obtain ⟨w1, w2, rfl, h1, h2⟩ := ih h
      exact ⟨a :: w1, w2, rfl, Yields.t a h1, h2⟩
    | nt p hp h1 h2 =>
      obtain ⟨w1, w2, rfl, h3, h4⟩ := ih h2
      exact ⟨_ ++ w1, w2, by simp, Yields.nt p hp h1 h3, h4⟩

theorem Yields.derives {α : List Item} {w : List Nat} (h : Yields P α w) :
    Derives P α (w.map Item.t) := by
  induction h with
  | nil => exact Derives.refl _
  | t a _ ih => exact ih.cons _
  | nt p hp _ _ ih1 ih2 =>
    refine (Derives.head hp _).trans ?_
    simpa using ih1.append ih2

theorem Yields.refl_map (w : List Nat) : Yields P (w.map Item.t) w := by
  induction w with
  | nil => exact Yields.nil
  | cons a w ih => exact Yields.t a ih

theorem Yields.back {α β : List Item} {w : List Nat} (s : Step P α β) (h : Yields P β w) :
    Yields P α w := by
  obtain ⟨p, hp, u, v⟩ := s
  obtain ⟨w1, w2, rfl, h1, h2⟩ := h.of_append
  obtain ⟨w3, w4, rfl, h3, h4⟩ := h2.of_append
  exact h1.append (Yields.nt p hp h3 h4)

theorem yields_iff {α : List Item} {w : List Nat} :
    Yields P α w ↔ Derives P α (w.map Item.t) := by
  constructor
  · exact Yields.derives
  · intro h
    generalize hγ : w.map Item.t = γ at h
    induction h using ReflTransGen.head_induction_on with
    | refl => subst hγ; exact Yields.refl_map w
    | head s _ ih => exact Yields.back s ih

theorem yields_single {A : Nat} {w : List Nat} :
    Yields P [Item.nt A] w ↔ ∃ p ∈ P, p.left = A ∧ Yields P p.right w := by
  constructor
  · intro h
    cases h with
    | nt p hp h1 h2 =>
      cases h2
      exact ⟨p, hp, rfl, by simpa using h1⟩
  · rintro ⟨p, hp, rfl, h⟩
    simpa using Yields.nt p hp h Yields.nil

theorem Yields.nul {α : List Item} (h : Yields P α []) : Nul P α := by
  rw [nul_iff]; exact h.derives

theorem Yields.fst {α : List Item} {a : Nat} {w : List Nat} (h : Yields P α (a :: w)) : Fst P a α := by
  rw [fst_iff]; exact ⟨w.map Item.t, h.derives⟩

end Syntaxis
