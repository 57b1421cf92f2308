import Verif.Spec.Ebnf
import Verif.Lemmas.Cfg

/-! # A grammar that represents an EBNF grammar has the same words -/

namespace Syntaxis

/-- names of tokens and rules, and the first anonymous rule id -/
structure Env where
  tok : Str → Option Nat
  nt : Str → Option Nat
  base : Nat

mutual
/-- the item stands for the element in the productions `P`; anonymous rules lie between `E.base` and `next` -/
def Rep (E : Env) (next : Nat) (P : List Production) : Elem → Item → Prop
  | .tok n, x => ∃ a, E.tok n = some a ∧ x = .t a
  | .ref n, x => ∃ A, E.nt n = some A ∧ x = .nt A
  | .group alts, x => ∃ X rights, x = .nt X ∧ E.base ≤ X ∧ X < next ∧ RepAlts E next P alts rights ∧
      ∀ β, (⟨X, β⟩ : Production) ∈ P ↔ β ∈ rights
  | .rep f e, x => ∃ X y, x = .nt X ∧ E.base ≤ X ∧ X < next ∧ Rep E next P e y ∧
      ∀ β, (⟨X, β⟩ : Production) ∈ P ↔ β = (suffixRights f y X).1 ∨ β = (suffixRights f y X).2
def RepSeq (E : Env) (next : Nat) (P : List Production) : List Elem → List Item → Prop
  | [], α => α = []
  | e :: es, α => ∃ x α', α = x :: α' ∧ Rep E next P e x ∧ RepSeq E next P es α'
def RepAlts (E : Env) (next : Nat) (P : List Production) : List (List Elem) → List (List Item) → Prop
  | [], rs => rs = []
  | a :: as, rs => ∃ β rs', rs = β :: rs' ∧ RepSeq E next P a β ∧ RepAlts E next P as rs'
end

mutual
theorem Rep.mono {E : Env} {n n' : Nat} {P P' : List Production} (hn : n ≤ n')
    (hP : ∀ X β, E.base ≤ X → X < n → ((⟨X, β⟩ : Production) ∈ P' ↔ (⟨X, β⟩ : Production) ∈ P)) (e : Elem) (x : Item)
    (h : Rep E n P e x) : Rep E n' P' e x := by
  cases e with
  | tok m => simpa [Rep] using h
  | ref m => simpa [Rep] using h
  | group alts =>
    rw [Rep] at h ⊢
    obtain ⟨X, rights, rfl, hb, hx, ha, hp⟩ := h
    exact ⟨X, rights, rfl, hb, by omega, RepAlts.mono hn hP alts rights ha, fun β => by rw [hP X β hb hx, hp]⟩
  | rep f e =>
    rw [Rep] at h ⊢
    obtain ⟨X, y, rfl, hb, hx, he, hp⟩ := h
    exact ⟨X, y, rfl, hb, by omega, Rep.mono hn hP e y he, fun β => by rw [hP X β hb hx, hp]⟩
theorem RepSeq.mono {E : Env} {n n' : Nat} {P P' : List Production} (hn : n ≤ n')
    (hP : ∀ X β, E.base ≤ X → X < n → ((⟨X, β⟩ : Production) ∈ P' ↔ (⟨X, β⟩ : Production) ∈ P)) (es : List Elem)
    (α : List Item) (h : RepSeq E n P es α) : RepSeq E n' P' es α := by
  cases es with
  | nil => simpa [RepSeq] using h
  | cons e es =>
    rw [RepSeq] at h ⊢
    obtain ⟨x, α', rfl, h1, h2⟩ := h
    exact ⟨x, α', rfl, Rep.mono hn hP e x h1, RepSeq.mono hn hP es α' h2⟩
theorem RepAlts.mono {E : Env} {n n' : Nat} {P P' : List Production} (hn : n ≤ n')
    (hP : ∀ X β, E.base ≤ X → X < n → ((⟨X, β⟩ : Production) ∈ P' ↔ (⟨X, β⟩ : Production) ∈ P))
    (as : List (List Elem)) (rs : List (List Item)) (h : RepAlts E n P as rs) : RepAlts E n' P' as rs := by
  cases as with
  | nil => simpa [RepAlts] using h
  | cons a as =>
    rw [RepAlts] at h ⊢
    obtain ⟨β, rs', rfl, h1, h2⟩ := h
    exact ⟨β, rs', rfl, RepSeq.mono hn hP a β h1, RepAlts.mono hn hP as rs' h2⟩
end

theorem RepAlts.mem_right {E : Env} {n : Nat} {P : List Production} {as : List (List Elem)}
    {rs : List (List Item)} (h : RepAlts E n P as rs) {β : List Item} (hβ : β ∈ rs) :
    ∃ a ∈ as, RepSeq E n P a β := by
  induction as generalizing rs with
  | nil => rw [RepAlts] at h; subst h; simp at hβ
  | cons a as ih =>
    rw [RepAlts] at h
    obtain ⟨γ, rs', rfl, h1, h2⟩ := h
    rcases List.mem_cons.1 hβ with rfl | hβ
    · exact ⟨a, by simp, h1⟩
    · obtain ⟨b, hb, h⟩ := ih h2 hβ
      exact ⟨b, by simp [hb], h⟩

theorem RepAlts.mem_left {E : Env} {n : Nat} {P : List Production} {as : List (List Elem)}
    {rs : List (List Item)} (h : RepAlts E n P as rs) {a : List Elem} (ha : a ∈ as) :
    ∃ β ∈ rs, RepSeq E n P a β := by
  induction as generalizing rs with
  | nil => simp at ha
  | cons b as ih =>
    rw [RepAlts] at h
    obtain ⟨γ, rs', rfl, h1, h2⟩ := h
    rcases List.mem_cons.1 ha with rfl | ha
    · exact ⟨γ, by simp, h1⟩
    · obtain ⟨β, hb, h⟩ := ih h2 ha
      exact ⟨β, by simp [hb], h⟩

/-- the productions of the named rules are those of their definitions -/
structure NamedRep (E : Env) (next : Nat) (P : List Production) (D : Rules) : Prop where
  fwd : ∀ n A, E.nt n = some A → ∀ β, (⟨A, β⟩ : Production) ∈ P →
    ∃ alts alt, (n, alts) ∈ D ∧ alt ∈ alts ∧ RepSeq E next P alt β
  bwd : ∀ n A, E.nt n = some A → ∀ alts alt, (n, alts) ∈ D → alt ∈ alts →
    ∃ β, (⟨A, β⟩ : Production) ∈ P ∧ RepSeq E next P alt β

theorem Word.append {D : Rules} {tok : Str → Option Nat} {es fs : List Elem} {u v : List Nat}
    (h : Word D tok es u) (h' : Word D tok fs v) : Word D tok (es ++ fs) (u ++ v) := by
  induction h with
  | nil => exact h'
  | tok hn _ ih => exact .tok hn ih
  | ref hd ha hu _ _ ih => rw [List.append_assoc]; exact .ref hd ha hu ih
  | group ha hu _ _ ih => rw [List.append_assoc]; exact .group ha hu ih
  | starNil _ ih => exact .starNil ih
  | starCons hu _ _ ih => rw [List.append_assoc]; exact .starCons hu ih
  | plusOne hu _ _ ih => rw [List.append_assoc]; exact .plusOne hu ih
  | plusCons hu _ _ ih => rw [List.append_assoc]; exact .plusCons hu ih
  | optNil _ ih => exact .optNil ih
  | optOne hu _ _ ih => rw [List.append_assoc]; exact .optOne hu ih

theorem Word.split {D : Rules} {tok : Str → Option Nat} {gs : List Elem} {w : List Nat}
    (h : Word D tok gs w) : ∀ e fs, gs = e :: fs → ∃ u v, w = u ++ v ∧ Word D tok [e] u ∧ Word D tok fs v := by
  induction h with
  | nil => intro e fs h; cases h
  | @tok n a es w hn h _ => rintro e fs ⟨⟩; exact ⟨[a], w, rfl, .tok hn .nil, h⟩
  | @ref n alts alt es u w hd ha hu h _ _ =>
    rintro e fs ⟨⟩; exact ⟨u, w, rfl, by simpa using Word.ref hd ha hu .nil, h⟩
  | @group alts alt es u w ha hu h _ _ =>
    rintro e fs ⟨⟩; exact ⟨u, w, rfl, by simpa using Word.group ha hu .nil, h⟩
  | @starNil e es w h _ => rintro e fs ⟨⟩; exact ⟨[], w, rfl, .starNil .nil, h⟩
  | @starCons e es u w hu h _ ih =>
    rintro e fs ⟨⟩
    obtain ⟨u', v, rfl, h1, h2⟩ := ih _ _ rfl
    exact ⟨u ++ u', v, by simp, .starCons hu h1, h2⟩
  | @plusOne e es u w hu h _ _ => rintro e fs ⟨⟩; exact ⟨u, w, rfl, by simpa using Word.plusOne hu .nil, h⟩
  | @plusCons e es u w hu h _ ih =>
    rintro e fs ⟨⟩
    obtain ⟨u', v, rfl, h1, h2⟩ := ih _ _ rfl
    exact ⟨u ++ u', v, by simp, .plusCons hu h1, h2⟩
  | @optNil e es w h _ => rintro e fs ⟨⟩; exact ⟨[], w, rfl, .optNil .nil, h⟩
  | @optOne e es u w hu h _ _ => rintro e fs ⟨⟩; exact ⟨u, w, rfl, by simpa using Word.optOne hu .nil, h⟩

section
variable {E : Env} {next : Nat} {P : List Production} {D : Rules}

theorem word_of_yields (hN : NamedRep E next P D) {α : List Item} {w : List Nat} (h : Yields P α w) :
    ∀ es, RepSeq E next P es α → Word D E.tok es w := by
  induction h with
  | nil =>
    intro es hr
    cases es with
    | nil => exact .nil
    | cons e es => rw [RepSeq] at hr; obtain ⟨x, α', h, _⟩ := hr; cases h
  | t a _ ih =>
    intro es hr
    cases es with
    | nil => rw [RepSeq] at hr; cases hr
    | cons e es =>
      rw [RepSeq] at hr
      obtain ⟨x, α', h, hx, hr⟩ := hr
      cases h
      cases e with
      | tok n => rw [Rep] at hx; obtain ⟨b, hb, h⟩ := hx; cases h; exact .tok hb (ih _ hr)
      | ref n => rw [Rep] at hx; obtain ⟨b, hb, h⟩ := hx; cases h
      | group alts => rw [Rep] at hx; obtain ⟨X, _, h, _⟩ := hx; cases h
      | rep f e => rw [Rep] at hx; obtain ⟨X, _, h, _⟩ := hx; cases h
  | nt p hp h1 h2 ih1 ih2 =>
    intro es hr
    cases es with
    | nil => rw [RepSeq] at hr; cases hr
    | cons e es =>
      rw [RepSeq] at hr
      obtain ⟨x, α', h, hx, hr⟩ := hr
      cases h
      have ih2 := ih2 _ hr
      cases e with
      | tok n => rw [Rep] at hx; obtain ⟨b, hb, h⟩ := hx; cases h
      | ref n =>
        rw [Rep] at hx
        obtain ⟨A, hA, h⟩ := hx
        cases h
        obtain ⟨alts, alt, hd, ha, hs⟩ := hN.fwd n p.left hA p.right hp
        exact .ref hd ha (ih1 _ hs) ih2
      | group alts =>
        rw [Rep] at hx
        obtain ⟨X, rights, h, _, _, ha, hpr⟩ := hx
        cases h
        obtain ⟨a, ha, hs⟩ := ha.mem_right ((hpr p.right).1 hp)
        exact .group ha (ih1 _ hs) ih2
      | rep f e =>
        have hx' := hx
        rw [Rep] at hx
        obtain ⟨X, y, h, _, _, he, hpr⟩ := hx
        cases h
        have hone : RepSeq E next P [e] [y] := by
          rw [RepSeq]; exact ⟨y, [], rfl, he, by rw [RepSeq]⟩
        have htwo : ∀ f, f = f → Rep E next P (.rep f e) (.nt p.left) →
            RepSeq E next P [e, .rep f e] [y, .nt p.left] := by
          intro f _ hf
          rw [RepSeq]
          refine ⟨y, _, rfl, he, ?_⟩
          rw [RepSeq]
          exact ⟨_, [], rfl, hf, by rw [RepSeq]⟩
        have hpr := (hpr p.right).1 hp
        cases f with
        | star =>
          simp only [suffixRights] at hpr
          rcases hpr with hpr | hpr
          · rw [hpr] at h1
            cases h1
            exact .starNil ih2
          · obtain ⟨u, v, rfl, hu, hv⟩ := (ih1 _ (by rw [hpr]; exact htwo _ rfl hx')).split _ _ rfl
            rw [List.append_assoc]
            exact .starCons hu (hv.append ih2)
        | plus =>
          simp only [suffixRights] at hpr
          rcases hpr with hpr | hpr
          · exact .plusOne (ih1 _ (by rw [hpr]; exact hone)) ih2
          · obtain ⟨u, v, rfl, hu, hv⟩ := (ih1 _ (by rw [hpr]; exact htwo _ rfl hx')).split _ _ rfl
            rw [List.append_assoc]
            exact .plusCons hu (hv.append ih2)
        | question =>
          simp only [suffixRights] at hpr
          rcases hpr with hpr | hpr
          · rw [hpr] at h1
            cases h1
            exact .optNil ih2
          · exact .optOne (ih1 _ (by rw [hpr]; exact hone)) ih2

theorem yields_of_word (hN : NamedRep E next P D) {es : List Elem} {w : List Nat} (h : Word D E.tok es w) :
    ∀ α, RepSeq E next P es α → Yields P α w := by
  induction h with
  | nil => intro α hr; rw [RepSeq] at hr; subst hr; exact .nil
  | tok hn _ ih =>
    intro α hr
    rw [RepSeq] at hr
    obtain ⟨x, α', rfl, hx, hr⟩ := hr
    rw [Rep] at hx
    obtain ⟨b, hb, rfl⟩ := hx
    rw [hn] at hb; cases hb
    exact .t _ (ih _ hr)
  | ref hd ha _ _ ih1 ih2 =>
    intro α hr
    rw [RepSeq] at hr
    obtain ⟨x, α', rfl, hx, hr⟩ := hr
    rw [Rep] at hx
    obtain ⟨A, hA, rfl⟩ := hx
    obtain ⟨β, hp, hβ⟩ := hN.bwd _ A hA _ _ hd ha
    exact Yields.nt ⟨A, β⟩ hp (ih1 _ hβ) (ih2 _ hr)
  | group ha _ _ ih1 ih2 =>
    intro α hr
    rw [RepSeq] at hr
    obtain ⟨x, α', rfl, hx, hr⟩ := hr
    rw [Rep] at hx
    obtain ⟨X, rights, rfl, _, _, has, hpr⟩ := hx
    obtain ⟨β, hb, hβ⟩ := has.mem_left ha
    exact Yields.nt ⟨X, β⟩ ((hpr β).2 hb) (ih1 _ hβ) (ih2 _ hr)
  | starNil _ ih =>
    intro α hr
    rw [RepSeq] at hr
    obtain ⟨x, α', rfl, hx, hr⟩ := hr
    rw [Rep] at hx
    obtain ⟨X, y, rfl, _, _, he, hpr⟩ := hx
    exact Yields.nt ⟨X, []⟩ ((hpr _).2 (.inl rfl)) .nil (ih _ hr)
  | starCons _ _ ih1 ih2 =>
    intro α hr
    have hr' := hr
    rw [RepSeq] at hr
    obtain ⟨x, α', rfl, hx, hr⟩ := hr
    rw [Rep] at hx
    obtain ⟨X, y, rfl, _, _, he, hpr⟩ := hx
    have hy := ih1 [y] (by rw [RepSeq]; exact ⟨y, [], rfl, he, by rw [RepSeq]⟩)
    obtain ⟨w1, w2, rfl, h3, h4⟩ := (Yields.of_append (α := [.nt X]) (ih2 _ hr'))
    rw [← List.append_assoc]
    exact Yields.nt ⟨X, [y, .nt X]⟩ ((hpr _).2 (.inr rfl)) (hy.append h3) h4
  | plusOne _ _ ih1 ih2 =>
    intro α hr
    rw [RepSeq] at hr
    obtain ⟨x, α', rfl, hx, hr⟩ := hr
    rw [Rep] at hx
    obtain ⟨X, y, rfl, _, _, he, hpr⟩ := hx
    have hy := ih1 [y] (by rw [RepSeq]; exact ⟨y, [], rfl, he, by rw [RepSeq]⟩)
    exact Yields.nt ⟨X, [y]⟩ ((hpr _).2 (.inl rfl)) hy (ih2 _ hr)
  | plusCons _ _ ih1 ih2 =>
    intro α hr
    have hr' := hr
    rw [RepSeq] at hr
    obtain ⟨x, α', rfl, hx, hr⟩ := hr
    rw [Rep] at hx
    obtain ⟨X, y, rfl, _, _, he, hpr⟩ := hx
    have hy := ih1 [y] (by rw [RepSeq]; exact ⟨y, [], rfl, he, by rw [RepSeq]⟩)
    obtain ⟨w1, w2, rfl, h3, h4⟩ := (Yields.of_append (α := [.nt X]) (ih2 _ hr'))
    rw [← List.append_assoc]
    exact Yields.nt ⟨X, [y, .nt X]⟩ ((hpr _).2 (.inr rfl)) (hy.append h3) h4
  | optNil _ ih =>
    intro α hr
    rw [RepSeq] at hr
    obtain ⟨x, α', rfl, hx, hr⟩ := hr
    rw [Rep] at hx
    obtain ⟨X, y, rfl, _, _, he, hpr⟩ := hx
    exact Yields.nt ⟨X, []⟩ ((hpr _).2 (.inl rfl)) .nil (ih _ hr)
  | optOne _ _ ih1 ih2 =>
    intro α hr
    rw [RepSeq] at hr
    obtain ⟨x, α', rfl, hx, hr⟩ := hr
    rw [Rep] at hx
    obtain ⟨X, y, rfl, _, _, he, hpr⟩ := hx
    have hy := ih1 [y] (by rw [RepSeq]; exact ⟨y, [], rfl, he, by rw [RepSeq]⟩)
    exact Yields.nt ⟨X, [y]⟩ ((hpr _).2 (.inr rfl)) hy (ih2 _ hr)

end
end Syntaxis
