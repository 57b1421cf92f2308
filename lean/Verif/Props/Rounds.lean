import Verif.Props.Table

/-!
# C74: how many rounds the FIRST and FOLLOW loops take

In the model `fuel` is one more than the number of rounds a `while modified { … }` loop may take, so
"is done with every `fuel ≥ n + 1`" says that the loop finishes within `n` rounds.
-/

namespace Syntaxis
open Grammar

/-! ## generic facts -/

section
variable {σ : Type _} {cond : σ → Bool} {body : σ → Res σ}

/-- a loop that climbs levels and stops one round after level `K` is done within `K + 1` rounds -/
theorem whileLoop_levels (L : Nat → σ → Prop) (K : Nat)
    (hbody : ∀ st, body st ≠ .error .fuel)
    (hstep : ∀ k st st', k < K → L k st → body st = .ok st' → L (k + 1) st')
    (hlast : ∀ st st', L K st → body st = .ok st' → cond st' = false)
    (k : Nat) (hk : k ≤ K) (st : σ) (hi : L k st) (fuel : Nat) (hf : K - k + 2 ≤ fuel) :
    whileLoop cond body fuel st ≠ .error .fuel := by
  induction fuel generalizing k st with
  | zero => omega
  | succ n ih =>
    simp only [whileLoop]
    split
    · cases hb : body st with
      | error e => simpa only [← hb] using hbody st
      | ok st1 =>
        simp only
        rcases Nat.lt_or_ge k K with h | h
        · exact ih (k + 1) h st1 (hstep k st st1 h hi hb) (by omega)
        · obtain rfl : k = K := by omega
          obtain ⟨n, rfl⟩ : ∃ m, n = m + 1 := ⟨n - 1, by omega⟩
          simp [whileLoop, hlast st st1 hi hb]
    · simp

end

/-- a monotone operator on subsets of `U`, started from `∅`, is stable after `|U|` applications -/
theorem iterate_stable {α : Type _} [DecidableEq α] (f : Finset α → Finset α) (hf : Monotone f)
    (U : Finset α) (hU : ∀ S, f S ⊆ U) (k : Nat) (hk : U.card ≤ k) : f (f^[k] ∅) = f^[k] ∅ := by
  have hup : ∀ k, f^[k] ∅ ⊆ f (f^[k] ∅) := by
    intro k
    induction k with
    | zero => simp
    | succ k ih => rw [Function.iterate_succ_apply']; exact hf ih
  have hin : ∀ k, f^[k] ∅ ⊆ U := by
    intro k
    cases k with
    | zero => simp
    | succ k => rw [Function.iterate_succ_apply']; exact hU _
  have key : ∀ k, k ≤ (f^[k] ∅).card ∨ f (f^[k] ∅) = f^[k] ∅ := by
    intro k
    induction k with
    | zero => simp
    | succ k ih =>
      rw [Function.iterate_succ_apply']
      by_cases he : f (f^[k] ∅) = f^[k] ∅
      · exact Or.inr (by rw [he, he])
      · left
        have h1 := ih.resolve_right he
        have h2 := Finset.card_lt_card (Finset.ssubset_iff_subset_ne.2 ⟨hup k, fun h => he h.symm⟩)
        omega
  rcases key k with h | h
  · have e : f^[k] ∅ = U := Finset.eq_of_subset_of_card_le (hin k) (by omega)
    refine Finset.Subset.antisymm ?_ (hup k)
    rw [e]; exact hU _
  · exact h

/-! ## FIRST -/

theorem firstOf_mono {F F' : FirstMap} (h : FLe F F') {r : List Item} : firstOf F r ⊆ firstOf F' r := by
  induction r with
  | nil => simp [firstOf]
  | cons x r ih =>
    cases x with
    | t a => simp [firstOf]
    | nt A =>
      cases hA : F.get A with
      | none => simp [firstOf, colOf_none hA]
      | some c =>
        obtain ⟨c', h1, h2, h3⟩ := h A c hA
        simp only [firstOf, colOf_eq hA, colOf_eq h1]
        refine Finset.union_subset_union h3 ?_
        by_cases hc : c.allowEpsilon = true
        · simp [hc, h2 hc, ih]
        · simp [hc]

theorem FLe.refl (F : FirstMap) : FLe F F := fun _ c h => ⟨c, h, id, Finset.Subset.refl _⟩

theorem FLe.trans {F G H : FirstMap} (h : FLe F G) (h' : FLe G H) : FLe F H := by
  intro A c hA
  obtain ⟨c1, a1, a2, a3⟩ := h A c hA
  obtain ⟨c2, b1, b2, b3⟩ := h' A c1 a1
  exact ⟨c2, b1, fun x => b2 (a2 x), a3.trans b3⟩

theorem firstPass_FLe {ps : List Production} {st st' : FirstState} (h : firstPass ps st = .ok st') :
    FLe st.result st'.result := by
  induction ps generalizing st with
  | nil => cases h; exact FLe.refl _
  | cons p ps ih =>
    simp only [firstPass, bind_eq_ok] at h
    obtain ⟨st1, h1, h2⟩ := h
    exact (firstStep_FLe h1).trans (ih h2)

/-- what one round derives from the maps it starts with -/
theorem firstPass_derives {ids : List Nat} {ord ps : List Production} {st st' : FirstState}
    (hps : ∀ p ∈ ps, p ∈ ord) (hi : FInv ids ord st) (h : firstPass ps st = .ok st')
    {p : Production} (hp : p ∈ ps) :
    p.left ∈ ids ∧
    (epsOf st.result p.right = true → firstHolds st' (.inl p.left, none) = true ∧
      firstHolds st' (.inr p, none) = true) ∧
    (∀ t ∈ firstOf st.result p.right, firstHolds st' (.inl p.left, some t) = true ∧
      firstHolds st' (.inr p, some t) = true) := by
  induction ps generalizing st with
  | nil => simp at hp
  | cons q ps ih =>
    simp only [firstPass, bind_eq_ok] at h
    obtain ⟨st1, h1, h2⟩ := h
    have hi1 := firstStep_inv (hps q (by simp)) hi h1
    have hps' : ∀ q ∈ ps, q ∈ ord := fun q hq => hps q (by simp [hq])
    have hmono := (firstPass_facts hps' hi1 h2).1
    simp only [List.mem_cons] at hp
    rcases hp with rfl | hp
    · obtain ⟨t, r, ht, hr, hcache, hres, _⟩ := firstStep_ok h1
      refine ⟨(hi.dom _).1 ⟨r, hr⟩, fun he => ⟨hmono _ ?_, hmono _ ?_⟩,
        fun x hx => ⟨hmono _ ?_, hmono _ ?_⟩⟩
      · simp [firstHolds, firstColAt, colOf, hres, he]
      · simp [firstHolds, firstColAt, hcache, he]
      · simp [firstHolds, firstColAt, colOf, hres, hx]
      · simp [firstHolds, firstColAt, hcache, hx]
    · obtain ⟨a1, a2, a3⟩ := ih hps' hi1 h2 hp
      have hle := firstStep_FLe h1
      exact ⟨a1, fun he => a2 (epsOf_mono hle he), fun x hx => a3 x (firstOf_mono hle hx)⟩

theorem firstHolds_token {st : FirstState} {A t : Nat} :
    firstHolds st (.inl A, some t) = true ↔ t ∈ (colOf st.result A).set := decide_eq_true_iff

theorem firstHolds_prod_token {st : FirstState} {p : Production} {c : Collection} {t : Nat}
    (h : st.cache.get p = some c) : firstHolds st (.inr p, some t) = true ↔ t ∈ c.set := by
  refine (decide_eq_true_iff).trans ?_
  simp [firstColAt, h]

open Classical in
/-- one simultaneous round of the nullability rules -/
noncomputable def nulStep (ids : List Nat) (P : List Production) (S : Finset Nat) : Finset Nat :=
  ids.toFinset.filter fun A => ∃ p ∈ P, p.left = A ∧ ∀ x ∈ p.right, ∃ B ∈ S, x = Item.nt B

open Classical in
/-- one simultaneous round of the FIRST rules for one token -/
noncomputable def fstStep (ids : List Nat) (P : List Production) (t : Nat) (S : Finset Nat) : Finset Nat :=
  ids.toFinset.filter fun A => ∃ p ∈ P, p.left = A ∧ ∃ u x v, p.right = u ++ x :: v ∧ Nul P u ∧
    (x = Item.t t ∨ ∃ B ∈ S, x = Item.nt B)

theorem nulStep_mono (ids : List Nat) (P : List Production) : Monotone (nulStep ids P) := by
  intro S S' h A hA
  simp only [nulStep, Finset.mem_filter] at hA ⊢
  obtain ⟨h0, p, hp, hl, hr⟩ := hA
  refine ⟨h0, p, hp, hl, fun x hx => ?_⟩
  obtain ⟨B, hB, e⟩ := hr x hx
  exact ⟨B, h hB, e⟩

theorem fstStep_mono (ids : List Nat) (P : List Production) (t : Nat) : Monotone (fstStep ids P t) := by
  intro S S' h A hA
  simp only [fstStep, Finset.mem_filter] at hA ⊢
  obtain ⟨h0, p, hp, hl, u, x, v, e, hu, hx⟩ := hA
  refine ⟨h0, p, hp, hl, u, x, v, e, hu, ?_⟩
  rcases hx with hx | ⟨B, hB, hx⟩
  · exact Or.inl hx
  · exact Or.inr ⟨B, h hB, hx⟩

theorem mem_fstStep {ids : List Nat} {P : List Production} {t : Nat} {S : Finset Nat} {A : Nat} :
    A ∈ fstStep ids P t S ↔ A ∈ ids ∧ ∃ p ∈ P, p.left = A ∧ ∃ u x v, p.right = u ++ x :: v ∧
      Nul P u ∧ (x = Item.t t ∨ ∃ B ∈ S, x = Item.nt B) := by
  simp only [fstStep, Finset.mem_filter, List.mem_toFinset]

theorem epsOf_append {F : FirstMap} {u v : List Item} (h : epsOf F u = true) :
    epsOf F (u ++ v) = epsOf F v := by
  induction u with
  | nil => rfl
  | cons x u ih =>
    cases x with
    | t a => simp [epsOf] at h
    | nt A =>
      simp only [epsOf, Bool.and_eq_true] at h
      simp [epsOf, h.1, ih h.2]

theorem firstOf_append {F : FirstMap} {u v : List Item} (h : epsOf F u = true) :
    firstOf F v ⊆ firstOf F (u ++ v) := by
  induction u with
  | nil => simp
  | cons x u ih =>
    cases x with
    | t a => simp [epsOf] at h
    | nt A =>
      simp only [epsOf, Bool.and_eq_true] at h
      simp only [List.cons_append, firstOf, h.1, if_true]
      exact (ih h.2).trans Finset.subset_union_right

theorem epsOf_all {F : FirstMap} {r : List Item}
    (h : ∀ x ∈ r, ∃ B, x = Item.nt B ∧ (colOf F B).allowEpsilon = true) : epsOf F r = true := by
  induction r with
  | nil => rfl
  | cons x r ih =>
    obtain ⟨B, rfl, hB⟩ := h x (by simp)
    simp [epsOf, hB, ih fun y hy => h y (by simp [hy])]

section stages
variable {ids : List Nat} {ord : List Production} (hl : ∀ p ∈ ord, p.left ∈ ids)
include hl

/-- a set closed under the nullability rules contains the nullable rules -/
theorem nul_closed {S : Finset Nat} (hS : nulStep ids ord S = S) {r : List Item} (h : Nul ord r) :
    ∀ x ∈ r, ∃ B ∈ S, x = Item.nt B := by
  induction h with
  | nil => simp
  | cons p hp rest _ _ ih1 ih2 =>
    intro x hx
    simp only [List.mem_cons] at hx
    rcases hx with rfl | hx
    · refine ⟨p.left, ?_, rfl⟩
      rw [← hS]
      simp only [nulStep, Finset.mem_filter, List.mem_toFinset]
      exact ⟨hl p hp, p, hp, rfl, ih1⟩
    · exact ih2 x hx

/-- a set closed under the FIRST rules of a token contains the rules that can start with it -/
theorem fst_closed {t : Nat} {S : Finset Nat} (hS : fstStep ids ord t S = S) {r : List Item}
    (h : Fst ord t r) :
    ∃ u x v, r = u ++ x :: v ∧ Nul ord u ∧ (x = Item.t t ∨ ∃ B ∈ S, x = Item.nt B) := by
  induction h with
  | here rest => exact ⟨[], _, rest, rfl, Nul.nil, Or.inl rfl⟩
  | down p hp rest _ ih =>
    refine ⟨[], _, rest, rfl, Nul.nil, Or.inr ⟨p.left, ?_, rfl⟩⟩
    rw [← hS]
    simp only [fstStep, Finset.mem_filter, List.mem_toFinset]
    exact ⟨hl p hp, p, hp, rfl, ih⟩
  | skip A rest hA _ ih =>
    obtain ⟨u, x, v, e, hu, hx⟩ := ih
    refine ⟨Item.nt A :: u, x, v, by rw [e]; rfl, ?_, hx⟩
    cases hA with
    | cons p hp _ h1 _ => exact Nul.cons p hp u h1 hu

end stages

/-- the maps are complete up to stage `k` -/
structure FLevel (ids : List Nat) (ord : List Production) (k : Nat) (st : FirstState) : Prop where
  inv : FInv ids ord st
  left : 0 < k → ∀ p ∈ ord, p.left ∈ ids
  nul : ∀ A ∈ (nulStep ids ord)^[k] ∅, firstHolds st (.inl A, none) = true
  fst : ∀ j t, k = ids.toFinset.card + j → ∀ A ∈ (fstStep ids ord t)^[j] ∅,
    firstHolds st (.inl A, some t) = true
  cache : k = 2 * ids.toFinset.card + 1 → ∀ p ∈ ord,
    (Nul ord p.right → firstHolds st (.inr p, none) = true) ∧
    ∀ t, Fst ord t p.right → firstHolds st (.inr p, some t) = true

section level
variable {ids : List Nat} {ord : List Production}

theorem nulStep_subset (S : Finset Nat) : nulStep ids ord S ⊆ ids.toFinset := Finset.filter_subset _ _

theorem fstStep_subset (t : Nat) (S : Finset Nat) : fstStep ids ord t S ⊆ ids.toFinset :=
  fun _ h => List.mem_toFinset.2 (mem_fstStep.1 h).1

theorem FLevel.eps {k : Nat} {st : FirstState} (h : FLevel ids ord k st)
    (hl : ∀ p ∈ ord, p.left ∈ ids) (hk : ids.toFinset.card ≤ k) {r : List Item} (hr : Nul ord r) :
    epsOf st.result r = true := by
  refine epsOf_all fun x hx => ?_
  obtain ⟨B, hB, rfl⟩ := nul_closed hl
    (iterate_stable _ (nulStep_mono ids ord) _ nulStep_subset k hk) hr x hx
  exact ⟨B, rfl, h.nul B hB⟩

theorem FLevel.first {j : Nat} {st : FirstState} (h : FLevel ids ord (ids.toFinset.card + j) st)
    (hl : ∀ p ∈ ord, p.left ∈ ids) (hj : ids.toFinset.card ≤ j) {r : List Item} {t : Nat}
    (hr : Fst ord t r) : t ∈ firstOf st.result r := by
  obtain ⟨u, x, v, rfl, hu, hx⟩ := fst_closed hl
    (iterate_stable _ (fstStep_mono ids ord t) _ (fstStep_subset t) j hj) hr
  refine firstOf_append (h.eps hl (by omega) hu) ?_
  rcases hx with rfl | ⟨B, hB, rfl⟩
  · simp [firstOf]
  · have := h.fst j t rfl B hB
    rw [firstHolds_token] at this
    simp [firstOf, this]

theorem FLevel.step {k : Nat} {st st' : FirstState} (h : FLevel ids ord k st)
    (hb : firstPass ord { st with modified := false } = .ok st') : FLevel ids ord (k + 1) st' := by
  have hi' : FInv ids ord { st with modified := false } :=
    ⟨h.inv.dom, h.inv.cdom, h.inv.eps, h.inv.fst, h.inv.ceps, h.inv.cfst⟩
  have hd := fun p hp => firstPass_derives (fun p hp => hp) hi' hb (p := p) hp
  have hmono := (firstPass_facts (fun p hp => hp) hi' hb).1
  have hl : ∀ p ∈ ord, p.left ∈ ids := fun p hp => (hd p hp).1
  refine ⟨firstPass_inv (fun p hp => hp) hi' hb, fun _ => hl, ?_, ?_, ?_⟩
  · intro A hA
    rw [Function.iterate_succ_apply'] at hA
    obtain ⟨_, p, hp, rfl, hr⟩ := Finset.mem_filter.1 hA
    refine ((hd p hp).2.1 (epsOf_all fun x hx => ?_)).1
    obtain ⟨B, hB, rfl⟩ := hr x hx
    exact ⟨B, rfl, h.nul B hB⟩
  · intro j t hj A hA
    cases j with
    | zero => simp at hA
    | succ j =>
      rw [Function.iterate_succ_apply'] at hA
      obtain ⟨_, p, hp, rfl, u, x, v, e, hu, hx⟩ := mem_fstStep.1 hA
      refine ((hd p hp).2.2 t ?_).1
      rw [e]
      refine firstOf_append (h.eps hl (by omega) hu) ?_
      rcases hx with rfl | ⟨B, hB, rfl⟩
      · simp [firstOf]
      · have := h.fst j t (by omega) B hB
        rw [firstHolds_token] at this
        simp [firstOf, this]
  · intro hk p hp
    have hk' : k = ids.toFinset.card + ids.toFinset.card := by omega
    subst hk'
    exact ⟨fun hn => ((hd p hp).2.1 (h.eps hl (by omega) hn)).2,
      fun t ht => ((hd p hp).2.2 t (h.first hl (Nat.le_refl _) ht)).2⟩

theorem FLevel.last {st st' : FirstState} (h : FLevel ids ord (2 * ids.toFinset.card + 1) st)
    (hb : firstPass ord { st with modified := false } = .ok st') : st'.modified = false := by
  have hi' : FInv ids ord { st with modified := false } :=
    ⟨h.inv.dom, h.inv.cdom, h.inv.eps, h.inv.fst, h.inv.ceps, h.inv.cfst⟩
  have hl := h.left (by omega)
  have e : 2 * ids.toFinset.card + 1 = ids.toFinset.card + (ids.toFinset.card + 1) := by omega
  by_contra hm
  obtain ⟨⟨k, o⟩, hf, hf1, hf2⟩ := (firstPass_facts (fun p hp => hp) hi' hb).2 rfl (by simpa using hm)
  have hi2 := firstPass_inv (fun p hp => hp) hi' hb
  have hf1 : firstHolds st (k, o) = false := hf1
  refine absurd ?_ (by rw [hf1]; decide : ¬ firstHolds st (k, o) = true)
  cases k with
  | inl A =>
    cases o with
    | none =>
      simp only [firstHolds, firstColAt] at hf2 ⊢
      cases hA : st'.result.get A with
      | none => rw [colOf_none hA] at hf2; cases hf2
      | some c =>
        rw [colOf_eq hA] at hf2
        have := h.eps hl (by omega) (hi2.eps A c hA hf2)
        simpa [epsOf] using this
    | some t =>
      rw [firstHolds_token] at hf2 ⊢
      cases hA : st'.result.get A with
      | none => rw [colOf_none hA] at hf2; simp at hf2
      | some c =>
        rw [colOf_eq hA] at hf2
        rw [e] at h
        have := h.first hl (by omega) (hi2.fst A c t hA hf2)
        simpa [firstOf] using this
  | inr p =>
    have hp := (mem_ffUniverse.1 hf).1
    simp only at hp
    obtain ⟨c, hc⟩ := (hi2.cdom p).2 hp
    have hcp := h.cache rfl p hp
    cases o with
    | none =>
      apply hcp.1
      simp only [firstHolds, firstColAt, hc, Option.getD_some] at hf2
      exact epsOf_sound hi2.eps (hi2.ceps p c hc hf2)
    | some t =>
      apply hcp.2
      rw [firstHolds_prod_token hc] at hf2
      exact hi2.cfst p c t hc hf2

theorem firstSet_within (ids : List Nat) (ord : List Production) (fuel : Nat)
    (hfuel : 2 * ids.toFinset.card + 3 ≤ fuel) : firstSet ids ord fuel ≠ .error .fuel := by
  have h := whileLoop_levels (cond := fun st : FirstState => st.modified)
    (body := fun st : FirstState => firstPass ord { st with modified := false })
    (FLevel ids ord) (2 * ids.toFinset.card + 1) (fun st => firstPass_ne_fuel)
    (fun k st st' _ hk hb => hk.step hb) (fun st st' hk hb => hk.last hb) 0 (by omega)
    { result := initMap ids ⟨false, ∅⟩, cache := initCache ord, modified := true }
    ⟨FInv_init ids ord true, by simp, by simp, fun j t hj A hA => by
      obtain rfl : j = 0 := by omega
      simp at hA, fun hk => by omega⟩ fuel (by omega)
  exact bind_ne_fuel h fun _ _ => by simp

end level

/-! ## FOLLOW -/

open Classical in
/-- one simultaneous round of the FOLLOW rules for one token -/
noncomputable def flwStep (ids : List Nat) (P : List Production) (t : Nat) (S : Finset Nat) : Finset Nat :=
  ids.toFinset.filter fun B => (B = 0 ∧ t = 1) ∨ ∃ p ∈ P, ∃ rest, Occ p B rest ∧
    (Fst P t rest ∨ (Nul P rest ∧ p.left ∈ S))

theorem mem_flwStep {ids : List Nat} {P : List Production} {t : Nat} {S : Finset Nat} {B : Nat} :
    B ∈ flwStep ids P t S ↔ B ∈ ids ∧ ((B = 0 ∧ t = 1) ∨ ∃ p ∈ P, ∃ rest, Occ p B rest ∧
      (Fst P t rest ∨ (Nul P rest ∧ p.left ∈ S))) := by
  simp only [flwStep, Finset.mem_filter, List.mem_toFinset]

theorem flwStep_mono (ids : List Nat) (P : List Production) (t : Nat) : Monotone (flwStep ids P t) := by
  intro S S' h B hB
  rw [mem_flwStep] at hB ⊢
  obtain ⟨h0, hB⟩ := hB
  refine ⟨h0, ?_⟩
  rcases hB with hB | ⟨p, hp, rest, ho, hr | ⟨hr, hS⟩⟩
  · exact Or.inl hB
  · exact Or.inr ⟨p, hp, rest, ho, Or.inl hr⟩
  · exact Or.inr ⟨p, hp, rest, ho, Or.inr ⟨hr, h hS⟩⟩

theorem flw_closed {ids : List Nat} {ord : List Production} (h0 : 0 ∈ ids)
    (hk : ∀ p ∈ ord, ∀ B, Item.nt B ∈ p.right → B ∈ ids) {t : Nat} {S : Finset Nat}
    (hS : flwStep ids ord t S = S) {B : Nat} (h : Flw ord t B) : B ∈ S := by
  induction h with
  | stop h =>
    rw [← hS, mem_flwStep]
    exact ⟨h0, Or.inl ⟨rfl, h⟩⟩
  | first p hp u v B hr hf =>
    rw [← hS, mem_flwStep]
    exact ⟨hk p hp B (by rw [hr]; simp), Or.inr ⟨p, hp, v, ⟨u, hr⟩, Or.inl hf⟩⟩
  | follow p hp u v B hr hn _ ih =>
    rw [← hS, mem_flwStep]
    exact ⟨hk p hp B (by rw [hr]; simp), Or.inr ⟨p, hp, v, ⟨u, hr⟩, Or.inr ⟨hn, ih⟩⟩⟩

theorem followHolds_iff {st : FollowState} {A t : Nat} {s : Finset Nat} (h : st.result.get A = some s) :
    followHolds st (A, t) = true ↔ t ∈ s := by
  refine (decide_eq_true_iff).trans ?_
  simp [h]

section follow
variable {ids : List Nat} {ord : List Production} {F : FirstMap}
  (h1 : ∀ r, epsOf F r = true ↔ Nul ord r) (h2 : ∀ t r, t ∈ firstOf F r ↔ Fst ord t r)
include h1 h2

/-- what one production derives from the sets it starts with -/
theorem followItems_derives {p : Production} (hp : p ∈ ord) {suf : List Item} {st st' : FollowState}
    (hsuf : ∃ u, p.right = u ++ suf) (hi : WInv ids ord st)
    (h : followItems F p.left suf st = .ok st') {u rest : List Item} {B : Nat}
    (hB : suf = u ++ Item.nt B :: rest) (t : Nat) :
    (Fst ord t rest → followHolds st' (B, t) = true) ∧
    (Nul ord rest → followHolds st (p.left, t) = true → followHolds st' (B, t) = true) := by
  induction suf generalizing st u with
  | nil => cases u <;> cases hB
  | cons x suf ih =>
    have hsuf' : ∃ u, p.right = u ++ suf := by
      obtain ⟨u, hu⟩ := hsuf
      exact ⟨u ++ [x], by simp [hu]⟩
    cases x with
    | t a =>
      cases u with
      | nil => simp at hB
      | cons y u =>
        simp only [List.cons_append, List.cons.injEq] at hB
        exact ih hsuf' hi h hB.2
    | nt item =>
      obtain ⟨s, w, st1, hs, hw, hres, hmod, h⟩ := followItems_nt_ok h
      have hi1 : WInv ids ord st1 := by
        obtain ⟨u0, hu0⟩ := hsuf
        constructor
        · intro A
          rw [hres, ← hi.dom A, HMap.get_insert]
          by_cases hA : item = A
          · subst hA; simp [hw]
          · simp [hA]
        · intro A c x hA hx
          rw [hres, HMap.get_insert] at hA
          by_cases hiA : item = A
          · subst hiA
            simp only [if_true, Option.some.injEq] at hA
            subst hA
            simp only [Finset.mem_union] at hx
            rcases hx with (hx | hx) | hx
            · exact hi.flw item w x hw hx
            · exact Flw.first p hp u0 suf item hu0 ((h2 x suf).1 hx)
            · split at hx
              · rename_i he
                exact Flw.follow p hp u0 suf item hu0 ((h1 suf).1 he) (hi.flw p.left s x hs hx)
              · simp at hx
          · simp only [hiA, if_false] at hA
            exact hi.flw A c x hA hx
      have b1 : ∀ f, followHolds st f = true → followHolds st1 f = true := by
        rintro ⟨A, x⟩ hf
        simp only [followHolds, decide_eq_true_eq, hres, HMap.get_insert] at hf ⊢
        by_cases hA : item = A
        · subst hA
          simp only [hw, Option.getD_some, if_true, Finset.mem_union] at hf ⊢
          exact Or.inl (Or.inl hf)
        · simpa [hA] using hf
      have a2 := (followItems_all (fun r => (h1 r).1) (fun t r => (h2 t r).1) hp hsuf' hi1 h).2.1
      cases u with
      | nil =>
        simp only [List.nil_append, List.cons.injEq, Item.nt.injEq] at hB
        obtain ⟨rfl, rfl⟩ := hB
        have e : st1.result.get item = some
            (w ∪ firstOf F suf ∪ (if epsOf F suf = true then s else ∅)) := by
          rw [hres, HMap.get_insert_self]
        refine ⟨fun ht => a2 _ ((followHolds_iff e).2 ?_), fun hn hl => a2 _ ((followHolds_iff e).2 ?_)⟩
        · simp [(h2 t suf).2 ht]
        · rw [followHolds_iff hs] at hl
          simp [(h1 suf).2 hn, hl]
      | cons y u =>
        simp only [List.cons_append, List.cons.injEq] at hB
        obtain ⟨c1, c2⟩ := ih hsuf' hi1 h hB.2
        exact ⟨c1, fun hn hl => c2 hn (b1 _ hl)⟩

theorem followPass_derives {ps : List Production} (hps : ∀ p ∈ ps, p ∈ ord) {st st' : FollowState}
    (hi : WInv ids ord st) (h : followPass F ps st = .ok st') {p : Production} (hp : p ∈ ps)
    {B : Nat} {rest : List Item} (ho : Occ p B rest) (t : Nat) :
    (Fst ord t rest → followHolds st' (B, t) = true) ∧
    (Nul ord rest → followHolds st (p.left, t) = true → followHolds st' (B, t) = true) := by
  induction ps generalizing st with
  | nil => simp at hp
  | cons q ps ih =>
    simp only [followPass, bind_eq_ok] at h
    obtain ⟨st1, hb, h⟩ := h
    have hq := hps q (by simp)
    have hps' : ∀ q ∈ ps, q ∈ ord := fun q hq => hps q (by simp [hq])
    obtain ⟨b1, b2, _⟩ := followItems_all (fun r => (h1 r).1) (fun t r => (h2 t r).1) hq ⟨[], rfl⟩ hi hb
    simp only [List.mem_cons] at hp
    rcases hp with rfl | hp
    · obtain ⟨u, hu⟩ := ho
      have a2 := (followPass_all (fun r => (h1 r).1) (fun t r => (h2 t r).1) hps' b1 h).2.1
      obtain ⟨c1, c2⟩ := followItems_derives h1 h2 hq ⟨[], rfl⟩ hi hb hu t
      exact ⟨fun x => a2 _ (c1 x), fun x y => a2 _ (c2 x y)⟩
    · obtain ⟨c1, c2⟩ := ih hps' b1 h hp
      exact ⟨c1, fun x y => c2 x (b2 _ y)⟩

theorem followSet_within (fuel : Nat) (hfuel : ids.toFinset.card + 2 ≤ fuel) :
    followSet ids ord F fuel ≠ .error .fuel := by
  by_cases h0 : 0 ∈ ids
  swap
  · rw [followSet_zero h0]; simp
  have hsub : ∀ t S, flwStep ids ord t S ⊆ ids.toFinset :=
    fun t S _ h => List.mem_toFinset.2 (mem_flwStep.1 h).1
  have h := whileLoop_levels (cond := fun st : FollowState => st.modified)
    (body := fun st : FollowState => followPass F ord { st with modified := false })
    (fun k st => WInv ids ord st ∧ followHolds st (0, 1) = true ∧
      ∀ t, ∀ B ∈ (flwStep ids ord t)^[k] ∅, followHolds st (B, t) = true)
    ids.toFinset.card (fun st => followPass_ne_fuel)
    (by
      intro k st st' _ hL h
      have hi' : WInv ids ord { st with modified := false } := ⟨hL.1.dom, hL.1.flw⟩
      obtain ⟨f0, f1, f2, _, _⟩ :=
        followPass_all (fun r => (h1 r).1) (fun t r => (h2 t r).1) (fun p hp => hp) hi' h
      refine ⟨f0, f1 _ hL.2.1, fun t B hB => ?_⟩
      rw [Function.iterate_succ_apply', mem_flwStep] at hB
      rcases hB.2 with ⟨rfl, rfl⟩ | ⟨p, hp, rest, ho, hr⟩
      · exact f1 _ hL.2.1
      · obtain ⟨c1, c2⟩ := followPass_derives h1 h2 (fun p hp => hp) hi' h hp ho t
        rcases hr with hr | ⟨hr, hS⟩
        · exact c1 hr
        · exact c2 hr (hL.2.2 t _ hS))
    (by
      intro st st' hL h
      have hi' : WInv ids ord { st with modified := false } := ⟨hL.1.dom, hL.1.flw⟩
      obtain ⟨f0, f1, f2, _, f4⟩ :=
        followPass_all (fun r => (h1 r).1) (fun t r => (h2 t r).1) (fun p hp => hp) hi' h
      by_contra hm
      obtain ⟨⟨B, t⟩, hf, hf1, hf2⟩ := f2 rfl (by simpa using hm)
      have hf1 : followHolds st (B, t) = false := hf1
      have hB : B ∈ ids := by
        simp only [fwUniverse, Finset.mem_product, List.mem_toFinset] at hf
        exact hf.1
      obtain ⟨s, hs⟩ := (f0.dom B).2 hB
      have := hL.2.2 t B (flw_closed h0 f4
        (iterate_stable _ (flwStep_mono ids ord t) _ (hsub t) _ (Nat.le_refl _))
        (f0.flw B s t hs ((followHolds_iff hs).1 hf2)))
      rw [hf1] at this; cases this)
    0 (by omega)
    { result := (initMap ids ∅).insert 0 (insert 1 ∅), modified := true }
    ⟨WInv_init h0 true, by simp [followHolds], by simp⟩ fuel (by omega)
  rw [followSet_eq h0]
  exact bind_ne_fuel h fun _ _ => by simp

end follow

/-! ## the bounds -/

theorem ids_card {g : Grammar} (o : IterOrder g) :
    o.ids.toFinset.card = g.vocabulary.nonterminals.card := by
  congr 1
  ext i
  simp [o.ids_mem]

/-- **C74** Whatever the grammar and whatever the hash iteration orders, `first_set` is done (it has
returned or panicked) after at most `2 · rules + 2` rounds, however many productions and tokens
there are. -/
theorem C74_first_rounds (g : Grammar) (o : IterOrder g) (fuel : Nat)
    (hf : 2 * g.vocabulary.nonterminals.card + 2 < fuel) : runFirst g o fuel ≠ .error .fuel :=
  firstSet_within o.ids o.ord fuel (by rw [ids_card]; exact hf)

/-- **C74** `follow_set`, given what `first_set` returned, is done after at most `rules + 1` rounds. -/
theorem C74_follow_rounds (g : Grammar) (o : IterOrder g) (fuel fuel' : Nat) (F : FirstMap)
    (C : ProdFirstMap) (h : runFirst g o fuel = .ok (F, C))
    (hf : g.vocabulary.nonterminals.card + 1 < fuel') :
    followSet o.ids o.ord F fuel' ≠ .error .fuel := by
  obtain ⟨st, hfx, rfl, rfl⟩ := firstSet_fix h
  exact followSet_within
    (fun r => ⟨epsOf_sound hfx.inv.eps, hfx.epsOf_complete⟩)
    (fun t r => ⟨firstOf_sound hfx.inv.eps hfx.inv.fst, hfx.firstOf_complete⟩) fuel'
    (by rw [ids_card]; exact hf)

/-- **C74** For a well-formed grammar with a rule 0 the whole table is computed within that number
of rounds of each loop, and allowing more rounds does not change it. -/
theorem C74_table_rounds (g : Grammar) (o : IterOrder g) (so : SetOrder) (h : g.WellFormed)
    (h0 : 0 ∈ g.vocabulary.nonterminals) :
    ∃ ts, ∀ fuel, 2 * g.vocabulary.nonterminals.card + 2 < fuel → runTable g o so fuel = .ok ts := by
  obtain ⟨n, ts, hts⟩ := C14_table_returns g o so h h0
  refine ⟨ts, fun fuel hf => ?_⟩
  have hbig := hts (max n fuel) (by omega)
  have e1 : runFirst g o (max n fuel) = runFirst g o fuel := by
    have h1 := C74_first_rounds g o fuel hf
    unfold runFirst firstSet at h1 ⊢
    have hl : firstLoop o.ord fuel
        { result := initMap o.ids ⟨false, ∅⟩, cache := initCache o.ord, modified := true } ≠ .error .fuel := by
      intro hc
      simp only [hc, bind_error] at h1
      exact h1 rfl
    have hl' := whileLoop_mono rfl hl (Nat.le_max_right n fuel)
    simp only [firstLoop] at hl' ⊢
    rw [hl']
  cases hF : runFirst g o fuel with
  | error e => simp [runTable, e1, hF] at hbig
  | ok FC =>
    obtain ⟨F, C⟩ := FC
    have h1 := C74_follow_rounds g o fuel fuel F C hF (by omega)
    have e2 : followSet o.ids o.ord F (max n fuel) = followSet o.ids o.ord F fuel := by
      rw [followSet_eq ((o.ids_mem 0).2 h0)] at h1 ⊢
      rw [followSet_eq ((o.ids_mem 0).2 h0)]
      have hl : followLoop F o.ord fuel
          { result := (initMap o.ids ∅).insert 0 (insert 1 ∅), modified := true } ≠ .error .fuel := by
        intro hc
        simp only [hc, bind_error] at h1
        exact h1 rfl
      have hl' := whileLoop_mono rfl hl (Nat.le_max_right n fuel)
      simp only [followLoop] at hl' ⊢
      rw [hl']
    simpa only [runTable, e1, hF, bind_ok, e2] using hbig

/-! ## the number of rounds really grows with the number of rules -/

/-- `i → i+1`, …, `i+m → 'a'` -/
def chainFrom : Nat → Nat → List Production
  | i, 0 => [⟨i, [.t 2]⟩]
  | i, m + 1 => ⟨i, [.nt (i + 1)]⟩ :: chainFrom (i + 1) m

/-- the grammar `0 → 1`, `1 → 2`, …, `n → 'a'` -/
def chainGrammar (n : Nat) : Grammar where
  name := []
  vocabulary := { Vocabulary.new with nonterminals := Finset.range (n + 1) }
  productions := chainFrom 0 n

theorem mem_chainFrom {i m : Nat} {p : Production} : p ∈ chainFrom i m ↔
    (∃ A, i ≤ A ∧ A < i + m ∧ p = ⟨A, [.nt (A + 1)]⟩) ∨ p = ⟨i + m, [.t 2]⟩ := by
  induction m generalizing i with
  | zero =>
    simp only [chainFrom, List.mem_singleton, Nat.add_zero]
    constructor
    · exact Or.inr
    · rintro (⟨A, h1, h2, _⟩ | h)
      · omega
      · exact h
  | succ m ih =>
    simp only [chainFrom, List.mem_cons, ih]
    constructor
    · rintro (rfl | ⟨A, h1, h2, rfl⟩ | rfl)
      · exact Or.inl ⟨i, by omega, by omega, rfl⟩
      · exact Or.inl ⟨A, by omega, by omega, rfl⟩
      · exact Or.inr (by rw [show i + 1 + m = i + (m + 1) by omega])
    · rintro (⟨A, h1, h2, rfl⟩ | rfl)
      · by_cases h : A = i
        · exact Or.inl (by rw [h])
        · exact Or.inr (Or.inl ⟨A, by omega, by omega, rfl⟩)
      · exact Or.inr (Or.inr (by rw [show i + 1 + m = i + (m + 1) by omega]))

theorem chainFrom_nodup (i m : Nat) : (chainFrom i m).Nodup := by
  induction m generalizing i with
  | zero => simp [chainFrom]
  | succ m ih =>
    refine List.nodup_cons.2 ⟨fun h => ?_, ih (i + 1)⟩
    rcases mem_chainFrom.1 h with ⟨A, h1, _, h3⟩ | h
    · simp only [Production.mk.injEq] at h3; omega
    · simp at h

/-- the productions iterated from the start rule downwards -/
def chainDown (n : Nat) : IterOrder (chainGrammar n) where
  ids := List.range (n + 1)
  ids_mem := by simp [chainGrammar]
  ord := chainFrom 0 n
  ord_perm := List.Perm.refl _
  ord_nodup := chainFrom_nodup 0 n

/-- the productions iterated from the last rule upwards -/
def chainUp (n : Nat) : IterOrder (chainGrammar n) where
  ids := List.range (n + 1)
  ids_mem := by simp [chainGrammar]
  ord := (chainFrom 0 n).reverse
  ord_perm := List.reverse_perm _
  ord_nodup := List.nodup_reverse.2 (chainFrom_nodup 0 n)

theorem chainGrammar_wf (n : Nat) : (chainGrammar n).WellFormed := by
  intro p hp
  rcases mem_chainFrom.1 hp with ⟨A, _, h2, rfl⟩ | rfl
  · simp only [chainGrammar, Finset.mem_range, List.mem_singleton, Item.nt.injEq]
    exact ⟨by omega, fun B hB => by omega⟩
  · simp [chainGrammar]

/-- nothing is known about the rules `A` with `A + k ≤ n` -/
def ChainEmpty (n k : Nat) (i : Nat) (st : FirstState) : Prop :=
  (∀ A c, i ≤ A → A + k ≤ n → st.result.get A = some c → c.set = ∅) ∧
  ∀ p c, i ≤ p.left → p.left + k ≤ n → st.cache.get p = some c → c.set = ∅

theorem chain_step {n k i : Nat} {x : Item} {st st' : FirstState}
    (h1 : ChainEmpty n k i st) (h2 : ChainEmpty n (k + 1) 0 st)
    (hx : x = .nt (i + 1) ∨ n ≤ i + k)
    (h : firstStep st ⟨i, [x]⟩ = .ok st') : ChainEmpty n k (i + 1) st' ∧ ChainEmpty n (k + 1) 0 st' := by
  obtain ⟨t, r, ht, hr, hcache, hres, _⟩ := firstStep_ok h
  simp only at hr hcache hres
  have hnew : i + k + 1 ≤ n → t.set = ∅ ∧ r.set = ∅ ∧ firstOf st.result [x] = ∅ := by
    intro hle
    rcases hx with rfl | hx
    · refine ⟨h1.2 _ t (Nat.le_refl i) (by show i + k ≤ n; omega) ht, h1.1 i r (Nat.le_refl i) (by omega) hr, ?_⟩
      have : (colOf st.result (i + 1)).set = ∅ := by
        cases hc : st.result.get (i + 1) with
        | none => simp [colOf_none hc]
        | some c => rw [colOf_eq hc]; exact h1.1 (i + 1) c (by omega) (by omega) hc
      simp [firstOf, this]
    · omega
  refine ⟨⟨?_, ?_⟩, ⟨?_, ?_⟩⟩
  · intro A c hA hk hc
    rw [hres, HMap.get_insert, if_neg (by omega)] at hc
    exact h1.1 A c (by omega) hk hc
  · intro p c hA hk hc
    rw [hcache, HMap.get_insert, if_neg (by rintro rfl; simp only at hA; omega)] at hc
    exact h1.2 p c (by omega) hk hc
  · intro A c hA hk hc
    rw [hres, HMap.get_insert] at hc
    by_cases hi : i = A
    · subst hi
      simp only [if_true, Option.some.injEq] at hc
      subst hc
      obtain ⟨e1, e2, e3⟩ := hnew (by omega)
      simp [e1, e2, e3]
    · simp only [hi, if_false] at hc
      exact h2.1 A c hA hk hc
  · intro p c hA hk hc
    rw [hcache, HMap.get_insert] at hc
    by_cases hi : (⟨i, [x]⟩ : Production) = p
    · subst hi
      simp only [if_true, Option.some.injEq] at hc
      subst hc
      obtain ⟨e1, e2, e3⟩ := hnew (by simp only at hk; omega)
      simp [e1, e3]
    · simp only [hi, if_false] at hc
      exact h2.2 p c hA hk hc

theorem chain_pass {n k i m : Nat} {st st' : FirstState} (hn : i + m = n)
    (h1 : ChainEmpty n k i st) (h2 : ChainEmpty n (k + 1) 0 st)
    (h : firstPass (chainFrom i m) st = .ok st') : ChainEmpty n (k + 1) 0 st' := by
  induction m generalizing i st with
  | zero =>
    simp only [chainFrom, firstPass, bind_eq_ok] at h
    obtain ⟨st1, hs, h⟩ := h
    cases h
    exact (chain_step h1 h2 (Or.inr (by omega)) hs).2
  | succ m ih =>
    simp only [chainFrom, firstPass, bind_eq_ok] at h
    obtain ⟨st1, hs, h⟩ := h
    obtain ⟨c1, c2⟩ := chain_step h1 h2 (Or.inl rfl) hs
    exact ih (by omega) c1 c2 h

theorem ChainEmpty.weaken {n k : Nat} {st : FirstState} (h : ChainEmpty n k 0 st) :
    ChainEmpty n (k + 1) 0 st :=
  ⟨fun A c hA hk => h.1 A c hA (by omega), fun p c hA hk => h.2 p c hA (by omega)⟩

theorem chain_loop {n : Nat} (f : Nat) {k : Nat} {st st' : FirstState} (h : ChainEmpty n k 0 st)
    (hl : firstLoop (chainFrom 0 n) (f + 1) st = .ok st') : ChainEmpty n (k + f) 0 st' := by
  induction f generalizing k st with
  | zero =>
    simp only [firstLoop, whileLoop] at hl
    split at hl
    · split at hl <;> cases hl
    · cases hl; exact h
  | succ f ih =>
    rw [firstLoop, whileLoop] at hl
    split at hl
    · split at hl
      · rename_i st1 hb
        have := ih (k := k + 1) (chain_pass (Nat.zero_add n) (st := { st with modified := false })
          ⟨h.1, h.2⟩ ⟨h.weaken.1, h.weaken.2⟩ hb) hl
        rwa [show k + 1 + f = k + (f + 1) by omega] at this
      · cases hl
    · cases hl
      exact ⟨fun A c hA hk => h.1 A c hA (by omega), fun p c hA hk => h.2 p c hA (by omega)⟩

theorem chain_fst (n : Nat) {i m : Nat} (h : i + m = n) : Fst (chainFrom 0 n) 2 [.nt i] := by
  induction m generalizing i with
  | zero =>
    exact Fst.down ⟨i, [.t 2]⟩ (mem_chainFrom.2 (Or.inr (by rw [← h]; simp))) [] (Fst.here [])
  | succ m ih =>
    exact Fst.down ⟨i, [.nt (i + 1)]⟩ (mem_chainFrom.2 (Or.inl ⟨i, by omega, by omega, rfl⟩)) []
      (ih (by omega))

/-- **C74** A number of rounds that grows with the number of rules is unavoidable: for every `n`
there are a well-formed grammar with `n + 1` rules and a hash iteration order of its productions for
which `n` rounds are not enough. -/
theorem C74_rounds_needed (n : Nat) :
    (chainGrammar n).WellFormed ∧ (chainGrammar n).vocabulary.nonterminals.card = n + 1 ∧
    ∀ fuel, fuel ≤ n + 1 → runFirst (chainGrammar n) (chainDown n) fuel = .error .fuel := by
  refine ⟨chainGrammar_wf n, by simp [chainGrammar], fun fuel hf => ?_⟩
  cases hr : runFirst (chainGrammar n) (chainDown n) fuel with
  | error e =>
    cases e with
    | fuel => rfl
    | panic => exact absurd hr ((C05_first_set_returns _ _ (chainGrammar_wf n)).2 fuel)
  | ok FC =>
    exfalso
    obtain ⟨F, C⟩ := FC
    have hr0 := hr
    simp only [runFirst, firstSet, bind_eq_ok, Except.ok.injEq, Prod.mk.injEq] at hr
    obtain ⟨st, hl, rfl, rfl⟩ := hr
    cases fuel with
    | zero => cases hl
    | succ f =>
      have he : ChainEmpty n (0 + f) 0 st := chain_loop f ⟨by
          intro A c _ _ hc
          rw [initMap_get] at hc
          split at hc <;> cases hc
          rfl, by
          intro p c _ _ hc
          rw [initCache_get] at hc
          split at hc <;> cases hc
          rfl⟩ hl
      obtain ⟨c, hc, hc2⟩ := C07_first_exact _ _ _ _ _ hr0 0 (by simp [chainGrammar])
      have := (hc2 2).2 (fst_iff.1 (chain_fst n (Nat.zero_add n)))
      rw [he.1 0 c (Nat.le_refl 0) (by omega) hc] at this
      simp at this

/-- non-vacuity: with the productions iterated the other way round, two rounds are enough for the
same grammar, and the number of rounds allowed by the bound is enough in both cases -/
example : (runFirst (chainGrammar 5) (chainUp 5) 3).isOk = true ∧
    (runFirst (chainGrammar 5) (chainDown 5) 3).isOk = false ∧
    (runFirst (chainGrammar 5) (chainDown 5) 15).isOk = true := by decide +kernel

example : ∃ ts, ∀ fuel, 10 < fuel → runTable exGrammar exOrder incSetOrder fuel = .ok ts := by
  have := C74_table_rounds exGrammar exOrder incSetOrder exGrammar_wf (by decide)
  exact this

end Syntaxis
