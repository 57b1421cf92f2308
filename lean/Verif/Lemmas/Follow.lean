import Verif.Lemmas.First

/-! # `follow_set`: partial correctness, termination, exactness -/

namespace Syntaxis
open Grammar

/-- the inner loop body of `follow_set` for one occurrence `nt item :: rest` -/
theorem followItems_nt_ok {F : FirstMap} {left item : Nat} {rest : List Item} {st st' : FollowState}
    (h : followItems F left (.nt item :: rest) st = .ok st') :
    ∃ s t st1, st.result.get left = some s ∧ st.result.get item = some t ∧
      st1.result = st.result.insert item
        (t ∪ firstOf F rest ∪ (if epsOf F rest = true then s else ∅)) ∧
      (st1.modified = false ↔ st.modified = false ∧ firstOf F rest ⊆ t ∧
        (epsOf F rest = true → s ⊆ t)) ∧
      followItems F left rest st1 = .ok st' := by
  simp only [followItems, bind_eq_ok, unwrap_eq_ok, insertAll] at h
  obtain ⟨f, hf, s, hs, t, ht, h⟩ := h
  have := getFirstForString_ok hf
  subst this
  refine ⟨s, t, _, hs, ht, ?_, ?_, h⟩
  · simp only
    cases epsOf F rest <;> simp
  · simp only
    cases epsOf F rest
    · simp [and_comm]
    · have e : ∀ a b : Finset Nat, (decide (¬ a ⊆ b) = false) ↔ a ⊆ b := fun a b => by simp
      simp only [if_true, Bool.or_eq_false_iff, forall_const, e]
      constructor
      · rintro ⟨h1, h2, h3⟩
        have h1 := not_not.1 (of_decide_eq_false h1)
        refine ⟨h3, h2, h1.trans ?_⟩
        exact Finset.union_subset (Finset.Subset.refl t) h2
      · rintro ⟨h1, h2, h3⟩
        exact ⟨decide_eq_false (not_not.2 (h3.trans Finset.subset_union_left)), h2, h1⟩

/-- invariant of `follow_set` -/
structure WInv (ids : List Nat) (ord : List Production) (st : FollowState) : Prop where
  dom : ∀ A, (∃ c, st.result.get A = some c) ↔ A ∈ ids
  flw : ∀ A s t, st.result.get A = some s → t ∈ s → Flw ord t A

/-- `rest` is what follows `item` in the production `p` -/
def Occ (p : Production) (item : Nat) (rest : List Item) : Prop := ∃ u, p.right = u ++ Item.nt item :: rest

/-- fixed point condition -/
def WClosed (F : FirstMap) (st : FollowState) (p : Production) (item : Nat) (rest : List Item) : Prop :=
  ∃ s t, st.result.get p.left = some s ∧ st.result.get item = some t ∧
    firstOf F rest ⊆ t ∧ (epsOf F rest = true → s ⊆ t)

theorem WClosed.congr {F : FirstMap} {st st' : FollowState} {p item rest}
    (h : ∀ A, st.result.get A = st'.result.get A) (hc : WClosed F st p item rest) :
    WClosed F st' p item rest := by
  obtain ⟨s, t, h1, h2, h3⟩ := hc
  exact ⟨s, t, by rw [← h, h1], by rw [← h, h2], h3⟩

/-- a recorded pair -/
def followHolds (st : FollowState) (f : Nat × Nat) : Bool := decide (f.2 ∈ (st.result.get f.1).getD ∅)

/-- the finite universe of pairs -/
def fwUniverse (ids : List Nat) (ord : List Production) : Finset (Nat × Nat) :=
  ids.toFinset ×ˢ (insert 1 (termsOf ord))

theorem Flw.mem_terms {P : List Production} {t B : Nat} (h : Flw P t B) : t ∈ insert 1 (termsOf P) := by
  induction h with
  | stop h => simp [h]
  | first p hp u v B hr hf =>
    rcases hf.mem_terms with h | h
    · exact Finset.mem_insert_of_mem h
    · exact Finset.mem_insert_of_mem (mem_termsOf.2 ⟨p, hp, by rw [hr]; simp [h]⟩)
  | follow p hp u v B hr _ _ ih => exact ih

section
variable {ids : List Nat} {ord : List Production} {F : FirstMap}

theorem followItems_all (h1 : ∀ r, epsOf F r = true → Nul ord r) (h2 : ∀ t r, t ∈ firstOf F r → Fst ord t r)
    {p : Production} (hp : p ∈ ord) {suf : List Item} {st st' : FollowState}
    (hsuf : ∃ u, p.right = u ++ suf)
    (hi : WInv ids ord st) (h : followItems F p.left suf st = .ok st') :
    WInv ids ord st' ∧
    (∀ f, followHolds st f = true → followHolds st' f = true) ∧
    (st.modified = false → st'.modified = true →
      ∃ f ∈ fwUniverse ids ord, followHolds st f = false ∧ followHolds st' f = true) ∧
    (st'.modified = false → st.modified = false ∧ (∀ A, st.result.get A = st'.result.get A) ∧
      ∀ u item rest, suf = u ++ Item.nt item :: rest → WClosed F st' p item rest) ∧
    (∀ B, Item.nt B ∈ suf → B ∈ ids) := by
  induction suf generalizing st with
  | nil =>
    cases h
    refine ⟨hi, fun _ h => h, fun a b => ?_, fun h => ⟨h, fun _ => rfl, fun u _ _ h => ?_⟩, ?_⟩
    · rw [a] at b; cases b
    · cases u <;> cases h
    · simp
  | cons x suf ih =>
    have hsuf' : ∃ u, p.right = u ++ suf := by
      obtain ⟨u, hu⟩ := hsuf
      exact ⟨u ++ [x], by simp [hu]⟩
    cases x with
    | t a =>
      obtain ⟨a1, a2, a3, a4, a5⟩ := ih hsuf' hi h
      refine ⟨a1, a2, a3, fun hm => ⟨(a4 hm).1, (a4 hm).2.1, ?_⟩, ?_⟩
      · intro u item rest hu
        cases u with
        | nil => simp at hu
        | cons y u =>
          simp only [List.cons_append, List.cons.injEq] at hu
          exact (a4 hm).2.2 u item rest hu.2
      · intro B hB
        simp only [List.mem_cons, reduceCtorEq, false_or] at hB
        exact a5 B hB
    | nt item =>
      obtain ⟨s, t, st1, hs, ht, hres, hmod, h⟩ := followItems_nt_ok h
      obtain ⟨u0, hu0⟩ := hsuf
      have hnew : ∀ x, x ∈ t ∪ firstOf F suf ∪ (if epsOf F suf = true then s else ∅) → Flw ord x item := by
        intro x hx
        simp only [Finset.mem_union] at hx
        rcases hx with (hx | hx) | hx
        · exact hi.flw item t x ht hx
        · exact Flw.first p hp u0 suf item hu0 (h2 x suf hx)
        · split at hx
          · rename_i he
            exact Flw.follow p hp u0 suf item hu0 (h1 suf he) (hi.flw p.left s x hs hx)
          · simp at hx
      have hi1 : WInv ids ord st1 := by
        constructor
        · intro A
          rw [hres, ← hi.dom A, HMap.get_insert]
          by_cases hA : item = A
          · subst hA; simp [ht]
          · simp [hA]
        · intro A c x hA hx
          rw [hres, HMap.get_insert] at hA
          by_cases hiA : item = A
          · subst hiA
            simp only [if_true, Option.some.injEq] at hA
            subst hA
            exact hnew x hx
          · simp only [hiA, if_false] at hA
            exact hi.flw A c x hA hx
      have b1 : ∀ f, followHolds st f = true → followHolds st1 f = true := by
        rintro ⟨A, x⟩ hf
        simp only [followHolds, decide_eq_true_eq, hres, HMap.get_insert] at hf ⊢
        by_cases hA : item = A
        · subst hA
          simp only [ht, Option.getD_some, if_true, Finset.mem_union] at hf ⊢
          exact Or.inl (Or.inl hf)
        · simpa [hA] using hf
      have hitem : item ∈ ids := (hi.dom _).1 ⟨t, ht⟩
      obtain ⟨a1, a2, a3, a4, a5⟩ := ih hsuf' hi1 h
      refine ⟨a1, fun f hf => a2 f (b1 f hf), fun hm hm' => ?_, fun hm => ?_, ?_⟩
      · cases hm1 : st1.modified
        · obtain ⟨f, hf, hf1, hf2⟩ := a3 hm1 hm'
          refine ⟨f, hf, ?_, hf2⟩
          by_contra hc
          simp only [Bool.not_eq_false] at hc
          rw [b1 f hc] at hf1; cases hf1
        · have : ∃ x, x ∉ t ∧ x ∈ t ∪ firstOf F suf ∪ (if epsOf F suf = true then s else ∅) := by
            by_contra hc
            push Not at hc
            have : st1.modified = false := by
              rw [hmod]
              refine ⟨hm, ?_, ?_⟩
              · intro x hx
                by_contra hxt
                exact hc x hxt (by simp [hx])
              · intro he x hx
                by_contra hxt
                exact hc x hxt (by simp [he, hx])
            rw [this] at hm1; cases hm1
          obtain ⟨x, hx1, hx2⟩ := this
          refine ⟨(item, x), ?_, ?_, a2 _ ?_⟩
          · simp only [fwUniverse, Finset.mem_product, List.mem_toFinset]
            exact ⟨hitem, (hnew x hx2).mem_terms⟩
          · simp [followHolds, ht, hx1]
          · simp only [followHolds, hres, HMap.get_insert_self, Option.getD_some,
              decide_eq_true_eq]
            exact hx2
      · obtain ⟨c1, c2, c3⟩ := a4 hm
        obtain ⟨d1, d2, d3⟩ := hmod.1 c1
        have e : t ∪ firstOf F suf ∪ (if epsOf F suf = true then s else ∅) = t := by
          rw [Finset.union_eq_left.2 d2]
          split
          · rename_i he; exact Finset.union_eq_left.2 (d3 he)
          · simp
        have hg : ∀ A, st.result.get A = st1.result.get A := by
          intro A; rw [hres, e, HMap_ext_get ht]
        have hg' : ∀ A, st.result.get A = st'.result.get A := fun A => (hg A).trans (c2 A)
        refine ⟨d1, hg', ?_⟩
        intro u it rest hu
        cases u with
        | nil =>
          simp only [List.nil_append, List.cons.injEq, Item.nt.injEq] at hu
          obtain ⟨rfl, rfl⟩ := hu
          exact WClosed.congr hg' ⟨s, t, hs, ht, d2, d3⟩
        | cons y u =>
          simp only [List.cons_append, List.cons.injEq] at hu
          exact c3 u it rest hu.2
      · intro B hB
        simp only [List.mem_cons, Item.nt.injEq] at hB
        rcases hB with rfl | hB
        · exact hitem
        · exact a5 B hB

theorem followPass_all (h1 : ∀ r, epsOf F r = true → Nul ord r) (h2 : ∀ t r, t ∈ firstOf F r → Fst ord t r)
    {ps : List Production} (hps : ∀ p ∈ ps, p ∈ ord) {st st' : FollowState}
    (hi : WInv ids ord st) (h : followPass F ps st = .ok st') :
    WInv ids ord st' ∧
    (∀ f, followHolds st f = true → followHolds st' f = true) ∧
    (st.modified = false → st'.modified = true →
      ∃ f ∈ fwUniverse ids ord, followHolds st f = false ∧ followHolds st' f = true) ∧
    (st'.modified = false → st.modified = false ∧ (∀ A, st.result.get A = st'.result.get A) ∧
      ∀ p ∈ ps, ∀ item rest, Occ p item rest → WClosed F st' p item rest) ∧
    (∀ p ∈ ps, ∀ B, Item.nt B ∈ p.right → B ∈ ids) := by
  induction ps generalizing st with
  | nil =>
    cases h
    refine ⟨hi, fun _ h => h, fun a b => ?_, fun h => ⟨h, fun _ => rfl, ?_⟩, ?_⟩
    · rw [a] at b; cases b
    · simp
    · simp
  | cons p ps ih =>
    simp only [followPass, bind_eq_ok] at h
    obtain ⟨st1, hb, h⟩ := h
    obtain ⟨b1, b2, b3, b4, b5⟩ := followItems_all h1 h2 (hps p (by simp)) ⟨[], rfl⟩ hi hb
    obtain ⟨a1, a2, a3, a4, a5⟩ := ih (fun q hq => hps q (by simp [hq])) b1 h
    refine ⟨a1, fun f hf => a2 f (b2 f hf), fun hm hm' => ?_, fun hm => ?_, ?_⟩
    · cases hm1 : st1.modified
      · obtain ⟨f, hf, hf1, hf2⟩ := a3 hm1 hm'
        refine ⟨f, hf, ?_, hf2⟩
        by_contra hc
        simp only [Bool.not_eq_false] at hc
        rw [b2 f hc] at hf1; cases hf1
      · obtain ⟨f, hf, hf1, hf2⟩ := b3 hm hm1
        exact ⟨f, hf, hf1, a2 f hf2⟩
    · obtain ⟨c1, c2, c3⟩ := a4 hm
      obtain ⟨d1, d2, d3⟩ := b4 c1
      refine ⟨d1, fun A => (d2 A).trans (c2 A), ?_⟩
      intro q hq item rest ho
      simp only [List.mem_cons] at hq
      rcases hq with rfl | hq
      · obtain ⟨u, hu⟩ := ho
        exact WClosed.congr c2 (d3 u item rest hu)
      · exact c3 q hq item rest ho
    · intro q hq
      simp only [List.mem_cons] at hq
      rcases hq with rfl | hq
      · exact b5
      · exact a5 q hq

theorem followPass_ne_fuel {ps : List Production} {st : FollowState} :
    followPass F ps st ≠ .error .fuel := by
  induction ps generalizing st with
  | nil => simp [followPass]
  | cons p ps ih =>
    refine bind_ne_fuel ?_ fun st1 _ => ih
    generalize p.right = r
    generalize p.left = l
    induction r generalizing st with
    | nil => simp [followItems]
    | cons x r ih2 =>
      cases x with
      | t a => exact ih2
      | nt A =>
        refine bind_ne_fuel getFirstForString_ne_fuel fun f _ => ?_
        refine bind_ne_fuel unwrap_ne_fuel fun s _ => ?_
        refine bind_ne_fuel unwrap_ne_fuel fun t _ => ?_
        exact ih2

theorem followItems_total {left : Nat} {suf : List Item} {st : FollowState}
    (hd : ∀ A, A ∈ ids → ∃ c, st.result.get A = some c) (hF : ∀ A, A ∈ ids → ∃ c, F.get A = some c)
    (hl : left ∈ ids) (hs : ∀ B, Item.nt B ∈ suf → B ∈ ids) :
    ∃ st', followItems F left suf st = .ok st' := by
  induction suf generalizing st with
  | nil => exact ⟨_, rfl⟩
  | cons x suf ih =>
    cases x with
    | t a => exact ih hd (fun B hB => hs B (by simp [hB]))
    | nt A =>
      obtain ⟨s, hs'⟩ := hd left hl
      obtain ⟨t, ht⟩ := hd A (hs A (by simp))
      have hk : Known F suf := fun B hB => hF B (hs B (by simp [hB]))
      simp only [followItems, getFirstForString_total hk, hs', ht, unwrap_some, bind_ok]
      apply ih
      · intro B hB
        simp only [HMap.get_insert]
        split
        · exact ⟨_, rfl⟩
        · exact hd B hB
      · exact fun B hB => hs B (by simp [hB])

theorem followPass_total (h1 : ∀ r, epsOf F r = true → Nul ord r)
    (h2 : ∀ t r, t ∈ firstOf F r → Fst ord t r) {ps : List Production} (hps : ∀ p ∈ ps, p ∈ ord)
    {st : FollowState} (hi : WInv ids ord st) (hF : ∀ A, A ∈ ids → ∃ c, F.get A = some c)
    (hclosed : ∀ p ∈ ord, p.left ∈ ids ∧ ∀ B, Item.nt B ∈ p.right → B ∈ ids) :
    ∃ st', followPass F ps st = .ok st' := by
  induction ps generalizing st with
  | nil => exact ⟨_, rfl⟩
  | cons p ps ih =>
    have hp := hps p (by simp)
    obtain ⟨st1, hb⟩ := followItems_total (st := st) (fun A hA => (hi.dom A).2 hA) hF
      (hclosed p hp).1 (hclosed p hp).2
    have hi1 := (followItems_all h1 h2 hp ⟨[], rfl⟩ hi hb).1
    obtain ⟨st2, h2'⟩ := ih (fun q hq => hps q (by simp [hq])) hi1
    exact ⟨st2, by simp only [followPass, hb, bind_ok, h2']⟩

theorem WInv_init (h0 : 0 ∈ ids) (m : Bool) :
    WInv ids ord { result := (initMap ids ∅).insert 0 (insert 1 ∅), modified := m } := by
  constructor
  · intro A
    simp only [HMap.get_insert, initMap_get]
    by_cases hA : 0 = A
    · subst hA; simp [h0]
    · simp [hA]
  · intro A s t hA ht
    simp only [HMap.get_insert, initMap_get] at hA
    by_cases hA0 : 0 = A
    · subst hA0
      simp only [if_true, Option.some.injEq] at hA
      subst hA
      simp only [insert_empty_eq, Finset.mem_singleton] at ht
      exact Flw.stop ht
    · simp only [hA0, if_false] at hA
      split at hA
      · cases hA; simp at ht
      · cases hA

/-- what `follow_set` does before its loop -/
theorem followSet_eq (h0 : 0 ∈ ids) (fuel : Nat) :
    followSet ids ord F fuel = (do
      let st ← followLoop F ord fuel
        { result := (initMap ids ∅).insert 0 (insert 1 ∅), modified := true }
      .ok st.result) := by
  simp only [followSet, initMap_get, h0, if_true, unwrap_some, bind_ok]

theorem followSet_zero (h0 : 0 ∉ ids) (fuel : Nat) :
    followSet ids ord F fuel = .error .panic := by
  simp only [followSet, initMap_get, h0, if_false, unwrap_none, bind_error]

theorem followSet_halts (h1 : ∀ r, epsOf F r = true → Nul ord r)
    (h2 : ∀ t r, t ∈ firstOf F r → Fst ord t r) :
    ∃ n r, r ≠ .error .fuel ∧ ∀ fuel, n ≤ fuel → followSet ids ord F fuel = r := by
  by_cases h0 : 0 ∈ ids
  swap
  · exact ⟨0, .error .panic, by simp, fun fuel _ => followSet_zero h0 fuel⟩
  obtain ⟨n, h⟩ := whileLoop_halts (cond := fun st : FollowState => st.modified)
    (body := fun st : FollowState => followPass F ord { st with modified := false }) (WInv ids ord)
    (fun st => ((fwUniverse ids ord).filter fun f => followHolds st f = true).card)
    (fwUniverse ids ord).card
    (fun st _ => followPass_ne_fuel)
    (by
      intro st st' hi h
      have hi' : WInv ids ord { st with modified := false } := ⟨hi.dom, hi.flw⟩
      obtain ⟨f0, f1, f2, _⟩ := followPass_all h1 h2 (fun p hp => hp) hi' h
      refine ⟨f0, fun hm => ?_⟩
      obtain ⟨f, hf, hf1, hf2⟩ := f2 rfl hm
      apply Finset.card_lt_card
      rw [Finset.ssubset_iff_of_subset]
      · refine ⟨f, Finset.mem_filter.2 ⟨hf, hf2⟩, fun hc => ?_⟩
        have := (Finset.mem_filter.1 hc).2
        have e : followHolds { st with modified := false } f = followHolds st f := rfl
        rw [← e, hf1] at this; cases this
      · intro g hg
        have hg := Finset.mem_filter.1 hg
        exact Finset.mem_filter.2 ⟨hg.1, f1 g hg.2⟩)
    (fun st _ => Finset.card_le_card (Finset.filter_subset _ _))
    { result := (initMap ids ∅).insert 0 (insert 1 ∅), modified := true }
    (WInv_init h0 true)
  refine ⟨n, followSet ids ord F n, ?_, fun fuel hf => ?_⟩
  · rw [followSet_eq h0]
    exact bind_ne_fuel h fun _ _ => by simp
  · have := whileLoop_mono rfl h hf
    simp only [followSet_eq h0, followLoop, this]

/-- what a returning `follow_set` satisfies -/
structure FollowFix (ids : List Nat) (ord : List Production) (F : FirstMap) (W : FollowMap) : Prop where
  dom : ∀ A, (∃ c, W.get A = some c) ↔ A ∈ ids
  flw : ∀ A s t, W.get A = some s → t ∈ s → Flw ord t A
  closed : ∀ p ∈ ord, ∀ item rest, Occ p item rest → ∃ s t, W.get p.left = some s ∧
    W.get item = some t ∧ firstOf F rest ⊆ t ∧ (epsOf F rest = true → s ⊆ t)
  zero : ∃ s, W.get 0 = some s ∧ 1 ∈ s
  known : ∀ p ∈ ord, ∀ B, Item.nt B ∈ p.right → B ∈ ids

theorem followSet_fix (h1 : ∀ r, epsOf F r = true → Nul ord r)
    (h2 : ∀ t r, t ∈ firstOf F r → Fst ord t r) {fuel : Nat} {W : FollowMap}
    (h : followSet ids ord F fuel = .ok W) : FollowFix ids ord F W := by
  have h0 : 0 ∈ ids := by
    by_contra h0
    rw [followSet_zero h0] at h; cases h
  rw [followSet_eq h0, bind_eq_ok] at h
  obtain ⟨st, hst, hW⟩ := h
  cases hW
  have hbody : ∀ st st' : FollowState, (WInv ids ord st ∧ followHolds st (0, 1) = true) →
      followPass F ord { st with modified := false } = .ok st' →
      WInv ids ord st' ∧ followHolds st' (0, 1) = true := by
    intro st st' hi hb
    obtain ⟨c1, c2, _⟩ := followPass_all h1 h2 (fun p hp => hp) (st := { st with modified := false })
      ⟨hi.1.dom, hi.1.flw⟩ hb
    exact ⟨c1, c2 _ hi.2⟩
  obtain ⟨⟨g1, g2⟩, g3, g4⟩ := whileLoop_inv (cond := fun st : FollowState => st.modified)
    (body := fun st : FollowState => followPass F ord { st with modified := false })
    (fun st => WInv ids ord st ∧ followHolds st (0, 1) = true) hbody hst
    ⟨WInv_init h0 true, by simp [followHolds]⟩
  obtain ⟨st0, hi0, hb⟩ := g4 rfl
  obtain ⟨_, _, _, d4, d5⟩ := followPass_all h1 h2 (fun p hp => hp)
    (st := { st0 with modified := false }) ⟨hi0.1.dom, hi0.1.flw⟩ hb
  refine ⟨g1.dom, g1.flw, (d4 g3).2.2, ?_, d5⟩
  obtain ⟨s, hs⟩ := (g1.dom 0).2 h0
  refine ⟨s, hs, ?_⟩
  simpa [followHolds, hs] using g2

theorem followSet_total (h1 : ∀ r, epsOf F r = true → Nul ord r)
    (h2 : ∀ t r, t ∈ firstOf F r → Fst ord t r) (hF : ∀ A, A ∈ ids → ∃ c, F.get A = some c)
    (hclosed : ∀ p ∈ ord, p.left ∈ ids ∧ ∀ B, Item.nt B ∈ p.right → B ∈ ids) (h0 : 0 ∈ ids) :
    ∃ n r, ∀ fuel, n ≤ fuel → followSet ids ord F fuel = .ok r := by
  obtain ⟨n, r, hr, h⟩ := followSet_halts (ids := ids) h1 h2
  have hp : followSet ids ord F n ≠ .error .panic := by
    have := whileLoop_no_panic (cond := fun st : FollowState => st.modified)
      (body := fun st : FollowState => followPass F ord { st with modified := false }) (WInv ids ord)
      (by
        intro st hi
        have hi' : WInv ids ord { st with modified := false } := ⟨hi.dom, hi.flw⟩
        obtain ⟨st', h⟩ := followPass_total h1 h2 (ps := ord) (fun p hp => hp) hi' hF hclosed
        exact ⟨st', h, (followPass_all h1 h2 (fun p hp => hp) hi' h).1⟩) n
      { result := (initMap ids ∅).insert 0 (insert 1 ∅), modified := true }
      (WInv_init h0 true)
    rw [followSet_eq h0]
    simp only [followLoop]
    revert this
    cases whileLoop (fun st : FollowState => st.modified) _ n _ with
    | ok a => simp
    | error e => simp
  rw [h n (Nat.le_refl n)] at hp
  match r, hr, hp, h with
  | .ok r, _, _, h => exact ⟨n, r, h⟩
  | .error .panic, _, hp, _ => exact absurd rfl hp
  | .error .fuel, hr, _, _ => exact absurd rfl hr

theorem FollowFix.complete (hf : FollowFix ids ord F W) (h1 : ∀ r, Nul ord r → epsOf F r = true)
    (h2 : ∀ t r, Fst ord t r → t ∈ firstOf F r) {t B : Nat} (h : Flw ord t B) :
    ∃ s, W.get B = some s ∧ t ∈ s := by
  induction h with
  | stop h => subst h; exact hf.zero
  | first p hp u v B hr hfst =>
    obtain ⟨s, t', _, h4, h5, _⟩ := hf.closed p hp B v ⟨u, hr⟩
    exact ⟨t', h4, h5 (h2 _ _ hfst)⟩
  | follow p hp u v B hr hn _ ih =>
    obtain ⟨s, t', h3, h4, _, h6⟩ := hf.closed p hp B v ⟨u, hr⟩
    obtain ⟨s', hs', hts⟩ := ih
    rw [h3] at hs'; cases hs'
    exact ⟨t', h4, h6 (h1 _ hn) hts⟩

theorem followSet_fuel_mono {n m : Nat} {r : FollowMap} (h : followSet ids ord F n = .ok r)
    (hnm : n ≤ m) : followSet ids ord F m = .ok r := by
  simp only [followSet, followLoop, bind_eq_ok] at h ⊢
  obtain ⟨s, hs, st, h, h'⟩ := h
  exact ⟨s, hs, st, whileLoop_mono h (by simp) hnm, h'⟩

end

end Syntaxis
