import Verif.Lemmas.Cfg
import Verif.Lemmas.While
import Mathlib.Data.Finset.Prod
import Mathlib.Data.Finset.Image
import Mathlib.Data.Finset.Sum

/-! # `first_set`: partial correctness, termination, exactness -/

namespace Syntaxis
open Grammar

/-! ## pure readings of the inner loops -/

/-- lookup with a default -/
def colOf (F : FirstMap) (A : Nat) : Collection := (F.get A).getD ⟨false, ∅⟩

/-- nullability of a string relative to the current map -/
def epsOf (F : FirstMap) : List Item → Bool
  | [] => true
  | .nt A :: rest => (colOf F A).allowEpsilon && epsOf F rest
  | .t _ :: _ => false

/-- FIRST of a string relative to the current map -/
def firstOf (F : FirstMap) : List Item → Finset Nat
  | [] => ∅
  | .nt A :: rest => (colOf F A).set ∪ (if (colOf F A).allowEpsilon then firstOf F rest else ∅)
  | .t a :: _ => {a}

theorem colOf_eq {F : FirstMap} {A : Nat} {c : Collection} (h : F.get A = some c) : colOf F A = c := by
  simp [colOf, h]

theorem colOf_none {F : FirstMap} {A : Nat} (h : F.get A = none) : colOf F A = ⟨false, ∅⟩ := by
  simp [colOf, h]

theorem rightAllowsEpsilon_ok {F : FirstMap} {r : List Item} {b : Bool}
    (h : rightAllowsEpsilon F r = .ok b) : b = epsOf F r := by
  induction r generalizing b with
  | nil => simpa [rightAllowsEpsilon, epsOf] using h.symm
  | cons x r ih =>
    cases x with
    | t a => simpa [rightAllowsEpsilon, epsOf] using h.symm
    | nt A =>
      simp only [rightAllowsEpsilon, bind_eq_ok, unwrap_eq_ok] at h
      obtain ⟨c, hc, h⟩ := h
      simp only [epsOf, colOf_eq hc]
      cases he : c.allowEpsilon
      · simpa [he] using h.symm
      · simp only [he, Bool.not_true, Bool.false_eq_true, if_false] at h
        simpa using ih h

theorem collectFirst_ok {F : FirstMap} {r : List Item} {s s' : Finset Nat} {m m' : Bool}
    (h : collectFirst F r s m = .ok (s', m')) :
    s' = s ∪ firstOf F r ∧ m' = (decide (¬ firstOf F r ⊆ s) || m) := by
  induction r generalizing s m with
  | nil =>
    simp only [collectFirst, Except.ok.injEq, Prod.mk.injEq] at h
    simp [firstOf, ← h.1, ← h.2]
  | cons x r ih =>
    cases x with
    | t a =>
      simp only [collectFirst, Except.ok.injEq, Prod.mk.injEq] at h
      obtain ⟨rfl, rfl⟩ := h
      simp [firstOf, Finset.union_comm s]
    | nt A =>
      simp only [collectFirst, bind_eq_ok, unwrap_eq_ok, insertAll] at h
      obtain ⟨c, hc, h⟩ := h
      simp only [firstOf, colOf_eq hc]
      cases he : c.allowEpsilon
      · simp only [he, Bool.not_false, if_true, Except.ok.injEq, Prod.mk.injEq] at h
        obtain ⟨rfl, rfl⟩ := h
        simp
      · simp only [he, Bool.not_true, Bool.false_eq_true, if_false] at h
        obtain ⟨h1, h2⟩ := ih h
        subst h1 h2
        simp only [if_true, Finset.union_assoc, true_and]
        rw [← Bool.or_assoc]
        congr 1
        rw [Bool.eq_iff_iff]
        simp only [decide_eq_true_eq, Bool.or_eq_true, Finset.union_subset_iff]
        constructor
        · rintro (h | h)
          · intro h'; exact h (h'.2.trans Finset.subset_union_left)
          · intro h'; exact h h'.1
        · intro h
          by_cases hs : c.set ⊆ s
          · left
            intro h'
            apply h
            refine ⟨hs, h'.trans ?_⟩
            exact Finset.union_subset (Finset.Subset.refl s) hs
          · exact Or.inr hs

theorem getFirstForStringLoop_ok {F : FirstMap} {r : List Item} {acc c : Collection}
    (h : getFirstForStringLoop F r acc = .ok c) :
    c.set = acc.set ∪ firstOf F r ∧ c.allowEpsilon = (acc.allowEpsilon && epsOf F r) := by
  induction r generalizing acc with
  | nil =>
    simp only [getFirstForStringLoop, Except.ok.injEq] at h
    subst h; simp [firstOf, epsOf]
  | cons x r ih =>
    cases x with
    | t a =>
      simp only [getFirstForStringLoop, Except.ok.injEq] at h
      subst h; simp [firstOf, epsOf, Finset.union_comm acc.set]
    | nt A =>
      simp only [getFirstForStringLoop, bind_eq_ok, unwrap_eq_ok, insertAll] at h
      obtain ⟨d, hd, h⟩ := h
      simp only [firstOf, epsOf, colOf_eq hd]
      cases he : d.allowEpsilon
      · simp only [he, Bool.not_false, if_true, Except.ok.injEq] at h
        subst h; simp
      · simp only [he, Bool.not_true, Bool.false_eq_true, if_false] at h
        obtain ⟨h1, h2⟩ := ih h
        rw [h1, h2]
        simp [Finset.union_assoc]

theorem getFirstForString_ok {F : FirstMap} {r : List Item} {c : Collection}
    (h : getFirstForString r F = .ok c) : c = ⟨epsOf F r, firstOf F r⟩ := by
  obtain ⟨h1, h2⟩ := getFirstForStringLoop_ok h
  cases c
  simp_all

/-- all nonterminals of a string are keys of the map -/
def Known {ν : Type _} (F : HMap Nat ν) (r : List Item) : Prop := ∀ B, Item.nt B ∈ r → ∃ c, F.get B = some c

theorem Known.tail {ν : Type _} {F : HMap Nat ν} {x : Item} {r : List Item} (h : Known F (x :: r)) :
    Known F r := fun B hB => h B (List.mem_cons_of_mem _ hB)

theorem rightAllowsEpsilon_total {F : FirstMap} {r : List Item} (h : Known F r) :
    rightAllowsEpsilon F r = .ok (epsOf F r) := by
  have : ∃ b, rightAllowsEpsilon F r = .ok b := by
    induction r with
    | nil => exact ⟨_, rfl⟩
    | cons x r ih =>
      cases x with
      | t a => exact ⟨_, rfl⟩
      | nt A =>
        obtain ⟨c, hc⟩ := h A (by simp)
        simp only [rightAllowsEpsilon, hc, unwrap_some, bind_ok]
        split
        · exact ⟨_, rfl⟩
        · exact ih h.tail
  obtain ⟨b, hb⟩ := this
  rw [hb, rightAllowsEpsilon_ok hb]

theorem collectFirst_total {F : FirstMap} {r : List Item} (h : Known F r) (s : Finset Nat) (m : Bool) :
    ∃ x, collectFirst F r s m = .ok x := by
  induction r generalizing s m with
  | nil => exact ⟨_, rfl⟩
  | cons x r ih =>
    cases x with
    | t a => exact ⟨_, rfl⟩
    | nt A =>
      obtain ⟨c, hc⟩ := h A (by simp)
      simp only [collectFirst, hc, unwrap_some, bind_ok]
      split
      · exact ⟨_, rfl⟩
      · exact ih h.tail _ _

theorem getFirstForString_total {F : FirstMap} {r : List Item} (h : Known F r) :
    getFirstForString r F = .ok ⟨epsOf F r, firstOf F r⟩ := by
  have : ∀ acc, ∃ c, getFirstForStringLoop F r acc = .ok c := by
    induction r with
    | nil => exact fun _ => ⟨_, rfl⟩
    | cons x r ih =>
      intro acc
      cases x with
      | t a => exact ⟨_, rfl⟩
      | nt A =>
        obtain ⟨c, hc⟩ := h A (by simp)
        simp only [getFirstForStringLoop, hc, unwrap_some, bind_ok]
        split
        · exact ⟨_, rfl⟩
        · exact ih h.tail _
  obtain ⟨c, hc⟩ := this ⟨true, ∅⟩
  rw [getFirstForString_ok hc] at hc
  exact hc

/-! ## one step -/

/-- what one successful iteration of the production loop does -/
theorem firstStep_ok {st st' : FirstState} {p : Production} (h : firstStep st p = .ok st') :
    ∃ t r, st.cache.get p = some t ∧ st.result.get p.left = some r ∧
      st'.cache = st.cache.insert p ⟨epsOf st.result p.right, t.set ∪ firstOf st.result p.right⟩ ∧
      st'.result = st.result.insert p.left
        ⟨r.allowEpsilon || epsOf st.result p.right,
          r.set ∪ (t.set ∪ firstOf st.result p.right)⟩ ∧
      (st'.modified = false ↔ st.modified = false ∧
        t.allowEpsilon = epsOf st.result p.right ∧ firstOf st.result p.right ⊆ t.set ∧
        (epsOf st.result p.right = true → r.allowEpsilon = true) ∧ t.set ⊆ r.set) := by
  simp only [firstStep, getFirstSetForNonEpsilonRule, bind_eq_ok, unwrap_eq_ok] at h
  obtain ⟨t, ht, ⟨⟨t', m⟩, h⟩⟩ := h
  obtain ⟨⟨b, hb, ⟨s', m'⟩, hs, h1⟩, r, hr, h2⟩ := h
  simp only [Except.ok.injEq, Prod.mk.injEq] at h1
  obtain ⟨rfl, rfl⟩ := h1
  have hb' := rightAllowsEpsilon_ok hb
  obtain ⟨hs1, hs2⟩ := collectFirst_ok hs
  subst hb'
  refine ⟨t, r, ht, hr, ?_⟩
  generalize epsOf st.result p.right = e at *
  generalize firstOf st.result p.right = f at *
  subst hs1 hs2
  simp only [insertAll, Except.ok.injEq] at h2
  subst h2
  refine ⟨rfl, ?_, ?_⟩
  · cases e <;> cases hre : r.allowEpsilon <;> simp
  · have hsub : (t.set ∪ f ⊆ r.set ∧ f ⊆ t.set) ↔ (f ⊆ t.set ∧ t.set ⊆ r.set) := by
      constructor
      · rintro ⟨h1, h2⟩; exact ⟨h2, Finset.subset_union_left.trans h1⟩
      · rintro ⟨h1, h2⟩; exact ⟨Finset.union_subset h2 (h1.trans h2), h1⟩
    cases e <;> cases hre : r.allowEpsilon <;> cases hte : t.allowEpsilon <;>
      simp <;> tauto

/-- on closed grammars a step never panics -/
theorem firstStep_total {st : FirstState} {p : Production}
    (hc : ∃ t, st.cache.get p = some t) (hl : ∃ r, st.result.get p.left = some r)
    (hk : Known st.result p.right) : ∃ st', firstStep st p = .ok st' := by
  obtain ⟨t, ht⟩ := hc
  obtain ⟨r, hr⟩ := hl
  obtain ⟨x, hx⟩ := collectFirst_total hk t.set (t.allowEpsilon != epsOf st.result p.right)
  simp only [firstStep, getFirstSetForNonEpsilonRule, ht, hr, unwrap_some, bind_ok,
    rightAllowsEpsilon_total hk, hx]
  split <;> exact ⟨_, rfl⟩

/-! ## initial maps -/

theorem initMap_get {ν : Type} (ids : List Nat) (v : ν) (i : Nat) :
    (initMap ids v).get i = if i ∈ ids then some v else none := by
  have : ∀ (ids : List Nat) (m : HMap Nat ν),
      (ids.foldl (fun m id => m.insert id v) m).get i = if i ∈ ids then some v else m.get i := by
    intro ids
    induction ids with
    | nil => intro m; simp
    | cons a ids ih =>
      intro m
      simp only [List.foldl_cons, ih, HMap.get_insert, List.mem_cons]
      by_cases h1 : i ∈ ids
      · simp [h1]
      · by_cases h2 : a = i
        · simp [h2]
        · simp [h1, h2, Ne.symm h2]
  exact this ids .empty

theorem initCache_get (ord : List Production) (p : Production) :
    (initCache ord).get p = if p ∈ ord then some ⟨false, ∅⟩ else none := by
  have : ∀ (ord : List Production) (m : ProdFirstMap),
      (ord.foldl (fun m p => m.insert p ⟨false, ∅⟩) m).get p =
        if p ∈ ord then some ⟨false, ∅⟩ else m.get p := by
    intro ord
    induction ord with
    | nil => intro m; simp
    | cons a ord ih =>
      intro m
      simp only [List.foldl_cons, ih, HMap.get_insert, List.mem_cons]
      by_cases h1 : p ∈ ord
      · simp [h1]
      · by_cases h2 : a = p
        · simp [h2]
        · simp [h1, h2, Ne.symm h2]
  exact this ord .empty

/-! ## invariants -/

/-- domains of the maps, soundness of their contents, and `cache` lags behind `result` -/
structure FInv (ids : List Nat) (ord : List Production) (st : FirstState) : Prop where
  dom : ∀ A, (∃ c, st.result.get A = some c) ↔ A ∈ ids
  cdom : ∀ p, (∃ c, st.cache.get p = some c) ↔ p ∈ ord
  eps : ∀ A c, st.result.get A = some c → c.allowEpsilon = true → Nul ord [Item.nt A]
  fst : ∀ A c t, st.result.get A = some c → t ∈ c.set → Fst ord t [Item.nt A]
  ceps : ∀ p c, st.cache.get p = some c → c.allowEpsilon = true → epsOf st.result p.right = true
  cfst : ∀ p c t, st.cache.get p = some c → t ∈ c.set → Fst ord t p.right

theorem epsOf_sound {P : List Production} {F : FirstMap}
    (h : ∀ A c, F.get A = some c → c.allowEpsilon = true → Nul P [Item.nt A]) {r : List Item}
    (hr : epsOf F r = true) : Nul P r := by
  induction r with
  | nil => exact Nul.nil
  | cons x r ih =>
    cases x with
    | t a => simp [epsOf] at hr
    | nt A =>
      simp only [epsOf, Bool.and_eq_true] at hr
      refine nul_cons.2 ⟨?_, ih hr.2⟩
      cases hA : F.get A with
      | none => rw [colOf_none hA] at hr; simp at hr
      | some c => rw [colOf_eq hA] at hr; exact h A c hA hr.1

theorem firstOf_sound {P : List Production} {F : FirstMap}
    (h : ∀ A c, F.get A = some c → c.allowEpsilon = true → Nul P [Item.nt A])
    (h' : ∀ A c t, F.get A = some c → t ∈ c.set → Fst P t [Item.nt A]) {r : List Item} {t : Nat}
    (hr : t ∈ firstOf F r) : Fst P t r := by
  induction r with
  | nil => simp [firstOf] at hr
  | cons x r ih =>
    cases x with
    | t a => simp only [firstOf, Finset.mem_singleton] at hr; subst hr; exact Fst.here _
    | nt A =>
      simp only [firstOf, Finset.mem_union] at hr
      rcases hr with hr | hr
      · cases hA : F.get A with
        | none => rw [colOf_none hA] at hr; simp at hr
        | some c =>
          rw [colOf_eq hA] at hr
          have := (h' A c t hA hr).append_right r
          simpa using this
      · split at hr
        · rename_i he
          cases hA : F.get A with
          | none => rw [colOf_none hA] at he; simp at he
          | some c => rw [colOf_eq hA] at he; exact Fst.skip A r (h A c hA he) (ih hr)
        · simp at hr

/-- pointwise growth of a first map -/
def FLe (F F' : FirstMap) : Prop :=
  ∀ A c, F.get A = some c → ∃ c', F'.get A = some c' ∧
    (c.allowEpsilon = true → c'.allowEpsilon = true) ∧ c.set ⊆ c'.set

theorem epsOf_mono {F F' : FirstMap} (h : FLe F F') {r : List Item} (hr : epsOf F r = true) :
    epsOf F' r = true := by
  induction r with
  | nil => rfl
  | cons x r ih =>
    cases x with
    | t a => simp [epsOf] at hr
    | nt A =>
      simp only [epsOf, Bool.and_eq_true] at hr ⊢
      refine ⟨?_, ih hr.2⟩
      cases hA : F.get A with
      | none => rw [colOf_none hA] at hr; simp at hr
      | some c =>
        obtain ⟨c', hc', he, _⟩ := h A c hA
        rw [colOf_eq hA] at hr; rw [colOf_eq hc']; exact he hr.1

theorem firstStep_FLe {st st' : FirstState} {p : Production} (h : firstStep st p = .ok st') :
    FLe st.result st'.result := by
  obtain ⟨t, r, _, hr, _, hres, _⟩ := firstStep_ok h
  intro A c hA
  rw [hres, HMap.get_insert]
  by_cases hp : p.left = A
  · subst hp
    rw [hr] at hA; cases hA
    refine ⟨_, if_pos rfl, ?_, ?_⟩
    · intro he; simp [he]
    · exact Finset.subset_union_left
  · exact ⟨c, by simp [hp, hA], id, Finset.Subset.refl _⟩

theorem firstStep_inv {ids : List Nat} {ord : List Production} {st st' : FirstState} {p : Production}
    (hp : p ∈ ord) (hi : FInv ids ord st) (h : firstStep st p = .ok st') : FInv ids ord st' := by
  have hle := firstStep_FLe h
  obtain ⟨t, r, ht, hr, hcache, hres, _⟩ := firstStep_ok h
  have e1 := @epsOf_sound ord st.result hi.eps p.right
  have e2 := fun t => @firstOf_sound ord st.result hi.eps hi.fst p.right t
  constructor
  · intro A
    rw [hres, ← hi.dom A, HMap.get_insert]
    by_cases hA : p.left = A
    · subst hA; simp [hr]
    · simp [hA]
  · intro q
    rw [hcache, ← hi.cdom q, HMap.get_insert]
    by_cases hA : p = q
    · subst hA; simp [ht]
    · simp [hA]
  · intro A c hA he
    rw [hres, HMap.get_insert] at hA
    by_cases hpA : p.left = A
    · subst hpA
      simp only [if_true, Option.some.injEq] at hA
      subst hA
      simp only [Bool.or_eq_true] at he
      rcases he with he | he
      · exact hi.eps _ r hr he
      · exact Nul.cons p hp [] (e1 he) Nul.nil
    · simp only [hpA, if_false] at hA
      exact hi.eps A c hA he
  · intro A c x hA hx
    rw [hres, HMap.get_insert] at hA
    by_cases hpA : p.left = A
    · subst hpA
      simp only [if_true, Option.some.injEq] at hA
      subst hA
      simp only [Finset.mem_union] at hx
      rcases hx with hx | hx | hx
      · exact hi.fst _ r x hr hx
      · exact Fst.down p hp [] (hi.cfst p t x ht hx)
      · exact Fst.down p hp [] (e2 x hx)
    · simp only [hpA, if_false] at hA
      exact hi.fst A c x hA hx
  · intro q c hq he
    rw [hcache, HMap.get_insert] at hq
    by_cases hpq : p = q
    · subst hpq
      simp only [if_true, Option.some.injEq] at hq
      subst hq
      exact epsOf_mono hle he
    · simp only [hpq, if_false] at hq
      exact epsOf_mono hle (hi.ceps q c hq he)
  · intro q c x hq hx
    rw [hcache, HMap.get_insert] at hq
    by_cases hpq : p = q
    · subst hpq
      simp only [if_true, Option.some.injEq] at hq
      subst hq
      simp only [Finset.mem_union] at hx
      rcases hx with hx | hx
      · exact hi.cfst p t x ht hx
      · exact e2 x hx
    · simp only [hpq, if_false] at hq
      exact hi.cfst q c x hq hx

theorem firstPass_inv {ids : List Nat} {ord ps : List Production} {st st' : FirstState}
    (hps : ∀ p ∈ ps, p ∈ ord) (hi : FInv ids ord st) (h : firstPass ps st = .ok st') :
    FInv ids ord st' := by
  induction ps generalizing st with
  | nil => cases h; exact hi
  | cons p ps ih =>
    simp only [firstPass, bind_eq_ok] at h
    obtain ⟨st1, h1, h2⟩ := h
    exact ih (fun q hq => hps q (by simp [hq])) (firstStep_inv (hps p (by simp)) hi h1) h2

/-- the conditions a fixed point satisfies for one production -/
def FClosed (st : FirstState) (p : Production) : Prop :=
  ∃ t r, st.cache.get p = some t ∧ st.result.get p.left = some r ∧
    t.allowEpsilon = epsOf st.result p.right ∧ t.set = firstOf st.result p.right ∪ t.set ∧
    (epsOf st.result p.right = true → r.allowEpsilon = true) ∧ t.set ⊆ r.set

theorem HMap_ext_get {κ ν : Type _} [DecidableEq κ] {m : HMap κ ν} {k : κ} {v : ν}
    (h : m.get k = some v) (k' : κ) : (m.insert k v).get k' = m.get k' := by
  rw [HMap.get_insert]
  by_cases hk : k = k'
  · subst hk; simp [h]
  · simp [hk]

theorem epsOf_congr {F F' : FirstMap} (h : ∀ A, F.get A = F'.get A) (r : List Item) :
    epsOf F r = epsOf F' r := by
  induction r with
  | nil => rfl
  | cons x r ih => cases x <;> simp [epsOf, colOf, h, ih]

theorem firstOf_congr {F F' : FirstMap} (h : ∀ A, F.get A = F'.get A) (r : List Item) :
    firstOf F r = firstOf F' r := by
  have hc : colOf F = colOf F' := funext fun A => by simp only [colOf, h]
  induction r with
  | nil => rfl
  | cons x r ih =>
    cases x with
    | t a => rfl
    | nt A => simp only [firstOf, hc, ih]

theorem FClosed.congr {st st' : FirstState} {p : Production}
    (h : ∀ A, st.result.get A = st'.result.get A) (h' : ∀ q, st.cache.get q = st'.cache.get q)
    (hc : FClosed st p) : FClosed st' p := by
  obtain ⟨t, r, h1, h2, h3, h4, h5, h6⟩ := hc
  refine ⟨t, r, by rw [← h', h1], by rw [← h, h2], ?_, ?_, ?_, h6⟩
  · rw [← epsOf_congr h]; exact h3
  · rw [← firstOf_congr h]; exact h4
  · rw [← epsOf_congr h]; exact h5

theorem firstStep_unmodified {st st' : FirstState} {p : Production} (h : firstStep st p = .ok st')
    (hm : st'.modified = false) :
    st.modified = false ∧ (∀ A, st.result.get A = st'.result.get A) ∧
      (∀ q, st.cache.get q = st'.cache.get q) ∧ FClosed st p := by
  obtain ⟨t, r, ht, hr, hcache, hres, hmod⟩ := firstStep_ok h
  obtain ⟨m1, m2, m3, m4, m5⟩ := hmod.1 hm
  have e1 : t.set ∪ firstOf st.result p.right = t.set := Finset.union_eq_left.2 m3
  have e2 : (⟨r.allowEpsilon || epsOf st.result p.right,
      r.set ∪ (t.set ∪ firstOf st.result p.right)⟩ : Collection) = r := by
    rw [e1, Finset.union_eq_left.2 m5]
    cases r with
    | mk re rs =>
      cases he : epsOf st.result p.right
      · simp
      · have := m4 he
        simp only at this
        simp [this]
  have e3 : (⟨epsOf st.result p.right, t.set ∪ firstOf st.result p.right⟩ : Collection) = t := by
    rw [e1, ← m2]
  refine ⟨m1, ?_, ?_, t, r, ht, hr, m2, ?_, m4, m5⟩
  · intro A; rw [hres, e2, HMap_ext_get hr]
  · intro q; rw [hcache, e3, HMap_ext_get ht]
  · rw [Finset.union_comm, e1]

theorem firstPass_unmodified {ps : List Production} {st st' : FirstState}
    (h : firstPass ps st = .ok st') (hm : st'.modified = false) :
    st.modified = false ∧ (∀ A, st.result.get A = st'.result.get A) ∧
      (∀ q, st.cache.get q = st'.cache.get q) ∧ ∀ p ∈ ps, FClosed st' p := by
  induction ps generalizing st with
  | nil => cases h; simp [hm]
  | cons p ps ih =>
    simp only [firstPass, bind_eq_ok] at h
    obtain ⟨st1, h1, h2⟩ := h
    obtain ⟨a1, a2, a3, a4⟩ := ih h2
    obtain ⟨b1, b2, b3, b4⟩ := firstStep_unmodified h1 a1
    refine ⟨b1, fun A => (b2 A).trans (a2 A), fun q => (b3 q).trans (a3 q), ?_⟩
    intro q hq
    simp only [List.mem_cons] at hq
    rcases hq with rfl | hq
    · exact b4.congr (fun A => (b2 A).trans (a2 A)) (fun q => (b3 q).trans (a3 q))
    · exact a4 q hq

/-! ## exactness -/

theorem FInv_init (ids : List Nat) (ord : List Production) (m : Bool) :
    FInv ids ord { result := initMap ids ⟨false, ∅⟩, cache := initCache ord, modified := m } := by
  constructor
  · intro A; simp [initMap_get]
  · intro p; simp [initCache_get]
  · intro A c h he
    simp only [initMap_get] at h
    split at h <;> simp_all
    subst h; simp at he
  · intro A c t h ht
    simp only [initMap_get] at h
    split at h <;> simp_all
    subst h; simp at ht
  · intro p c h he
    simp only [initCache_get] at h
    split at h <;> simp_all
    subst h; simp at he
  · intro p c t h ht
    simp only [initCache_get] at h
    split at h <;> simp_all
    subst h; simp at ht

/-- what a returning `first_set` satisfies -/
structure FirstFix (ids : List Nat) (ord : List Production) (st : FirstState) : Prop where
  inv : FInv ids ord st
  closed : ∀ p ∈ ord, FClosed st p

theorem firstSet_fix {ids : List Nat} {ord : List Production} {fuel : Nat} {F : FirstMap}
    {C : ProdFirstMap} (h : firstSet ids ord fuel = .ok (F, C)) :
    ∃ st, FirstFix ids ord st ∧ st.result = F ∧ st.cache = C := by
  simp only [firstSet, bind_eq_ok, Except.ok.injEq, Prod.mk.injEq] at h
  obtain ⟨st, hst, rfl, rfl⟩ := h
  obtain ⟨h1, h2, h3⟩ := whileLoop_inv (cond := fun st : FirstState => st.modified)
    (body := fun st : FirstState => firstPass ord { st with modified := false }) (FInv ids ord)
    (fun st st' hi hb => firstPass_inv (st := { st with modified := false }) (fun p hp => hp)
      ⟨hi.dom, hi.cdom, hi.eps, hi.fst, hi.ceps, hi.cfst⟩ hb)
    hst (FInv_init ids ord true)
  obtain ⟨st0, _, hb⟩ := h3 rfl
  exact ⟨st, ⟨h1, (firstPass_unmodified hb h2).2.2.2⟩, rfl, rfl⟩

section fix
variable {ids : List Nat} {ord : List Production} {st : FirstState} (hf : FirstFix ids ord st)
include hf

theorem FirstFix.left_mem {p : Production} (hp : p ∈ ord) : p.left ∈ ids := by
  obtain ⟨t, r, h1, h2, _⟩ := hf.closed p hp
  exact (hf.inv.dom _).1 ⟨r, h2⟩

theorem FirstFix.epsOf_complete {r : List Item} (h : Nul ord r) : epsOf st.result r = true := by
  induction h with
  | nil => rfl
  | cons p hp rest _ _ ih1 ih2 =>
    obtain ⟨t, r, h1, h2, _, _, h5, _⟩ := hf.closed p hp
    simp only [epsOf, colOf_eq h2, h5 ih1, ih2, Bool.and_true]

theorem FirstFix.firstOf_complete {t : Nat} {r : List Item} (h : Fst ord t r) :
    t ∈ firstOf st.result r := by
  induction h with
  | here rest => simp [firstOf]
  | down p hp rest _ ih =>
    obtain ⟨t, r, h1, h2, _, h4, h5, h6⟩ := hf.closed p hp
    simp only [firstOf, colOf_eq h2, Finset.mem_union]
    left; apply h6; rw [h4]; exact Finset.mem_union_left _ ih
  | skip A rest hn _ ih =>
    simp only [firstOf, Finset.mem_union]
    right
    have := hf.epsOf_complete hn
    simp only [epsOf, Bool.and_true] at this
    simp [this, ih]

theorem FirstFix.epsOf_iff {r : List Item} : epsOf st.result r = true ↔ Nullable ord r := by
  rw [← nul_iff]
  exact ⟨epsOf_sound hf.inv.eps, hf.epsOf_complete⟩

theorem FirstFix.firstOf_iff {r : List Item} {t : Nat} :
    t ∈ firstOf st.result r ↔ InFirst ord r t := by
  rw [← fst_iff]
  exact ⟨firstOf_sound hf.inv.eps hf.inv.fst, hf.firstOf_complete⟩

theorem FirstFix.get {A : Nat} {c : Collection} (h : st.result.get A = some c) :
    (c.allowEpsilon = true ↔ Nullable ord [Item.nt A]) ∧
    ∀ t, t ∈ c.set ↔ InFirst ord [Item.nt A] t := by
  constructor
  · rw [← hf.epsOf_iff]; simp [epsOf, colOf_eq h]
  · intro t
    rw [← hf.firstOf_iff]; simp [firstOf, colOf_eq h]

theorem FirstFix.cget {p : Production} {c : Collection} (h : st.cache.get p = some c) :
    (c.allowEpsilon = true ↔ Nullable ord p.right) ∧
    ∀ t, t ∈ c.set ↔ InFirst ord p.right t := by
  have hp := (hf.inv.cdom p).1 ⟨c, h⟩
  obtain ⟨t, r, h1, _, h3, h4, _⟩ := hf.closed p hp
  rw [h] at h1; cases h1
  constructor
  · rw [h3, hf.epsOf_iff]
  · intro t
    constructor
    · intro ht; exact fst_iff.1 (hf.inv.cfst p c t h ht)
    · intro ht; rw [h4]; exact Finset.mem_union_left _ (hf.firstOf_iff.2 ht)

end fix

/-! ## termination -/

/-- a fact recorded in the two maps: `none` is nullability, `some t` a token -/
abbrev FFact := (Nat ⊕ Production) × Option Nat

/-- the collection a fact speaks about -/
def firstColAt (st : FirstState) : Nat ⊕ Production → Collection
  | .inl A => colOf st.result A
  | .inr p => (st.cache.get p).getD ⟨false, ∅⟩

/-- the fact holds in the state -/
def firstHolds (st : FirstState) (f : FFact) : Bool :=
  match f.2 with
  | none => (firstColAt st f.1).allowEpsilon
  | some t => decide (t ∈ (firstColAt st f.1).set)

/-- all terminals mentioned in the productions -/
def termsOf (ord : List Production) : Finset Nat :=
  (ord.flatMap fun p => p.right.filterMap fun | .t a => some a | .nt _ => none).toFinset

theorem mem_termsOf {ord : List Production} {a : Nat} :
    a ∈ termsOf ord ↔ ∃ p ∈ ord, Item.t a ∈ p.right := by
  simp only [termsOf, List.mem_toFinset, List.mem_flatMap, List.mem_filterMap]
  constructor
  · rintro ⟨p, hp, x, hx, h⟩
    cases x <;> simp_all
    exact ⟨p, hp, hx⟩
  · rintro ⟨p, hp, h⟩
    exact ⟨p, hp, _, h, rfl⟩

theorem Fst.mem_terms {P : List Production} {t : Nat} {r : List Item} (h : Fst P t r) :
    t ∈ termsOf P ∨ Item.t t ∈ r := by
  induction h with
  | here rest => simp
  | down p hp rest _ ih =>
    left
    rcases ih with ih | ih
    · exact ih
    · exact mem_termsOf.2 ⟨p, hp, ih⟩
  | skip A rest _ _ ih =>
    rcases ih with ih | ih
    · exact Or.inl ih
    · right; simp [ih]

/-- the finite universe of facts -/
def ffUniverse (ids : List Nat) (ord : List Production) : Finset FFact :=
  (ids.toFinset.disjSum ord.toFinset) ×ˢ (insert none ((termsOf ord).image some))

/-- the facts holding in a state -/
def firstFacts (ids : List Nat) (ord : List Production) (st : FirstState) : Finset FFact :=
  (ffUniverse ids ord).filter fun f => firstHolds st f = true

theorem firstStep_mono {ids : List Nat} {ord : List Production} {st st' : FirstState} {p : Production}
    (hi : FInv ids ord st) (h : firstStep st p = .ok st') (f : FFact)
    (hf : firstHolds st f = true) : firstHolds st' f = true := by
  obtain ⟨t, r, ht, hr, hcache, hres, _⟩ := firstStep_ok h
  obtain ⟨k, o⟩ := f
  have key : ((firstColAt st k).allowEpsilon = true → (firstColAt st' k).allowEpsilon = true) ∧
      (firstColAt st k).set ⊆ (firstColAt st' k).set := by
    cases k with
    | inl A =>
      simp only [firstColAt, colOf, hres, HMap.get_insert]
      by_cases hA : p.left = A
      · subst hA
        simp only [hr, if_true, Option.getD_some]
        exact ⟨fun h => by simp [h], Finset.subset_union_left⟩
      · simp [hA]
    | inr q =>
      simp only [firstColAt, hcache, HMap.get_insert]
      by_cases hq : p = q
      · subst hq
        simp only [ht, if_true, Option.getD_some]
        exact ⟨fun h => hi.ceps p t ht h, Finset.subset_union_left⟩
      · simp [hq]
  cases o with
  | none => exact key.1 hf
  | some x =>
    simp only [firstHolds, decide_eq_true_eq] at hf ⊢
    exact key.2 hf

theorem mem_ffUniverse {ids : List Nat} {ord : List Production} {k : Nat ⊕ Production} {o : Option Nat} :
    (k, o) ∈ ffUniverse ids ord ↔
      (match k with | .inl A => A ∈ ids | .inr p => p ∈ ord) ∧
      (match o with | none => True | some t => t ∈ termsOf ord) := by
  simp only [ffUniverse, Finset.mem_product]
  cases k <;> cases o <;> simp

theorem firstStep_strict {ids : List Nat} {ord : List Production} {st st' : FirstState} {p : Production}
    (hp : p ∈ ord) (hi : FInv ids ord st) (h : firstStep st p = .ok st') (hm : st.modified = false)
    (hm' : st'.modified = true) :
    ∃ f ∈ ffUniverse ids ord, firstHolds st f = false ∧ firstHolds st' f = true := by
  obtain ⟨t, r, ht, hr, hcache, hres, hmod⟩ := firstStep_ok h
  have hl : p.left ∈ ids := (hi.dom _).1 ⟨r, hr⟩
  have hterm : ∀ x, Fst ord x p.right → x ∈ termsOf ord := by
    intro x hx
    rcases hx.mem_terms with h | h
    · exact h
    · exact mem_termsOf.2 ⟨p, hp, h⟩
  by_cases c1 : t.allowEpsilon = epsOf st.result p.right
  swap
  · have h1 : t.allowEpsilon = false := by
      by_contra h1
      simp only [Bool.not_eq_false] at h1
      exact c1 (by rw [h1, hi.ceps p t ht h1])
    have h2 : epsOf st.result p.right = true := by
      rw [h1] at c1
      cases h2 : epsOf st.result p.right <;> simp_all
    refine ⟨(.inr p, none), mem_ffUniverse.2 ⟨hp, trivial⟩, ?_, ?_⟩
    · simp [firstHolds, firstColAt, ht, h1]
    · simp [firstHolds, firstColAt, hcache, h2]
  by_cases c2 : firstOf st.result p.right ⊆ t.set
  swap
  · rw [Finset.not_subset] at c2
    obtain ⟨x, hx1, hx2⟩ := c2
    refine ⟨(.inr p, some x), mem_ffUniverse.2 ⟨hp, hterm x (firstOf_sound hi.eps hi.fst hx1)⟩, ?_, ?_⟩
    · simp [firstHolds, firstColAt, ht, hx2]
    · simp [firstHolds, firstColAt, hcache, hx1]
  by_cases c3 : epsOf st.result p.right = true → r.allowEpsilon = true
  swap
  · rw [Classical.not_imp] at c3
    refine ⟨(.inl p.left, none), mem_ffUniverse.2 ⟨hl, trivial⟩, ?_, ?_⟩
    · simpa [firstHolds, firstColAt, colOf, hr] using c3.2
    · simp [firstHolds, firstColAt, colOf, hres, c3.1]
  by_cases c4 : t.set ⊆ r.set
  swap
  · rw [Finset.not_subset] at c4
    obtain ⟨x, hx1, hx2⟩ := c4
    refine ⟨(.inl p.left, some x), mem_ffUniverse.2 ⟨hl, hterm x (hi.cfst p t x ht hx1)⟩, ?_, ?_⟩
    · simp [firstHolds, firstColAt, colOf, hr, hx2]
    · simp [firstHolds, firstColAt, colOf, hres, hx1]
  · have := hmod.2 ⟨hm, c1, c2, c3, c4⟩
    rw [this] at hm'; cases hm'

theorem firstPass_facts {ids : List Nat} {ord ps : List Production} {st st' : FirstState}
    (hps : ∀ p ∈ ps, p ∈ ord) (hi : FInv ids ord st) (h : firstPass ps st = .ok st') :
    (∀ f, firstHolds st f = true → firstHolds st' f = true) ∧
    (st.modified = false → st'.modified = true →
      ∃ f ∈ ffUniverse ids ord, firstHolds st f = false ∧ firstHolds st' f = true) := by
  induction ps generalizing st with
  | nil => cases h; exact ⟨fun f h => h, fun h h' => by rw [h] at h'; cases h'⟩
  | cons p ps ih =>
    simp only [firstPass, bind_eq_ok] at h
    obtain ⟨st1, h1, h2⟩ := h
    have hp := hps p (by simp)
    obtain ⟨a1, a2⟩ := ih (fun q hq => hps q (by simp [hq])) (firstStep_inv hp hi h1) h2
    have b1 := firstStep_mono hi h1
    refine ⟨fun f hf => a1 f (b1 f hf), fun hm hm' => ?_⟩
    cases hm1 : st1.modified
    · obtain ⟨f, hf, hf1, hf2⟩ := a2 hm1 hm'
      refine ⟨f, hf, ?_, hf2⟩
      by_contra hc
      simp only [Bool.not_eq_false] at hc
      rw [b1 f hc] at hf1; cases hf1
    · obtain ⟨f, hf, hf1, hf2⟩ := firstStep_strict hp hi h1 hm hm1
      exact ⟨f, hf, hf1, a1 f hf2⟩

theorem firstPass_total {ids : List Nat} {ord ps : List Production} {st : FirstState}
    (hps : ∀ p ∈ ps, p ∈ ord) (hi : FInv ids ord st)
    (hclosed : ∀ p ∈ ord, p.left ∈ ids ∧ ∀ B, Item.nt B ∈ p.right → B ∈ ids) :
    ∃ st', firstPass ps st = .ok st' := by
  induction ps generalizing st with
  | nil => exact ⟨_, rfl⟩
  | cons p ps ih =>
    have hp := hps p (by simp)
    obtain ⟨st1, h1⟩ := firstStep_total (st := st) (p := p) ((hi.cdom p).2 hp)
      ((hi.dom _).2 (hclosed p hp).1) (fun B hB => (hi.dom B).2 ((hclosed p hp).2 B hB))
    obtain ⟨st2, h2⟩ := ih (fun q hq => hps q (by simp [hq])) (firstStep_inv hp hi h1)
    exact ⟨st2, by simp only [firstPass, h1, bind_ok, h2]⟩

theorem bind_ne_fuel {α β : Type _} {x : Res α} {f : α → Res β} (hx : x ≠ .error .fuel)
    (hf : ∀ a, x = .ok a → f a ≠ .error .fuel) : (x >>= f) ≠ .error .fuel := by
  cases x with
  | ok a => exact hf a rfl
  | error e => simpa using hx

theorem unwrap_ne_fuel {α : Type _} {o : Option α} : unwrap o ≠ .error .fuel := by
  cases o <;> simp [unwrap]

theorem rightAllowsEpsilon_ne_fuel {F : FirstMap} {r : List Item} :
    rightAllowsEpsilon F r ≠ .error .fuel := by
  induction r with
  | nil => simp [rightAllowsEpsilon]
  | cons x r ih =>
    cases x with
    | t a => simp [rightAllowsEpsilon]
    | nt A =>
      refine bind_ne_fuel unwrap_ne_fuel fun c _ => ?_
      split
      · simp
      · exact ih

theorem collectFirst_ne_fuel {F : FirstMap} {r : List Item} {s : Finset Nat} {m : Bool} :
    collectFirst F r s m ≠ .error .fuel := by
  induction r generalizing s m with
  | nil => simp [collectFirst]
  | cons x r ih =>
    cases x with
    | t a => simp [collectFirst]
    | nt A =>
      refine bind_ne_fuel unwrap_ne_fuel fun c _ => ?_
      simp only [insertAll]
      split
      · simp
      · exact ih

theorem getFirstForString_ne_fuel {F : FirstMap} {r : List Item} :
    getFirstForString r F ≠ .error .fuel := by
  have : ∀ acc, getFirstForStringLoop F r acc ≠ .error .fuel := by
    induction r with
    | nil => simp [getFirstForStringLoop]
    | cons x r ih =>
      intro acc
      cases x with
      | t a => simp [getFirstForStringLoop]
      | nt A =>
        refine bind_ne_fuel unwrap_ne_fuel fun c _ => ?_
        split
        · simp
        · exact ih _
  exact this _

theorem firstPass_ne_fuel {ps : List Production} {st : FirstState} :
    firstPass ps st ≠ .error .fuel := by
  induction ps generalizing st with
  | nil => simp [firstPass]
  | cons p ps ih =>
    refine bind_ne_fuel ?_ fun st1 _ => ih
    refine bind_ne_fuel unwrap_ne_fuel fun t _ => ?_
    refine bind_ne_fuel ?_ fun x _ => ?_
    · refine bind_ne_fuel rightAllowsEpsilon_ne_fuel fun b _ => ?_
      exact bind_ne_fuel collectFirst_ne_fuel fun _ _ => by simp
    · exact bind_ne_fuel unwrap_ne_fuel fun r _ => by simp

theorem firstLoop_halts (ids : List Nat) (ord : List Production) :
    ∃ n, ∀ fuel, n ≤ fuel → firstSet ids ord fuel = firstSet ids ord n ∧
      firstSet ids ord fuel ≠ .error .fuel := by
  obtain ⟨n, h⟩ := whileLoop_halts (cond := fun st : FirstState => st.modified)
    (body := fun st : FirstState => firstPass ord { st with modified := false }) (FInv ids ord)
    (fun st => (firstFacts ids ord st).card) (ffUniverse ids ord).card
    (fun st _ => firstPass_ne_fuel)
    (by
      intro st st' hi h
      have hi' : FInv ids ord { st with modified := false } :=
        ⟨hi.dom, hi.cdom, hi.eps, hi.fst, hi.ceps, hi.cfst⟩
      obtain ⟨f1, f2⟩ := firstPass_facts (fun p hp => hp) hi' h
      refine ⟨firstPass_inv (fun p hp => hp) hi' h, fun hm => ?_⟩
      obtain ⟨f, hf, hf1, hf2⟩ := f2 rfl hm
      apply Finset.card_lt_card
      rw [Finset.ssubset_iff_of_subset]
      · refine ⟨f, Finset.mem_filter.2 ⟨hf, hf2⟩, fun hc => ?_⟩
        have := (Finset.mem_filter.1 hc).2
        have e : firstHolds { st with modified := false } f = firstHolds st f := rfl
        rw [← e, hf1] at this; cases this
      · intro g hg
        have hg := Finset.mem_filter.1 hg
        exact Finset.mem_filter.2 ⟨hg.1, f1 g hg.2⟩)
    (fun st _ => Finset.card_le_card (Finset.filter_subset _ _))
    { result := initMap ids ⟨false, ∅⟩, cache := initCache ord, modified := true }
    (FInv_init ids ord true)
  refine ⟨n, fun fuel hf => ?_⟩
  have := whileLoop_mono rfl h hf
  simp only [firstSet, firstLoop, this, true_and]
  exact bind_ne_fuel h fun _ _ => by simp

/-- with enough fuel `first_set` returns or panics -/
theorem firstSet_halts (ids : List Nat) (ord : List Production) :
    ∃ n r, r ≠ .error .fuel ∧ ∀ fuel, n ≤ fuel → firstSet ids ord fuel = r := by
  obtain ⟨n, h⟩ := firstLoop_halts ids ord
  exact ⟨n, firstSet ids ord n, (h n (Nat.le_refl n)).2, fun fuel hf => (h fuel hf).1⟩

theorem firstSet_no_panic {ids : List Nat} {ord : List Production}
    (hclosed : ∀ p ∈ ord, p.left ∈ ids ∧ ∀ B, Item.nt B ∈ p.right → B ∈ ids) (fuel : Nat) :
    firstSet ids ord fuel ≠ .error .panic := by
  have := whileLoop_no_panic (cond := fun st : FirstState => st.modified)
    (body := fun st : FirstState => firstPass ord { st with modified := false }) (FInv ids ord)
    (by
      intro st hi
      have hi' : FInv ids ord { st with modified := false } :=
        ⟨hi.dom, hi.cdom, hi.eps, hi.fst, hi.ceps, hi.cfst⟩
      obtain ⟨st', h⟩ := firstPass_total (ps := ord) (fun p hp => hp) hi' hclosed
      exact ⟨st', h, firstPass_inv (fun p hp => hp) hi' h⟩) fuel
    { result := initMap ids ⟨false, ∅⟩, cache := initCache ord, modified := true }
    (FInv_init ids ord true)
  simp only [firstSet, firstLoop]
  revert this
  cases whileLoop (fun st : FirstState => st.modified) _ fuel _ with
  | ok a => simp
  | error e => simp

/-- on closed grammars `first_set` returns -/
theorem firstSet_total {ids : List Nat} {ord : List Production}
    (hclosed : ∀ p ∈ ord, p.left ∈ ids ∧ ∀ B, Item.nt B ∈ p.right → B ∈ ids) :
    ∃ n r, ∀ fuel, n ≤ fuel → firstSet ids ord fuel = .ok r := by
  obtain ⟨n, r, hr, h⟩ := firstSet_halts ids ord
  have hp := firstSet_no_panic hclosed n
  rw [h n (Nat.le_refl n)] at hp
  match r, hr, hp, h with
  | .ok r, _, _, h => exact ⟨n, r, h⟩
  | .error .panic, _, hp, _ => exact absurd rfl hp
  | .error .fuel, hr, _, _ => exact absurd rfl hr

theorem firstSet_fuel_mono {ids : List Nat} {ord : List Production} {n m : Nat}
    {r : FirstMap × ProdFirstMap} (h : firstSet ids ord n = .ok r) (hnm : n ≤ m) :
    firstSet ids ord m = .ok r := by
  simp only [firstSet, firstLoop, bind_eq_ok] at h ⊢
  obtain ⟨st, h, h'⟩ := h
  exact ⟨st, whileLoop_mono h (by simp) hnm, h'⟩

end Syntaxis
