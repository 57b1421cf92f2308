import Verif.Props.FirstFollow

/-!
# C14–C17: the predictive table
-/

namespace Syntaxis
open Grammar

/-! ## fold invariants -/

theorem tableInsert_get (p : Production) (toks : List Nat) (st : TableState) (A t : Nat) :
    (tableInsert p toks st).table.get (A, t) =
      if p.left = A ∧ t ∈ toks then some p else st.table.get (A, t) := by
  induction toks generalizing st with
  | nil => simp [tableInsert]
  | cons tok toks ih =>
    simp only [tableInsert, ih, HMap.get_insert, Prod.mk.injEq, List.mem_cons]
    by_cases h1 : p.left = A
    · by_cases h2 : t ∈ toks
      · simp [h1, h2]
      · by_cases h3 : tok = t
        · simp [h1, h3]
        · simp [h1, h2, h3, Ne.symm h3]
    · simp [h1]

theorem tableInsert_conflicts (p : Production) (toks : List Nat) (hn : toks.Nodup) (st : TableState) :
    (tableInsert p toks st).conflicts = [] ↔
      st.conflicts = [] ∧ ∀ t ∈ toks, st.table.get (p.left, t) = none := by
  induction toks generalizing st with
  | nil => simp [tableInsert]
  | cons tok toks ih =>
    obtain ⟨h1, h2⟩ := List.nodup_cons.1 hn
    have hrest : ∀ t ∈ toks, ((st.table.insert (p.left, tok) p).get (p.left, t) = none ↔
        st.table.get (p.left, t) = none) := by
      intro t ht
      have : tok ≠ t := by rintro rfl; exact h1 ht
      simp [HMap.get_insert, this]
    simp only [tableInsert, ih h2, List.mem_cons, forall_eq_or_imp]
    cases hg : st.table.get (p.left, tok) with
    | none =>
      simp only [true_and]
      exact and_congr_right fun _ => forall₂_congr hrest
    | some q => simp

/-- `t` is scanned for `p`: it is in the FIRST set handed to `ll1_table`, or the flag is set and it is
in the FOLLOW set handed to it -/
def Scan (C : ProdFirstMap) (W : FollowMap) (p : Production) (t : Nat) : Prop :=
  ∃ f, C.get p = some f ∧ (t ∈ f.set ∨ (f.allowEpsilon = true ∧ ∃ w, W.get p.left = some w ∧ t ∈ w))

/-- `t` is scanned twice for `p` -/
def ScanTwice (C : ProdFirstMap) (W : FollowMap) (p : Production) (t : Nat) : Prop :=
  ∃ f, C.get p = some f ∧ t ∈ f.set ∧ f.allowEpsilon = true ∧ ∃ w, W.get p.left = some w ∧ t ∈ w

theorem tableStep_ok {so : SetOrder} {C : ProdFirstMap} {W : FollowMap} {p : Production}
    {st st' : TableState} (h : tableStep so C W p st = .ok st') :
    (∀ A t q, st'.table.get (A, t) = some q ↔ (p.left = A ∧ Scan C W p t ∧ q = p) ∨
      (¬ (p.left = A ∧ Scan C W p t) ∧ st.table.get (A, t) = some q)) ∧
    (st'.conflicts = [] ↔ st.conflicts = [] ∧
      (∀ t, Scan C W p t → st.table.get (p.left, t) = none) ∧ ∀ t, ¬ ScanTwice C W p t) := by
  simp only [tableStep, bind_eq_ok, unwrap_eq_ok] at h
  obtain ⟨f, hf, h⟩ := h
  cases he : f.allowEpsilon
  · simp only [he, Bool.false_eq_true, if_false, Except.ok.injEq] at h
    subst h
    have hs : ∀ t, Scan C W p t ↔ t ∈ f.set := by
      intro t; simp [Scan, hf, he]
    have hs2 : ∀ t, ¬ ScanTwice C W p t := by
      intro t; simp [ScanTwice, hf, he]
    constructor
    · intro A t q
      simp only [tableInsert_get, so.mem, hs]
      by_cases hc : p.left = A ∧ t ∈ f.set
      · simp only [hc, and_self, if_true, Option.some.injEq, not_true, false_and, or_false, true_and]
        exact eq_comm
      · rw [if_neg hc]
        constructor
        · exact fun h => Or.inr ⟨hc, h⟩
        · rintro (⟨h1, h2, _⟩ | h)
          · exact absurd ⟨h1, h2⟩ hc
          · exact h.2
    · simp only [tableInsert_conflicts _ _ (so.nodup _ _ _), so.mem, hs, hs2, not_false_eq_true,
        implies_true, and_true]
  · simp only [he, if_true, bind_eq_ok, unwrap_eq_ok, Except.ok.injEq] at h
    obtain ⟨w, hw, rfl⟩ := h
    have hs : ∀ t, Scan C W p t ↔ t ∈ f.set ∨ t ∈ w := by
      intro t; simp [Scan, hf, he, hw]
    have hs2 : ∀ t, ScanTwice C W p t ↔ t ∈ f.set ∧ t ∈ w := by
      intro t; simp [ScanTwice, hf, he, hw]
    constructor
    · intro A t q
      simp only [tableInsert_get, so.mem, hs]
      by_cases hl : p.left = A
      · by_cases h1 : t ∈ w
        · simp [hl, h1, eq_comm]
        · by_cases h2 : t ∈ f.set
          · simp [hl, h1, h2, eq_comm]
          · simp [h1, h2]
      · simp [hl]
    · simp only [tableInsert_conflicts _ _ (so.nodup _ _ _), so.mem, hs, hs2, tableInsert_get,
        true_and, and_assoc]
      refine and_congr_right fun _ => ?_
      constructor
      · rintro ⟨h1, h2⟩
        have h3 : ∀ t ∈ w, t ∉ f.set ∧ st.table.get (p.left, t) = none := by
          intro t ht
          have := h2 t ht
          by_cases hc : t ∈ f.set
          · simp [hc] at this
          · exact ⟨hc, by simpa [hc] using this⟩
        refine ⟨?_, ?_⟩
        · rintro t (ht | ht)
          · exact h1 t ht
          · exact (h3 t ht).2
        · rintro t ⟨ht, ht'⟩
          exact (h3 t ht').1 ht
      · rintro ⟨h1, h2⟩
        refine ⟨fun t ht => h1 t (Or.inl ht), fun t ht => ?_⟩
        have hc : t ∉ f.set := fun hc => h2 t ⟨hc, ht⟩
        simpa [hc] using h1 t (Or.inr ht)

theorem tableLoop_get {so : SetOrder} {C : ProdFirstMap} {W : FollowMap} {ps : List Production}
    {st st' : TableState} (h : tableLoop so C W ps st = .ok st') (A t : Nat) (q : Production) :
    st'.table.get (A, t) = some q ↔
      (∃ pre post, ps = pre ++ q :: post ∧ q.left = A ∧ Scan C W q t ∧
        ∀ r ∈ post, ¬ (r.left = A ∧ Scan C W r t)) ∨
      ((∀ r ∈ ps, ¬ (r.left = A ∧ Scan C W r t)) ∧ st.table.get (A, t) = some q) := by
  induction ps generalizing st with
  | nil =>
    cases h
    simp
  | cons p ps ih =>
    simp only [tableLoop, bind_eq_ok] at h
    obtain ⟨st1, h1, h2⟩ := h
    rw [ih h2, (tableStep_ok h1).1]
    constructor
    · rintro (⟨pre, post, rfl, h3⟩ | ⟨h3, ⟨h4, h5, rfl⟩ | ⟨h4, h5⟩⟩)
      · exact Or.inl ⟨p :: pre, post, rfl, h3⟩
      · exact Or.inl ⟨[], ps, rfl, h4, h5, h3⟩
      · refine Or.inr ⟨?_, h5⟩
        intro r hr
        simp only [List.mem_cons] at hr
        rcases hr with rfl | hr
        · exact h4
        · exact h3 r hr
    · rintro (⟨pre, post, hps, h3, h4, h5⟩ | ⟨h3, h4⟩)
      · cases pre with
        | nil =>
          simp only [List.nil_append, List.cons.injEq] at hps
          obtain ⟨rfl, rfl⟩ := hps
          exact Or.inr ⟨h5, Or.inl ⟨h3, h4, rfl⟩⟩
        | cons x pre =>
          simp only [List.cons_append, List.cons.injEq] at hps
          exact Or.inl ⟨pre, post, hps.2, h3, h4, h5⟩
      · exact Or.inr ⟨fun r hr => h3 r (by simp [hr]), Or.inr ⟨h3 p (by simp), h4⟩⟩

theorem tableLoop_conflicts {so : SetOrder} {C : ProdFirstMap} {W : FollowMap} {ps : List Production}
    {st st' : TableState} (h : tableLoop so C W ps st = .ok st') :
    st'.conflicts = [] ↔ st.conflicts = [] ∧
      (∀ p ∈ ps, ∀ t, Scan C W p t → st.table.get (p.left, t) = none) ∧
      (∀ p ∈ ps, ∀ t, ¬ ScanTwice C W p t) ∧
      ps.Pairwise (fun p q => p.left = q.left → ∀ t, ¬ (Scan C W p t ∧ Scan C W q t)) := by
  induction ps generalizing st with
  | nil => cases h; simp
  | cons p ps ih =>
    simp only [tableLoop, bind_eq_ok] at h
    obtain ⟨st1, h1, h2⟩ := h
    obtain ⟨a1, a2⟩ := tableStep_ok h1
    rw [ih h2, a2]
    have key : ∀ q t, st1.table.get (q, t) = none ↔
        ¬ (p.left = q ∧ Scan C W p t) ∧ st.table.get (q, t) = none := by
      intro q t
      have := a1 q t
      cases hg : st1.table.get (q, t) with
      | none =>
        simp only [hg, reduceCtorEq, false_iff, true_iff] at this ⊢
        have hn : ¬ (p.left = q ∧ Scan C W p t) := by
          rintro ⟨b1, b2⟩
          exact this p (Or.inl ⟨b1, b2, rfl⟩)
        refine ⟨hn, ?_⟩
        cases hs : st.table.get (q, t) with
        | none => rfl
        | some r => exact absurd (Or.inr ⟨hn, hs⟩) (this r)
      | some r =>
        simp only [reduceCtorEq, false_iff]
        rintro ⟨b1, b2⟩
        rcases (this r).1 hg with ⟨c1, c2, _⟩ | ⟨_, c⟩
        · exact b1 ⟨c1, c2⟩
        · rw [b2] at c; cases c
    simp only [key, List.mem_cons, forall_eq_or_imp, List.pairwise_cons]
    constructor
    · rintro ⟨⟨b1, b2, b3⟩, b4, b5, b6⟩
      refine ⟨b1, ⟨b2, fun q hq t ht => (b4 q hq t ht).2⟩, ⟨b3, b5⟩, ?_, b6⟩
      rintro q hq hl t ⟨ht1, ht2⟩
      exact (b4 q hq t ht2).1 ⟨hl, ht1⟩
    · rintro ⟨b1, ⟨b2, b3⟩, ⟨b4, b5⟩, b6, b7⟩
      exact ⟨⟨b1, b2, b4⟩, fun q hq t ht => ⟨fun hc => b6 q hq hc.1 t ⟨hc.2, ht⟩, b3 q hq t ht⟩, b5, b7⟩

theorem tableLoop_total {so : SetOrder} {C : ProdFirstMap} {W : FollowMap} {ps : List Production}
    (hC : ∀ p ∈ ps, ∃ f, C.get p = some f) (hW : ∀ p ∈ ps, ∃ w, W.get p.left = some w)
    (st : TableState) : ∃ st', tableLoop so C W ps st = .ok st' := by
  induction ps generalizing st with
  | nil => exact ⟨_, rfl⟩
  | cons p ps ih =>
    obtain ⟨f, hf⟩ := hC p (by simp)
    obtain ⟨w, hw⟩ := hW p (by simp)
    have : ∃ st1, tableStep so C W p st = .ok st1 := by
      simp only [tableStep, hf, unwrap_some, bind_ok, hw]
      split <;> exact ⟨_, rfl⟩
    obtain ⟨st1, h1⟩ := this
    obtain ⟨st2, h2⟩ := ih (fun q hq => hC q (by simp [hq])) (fun q hq => hW q (by simp [hq])) st1
    exact ⟨st2, by simp only [tableLoop, h1, bind_ok, h2]⟩

/-! ## the properties -/

/-- everything a successful `first_set; follow_set; ll1_table` sequence establishes -/
theorem runTable_parts {g : Grammar} {o : IterOrder g} {so : SetOrder} {fuel : Nat} {ts : TableState}
    (h : runTable g o so fuel = .ok ts) :
    ∃ F C W, runFirst g o fuel = .ok (F, C) ∧ runFollow g o fuel = .ok W ∧
      ll1Table so o.ord C W = .ok ts ∧
      (∀ p ∈ g.productions, ∀ t, Scan C W p t ↔ Predicts g.productions p t) ∧
      (∀ p ∈ g.productions, ∀ t, ScanTwice C W p t ↔
        InFirst g.productions p.right t ∧ Nullable g.productions p.right ∧
          InFollow g.productions p.left t) := by
  simp only [runTable, bind_eq_ok] at h
  obtain ⟨⟨F, C⟩, h1, W, h2, h3⟩ := h
  have h2' : runFollow g o fuel = .ok W := by
    simp only [runFollow, h1, bind_ok, h2]
  have key : ∀ p ∈ g.productions, ∃ c s, C.get p = some c ∧ W.get p.left = some s ∧
      (c.allowEpsilon = true ↔ Nullable g.productions p.right) ∧
      (∀ t, t ∈ c.set ↔ InFirst g.productions p.right t) ∧
      (∀ t, t ∈ s ↔ InFollow g.productions p.left t) := by
    intro p hp
    obtain ⟨c, hc, c1, c2⟩ := (C08_production_first_exact g o fuel F C h1 p).2 hp
    have hl : p.left ∈ g.vocabulary.nonterminals := by
      obtain ⟨st, hf, _⟩ := runFollow_fix h2'
      exact (o.ids_mem _).1 (hf.left_mem ((IterOrder.mem o p).2 hp))
    obtain ⟨s, hs, s1⟩ := C11_follow_exact g o fuel W h2' p.left hl
    exact ⟨c, s, hc, hs, c1, c2, s1⟩
  refine ⟨F, C, W, h1, h2', h3, ?_, ?_⟩
  · intro p hp t
    obtain ⟨c, s, hc, hs, c1, c2, s1⟩ := key p hp
    simp [Scan, Predicts, hc, hs, c1, c2, s1]
  · intro p hp t
    obtain ⟨c, s, hc, hs, c1, c2, s1⟩ := key p hp
    simp [ScanTwice, hc, hs, c1, c2, s1]

/-- **C14** on well-formed grammars with a rule 0 the table is produced (no panic, no divergence). -/
theorem C14_table_returns (g : Grammar) (o : IterOrder g) (so : SetOrder) (h : g.WellFormed)
    (h0 : 0 ∈ g.vocabulary.nonterminals) :
    ∃ n ts, ∀ fuel, n ≤ fuel → runTable g o so fuel = .ok ts := by
  obtain ⟨⟨n, ⟨F, C⟩, h1⟩, _⟩ := C05_first_set_returns g o h
  obtain ⟨m, W, h2⟩ := C10_follow_set_returns g o h h0
  have hW := h2 (max n m) (by omega)
  obtain ⟨ts, hts⟩ := tableLoop_total (so := so) (C := C) (W := W) (ps := o.ord)
    (fun p hp => by
      obtain ⟨c, hc, _⟩ := (C08_production_first_exact g o n F C (h1 n (Nat.le_refl n)) p).2
        ((IterOrder.mem o p).1 hp)
      exact ⟨c, hc⟩)
    (fun p hp => by
      obtain ⟨s, hs, _⟩ := C11_follow_exact g o _ W hW p.left
        (h p ((IterOrder.mem o p).1 hp)).1
      exact ⟨s, hs⟩)
    { table := .empty, conflicts := [] }
  refine ⟨max n m, ts, fun fuel hfuel => ?_⟩
  have e1 := h1 fuel (by omega)
  have e2 := h2 fuel (by omega)
  simp only [runFollow, e1, bind_ok] at e2
  simp only [runTable, e1, bind_ok, e2, ll1Table, hts]

/-- **C14** every entry is a legal prediction. -/
theorem C14_table_sound (g : Grammar) (o : IterOrder g) (so : SetOrder) (fuel : Nat) (ts : TableState)
    (h : runTable g o so fuel = .ok ts) (A t : Nat) (p : Production)
    (he : ts.table.get (A, t) = some p) :
    p ∈ g.productions ∧ p.left = A ∧ Predicts g.productions p t := by
  obtain ⟨F, C, W, _, _, h3, hs, _⟩ := runTable_parts h
  rcases (tableLoop_get h3 A t p).1 he with ⟨pre, post, h4, h5, h6, _⟩ | ⟨_, h4⟩
  · have hp : p ∈ g.productions := (IterOrder.mem o p).1 (by rw [h4]; simp)
    exact ⟨hp, h5, (hs p hp t).1 h6⟩
  · simp at h4

/-- **C15** every predicted pair has an entry; without printed conflict it is the predicted
production. -/
theorem C15_table_complete (g : Grammar) (o : IterOrder g) (so : SetOrder) (fuel : Nat)
    (ts : TableState) (h : runTable g o so fuel = .ok ts) (p : Production) (hp : p ∈ g.productions)
    (t : Nat) (ht : Predicts g.productions p t) :
    (∃ q, ts.table.get (p.left, t) = some q) ∧
    (ts.conflicts = [] → ts.table.get (p.left, t) = some p) := by
  obtain ⟨F, C, W, _, _, h3, hs, _⟩ := runTable_parts h
  have hp' := (IterOrder.mem o p).2 hp
  have hsc := (hs p hp t).2 ht
  constructor
  · have : ∀ ps : List Production, (∃ r ∈ ps, r.left = p.left ∧ Scan C W r t) →
        ∃ q pre post, ps = pre ++ q :: post ∧ q.left = p.left ∧ Scan C W q t ∧
          ∀ r ∈ post, ¬ (r.left = p.left ∧ Scan C W r t) := by
      intro ps
      induction ps with
      | nil => rintro ⟨r, hr, _⟩; simp at hr
      | cons a ps ih =>
        rintro ⟨r, hr, hr1, hr2⟩
        by_cases hc : ∃ r ∈ ps, r.left = p.left ∧ Scan C W r t
        · obtain ⟨q, pre, post, e, rest⟩ := ih hc
          exact ⟨q, a :: pre, post, by simp [e], rest⟩
        · simp only [List.mem_cons] at hr
          rcases hr with rfl | hr
          · exact ⟨r, [], ps, rfl, hr1, hr2, fun x hx hxs => hc ⟨x, hx, hxs⟩⟩
          · exact absurd ⟨r, hr, hr1, hr2⟩ hc
    obtain ⟨q, hq⟩ := this o.ord ⟨p, hp', rfl, hsc⟩
    exact ⟨q, (tableLoop_get h3 p.left t q).2 (Or.inl hq)⟩
  · intro hc
    obtain ⟨_, _, _, hpair⟩ := (tableLoop_conflicts h3).1 hc
    obtain ⟨pre, post, e⟩ := List.append_of_mem hp'
    refine (tableLoop_get h3 p.left t p).2 (Or.inl ⟨pre, post, e, rfl, hsc, ?_⟩)
    rintro r hr ⟨hr1, hr2⟩
    rw [e] at hpair
    have := (List.pairwise_append.1 hpair).2.1
    exact (List.pairwise_cons.1 this).1 r hr hr1.symm t ⟨hsc, hr2⟩

/-- A nullable right-hand side that can begin with a token of FOLLOW of its rule already contradicts
LL(1): somewhere below there are two productions predicted by that token. -/
theorem ll1_no_self_overlap {P : List Production} (hll : LL1 P) {t : Nat} {α : List Item}
    (hf : Fst P t α) (hn : Nul P α)
    (hfl : ∀ u B v, α = u ++ Item.nt B :: v → Nul P v → Flw P t B) : False := by
  induction hf with
  | here rest => exact not_nul_t hn
  | down p hp rest hf ih =>
    obtain ⟨⟨q, hq, hql, hq1⟩, hrest⟩ := nul_nt.1 hn
    have hfw : Flw P t p.left := hfl [] p.left rest rfl hrest
    by_cases hpq : p = q
    · subst hpq
      exact ih hq1 fun u B v e hv => Flw.follow p hp u v B e hv hfw
    · refine hll p hp q hq hql.symm hpq t ⟨Or.inl (fst_iff.1 hf), Or.inr ⟨nul_iff.1 hq1, ?_⟩⟩
      rw [hql]; exact flw_iff.1 hfw
  | skip A rest hA hf ih =>
    have hn' := (nul_cons.1 hn).2
    exact ih hn' fun u B v e hv => hfl (Item.nt A :: u) B v (by simp [e]) hv

/-- **C16** `ll1_table` prints nothing iff no token predicts two different productions of a rule. -/
theorem C16_conflict_iff_not_ll1 (g : Grammar) (o : IterOrder g) (so : SetOrder) (fuel : Nat)
    (ts : TableState) (h : runTable g o so fuel = .ok ts) :
    ts.conflicts = [] ↔ LL1 g.productions := by
  obtain ⟨F, C, W, _, _, h3, hs, hs2⟩ := runTable_parts h
  have hnd := o.ord_nodup
  rw [tableLoop_conflicts h3]
  simp only [HMap.get_empty, implies_true, true_and]
  constructor
  · rintro ⟨_, hpair⟩ p hp q hq hl hpq t ⟨ht1, ht2⟩
    have hp' := (IterOrder.mem o p).2 hp
    have hq' := (IterOrder.mem o q).2 hq
    have hsym : ∀ a ∈ o.ord, ∀ b ∈ o.ord, a ≠ b → (a.left = b.left → ∀ t, ¬ (Scan C W a t ∧ Scan C W b t)) := by
      intro a ha b hb hab
      haveI : Std.Symm fun p q : Production =>
          p.left = q.left → ∀ t, ¬ (Scan C W p t ∧ Scan C W q t) :=
        ⟨fun x y hxy hl t h => hxy hl.symm t ⟨h.2, h.1⟩⟩
      exact hpair.forall ha hb hab
    exact hsym p hp' q hq' hpq hl t ⟨(hs p hp t).2 ht1, (hs q hq t).2 ht2⟩
  · intro hll
    constructor
    · intro p hp t hsc
      have hp' := (IterOrder.mem o p).1 hp
      obtain ⟨b1, b2, b3⟩ := (hs2 p hp' t).1 hsc
      refine ll1_no_self_overlap hll (fst_iff.2 b1) (nul_iff.2 b2) ?_
      intro u B v e hv
      exact Flw.follow p hp' u v B e hv (flw_iff.2 b3)
    · refine List.Pairwise.imp_of_mem ?_ hnd
      intro p q hp hq hpq hl t ⟨ht1, ht2⟩
      have hp' := (IterOrder.mem o p).1 hp
      have hq' := (IterOrder.mem o q).1 hq
      exact hll p hp' q hq' hl hpq t ⟨(hs p hp' t).1 ht1, (hs q hq' t).1 ht2⟩

/-- **C16** the three-clause textbook condition implies the absence of conflicts, and is equivalent
to it when every rule having two different nullable productions has a nonempty FOLLOW set. -/
theorem C16_textbook (g : Grammar) (o : IterOrder g) (so : SetOrder) (fuel : Nat)
    (ts : TableState) (h : runTable g o so fuel = .ok ts) :
    (LL1Textbook g.productions → ts.conflicts = []) ∧
    ((∀ p ∈ g.productions, ∀ q ∈ g.productions, p.left = q.left → p ≠ q →
        Nullable g.productions p.right → Nullable g.productions q.right →
        ∃ t, InFollow g.productions p.left t) →
      (ts.conflicts = [] ↔ LL1Textbook g.productions)) := by
  rw [C16_conflict_iff_not_ll1 g o so fuel ts h]
  have tb : LL1Textbook g.productions → LL1 g.productions := by
    rintro ht p hp q hq hl hpq t ⟨h1, h2⟩
    obtain ⟨c1, c2, c3⟩ := ht p hp q hq hl hpq
    obtain ⟨_, _, d3⟩ := ht q hq p hp hl.symm hpq.symm
    rcases h1 with h1 | ⟨h1, h1'⟩ <;> rcases h2 with h2 | ⟨h2, h2'⟩
    · exact c1 t ⟨h1, h2⟩
    · exact c3 h2 t ⟨h1, by rw [hl]; exact h2'⟩
    · exact d3 h1 t ⟨h2, by rw [← hl]; exact h1'⟩
    · exact c2 ⟨h1, h2⟩
  refine ⟨tb, fun hne => ⟨fun hll p hp q hq hl hpq => ⟨?_, ?_, ?_⟩, tb⟩⟩
  · rintro t ⟨h1, h2⟩
    exact hll p hp q hq hl hpq t ⟨Or.inl h1, Or.inl h2⟩
  · rintro ⟨h1, h2⟩
    obtain ⟨t, ht⟩ := hne p hp q hq hl hpq h1 h2
    exact hll p hp q hq hl hpq t ⟨Or.inr ⟨h1, ht⟩, Or.inr ⟨h2, by rw [← hl]; exact ht⟩⟩
  · rintro h2 t ⟨h1, h3⟩
    exact hll p hp q hq hl hpq t ⟨Or.inl h1, Or.inr ⟨h2, by rw [← hl]; exact h3⟩⟩

/-- **C17** without a printed conflict the table is the same for all hash iteration orders. -/
theorem C17_table_order_independent (g : Grammar) (o o' : IterOrder g) (so so' : SetOrder)
    (fuel fuel' : Nat) (ts ts' : TableState) (h : runTable g o so fuel = .ok ts)
    (h' : runTable g o' so' fuel' = .ok ts') (hc : ts.conflicts = []) :
    ts'.conflicts = [] ∧ ∀ A t, ts.table.get (A, t) = ts'.table.get (A, t) := by
  have hll := (C16_conflict_iff_not_ll1 g o so fuel ts h).1 hc
  have hc' := (C16_conflict_iff_not_ll1 g o' so' fuel' ts' h').2 hll
  refine ⟨hc', fun A t => ?_⟩
  cases h1 : ts.table.get (A, t) with
  | some p =>
    obtain ⟨hp, rfl, ht⟩ := C14_table_sound g o so fuel ts h A t p h1
    exact ((C15_table_complete g o' so' fuel' ts' h' p hp t ht).2 hc').symm
  | none =>
    cases h2 : ts'.table.get (A, t) with
    | none => rfl
    | some p =>
      obtain ⟨hp, rfl, ht⟩ := C14_table_sound g o' so' fuel' ts' h' A t p h2
      rw [(C15_table_complete g o so fuel ts h p hp t ht).2 hc] at h1
      cases h1

/-- **C17** in general the entry is that of the production iterated last among the predicted ones. -/
theorem C17_last_iterated_wins (g : Grammar) (o : IterOrder g) (so : SetOrder) (fuel : Nat)
    (ts : TableState) (h : runTable g o so fuel = .ok ts) (A t : Nat) (p : Production) :
    ts.table.get (A, t) = some p ↔
      ∃ pre post, o.ord = pre ++ p :: post ∧ p.left = A ∧ Predicts g.productions p t ∧
        ∀ q ∈ post, ¬ (q.left = A ∧ Predicts g.productions q t) := by
  obtain ⟨F, C, W, _, _, h3, hs, _⟩ := runTable_parts h
  have hmem : ∀ q, q ∈ o.ord → (Scan C W q t ↔ Predicts g.productions q t) :=
    fun q hq => hs q ((IterOrder.mem o q).1 hq) t
  rw [tableLoop_get h3 A t p]
  simp only [HMap.get_empty, reduceCtorEq, and_false, or_false]
  constructor
  · rintro ⟨pre, post, e, h4, h5, h6⟩
    refine ⟨pre, post, e, h4, (hmem p (by rw [e]; simp)).1 h5, ?_⟩
    rintro q hq ⟨hq1, hq2⟩
    exact h6 q hq ⟨hq1, (hmem q (by rw [e]; simp [hq])).2 hq2⟩
  · rintro ⟨pre, post, e, h4, h5, h6⟩
    refine ⟨pre, post, e, h4, (hmem p (by rw [e]; simp)).2 h5, ?_⟩
    rintro q hq ⟨hq1, hq2⟩
    exact h6 q hq ⟨hq1, (hmem q (by rw [e]; simp [hq])).1 hq2⟩

/-- move one production to the end of an iteration order -/
def IterOrder.toEnd {g : Grammar} (o : IterOrder g) (p : Production) (hp : p ∈ o.ord) : IterOrder g where
  ids := o.ids
  ids_mem := o.ids_mem
  ord := o.ord.erase p ++ [p]
  ord_perm := by
    refine List.Perm.trans ?_ o.ord_perm
    exact (List.perm_append_singleton p _).trans (List.perm_cons_erase hp).symm
  ord_nodup := by
    refine List.Perm.nodup ?_ o.ord_nodup
    exact (List.perm_cons_erase hp).trans (List.perm_append_singleton p _).symm

/-- **C17** with a conflict the outcome does depend on the hash order: whenever a token predicts two
different productions of a rule, two runs can return tables that disagree on that entry. -/
theorem C17_conflict_order_dependent (g : Grammar) (h : g.WellFormed)
    (h0 : 0 ∈ g.vocabulary.nonterminals) (o : IterOrder g) (so : SetOrder) (p q : Production)
    (hp : p ∈ g.productions) (hq : q ∈ g.productions) (hl : p.left = q.left) (hpq : p ≠ q) (t : Nat)
    (ht : Predicts g.productions p t) (ht' : Predicts g.productions q t) :
    ∃ o1 o2 : IterOrder g, ∃ fuel ts1 ts2, runTable g o1 so fuel = .ok ts1 ∧
      runTable g o2 so fuel = .ok ts2 ∧ ts1.table.get (p.left, t) ≠ ts2.table.get (p.left, t) := by
  refine ⟨IterOrder.toEnd o p ((IterOrder.mem o p).2 hp), IterOrder.toEnd o q ((IterOrder.mem o q).2 hq), ?_⟩
  obtain ⟨n, ts1, h1⟩ := C14_table_returns g (IterOrder.toEnd o p ((IterOrder.mem o p).2 hp)) so h h0
  obtain ⟨m, ts2, h2⟩ := C14_table_returns g (IterOrder.toEnd o q ((IterOrder.mem o q).2 hq)) so h h0
  have e1 := h1 (max n m) (by omega)
  have e2 := h2 (max n m) (by omega)
  refine ⟨max n m, ts1, ts2, e1, e2, ?_⟩
  rw [(C17_last_iterated_wins g _ so _ ts1 e1 p.left t p).2
      ⟨_, [], rfl, rfl, ht, by simp⟩,
    (C17_last_iterated_wins g _ so _ ts2 e2 p.left t q).2
      ⟨_, [], rfl, hl.symm, ht', by simp⟩]
  simpa using hpq

/-! ## witnesses -/

/-- an iteration order for token sets (sorted by nothing in particular) -/
noncomputable def anySetOrder : SetOrder where
  enum := fun _ _ s => s.toList
  nodup := fun _ _ s => s.nodup_toList
  mem := fun _ _ _ _ => Finset.mem_toList

/-- non-vacuity of C14–C17: the example grammar gets a table -/
example : ∃ n ts, ∀ fuel, n ≤ fuel → runTable exGrammar exOrder anySetOrder fuel = .ok ts :=
  C14_table_returns _ _ _ exGrammar_wf (by simp [exGrammar])

/-- a grammar with an unreachable rule that has two nullable productions and an empty FOLLOW set:
`S → a`, `B → ε | C`, `C → ε` -/
def gapGrammar : Grammar where
  name := []
  vocabulary := { Vocabulary.new with nonterminals := {0, 1, 2} }
  productions := [⟨0, [.t 2]⟩, ⟨1, []⟩, ⟨1, [.nt 2]⟩, ⟨2, []⟩]

/-- the order of `gapGrammar` as written -/
def gapOrder : IterOrder gapGrammar where
  ids := [0, 1, 2]
  ids_mem := by intro i; simp [gapGrammar]
  ord := gapGrammar.productions
  ord_perm := List.Perm.refl _
  ord_nodup := by decide

/-- **C16** the side condition of `C16_textbook` is needed: `gapGrammar` violates the textbook
condition (rule 1 is even ambiguous) but no conflict is ever printed for it. -/
theorem C16_textbook_gap :
    ¬ LL1Textbook gapGrammar.productions ∧
    ∀ so fuel ts, runTable gapGrammar gapOrder so fuel = .ok ts → ts.conflicts = [] := by
  have hn1 : Nullable gapGrammar.productions [] := nul_iff.1 Nul.nil
  have hn2 : Nullable gapGrammar.productions [Item.nt 2] :=
    nul_iff.1 (Nul.cons ⟨2, []⟩ (by simp [gapGrammar]) [] Nul.nil Nul.nil)
  constructor
  · intro h
    exact (h ⟨1, []⟩ (by simp [gapGrammar]) ⟨1, [.nt 2]⟩ (by simp [gapGrammar]) rfl (by decide)).2.1
      ⟨hn1, hn2⟩
  · intro so fuel ts h
    rw [C16_conflict_iff_not_ll1 _ _ _ _ _ h]
    have hfl : ∀ t B, Flw gapGrammar.productions t B → B = 0 := by
      intro t B hB
      have hB' : B = 0 ∨ B = 2 ∧ Flw gapGrammar.productions t 1 := by
        cases hB with
        | stop h => exact Or.inl rfl
        | first p hp u v B hr hf =>
          simp only [gapGrammar, List.mem_cons, List.not_mem_nil, or_false] at hp
          rcases hp with rfl | rfl | rfl | rfl
          · cases u with
            | nil => simp at hr
            | cons x u => simp at hr
          · simp at hr
          · cases u with
            | nil =>
              simp only [List.nil_append, List.cons.injEq, Item.nt.injEq] at hr
              obtain ⟨_, rfl⟩ := hr
              exact absurd hf fst_nil
            | cons x u => simp at hr
          · simp at hr
        | follow p hp u v B hr hn hf =>
          simp only [gapGrammar, List.mem_cons, List.not_mem_nil, or_false] at hp
          rcases hp with rfl | rfl | rfl | rfl
          · cases u with
            | nil => simp at hr
            | cons x u => simp at hr
          · simp at hr
          · cases u with
            | nil =>
              simp only [List.nil_append, List.cons.injEq, Item.nt.injEq] at hr
              exact Or.inr ⟨hr.1.symm, hf⟩
            | cons x u => simp at hr
          · simp at hr
      rcases hB' with h | ⟨rfl, h1⟩
      · exact h
      · exfalso
        cases h1 with
        | first p hp u v B hr hf =>
          simp only [gapGrammar, List.mem_cons, List.not_mem_nil, or_false] at hp
          rcases hp with rfl | rfl | rfl | rfl <;> cases u <;> simp at hr
        | follow p hp u v B hr hn hf =>
          simp only [gapGrammar, List.mem_cons, List.not_mem_nil, or_false] at hp
          rcases hp with rfl | rfl | rfl | rfl <;> cases u <;> simp at hr
    have hfst : ∀ t, ¬ Fst gapGrammar.productions t [Item.nt 2] := by
      intro t hf
      rcases fst_nt.1 hf with ⟨p, hp, hl, hf⟩ | ⟨_, hf⟩
      · simp only [gapGrammar, List.mem_cons, List.not_mem_nil, or_false] at hp
        rcases hp with rfl | rfl | rfl | rfl <;> simp at hl
        exact fst_nil hf
      · exact fst_nil hf
    have hpred : ∀ p ∈ gapGrammar.productions, p.left = 1 → ∀ t, ¬ Predicts gapGrammar.productions p t := by
      intro p hp hl t ht
      rcases ht with ht | ⟨_, ht⟩
      · have ht := fst_iff.2 ht
        simp only [gapGrammar, List.mem_cons, List.not_mem_nil, or_false] at hp
        rcases hp with rfl | rfl | rfl | rfl
        · simp at hl
        · exact fst_nil ht
        · exact hfst t ht
        · simp at hl
      · have := hfl t _ (flw_iff.2 ht)
        rw [hl] at this; cases this
    intro p hp q hq hl hpq t ⟨ht1, ht2⟩
    by_cases h1 : p.left = 1
    · exact hpred p hp h1 t ht1
    · simp only [gapGrammar, List.mem_cons, List.not_mem_nil, or_false] at hp hq
      rcases hp with rfl | rfl | rfl | rfl <;> rcases hq with rfl | rfl | rfl | rfl <;>
        simp at hl h1 hpq

end Syntaxis
