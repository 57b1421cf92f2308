import Verif.Props.Table
import Verif.Props.Display
import Verif.Props.Recursion
import Mathlib.Algebra.BigOperators.Group.List.Basic

/-!
# C79: the messages of `ll1_table`
-/

namespace Syntaxis
open Grammar Vocabulary

/-! ## which pairs are reported -/

/-- every message of an insertion loop is the production and an earlier entry for a scanned token -/
theorem tableInsert_mem (p : Production) (toks : List Nat) (hn : toks.Nodup) (st : TableState)
    (c : Production × Production) :
    c ∈ (tableInsert p toks st).conflicts ↔
      c ∈ st.conflicts ∨ (c.1 = p ∧ ∃ t ∈ toks, st.table.get (p.left, t) = some c.2) := by
  induction toks generalizing st with
  | nil => simp [tableInsert]
  | cons tok toks ih =>
    obtain ⟨h1, h2⟩ := List.nodup_cons.1 hn
    have hrest : ∀ t ∈ toks, (st.table.insert (p.left, tok) p).get (p.left, t) = st.table.get (p.left, t) := by
      intro t ht
      have : tok ≠ t := by rintro rfl; exact h1 ht
      simp [HMap.get_insert, this]
    have hrest' : (∃ t ∈ toks, (st.table.insert (p.left, tok) p).get (p.left, t) = some c.2) ↔
        ∃ t ∈ toks, st.table.get (p.left, t) = some c.2 :=
      exists_congr fun t => and_congr_right fun ht => by rw [hrest t ht]
    simp only [tableInsert, ih h2, hrest', List.mem_cons, exists_eq_or_imp]
    cases hg : st.table.get (p.left, tok) with
    | none => simp
    | some q =>
      obtain ⟨a, b⟩ := c
      simp only [List.mem_append, List.mem_singleton, Prod.mk.injEq, Option.some.injEq]
      constructor
      · rintro ((h | ⟨h1, h2⟩) | ⟨h1, h2⟩)
        · exact .inl h
        · exact .inr ⟨h1, .inl h2.symm⟩
        · exact .inr ⟨h1, .inr h2⟩
      · rintro (h | ⟨h1, h2 | h2⟩)
        · exact .inl (.inl h)
        · exact .inl (.inr ⟨h1, h2.symm⟩)
        · exact .inr ⟨h1, h2⟩

theorem tableStep_mem {so : SetOrder} {C : ProdFirstMap} {W : FollowMap} {p : Production}
    {st st' : TableState} (h : tableStep so C W p st = .ok st') (c : Production × Production) :
    c ∈ st'.conflicts ↔ c ∈ st.conflicts ∨
      (c.1 = p ∧ ((∃ t, Scan C W p t ∧ st.table.get (p.left, t) = some c.2) ∨
        (c.2 = p ∧ ∃ t, ScanTwice C W p t))) := by
  simp only [tableStep, bind_eq_ok, unwrap_eq_ok] at h
  obtain ⟨f, hf, h⟩ := h
  cases he : f.allowEpsilon
  · simp only [he, Bool.false_eq_true, if_false, Except.ok.injEq] at h
    subst h
    simp [tableInsert_mem _ _ (so.nodup _ _ _), so.mem, Scan, ScanTwice, hf, he]
  · simp only [he, if_true, bind_eq_ok, unwrap_eq_ok, Except.ok.injEq] at h
    obtain ⟨w, hw, rfl⟩ := h
    simp only [tableInsert_mem _ _ (so.nodup _ _ _), so.mem, tableInsert_get, Scan, ScanTwice, hf, he, hw,
      Option.some.injEq, exists_eq_left', true_and, or_assoc]
    refine or_congr_right ?_
    rw [← and_or_left]
    refine and_congr_right fun _ => ?_
    constructor
    · rintro (⟨t, h1, h2⟩ | ⟨t, h1, h2⟩)
      · exact .inl ⟨t, .inl h1, h2⟩
      · by_cases ht : t ∈ f.set
        · rw [if_pos ht, Option.some.injEq] at h2
          exact .inr ⟨h2.symm, t, ht, h1⟩
        · rw [if_neg ht] at h2
          exact .inl ⟨t, .inr h1, h2⟩
    · rintro (⟨t, h1, h2⟩ | ⟨h1, t, h2, h3⟩)
      · by_cases ht : t ∈ f.set
        · exact .inl ⟨t, ht, h2⟩
        · rcases h1 with h1 | h1
          · exact absurd h1 ht
          · exact .inr ⟨t, h1, by rw [if_neg ht]; exact h2⟩
      · exact .inr ⟨t, h3, by rw [if_pos h2, h1]⟩

theorem tableLoop_mem {so : SetOrder} {C : ProdFirstMap} {W : FollowMap} {ps : List Production}
    {st st' : TableState} (h : tableLoop so C W ps st = .ok st') (p q : Production) :
    (p, q) ∈ st'.conflicts ↔ (p, q) ∈ st.conflicts ∨ (p ∈ ps ∧ q = p ∧ ∃ t, ScanTwice C W p t) ∨
      (∃ pre post t, ps = pre ++ p :: post ∧ Scan C W p t ∧
        (∀ r ∈ pre, ¬ (r.left = p.left ∧ Scan C W r t)) ∧ st.table.get (p.left, t) = some q) ∨
      (∃ pre mid post t, ps = pre ++ q :: (mid ++ p :: post) ∧ q.left = p.left ∧ Scan C W q t ∧ Scan C W p t ∧
        ∀ r ∈ mid, ¬ (r.left = p.left ∧ Scan C W r t)) := by
  induction ps generalizing st with
  | nil => cases h; simp
  | cons a ps ih =>
    simp only [tableLoop, bind_eq_ok] at h
    obtain ⟨st1, h1, h2⟩ := h
    rw [ih h2, tableStep_mem h1]
    have hg := (tableStep_ok h1).1
    dsimp only
    constructor
    · rintro ((h3 | ⟨rfl, ⟨t, h3, h4⟩ | ⟨rfl, h4⟩⟩) | ⟨h3, rfl, h4⟩ | ⟨pre, post, t, rfl, h3, h4, h5⟩ |
        ⟨pre, mid, post, t, rfl, h3⟩)
      · exact .inl h3
      · exact .inr (.inr (.inl ⟨[], ps, t, rfl, h3, by simp, h4⟩))
      · exact .inr (.inl ⟨List.mem_cons_self .., rfl, h4⟩)
      · exact .inr (.inl ⟨List.mem_cons_of_mem _ h3, rfl, h4⟩)
      · rcases (hg _ _ _).1 h5 with ⟨b1, b2, rfl⟩ | ⟨b1, b2⟩
        · exact .inr (.inr (.inr ⟨[], pre, post, t, rfl, b1, b2, h3, h4⟩))
        · refine .inr (.inr (.inl ⟨a :: pre, post, t, rfl, h3, ?_, b2⟩))
          intro r hr
          rcases List.mem_cons.1 hr with rfl | hr
          · exact b1
          · exact h4 r hr
      · exact .inr (.inr (.inr ⟨a :: pre, mid, post, t, rfl, h3⟩))
    · rintro (h3 | ⟨h3, rfl, h4⟩ | ⟨pre, post, t, e, h3, h4, h5⟩ | ⟨pre, mid, post, t, e, h3, h4, h5, h6⟩)
      · exact .inl (.inl h3)
      · rcases List.mem_cons.1 h3 with rfl | h3
        · exact .inl (.inr ⟨rfl, .inr ⟨rfl, h4⟩⟩)
        · exact .inr (.inl ⟨h3, rfl, h4⟩)
      · cases pre with
        | nil =>
          simp only [List.nil_append, List.cons.injEq] at e
          obtain ⟨rfl, rfl⟩ := e
          exact .inl (.inr ⟨rfl, .inl ⟨t, h3, h5⟩⟩)
        | cons b pre =>
          simp only [List.cons_append, List.cons.injEq] at e
          obtain ⟨rfl, rfl⟩ := e
          exact .inr (.inr (.inl ⟨pre, post, t, rfl, h3, fun r hr => h4 r (List.mem_cons_of_mem _ hr),
            (hg _ _ _).2 (.inr ⟨h4 a (List.mem_cons_self ..), h5⟩)⟩))
      · cases pre with
        | nil =>
          simp only [List.nil_append, List.cons.injEq] at e
          obtain ⟨rfl, rfl⟩ := e
          exact .inr (.inr (.inl ⟨mid, post, t, rfl, h5, h6, (hg _ _ _).2 (.inl ⟨h3, h4, rfl⟩)⟩))
        | cons b pre =>
          simp only [List.cons_append, List.cons.injEq] at e
          obtain ⟨rfl, rfl⟩ := e
          exact .inr (.inr (.inr ⟨pre, mid, post, t, rfl, h3, h4, h5, h6⟩))

/-- a token that predicts the production in both ways: through its right-hand side and through what may
follow an empty derivation of it -/
def PredictsTwice (P : List Production) (p : Production) (t : Nat) : Prop :=
  InFirst P p.right t ∧ Nullable P p.right ∧ InFollow P p.left t

/-- **C79** exactly these pairs are reported: a production with itself if some token predicts it in both
ways; and `p` with `q` if `q` is iterated before `p`, both belong to the same rule, some token predicts
both, and no production of that rule iterated between them is predicted by that token. -/
theorem C79_exact (g : Grammar) (o : IterOrder g) (so : SetOrder) (fuel : Nat) (ts : TableState)
    (h : runTable g o so fuel = .ok ts) (p q : Production) :
    (p, q) ∈ ts.conflicts ↔
      (p ∈ g.productions ∧ q = p ∧ ∃ t, PredictsTwice g.productions p t) ∨
      ∃ pre mid post t, o.ord = pre ++ q :: (mid ++ p :: post) ∧ q.left = p.left ∧
        Predicts g.productions q t ∧ Predicts g.productions p t ∧
        ∀ r ∈ mid, r.left = p.left → ¬ Predicts g.productions r t := by
  obtain ⟨F, C, W, _, _, h3, hs, hs2⟩ := runTable_parts h
  have hm := fun r => IterOrder.mem o r
  rw [tableLoop_mem h3]
  simp only [List.not_mem_nil, false_or, HMap.get_empty, reduceCtorEq, and_false, exists_false, hm]
  refine or_congr ?_ ?_
  · exact and_congr_right fun hp => and_congr_right fun _ => exists_congr fun t => hs2 p hp t
  · constructor
    · rintro ⟨pre, mid, post, t, e, b1, b2, b3, b4⟩
      refine ⟨pre, mid, post, t, e, b1, (hs q ((hm q).1 (by simp [e])) t).1 b2, (hs p ((hm p).1 (by simp [e])) t).1 b3, ?_⟩
      intro r hr hl hp
      exact b4 r hr ⟨hl, (hs r ((hm r).1 (by simp [e, hr])) t).2 hp⟩
    · rintro ⟨pre, mid, post, t, e, b1, b2, b3, b4⟩
      refine ⟨pre, mid, post, t, e, b1, (hs q ((hm q).1 (by simp [e])) t).2 b2, (hs p ((hm p).1 (by simp [e])) t).2 b3, ?_⟩
      rintro r hr ⟨hl, hp⟩
      exact b4 r hr hl ((hs r ((hm r).1 (by simp [e, hr])) t).1 hp)

/-- **C79** every message is genuine: it names two productions of one rule that some token predicts, and if it names
the same production twice then some token predicts that production in both ways. -/
theorem C79_genuine (g : Grammar) (o : IterOrder g) (so : SetOrder) (fuel : Nat) (ts : TableState)
    (h : runTable g o so fuel = .ok ts) (p q : Production) (hc : (p, q) ∈ ts.conflicts) :
    p ∈ g.productions ∧ q ∈ g.productions ∧ p.left = q.left ∧
    (∃ t, Predicts g.productions p t ∧ Predicts g.productions q t) ∧
    (p = q → ∃ t, PredictsTwice g.productions p t) := by
  rcases (C79_exact g o so fuel ts h p q).1 hc with ⟨hp, rfl, t, ht⟩ | ⟨pre, mid, post, t, e, b1, b2, b3, _⟩
  · exact ⟨hp, hp, rfl, ⟨t, .inl ht.1, .inl ht.1⟩, fun _ => ⟨t, ht⟩⟩
  · refine ⟨(IterOrder.mem o p).1 (by simp [e]), (IterOrder.mem o q).1 (by simp [e]), b1.symm, ⟨t, b3, b2⟩, ?_⟩
    rintro rfl
    have := o.ord_nodup
    rw [e] at this
    have := (List.nodup_append.1 this).2.1
    exact absurd (by simp) (List.nodup_cons.1 this).1

/-- the first element with a property, and what is before it -/
theorem first_with {α : Type} (P : α → Prop) : ∀ {l : List α}, (∃ x ∈ l, P x) →
    ∃ a x b, l = a ++ x :: b ∧ P x ∧ ∀ y ∈ a, ¬ P y
  | [], h => by obtain ⟨x, hx, _⟩ := h; cases hx
  | y :: l, h => by
    by_cases hy : P y
    · exact ⟨[], y, l, rfl, hy, by simp⟩
    · obtain ⟨x, hx, hp⟩ := h
      obtain ⟨a, z, b, e, hz, ha⟩ := first_with P (l := l) ⟨x, by
        rcases List.mem_cons.1 hx with rfl | hx
        · exact absurd hp hy
        · exact hx, hp⟩
      refine ⟨y :: a, z, b, by rw [e]; rfl, hz, ?_⟩
      intro w hw
      rcases List.mem_cons.1 hw with rfl | hw
      · exact hy
      · exact ha w hw

/-- the last element with a property, and what is behind it -/
theorem last_with {α : Type} (P : α → Prop) {l : List α} (h : ∃ x ∈ l, P x) :
    ∃ a x b, l = a ++ x :: b ∧ P x ∧ ∀ y ∈ b, ¬ P y := by
  obtain ⟨x, hx, hp⟩ := h
  obtain ⟨a, z, b, e, hz, ha⟩ := first_with P (l := l.reverse) ⟨x, by simpa using hx, hp⟩
  refine ⟨b.reverse, z, a.reverse, ?_, hz, fun y hy => ha y (by simpa using hy)⟩
  rw [← List.reverse_reverse l, e]; simp

/-- **C79** no participant is left out: of two different productions of a rule predicted by the same token each is
named in a message together with another production of the rule predicted by that token. -/
theorem C79_participants (g : Grammar) (o : IterOrder g) (so : SetOrder) (fuel : Nat) (ts : TableState)
    (h : runTable g o so fuel = .ok ts) (p q : Production) (hp : p ∈ g.productions) (hq : q ∈ g.productions)
    (hl : p.left = q.left) (hne : p ≠ q) (t : Nat) (hpt : Predicts g.productions p t)
    (hqt : Predicts g.productions q t) :
    ∃ r ∈ g.productions, r ≠ p ∧ r.left = p.left ∧ Predicts g.productions r t ∧
      ((p, r) ∈ ts.conflicts ∨ (r, p) ∈ ts.conflicts) := by
  have hm := fun r => IterOrder.mem o r
  obtain ⟨pre, post, e⟩ := List.append_of_mem ((hm p).2 hp)
  have hnd := o.ord_nodup
  rw [e] at hnd
  have hpre : ∀ r ∈ pre, r ≠ p := by
    rintro r hr rfl
    exact (List.nodup_append.1 hnd).2.2 r hr r (List.mem_cons_self ..) rfl
  have hpost : ∀ r ∈ post, r ≠ p := by
    rintro r hr rfl
    exact (List.nodup_cons.1 (List.nodup_append.1 hnd).2.1).1 hr
  have hq' := (hm q).2 hq
  rw [e, List.mem_append, List.mem_cons] at hq'
  rcases hq' with hq' | rfl | hq'
  · obtain ⟨a, r, b, e', ⟨h1, h2⟩, h3⟩ := last_with (fun r => r.left = p.left ∧ Predicts g.productions r t)
      ⟨q, hq', hl.symm, hqt⟩
    subst e'
    refine ⟨r, (hm r).1 (by simp [e]), hpre r (by simp), h1, h2, .inl ?_⟩
    exact (C79_exact g o so fuel ts h p r).2
      (.inr ⟨a, b, post, t, by rw [e]; simp, h1, h2, hpt, fun y hy hyl hyp => h3 y hy ⟨hyl, hyp⟩⟩)
  · exact absurd rfl hne
  · obtain ⟨a, r, b, e', ⟨h1, h2⟩, h3⟩ := first_with (fun r => r.left = p.left ∧ Predicts g.productions r t)
      ⟨q, hq', hl.symm, hqt⟩
    subst e'
    refine ⟨r, (hm r).1 (by simp [e]), hpost r (by simp), h1, h2, .inr ?_⟩
    exact (C79_exact g o so fuel ts h r p).2
      (.inr ⟨pre, a, b, t, e, h1.symm, hpt, h2, fun y hy hyl hyp => h3 y hy ⟨hyl.trans h1, hyp⟩⟩)

/-! ## how many messages -/

theorem tableInsert_count (p : Production) (toks : List Nat) (st : TableState) (K : Finset (Nat × Nat))
    (hK : ∀ k, k ∈ K ↔ ∃ q, st.table.get k = some q) :
    ∃ K' : Finset (Nat × Nat), (∀ k, k ∈ K' ↔ ∃ q, (tableInsert p toks st).table.get k = some q) ∧
      (tableInsert p toks st).conflicts.length + K'.card = st.conflicts.length + K.card + toks.length := by
  induction toks generalizing st K with
  | nil => exact ⟨K, hK, by simp [tableInsert]⟩
  | cons tok toks ih =>
    have hK1 : ∀ c : List (Production × Production), ∀ k, k ∈ insert (p.left, tok) K ↔
        ∃ q, (TableState.mk (st.table.insert (p.left, tok) p) c).table.get k = some q := by
      intro c k
      simp only [Finset.mem_insert, hK, HMap.get_insert]
      by_cases hk : k = (p.left, tok)
      · simp [hk]
      · simp [hk, Ne.symm hk]
    cases hg : st.table.get (p.left, tok) with
    | none =>
      obtain ⟨K', h1, h2⟩ := ih ⟨st.table.insert (p.left, tok) p, st.conflicts⟩ _ (hK1 _)
      have hn : (p.left, tok) ∉ K := by simp [hK, hg]
      refine ⟨K', by simpa only [tableInsert, hg] using h1, ?_⟩
      simp only [tableInsert, hg, h2, Finset.card_insert_of_notMem hn, List.length_cons]
      omega
    | some q =>
      obtain ⟨K', h1, h2⟩ := ih ⟨st.table.insert (p.left, tok) p, st.conflicts ++ [(p, q)]⟩ _ (hK1 _)
      have hn : (p.left, tok) ∈ K := by simp [hK, hg]
      refine ⟨K', by simpa only [tableInsert, hg] using h1, ?_⟩
      simp only [tableInsert, hg, h2, Finset.insert_eq_of_mem hn, List.length_cons, List.length_append, List.length_nil]
      omega

theorem Grammar.SetOrder.length (so : SetOrder) (p : Production) (b : Bool) (s : Finset Nat) :
    (so.enum p b s).length = s.card := by
  rw [← List.toFinset_card_of_nodup (so.nodup p b s)]
  congr 1
  ext x
  rw [List.mem_toFinset, so.mem]

/-- number of insertions for a production -/
def inserts (C : ProdFirstMap) (W : FollowMap) (p : Production) : Nat :=
  match C.get p with
  | some f => f.set.card + if f.allowEpsilon then ((W.get p.left).getD ∅).card else 0
  | none => 0

theorem tableLoop_count {so : SetOrder} {C : ProdFirstMap} {W : FollowMap} {ps : List Production}
    {st st' : TableState} (h : tableLoop so C W ps st = .ok st') (K : Finset (Nat × Nat))
    (hK : ∀ k, k ∈ K ↔ ∃ q, st.table.get k = some q) :
    ∃ K' : Finset (Nat × Nat), (∀ k, k ∈ K' ↔ ∃ q, st'.table.get k = some q) ∧
      st'.conflicts.length + K'.card = st.conflicts.length + K.card + (ps.map (inserts C W)).sum := by
  induction ps generalizing st K with
  | nil => cases h; exact ⟨K, hK, by simp⟩
  | cons p ps ih =>
    simp only [tableLoop, bind_eq_ok] at h
    obtain ⟨st1, h1, h2⟩ := h
    have step : ∃ K1 : Finset (Nat × Nat), (∀ k, k ∈ K1 ↔ ∃ q, st1.table.get k = some q) ∧
        st1.conflicts.length + K1.card = st.conflicts.length + K.card + inserts C W p := by
      simp only [tableStep, bind_eq_ok, unwrap_eq_ok] at h1
      obtain ⟨f, hf, h1⟩ := h1
      obtain ⟨K1, a1, a2⟩ := tableInsert_count p (so.enum p false f.set) st K hK
      cases he : f.allowEpsilon
      · simp only [he, Bool.false_eq_true, if_false, Except.ok.injEq] at h1
        subst h1
        exact ⟨K1, a1, by rw [a2, so.length]; simp [inserts, hf, he]⟩
      · simp only [he, if_true, bind_eq_ok, unwrap_eq_ok, Except.ok.injEq] at h1
        obtain ⟨w, hw, rfl⟩ := h1
        obtain ⟨K2, b1, b2⟩ := tableInsert_count p (so.enum p true w) _ K1 a1
        refine ⟨K2, b1, ?_⟩
        rw [b2, a2, so.length, so.length]
        simp only [inserts, hf, he, hw, if_true, Option.getD_some]
        omega
    obtain ⟨K1, a1, a2⟩ := step
    obtain ⟨K2, b1, b2⟩ := ih h2 K1 a1
    refine ⟨K2, b1, ?_⟩
    rw [b2, a2]
    simp only [List.map_cons, List.sum_cons]
    omega

/-- **C79** the number of messages: one for every way in which a token predicts a production, less the number of
pairs of a rule and a token predicting it. `fi p` is FIRST of the right-hand side, `fo p` is FOLLOW of the rule if the
right-hand side derives the empty string, and empty otherwise. -/
theorem C79_count (g : Grammar) (o : IterOrder g) (so : SetOrder) (fuel : Nat) (ts : TableState)
    (h : runTable g o so fuel = .ok ts) (fi fo : Production → Finset Nat) (K : Finset (Nat × Nat))
    (hfi : ∀ p ∈ g.productions, ∀ t, t ∈ fi p ↔ InFirst g.productions p.right t)
    (hfo : ∀ p ∈ g.productions, ∀ t, t ∈ fo p ↔ Nullable g.productions p.right ∧ InFollow g.productions p.left t)
    (hK : ∀ A t, (A, t) ∈ K ↔ ∃ p ∈ g.productions, p.left = A ∧ Predicts g.productions p t) :
    ts.conflicts.length + K.card = (g.productions.map fun p => (fi p).card + (fo p).card).sum := by
  have h0 := h
  simp only [runTable, bind_eq_ok] at h
  obtain ⟨⟨F, C⟩, h1, W, h2, h3⟩ := h
  have h2' : runFollow g o fuel = .ok W := by
    simp only [runFollow, h1, bind_ok, h2]
  obtain ⟨K', b1, b2⟩ := tableLoop_count h3 ∅ (by simp)
  have hKK : K = K' := by
    ext ⟨A, t⟩
    rw [hK, b1]
    constructor
    · rintro ⟨p, hp, rfl, ht⟩
      exact (C15_table_complete g o so fuel ts h0 p hp t ht).1
    · rintro ⟨p, hp⟩
      obtain ⟨c1, c2, c3⟩ := C14_table_sound g o so fuel ts h0 A t p hp
      exact ⟨p, c1, c2, c3⟩
  subst hKK
  rw [b2, ← (o.ord_perm.map _).sum_eq]
  simp only [List.length_nil, Finset.card_empty, Nat.zero_add]
  congr 1
  refine List.map_congr_left fun p hp => ?_
  have hp' := (IterOrder.mem o p).1 hp
  obtain ⟨c, hc, c1, c2⟩ := (C08_production_first_exact g o fuel F C h1 p).2 hp'
  have hl : p.left ∈ g.vocabulary.nonterminals := by
    obtain ⟨st, hf, _⟩ := runFollow_fix h2'
    exact (o.ids_mem _).1 (hf.left_mem hp)
  obtain ⟨s, hs, s1⟩ := C11_follow_exact g o fuel W h2' p.left hl
  have e1 : fi p = c.set := by
    ext t; rw [hfi p hp', c2]
  have e2 : fo p = if c.allowEpsilon then s else ∅ := by
    ext t
    rw [hfo p hp', ← s1, ← c1]
    cases c.allowEpsilon <;> simp
  rw [e1, e2]
  simp only [inserts, hc, hs, Option.getD_some]
  cases c.allowEpsilon <;> simp

/-- **C79** the number of messages does not depend on the hash orders. -/
theorem C79_count_independent (g : Grammar) (o o' : IterOrder g) (so so' : SetOrder) (fuel fuel' : Nat)
    (ts ts' : TableState) (h : runTable g o so fuel = .ok ts) (h' : runTable g o' so' fuel' = .ok ts') :
    ts.conflicts.length = ts'.conflicts.length := by
  classical
  obtain ⟨F, C, W, h1, h2, h3, hs, _⟩ := runTable_parts h
  have c1 : ∀ p ∈ g.productions, ∃ c : Finset Nat, ∀ t, t ∈ c ↔ InFirst g.productions p.right t := by
    intro p hp
    obtain ⟨c, hc, _, c2⟩ := (C08_production_first_exact g o fuel F C h1 p).2 hp
    exact ⟨c.set, c2⟩
  have c2 : ∀ p ∈ g.productions, ∃ c : Finset Nat, ∀ t, t ∈ c ↔
      Nullable g.productions p.right ∧ InFollow g.productions p.left t := by
    intro p hp
    have hl : p.left ∈ g.vocabulary.nonterminals := by
      obtain ⟨st, hf, _⟩ := runFollow_fix h2
      exact (o.ids_mem _).1 (hf.left_mem ((IterOrder.mem o p).2 hp))
    obtain ⟨s, _, s1⟩ := C11_follow_exact g o fuel W h2 p.left hl
    by_cases hn : Nullable g.productions p.right
    · exact ⟨s, fun t => by rw [s1]; exact ⟨fun h => ⟨hn, h⟩, fun h => h.2⟩⟩
    · exact ⟨∅, fun t => by simp [hn]⟩
  obtain ⟨K, b1, _⟩ := tableLoop_count h3 ∅ (by simp)
  have hK : ∀ A t, (A, t) ∈ K ↔ ∃ p ∈ g.productions, p.left = A ∧ Predicts g.productions p t := by
    intro A t
    rw [b1]
    constructor
    · rintro ⟨p, hp⟩
      obtain ⟨c1, c2, c3⟩ := C14_table_sound g o so fuel ts h A t p hp
      exact ⟨p, c1, c2, c3⟩
    · rintro ⟨p, hp, rfl, ht⟩
      exact (C15_table_complete g o so fuel ts h p hp t ht).1
  let fi : Production → Finset Nat := fun p => if hp : p ∈ g.productions then (c1 p hp).choose else ∅
  let fo : Production → Finset Nat := fun p => if hp : p ∈ g.productions then (c2 p hp).choose else ∅
  have hfi : ∀ p ∈ g.productions, ∀ t, t ∈ fi p ↔ InFirst g.productions p.right t := by
    intro p hp
    simp only [fi, dif_pos hp]
    exact (c1 p hp).choose_spec
  have hfo : ∀ p ∈ g.productions, ∀ t, t ∈ fo p ↔
      Nullable g.productions p.right ∧ InFollow g.productions p.left t := by
    intro p hp
    simp only [fo, dif_pos hp]
    exact (c2 p hp).choose_spec
  have e1 := C79_count g o so fuel ts h fi fo K hfi hfo hK
  have e2 := C79_count g o' so' fuel' ts' h' fi fo K hfi hfo hK
  omega

/-! ## the printed text -/

theorem debugItem_cut {x y : Item} {s s' : Str} (h : debugItem x ++ s = debugItem y ++ s') : x = y ∧ s = s' := by
  have hno : ∀ n, ')' ∉ natToString n := fun n => natToString_no n (by decide)
  cases x with
  | nt i =>
    cases y with
    | nt j =>
      simp only [debugItem, List.append_assoc, List.cons_append, List.nil_append, List.cons.injEq, true_and] at h
      obtain ⟨h1, h2⟩ := cut_first (hno i) (hno j) h
      exact ⟨by rw [natToString_inj h1], h2⟩
    | t j => simp [debugItem] at h
  | t i =>
    cases y with
    | nt j => simp [debugItem] at h
    | t j =>
      simp only [debugItem, List.append_assoc, List.cons_append, List.nil_append, List.cons.injEq, true_and] at h
      obtain ⟨h1, h2⟩ := cut_first (hno i) (hno j) h
      exact ⟨by rw [natToString_inj h1], h2⟩

theorem debugItem_head (x : Item) (s : Str) : (debugItem x ++ s).head? ≠ some ']' := by
  cases x <;> simp [debugItem]

theorem debugRight_two (x y : Item) (r : List Item) :
    debugRight (x :: y :: r) = debugItem x ++ chars! ", " ++ debugRight (y :: r) := rfl

theorem debugRight_cut : ∀ {r r' : List Item} {s s' : Str}, debugRight r ++ s = debugRight r' ++ s' → r = r' ∧ s = s'
  | [], [], s, s', h => by simpa [debugRight] using h
  | [], [y], s, s', h => by
    have := debugItem_head y (']' :: s')
    simp only [debugRight, List.append_assoc, List.cons_append, List.nil_append] at h
    rw [← h] at this
    simp at this
  | [], y :: y' :: r', s, s', h => by
    have := debugItem_head y (',' :: ' ' :: (debugRight (y' :: r') ++ s'))
    simp only [debugRight, List.append_assoc, List.cons_append, List.nil_append] at h
    rw [← h] at this
    simp at this
  | [x], [], s, s', h => by
    have := debugItem_head x (']' :: s)
    simp only [debugRight, List.append_assoc, List.cons_append, List.nil_append] at h
    rw [h] at this
    simp at this
  | x :: x' :: r, [], s, s', h => by
    have := debugItem_head x (',' :: ' ' :: (debugRight (x' :: r) ++ s))
    simp only [debugRight, List.append_assoc, List.cons_append, List.nil_append] at h
    rw [h] at this
    simp at this
  | [x], [y], s, s', h => by
    simp only [debugRight, List.append_assoc] at h
    obtain ⟨rfl, h1⟩ := debugItem_cut h
    exact ⟨rfl, by simpa using h1⟩
  | [x], y :: y' :: r', s, s', h => by
    simp only [debugRight, List.append_assoc] at h
    obtain ⟨_, h1⟩ := debugItem_cut h
    simp at h1
  | x :: x' :: r, [y], s, s', h => by
    simp only [debugRight, List.append_assoc] at h
    obtain ⟨_, h1⟩ := debugItem_cut h
    simp at h1
  | x :: x' :: r, y :: y' :: r', s, s', h => by
    rw [debugRight_two, debugRight_two] at h
    simp only [List.append_assoc] at h
    obtain ⟨rfl, h1⟩ := debugItem_cut h
    simp only [List.cons_append, List.nil_append, List.cons.injEq, true_and] at h1
    obtain ⟨h2, h3⟩ := debugRight_cut h1
    exact ⟨by rw [h2], h3⟩

theorem debugProduction_cut {p q : Production} {s s' : Str} (h : debugProduction p ++ s = debugProduction q ++ s') :
    p = q ∧ s = s' := by
  have hno : ∀ n, ',' ∉ natToString n := fun n => natToString_no n (by decide)
  simp only [debugProduction, List.append_assoc, List.cons_append, List.nil_append, List.cons.injEq, true_and] at h
  obtain ⟨h1, h2⟩ := cut_first (hno p.left) (hno q.left) h
  simp only [List.cons.injEq, true_and] at h2
  obtain ⟨h3, h4⟩ := debugRight_cut h2
  refine ⟨?_, by simpa using h4⟩
  obtain ⟨l, r⟩ := p
  obtain ⟨l', r'⟩ := q
  simp only [Production.mk.injEq]
  exact ⟨natToString_inj h1, h3⟩

/-- **C79** the printed text determines which pairs were reported, and in which order. -/
theorem C79_readable : ∀ (cs cs' : List (Production × Production)), conflictOutput cs = conflictOutput cs' → cs = cs'
  | [], [], _ => rfl
  | [], c :: cs, h => by simp [conflictOutput, conflictLine, debugProduction] at h
  | c :: cs, [], h => by simp [conflictOutput, conflictLine, debugProduction] at h
  | (a, b) :: cs, (a', b') :: cs', h => by
    simp only [conflictOutput, List.flatMap_cons, conflictLine, List.append_assoc] at h
    obtain ⟨rfl, h1⟩ := debugProduction_cut h
    simp only [List.cons_append, List.nil_append, List.cons.injEq, true_and] at h1
    obtain ⟨rfl, h2⟩ := debugProduction_cut h1
    simp only [List.cons.injEq, true_and] at h2
    rw [C79_readable cs cs' h2]

/-! ## non-vacuity -/

/-- `s : ID+`: one message, whose two sides depend on the order -/
example : ((runTable plusGrammar plusOrder incSetOrder 10).map fun ts => conflictOutput ts.conflicts) =
      .ok (chars! "Production { left: 1, right: [Terminal(2), NonTerminal(1)] }, Production { left: 1, right: [Terminal(2)] }\n") ∧
    ((runTable plusGrammar plusOrder' incSetOrder 10).map fun ts => ts.conflicts) =
      .ok [(⟨1, [.t 2]⟩, ⟨1, [.t 2, .nt 1]⟩)] := by
  constructor <;> decide +kernel

/-- `S → A ID`, `A → B`, `B → ID | ε` -/
def twiceGrammar : Grammar where
  name := []
  vocabulary := ((Vocabulary.new.addNamedNonterminal 0 ['s']).1.addUnnamedNonterminal 1 |>.1).addUnnamedNonterminal 2 |>.1
  productions := [⟨0, [.nt 1, .t 2]⟩, ⟨1, [.nt 2]⟩, ⟨2, [.t 2]⟩, ⟨2, []⟩]

def twiceOrder : IterOrder twiceGrammar where
  ids := [0, 1, 2]
  ids_mem := by
    intro i
    have : twiceGrammar.vocabulary.nonterminals = {0, 1, 2} := by decide
    rw [this]; simp
  ord := twiceGrammar.productions
  ord_perm := List.Perm.refl _
  ord_nodup := by decide

/-- a production reported with itself -/
example : ((runTable twiceGrammar twiceOrder incSetOrder 10).map fun ts => ts.conflicts) =
    .ok [(⟨1, [.nt 2]⟩, ⟨1, [.nt 2]⟩), (⟨2, []⟩, ⟨2, [.t 2]⟩)] := by
  decide +kernel

end Syntaxis
