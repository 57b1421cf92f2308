import Verif.Lemmas.Follow

/-!
# C05–C13: FIRST and FOLLOW

`g` is an arbitrary grammar, `o` an arbitrary pair of hash iteration orders.
-/

namespace Syntaxis
open Grammar

/-- the derivation relations do not depend on the order in which the productions are listed -/
theorem IterOrder.mem {g : Grammar} (o : IterOrder g) (p : Production) :
    p ∈ o.ord ↔ p ∈ g.productions := o.ord_perm.mem_iff

/-- a well-formed grammar: every nonterminal of a production is registered -/
def Grammar.WellFormed (g : Grammar) : Prop := Closed g.vocabulary.nonterminals g.productions

theorem Grammar.WellFormed.closed {g : Grammar} (h : g.WellFormed) (o : IterOrder g) :
    ∀ p ∈ o.ord, p.left ∈ o.ids ∧ ∀ B, Item.nt B ∈ p.right → B ∈ o.ids := by
  intro p hp
  have := h p ((IterOrder.mem o p).1 hp)
  exact ⟨(o.ids_mem _).2 this.1, fun B hB => (o.ids_mem _).2 (this.2 B hB)⟩

/-- The running example: `E → T E'`, `E' → '+' T E' | ε`, `T → ID`, plus the left-recursive and
unreachable `L → L ID | ε`. -/
def exGrammar : Grammar where
  name := []
  vocabulary := { Vocabulary.new with nonterminals := {0, 1, 2, 3} }
  productions := [⟨0, [.nt 2, .nt 1]⟩, ⟨1, [.t 3, .nt 2, .nt 1]⟩, ⟨1, []⟩, ⟨2, [.t 2]⟩,
    ⟨3, [.nt 3, .t 2]⟩, ⟨3, []⟩]

/-- some iteration order of the example -/
def exOrder : IterOrder exGrammar where
  ids := [3, 0, 1, 2]
  ids_mem := by
    intro i
    simp only [exGrammar, List.mem_cons, List.not_mem_nil, Finset.mem_insert, Finset.mem_singleton]
    tauto
  ord := exGrammar.productions.reverse
  ord_perm := List.reverse_perm _
  ord_nodup := by decide

/-- non-vacuity of `WellFormed` -/
theorem exGrammar_wf : exGrammar.WellFormed := by
  intro p hp
  simp only [exGrammar, List.mem_cons, List.not_mem_nil, or_false] at hp ⊢
  rcases hp with rfl | rfl | rfl | rfl | rfl | rfl <;> simp

/-- **C05** `first_set` terminates without panic on every well-formed grammar: there is one result
it returns with any sufficiently large number of allowed loop iterations, and it never panics. -/
theorem C05_first_set_returns (g : Grammar) (o : IterOrder g) (h : g.WellFormed) :
    (∃ n r, ∀ fuel, n ≤ fuel → runFirst g o fuel = .ok r) ∧
    ∀ fuel, runFirst g o fuel ≠ .error .panic :=
  ⟨firstSet_total (h.closed o), firstSet_no_panic (h.closed o)⟩

/-- **C06** the nullability flags are exact. -/
theorem C06_nullable_exact (g : Grammar) (o : IterOrder g) (fuel : Nat) (F : FirstMap)
    (C : ProdFirstMap) (h : runFirst g o fuel = .ok (F, C)) (A : Nat)
    (hA : A ∈ g.vocabulary.nonterminals) :
    ∃ c, F.get A = some c ∧ (c.allowEpsilon = true ↔ Nullable g.productions [Item.nt A]) := by
  obtain ⟨st, hf, rfl, rfl⟩ := firstSet_fix h
  obtain ⟨c, hc⟩ := (hf.inv.dom A).2 ((o.ids_mem A).2 hA)
  exact ⟨c, hc, by rw [← Nullable.congr (IterOrder.mem o)]; exact (hf.get hc).1⟩

/-- **C07** the FIRST sets are exact. -/
theorem C07_first_exact (g : Grammar) (o : IterOrder g) (fuel : Nat) (F : FirstMap)
    (C : ProdFirstMap) (h : runFirst g o fuel = .ok (F, C)) (A : Nat)
    (hA : A ∈ g.vocabulary.nonterminals) :
    ∃ c, F.get A = some c ∧ ∀ t, t ∈ c.set ↔ InFirst g.productions [Item.nt A] t := by
  obtain ⟨st, hf, rfl, rfl⟩ := firstSet_fix h
  obtain ⟨c, hc⟩ := (hf.inv.dom A).2 ((o.ids_mem A).2 hA)
  exact ⟨c, hc, fun t => by rw [← InFirst.congr (IterOrder.mem o)]; exact (hf.get hc).2 t⟩

/-- **C07** the first map has no other keys. -/
theorem C07_first_keys (g : Grammar) (o : IterOrder g) (fuel : Nat) (F : FirstMap)
    (C : ProdFirstMap) (h : runFirst g o fuel = .ok (F, C)) (A : Nat) :
    F.get A = none ↔ A ∉ g.vocabulary.nonterminals := by
  obtain ⟨st, hf, rfl, rfl⟩ := firstSet_fix h
  rw [← o.ids_mem A, ← hf.inv.dom A]
  cases st.result.get A <;> simp

/-- **C08** the per-production FIRST collections are exact and have exactly the productions as
keys. -/
theorem C08_production_first_exact (g : Grammar) (o : IterOrder g) (fuel : Nat) (F : FirstMap)
    (C : ProdFirstMap) (h : runFirst g o fuel = .ok (F, C)) (p : Production) :
    (p ∉ g.productions → C.get p = none) ∧
    (p ∈ g.productions → ∃ c, C.get p = some c ∧
      (c.allowEpsilon = true ↔ Nullable g.productions p.right) ∧
      ∀ t, t ∈ c.set ↔ InFirst g.productions p.right t) := by
  obtain ⟨st, hf, rfl, rfl⟩ := firstSet_fix h
  rw [← IterOrder.mem o p, ← hf.inv.cdom p]
  constructor
  · intro hn
    cases hc : st.cache.get p with
    | none => rfl
    | some c => exact absurd ⟨c, hc⟩ hn
  · rintro ⟨c, hc⟩
    refine ⟨c, hc, ?_, fun t => ?_⟩
    · rw [← Nullable.congr (IterOrder.mem o)]; exact (hf.cget hc).1
    · rw [← InFirst.congr (IterOrder.mem o)]; exact (hf.cget hc).2 t

theorem Collection.ext' {c d : Collection} (h1 : c.allowEpsilon = true ↔ d.allowEpsilon = true)
    (h2 : ∀ t, t ∈ c.set ↔ t ∈ d.set) : c = d := by
  cases c with
  | mk ce cs =>
    cases d with
    | mk de ds =>
      simp only [Collection.mk.injEq]
      exact ⟨Bool.eq_iff_iff.2 h1, Finset.ext h2⟩

/-- **C09** the maps returned by `first_set` do not depend on the hash iteration orders. -/
theorem C09_first_order_independent (g : Grammar) (o o' : IterOrder g) (fuel fuel' : Nat)
    (F F' : FirstMap) (C C' : ProdFirstMap) (h : runFirst g o fuel = .ok (F, C))
    (h' : runFirst g o' fuel' = .ok (F', C')) :
    (∀ A, F.get A = F'.get A) ∧ ∀ p, C.get p = C'.get p := by
  constructor
  · intro A
    by_cases hA : A ∈ g.vocabulary.nonterminals
    · obtain ⟨c, hc, h1⟩ := C06_nullable_exact g o fuel F C h A hA
      obtain ⟨d, hd, h2⟩ := C07_first_exact g o fuel F C h A hA
      obtain ⟨c', hc', h1'⟩ := C06_nullable_exact g o' fuel' F' C' h' A hA
      obtain ⟨d', hd', h2'⟩ := C07_first_exact g o' fuel' F' C' h' A hA
      rw [hc] at hd; cases hd
      rw [hc'] at hd'; cases hd'
      rw [hc, hc', Collection.ext' (h1.trans h1'.symm) fun t => (h2 t).trans (h2' t).symm]
    · rw [(C07_first_keys g o fuel F C h A).2 hA, (C07_first_keys g o' fuel' F' C' h' A).2 hA]
  · intro p
    have a := C08_production_first_exact g o fuel F C h p
    have b := C08_production_first_exact g o' fuel' F' C' h' p
    by_cases hp : p ∈ g.productions
    · obtain ⟨c, hc, h1, h2⟩ := a.2 hp
      obtain ⟨d, hd, h3, h4⟩ := b.2 hp
      rw [hc, hd, Collection.ext' (h1.trans h3.symm) fun t => (h2 t).trans (h4 t).symm]
    · rw [a.1 hp, b.1 hp]

/-- everything a successful `first_set; follow_set` sequence establishes -/
theorem runFollow_fix {g : Grammar} {o : IterOrder g} {fuel : Nat} {W : FollowMap}
    (h : runFollow g o fuel = .ok W) :
    ∃ st, FirstFix o.ids o.ord st ∧ FollowFix o.ids o.ord st.result W := by
  simp only [runFollow, bind_eq_ok] at h
  obtain ⟨⟨F, C⟩, h1, h2⟩ := h
  obtain ⟨st, hf, rfl, rfl⟩ := firstSet_fix h1
  exact ⟨st, hf, followSet_fix (fun r => epsOf_sound hf.inv.eps)
    (fun t r => firstOf_sound hf.inv.eps hf.inv.fst) h2⟩

/-- **C10** `follow_set` terminates without panic on every well-formed grammar with a rule 0. -/
theorem C10_follow_set_returns (g : Grammar) (o : IterOrder g) (h : g.WellFormed)
    (h0 : 0 ∈ g.vocabulary.nonterminals) :
    ∃ n W, ∀ fuel, n ≤ fuel → runFollow g o fuel = .ok W := by
  obtain ⟨n, ⟨F, C⟩, h1⟩ := firstSet_total (h.closed o)
  obtain ⟨st, hf, rfl, rfl⟩ := firstSet_fix (h1 n (Nat.le_refl n))
  obtain ⟨m, W, h2⟩ := followSet_total (ids := o.ids) (ord := o.ord)
    (fun r => epsOf_sound hf.inv.eps) (fun t r => firstOf_sound hf.inv.eps hf.inv.fst)
    (fun A hA => (hf.inv.dom A).2 hA) (h.closed o) ((o.ids_mem 0).2 h0)
  refine ⟨max n m, W, fun fuel hfuel => ?_⟩
  simp only [runFollow, runFirst, h1 fuel (by omega), bind_ok]
  exact h2 fuel (by omega)

/-- **C11** the FOLLOW sets are exact. -/
theorem C11_follow_exact (g : Grammar) (o : IterOrder g) (fuel : Nat) (W : FollowMap)
    (h : runFollow g o fuel = .ok W) (B : Nat) (hB : B ∈ g.vocabulary.nonterminals) :
    ∃ s, W.get B = some s ∧ ∀ t, t ∈ s ↔ InFollow g.productions B t := by
  obtain ⟨st, hf, hw⟩ := runFollow_fix h
  obtain ⟨s, hs⟩ := (hw.dom B).2 ((o.ids_mem B).2 hB)
  refine ⟨s, hs, fun t => ?_⟩
  rw [← InFollow.congr (IterOrder.mem o), ← flw_iff]
  constructor
  · exact hw.flw B s t hs
  · intro ht
    obtain ⟨s', hs', hts⟩ := hw.complete (fun r => hf.epsOf_complete) (fun t r => hf.firstOf_complete) ht
    rw [hs] at hs'; cases hs'; exact hts

/-- **C11** the FOLLOW map has no other keys. -/
theorem C11_follow_keys (g : Grammar) (o : IterOrder g) (fuel : Nat) (W : FollowMap)
    (h : runFollow g o fuel = .ok W) (B : Nat) :
    W.get B = none ↔ B ∉ g.vocabulary.nonterminals := by
  obtain ⟨st, hf, hw⟩ := runFollow_fix h
  rw [← o.ids_mem B, ← hw.dom B]
  cases W.get B <;> simp

/-- **C09** the map returned by `follow_set` does not depend on the hash iteration orders. -/
theorem C09_follow_order_independent (g : Grammar) (o o' : IterOrder g) (fuel fuel' : Nat)
    (W W' : FollowMap) (h : runFollow g o fuel = .ok W) (h' : runFollow g o' fuel' = .ok W') :
    ∀ B, W.get B = W'.get B := by
  intro B
  by_cases hB : B ∈ g.vocabulary.nonterminals
  · obtain ⟨s, hs, h1⟩ := C11_follow_exact g o fuel W h B hB
    obtain ⟨s', hs', h2⟩ := C11_follow_exact g o' fuel' W' h' B hB
    rw [hs, hs', Finset.ext fun t => (h1 t).trans (h2 t).symm]
  · rw [(C11_follow_keys g o fuel W h B).2 hB, (C11_follow_keys g o' fuel' W' h' B).2 hB]

theorem InFollowFromStart.inFollow {P : List Production} {B t : Nat} (h : InFollowFromStart P B t) :
    InFollow P B t := by
  rcases h with ⟨u, v, h⟩ | h
  · exact Or.inl ⟨0, u, v, h⟩
  · exact Or.inr h

/-- **C12** the computed FOLLOW contains the textbook FOLLOW; it is equal to it when every rule that
has a production occurs in some string derived from the start rule. -/
theorem C12_follow_textbook (g : Grammar) (o : IterOrder g) (fuel : Nat) (W : FollowMap)
    (h : runFollow g o fuel = .ok W) (B : Nat) (hB : B ∈ g.vocabulary.nonterminals) :
    ∃ s, W.get B = some s ∧ (∀ t, InFollowFromStart g.productions B t → t ∈ s) ∧
      ((∀ p ∈ g.productions, ∃ u v, Derives g.productions [Item.nt 0] (u ++ Item.nt p.left :: v)) →
        ∀ t, t ∈ s ↔ InFollowFromStart g.productions B t) := by
  obtain ⟨s, hs, h1⟩ := C11_follow_exact g o fuel W h B hB
  refine ⟨s, hs, fun t ht => (h1 t).2 ht.inFollow, fun hreach t => ?_⟩
  rw [h1]
  refine ⟨?_, fun ht => ht.inFollow⟩
  rintro (⟨A, u, v, hd⟩ | ht)
  · left
    have hA : ∃ p ∈ g.productions, p.left = A := by
      generalize he : [Item.nt A] = α at hd
      cases hd using Relation.ReflTransGen.head_induction_on with
      | refl =>
        cases u with
        | nil => simp at he
        | cons x u => simp at he
      | head s _ _ =>
        obtain ⟨p, hp, u', v'⟩ := s
        refine ⟨p, hp, ?_⟩
        cases u' with
        | nil => simp at he; exact he.1.symm
        | cons x u' => simp at he
    obtain ⟨p, hp, rfl⟩ := hA
    obtain ⟨x, y, hxy⟩ := hreach p hp
    have h2 := (hd.append_left x).append_right y
    refine ⟨x ++ u, v ++ y, ?_⟩
    refine hxy.trans ?_
    simpa [List.append_assoc] using h2
  · exact Or.inr ht

/-- **C13** an ill-formed grammar never gets FIRST and FOLLOW sets: as soon as a production mentions
an unregistered nonterminal (on either side) or rule 0 is missing, the sequence panics. -/
theorem C13_ill_formed_fail_stop (g : Grammar) (o : IterOrder g)
    (h : ¬ g.WellFormed ∨ 0 ∉ g.vocabulary.nonterminals) :
    (∃ n, ∀ fuel, n ≤ fuel → runFollow g o fuel = .error .panic) ∧
    ∀ fuel W, runFollow g o fuel ≠ .ok W := by
  have hno : ∀ fuel W, runFollow g o fuel ≠ .ok W := by
    intro fuel W hW
    obtain ⟨st, hf, hw⟩ := runFollow_fix hW
    rcases h with h | h
    · apply h
      intro p hp
      have hp := (IterOrder.mem o p).2 hp
      exact ⟨(o.ids_mem _).1 (hf.left_mem hp), fun B hB => (o.ids_mem _).1 (hw.known p hp B hB)⟩
    · obtain ⟨s, hs, _⟩ := hw.zero
      exact h ((o.ids_mem 0).1 ((hw.dom 0).1 ⟨s, hs⟩))
  refine ⟨?_, hno⟩
  obtain ⟨n, r, hr, h1⟩ := firstSet_halts o.ids o.ord
  match r, hr, h1 with
  | .error .fuel, hr, _ => exact absurd rfl hr
  | .error .panic, _, h1 =>
    exact ⟨n, fun fuel hf => by simp only [runFollow, runFirst, h1 fuel hf, bind_error]⟩
  | .ok (F, C), _, h1 =>
    obtain ⟨st, hf, rfl, rfl⟩ := firstSet_fix (h1 n (Nat.le_refl n))
    obtain ⟨m, r, hr, h2⟩ := followSet_halts (ids := o.ids) (ord := o.ord)
      (fun r => epsOf_sound hf.inv.eps) (fun t r => firstOf_sound hf.inv.eps hf.inv.fst)
    have hk : ∀ fuel, max n m ≤ fuel → runFollow g o fuel = r := by
      intro fuel hfuel
      simp only [runFollow, runFirst, h1 fuel (by omega), bind_ok]
      exact h2 fuel (by omega)
    match r, hr, hk with
    | .error .fuel, hr, _ => exact absurd rfl hr
    | .error .panic, _, hk => exact ⟨max n m, hk⟩
    | .ok W, _, hk => exact absurd (hk _ (Nat.le_refl _)) (hno _ _)

/-- non-vacuity of C06–C12: on the example grammar the runs return, with the expected contents -/
example : (runFirst exGrammar exOrder 10).map (fun r => (r.1.get 1, r.1.get 0, r.1.get 3)) =
    .ok (some ⟨true, {3}⟩, some ⟨false, {2}⟩, some ⟨true, {2}⟩) := by decide

example : (runFollow exGrammar exOrder 10).map (fun r => (r.get 2, r.get 3)) =
    .ok (some {3, 1}, some {2}) := by decide

/-- non-vacuity of C13: dropping rule 2 from the vocabulary -/
example : ¬ ({ exGrammar with
    vocabulary := { exGrammar.vocabulary with nonterminals := {0, 1, 3} } } : Grammar).WellFormed := by
  intro h
  have := (h ⟨2, [.t 2]⟩ (by simp [exGrammar])).1
  simp at this

end Syntaxis
