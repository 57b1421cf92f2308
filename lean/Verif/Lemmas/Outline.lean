import Verif.Model.Outline
import Verif.Spec.PageView
import Mathlib.Data.List.Nodup
import Mathlib.Data.List.Perm.Basic

/-!
# The nodes of a view, and the data join
-/

namespace Syntaxis
namespace Outline
open PageView

/-- reached from `v` at `p` through nodes that are not folded -/
inductive Vis (folded : Path → Bool) (p : Path) (v : View) : Path → View → Prop
  | here : Vis folded p v p v
  | child {q n i ks j k} (h : Vis folded p v q (.node n i ks)) (hf : folded q = false) (hj : ks[j]? = some k) :
      Vis folded p v (j :: q) k

theorem Vis.suffix {folded p v q w} (h : Vis folded p v q w) : ∃ s, q = s ++ p := by
  induction h with
  | here => exact ⟨[], rfl⟩
  | @child q n i ks j k _ _ _ ih =>
    obtain ⟨s, rfl⟩ := ih
    exact ⟨j :: s, rfl⟩

theorem vis_node {folded p n i ks q w} : Vis folded p (.node n i ks) q w ↔
    (q = p ∧ w = .node n i ks) ∨ (folded p = false ∧ ∃ j k, ks[j]? = some k ∧ Vis folded (j :: p) k q w) := by
  constructor
  · intro h
    induction h with
    | here => exact .inl ⟨rfl, rfl⟩
    | @child q n' i' ks' j k _ hf hj ih =>
      rcases ih with ⟨rfl, h⟩ | ⟨h1, j', k', h2, h3⟩
      · cases h
        exact .inr ⟨hf, j, k, hj, .here⟩
      · exact .inr ⟨h1, j', k', h2, h3.child hf hj⟩
  · rintro (⟨rfl, rfl⟩ | ⟨h1, j, k, h2, h3⟩)
    · exact .here
    · induction h3 with
      | here => exact Vis.here.child h1 h2
      | child _ hf hj ih => exact ih.child hf hj

theorem vis_leaf {folded p n t q w} : Vis folded p (.leaf n t) q w ↔ q = p ∧ w = .leaf n t := by
  constructor
  · intro h
    induction h with
    | here => exact ⟨rfl, rfl⟩
    | child _ _ _ ih => cases ih.2
  · rintro ⟨rfl, rfl⟩
    exact .here

/-! ### pre-order -/

mutual
theorem mem_before (folded : Path → Bool) (p : Path) (v : View) (q : Path) (w : View) :
    (q, w) ∈ before folded p v ↔ Vis folded p v q w := by
  cases v with
  | leaf n t => simp [before, vis_leaf]
  | node n i ks =>
    rw [before, vis_node, List.mem_cons]
    have := mem_beforeAll folded p 0 ks q w
    cases hf : folded p with
    | true => simp
    | false => simp [this]
theorem mem_beforeAll (folded : Path → Bool) (p : Path) (i : Nat) (ks : List View) (q : Path) (w : View) :
    (q, w) ∈ beforeAll folded p i ks ↔ ∃ j k, ks[j]? = some k ∧ Vis folded ((i + j) :: p) k q w := by
  cases ks with
  | nil => simp [beforeAll]
  | cons k ks =>
    rw [beforeAll, List.mem_append, mem_before folded (i :: p) k q w, mem_beforeAll folded p (i + 1) ks q w]
    constructor
    · rintro (h | ⟨j, k', h1, h2⟩)
      · exact ⟨0, k, rfl, h⟩
      · exact ⟨j + 1, k', h1, by rwa [show i + (j + 1) = i + 1 + j by omega]⟩
    · rintro ⟨j, k', h1, h2⟩
      cases j with
      | zero => cases h1; exact .inl h2
      | succ j => exact .inr ⟨j, k', h1, by rwa [show i + 1 + j = i + (j + 1) by omega]⟩
end

theorem docBefore_below {p s : List Nat} (hs : s ≠ []) : DocBefore p (s ++ p) := by
  rw [DocBefore, List.reverse_append]
  cases hr : s.reverse with
  | nil => simp at hr; exact absurd hr hs
  | cons a t =>
    have : List.Lex (· < ·) (p.reverse ++ []) (p.reverse ++ a :: t) := List.Lex.append_left _ List.Lex.nil _
    simpa using this

theorem docBefore_part {p s t : List Nat} {i j : Nat} (h : i < j) : DocBefore (s ++ i :: p) (t ++ j :: p) := by
  rw [DocBefore, List.reverse_append, List.reverse_append, List.reverse_cons, List.reverse_cons, List.append_assoc,
    List.append_assoc]
  have : List.Lex (· < ·) (p.reverse ++ i :: s.reverse) (p.reverse ++ j :: t.reverse) :=
    List.Lex.append_left _ (List.Lex.rel h) _
  simpa using this

mutual
theorem before_sorted (folded : Path → Bool) (p : Path) (v : View) :
    ((before folded p v).map (·.1)).Pairwise DocBefore := by
  cases v with
  | leaf n t => simp [before]
  | node n i ks =>
    rw [before]
    cases hf : folded p with
    | true => simp
    | false =>
      rw [if_neg (by simp), List.map_cons, List.pairwise_cons]
      refine ⟨fun q hq => ?_, beforeAll_sorted folded p 0 ks⟩
      obtain ⟨⟨q, w⟩, hq', rfl⟩ := List.mem_map.1 hq
      obtain ⟨j, k, -, h⟩ := (mem_beforeAll _ _ _ _ _ _).1 hq'
      obtain ⟨s, rfl⟩ := h.suffix
      have := docBefore_below (p := p) (s := s ++ [0 + j]) (by simp)
      simpa using this
theorem beforeAll_sorted (folded : Path → Bool) (p : Path) (i : Nat) (ks : List View) :
    ((beforeAll folded p i ks).map (·.1)).Pairwise DocBefore := by
  cases ks with
  | nil => simp [beforeAll]
  | cons k ks =>
    rw [beforeAll, List.map_append, List.pairwise_append]
    refine ⟨before_sorted folded _ k, beforeAll_sorted folded p (i + 1) ks, fun a ha b hb => ?_⟩
    obtain ⟨⟨a, w⟩, ha', rfl⟩ := List.mem_map.1 ha
    obtain ⟨⟨b, x⟩, hb', rfl⟩ := List.mem_map.1 hb
    obtain ⟨s, rfl⟩ := ((mem_before _ _ _ _ _).1 ha').suffix
    obtain ⟨j, k', -, h⟩ := (mem_beforeAll _ _ _ _ _ _).1 hb'
    obtain ⟨t, rfl⟩ := h.suffix
    exact docBefore_part (by omega)
end

theorem before_nodup (folded : Path → Bool) (p : Path) (v : View) : ((before folded p v).map (·.1)).Nodup :=
  (before_sorted folded p v).imp fun h e => absurd (show _ < _ from h) (by subst e; exact lt_irrefl _)

/-! ### level by level -/

theorem mem_nextLevel {folded : Path → Bool} {l : List (Path × View)} {q : Path} {w : View} :
    (q, w) ∈ nextLevel folded l ↔ ∃ p v j, (p, v) ∈ l ∧ folded p = false ∧ (kids v)[j]? = some w ∧ q = j :: p := by
  simp only [nextLevel, List.mem_flatMap, Prod.exists]
  constructor
  · rintro ⟨p, v, hl, h⟩
    split at h
    · simp at h
    · rename_i hf
      obtain ⟨j, hj, he⟩ := List.mem_mapIdx.1 h
      cases he
      exact ⟨p, v, j, hl, by simpa using hf, by simp [hj], rfl⟩
  · rintro ⟨p, v, j, hl, hf, hj, rfl⟩
    refine ⟨p, v, hl, ?_⟩
    rw [if_neg (by simp [hf]), List.mem_mapIdx]
    obtain ⟨hj, e⟩ := List.getElem?_eq_some_iff.1 hj
    exact ⟨j, hj, by rw [e]⟩

theorem kids_get {v w : View} {j : Nat} : (kids v)[j]? = some w ↔ ∃ n i ks, v = .node n i ks ∧ ks[j]? = some w := by
  cases v <;> simp [kids]

theorem mem_level {folded : Path → Bool} {root : View} (k : Nat) {q : Path} {w : View} :
    (q, w) ∈ (nextLevel folded)^[k] [([], root)] ↔ Vis folded [] root q w ∧ q.length = k := by
  induction k generalizing q w with
  | zero =>
    simp only [Function.iterate_zero, id, List.mem_singleton, Prod.mk.injEq, List.length_eq_zero_iff]
    constructor
    · rintro ⟨rfl, rfl⟩; exact ⟨.here, rfl⟩
    · rintro ⟨h, rfl⟩
      cases h
      exact ⟨rfl, rfl⟩
  | succ k ih =>
    rw [Function.iterate_succ_apply', mem_nextLevel]
    constructor
    · rintro ⟨p, v, j, h1, h2, h3, rfl⟩
      obtain ⟨h4, rfl⟩ := ih.1 h1
      obtain ⟨n, i, ks, rfl, h5⟩ := kids_get.1 h3
      exact ⟨h4.child h2 h5, rfl⟩
    · rintro ⟨h, hl⟩
      cases h with
      | here => simp at hl
      | child h hf hj =>
        exact ⟨_, _, _, ih.2 ⟨h, by simpa using hl⟩, hf, kids_get.2 ⟨_, _, _, rfl, hj⟩, rfl⟩

theorem nextLevel_nil (folded : Path → Bool) : nextLevel folded [] = [] := rfl

theorem nextLevel_iter_nil (folded : Path → Bool) (k : Nat) : (nextLevel folded)^[k] [] = [] := by
  induction k with
  | zero => rfl
  | succ k ih => rw [Function.iterate_succ_apply', ih]; rfl

theorem mem_levels {folded : Path → Bool} (n : Nat) (l : List (Path × View)) (d : Path × View) :
    d ∈ levels folded n l ↔ ∃ k < n, d ∈ (nextLevel folded)^[k] l := by
  induction n generalizing l with
  | zero => simp [levels]
  | succ n ih =>
    rw [levels]
    split
    · rename_i he
      cases l with
      | nil => simp [nextLevel_iter_nil]
      | cons a l => simp at he
    · rw [List.mem_append, ih]
      constructor
      · rintro (h | ⟨k, hk, h⟩)
        · exact ⟨0, by omega, h⟩
        · exact ⟨k + 1, by omega, h⟩
      · rintro ⟨k, hk, h⟩
        cases k with
        | zero => exact .inl h
        | succ k => exact .inr ⟨k, by omega, h⟩

theorem height_kid {ks : List View} {j : Nat} {k : View} (h : ks[j]? = some k) : height k ≤ heightAll ks := by
  induction ks generalizing j with
  | nil => simp at h
  | cons a ks ih =>
    rw [heightAll]
    cases j with
    | zero => cases h; exact Nat.le_max_left _ _
    | succ j => exact (ih h).trans (Nat.le_max_right _ _)

theorem height_pos (v : View) : 0 < height v := by cases v <;> simp [height]

theorem Vis.height {folded p v q w} (h : Vis folded p v q w) : Outline.height w + q.length ≤ Outline.height v + p.length := by
  induction h with
  | here => exact le_refl _
  | @child q n i ks j k _ _ hj ih =>
    have := height_kid hj
    rw [Outline.height] at ih
    simp only [List.length_cons]
    omega

theorem mem_descendants {folded : Path → Bool} {root : View} {q : Path} {w : View} :
    (q, w) ∈ descendants root folded ↔ Vis folded [] root q w := by
  rw [descendants, mem_levels]
  constructor
  · rintro ⟨k, -, h⟩
    exact ((mem_level k).1 h).1
  · intro h
    refine ⟨q.length, ?_, (mem_level _).2 ⟨h, rfl⟩⟩
    have h1 := h.height
    have h2 := height_pos w
    simp at h1
    omega

theorem nextLevel_nodup {folded : Path → Bool} {l : List (Path × View)} (h : (l.map (·.1)).Nodup) :
    ((nextLevel folded l).map (·.1)).Nodup := by
  induction l with
  | nil => simp [nextLevel]
  | cons d l ih =>
    rw [List.map_cons, List.nodup_cons] at h
    have e : nextLevel folded (d :: l) =
      (if folded d.1 then [] else (kids d.2).mapIdx fun i k => (i :: d.1, k)) ++ nextLevel folded l := rfl
    rw [e, List.map_append, List.nodup_append]
    refine ⟨?_, ih h.2, fun a ha b hb hab => ?_⟩
    · split
      · simp
      · rw [List.Nodup, List.pairwise_map, List.pairwise_iff_getElem]
        intro i j hi hj hij
        simp only [List.getElem_mapIdx, ne_eq, List.cons.injEq, not_and]
        omega
    · subst hab
      split at ha
      · simp at ha
      · obtain ⟨⟨a, w⟩, ha1, rfl⟩ := List.mem_map.1 ha
        obtain ⟨j, hj, he⟩ := List.mem_mapIdx.1 ha1
        cases he
        obtain ⟨⟨b, w⟩, hb1, hb'⟩ := List.mem_map.1 hb
        obtain ⟨p, v, j', hp, -, -, e⟩ := mem_nextLevel.1 hb1
        simp only at hb'
        rw [hb'] at e
        cases e
        exact h.1 (List.mem_map.2 ⟨_, hp, rfl⟩)

theorem levels_nodup {folded : Path → Bool} (n m : Nat) (l : List (Path × View)) (h : (l.map (·.1)).Nodup)
    (hm : ∀ d ∈ l, d.1.length = m) :
    ((levels folded n l).map (·.1)).Nodup ∧ ∀ d ∈ levels folded n l, m ≤ d.1.length := by
  induction n generalizing l m with
  | zero => simp [levels]
  | succ n ih =>
    have hn : ∀ d ∈ nextLevel folded l, d.1.length = m + 1 := by
      rintro ⟨q, w⟩ hd
      obtain ⟨p, v, j, hp, -, -, rfl⟩ := mem_nextLevel.1 hd
      simp [hm _ hp]
    obtain ⟨h1, h2⟩ := ih (m + 1) _ (nextLevel_nodup h) hn
    rw [levels]
    split
    · simp
    · rw [List.map_append, List.nodup_append]
      refine ⟨⟨h, h1, fun a ha b hb hab => ?_⟩, fun d hd => ?_⟩
      · obtain ⟨d, hd, rfl⟩ := List.mem_map.1 ha
        obtain ⟨d', hd', rfl⟩ := List.mem_map.1 hb
        have := hm d hd
        have := h2 d' hd'
        rw [hab] at *
        omega
      · rcases List.mem_append.1 hd with hd | hd
        · exact (hm d hd).ge
        · have := h2 d hd; omega

theorem descendants_nodup (root : View) (folded : Path → Bool) : ((descendants root folded).map (·.1)).Nodup :=
  (levels_nodup _ 0 _ (by simp) (by simp)).1

theorem vis_iff {folded : Path → Bool} {root : View} {q : Path} {w : View} :
    Vis folded [] root q w ↔ NodeAt root q w ∧ ∀ a, Above a q → folded a = false := by
  constructor
  · intro h
    induction h with
    | here => exact ⟨.root, fun a ⟨s, hs, e⟩ => absurd (List.append_eq_nil_iff.1 e.symm).1 hs⟩
    | @child q n i ks j k _ hf hj ih =>
      refine ⟨ih.1.child hj, ?_⟩
      rintro a ⟨s, hs, e⟩
      cases s with
      | nil => simp at hs
      | cons b s =>
        rw [List.cons_append] at e
        cases e
        cases s with
        | nil => exact hf
        | cons c s => exact ih.2 a ⟨_, by simp, rfl⟩
  · rintro ⟨h, ha⟩
    induction h with
    | root => exact .here
    | @child p n i ks j k h hj ih =>
      refine (ih fun a ⟨s, hs, e⟩ => ha a ⟨j :: s, by simp, by rw [e]; rfl⟩).child (ha p ⟨[j], by simp, rfl⟩) hj

theorem vis_all {root : View} {q : Path} {w : View} : Vis (fun _ => false) [] root q w ↔ NodeAt root q w := by
  rw [vis_iff]; simp

theorem nodeAt_unique {root : View} {p : Path} {v w : View} (h : NodeAt root p v) (h' : NodeAt root p w) : v = w := by
  induction h generalizing w with
  | root => cases h'; rfl
  | child _ hj ih =>
    cases h' with
    | child h2 hj2 =>
      cases ih h2
      rw [hj] at hj2
      exact Option.some.inj hj2

theorem idOf_inj {root : View} {p q : Path} {v w : View} (hp : NodeAt root p v) (_ : NodeAt root q w)
    (h : idOf root p = idOf root q) : p = q := by
  have m : ∀ {p v}, NodeAt root p v → p ∈ (descendants root fun _ => false).map (·.1) := fun h =>
    List.mem_map.2 ⟨_, mem_descendants.2 (vis_all.2 h), rfl⟩
  exact (List.idxOf_inj (m hp)).1 h

/-! ### the data join -/

section
variable {δ ε : Type} {key : δ → Nat} {keyOf : ε → Nat} {enter : δ → ε} {move : δ → ε → ε} {data : List δ} {dom : List ε}

theorem find_key (hd : (data.map key).Nodup) {d : δ} {k : Nat} :
    data.find? (fun d => key d == k) = some d ↔ d ∈ data ∧ key d = k := by
  induction data with
  | nil => simp
  | cons a data ih =>
    rw [List.map_cons, List.nodup_cons] at hd
    rw [List.find?_cons]
    by_cases h : key a = k
    · subst h
      simp only [beq_self_eq_true, Option.some.injEq, List.mem_cons]
      constructor
      · rintro rfl; exact ⟨.inl rfl, rfl⟩
      · rintro ⟨rfl | h1, h2⟩
        · rfl
        · exact absurd (List.mem_map.2 ⟨d, h1, h2⟩) hd.1
    · rw [show (key a == k) = false by simpa using h]
      simp only [List.mem_cons]
      rw [ih hd.2]
      constructor
      · rintro ⟨h1, h2⟩; exact ⟨.inr h1, h2⟩
      · rintro ⟨rfl | h1, h2⟩
        · exact absurd h2 h
        · exact ⟨h1, h2⟩

theorem mem_join (hd : (data.map key).Nodup) {e' : ε} : e' ∈ join key keyOf enter move data dom ↔
    (∃ e ∈ dom, ∃ d ∈ data, key d = keyOf e ∧ e' = move d e) ∨
    (∃ d ∈ data, (∀ e ∈ dom, keyOf e ≠ key d) ∧ e' = enter d) := by
  rw [join, List.mem_append, List.mem_filterMap, List.mem_map]
  constructor
  · rintro (⟨e, he, h⟩ | ⟨d, h, rfl⟩)
    · obtain ⟨d, h1, h2⟩ := Option.map_eq_some_iff.1 h
      obtain ⟨h1, h3⟩ := (find_key hd).1 h1
      exact .inl ⟨e, he, d, h1, h3, h2.symm⟩
    · rw [List.mem_filter] at h
      refine .inr ⟨d, h.1, fun e he hk => ?_, rfl⟩
      have := h.2
      simp only [Bool.not_eq_true', List.contains_eq_mem, decide_eq_false_iff_not] at this
      exact this (List.mem_map.2 ⟨e, he, hk⟩)
  · rintro (⟨e, he, d, h1, h2, rfl⟩ | ⟨d, h1, h2, rfl⟩)
    · exact .inl ⟨e, he, Option.map_eq_some_iff.2 ⟨d, (find_key hd).2 ⟨h1, h2⟩, rfl⟩⟩
    · refine .inr ⟨d, List.mem_filter.2 ⟨h1, ?_⟩, rfl⟩
      simp only [Bool.not_eq_true', List.contains_eq_mem, decide_eq_false_iff_not]
      intro h
      obtain ⟨e, he, hk⟩ := List.mem_map.1 h
      exact h2 e he hk

theorem join_nodup (hd : (data.map key).Nodup) (hm : (dom.map keyOf).Nodup) (h1 : ∀ d, keyOf (enter d) = key d)
    (h2 : ∀ d e, keyOf (move d e) = key d) : ((join key keyOf enter move data dom).map keyOf).Nodup := by
  rw [join, List.map_append, List.nodup_append]
  have hsub : List.Sublist
      ((dom.filterMap fun e => (data.find? fun d => key d == keyOf e).map fun d => move d e).map keyOf)
      (dom.map keyOf) := by
    clear hm
    induction dom with
    | nil => simp
    | cons e dom ih =>
      rw [List.filterMap_cons]
      cases hf : data.find? fun d => key d == keyOf e with
      | none => simp only [Option.map_none, List.map_cons]; exact ih.trans (List.sublist_cons_self _ _)
      | some d =>
        simp only [Option.map_some, List.map_cons]
        rw [h2, ((find_key hd).1 hf).2]
        exact ih.cons_cons _
  refine ⟨hsub.nodup hm, ?_, fun a ha b hb hab => ?_⟩
  · rw [List.map_map, show keyOf ∘ enter = key from funext h1]
    exact (List.filter_sublist.map _).nodup hd
  · subst hab
    have ha := hsub.subset ha
    rw [List.map_map, show keyOf ∘ enter = key from funext h1] at hb
    obtain ⟨d, hd', rfl⟩ := List.mem_map.1 hb
    have := (List.mem_filter.1 hd').2
    simp only [Bool.not_eq_true', List.contains_eq_mem, decide_eq_false_iff_not] at this
    exact this ha

end

end Outline
end Syntaxis
