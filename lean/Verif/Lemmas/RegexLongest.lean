import Verif.Spec.RegexLongest
import Verif.Lemmas.RegexV1

/-! # Regexes whose choices are in order report their longest match -/

namespace Syntaxis
namespace Regex

/-- whatever comes behind a longer remainder has come before (or is in `S`) -/
def Ord (S l : List Str) : Prop :=
  ∀ A b C, l = A ++ b :: C → ∀ c ∈ C, c.length < b.length → c ∈ A ∨ c ∈ S

theorem Ord.mono {S T l : List Str} (h : Ord S l) (hST : ∀ x ∈ S, x ∈ T) : Ord T l :=
  fun A b C e c hc hlt => (h A b C e c hc hlt).imp_right (hST c)

theorem Ord.append {S l₁ l₂ : List Str} (h₁ : Ord S l₁) (h₂ : Ord (l₁ ++ S) l₂)
    (h : ∀ b ∈ l₁, ∀ c ∈ l₂, c.length < b.length → c ∈ l₁ ∨ c ∈ S) : Ord S (l₁ ++ l₂) := by
  intro A b C e c hc hlt
  rcases List.append_eq_append_iff.1 e with ⟨a, rfl, e2⟩ | ⟨a, e1, e2⟩
  · rcases h₂ a b C e2 c hc hlt with h3 | h3
    · exact Or.inl (List.mem_append_right _ h3)
    · rcases List.mem_append.1 h3 with h3 | h3
      · exact Or.inl (List.mem_append_left _ h3)
      · exact Or.inr h3
  · cases a with
    | nil =>
      simp only [List.append_nil] at e1
      simp only [List.nil_append] at e2
      subst e1
      rcases h₂ [] b C e2.symm c hc hlt with h3 | h3
      · cases h3
      · exact List.mem_append.1 h3
    | cons x a =>
      simp only [List.cons_append, List.cons.injEq] at e2
      obtain ⟨rfl, rfl⟩ := e2
      have key : ∀ c ∈ a, c.length < b.length → c ∈ A ∨ c ∈ S := h₁ A b a e1
      rcases List.mem_append.1 hc with hc | hc
      · exact key c hc hlt
      · rcases h b (by rw [e1]; simp) c hc hlt with h3 | h3
        · rw [e1] at h3
          rcases List.mem_append.1 h3 with h3 | h3
          · exact Or.inl h3
          · rcases List.mem_cons.1 h3 with rfl | h3
            · exact absurd hlt (Nat.lt_irrefl _)
            · exact key c h3 hlt
        · exact Or.inr h3

theorem Ord.nil {S : List Str} : Ord S [] := by
  intro A b C e
  simp at e

theorem Ord.singleton {S : List Str} {x : Str} : Ord S [x] := by
  intro A b C e c hc
  cases A with
  | nil =>
    have : C = [] := by simpa using (List.cons.inj e).2.symm
    rw [this] at hc
    cases hc
  | cons a A =>
    have := (List.cons.inj e).2
    simp at this

/-- going on behind every remainder: behind longer remainders nothing more is matched -/
theorem Ord.flatMap {f : Str → List Str} {l seen : List Str} (h : Ord seen l) (hf : ∀ t ∈ l, Ord [] (f t))
    (heq : ∀ t ∈ l, ∀ t' ∈ l, t.length = t'.length → t = t') (hle : ∀ t ∈ l, ∀ x ∈ f t, x.length ≤ t.length)
    (hcross : ∀ t ∈ l, ∀ t' ∈ l, t.length < t'.length → ∀ y ∈ f t', y = t') :
    Ord (seen.flatMap f) (l.flatMap f) := by
  induction l generalizing seen with
  | nil => exact Ord.nil
  | cons t C ih =>
    rw [List.flatMap_cons]
    refine Ord.append ((hf t (by simp)).mono (by simp)) ?_ ?_
    · have h1 : Ord (t :: seen) C := by
        intro A b D e c hc hlt
        rcases h (t :: A) b D (by rw [e]; rfl) c hc hlt with h3 | h3
        · rcases List.mem_cons.1 h3 with rfl | h3
          · exact Or.inr (by simp)
          · exact Or.inl h3
        · exact Or.inr (List.mem_cons_of_mem _ h3)
      have := ih h1 (fun t' ht' => hf t' (List.mem_cons_of_mem _ ht'))
        (fun a ha b hb => heq a (List.mem_cons_of_mem _ ha) b (List.mem_cons_of_mem _ hb))
        (fun a ha => hle a (List.mem_cons_of_mem _ ha))
        (fun a ha b hb => hcross a (List.mem_cons_of_mem _ ha) b (List.mem_cons_of_mem _ hb))
      rwa [List.flatMap_cons] at this
    · intro b hb c hc hlt
      obtain ⟨t', ht', hc⟩ := List.mem_flatMap.1 hc
      rcases Nat.lt_trichotomy t'.length t.length with hl | hl | hl
      · rcases h [] t C rfl t' ht' hl with h3 | h3
        · cases h3
        · exact Or.inr (List.mem_flatMap.2 ⟨t', h3, hc⟩)
      · have := heq t' (List.mem_cons_of_mem _ ht') t (by simp) hl
        subst this
        exact Or.inl hc
      · have e := hcross t (by simp) t' (List.mem_cons_of_mem _ ht') hl c hc
        have := hle t (by simp) b hb
        rw [e] at hlt
        omega

/-- two remainders of a text -/
theorem suffixes_eq {u v u' v' : Str} (e : u ++ v = u' ++ v') (h : v.length = v'.length) : u = u' ∧ v = v' :=
  List.append_inj' e h

/-- a shorter and a longer remainder of a text -/
theorem suffixes_lt {u v u' v' : Str} (e : u ++ v = u' ++ v') (h : v.length < v'.length) :
    ∃ c w, u = u' ++ c :: w ∧ v' = c :: (w ++ v) := by
  rcases List.append_eq_append_iff.1 e with ⟨a, _, e2⟩ | ⟨a, e1, e2⟩
  · rw [e2] at h
    simp at h
    omega
  · cases a with
    | nil => simp only [List.nil_append] at e2; rw [e2] at h; omega
    | cons c w => exact ⟨c, w, e1, by simpa using e2⟩

theorem ord_flatMap_run {L M : Str → Prop} (hD : Decided L M) {s : Str} {l : List Str} {f : Str → List Str}
    (hl : ∀ t ∈ l, ∃ u, s = u ++ t ∧ L u) (ho : Ord [] l) (hf : ∀ t ∈ l, Ord [] (f t))
    (hm : ∀ t ∈ l, ∀ x ∈ f t, ∃ u, t = u ++ x ∧ (u = [] ∨ ∃ c v w, u = c :: w ∧ M (c :: v))) : Ord [] (l.flatMap f) := by
  refine (ho.flatMap hf ?_ ?_ ?_).mono (by simp)
  · intro t ht t' ht' hlen
    obtain ⟨u, e, _⟩ := hl t ht
    obtain ⟨u', e', _⟩ := hl t' ht'
    exact (suffixes_eq (e.symm.trans e') hlen).2
  · intro t ht x hx
    obtain ⟨u, rfl, _⟩ := hm t ht x hx
    simp
  · intro t ht t' ht' hlt y hy
    obtain ⟨u, e, hu⟩ := hl t ht
    obtain ⟨u', e', hu'⟩ := hl t' ht'
    obtain ⟨c, w, rfl, e2⟩ := suffixes_lt (e.symm.trans e') hlt
    obtain ⟨z, ez, hz⟩ := hm t' ht' y hy
    rcases hz with rfl | ⟨d, v, w', rfl, hM⟩
    · exact ez.symm
    · rw [e2] at ez
      simp only [List.cons_append, List.cons.injEq] at ez
      rw [← ez.1] at hM
      exact absurd hM (hD u' c w v hu' hu)

theorem ord_iterate {r : Regex} (hr : ∀ s, Ord [] (r.run s)) (hD : Decided r.Lang r.Lang) (n : Nat) (s : Str)
    (hn : s.length ≤ n) : Ord [] (iterate r.run n s) := by
  induction n generalizing s with
  | zero => exact Ord.singleton
  | succ n ih =>
    rw [iterate]
    refine Ord.append ?_ Ord.singleton ?_
    · refine ord_flatMap_run hD (fun t ht => (mem_run r s t).1 ht) (hr s) ?_ ?_
      · intro t _
        split
        · exact ih t (by omega)
        · exact Ord.nil
      · intro t _ x hx
        split at hx
        · obtain ⟨u, e, hu⟩ := (mem_iterate (mem_run r) n t x (by omega)).1 hx
          refine ⟨u, e, ?_⟩
          rcases hu.nonempty with h | ⟨a, b, e2, ha, hL, _⟩
          · exact Or.inl h
          · cases a with
            | nil => exact absurd rfl ha
            | cons c a => exact Or.inr ⟨c, a, a ++ b, e2, hL⟩
        · cases hx
    · intro b hb c hc hlt
      simp only [List.mem_singleton] at hc
      subst hc
      obtain ⟨t, ht, hb⟩ := List.mem_flatMap.1 hb
      split at hb
      · obtain ⟨u, e, _⟩ := (mem_iterate (mem_run r) n t b (by omega)).1 hb
        have : b.length ≤ t.length := by rw [e]; simp
        omega
      · cases hb

theorem Tidy.ord {r : Regex} (h : r.Tidy) (s : Str) : Ord [] (r.run s) := by
  induction h generalizing s with
  | @prefixFree r h =>
    intro A b C e c hc hlt
    obtain ⟨u, e1, hu⟩ := (mem_run r s b).1 (by rw [e]; simp)
    obtain ⟨v, e2, hv⟩ := (mem_run r s c).1 (by rw [e]; simp [hc])
    obtain ⟨d, w, rfl, _⟩ := suffixes_lt (e2.symm.trans e1) hlt
    cases h u _ hu hv
  | @seq r q _ _ h ihr ihq =>
    rw [run]
    refine ord_flatMap_run h (fun t ht => (mem_run r s t).1 ht) (ihr s) (fun t _ => ihq t) ?_
    intro t _ x hx
    obtain ⟨u, e, hu⟩ := (mem_run q t x).1 hx
    refine ⟨u, e, ?_⟩
    cases u with
    | nil => exact Or.inl rfl
    | cons c u => exact Or.inr ⟨c, u, u, rfl, hu⟩
  | @alt r q _ _ h ihr ihq =>
    rw [run]
    refine Ord.append (ihr s) ((ihq s).mono (by simp)) ?_
    intro b hb c hc hlt
    obtain ⟨u, e1, hu⟩ := (mem_run r s b).1 hb
    obtain ⟨v, e2, hv⟩ := (mem_run q s c).1 hc
    obtain ⟨d, w, rfl, _⟩ := suffixes_lt (e2.symm.trans e1) hlt
    cases h u _ hu hv
  | @star r _ h ih => exact ord_iterate ih h _ s (Nat.le_refl _)

theorem Tidy.best {r : Regex} (h : r.Tidy) : r.Best := by
  rintro s n hf u v rfl hu
  simp only [find, Option.map_eq_some_iff] at hf
  obtain ⟨t, ht, rfl⟩ := hf
  have hv : v ∈ r.run (u ++ v) := (mem_run r _ v).2 ⟨u, rfl, hu⟩
  have hs := h.ord (u ++ v)
  have hmem := mem_run r (u ++ v)
  generalize r.run (u ++ v) = l at ht hv hs hmem
  cases l with
  | nil => simp at ht
  | cons a l =>
    simp only [List.head?_cons, Option.some.injEq] at ht
    subst ht
    have hle : a.length ≤ v.length := by
      by_contra hlt
      rcases List.mem_cons.1 hv with rfl | hv
      · exact hlt (Nat.le_refl _)
      · rcases hs [] a l rfl v hv (by omega) with h3 | h3 <;> cases h3
    obtain ⟨u', e, _⟩ := (hmem a).1 (by simp)
    have hb : byteLen a ≤ byteLen v := by
      rcases Nat.lt_or_eq_of_le hle with hlt | he
      · obtain ⟨c, w, _, e2⟩ := suffixes_lt e.symm hlt
        rw [e2, show c :: (w ++ a) = (c :: w) ++ a from rfl, byteLen_append]
        omega
      · rw [(suffixes_eq e he.symm).2]
    have := congrArg byteLen e
    simp only [byteLen_append] at this ⊢
    omega

end Regex
end Syntaxis
