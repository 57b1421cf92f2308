import Verif.Model.Basic

/-! # Generic facts about `whileLoop` -/

namespace Syntaxis

variable {σ : Type _} {cond : σ → Bool} {body : σ → Res σ}

theorem whileLoop_mono {n m : Nat} {st : σ} {r : Res σ} (h : whileLoop cond body n st = r)
    (hr : r ≠ .error .fuel) (hnm : n ≤ m) : whileLoop cond body m st = r := by
  induction n generalizing m st with
  | zero => exact absurd h.symm hr
  | succ n ih =>
    obtain ⟨m, rfl⟩ : ∃ k, m = k + 1 := ⟨m - 1, by omega⟩
    simp only [whileLoop] at h ⊢
    split
    · rename_i hc
      simp only [hc, if_true] at h
      split <;> rename_i hb <;> simp only [hb] at h
      · exact ih h (by omega)
      · exact h
    · rename_i hc
      simpa only [hc, if_false, Bool.false_eq_true] using h

/-- a returning loop preserves invariants and ends with a false condition -/
theorem whileLoop_inv (Inv : σ → Prop) (hbody : ∀ st st', Inv st → body st = .ok st' → Inv st')
    {n : Nat} {st st' : σ} (h : whileLoop cond body n st = .ok st') (hi : Inv st) :
    Inv st' ∧ cond st' = false ∧
      (cond st = true → ∃ st0, Inv st0 ∧ body st0 = .ok st') := by
  induction n generalizing st with
  | zero => cases h
  | succ n ih =>
    simp only [whileLoop] at h
    split at h
    · split at h
      · rename_i st1 hb
        have hi1 := hbody _ _ hi hb
        obtain ⟨h1, h2, h3⟩ := ih h hi1
        refine ⟨h1, h2, fun _ => ?_⟩
        by_cases hc : cond st1 = true
        · exact h3 hc
        · have : st1 = st' := by
            cases n with
            | zero => cases h
            | succ n => simpa [whileLoop, hc] using h
          subst this
          exact ⟨st, hi, hb⟩
      · cases h
    · rename_i hc
      cases h
      exact ⟨hi, by simpa using hc, fun h => absurd h hc⟩

/-- a loop whose body returns or panics, and raises a bounded measure whenever it asks for another
iteration, returns or panics -/
theorem whileLoop_halts (Inv : σ → Prop) (μ : σ → Nat) (B : Nat)
    (hbody : ∀ st, Inv st → body st ≠ .error .fuel)
    (hinv : ∀ st st', Inv st → body st = .ok st' → Inv st' ∧ (cond st' = true → μ st < μ st'))
    (hB : ∀ st, Inv st → μ st ≤ B) (st : σ) (hi : Inv st) :
    ∃ n, whileLoop cond body n st ≠ .error .fuel := by
  obtain ⟨k, hk⟩ : ∃ k, k = B - μ st := ⟨_, rfl⟩
  induction k using Nat.strong_induction_on generalizing st with
  | _ k ih =>
    by_cases hc : cond st = true
    · cases hb : body st with
      | error e =>
        refine ⟨1, ?_⟩
        simp only [whileLoop, hc, if_true, hb]
        rw [← hb]; exact hbody st hi
      | ok st1 =>
        obtain ⟨hi1, hm⟩ := hinv st st1 hi hb
        by_cases hc1 : cond st1 = true
        · have h1 := hm hc1
          have h2 := hB st1 hi1
          obtain ⟨n, hn⟩ := ih (B - μ st1) (by omega) st1 hi1 rfl
          exact ⟨n + 1, by simpa [whileLoop, hc, hb] using hn⟩
        · exact ⟨2, by simp [whileLoop, hc, hb, hc1]⟩
    · exact ⟨1, by simp [whileLoop, hc]⟩

/-- a loop whose body never fails never panics -/
theorem whileLoop_no_panic (Inv : σ → Prop)
    (hbody : ∀ st, Inv st → ∃ st', body st = .ok st' ∧ Inv st') (n : Nat) (st : σ) (hi : Inv st) :
    whileLoop cond body n st ≠ .error .panic := by
  induction n generalizing st with
  | zero => simp [whileLoop]
  | succ n ih =>
    simp only [whileLoop]
    split
    · obtain ⟨st', hb, hi'⟩ := hbody st hi
      simp only [hb]
      exact ih st' hi'
    · simp

end Syntaxis
