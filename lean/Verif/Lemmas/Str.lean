import Verif.Spec.Lex

/-! # Byte offsets and lines -/

namespace Syntaxis

@[simp] theorem byteLen_nil : byteLen [] = 0 := rfl
@[simp] theorem byteLen_cons (c : Char) (s : Str) : byteLen (c :: s) = c.utf8Size + byteLen s := rfl

@[simp] theorem byteLen_append (u v : Str) : byteLen (u ++ v) = byteLen u + byteLen v := by
  induction u with
  | nil => simp
  | cons c u ih => simp [ih, Nat.add_assoc]

theorem byteLen_eq_zero {s : Str} : byteLen s = 0 ↔ s = [] := by
  cases s with
  | nil => simp
  | cons c s =>
    have := c.utf8Size_pos
    simp; omega

theorem dropBytes_append (u v : Str) : dropBytes (u ++ v) (byteLen u) = .ok v := by
  induction u with
  | nil => cases v <;> rfl
  | cons c u ih =>
    have := c.utf8Size_pos
    simp only [List.cons_append, byteLen_cons]
    obtain ⟨k, hk⟩ : ∃ k, c.utf8Size + byteLen u = k + 1 := ⟨c.utf8Size + byteLen u - 1, by omega⟩
    rw [hk, dropBytes, if_neg (by omega), ← hk, Nat.add_sub_cancel_left]
    exact ih

theorem takeBytes_append (u v : Str) : takeBytes (u ++ v) (byteLen u) = .ok u := by
  induction u with
  | nil => cases v <;> rfl
  | cons c u ih =>
    have := c.utf8Size_pos
    simp only [List.cons_append, byteLen_cons]
    obtain ⟨k, hk⟩ : ∃ k, c.utf8Size + byteLen u = k + 1 := ⟨c.utf8Size + byteLen u - 1, by omega⟩
    rw [hk, takeBytes, if_neg (by omega), ← hk, Nat.add_sub_cancel_left, ih]
    rfl

theorem slice_append (a b c : Str) :
    slice (a ++ (b ++ c)) (byteLen a) (byteLen a + byteLen b) = .ok b := by
  simp only [slice, dropBytes_append, bind_ok]
  rw [if_neg (by omega), Nat.add_sub_cancel_left, takeBytes_append]

/-- a successful `&s[n..]` splits the string at `n` -/
theorem dropBytes_ok {s t : Str} {n : Nat} (h : dropBytes s n = .ok t) :
    ∃ u, s = u ++ t ∧ byteLen u = n := by
  induction s generalizing n with
  | nil =>
    cases n with
    | zero => cases h; exact ⟨[], rfl, rfl⟩
    | succ n => cases h
  | cons c s ih =>
    cases n with
    | zero => cases h; exact ⟨[], rfl, rfl⟩
    | succ n =>
      simp only [dropBytes] at h
      split at h
      · cases h
      · obtain ⟨u, e, hu⟩ := ih h
        exact ⟨c :: u, by rw [e]; rfl, by simp; omega⟩

theorem takeBytes_ok {s t : Str} {n : Nat} (h : takeBytes s n = .ok t) :
    ∃ v, s = t ++ v ∧ byteLen t = n := by
  induction s generalizing n t with
  | nil =>
    cases n with
    | zero => cases h; exact ⟨[], rfl, rfl⟩
    | succ n => cases h
  | cons c s ih =>
    cases n with
    | zero => cases h; exact ⟨_, rfl, rfl⟩
    | succ n =>
      simp only [takeBytes] at h
      split at h
      · cases h
      · simp only [bind_eq_ok] at h
        obtain ⟨r, hr, h⟩ := h
        cases h
        obtain ⟨v, e, hv⟩ := ih hr
        exact ⟨v, by rw [e]; rfl, by simp; omega⟩

/-- prefixes of one string with equal byte length are equal -/
theorem append_inj_byteLen {u v u' v' : Str} (h : u ++ v = u' ++ v') (hl : byteLen u = byteLen u') :
    u = u' ∧ v = v' := by
  have h1 := takeBytes_append u v
  rw [h, hl, takeBytes_append] at h1
  cases h1
  exact ⟨rfl, List.append_cancel_left h⟩

/-! ## lines -/

/-- the part of `s` after its last line feed -/
def lastLine (s : Str) : Str := (s.reverse.takeWhile (· ≠ '\n')).reverse

theorem splitLines_ne_nil (s : Str) : splitLines s ≠ [] := by
  cases s with
  | nil => simp [splitLines]
  | cons c s =>
    simp only [splitLines]
    split
    · simp
    · split <;> simp

theorem splitLines_length (s : Str) : (splitLines s).length = s.count '\n' + 1 := by
  induction s with
  | nil => rfl
  | cons c s ih =>
    simp only [splitLines]
    by_cases hc : c = '\n'
    · subst hc; simp [ih]
    · rw [if_neg hc]
      rw [List.count_cons_of_ne hc]
      cases hs : splitLines s with
      | nil => exact absurd hs (splitLines_ne_nil s)
      | cons l ls => rw [hs] at ih; simpa using ih

theorem lastLine_append_of_mem {a u : Str} (h : '\n' ∈ u) : lastLine (a ++ u) = lastLine u := by
  simp only [lastLine, List.reverse_append]
  congr 1
  have h' : '\n' ∈ u.reverse := by simpa using h
  generalize u.reverse = r at h'
  induction r with
  | nil => simp at h'
  | cons c r ih =>
    simp only [List.cons_append, List.takeWhile_cons]
    by_cases hc : c = '\n'
    · simp [hc]
    · simp only [List.mem_cons, Ne.symm hc, false_or] at h'
      simpa [hc] using ih h'

theorem lastLine_append_of_not_mem {a u : Str} (h : '\n' ∉ u) : lastLine (a ++ u) = lastLine a ++ u := by
  simp only [lastLine, List.reverse_append]
  have h' : '\n' ∉ u.reverse := by simpa using h
  have key : ∀ r : Str, '\n' ∉ r → ∀ x : Str,
      (r ++ x).takeWhile (fun c => decide (c ≠ '\n')) = r ++ x.takeWhile (fun c => decide (c ≠ '\n')) := by
    intro r hr x
    induction r with
    | nil => rfl
    | cons c r ih =>
      simp only [List.mem_cons, not_or] at hr
      simp only [List.cons_append, List.takeWhile_cons]
      simpa [Ne.symm hr.1] using ih hr.2
  rw [key _ h']
  simp

theorem splitLines_getLast (s : Str) : (splitLines s).getLast? = some (lastLine s) := by
  induction s with
  | nil => rfl
  | cons c s ih =>
    simp only [splitLines]
    by_cases hc : c = '\n'
    · subst hc
      rw [if_pos rfl, List.getLast?_cons, ih]
      by_cases hm : '\n' ∈ s
      · rw [show '\n' :: s = ['\n'] ++ s from rfl, lastLine_append_of_mem hm]; rfl
      · rw [show '\n' :: s = ['\n'] ++ s from rfl, lastLine_append_of_not_mem hm]
        have : lastLine s = s := by
          have := lastLine_append_of_not_mem (a := []) hm
          simpa [lastLine] using this
        rw [this]; simp [lastLine]
    · rw [if_neg hc]
      cases hs : splitLines s with
      | nil => exact absurd hs (splitLines_ne_nil s)
      | cons l ls =>
        rw [hs] at ih
        have hlen := splitLines_length s
        rw [hs] at hlen
        cases ls with
        | nil =>
          have hm : '\n' ∉ s := by
            simp only [List.length_cons, List.length_nil] at hlen
            rw [← List.count_eq_zero]; omega
          have h1 : lastLine s = s := by
            have := lastLine_append_of_not_mem (a := []) hm
            simpa [lastLine] using this
          have h2 : lastLine (c :: s) = c :: s := by
            have hm' : '\n' ∉ c :: s := by simp [hm, Ne.symm hc]
            have := lastLine_append_of_not_mem (a := []) hm'
            simpa [lastLine] using this
          simp only [List.getLast?_singleton, Option.some.injEq] at ih
          rw [h2, ← h1, ← ih]
          rfl
        | cons l' ls =>
          have hm : '\n' ∈ s := by
            simp only [List.length_cons] at hlen
            rw [← List.count_pos_iff]; omega
          rw [show c :: s = [c] ++ s from rfl, lastLine_append_of_mem hm, ← ih]
          simp

/-- the position update of `scan` is the position of the longer prefix -/
theorem newPos_posOf (a u : Str) : Lexer.newPos (posOf a) u (byteLen u) = posOf (a ++ u) := by
  have hp : ∀ s, posOf s = ⟨s.count '\n', byteLen (lastLine s)⟩ := fun _ => rfl
  simp only [Lexer.newPos, splitLines_length, splitLines_getLast, Option.getD_some, hp,
    List.count_append]
  by_cases hm : '\n' ∈ u
  · have : 0 < u.count '\n' := List.count_pos_iff.2 hm
    rw [if_neg (by omega), lastLine_append_of_mem hm]
    congr 1
  · have h0 : u.count '\n' = 0 := List.count_eq_zero.2 hm
    rw [if_pos (by omega), lastLine_append_of_not_mem hm]
    simp [h0]

end Syntaxis
