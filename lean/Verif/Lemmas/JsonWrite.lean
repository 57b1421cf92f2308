import Verif.Lemmas.JsonText
import Mathlib.Tactic.Ring

/-!
# Every value within the limits has a text
-/

namespace Syntaxis
namespace JsonText
open JsonSpec

theorem toNat_small {n : Nat} (h : n < 128) : (Char.ofNat n).toNat = n := by
  have hv : n.isValidChar := Or.inl (by omega)
  rw [Char.ofNat, dif_pos hv]
  rfl

theorem digitsValue_append (s : Str) (c : Char) :
    digitsValue (s ++ [c]) = 10 * digitsValue s + (c.toNat - '0'.toNat) := by
  induction s with
  | nil => simp [digitsValue]
  | cons d s ih =>
    simp only [List.cons_append, digitsValue, ih, List.length_append, List.length_cons, List.length_nil, Nat.zero_add,
      Nat.pow_succ]
    ring

theorem writeNat_spec : ∀ fuel n, n < fuel →
    digitsValue (writeNat fuel n) = n ∧ JsonSpec.Int (writeNat fuel n) := by
  intro fuel
  induction fuel with
  | zero => intro n h; omega
  | succ fuel ih =>
    intro n h
    rw [writeNat]
    by_cases hn : n < 10
    · rw [if_pos hn]
      have hv : (Char.ofNat (48 + n)).toNat = 48 + n := toNat_small (by omega)
      have h0 : '0'.toNat = 48 := rfl
      have h9 : '9'.toNat = 57 := rfl
      refine ⟨by simp [digitsValue, hv], ⟨by simp, ?_⟩, ?_⟩
      · intro c hc
        simp only [List.mem_singleton] at hc
        subst hc
        rw [hv, h0, h9]
        omega
      · by_cases hz : n = 0
        · subst hz; exact Or.inl rfl
        · refine Or.inr ?_
          simp only [List.head?_cons, ne_eq, Option.some.injEq]
          intro e
          rw [e] at hv
          have : (48 : Nat) = 48 + n := hv
          omega
    · rw [if_neg hn]
      obtain ⟨h1, h2, h3⟩ := ih (n / 10) (by omega)
      have hv : (Char.ofNat (48 + n % 10)).toNat = 48 + n % 10 := toNat_small (by omega)
      have h0 : '0'.toNat = 48 := rfl
      have h9 : '9'.toNat = 57 := rfl
      refine ⟨?_, ⟨by simp, ?_⟩, ?_⟩
      · rw [digitsValue_append, h1, hv, h0]; omega
      · intro c hc
        rcases List.mem_append.1 hc with hc | hc
        · exact h2.2 c hc
        · simp only [List.mem_singleton] at hc
          subst hc
          rw [hv, h0, h9]
          omega
      · refine Or.inr ?_
        rcases h3 with h3 | h3
        · have : digitsValue (writeNat fuel (n / 10)) = 0 := by rw [h3]; rfl
          omega
        · cases hw : writeNat fuel (n / 10) with
          | nil => exact absurd hw h2.1
          | cons c u => rw [hw] at h3; simpa using h3

theorem hexChar_spec {n : Nat} (h : n < 16) : HexDigit (hexChar n) n := by
  unfold hexChar HexDigit
  have h0 : '0'.toNat = 48 := rfl
  have ha : 'a'.toNat = 97 := rfl
  by_cases hn : n < 10
  · rw [if_pos hn, toNat_small (by omega), h0]; omega
  · rw [if_neg hn, toNat_small (by omega), h0, ha]; omega

theorem writeChar_spec (c : Char) : CharText c (writeChar c) := by
  unfold writeChar
  split
  · rename_i h; subst h; exact .quote
  · rename_i h1
    split
    · rename_i h; subst h; exact .backslash
    · rename_i h2
      split
      · rename_i h; subst h; exact .lineFeed
      · split
        · rename_i h; subst h; exact .return
        · split
          · rename_i h; subst h; exact .tab
          · split
            · rename_i h
              refine .code c _ ⟨_, _, _, _, 0, 0, c.toNat / 16, c.toNat % 16, rfl, ?_, ?_, hexChar_spec (by omega),
                hexChar_spec (by omega), by omega⟩
              all_goals exact Or.inl ⟨by omega, rfl⟩
            · rename_i h
              exact .plain c (by omega) h1 h2

theorem writeChars_spec (s : Str) : Chars s (writeChars s) := by
  induction s with
  | nil => exact .nil
  | cons c s ih => exact .cons (writeChar_spec c) ih

theorem newLine_blank (k : Nat) : Blank (newLine k) := by
  intro c hc
  simp only [newLine, List.mem_cons, List.mem_replicate] at hc
  rcases hc with rfl | ⟨_, rfl⟩ <;> simp

theorem lastWins_eq : ∀ {kvs : List (Str × Json)}, Json.WritableMembers kvs → lastWins kvs = kvs
  | [], _ => rfl
  | (k, v) :: kvs, h => by
    rw [Json.WritableMembers] at h
    rw [lastWins, if_neg h.1, lastWins_eq h.2.2]

mutual
theorem write_text {fin : Str → Bool} : ∀ (n k : Nat) (v : Json), v.Writable → v.nesting ≤ n →
    Text fin n v (write k v) := by
  intro n k v hw hn
  have scalar : Scalar fin v (write k v) → Text fin n v (write k v) := by
    intro h
    cases n with
    | zero => exact h
    | succ n => exact Or.inl h
  cases v with
  | null => exact scalar .null
  | bool b =>
    refine scalar ?_
    cases b
    · exact .false
    · exact .true
  | posInt m =>
    refine scalar ?_
    rw [Json.Writable] at hw
    obtain ⟨h1, h2⟩ := writeNat_spec (m + 1) m (by omega)
    have := Scalar.posInt (fin := fin) h2 (by rw [h1]; exact hw)
    rw [h1] at this
    rw [write]; exact this
  | negInt m =>
    refine scalar ?_
    rw [Json.Writable] at hw
    obtain ⟨h1, h2⟩ := writeNat_spec (m + 1) m (by omega)
    have := Scalar.negInt (fin := fin) h2 (by rw [h1]; exact hw.1) (by rw [h1]; exact hw.2)
    rw [h1] at this
    rw [write]; exact this
  | float => rw [Json.Writable] at hw; exact hw.elim
  | str s => exact scalar (by rw [write]; exact .str (writeChars_spec s))
  | arr vs =>
    rw [Json.Writable] at hw
    rw [Json.nesting] at hn
    obtain ⟨n, rfl⟩ : ∃ m, n = m + 1 := ⟨n - 1, by omega⟩
    rw [write]
    cases vs with
    | nil => exact Or.inr (Or.inl ⟨[], by simp [Blank], rfl, by simp [writeElems]⟩)
    | cons v vs => exact Or.inr (Or.inr (Or.inl ⟨_, _, writeElems_text n k (v :: vs) hw (by omega) (by simp), rfl, rfl⟩))
  | obj kvs =>
    rw [Json.Writable] at hw
    rw [Json.nesting] at hn
    obtain ⟨n, rfl⟩ : ∃ m, n = m + 1 := ⟨n - 1, by omega⟩
    rw [write]
    cases kvs with
    | nil => exact Or.inr (Or.inr (Or.inr (Or.inl ⟨[], by simp [Blank], rfl, by simp [writeMembers]⟩)))
    | cons e kvs =>
      exact Or.inr (Or.inr (Or.inr (Or.inr ⟨_, _, writeMembers_text n k (e :: kvs) hw (by omega) (by simp),
        by rw [lastWins_eq hw], rfl⟩)))
termination_by _ _ v => sizeOf v
theorem writeElems_text {fin : Str → Bool} : ∀ (n k : Nat) (vs : List Json), Json.WritableList vs →
    Json.nestingList vs ≤ n → vs ≠ [] → Elems (Text fin n) vs (writeElems k vs) := by
  intro n k vs hw hn h0
  cases vs with
  | nil => exact absurd rfl h0
  | cons v vs =>
    rw [Json.WritableList] at hw
    rw [Json.nestingList] at hn
    have hv := write_text (fin := fin) n (k + 1) v hw.1 (by omega)
    rw [writeElems]
    cases vs with
    | nil =>
      have := Elems.last (newLine_blank (k + 1)) hv (newLine_blank k)
      simpa [List.append_assoc] using this
    | cons w vs =>
      have ih := writeElems_text (fin := fin) n k (w :: vs) hw.2 (by omega) (by simp)
      have := Elems.cons (newLine_blank (k + 1)) hv (b := []) (by simp [Blank]) ih
      simpa [List.append_assoc] using this
termination_by _ _ vs => sizeOf vs
theorem writeMembers_text {fin : Str → Bool} : ∀ (n k : Nat) (kvs : List (Str × Json)), Json.WritableMembers kvs →
    Json.nestingMembers kvs ≤ n → kvs ≠ [] → Members (Text fin n) kvs (writeMembers k kvs) := by
  intro n k kvs hw hn h0
  match kvs, hw, hn, h0 with
  | [], _, _, h0 => exact absurd rfl h0
  | (key, v) :: kvs, hw, hn, _ =>
    rw [Json.WritableMembers] at hw
    rw [Json.nestingMembers] at hn
    have hv := write_text (fin := fin) n (k + 1) v hw.2.1 (by omega)
    rw [writeMembers]
    have hsp : Blank [' '] := by simp [Blank]
    have hnil : Blank [] := by simp [Blank]
    cases kvs with
    | nil =>
      have := Members.last (.mk (newLine_blank (k + 1)) (writeChars_spec key) hnil hsp hv (newLine_blank k))
      simpa [List.append_assoc] using this
    | cons w kvs =>
      have ih := writeMembers_text (fin := fin) n k (w :: kvs) hw.2.2 (by omega) (by simp)
      have := Members.cons (.mk (newLine_blank (k + 1)) (writeChars_spec key) hnil hsp hv hnil) ih
      simpa [List.append_assoc] using this
termination_by _ _ kvs => sizeOf kvs
end

end JsonText
end Syntaxis
