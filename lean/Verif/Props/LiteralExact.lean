import Verif.Props.RegexRules
import Verif.Props.RegexText
import Mathlib.Data.List.Chain

/-!
# C55: exactly which string literals get a right regex

A metacharacter `c` of a literal ends up as an operator, as `.` or in a class.  None of these matches `c` and no other
character, so in every word matched by the regex the `c` can be exchanged.
-/

namespace Syntaxis

open RegexSyntax

variable {digit : Char → Bool} {lc : LexConsts}

/-- a set that has `c` has another character, too -/
def FlexSet (c : Char) (p : Char → Bool) : Prop := p c = true → ∃ d, d ≠ c ∧ p d = true

/-- all sets of the regex are such -/
def Regex.Flex (c : Char) : Regex → Prop
  | .cls p => FlexSet c p
  | .nil => True
  | .seq r q => r.Flex c ∧ q.Flex c
  | .alt r q => r.Flex c ∧ q.Flex c
  | .star r => r.Flex c
  | .lazyStar r => r.Flex c

/-- a `c` in a word can be exchanged -/
def FlexLang (c : Char) (L : Str → Prop) : Prop := ∀ u v, L (u ++ c :: v) → ∃ d, d ≠ c ∧ L (u ++ d :: v)

theorem split_append {c : Char} {u v a b : Str} (h : u ++ c :: v = a ++ b) :
    (∃ w, a = u ++ c :: w ∧ v = w ++ b) ∨ ∃ w, u = a ++ w ∧ b = w ++ c :: v := by
  rcases List.append_eq_append_iff.1 h with ⟨w, rfl, h2⟩ | ⟨w, rfl, h2⟩
  · cases w with
    | nil => exact .inr ⟨[], by simp, by simpa using h2.symm⟩
    | cons e w =>
      simp only [List.cons_append, List.cons.injEq] at h2
      obtain ⟨rfl, rfl⟩ := h2
      exact .inl ⟨w, rfl, rfl⟩
  · exact .inr ⟨w, rfl, h2⟩

theorem FlexLang.seq {c : Char} {L M : Str → Prop} (hL : FlexLang c L) (hM : FlexLang c M) :
    FlexLang c fun s => ∃ a b, s = a ++ b ∧ L a ∧ M b := by
  rintro u v ⟨a, b, e, ha, hb⟩
  rcases split_append e with ⟨w, rfl, rfl⟩ | ⟨w, rfl, rfl⟩
  · obtain ⟨d, hd, h⟩ := hL _ _ ha
    exact ⟨d, hd, u ++ d :: w, b, by simp, h, hb⟩
  · obtain ⟨d, hd, h⟩ := hM _ _ hb
    exact ⟨d, hd, a, w ++ d :: v, by simp, ha, h⟩

theorem FlexLang.star {c : Char} {L : Str → Prop} (hL : FlexLang c L) : FlexLang c (Star L) := by
  have key : ∀ s, Star L s → ∀ u v, s = u ++ c :: v → ∃ d, d ≠ c ∧ Star L (u ++ d :: v) := by
    intro s h
    induction h with
    | nil => intro u v e; simp at e
    | @cons a b ha hb ih =>
      intro u v e
      rcases split_append e.symm with ⟨w, rfl, rfl⟩ | ⟨w, rfl, rfl⟩
      · obtain ⟨d, hd, h⟩ := hL _ _ ha
        exact ⟨d, hd, by simpa using Star.cons h hb⟩
      · obtain ⟨d, hd, h⟩ := ih w v rfl
        exact ⟨d, hd, by simpa using Star.cons ha h⟩
  exact fun u v h => key _ h u v rfl

theorem Regex.Flex.lang {c : Char} {r : Regex} (h : r.Flex c) : FlexLang c r.Lang := by
  induction r with
  | cls p =>
    rintro u v ⟨e, he, h1⟩
    cases u with
    | nil =>
      simp only [List.nil_append, List.cons.injEq] at h1
      obtain ⟨rfl, rfl⟩ := h1
      obtain ⟨d, hd, hp⟩ := h he
      exact ⟨d, hd, d, hp, rfl⟩
    | cons x u => simp at h1
  | nil => intro u v h1; simp [Regex.Lang] at h1
  | seq r q ih1 ih2 => exact (ih1 h.1).seq (ih2 h.2)
  | alt r q ih1 ih2 =>
    rintro u v (h1 | h1)
    · obtain ⟨d, hd, h2⟩ := ih1 h.1 _ _ h1
      exact ⟨d, hd, .inl h2⟩
    · obtain ⟨d, hd, h2⟩ := ih2 h.2 _ _ h1
      exact ⟨d, hd, .inr h2⟩
  | star r ih => exact (ih h).star
  | lazyStar r ih => exact (ih h).star

/-- the metacharacters that literals do not escape -/
def bareMetas : Str := ['.', '?', '(', ')', '|', '[', '{', '^', '$']

/-- a text in which a backslash stands only in front of the characters of the escapes that are left in literals, and `[` only
if `c` is `[` -/
def LitText (c : Char) (s : Str) : Prop :=
  s.IsChain (fun x y => x = '\\' → y ∈ ['+', '*', 'a', 'f', 'v']) ∧ (c ≠ '[' → '[' ∉ s)

theorem LitText.infix {c : Char} {s t : Str} (h : LitText c s) (ht : t <:+: s) : LitText c t :=
  ⟨h.1.infix ht, fun hc hm => h.2 hc (ht.subset hm)⟩

theorem LitText.left {c : Char} {s t : Str} (h : LitText c (s ++ t)) : LitText c s := h.infix (List.prefix_append s t).isInfix

theorem LitText.right {c : Char} {s t : Str} (h : LitText c (s ++ t)) : LitText c t := h.infix (List.suffix_append s t).isInfix

theorem LitText.tail {c d : Char} {s : Str} (h : LitText c (d :: s)) : LitText c s := h.infix (List.suffix_cons d s).isInfix

/-- what an escape stands for in a literal is no metacharacter that is left -/
theorem escape_value {c : Char} {s : Str} {i : ClassItem} (hc : c ∈ bareMetas ++ ['\\']) (ht : LitText d ('\\' :: s))
    (h : EscapeText s i) : i.has digit c = false := by
  have he : ∀ e t, s = e :: t → e ∈ ['+', '*', 'a', 'f', 'v'] := by
    rintro e t rfl
    have := ht.1
    rw [List.isChain_cons_cons] at this
    exact this.1 rfl
  have hn : ∀ x ∈ ['+', '*', 'a', 'f', 'v', '\x07', '\x0c', '\x0b'], (c == x) = false := by
    rintro x hx
    rw [beq_eq_false_iff_ne]
    rintro rfl
    revert hc
    simp only [List.mem_cons, List.not_mem_nil, or_false] at hx
    rcases hx with rfl | rfl | rfl | rfl | rfl | rfl | rfl | rfl <;> decide
  cases h with
  | self h' => exact hn _ (by have he := he _ _ rfl; simp only [List.mem_cons] at he ⊢; tauto)
  | alert => exact hn _ (by simp)
  | feed => exact hn _ (by simp)
  | vertical => exact hn _ (by simp)
  | @hex e _ _ h' _ =>
    have he := he _ _ rfl
    simp only [List.mem_cons, Prod.mk.injEq, List.not_mem_nil, or_false] at h'
    rcases h' with h' | h' | h' <;> (rw [h'.1] at he; exact absurd he (by decide))
  | @braces e _ _ h' _ =>
    have he := he _ _ rfl
    simp only [List.mem_cons, List.not_mem_nil, or_false] at h'
    rcases h' with h' | h' | h' <;> (rw [h'] at he; exact absurd he (by decide))
  | tab | newline | return_ | digit | notDigit | space | notSpace => exact absurd (he _ _ rfl) (by decide)

theorem items_member {s : Str} {is : List ClassItem} (h : ItemsText s is) {i : ClassItem} (hi : i ∈ is) :
    i = .one '-' ∨ ∃ t, t <:+: s ∧ ItemText t i := by
  induction h with
  | nil => cases hi
  | minus => exact .inl (by simpa using hi)
  | @cons s t j is h _ hs ih =>
    rcases List.mem_cons.1 hi with rfl | hi
    · exact .inr ⟨s, (List.prefix_append s t).isInfix, h⟩
    · rcases ih hi with h | ⟨u, hu, hu'⟩
      · exact .inl h
      · exact .inr ⟨u, hu.trans (List.suffix_append s t).isInfix, hu'⟩

theorem class_member {s : Str} {is : List ClassItem} (h : ClassText s is) {i : ClassItem} (hi : i ∈ is) :
    i = .one '-' ∨ ∃ t, t <:+: s ∧ ItemText t i := by
  cases h with
  | items h _ => exact items_member h hi
  | minus h =>
    rcases List.mem_cons.1 hi with rfl | hi
    · exact .inl rfl
    · rcases items_member h hi with h | ⟨u, hu, hu'⟩
      · exact .inl h
      · exact .inr ⟨u, hu.trans (List.suffix_cons '-' _).isInfix, hu'⟩

/-- neither a character nor an escape in a class stands for `[` or the backslash -/
theorem prim_value {t : Str} {i : ClassItem} (h : PrimText t i) (ht : LitText '[' t) :
    i.has digit '[' = false ∧ i.has digit '\\' = false := by
  cases h with
  | @plain c h =>
    simp only [PlainInClass, List.mem_cons, List.not_mem_nil, or_false, not_or] at h
    simp only [ClassItem.has, beq_eq_false_iff_ne]
    exact ⟨fun e => h.2.1 e.symm, fun e => h.1 e.symm⟩
  | escape h => exact ⟨escape_value (by decide) ht h, escape_value (by decide) ht h⟩

/-- a member of a class with `[` has another character, or `[` is in the range that ends with the backslash -/
theorem item_flex {t : Str} {i : ClassItem} (h : ItemText t i) (ht : LitText '[' t) : FlexSet '[' (i.has digit) := by
  cases h with
  | prim h => intro hc; rw [(prim_value h ht).1] at hc; cases hc
  | @range s t a b ha hb hab =>
    intro hc
    refine ⟨a, ?_, by simpa [ClassItem.has] using hab⟩
    rintro rfl
    have := (prim_value (digit := digit) ha ht.left).1
    simp [ClassItem.has] at this

/-- a member of a class with the backslash has `[` -/
theorem item_backslash {t : Str} {i : ClassItem} (h : ItemText t i) (ht : LitText '[' t) (hb : i.has digit '\\' = true) :
    i.has digit '[' = true := by
  cases h with
  | prim h => rw [(prim_value h ht).2] at hb; cases hb
  | @range s t a b ha hb' hab =>
    have ha := (prim_value (digit := digit) ha ht.left).2
    simp only [ClassItem.has, decide_eq_true_eq, beq_eq_false_iff_ne] at hb ha ⊢
    have e1 : a.toNat ≤ 92 := hb.1
    have e2 : 92 ≤ b.toNat := hb.2
    have e3 : a.toNat ≠ 92 := fun e => ha (Char.toNat_inj.1 e).symm
    exact ⟨show a.toNat ≤ 91 by omega, show 91 ≤ b.toNat by omega⟩

theorem counted_flex {c : Char} {r : Rx} (h : (r.toRegex digit).Flex c) (lo : Nat) (hi : Option Nat) (g : Bool) :
    ((r.counted lo hi g).toRegex digit).Flex c := by
  have hup : ∀ n, ((r.upTo g n).toRegex digit).Flex c := by
    intro n
    induction n with
    | zero => trivial
    | succ n ih =>
      cases g
      · exact ⟨trivial, h, ih⟩
      · exact ⟨⟨h, ih⟩, trivial⟩
  have hco : ∀ n q, (q.toRegex digit).Flex c → ((r.copies n q).toRegex digit).Flex c := by
    intro n q hq
    induction n with
    | zero => exact hq
    | succ n ih => exact ⟨h, ih⟩
  refine hco _ _ ?_
  cases hi with
  | some h => exact hup _
  | none => cases g <;> exact h

mutual
theorem alts_flex {c : Char} (hc : c ∈ bareMetas) (da : Bool) (s : Str) (r : Rx) (hs : LitText c s) :
    AltsText da s r → (r.toRegex digit).Flex c
  | .one h => concat_flex hc da s r hs h
  | .cons h h' => ⟨concat_flex hc da _ _ hs.left h, alts_flex hc da _ _ hs.right.tail h'⟩
theorem concat_flex {c : Char} (hc : c ∈ bareMetas) (da : Bool) (s : Str) (r : Rx) (hs : LitText c s) :
    ConcatText da s r → (r.toRegex digit).Flex c
  | .nil => trivial
  | .one h => piece_flex hc da s r hs h
  | .cons h _ h' => ⟨piece_flex hc da _ _ hs.left h, concat_flex hc da _ _ hs.right h'⟩
theorem piece_flex {c : Char} (hc : c ∈ bareMetas) (da : Bool) (s : Str) (r : Rx) (hs : LitText c s) :
    PieceText da s r → (r.toRegex digit).Flex c
  | .plain h => atom_flex hc da s r hs h
  | .star (r := r) h _ => atom_flex hc da _ r hs.left h
  | .lazyStar (r := r) h _ => atom_flex hc da _ r hs.left h
  | .plus (r := r) h _ => ⟨atom_flex hc da _ r hs.left h, atom_flex hc da _ r hs.left h⟩
  | .lazyPlus (r := r) h _ => ⟨atom_flex hc da _ r hs.left h, atom_flex hc da _ r hs.left h⟩
  | .opt h => ⟨atom_flex hc da _ _ hs.left h, trivial⟩
  | .lazyOpt h => ⟨trivial, atom_flex hc da _ _ hs.left h⟩
  | .counted h _ _ => counted_flex (atom_flex hc da _ _ hs.left h) _ _ _
  | .lazyCounted h _ _ => counted_flex (atom_flex hc da _ _ hs.left h) _ _ _
theorem atom_flex {c : Char} (hc : c ∈ bareMetas) (da : Bool) (s : Str) (r : Rx) (hs : LitText c s) :
    AtomText da s r → (r.toRegex digit).Flex c
  | .char (c := d) h => by
    intro hd
    simp only [ClassItem.has, beq_iff_eq] at hd
    subst hd
    exfalso
    simp only [PlainChar, bareMetas, List.mem_cons, List.not_mem_nil, or_false] at h hc
    tauto
  | .dot => by
    intro _
    refine ⟨'x', ?_, by simp⟩
    rintro rfl
    revert hc
    decide
  | .escape h => by
    intro hd
    rw [escape_value (List.mem_append_left _ hc) hs h] at hd
    cases hd
  | .cls (s := s) h _ => by
    by_cases hb : c = '['
    · subst hb
      intro hd
      simp only [Bool.false_bne, List.any_eq_true] at hd
      obtain ⟨i, hi, hd⟩ := hd
      rcases class_member h hi with rfl | ⟨t, ht, hi'⟩
      · simp [ClassItem.has] at hd
      obtain ⟨d, h1, h2⟩ := item_flex hi' (hs.tail.left.infix ht) hd
      exact ⟨d, h1, by simp only [Bool.false_bne, List.any_eq_true]; exact ⟨i, hi, h2⟩⟩
    · exact absurd (List.mem_cons_self) (hs.2 hb)
  | .negated (s := s) h => by
    by_cases hb : c = '['
    · subst hb
      intro hd
      refine ⟨'\\', by decide, ?_⟩
      simp only [Bool.true_bne, Bool.not_eq_true', List.any_eq_false] at hd ⊢
      intro i hi hd'
      rcases class_member h hi with rfl | ⟨t, ht, hi'⟩
      · simp [ClassItem.has] at hd'
      exact hd i hi (item_backslash hi' (hs.tail.tail.left.infix ht) hd')
    · exact absurd (List.mem_cons_self) (hs.2 hb)
  | .group h => alts_flex hc da _ _ hs.tail.left h
  | .bare h => alts_flex hc da _ _ hs.tail.tail.tail.left h
end

theorem pattern_flex {c : Char} (hc : c ∈ bareMetas) {s : Str} {p : Pattern} (hs : LitText c s) (h : PatternText s p) :
    ∀ x ∈ p, (x.2.toRegex digit).Flex c := by
  cases h with
  | dotAll h =>
    intro x hx
    simp only [List.mem_singleton] at hx
    subst hx
    exact concat_flex hc _ _ _ hs.tail.tail.tail.tail.tail h
  | branches h =>
    induction h with
    | plain h =>
      intro x hx
      simp only [List.mem_singleton] at hx
      subst hx
      exact concat_flex hc _ _ _ hs h
    | anchored h =>
      intro x hx
      simp only [List.mem_singleton] at hx
      subst hx
      exact concat_flex hc _ _ _ hs.tail h
    | plainCons h _ ih =>
      intro x hx
      rcases List.mem_cons.1 hx with rfl | hx
      · exact concat_flex hc _ _ _ hs.left h
      · exact ih hs.right.tail x hx
    | anchoredCons h _ ih =>
      intro x hx
      rcases List.mem_cons.1 hx with rfl | hx
      · exact concat_flex hc _ _ _ hs.tail.left h
      · exact ih hs.tail.right.tail x hx

/-- a pattern finds something only if a branch matches a part of the text -/
theorem find_branch {p : Pattern} {s : Str} {n : Nat} (h : Pattern.find digit p s = some n) :
    ∃ x ∈ p, ∃ u, (x.2.toRegex digit).Lang u ∧ u <:+: s := by
  simp only [Pattern.find, Option.map_eq_some_iff] at h
  obtain ⟨rest, h, -⟩ := h
  have key : ∀ st t, p.matchHere digit st t = some rest → ∃ x ∈ p, ∃ u, (x.2.toRegex digit).Lang u ∧ u <:+: t := by
    intro st t ht
    have hm := List.mem_of_mem_head? ht
    obtain ⟨x, hx, hr⟩ := List.mem_flatMap.1 hm
    split at hr
    · simp at hr
    · obtain ⟨u, hu', hu⟩ := (Regex.mem_run _ _ _).1 hr
      exact ⟨x, hx, u, hu, by rw [hu']; exact (List.prefix_append u rest).isInfix⟩
  generalize true = st at h
  induction s generalizing st with
  | nil => exact key _ _ h
  | cons c s ih =>
    rw [Pattern.search] at h
    split at h
    · rename_i hm
      cases h
      exact key _ _ hm
    · obtain ⟨x, hx, u, hu, hi⟩ := ih _ h
      exact ⟨x, hx, u, hu, hi.trans (List.suffix_cons c s).isInfix⟩

/-- what a branch matches is found -/
theorem find_word {p : Pattern} {x : Bool × Rx} (hx : x ∈ p) {u : Str} (hu : (x.2.toRegex digit).Lang u) :
    ∃ n, Pattern.find digit p u = some n := by
  have hm : ∃ rest, p.matchHere digit true u = some rest := by
    rw [Pattern.matchHere]
    cases hh : (p.flatMap fun b => if b.1 && !true then [] else (b.2.toRegex digit).run u).head? with
    | some r => exact ⟨r, rfl⟩
    | none =>
      rw [List.head?_eq_none_iff] at hh
      have : [] ∈ p.flatMap fun b => if b.1 && !true then [] else (b.2.toRegex digit).run u := by
        refine List.mem_flatMap.2 ⟨x, hx, ?_⟩
        rw [if_neg (by simp)]
        exact (Regex.mem_run _ _ _).2 ⟨u, by simp, hu⟩
      rw [hh] at this
      simp at this
  obtain ⟨rest, hr⟩ := hm
  rw [Pattern.find]
  cases u with
  | nil => exact ⟨_, by rw [Pattern.search, hr]; rfl⟩
  | cons c u => exact ⟨_, by rw [Pattern.search, hr]; rfl⟩

/-- a pattern in which `c` can be exchanged finds no string with `c` exactly -/
theorem flex_not_exact {p : Pattern} {c : Char} (hf : ∀ x ∈ p, (x.2.toRegex digit).Flex c) {w : Str} (hc : c ∈ w) :
    ¬ ∀ s n, Pattern.find digit p s = some n ↔ w <+: s ∧ n = byteLen w := by
  intro h
  obtain ⟨x, hx, u, hu, hi⟩ := find_branch ((h w _).2 ⟨List.prefix_rfl, rfl⟩)
  obtain ⟨n, hn⟩ := find_word hx hu
  have hw := ((h u n).1 hn).1
  have e : w = u := hw.eq_of_length (Nat.le_antisymm hw.length_le hi.length_le)
  subst e
  obtain ⟨a, b, rfl⟩ := List.append_of_mem hc
  obtain ⟨d, hd, hl⟩ := (hf x hx).lang _ _ hu
  obtain ⟨m, hm⟩ := find_word hx hl
  have he := ((h _ m).1 hm).1.eq_of_length (by simp)
  simp only [List.append_cancel_left_eq, List.cons.injEq, and_true] at he
  exact hd he.symm

/-- the two forms of the regex of a unit -/
theorem unit_forms (u : LitUnit) (h : u.Escaped) : (∃ c, c ≠ '\\' ∧ u.regex = [c] ∧ (c = '[' → u = .plain '[')) ∨
    ∃ c ∈ ['+', '*', 'a', 'f', 'v'], u.regex = ['\\', c] := by
  cases u with
  | plain c =>
    by_cases h1 : c = '+'
    · subst h1; exact .inr ⟨'+', by simp, rfl⟩
    by_cases h2 : c = '*'
    · subst h2; exact .inr ⟨'*', by simp, rfl⟩
    refine .inl ⟨c, h, ?_, fun e => by rw [e]⟩
    rw [LitUnit.regex, if_neg (by simpa using h1), if_neg (by simpa using h2)]; rfl
  | alert => exact .inr ⟨'a', by simp, rfl⟩
  | feed => exact .inr ⟨'f', by simp, rfl⟩
  | vertical => exact .inr ⟨'v', by simp, rfl⟩
  | newline => exact .inl ⟨'\n', by decide, rfl, by decide⟩
  | tab => exact .inl ⟨'\t', by decide, rfl, by decide⟩
  | ret => exact .inl ⟨'\r', by decide, rfl, by decide⟩
  | quote => exact .inl ⟨'\'', by decide, rfl, by decide⟩

theorem units_chain (us : List LitUnit) (h : ∀ u ∈ us, u.Escaped) (t : Str)
    (ht : t.IsChain (fun x y => x = '\\' → y ∈ ['+', '*', 'a', 'f', 'v'])) :
    (us.flatMap LitUnit.regex ++ t).IsChain (fun x y => x = '\\' → y ∈ ['+', '*', 'a', 'f', 'v']) := by
  induction us with
  | nil => exact ht
  | cons u us ih =>
    have ih := ih fun v hv => h v (by simp [hv])
    rw [List.flatMap_cons, List.append_assoc, List.isChain_append]
    rcases unit_forms u (h u (by simp)) with ⟨c, hc, e, -⟩ | ⟨c, hc, e⟩
    · rw [e]
      refine ⟨List.isChain_singleton _, ih, fun x hx y hy hxy => ?_⟩
      simp only [List.getLast?_singleton, Option.mem_def, Option.some.injEq] at hx
      exact absurd (hx.trans hxy) hc
    · rw [e]
      refine ⟨by simpa using hc, ih, fun x hx y hy hxy => ?_⟩
      simp only [List.getLast?_cons_cons, List.getLast?_singleton, Option.mem_def, Option.some.injEq] at hx
      rw [hx, hxy] at hc
      exact absurd hc (by decide)

theorem units_litText (us : List LitUnit) (h : ∀ u ∈ us, u.Escaped) {c : Char} (hc : c ≠ '[' → LitUnit.plain '[' ∉ us) :
    LitText c ("^(".toList ++ us.flatMap LitUnit.regex ++ ")".toList) := by
  have e : "^(".toList ++ us.flatMap LitUnit.regex ++ ")".toList = ['^', '('] ++ (us.flatMap LitUnit.regex ++ [')']) := by simp
  rw [e]
  constructor
  · rw [List.isChain_append]
    refine ⟨by simp, units_chain us h _ (List.isChain_singleton _), fun x hx y hy hxy => ?_⟩
    subst hxy
    simp at hx
  · intro hb hm
    simp only [List.mem_append, List.mem_cons, List.not_mem_nil, or_false, List.mem_flatMap] at hm
    rcases hm with (hm | hm) | ⟨u, hu, hm⟩ | hm
    · revert hm; decide
    · revert hm; decide
    · rcases unit_forms u (h u hu) with ⟨d, hd, e, h'⟩ | ⟨d, hd, e⟩
      · rw [e, List.mem_singleton] at hm
        rw [h' hm.symm] at hu
        exact hc hb hu
      · rw [e] at hm
        simp only [List.mem_cons, List.not_mem_nil, or_false] at hm hd
        rcases hm with hm | rfl
        · revert hm; decide
        · revert hd; decide
    · revert hm; decide

/-- **C55**, exactly: the matcher made of a literal written with ordinary characters and the escapes `\n`, `\t`, `\r`, `\'`,
`\a`, `\f`, `\v` finds the string the literal stands for, and nothing else, if and only if no character of the literal is one
of the metacharacters `.`, `?`, `(`, `)`, `|`, `[`, `{`, `^`, `$` of regexes. -/
theorem C55_matcher_iff (ast : RuleContext) (rs : List Str)
    (h : literalTexts lc ast = rs.map fun r => '\'' :: r ++ ['\'']) (k : Nat) (us : List LitUnit)
    (hu : ∀ u ∈ us, u.Escaped) (hk : (firstOccurrences [] rs)[k]? = some (us.flatMap LitUnit.source)) :
    (∃ s' d p, runStrLit lc ast .new = .ok s' ∧ s'.data[k]? = some d ∧ compile d.regex = some p ∧
      ∀ s n, Pattern.find digit p s = some n ↔
        us.map LitUnit.value <+: s ∧ n = byteLen (us.map LitUnit.value)) ↔
    ∀ c, LitUnit.plain c ∈ us → c ∉ ['.', '?', '(', ')', '|', '[', '{', '^', '$'] := by
  constructor
  · rintro ⟨s', d, p, h1, h2, h3, h4⟩
    obtain ⟨s'', h1', h2'⟩ := runStrLit_eq h
    rw [h1] at h1'
    cases h1'
    rw [h2', literalEntries_get _ 2 k _ hk] at h2
    cases h2
    simp only [literalText_units us hu] at h3
    have hp := (C64_pattern_syntax _ _).1 h3
    have key : ∀ c ∈ bareMetas, (c ≠ '[' → LitUnit.plain '[' ∉ us) → LitUnit.plain c ∉ us := by
      intro c hc hb hm
      refine flex_not_exact (pattern_flex hc (units_litText us hu hb) hp) ?_ h4
      exact List.mem_map.2 ⟨_, hm, rfl⟩
    have hb := key '[' (by decide) (fun e => absurd rfl e)
    exact fun c hc hm => key c hm (fun _ => hb) hc
  · intro hh
    refine C55_literal_matcher_partial ast rs h k us (fun u hu' => ?_) hk
    cases u with
    | plain c =>
      refine ⟨hu _ hu', fun hm => ?_⟩
      have := hh c hu'
      have hn : c ≠ '\\' := hu _ hu'
      rw [regexMeta, List.contains_eq_mem, decide_eq_true_eq] at hm
      have hm' : c ∈ ['\\', '.', '+', '*', '?', '(', ')', '|', '[', '{', '^', '$'] := by simpa using hm
      simp only [List.mem_cons, List.not_mem_nil, or_false] at this hm'
      tauto
    | _ => trivial

/-- non-vacuity: the literals `'a\a+'` and `'a.'` of a tree; the first gets a right matcher, the second does not -/
example : literalTexts .old ⟨[], [.terminal (.new 19 [] "'a\\a+'".toList), .terminal (.new 19 [] "'a.'".toList)], 0⟩ =
      ["a\\a+".toList, "a.".toList].map (fun r => '\'' :: r ++ ['\'']) ∧
    (firstOccurrences [] ["a\\a+".toList, "a.".toList])[0]? =
      some ([LitUnit.plain 'a', .alert, .plain '+'].flatMap LitUnit.source) ∧
    (firstOccurrences [] ["a\\a+".toList, "a.".toList])[1]? = some ([LitUnit.plain 'a', .plain '.'].flatMap LitUnit.source) ∧
    (∀ c, LitUnit.plain c ∈ [LitUnit.plain 'a', .alert, .plain '+'] →
      c ∉ ['.', '?', '(', ')', '|', '[', '{', '^', '$']) ∧
    (∀ u ∈ [LitUnit.plain 'a', .alert, .plain '+', .plain '.'], u.Escaped) := by
  refine ⟨by decide +kernel, by decide +kernel, by decide +kernel, ?_, ?_⟩
  · intro c hc
    simp only [List.mem_cons, LitUnit.plain.injEq, List.not_mem_nil, or_false, reduceCtorEq, false_or] at hc
    rcases hc with rfl | rfl <;> decide
  · intro u hu
    simp only [List.mem_cons, List.not_mem_nil, or_false] at hu
    rcases hu with rfl | rfl | rfl | rfl <;> simp [LitUnit.Escaped]

end Syntaxis
