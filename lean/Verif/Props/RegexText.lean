import Verif.Spec.RegexText
import Verif.Props.RegexSyntax

/-! # C64: reading a pattern text is the documented grammar -/

namespace Syntaxis
namespace RegexSyntax

theorem nullable_iff (digit : Char → Bool) (r : Rx) : (r.toRegex digit).Lang [] ↔ r.nullable = true := by
  induction r with
  | one i => simp [Rx.toRegex, Regex.Lang, Rx.nullable]
  | cls n is => simp [Rx.toRegex, Regex.Lang, Rx.nullable]
  | dot d => simp [Rx.toRegex, Regex.Lang, Rx.nullable]
  | nil => simp [Rx.toRegex, Regex.Lang, Rx.nullable]
  | seq r q ih1 ih2 =>
    simp only [Rx.toRegex, Regex.Lang, Rx.nullable, Bool.and_eq_true, ← ih1, ← ih2]
    constructor
    · rintro ⟨a, b, e, ha, hb⟩
      obtain ⟨rfl, rfl⟩ := List.append_eq_nil_iff.1 e.symm
      exact ⟨ha, hb⟩
    · rintro ⟨ha, hb⟩; exact ⟨[], [], rfl, ha, hb⟩
  | alt r q ih1 ih2 => simp only [Rx.toRegex, Regex.Lang, Rx.nullable, Bool.or_eq_true, ih1, ih2]
  | star r _ => simp only [Rx.toRegex, Regex.Lang, Rx.nullable, iff_true]; exact .nil
  | lazyStar r _ => simp only [Rx.toRegex, Regex.Lang, Rx.nullable, iff_true]; exact .nil
  | plus r ih =>
    simp only [Rx.toRegex, Regex.plus, Regex.Lang, Rx.nullable, ← ih]
    constructor
    · rintro ⟨a, b, e, ha, _⟩
      obtain ⟨rfl, rfl⟩ := List.append_eq_nil_iff.1 e.symm
      exact ha
    · intro ha; exact ⟨[], [], rfl, ha, .nil⟩
  | opt r _ => simp [Rx.toRegex, Regex.opt, Regex.Lang, Rx.nullable]

theorem solid_iff (r : Rx) : r.Solid ↔ r.nullable = false := by
  constructor
  · intro h
    have := h fun _ => false
    rw [nullable_iff] at this
    simpa using this
  · intro h digit hl
    rw [nullable_iff, h] at hl
    cases hl

theorem isMeta_iff (c : Char) : isMeta c = false ↔ PlainChar c := by
  simp [isMeta, PlainChar, and_assoc]

theorem isClassMeta_iff (c : Char) : isClassMeta c = false ↔ PlainInClass c := by
  simp [isClassMeta, PlainInClass, and_assoc]

theorem isEscapable_iff (c : Char) : isEscapable c = true ↔
    c ∈ ['\\', '.', '+', '*', '?', '(', ')', '|', '[', '{', '^', '$', ']', '}', '#', '&', '-', '~'] := by
  simp [isEscapable, isMeta, or_assoc]

theorem escape_text {c : Char} {i : ClassItem} (h : escape c = some i) : EscapeText [c] i := by
  unfold escape at h
  split at h
  · rename_i h0
    cases h
    exact .self ((isEscapable_iff c).1 h0)
  iterate 10
    split at h
    · rename_i e
      cases h
      rw [e]
      constructor
  cases h

theorem hexDigit_iff {c : Char} {n : Nat} : isHexDigit c = true ∧ hexDigitVal c = n ↔ RegexHexDigit c n := by
  have le : ∀ a b : Char, a ≤ b ↔ a.toNat ≤ b.toNat := fun a b => Iff.rfl
  have e0 : '0'.toNat = 48 := rfl
  have e9 : '9'.toNat = 57 := rfl
  have ea : 'a'.toNat = 97 := rfl
  have ef : 'f'.toNat = 102 := rfl
  have eA : 'A'.toNat = 65 := rfl
  have eF : 'F'.toNat = 70 := rfl
  simp only [isHexDigit, hexDigitVal, RegexHexDigit, le, Bool.or_eq_true, decide_eq_true_eq, e0, e9, ea, ef, eA, eF]
  split_ifs <;> omega

theorem hexDigits_iff {s : Str} {ns : List Nat} : List.Forall₂ RegexHexDigit s ns ↔
    (∀ c ∈ s, isHexDigit c = true) ∧ s.map hexDigitVal = ns := by
  induction s generalizing ns with
  | nil =>
    cases ns with
    | nil => simp
    | cons n ns => simp
  | cons c s ih =>
    cases ns with
    | nil => simp
    | cons n ns =>
      rw [List.forall₂_cons, ih, ← hexDigit_iff]
      simp only [List.mem_cons, forall_eq_or_imp, List.map_cons, List.cons.injEq]
      tauto

theorem foldl_hexDigits (s : Str) : s.foldl (fun n c => 16 * n + hexDigitVal c) 0 =
    Nat.ofDigits 16 (s.map hexDigitVal).reverse := by
  induction s using List.reverseRecOn with
  | nil => rfl
  | append_singleton s c ih =>
    rw [List.foldl_append, List.foldl_cons, List.foldl_nil, ih, List.map_append, List.reverse_append, List.map_singleton,
      List.reverse_singleton, List.singleton_append, Nat.ofDigits_cons, Nat.add_comm]

theorem toNat_ofNat_valid {n : Nat} (h : n.isValidChar) : (Char.ofNat n).toNat = n := by
  rw [Char.ofNat, dif_pos h]
  rfl

theorem hexChar_iff {s : Str} {i : ClassItem} : hexChar s = some i ↔ ∃ c, i = .one c ∧ HexText s c := by
  constructor
  · intro h
    simp only [hexChar] at h
    split_ifs at h with h1 h2
    cases h
    simp only [Bool.or_eq_true, List.isEmpty_iff, Bool.not_eq_true', not_or, Bool.not_eq_false, List.all_eq_true] at h1
    refine ⟨_, rfl, h1.1, _, hexDigits_iff.2 ⟨h1.2, rfl⟩, ?_⟩
    rw [toNat_ofNat_valid h2, foldl_hexDigits]
  · rintro ⟨c, rfl, hne, ns, hd, e⟩
    obtain ⟨h1, rfl⟩ := hexDigits_iff.1 hd
    rw [← foldl_hexDigits] at e
    simp only [hexChar]
    rw [if_neg (by
      simp only [Bool.or_eq_true, List.isEmpty_iff, Bool.not_eq_true', not_or, Bool.not_eq_false, List.all_eq_true]
      exact ⟨hne, h1⟩), ← e, if_pos (show c.toNat.isValidChar from c.valid), Char.ofNat_toNat]

theorem hexLength_iff {c : Char} {n : Nat} : hexLength c = some n ↔ (c, n) ∈ [('x', 2), ('u', 4), ('U', 8)] := by
  simp only [List.mem_cons, Prod.mk.injEq, List.not_mem_nil, or_false]
  constructor
  · intro h
    rw [hexLength] at h
    split_ifs at h <;> cases h <;> tauto
  · rintro (⟨rfl, rfl⟩ | ⟨rfl, rfl⟩ | ⟨rfl, rfl⟩) <;> rfl

theorem hex_no_brace {s : Str} {c : Char} (h : HexText s c) : ∀ d ∈ s, d ≠ '{' ∧ d ≠ '}' := by
  obtain ⟨-, ns, hd, -⟩ := h
  intro d hm
  have := (hexDigits_iff.1 hd).1 d hm
  constructor <;> (rintro rfl; exact absurd this (by decide))

theorem escaped_text {s t : Str} {i : ClassItem} (h : escaped s = some (i, t)) : ∃ u, s = u ++ t ∧ EscapeText u i := by
  cases s with
  | nil => simp [escaped] at h
  | cons e s =>
    rw [escaped] at h
    cases hl : hexLength e with
    | none =>
      simp only [hl, Option.map_eq_some_iff, Prod.mk.injEq] at h
      obtain ⟨j, hj, rfl, rfl⟩ := h
      exact ⟨[e], rfl, escape_text hj⟩
    | some n =>
      have hm := hexLength_iff.1 hl
      simp only [hl] at h
      split_ifs at h with hp
      · cases s with
        | nil => simp [peek] at hp
        | cons b s =>
          have hb : b = '{' := by simpa [peek] using hp
          subst hb
          rw [List.tail_cons, hexBraced] at h
          match hd : s.dropWhile (· != '}'), h with
          | d :: w, h =>
            have hd' : d = '}' := by
              have := List.head?_dropWhile_not (· != '}') s
              rw [hd] at this
              simpa using this
            subst hd'
            simp only [Option.map_eq_some_iff, Prod.mk.injEq] at h
            obtain ⟨j, hj, rfl, rfl⟩ := h
            obtain ⟨c, rfl, hc⟩ := hexChar_iff.1 hj
            refine ⟨e :: '{' :: (s.takeWhile (· != '}') ++ ['}']), ?_, .braces ?_ hc⟩
            · have := List.takeWhile_append_dropWhile (p := (· != '}')) (l := s)
              rw [hd] at this
              simp [this]
            · simp only [List.mem_cons, Prod.mk.injEq, List.not_mem_nil, or_false] at hm ⊢
              tauto
      · rw [hexFixed] at h
        split_ifs at h with hlt
        simp only [Option.map_eq_some_iff, Prod.mk.injEq] at h
        obtain ⟨j, hj, rfl, rfl⟩ := h
        obtain ⟨c, rfl, hc⟩ := hexChar_iff.1 hj
        refine ⟨e :: s.take n, by simp, .hex ?_ hc⟩
        rw [List.length_take, Nat.min_eq_left (by omega)]
        exact hm

theorem escaped_of_text {u : Str} {i : ClassItem} (h : EscapeText u i) (t : Str) : escaped (u ++ t) = some (i, t) := by
  have key : ∀ c j, hexLength c = none → escape c = some j → escaped ([c] ++ t) = some (j, t) := by
    intro c j h1 h2
    simp [escaped, h1, h2]
  cases h with
  | @self c h =>
    refine key _ _ ?_ (by rw [escape, if_pos ((isEscapable_iff c).2 h)])
    rw [hexLength, if_neg, if_neg, if_neg] <;> (rintro rfl; exact absurd h (by decide))
  | @hex e s c he h =>
    have hl := hexLength_iff.2 he
    have hs : s ≠ [] := h.1
    have hp : peek '{' (s ++ t) = false := by
      cases s with
      | nil => exact absurd rfl hs
      | cons d s =>
        have := (hex_no_brace h d (by simp)).1
        simp [peek, this]
    rw [List.cons_append, escaped, hl]
    simp only [hp, Bool.false_eq_true, if_false, hexFixed]
    rw [if_neg (by simp), List.take_left' rfl, List.drop_left' rfl, hexChar_iff.2 ⟨c, rfl, h⟩]
    rfl
  | @braces e s c he h =>
    obtain ⟨n, hl⟩ : ∃ n, hexLength e = some n := by
      simp only [List.mem_cons, List.not_mem_nil, or_false] at he
      rcases he with rfl | rfl | rfl
      · exact ⟨2, rfl⟩
      · exact ⟨4, rfl⟩
      · exact ⟨8, rfl⟩
    have hb : ∀ d ∈ s, (d != '}') = true := fun d hd => by simpa using (hex_no_brace h d hd).2
    have hp : peek '{' ('{' :: (s ++ '}' :: t)) = true := rfl
    rw [show e :: '{' :: (s ++ ['}']) ++ t = e :: '{' :: (s ++ '}' :: t) by simp, escaped, hl]
    simp only [hp, if_true, List.tail_cons, hexBraced]
    rw [List.dropWhile_append_of_pos hb, List.takeWhile_append_of_pos hb]
    simp [hexChar_iff.2 ⟨c, rfl, h⟩]
  | _ => rfl

theorem classKind_plain {c : Char} : classKind c = .plain ↔ PlainInClass c := by
  rw [← isClassMeta_iff, classKind]
  by_cases h1 : c = ']'
  · subst h1; decide
  by_cases h2 : c = '\\'
  · subst h2; decide
  rw [if_neg (by simpa using h1), if_neg (by simpa using h2)]
  cases isClassMeta c <;> simp

theorem classKind_back {c : Char} : classKind c = .back ↔ c = '\\' := by
  constructor
  · intro h
    rw [classKind] at h
    split_ifs at h with h1 h2
    simpa using h2
  · rintro rfl; decide

theorem peek_iff {c : Char} {s : Str} : peek c s = true ↔ ∃ t, s = c :: t := by
  cases s with
  | nil => simp [peek]
  | cons d s => simp [peek]

theorem peek_false {c : Char} {s : Str} : peek c s = false ↔ ∀ t, s ≠ c :: t := by
  rw [← Bool.not_eq_true, peek_iff]
  simp

/-! ### what is read is a text -/

theorem classPrim_text {s t : Str} {i : ClassItem} (h : classPrim s = some (i, t)) : ∃ u, s = u ++ t ∧ PrimText u i := by
  cases s with
  | nil => simp [classPrim] at h
  | cons c s =>
    rw [classPrim] at h
    cases hk : classKind c with
    | close => simp [hk] at h
    | special => simp [hk] at h
    | back =>
      simp only [hk] at h
      obtain ⟨u, rfl, hu⟩ := escaped_text h
      rw [classKind_back.1 hk]
      exact ⟨'\\' :: u, rfl, .escape hu⟩
    | plain =>
      simp only [hk, Option.some.injEq, Prod.mk.injEq] at h
      obtain ⟨rfl, rfl⟩ := h
      exact ⟨[c], rfl, .plain (classKind_plain.1 hk)⟩

theorem classMember_text {s t : Str} {i : ClassItem} (h : classMember s = some (i, t)) : ∃ u, s = u ++ t ∧ ItemText u i := by
  rw [classMember] at h
  cases hp : classPrim s with
  | none => simp [hp] at h
  | some y =>
    obtain ⟨j, w⟩ := y
    obtain ⟨u, rfl, hu⟩ := classPrim_text hp
    simp only [hp] at h
    split_ifs at h with hm
    · rw [Bool.and_eq_true] at hm
      obtain ⟨w, rfl⟩ := peek_iff.1 hm.1
      obtain ⟨a, b, rfl, hb, hab, rfl⟩ := rangeTo_eq.1 h
      obtain ⟨v, e, hv⟩ := classPrim_text hb
      rw [List.tail_cons] at e
      subst e
      exact ⟨u ++ '-' :: v, by simp, .range hu hv hab⟩
    · cases h
      exact ⟨u, rfl, .prim hu⟩

theorem classItems_text {n : Nat} {s t : Str} {is : List ClassItem} (h : classItems n s = some (is, t)) :
    ∃ u, s = u ++ ']' :: t ∧ ItemsText u is := by
  induction n generalizing s is t with
  | zero => simp [classItems] at h
  | succ n ih =>
    rw [classItems] at h
    cases s with
    | nil => simp [classNext] at h
    | cons c s =>
      rw [classNext] at h
      by_cases h1 : (c == ']') = true
      · simp only [h1, if_true, Option.some.injEq, Prod.mk.injEq] at h
        obtain ⟨rfl, rfl⟩ := h
        exact ⟨[], by simpa using h1, .nil⟩
      rw [if_neg h1] at h
      by_cases h2 : (c == '-' && peek ']' s) = true
      · simp only [h2, if_true] at h
        simp only [Bool.and_eq_true, beq_iff_eq] at h2
        obtain ⟨rfl, hp⟩ := h2
        obtain ⟨w, rfl⟩ := peek_iff.1 hp
        rw [Option.map_eq_some_iff] at h
        obtain ⟨⟨is', t'⟩, h3, h4⟩ := h
        cases n with
        | zero => simp [classItems] at h3
        | succ n =>
          rw [classItems, classNext] at h3
          simp only [beq_self_eq_true, if_true, Option.some.injEq, Prod.mk.injEq] at h3
          obtain ⟨rfl, rfl⟩ := h3
          simp only [Prod.mk.injEq] at h4
          obtain ⟨rfl, rfl⟩ := h4
          exact ⟨['-'], rfl, .minus⟩
      rw [if_neg h2] at h
      by_cases h3 : (isClassOp c && peek c s) = true
      · simp [h3] at h
      rw [if_neg h3] at h
      cases hm : classMember (c :: s) with
      | none => simp [hm] at h
      | some y =>
        obtain ⟨i, w⟩ := y
        obtain ⟨u, e, hu⟩ := classMember_text hm
        simp only [hm, Option.map_some, Option.map_eq_some_iff, Prod.mk.injEq] at h
        obtain ⟨⟨is', t'⟩, h4, rfl, rfl⟩ := h
        obtain ⟨v, rfl, hv⟩ := ih h4
        refine ⟨u ++ v, by rw [e, List.append_assoc], .cons hu ?_ hv⟩
        rintro d hd rfl hh
        rw [List.singleton_append, List.cons.injEq] at e
        obtain ⟨rfl, rfl⟩ := e
        refine h3 ?_
        cases v with
        | nil => simp at hh
        | cons x v =>
          simp only [List.head?_cons, Option.some.injEq] at hh
          subst hh
          simp only [List.mem_cons, List.not_mem_nil, or_false] at hd
          rcases hd with rfl | rfl <;> rfl

theorem ItemsText.ne_nil {s : Str} {is : List ClassItem} (h : ItemsText s is) (hs : s ≠ []) : is ≠ [] := by
  cases h with
  | nil => exact absurd rfl hs
  | minus => simp
  | cons _ _ _ => simp

/-- a class behind `[` or `[^` -/
def classBody (s : Str) : Option (List ClassItem × Str) :=
  if peek ']' s then none
  else (classItems (s.length + 1) (if peek '-' s then s.tail else s)).map fun x =>
    (if peek '-' s then .one '-' :: x.1 else x.1, x.2)

theorem parseClass_plain {s : Str} (h : peek '^' s = false) :
    parseClass s = (classBody s).map fun x => (.cls false x.1, x.2) := by
  rw [parseClass, classBody, h]
  simp only [Bool.false_eq_true, if_false]
  by_cases hp : peek ']' s = true
  · simp [hp]
  · rw [if_neg hp, if_neg hp]
    cases classItems (s.length + 1) (if peek '-' s = true then s.tail else s) <;> rfl

theorem parseClass_negated {s : Str} : parseClass ('^' :: s) = (classBody s).map fun x => (.cls true x.1, x.2) := by
  have h : peek '^' ('^' :: s) = true := rfl
  rw [parseClass, classBody, h]
  simp only [if_true, List.tail_cons]
  by_cases hp : peek ']' s = true
  · simp [hp]
  · rw [if_neg hp, if_neg hp]
    cases classItems (s.length + 1) (if peek '-' s = true then s.tail else s) <;> rfl

theorem classBody_text {s w : Str} {is : List ClassItem} (h : classBody s = some (is, w)) :
    ∃ u, s = u ++ ']' :: w ∧ ClassText u is := by
  rw [classBody] at h
  split_ifs at h with hp hm
  · rw [Option.map_eq_some_iff] at h
    obtain ⟨⟨is', w'⟩, h, e⟩ := h
    simp only [Prod.mk.injEq] at e
    obtain ⟨rfl, rfl⟩ := e
    obtain ⟨t, rfl⟩ := peek_iff.1 hm
    obtain ⟨u, e, hu⟩ := classItems_text h
    rw [List.tail_cons] at e
    subst e
    exact ⟨'-' :: u, rfl, .minus hu⟩
  · rw [Option.map_eq_some_iff] at h
    obtain ⟨⟨is', w'⟩, h, e⟩ := h
    simp only [Prod.mk.injEq] at e
    obtain ⟨rfl, rfl⟩ := e
    obtain ⟨u, rfl, hu⟩ := classItems_text h
    exact ⟨u, rfl, .items hu (ItemsText.ne_nil hu (by rintro rfl; simp [peek] at hp))⟩

theorem single_text {da : Bool} {s t : Str} {r : Rx} (h : single da s = some (r, t)) :
    ∃ u, s = u ++ t ∧ AtomText da u r := by
  cases s with
  | nil => simp [single] at h
  | cons c s =>
    rw [single] at h
    cases hk : atomKind c with
    | bracket =>
      have hc : c = '[' := by
        by_contra hne
        rw [atomKind, if_neg (by simpa using hne)] at hk
        split_ifs at hk
      subst hc
      simp only [hk, singleOf] at h
      by_cases hn : peek '^' s = true
      · obtain ⟨s1, rfl⟩ := peek_iff.1 hn
        simp only [parseClass_negated, Option.map_eq_some_iff, Prod.mk.injEq] at h
        obtain ⟨⟨is, w⟩, h, rfl, rfl⟩ := h
        obtain ⟨u, rfl, hu⟩ := classBody_text h
        exact ⟨'[' :: '^' :: (u ++ [']']), by simp, .negated hu⟩
      · rw [Bool.not_eq_true] at hn
        simp only [parseClass_plain hn, Option.map_eq_some_iff, Prod.mk.injEq] at h
        obtain ⟨⟨is, w⟩, h, rfl, rfl⟩ := h
        obtain ⟨u, rfl, hu⟩ := classBody_text h
        refine ⟨'[' :: (u ++ [']']), by simp, .cls hu fun hh => ?_⟩
        cases u with
        | nil => simp at hh
        | cons x u =>
          simp only [List.head?_cons, Option.some.injEq] at hh
          simp [peek, hh] at hn
    | dot =>
      have hc : c = '.' := by
        rw [atomKind] at hk
        split_ifs at hk with h1 h2
        simpa using h2
      subst hc
      simp only [hk, singleOf, Option.some.injEq, Prod.mk.injEq] at h
      obtain ⟨rfl, rfl⟩ := h
      exact ⟨['.'], rfl, .dot⟩
    | back =>
      have hc : c = '\\' := by
        rw [atomKind] at hk
        split_ifs at hk with h1 h2 h3
        simpa using h3
      subst hc
      simp only [hk, singleOf, Option.map_eq_some_iff, Prod.mk.injEq] at h
      obtain ⟨⟨i, t'⟩, h, rfl, rfl⟩ := h
      obtain ⟨u, rfl, hu⟩ := escaped_text h
      exact ⟨'\\' :: u, rfl, .escape hu⟩
    | special => simp [hk, singleOf] at h
    | plain =>
      simp only [hk, singleOf, Option.some.injEq, Prod.mk.injEq] at h
      obtain ⟨rfl, rfl⟩ := h
      refine ⟨[c], rfl, .char ((isMeta_iff c).1 ?_)⟩
      rw [atomKind] at hk
      split_ifs at hk with h1 h2 h3 h4
      simpa using h4

theorem digit_iff (c : Char) : isCountDigit c = true ↔ '0' ≤ c ∧ c ≤ '9' := by simp [isCountDigit]

theorem foldl_ofDigits (s : Str) : s.foldl (fun n c => 10 * n + (c.toNat - '0'.toNat)) 0 =
    Nat.ofDigits 10 (s.reverse.map fun c => c.toNat - '0'.toNat) := by
  induction s using List.reverseRecOn with
  | nil => rfl
  | append_singleton s c ih =>
    rw [List.foldl_append, List.foldl_cons, List.foldl_nil, ih, List.reverse_append, List.reverse_singleton,
      List.singleton_append, List.map_cons, Nat.ofDigits_cons, Nat.add_comm]

theorem takeWhile_pos {p : Char → Bool} {s : Str} {c : Char} (h : c ∈ s.takeWhile p) : p c = true := by
  induction s with
  | nil => simp at h
  | cons d s ih =>
    cases hd : p d with
    | false => simp [hd] at h
    | true =>
      rw [List.takeWhile_cons_of_pos hd, List.mem_cons] at h
      rcases h with rfl | h
      · exact hd
      · exact ih h

theorem countNum_text {s t : Str} {n : Nat} (h : countNum s = some (n, t)) : ∃ u, s = u ++ t ∧ NumText u n := by
  simp only [countNum] at h
  split_ifs at h with hd
  cases h
  simp only [Bool.or_eq_true, List.isEmpty_iff, decide_eq_true_eq, not_or] at hd
  refine ⟨s.takeWhile isCountDigit, List.takeWhile_append_dropWhile.symm, hd.1, by omega, fun c hc => ?_, foldl_ofDigits _⟩
  exact (digit_iff c).1 (takeWhile_pos hc)

theorem countNum_of_text {u : Str} {n : Nat} (h : NumText u n) (d : Char) (hd : isCountDigit d = false) (t : Str) :
    countNum (u ++ d :: t) = some (n, d :: t) := by
  obtain ⟨h1, h2, h3, h4⟩ := h
  have hp : ∀ c ∈ u, isCountDigit c = true := fun c hc => (digit_iff c).2 (h3 c hc)
  have e1 : (u ++ d :: t).takeWhile isCountDigit = u := by
    rw [List.takeWhile_append_of_pos hp, List.takeWhile_cons_of_neg (by simp [hd]), List.append_nil]
  have e2 : (u ++ d :: t).dropWhile isCountDigit = d :: t := by
    rw [List.dropWhile_append_of_pos hp, List.dropWhile_cons_of_neg (by simp [hd])]
  simp only [countNum, e1, e2]
  rw [if_neg (by simp [h1]; omega), foldl_ofDigits, ← h4]

theorem countEnd_text {lo : Nat} {hi : Option Nat} {s : Str} {o : Repeat} {t : Str} (h : countEnd lo hi s = (o, t)) :
    (o = .range lo hi true ∧ s = t) ∨ (o = .range lo hi false ∧ s = '?' :: t) := by
  rw [countEnd] at h
  split_ifs at h with hp
  · obtain ⟨w, rfl⟩ := peek_iff.1 hp
    cases h
    exact .inr ⟨rfl, rfl⟩
  · cases h
    exact .inl ⟨rfl, rfl⟩

theorem countedOp_text {s t : Str} {o : Repeat} (h : countedOp s = some (o, t)) : ∃ u lo hi, CountText u lo hi ∧
    ((o = .range lo hi true ∧ s = u ++ '}' :: t) ∨ (o = .range lo hi false ∧ s = u ++ '}' :: '?' :: t)) := by
  rw [countedOp] at h
  cases h1 : countNum s with
  | none => simp [h1] at h
  | some y =>
    obtain ⟨lo, u⟩ := y
    obtain ⟨a, rfl, ha⟩ := countNum_text h1
    simp only [h1] at h
    split_ifs at h with hp hp2 hp3
    · obtain ⟨w, rfl⟩ := peek_iff.1 hp
      rcases countEnd_text (Option.some.inj h) with ⟨rfl, e⟩ | ⟨rfl, e⟩
      · exact ⟨a, lo, some lo, .exactly ha, .inl ⟨rfl, by rw [← e]; rfl⟩⟩
      · exact ⟨a, lo, some lo, .exactly ha, .inr ⟨rfl, by rw [← e]; rfl⟩⟩
    · obtain ⟨w, rfl⟩ := peek_iff.1 hp2
      obtain ⟨w', rfl⟩ := peek_iff.1 hp3
      rcases countEnd_text (Option.some.inj h) with ⟨rfl, e⟩ | ⟨rfl, e⟩
      · exact ⟨a ++ [','], lo, none, .atLeast ha, .inl ⟨rfl, by rw [← e]; simp⟩⟩
      · exact ⟨a ++ [','], lo, none, .atLeast ha, .inr ⟨rfl, by rw [← e]; simp⟩⟩
    · obtain ⟨w, rfl⟩ := peek_iff.1 hp2
      rw [List.tail_cons] at h
      cases h2 : countNum w with
      | none => simp [h2] at h
      | some z =>
        obtain ⟨hi, v⟩ := z
        obtain ⟨b, rfl, hb⟩ := countNum_text h2
        simp only [h2] at h
        split_ifs at h with hp4
        rw [Bool.and_eq_true, decide_eq_true_eq] at hp4
        obtain ⟨w', rfl⟩ := peek_iff.1 hp4.1
        rcases countEnd_text (Option.some.inj h) with ⟨rfl, e⟩ | ⟨rfl, e⟩
        · exact ⟨a ++ ',' :: b, lo, some hi, .between ha hb hp4.2, .inl ⟨rfl, by rw [← e]; simp⟩⟩
        · exact ⟨a ++ ',' :: b, lo, some hi, .between ha hb hp4.2, .inr ⟨rfl, by rw [← e]; simp⟩⟩

theorem countedOp_of_text {u : Str} {lo : Nat} {hi : Option Nat} (h : CountText u lo hi) (t : Str) :
    countedOp (u ++ '}' :: t) = some (countEnd lo hi t) := by
  have p1 : ∀ w, peek '}' ('}' :: w) = true := fun w => rfl
  have p2 : ∀ w, peek ',' (',' :: w) = true := fun w => rfl
  have p3 : ∀ w, peek '}' (',' :: w) = false := fun w => rfl
  cases h with
  | exactly h =>
    rw [countedOp, countNum_of_text h _ (by decide)]
    simp only [p1, if_true, List.tail_cons]
  | atLeast h =>
    rw [countedOp, List.append_assoc, List.singleton_append, countNum_of_text h _ (by decide)]
    simp only [p1, p2, p3, if_true, List.tail_cons, Bool.false_eq_true, if_false]
  | @between a b n m h h' hnm =>
    rw [countedOp, List.append_assoc, List.cons_append, countNum_of_text h _ (by decide)]
    have p4 : peek '}' (b ++ '}' :: t) = false := by
      obtain ⟨h1, _, h3, _⟩ := h'
      cases b with
      | nil => exact absurd rfl h1
      | cons c b =>
        have := (h3 c (by simp)).2
        rw [peek_false]
        rintro w e
        cases e
        revert this
        decide
    simp only [p1, p2, p3, p4, if_true, List.tail_cons, Bool.false_eq_true, if_false, countNum_of_text h' '}' (by decide),
      hnm, decide_true, Bool.and_self]

theorem quantifier_text {da : Bool} {u s t : Str} {r q : Rx} (ha : AtomText da u r) (h : quantifier r s = some (q, t)) :
    ∃ v, s = v ++ t ∧ PieceText da (u ++ v) q := by
  have hsolid : ∀ {x : Rx}, ¬ x.nullable = true → x.Solid := fun hx => (solid_iff _).2 (by simpa using hx)
  rw [quantifier] at h
  cases s with
  | nil =>
    simp only [repeatOp, Option.some.injEq, Prod.mk.injEq] at h
    obtain ⟨rfl, rfl⟩ := h
    exact ⟨[], rfl, by rw [List.append_nil]; exact .plain ha⟩
  | cons c s =>
    rw [repeatOp] at h
    by_cases h1 : c = '*'
    · subst h1
      cases hp : peek '?' s with
      | true =>
        obtain ⟨s1, rfl⟩ := peek_iff.1 hp
        simp only [hp, beq_self_eq_true, if_true, List.tail_cons] at h
        split_ifs at h with hn
        cases h
        exact ⟨['*', '?'], rfl, .lazyStar ha (hsolid hn)⟩
      | false =>
        simp only [hp, beq_self_eq_true, if_true, Bool.false_eq_true, if_false] at h
        split_ifs at h with hn
        cases h
        exact ⟨['*'], rfl, .star ha (hsolid hn)⟩
    rw [if_neg (by simpa using h1)] at h
    by_cases h2 : c = '+'
    · subst h2
      cases hp : peek '?' s with
      | true =>
        obtain ⟨s1, rfl⟩ := peek_iff.1 hp
        simp only [hp, beq_self_eq_true, if_true, List.tail_cons] at h
        split_ifs at h with hn
        cases h
        exact ⟨['+', '?'], rfl, .lazyPlus ha (hsolid hn)⟩
      | false =>
        simp only [hp, beq_self_eq_true, if_true, Bool.false_eq_true, if_false] at h
        split_ifs at h with hn
        cases h
        exact ⟨['+'], rfl, .plus ha (hsolid hn)⟩
    rw [if_neg (by simpa using h2)] at h
    by_cases h3 : c = '?'
    · subst h3
      cases hp : peek '?' s with
      | true =>
        obtain ⟨s1, rfl⟩ := peek_iff.1 hp
        simp only [hp, beq_self_eq_true, if_true, List.tail_cons] at h
        cases h
        exact ⟨['?', '?'], rfl, .lazyOpt ha⟩
      | false =>
        simp only [hp, beq_self_eq_true, if_true, Bool.false_eq_true, if_false] at h
        cases h
        exact ⟨['?'], rfl, .opt ha⟩
    rw [if_neg (by simpa using h3)] at h
    by_cases h4 : c = '{'
    · subst h4
      cases hc : countedOp s with
      | none => simp [hc] at h
      | some y =>
        obtain ⟨o, w⟩ := y
        obtain ⟨v, lo, hi, hv, ⟨rfl, rfl⟩ | ⟨rfl, rfl⟩⟩ := countedOp_text hc
        all_goals
          simp only [hc, beq_self_eq_true, if_true, Option.getD_some] at h
          split_ifs at h with hn
          cases h
          have hr : hi = none → r.Solid := by
            rintro rfl
            exact hsolid fun h' => hn (by simp [h'])
        · exact ⟨'{' :: (v ++ ['}']), by simp, .counted ha hv hr⟩
        · exact ⟨'{' :: (v ++ ['}', '?']), by simp, .lazyCounted ha hv hr⟩
    rw [if_neg (by simpa using h4)] at h
    cases h
    exact ⟨[], rfl, by rw [List.append_nil]; exact .plain ha⟩

theorem AtomText.ne_nil {da : Bool} {s : Str} {r : Rx} (h : AtomText da s r) : s ≠ [] := by
  cases h <;> simp

theorem PieceText.ne_nil {da : Bool} {s : Str} {r : Rx} (h : PieceText da s r) : s ≠ [] := by
  cases h with
  | plain h => exact AtomText.ne_nil h
  | _ => simp

theorem concat_cons {da : Bool} {s t : Str} {r : Rx} {rs : List Rx} (h : PieceText da s r) (ht : ConcatText da t (.cat rs))
    (hrs : rs = [] ↔ t = []) : ConcatText da (s ++ t) (.cat (r :: rs)) := by
  cases rs with
  | nil =>
    rw [hrs.1 rfl, List.append_nil]
    exact .one h
  | cons q rs => exact .cons h (fun e => by simpa using hrs.2 e) ht

/-- what is read is a text of the grammar -/
theorem parse_text (da : Bool) (n : Nat) :
    (∀ s rs t, parseAlts da n s = some (rs, t) → rs ≠ [] ∧ ∃ u, s = u ++ t ∧ AltsText da u (.alts rs)) ∧
    (∀ s rs t, parseConcat da n s = some (rs, t) → ∃ u, s = u ++ t ∧ ConcatText da u (.cat rs) ∧ (rs = [] ↔ u = [])) ∧
    (∀ s r t, parseAtom da n s = some (r, t) → ∃ u, s = u ++ t ∧ AtomText da u r) := by
  induction n with
  | zero =>
    refine ⟨fun s x t h => ?_, fun s x t h => ?_, fun s x t h => ?_⟩
    · simp [parseAlts] at h
    · simp [parseConcat] at h
    · simp [parseAtom] at h
  | succ n ih =>
    obtain ⟨ihA, ihC, ihT⟩ := ih
    refine ⟨fun s rs t h => ?_, fun s rs t h => ?_, fun s r t h => ?_⟩
    · rw [parseAlts] at h
      cases hc : parseConcat da n s with
      | none => simp [hc] at h
      | some y =>
        obtain ⟨r, s1⟩ := y
        obtain ⟨u, rfl, hu, _⟩ := ihC s _ _ hc
        simp only [hc] at h
        split at h
        · rename_i hp
          obtain ⟨s2, rfl⟩ := peek_iff.1 hp
          simp only [List.tail_cons] at h
          cases ha : parseAlts da n s2 with
          | none => simp [ha] at h
          | some z =>
            obtain ⟨qs, s3⟩ := z
            obtain ⟨hne, v, rfl, hv⟩ := ihA _ _ _ ha
            simp only [ha, Option.some.injEq, Prod.mk.injEq] at h
            obtain ⟨rfl, rfl⟩ := h
            refine ⟨by simp, u ++ '|' :: v, by simp, ?_⟩
            cases qs with
            | nil => exact absurd rfl hne
            | cons q qs => exact .cons hu hv
        · simp only [Option.some.injEq, Prod.mk.injEq] at h
          obtain ⟨rfl, rfl⟩ := h
          exact ⟨by simp, u, rfl, .one hu⟩
    · rw [parseConcat] at h
      split at h
      · simp only [Option.some.injEq, Prod.mk.injEq] at h
        obtain ⟨rfl, rfl⟩ := h
        exact ⟨[], rfl, .nil, by simp⟩
      · cases ha : parseAtom da n s with
        | none => simp [ha] at h
        | some y =>
          obtain ⟨r, s1⟩ := y
          obtain ⟨u, rfl, hu⟩ := ihT s _ _ ha
          simp only [ha] at h
          cases hq : quantifier r s1 with
          | none => simp [hq] at h
          | some z =>
            obtain ⟨q, s2⟩ := z
            obtain ⟨v, rfl, hv⟩ := quantifier_text hu hq
            simp only [hq] at h
            cases hc : parseConcat da n s2 with
            | none => simp [hc] at h
            | some w =>
              obtain ⟨qs, s3⟩ := w
              obtain ⟨x, rfl, hx, hxe⟩ := ihC _ _ _ hc
              simp only [hc, Option.some.injEq, Prod.mk.injEq] at h
              obtain ⟨rfl, rfl⟩ := h
              refine ⟨u ++ v ++ x, by simp, concat_cons hv hx hxe, ?_⟩
              constructor
              · simp
              · intro e
                exact absurd (List.append_eq_nil_iff.1 e).1 (PieceText.ne_nil hv)
    · rw [parseAtom] at h
      split at h
      · rename_i hp
        obtain ⟨s1, rfl⟩ := peek_iff.1 hp
        simp only [List.tail_cons] at h
        cases hg : groupStart s1 with
        | none => simp [hg] at h
        | some g =>
          simp only [hg] at h
          cases ha : parseAlts da n g with
          | none => simp [ha] at h
          | some y =>
            obtain ⟨rs, s2⟩ := y
            obtain ⟨_, u, rfl, hu⟩ := ihA _ _ _ ha
            simp only [ha] at h
            split at h
            · rename_i hc
              obtain ⟨s3, rfl⟩ := peek_iff.1 hc
              simp only [List.tail_cons, Option.some.injEq, Prod.mk.injEq] at h
              obtain ⟨rfl, rfl⟩ := h
              rw [groupStart] at hg
              split_ifs at hg with h1 h2
              · obtain ⟨s4, rfl⟩ := peek_iff.1 h1
                obtain ⟨s5, e⟩ := peek_iff.1 h2
                rw [List.tail_cons] at e
                subst e
                simp only [List.tail_cons, Option.some.injEq] at hg
                subst hg
                exact ⟨'(' :: '?' :: ':' :: (u ++ [')']), by simp, .bare hu⟩
              · cases hg
                exact ⟨'(' :: (u ++ [')']), by simp, .group hu⟩
            · simp at h
      · exact single_text h

/-! ### every text is read -/

theorem classPrim_of_text {u : Str} {i : ClassItem} (h : PrimText u i) (t : Str) : classPrim (u ++ t) = some (i, t) := by
  cases h with
  | plain h => simp only [List.singleton_append, classPrim, classKind_plain.2 h]
  | escape h => simp only [List.cons_append, classPrim, classKind_back.2, escaped_of_text h]

/-- the first characters of a member -/
theorem item_head {s : Str} {i : ClassItem} (h : ItemText s i) : ∃ c w, s = c :: w ∧ c ≠ ']' ∧ c ≠ '-' ∧
    (c = '\\' ∨ w = [] ∨ ∃ v, w = '-' :: v) := by
  have key : ∀ {s i}, PrimText s i → ∃ c w, s = c :: w ∧ c ≠ ']' ∧ c ≠ '-' ∧ (c = '\\' ∨ w = []) := by
    intro s i h
    cases h with
    | @plain c h =>
      simp only [PlainInClass, List.mem_cons, List.not_mem_nil, or_false, not_or] at h
      exact ⟨c, [], rfl, h.2.2.1, h.2.2.2, .inr rfl⟩
    | @escape s i h => exact ⟨'\\', s, rfl, by decide, by decide, .inl rfl⟩
  cases h with
  | prim h =>
    obtain ⟨c, w, e, h1, h2, h3⟩ := key h
    exact ⟨c, w, e, h1, h2, h3.elim .inl fun h => .inr (.inl h)⟩
  | @range _ t _ _ ha hb hab =>
    obtain ⟨c, w, rfl, h1, h2, h3⟩ := key ha
    refine ⟨c, w ++ '-' :: t, rfl, h1, h2, h3.elim .inl ?_⟩
    rintro rfl
    exact .inr (.inr ⟨t, rfl⟩)

/-- what follows a member -/
theorem items_head {s : Str} {is : List ClassItem} (h : ItemsText s is) (t : Str) :
    (peek '-' (s ++ ']' :: t) && !peek ']' (s ++ ']' :: t).tail) = false ∧
      (is ≠ [] → peek ']' (s ++ ']' :: t) = false) := by
  cases h with
  | nil => simp [peek]
  | minus => simp [peek]
  | cons h _ _ =>
    obtain ⟨c, w, rfl, h1, h2, -⟩ := item_head h
    simp [peek, h1, h2]

theorem classMember_of_text {s : Str} {i : ClassItem} (h : ItemText s i) {t : Str}
    (ht : (peek '-' t && !peek ']' t.tail) = false) : classMember (s ++ t) = some (i, t) := by
  cases h with
  | prim h => simp only [classMember, classPrim_of_text h, ht, Bool.false_eq_true, if_false]
  | @range s u a b ha hb hab =>
    obtain ⟨c, w, rfl, h1, h2, -⟩ := item_head (.prim hb)
    rw [List.append_assoc, classMember, classPrim_of_text ha]
    have hp : (peek '-' ('-' :: (c :: w) ++ t) && !peek ']' ('-' :: (c :: w) ++ t).tail) = true := by
      simp [peek, h1]
    simp only [hp, if_true]
    exact rangeTo_eq.2 ⟨a, b, rfl, classPrim_of_text hb t, hab, rfl⟩

theorem classItems_of_text {s : Str} {is : List ClassItem} (h : ItemsText s is) (t : Str) (n : Nat) (hn : s.length + 1 ≤ n) :
    classItems n (s ++ ']' :: t) = some (is, t) := by
  induction h generalizing n with
  | nil =>
    obtain ⟨n, rfl⟩ : ∃ k, n = k + 1 := ⟨n - 1, by omega⟩
    rfl
  | minus =>
    simp only [List.length_singleton] at hn
    obtain ⟨n, rfl⟩ : ∃ k, n = k + 2 := ⟨n - 2, by omega⟩
    rfl
  | @cons s u i is h hop hs ih =>
    obtain ⟨n, rfl⟩ : ∃ k, n = k + 1 := ⟨n - 1, by omega⟩
    have hm := classMember_of_text h (items_head hs t).1
    obtain ⟨c, w, rfl, h1, h2, h3⟩ := item_head h
    have hnext : classNext ((c :: w) ++ u ++ ']' :: t) = some (some i, u ++ ']' :: t) := by
      rw [List.append_assoc, List.cons_append, classNext, if_neg (by simpa using h1), if_neg (by simp [h2]), if_neg,
        ← List.cons_append, hm]
      · rfl
      · intro ho
        rw [Bool.and_eq_true] at ho
        obtain ⟨ho, hp⟩ := ho
        simp only [isClassOp, Bool.or_eq_true, beq_iff_eq] at ho
        cases w with
        | nil =>
          refine hop c (by simpa using ho) rfl ?_
          cases u with
          | nil => simp [peek] at hp; exact absurd hp.symm h1
          | cons x u => simpa [peek] using hp
        | cons x w =>
          have hx : x = c := by simpa [peek] using hp
          subst hx
          rcases h3 with rfl | h3 | ⟨v, h3⟩
          · rcases ho with ho | ho <;> exact absurd ho (by decide)
          · cases h3
          · rw [List.cons.injEq] at h3
            exact h2 h3.1
    rw [classItems, hnext]
    simp only [ih n (by simp at hn; omega), Option.map_some]

theorem classBody_of_text {s : Str} {is : List ClassItem} (h : ClassText s is) (t : Str) :
    classBody (s ++ ']' :: t) = some (is, t) := by
  cases h with
  | items h hne =>
    obtain ⟨h1, h2⟩ := items_head h t
    rw [classBody, h2 hne, if_neg (by simp)]
    cases h with
    | nil => exact absurd rfl hne
    | minus => rfl
    | @cons s u i is hi hop hs =>
      have hall := classItems_of_text (.cons hi hop hs) t ((s ++ u ++ ']' :: t).length + 1) (by simp)
      obtain ⟨c, w, rfl, h3, h4, -⟩ := item_head hi
      have hp : peek '-' (c :: w ++ u ++ ']' :: t) = false := by simp [peek, h4]
      simp only [hp, Bool.false_eq_true, if_false, hall]
      rfl
  | @minus s is h =>
    have hp : peek '-' ('-' :: s ++ ']' :: t) = true := rfl
    have hq : peek ']' ('-' :: s ++ ']' :: t) = false := rfl
    have he : ('-' :: s ++ ']' :: t).tail = s ++ ']' :: t := rfl
    rw [classBody]
    simp only [hp, hq, if_true, Bool.false_eq_true, if_false, he]
    rw [classItems_of_text h t _ (by simp only [List.cons_append, List.length_cons, List.length_append]; omega)]
    rfl

/-- the text behind does not continue a piece -/
def Stops (t : Str) : Prop := repeatOp t = none

theorem atomKind_plain {c : Char} (h : PlainChar c) : atomKind c = .plain := by
  have hm := (isMeta_iff c).2 h
  simp only [PlainChar, List.mem_cons, List.not_mem_nil, or_false, not_or] at h
  rw [atomKind, if_neg (by simp [h]), if_neg (by simp [h]), if_neg (by simp [h]), if_neg (by simp [hm])]

/-- the first character of an atom -/
theorem atom_head {da : Bool} {s : Str} {r : Rx} (h : AtomText da s r) (t : Str) :
    Stops (s ++ t) ∧ branchEnd (s ++ t) = false ∧ peek '^' (s ++ t) = false ∧ peek '?' (s ++ t) = false := by
  have key : ∀ c w, c ∉ ['*', '+', '?', '{', '|', ')', '^'] →
      Stops (c :: w) ∧ branchEnd (c :: w) = false ∧ peek '^' (c :: w) = false ∧ peek '?' (c :: w) = false := by
    intro c w hc
    simp only [List.mem_cons, List.not_mem_nil, or_false, not_or] at hc
    simp [Stops, repeatOp, branchEnd, peek, hc]
  cases h with
  | char h =>
    refine key _ _ ?_
    simp only [PlainChar, List.mem_cons, List.not_mem_nil, or_false, not_or] at h
    simp [h]
  | _ => exact key _ _ (by decide)

theorem piece_head {da : Bool} {s : Str} {r : Rx} (h : PieceText da s r) (t : Str) :
    Stops (s ++ t) ∧ branchEnd (s ++ t) = false ∧ peek '^' (s ++ t) = false ∧ peek '?' (s ++ t) = false := by
  cases h with
  | plain h => exact atom_head h t
  | star h | lazyStar h | plus h | lazyPlus h | opt h | lazyOpt h | counted h | lazyCounted h => rw [List.append_assoc]; exact atom_head h _

theorem concat_head {da : Bool} {s : Str} {r : Rx} (h : ConcatText da s r) {t : Str} (ht : branchEnd t = true) :
    Stops (s ++ t) ∧ peek '^' (s ++ t) = false ∧ peek '?' (s ++ t) = false := by
  cases h with
  | nil =>
    cases t with
    | nil => exact ⟨rfl, rfl, rfl⟩
    | cons c t =>
      have : c = '|' ∨ c = ')' := by simpa [branchEnd, peek] using ht
      rcases this with rfl | rfl <;> exact ⟨rfl, rfl, rfl⟩
  | one h => exact ⟨(piece_head h t).1, (piece_head h t).2.2⟩
  | cons h _ _ => rw [List.append_assoc]; exact ⟨(piece_head h _).1, (piece_head h _).2.2⟩

theorem alts_head {da : Bool} {s : Str} {r : Rx} (h : AltsText da s r) (t : Str) : peek '?' (s ++ ')' :: t) = false := by
  cases h with
  | one h => exact (concat_head h (by rfl)).2.2
  | cons h _ => rw [List.append_assoc]; exact (concat_head h (by rfl)).2.2

theorem quantifier_stops {r : Rx} {t : Str} (h : Stops t) : quantifier r t = some (r, t) := by
  rw [quantifier, h]

theorem stops_peek {t : Str} (h : Stops t) : peek '?' t = false := by
  cases t with
  | nil => rfl
  | cons c t =>
    by_contra hc
    have : c = '?' := by simpa [peek] using hc
    subst this
    rw [Stops, repeatOp] at h
    simp at h
    split_ifs at h

/-- reading a piece -/
theorem piece_parse {da : Bool} {s : Str} {r : Rx} (h : PieceText da s r)
    (ih : ∀ u q, AtomText da u q → u.length ≤ s.length → ∀ t, ∃ n, ∀ m, n ≤ m → parseAtom da m (u ++ t) = some (q, t)) (t : Str)
    (ht : Stops t) :
    ∃ q v n, (∀ m, n ≤ m → parseAtom da m (s ++ t) = some (q, v)) ∧ quantifier q v = some (r, t) := by
  have hs : ∀ {x : Rx}, x.Solid → x.nullable = false := fun hx => (solid_iff _).1 hx
  have hp := stops_peek ht
  cases h with
  | plain h =>
    obtain ⟨n, hn⟩ := ih _ _ h (Nat.le_refl _) t
    exact ⟨r, t, n, hn, quantifier_stops ht⟩
  | @star s r h hr =>
    obtain ⟨n, hn⟩ := ih _ _ h (by simp) ('*' :: t)
    refine ⟨r, '*' :: t, n, fun m hm => by rw [List.append_assoc]; exact hn m hm, ?_⟩
    simp [quantifier, repeatOp, hp, hs hr]
  | @lazyStar s r h hr =>
    obtain ⟨n, hn⟩ := ih _ _ h (by simp) ('*' :: '?' :: t)
    refine ⟨r, '*' :: '?' :: t, n, fun m hm => by rw [List.append_assoc]; exact hn m hm, ?_⟩
    simp [quantifier, repeatOp, peek, hs hr]
  | @plus s r h hr =>
    obtain ⟨n, hn⟩ := ih _ _ h (by simp) ('+' :: t)
    refine ⟨r, '+' :: t, n, fun m hm => by rw [List.append_assoc]; exact hn m hm, ?_⟩
    simp [quantifier, repeatOp, hp, hs hr]
  | @lazyPlus s r h hr =>
    obtain ⟨n, hn⟩ := ih _ _ h (by simp) ('+' :: '?' :: t)
    refine ⟨r, '+' :: '?' :: t, n, fun m hm => by rw [List.append_assoc]; exact hn m hm, ?_⟩
    simp [quantifier, repeatOp, peek, hs hr]
  | @opt s r h =>
    obtain ⟨n, hn⟩ := ih _ _ h (by simp) ('?' :: t)
    refine ⟨r, '?' :: t, n, fun m hm => by rw [List.append_assoc]; exact hn m hm, ?_⟩
    simp [quantifier, repeatOp, hp]
  | @lazyOpt s r h =>
    obtain ⟨n, hn⟩ := ih _ _ h (by simp) ('?' :: '?' :: t)
    refine ⟨r, '?' :: '?' :: t, n, fun m hm => by rw [List.append_assoc]; exact hn m hm, ?_⟩
    simp [quantifier, repeatOp, peek]
  | @counted s u r lo hi h hu hr =>
    obtain ⟨n, hn⟩ := ih _ _ h (by simp) ('{' :: (u ++ '}' :: t))
    refine ⟨r, '{' :: (u ++ '}' :: t), n, fun m hm => ?_, ?_⟩
    · have := hn m hm
      simpa using this
    · have hc : countedOp (u ++ '}' :: t) = some (.range lo hi true, t) := by
        rw [countedOp_of_text hu, countEnd, hp]; rfl
      have hg : (hi.isNone && r.nullable) = false := by
        cases hi with
        | none => simp [hs (hr rfl)]
        | some _ => rfl
      simp [quantifier, repeatOp, hc, hg]
  | @lazyCounted s u r lo hi h hu hr =>
    obtain ⟨n, hn⟩ := ih _ _ h (by simp) ('{' :: (u ++ '}' :: '?' :: t))
    refine ⟨r, '{' :: (u ++ '}' :: '?' :: t), n, fun m hm => ?_, ?_⟩
    · have := hn m hm
      simpa using this
    · have hc : countedOp (u ++ '}' :: '?' :: t) = some (.range lo hi false, t) := by
        rw [countedOp_of_text hu]; rfl
      have hg : (hi.isNone && r.nullable) = false := by
        cases hi with
        | none => simp [hs (hr rfl)]
        | some _ => rfl
      simp [quantifier, repeatOp, hc, hg]

/-- every text of the grammar is read, with enough fuel, up to its end -/
theorem text_parse (da : Bool) (k : Nat) :
    (∀ s r, AltsText da s r → s.length ≤ k → ∀ t, (t = [] ∨ ∃ w, t = ')' :: w) →
      ∃ n rs, r = .alts rs ∧ rs ≠ [] ∧ ∀ m, n ≤ m → parseAlts da m (s ++ t) = some (rs, t)) ∧
    (∀ s r, ConcatText da s r → s.length ≤ k → ∀ t, branchEnd t = true →
      ∃ n rs, r = .cat rs ∧ (rs = [] ↔ s = []) ∧ ∀ m, n ≤ m → parseConcat da m (s ++ t) = some (rs, t)) ∧
    (∀ s r, AtomText da s r → s.length ≤ k → ∀ t, ∃ n, ∀ m, n ≤ m → parseAtom da m (s ++ t) = some (r, t)) := by
  induction k with
  | zero =>
    have hC : ∀ s r, ConcatText da s r → s.length ≤ 0 → ∀ t, branchEnd t = true →
        ∃ n rs, r = .cat rs ∧ (rs = [] ↔ s = []) ∧ ∀ m, n ≤ m → parseConcat da m (s ++ t) = some (rs, t) := by
      intro s r h hk t ht
      have hs : s = [] := List.length_eq_zero_iff.1 (by omega)
      cases h with
      | nil =>
        refine ⟨1, [], rfl, by simp, fun m hm => ?_⟩
        obtain ⟨m, rfl⟩ : ∃ j, m = j + 1 := ⟨m - 1, by omega⟩
        rw [parseConcat, List.nil_append, if_pos ht]
      | one h => exact absurd hs (PieceText.ne_nil h)
      | cons h _ _ => exact absurd (List.append_eq_nil_iff.1 hs).1 (PieceText.ne_nil h)
    refine ⟨fun s r h hk t ht => ?_, hC, fun s r h hk => ?_⟩
    · have hs : s = [] := List.length_eq_zero_iff.1 (by omega)
      cases h with
      | one h =>
        have hb : branchEnd t = true := by rcases ht with rfl | ⟨w, rfl⟩ <;> rfl
        obtain ⟨n, rs, rfl, _, hn⟩ := hC s r h hk t hb
        refine ⟨n + 1, [.cat rs], rfl, by simp, fun m hm => ?_⟩
        obtain ⟨m, rfl⟩ : ∃ j, m = j + 1 := ⟨m - 1, by omega⟩
        rw [parseAlts, hn m (by omega)]
        have : peek '|' t = false := by rcases ht with rfl | ⟨w, rfl⟩ <;> rfl
        simp [this]
      | cons h _ => simp at hs
    · exact absurd (List.length_eq_zero_iff.1 (by omega)) (AtomText.ne_nil h)
  | succ k ih =>
    obtain ⟨ihA, ihC, ihT⟩ := ih
    have hT : ∀ s r, AtomText da s r → s.length ≤ k + 1 → ∀ t, ∃ n, ∀ m, n ≤ m → parseAtom da m (s ++ t) = some (r, t) := by
      intro s r h hk t
      cases h with
      | @char c h =>
        refine ⟨1, fun m hm => ?_⟩
        obtain ⟨m, rfl⟩ : ∃ j, m = j + 1 := ⟨m - 1, by omega⟩
        have hp : peek '(' ([c] ++ t) = false := by
          simp only [PlainChar, List.mem_cons, List.not_mem_nil, or_false, not_or] at h
          simp [peek, h]
        rw [parseAtom, hp, if_neg (by simp), List.singleton_append, single, atomKind_plain h]
        rfl
      | dot =>
        refine ⟨1, fun m hm => ?_⟩
        obtain ⟨m, rfl⟩ : ∃ j, m = j + 1 := ⟨m - 1, by omega⟩
        rfl
      | @escape c i h =>
        refine ⟨1, fun m hm => ?_⟩
        obtain ⟨m, rfl⟩ : ∃ j, m = j + 1 := ⟨m - 1, by omega⟩
        have hp : peek '(' ('\\' :: (c ++ t)) = false := rfl
        have hk : atomKind '\\' = .back := by decide
        rw [List.cons_append, parseAtom, hp, if_neg (by simp), single, hk, singleOf, escaped_of_text h]
        rfl
      | @cls s is h hs =>
        refine ⟨1, fun m hm => ?_⟩
        obtain ⟨m, rfl⟩ : ∃ j, m = j + 1 := ⟨m - 1, by omega⟩
        have hp : ∀ w, peek '(' ('[' :: w) = false := fun w => rfl
        have hk : atomKind '[' = .bracket := by decide
        have h2 : peek '^' (s ++ ']' :: t) = false := by
          cases s with
          | nil => simp [peek]
          | cons x s => simpa [peek] using hs
        rw [parseAtom, List.cons_append, hp, if_neg (by simp), single, hk, singleOf, List.append_assoc,
          List.singleton_append, parseClass_plain h2, classBody_of_text h]
        rfl
      | @negated s is h =>
        refine ⟨1, fun m hm => ?_⟩
        obtain ⟨m, rfl⟩ : ∃ j, m = j + 1 := ⟨m - 1, by omega⟩
        have hp : ∀ w, peek '(' ('[' :: w) = false := fun w => rfl
        have hk : atomKind '[' = .bracket := by decide
        rw [parseAtom, List.cons_append, hp, if_neg (by simp), single, hk, singleOf, List.cons_append, List.append_assoc,
          List.singleton_append, parseClass_negated, classBody_of_text h]
        rfl
      | @group s r h =>
        obtain ⟨n, rs, rfl, _, hn⟩ := ihA s r h (by simp at hk; omega) (')' :: t) (.inr ⟨t, rfl⟩)
        refine ⟨n + 1, fun m hm => ?_⟩
        obtain ⟨m, rfl⟩ : ∃ j, m = j + 1 := ⟨m - 1, by omega⟩
        have hp : ∀ w, peek '(' ('(' :: w) = true := fun w => rfl
        have hg : groupStart (s ++ ')' :: t) = some (s ++ ')' :: t) := by
          rw [groupStart, alts_head h t]
          rfl
        rw [parseAtom, List.cons_append, hp, if_pos rfl, List.tail_cons, List.append_assoc, List.singleton_append, hg]
        simp only [hn m (by omega)]
        rfl
      | @bare s r h =>
        obtain ⟨n, rs, rfl, _, hn⟩ := ihA s r h (by simp at hk; omega) (')' :: t) (.inr ⟨t, rfl⟩)
        refine ⟨n + 1, fun m hm => ?_⟩
        obtain ⟨m, rfl⟩ : ∃ j, m = j + 1 := ⟨m - 1, by omega⟩
        have hp : ∀ w, peek '(' ('(' :: w) = true := fun w => rfl
        have hg : groupStart ('?' :: ':' :: (s ++ ')' :: t)) = some (s ++ ')' :: t) := rfl
        rw [parseAtom, List.cons_append, hp, if_pos rfl, List.tail_cons, List.cons_append, List.cons_append,
          List.append_assoc, List.singleton_append, hg]
        simp only [hn m (by omega)]
        rfl
    have hC : ∀ s r, ConcatText da s r → s.length ≤ k + 1 → ∀ t, branchEnd t = true →
        ∃ n rs, r = .cat rs ∧ (rs = [] ↔ s = []) ∧ ∀ m, n ≤ m → parseConcat da m (s ++ t) = some (rs, t) := by
      intro s r h hk t ht
      have hstop : Stops t := (concat_head (.nil (dotAll := da)) ht).1
      have hend : ∀ m, 1 ≤ m → parseConcat da m t = some ([], t) := by
        intro m hm
        obtain ⟨m, rfl⟩ : ∃ j, m = j + 1 := ⟨m - 1, by omega⟩
        rw [parseConcat, if_pos ht]
      cases h with
      | nil => exact ⟨1, [], rfl, by simp, hend⟩
      | one h =>
        obtain ⟨q, v, n, h1, h2⟩ := piece_parse h (fun u q hu hl => hT u q hu (by omega)) t hstop
        refine ⟨n + 2, [r], rfl, by simp [PieceText.ne_nil h], fun m hm => ?_⟩
        obtain ⟨m, rfl⟩ : ∃ j, m = j + 1 := ⟨m - 1, by omega⟩
        rw [parseConcat, (piece_head h t).2.1, if_neg (by simp)]
        simp only [h1 m (by omega), h2, hend m (by omega)]
      | @cons s1 s2 r1 r2 h hne hs =>
        have hl1 : 0 < s1.length := List.length_pos_iff.2 (PieceText.ne_nil h)
        rw [List.length_append] at hk
        obtain ⟨n2, rs, rfl, hrs, hn2⟩ := ihC s2 r2 hs (by omega) t ht
        obtain ⟨q, v, n, h1, h2⟩ := piece_parse h (fun u q hu hl => hT u q hu (by omega)) (s2 ++ t) (concat_head hs ht).1
        refine ⟨n + n2 + 1, r1 :: rs, ?_, by simp [PieceText.ne_nil h], fun m hm => ?_⟩
        · cases rs with
          | nil => exact absurd (hrs.1 rfl) hne
          | cons x xs => rfl
        · obtain ⟨m, rfl⟩ : ∃ j, m = j + 1 := ⟨m - 1, by omega⟩
          rw [parseConcat, List.append_assoc, (piece_head h _).2.1, if_neg (by simp)]
          simp only [h1 m (by omega), h2, hn2 m (by omega)]
    refine ⟨fun s r h hk t ht => ?_, hC, hT⟩
    have hpk : peek '|' t = false := by rcases ht with rfl | ⟨w, rfl⟩ <;> rfl
    cases h with
    | one h =>
      have hb : branchEnd t = true := by rcases ht with rfl | ⟨w, rfl⟩ <;> rfl
      obtain ⟨n, rs, rfl, _, hn⟩ := hC s r h hk t hb
      refine ⟨n + 1, [.cat rs], rfl, by simp, fun m hm => ?_⟩
      obtain ⟨m, rfl⟩ : ∃ j, m = j + 1 := ⟨m - 1, by omega⟩
      rw [parseAlts, hn m (by omega)]
      simp [hpk]
    | @cons s1 s2 r1 r2 h hs =>
      simp only [List.length_append, List.length_cons] at hk
      obtain ⟨n, rs, rfl, _, hn⟩ := hC s1 r1 h (by omega) ('|' :: (s2 ++ t)) (by rfl)
      obtain ⟨n2, qs, rfl, hqs, hn2⟩ := ihA s2 r2 hs (by omega) t ht
      refine ⟨n + n2 + 1, .cat rs :: qs, ?_, by simp, fun m hm => ?_⟩
      · cases qs with
        | nil => exact absurd rfl hqs
        | cons x xs => rfl
      · obtain ⟨m, rfl⟩ : ∃ j, m = j + 1 := ⟨m - 1, by omega⟩
        have hp : ∀ w, peek '|' ('|' :: w) = true := fun w => rfl
        rw [parseAlts, List.append_assoc, List.cons_append, hn m (by omega)]
        simp only [hp, if_true, List.tail_cons, hn2 m (by omega)]

/-- **C64** A text is read as a regex iff the grammar of the documentation has it, and then as its tree. -/
theorem C64_syntax (s : Str) (r : Rx) : parse s = some r ↔ AltsText false s r := by
  constructor
  · intro h
    rw [parse] at h
    split at h
    · rename_i rs hp
      simp only [Option.some.injEq] at h
      subst h
      obtain ⟨_, u, e, hu⟩ := (parse_text false _).1 _ _ _ hp
      rw [List.append_nil] at e
      rw [e]
      exact hu
    · cases h
  · intro h
    obtain ⟨n, rs, rfl, _, hn⟩ := (text_parse false s.length).1 s r h (Nat.le_refl _) [] (.inl rfl)
    have := hn n (Nat.le_refl _)
    rw [List.append_nil] at this
    exact C64_fuel n s rs this

theorem concat_fuel {da : Bool} {s t : Str} {r : Rx} (h : ConcatText da s r) (ht : branchEnd t = true) (m : Nat)
    (hm : 3 * (s ++ t).length + 2 ≤ m) : ∃ rs, r = .cat rs ∧ parseConcat da m (s ++ t) = some (rs, t) := by
  obtain ⟨n, rs, rfl, _, hn⟩ := (text_parse da s.length).2.1 s r h (Nat.le_refl _) t ht
  exact ⟨rs, rfl, ((parse_fuel da n).2.1 _ _ (hn n (Nat.le_refl _))).2 m hm⟩

theorem branches_iff (n : Nat) (s : Str) (p : Pattern) (hn : s.length + 1 ≤ n) :
    parseBranches n s = some p ↔ BranchesText s p := by
  constructor
  · intro h
    induction n generalizing s p with
    | zero => simp [parseBranches] at h
    | succ n ih =>
      rw [parseBranches] at h
      have body : ∀ w b, (match parseConcat false (fuelFor w) w with
          | none => none
          | some (r, s) =>
            if peek '|' s then
              match parseBranches n s.tail with
              | some bs => some ((b, .cat r) :: bs)
              | none => none
            else if s.isEmpty then some [(b, .cat r)] else none) = some p → w.length ≤ n ∨ w = s →
          (∃ r, ConcatText false w r ∧ p = [(b, r)]) ∨
          ∃ u v r bs, w = u ++ '|' :: v ∧ ConcatText false u r ∧ p = (b, r) :: bs ∧ BranchesText v bs := by
        intro w b h hw
        cases hc : parseConcat false (fuelFor w) w with
        | none => simp [hc] at h
        | some y =>
          obtain ⟨rs, s1⟩ := y
          obtain ⟨u, rfl, hu, _⟩ := (parse_text false _).2.1 _ _ _ hc
          simp only [hc] at h
          split at h
          · rename_i hp
            obtain ⟨s2, rfl⟩ := peek_iff.1 hp
            simp only [List.tail_cons] at h
            cases hb : parseBranches n s2 with
            | none => simp [hb] at h
            | some bs =>
              simp only [hb, Option.some.injEq] at h
              refine .inr ⟨u, s2, _, bs, rfl, hu, h.symm, ih _ _ ?_ hb⟩
              rcases hw with hw | hw
              · simp at hw; omega
              · rw [← hw] at hn
                simp at hn; omega
          · split at h
            · rename_i he
              rw [List.isEmpty_iff] at he
              subst he
              simp only [Option.some.injEq] at h
              exact .inl ⟨_, by rw [List.append_nil]; exact hu, h.symm⟩
            · cases h
      cases ha : peek '^' s with
      | true =>
        obtain ⟨s1, rfl⟩ := peek_iff.1 ha
        simp only [ha, if_true, List.tail_cons] at h
        rcases body s1 true h (.inl (by simp at hn; omega)) with ⟨r, hr, rfl⟩ | ⟨u, v, r, bs, rfl, hu, rfl, hv⟩
        · exact .anchored hr
        · exact .anchoredCons hu hv
      | false =>
        simp only [ha, Bool.false_eq_true, if_false] at h
        rcases body s false h (.inr rfl) with ⟨r, hr, rfl⟩ | ⟨u, v, r, bs, rfl, hu, rfl, hv⟩
        · exact .plain hr
        · exact .plainCons hu hv
  · intro h
    induction h generalizing n with
    | @plain s r h =>
      obtain ⟨n, rfl⟩ : ∃ k, n = k + 1 := ⟨n - 1, by omega⟩
      have hp : peek '^' s = false := by
        have := (concat_head h (t := []) rfl).2.1
        rwa [List.append_nil] at this
      obtain ⟨rs, rfl, hc⟩ := concat_fuel h (t := []) rfl (fuelFor s) (by rw [List.append_nil, fuelFor]; omega)
      rw [List.append_nil] at hc
      rw [parseBranches]
      simp only [hp, Bool.false_eq_true, if_false, hc]
      rfl
    | @anchored s r h =>
      obtain ⟨n, rfl⟩ : ∃ k, n = k + 1 := ⟨n - 1, by omega⟩
      obtain ⟨rs, rfl, hc⟩ := concat_fuel h (t := []) rfl (fuelFor s) (by rw [List.append_nil, fuelFor]; omega)
      rw [List.append_nil] at hc
      have hp : peek '^' ('^' :: s) = true := rfl
      rw [parseBranches]
      simp only [hp, if_true, List.tail_cons, hc]
      rfl
    | @plainCons s t r p h hs ih =>
      obtain ⟨n, rfl⟩ : ∃ k, n = k + 1 := ⟨n - 1, by omega⟩
      have hp : peek '^' (s ++ '|' :: t) = false := (concat_head h rfl).2.1
      obtain ⟨rs, rfl, hc⟩ := concat_fuel h (t := '|' :: t) rfl (fuelFor (s ++ '|' :: t)) (by rw [fuelFor]; omega)
      have hq : peek '|' ('|' :: t) = true := rfl
      rw [parseBranches]
      simp only [hp, Bool.false_eq_true, if_false, hc, hq, if_true, List.tail_cons, ih n (by simp at hn; omega)]
    | @anchoredCons s t r p h hs ih =>
      obtain ⟨n, rfl⟩ : ∃ k, n = k + 1 := ⟨n - 1, by omega⟩
      obtain ⟨rs, rfl, hc⟩ := concat_fuel h (t := '|' :: t) rfl (fuelFor (s ++ '|' :: t)) (by rw [fuelFor]; omega)
      have hp : peek '^' ('^' :: (s ++ '|' :: t)) = true := rfl
      have hq : peek '|' ('|' :: t) = true := rfl
      rw [parseBranches]
      simp only [hp, if_true, List.tail_cons, hc, hq, ih n (by simp at hn; omega)]

theorem not_branches_flag {w : Str} {p : Pattern} : ¬ BranchesText ('^' :: '(' :: '?' :: 's' :: ')' :: w) p := by
  have key : ∀ s r t, branchEnd t = true → ConcatText false s r → s ++ t ≠ '(' :: '?' :: 's' :: ')' :: w := by
    intro s r t ht h e
    obtain ⟨rs, _, hc⟩ := concat_fuel h ht (3 * (s ++ t).length + 2) (Nat.le_refl _)
    rw [e] at hc
    simp only [List.length_cons] at hc
    rw [show 3 * (w.length + 1 + 1 + 1 + 1) + 2 = (3 * w.length + 11) + 1 + 1 + 1 by omega, parseConcat] at hc
    have hb : branchEnd ('(' :: '?' :: 's' :: ')' :: w) = false := rfl
    have ha : ∀ n, parseAtom false (n + 1) ('(' :: '?' :: 's' :: ')' :: w) = none := fun n => rfl
    rw [hb, if_neg (by simp), ha] at hc
    cases hc
  have hcaret : ∀ s r t w, branchEnd t = true → ConcatText false s r → s ++ t ≠ '^' :: w := by
    intro s r t w ht h e
    have := (concat_head h ht).2.1
    rw [e] at this
    cases this
  generalize he : '^' :: '(' :: '?' :: 's' :: ')' :: w = x
  intro h
  cases h with
  | plain h => exact hcaret x _ [] _ rfl h (by rw [List.append_nil]; exact he.symm)
  | anchored h =>
    simp only [List.cons.injEq, true_and] at he
    exact key _ _ [] rfl h (by rw [List.append_nil]; exact he.symm)
  | plainCons h _ => exact hcaret _ _ _ _ rfl h he.symm
  | anchoredCons h _ =>
    simp only [List.cons.injEq, true_and] at he
    exact key _ _ _ rfl h he.symm

/-- **C64** `Regex::new` accepts a text iff the grammar of the documentation has it, and compiles it to its tree. -/
theorem C64_pattern_syntax (s : Str) (p : Pattern) : compile s = some p ↔ PatternText s p := by
  rw [compile]
  split
  · rename_i h5
    obtain ⟨w, rfl⟩ : ∃ w, s = '^' :: '(' :: '?' :: 's' :: ')' :: w := by
      match s, h5 with
      | a :: b :: c :: d :: e :: w, h5 =>
        simp only [List.take_succ_cons, List.take_zero, List.cons.injEq, and_true] at h5
        obtain ⟨rfl, rfl, rfl, rfl, rfl⟩ := h5
        exact ⟨w, rfl⟩
    simp only [List.drop_succ_cons, List.drop_zero]
    constructor
    · intro h
      split at h
      · rename_i rs hc
        simp only [Option.some.injEq] at h
        subst h
        obtain ⟨u, e, hu, _⟩ := (parse_text true _).2.1 _ _ _ hc
        rw [List.append_nil] at e
        rw [e]
        exact .dotAll hu
      · cases h
    · intro h
      generalize he : '^' :: '(' :: '?' :: 's' :: ')' :: w = x at h
      cases h with
      | branches h => exact absurd (he ▸ h) not_branches_flag
      | @dotAll s r h =>
        simp only [List.cons.injEq, true_and] at he
        subst he
        obtain ⟨rs, rfl, hc⟩ := concat_fuel h (t := []) rfl
          (fuelFor ('^' :: '(' :: '?' :: 's' :: ')' :: w)) (by rw [List.append_nil, fuelFor]; simp; omega)
        rw [List.append_nil] at hc
        rw [hc]
  · rename_i h5
    rw [branches_iff _ _ _ (Nat.le_refl _)]
    constructor
    · exact .branches
    · intro h
      cases h with
      | branches h => exact h
      | dotAll h => simp at h5

/-- non-vacuity: `(?:ab|[^a-c\d]+?)c??` is read, as an alternative in front of a reluctant option -/
example : parse "(?:ab|[^a-c\\d]+?)c??".toList = some (.seq
    (.alt (.seq (.one (.one 'a')) (.one (.one 'b')))
      (.seq (.cls true [.range 'a' 'c', .digit]) (.lazyStar (.cls true [.range 'a' 'c', .digit]))))
    (.alt .nil (.one (.one 'c')))) := by decide +kernel

end RegexSyntax
end Syntaxis
