import Verif.Props.RegexText
import Verif.Lemmas.Str

/-! # C64: counted repetitions and classes with names -/

namespace Syntaxis

open RegexSyntax

variable {digit : Char → Bool}

theorem copies_lang (r q : Rx) (n : Nat) (u : Str) : ((r.copies n q).toRegex digit).Lang u ↔
    ∃ (ws : List Str) (v : Str), ws.length = n ∧ (∀ w ∈ ws, (r.toRegex digit).Lang w) ∧ (q.toRegex digit).Lang v ∧ u = ws.flatten ++ v := by
  induction n generalizing u with
  | zero =>
    constructor
    · intro h; exact ⟨[], u, rfl, by simp, h, rfl⟩
    · rintro ⟨ws, v, h0, _, hv, rfl⟩
      cases ws with
      | nil => exact hv
      | cons => simp at h0
  | succ n ih =>
    constructor
    · rintro ⟨a, b, rfl, ha, hb⟩
      obtain ⟨ws, v, h1, h2, h3, rfl⟩ := (ih b).1 hb
      refine ⟨a :: ws, v, by simp [h1], ?_, h3, by simp⟩
      intro w hw
      rcases List.mem_cons.1 hw with rfl | hw
      · exact ha
      · exact h2 w hw
    · rintro ⟨ws, v, h1, h2, h3, rfl⟩
      cases ws with
      | nil => simp at h1
      | cons a ws =>
        exact ⟨a, ws.flatten ++ v, by simp, h2 a (by simp),
          (ih _).2 ⟨ws, v, by simpa using h1, fun w hw => h2 w (by simp [hw]), h3, rfl⟩⟩

theorem upTo_lang (g : Bool) (r : Rx) (n : Nat) (u : Str) : ((r.upTo g n).toRegex digit).Lang u ↔
    ∃ ws : List Str, ws.length ≤ n ∧ (∀ w ∈ ws, (r.toRegex digit).Lang w) ∧ u = ws.flatten := by
  induction n generalizing u with
  | zero =>
    constructor
    · intro h
      exact ⟨[], by simp, by simp, h⟩
    · rintro ⟨ws, h0, _, rfl⟩
      cases ws with
      | nil => rfl
      | cons => simp at h0
  | succ n ih =>
    have key : ((r.upTo g (n + 1)).toRegex digit).Lang u ↔
        u = [] ∨ ∃ a b, u = a ++ b ∧ (r.toRegex digit).Lang a ∧ ((r.upTo g n).toRegex digit).Lang b := by
      cases g
      · exact Iff.rfl
      · exact or_comm
    rw [key]
    constructor
    · rintro (rfl | ⟨a, b, rfl, ha, hb⟩)
      · exact ⟨[], by simp, by simp, rfl⟩
      · obtain ⟨ws, h1, h2, rfl⟩ := (ih b).1 hb
        refine ⟨a :: ws, by simp [h1], ?_, by simp⟩
        intro w hw
        rcases List.mem_cons.1 hw with rfl | hw
        · exact ha
        · exact h2 w hw
    · rintro ⟨ws, h1, h2, rfl⟩
      cases ws with
      | nil => exact .inl rfl
      | cons a ws =>
        exact .inr ⟨a, ws.flatten, by simp, h2 a (by simp),
          (ih _).2 ⟨ws, by simpa using h1, fun w hw => h2 w (by simp [hw]), rfl⟩⟩

theorem star_words {L : Str → Prop} {u : Str} : Star L u ↔ ∃ ws : List Str, (∀ w ∈ ws, L w) ∧ u = ws.flatten := by
  constructor
  · intro h
    induction h with
    | nil => exact ⟨[], by simp, rfl⟩
    | @cons a b ha _ ih =>
      obtain ⟨ws, h1, rfl⟩ := ih
      refine ⟨a :: ws, ?_, by simp⟩
      intro w hw
      rcases List.mem_cons.1 hw with rfl | hw
      · exact ha
      · exact h1 w hw
  · rintro ⟨ws, h1, rfl⟩
    induction ws with
    | nil => exact .nil
    | cons a ws ih => exact .cons (h1 a (by simp)) (ih fun w hw => h1 w (by simp [hw]))

/-- **C64** What `r{lo,hi}` matches, greedy or not: at least `lo` and at most `hi` words of `r`, one behind the other; without
`hi`, any number from `lo` on. -/
theorem C64_counted (r : Rx) (lo : Nat) (hi : Option Nat) (hle : ∀ h, hi = some h → lo ≤ h) (g : Bool) (u : Str) :
    ((r.counted lo hi g).toRegex digit).Lang u ↔ ∃ ws : List Str, lo ≤ ws.length ∧ (∀ h, hi = some h → ws.length ≤ h) ∧
      (∀ w ∈ ws, (r.toRegex digit).Lang w) ∧ u = ws.flatten := by
  rw [Rx.counted.eq_def, copies_lang]
  constructor
  · rintro ⟨ws, v, h1, h2, h3, rfl⟩
    cases hi with
    | some h =>
      obtain ⟨vs, h4, h5, rfl⟩ := (upTo_lang g r _ v).1 h3
      have := hle h rfl
      refine ⟨ws ++ vs, by simp; omega, ?_, ?_, by simp⟩
      · intro h' e
        cases e
        simp; omega
      · intro w hw
        exact (List.mem_append.1 hw).elim (h2 w) (h5 w)
    | none =>
      have h3' : Star (r.toRegex digit).Lang v := by cases g <;> exact h3
      obtain ⟨vs, h5, rfl⟩ := star_words.1 h3'
      refine ⟨ws ++ vs, by simp; omega, by simp, ?_, by simp⟩
      intro w hw
      exact (List.mem_append.1 hw).elim (h2 w) (h5 w)
  · rintro ⟨ws, h1, h2, h3, rfl⟩
    refine ⟨ws.take lo, (ws.drop lo).flatten, by simp; omega, fun w hw => h3 w (List.mem_of_mem_take hw), ?_, ?_⟩
    · have hd : ∀ w ∈ ws.drop lo, (r.toRegex digit).Lang w := fun w hw => h3 w (List.mem_of_mem_drop hw)
      cases hi with
      | some h =>
        have := h2 h rfl
        exact (upTo_lang g r _ _).2 ⟨ws.drop lo, by simp; omega, hd, rfl⟩
      | none =>
        have : Star (r.toRegex digit).Lang (ws.drop lo).flatten := star_words.2 ⟨_, hd, rfl⟩
        cases g <;> exact this
    · rw [← List.flatten_append, List.take_append_drop]

/-! ### which of them is found -/

/-- the number of characters of the class at the front -/
def leading (p : Char → Bool) (s : Str) : Nat := (s.takeWhile p).length

theorem leading_drop (p : Char → Bool) (s : Str) (n : Nat) (h : n ≤ leading p s) :
    leading p (s.drop n) = leading p s - n := by
  induction n generalizing s with
  | zero => simp
  | succ n ih =>
    cases s with
    | nil => simp [leading]
    | cons c s =>
      cases hc : p c with
      | false => simp [leading, hc] at h
      | true =>
        have e : leading p (c :: s) = leading p s + 1 := by simp [leading, hc]
        rw [List.drop_succ_cons, ih s (by omega), e]
        omega

theorem copies_run {r q : Rx} {p : Char → Bool} (hr : r.toRegex digit = .cls p) (n : Nat) (s : Str) :
    ((r.copies n q).toRegex digit).run s = if leading p s < n then [] else (q.toRegex digit).run (s.drop n) := by
  induction n generalizing s with
  | zero => simp [Rx.copies]
  | succ n ih =>
    simp only [Rx.copies, Rx.toRegex, Regex.run, hr]
    cases s with
    | nil => simp [leading]
    | cons c s =>
      cases hc : p c with
      | false => simp [leading, hc]
      | true =>
        have e : leading p (c :: s) = leading p s + 1 := by simp [leading, hc]
        simp [hc, ih, e]

theorem upTo_run {r : Rx} {p : Char → Bool} (hr : r.toRegex digit = .cls p) (g : Bool) (n : Nat) (s : Str) :
    (((r.upTo g n).toRegex digit).run s).head? = some (s.drop (if g then min n (leading p s) else 0)) := by
  induction n generalizing s with
  | zero => simp [Rx.upTo, Rx.toRegex, Regex.run]
  | succ n ih =>
    cases g with
    | false => simp [Rx.upTo, Rx.toRegex, Regex.run]
    | true =>
      simp only [Rx.upTo, Rx.toRegex, Regex.opt, Regex.run, hr, if_true] at ih ⊢
      cases s with
      | nil => simp
      | cons c s =>
        cases hc : p c with
        | false => simp [leading, hc]
        | true =>
          simp only [hc, if_true, List.flatMap_cons, List.flatMap_nil, List.append_nil, List.head?_append, ih]
          have : leading p (c :: s) = leading p s + 1 := by simp [leading, hc]
          rw [this, Nat.add_min_add_right]
          rfl

theorem iterate_cls (p : Char → Bool) (n : Nat) (s : Str) (hn : s.length ≤ n) :
    (Regex.iterate (Regex.run (.cls p)) n s).head? = some (s.drop (leading p s)) := by
  induction n generalizing s with
  | zero =>
    have : s = [] := List.length_eq_zero_iff.1 (by omega)
    subst this; rfl
  | succ n ih =>
    cases s with
    | nil => rfl
    | cons c s =>
      rw [Regex.iterate, Regex.run]
      cases hc : p c with
      | false => simp [leading, hc]
      | true =>
        have := ih s (by simpa using hn)
        have e : leading p (c :: s) = leading p s + 1 := by simp [leading, hc]
        simp [this, e]

/-- **C64** Which match of `[…]{lo,hi}` is found, for one class of characters: none if fewer than `lo` characters of the
class come next; otherwise as many as there are but at most `hi`, or, if lazy, exactly `lo`. -/
theorem C64_counted_found (r : Rx) (p : Char → Bool) (hr : r.toRegex digit = .cls p) (lo : Nat) (hi : Option Nat)
    (hle : ∀ h, hi = some h → lo ≤ h) (g : Bool) (s : Str) :
    ((r.counted lo hi g).toRegex digit).find s =
      let k := (s.takeWhile p).length
      if k < lo then none
      else some (byteLen (s.take (if g then (match hi with | some h => min h k | none => k) else lo))) := by
  have hlen : ∀ n, byteLen s - byteLen (s.drop n) = byteLen (s.take n) := by
    intro n
    have h : byteLen s = byteLen (s.take n) + byteLen (s.drop n) := by
      rw [← byteLen_append, List.take_append_drop]
    omega
  show _ = if leading p s < lo then none else _
  rw [Regex.find, Rx.counted.eq_def, copies_run hr]
  split
  · rfl
  · rename_i hk
    have hl : leading p (s.drop lo) = leading p s - lo := leading_drop p s lo (by omega)
    cases hi with
    | some h =>
      have := hle h rfl
      rw [upTo_run hr, hl, Option.map_some, List.drop_drop, hlen]
      cases g
      · simp
      · simp only [if_true]
        rw [show lo + min (h - lo) (leading p s - lo) = min h (leading p s) by omega]
        rfl
    | none =>
      cases g with
      | true =>
        have hrun : ∀ t, Regex.run ((Rx.star r).toRegex digit) t = Regex.iterate (Regex.run (.cls p)) t.length t := by
          intro t; rw [Rx.toRegex, hr, Regex.run]
        simp only [if_true, hrun]
        rw [iterate_cls p _ _ (Nat.le_refl _), hl, Option.map_some, List.drop_drop, hlen,
          show lo + (leading p s - lo) = leading p s by omega]
        rfl
      | false =>
        have : ∀ n t, (Regex.iterateLazy (Regex.run (.cls p)) n t).head? = some t := by
          intro n t; cases n <;> rfl
        have hrun : ∀ t, Regex.run ((Rx.lazyStar r).toRegex digit) t = Regex.iterateLazy (Regex.run (.cls p)) t.length t := by
          intro t; rw [Rx.toRegex, hr, Regex.run]
        simp only [Bool.false_eq_true, if_false, hrun, this, Option.map_some, hlen]

/-- non-vacuity: `[ab]{1,2}` and `[ab]{1,2}?` are read as counted repetitions of a class; the first matches `ab` and finds it
in front of `abac`, the second finds `a` -/
example : let r := Rx.cls false [.one 'a', .one 'b']
    parse "[ab]{1,2}".toList = some (r.counted 1 (some 2) true) ∧ parse "[ab]{1,2}?".toList = some (r.counted 1 (some 2) false) ∧
    r.toRegex digit = .cls (fun d => d == 'a' || d == 'b') ∧
    (∃ ws : List Str, 1 ≤ ws.length ∧ (∀ h, some 2 = some h → ws.length ≤ h) ∧ (∀ w ∈ ws, (r.toRegex digit).Lang w) ∧
      "ab".toList = ws.flatten) ∧
    ((r.counted 1 (some 2) true).toRegex digit).find "abac".toList = some 2 ∧
    ((r.counted 1 (some 2) false).toRegex digit).find "abac".toList = some 1 := by
  refine ⟨by decide +kernel, by decide +kernel, by simp [Rx.toRegex, ClassItem.has], ⟨[['a'], ['b']], by simp, by simp, ?_, by decide +kernel⟩, ?_, ?_⟩
  · intro w hw
    simp only [List.mem_cons, List.not_mem_nil, or_false] at hw
    rcases hw with rfl | rfl
    · exact ⟨'a', rfl, rfl⟩
    · exact ⟨'b', rfl, rfl⟩
  · rfl
  · rfl

theorem isUniSpace_iff (c : Char) : isUniSpace c = true ↔ WhiteSpace c := by
  have h : ∀ d : Char, c = d ↔ c.toNat = d.toNat := fun d => Char.toNat_inj.symm
  simp only [isUniSpace, WhiteSpace, List.mem_cons, List.not_mem_nil, or_false, Bool.or_eq_true, decide_eq_true_eq, beq_iff_eq, h,
    Char.reduceToNat]
  omega

/-- **C64** `\\d` matches one digit, `\\s` one character of white space, `\\D` and `\\S` one other character. -/
theorem C64_named_classes : ∃ d nd s ns, parse "\\d".toList = some d ∧ parse "\\D".toList = some nd ∧
    parse "\\s".toList = some s ∧ parse "\\S".toList = some ns ∧ ∀ u,
      ((d.toRegex digit).Lang u ↔ ∃ c, digit c = true ∧ u = [c]) ∧ ((nd.toRegex digit).Lang u ↔ ∃ c, digit c = false ∧ u = [c]) ∧
      ((s.toRegex digit).Lang u ↔ ∃ c, WhiteSpace c ∧ u = [c]) ∧ ((ns.toRegex digit).Lang u ↔ ∃ c, ¬ WhiteSpace c ∧ u = [c]) := by
  refine ⟨.one .digit, .one .notDigit, .one .space, .one .notSpace, by decide +kernel, by decide +kernel, by decide +kernel,
    by decide +kernel, fun u => ⟨?_, ?_, ?_, ?_⟩⟩
  · simp [Rx.toRegex, Regex.Lang, ClassItem.has]
  · simp [Rx.toRegex, Regex.Lang, ClassItem.has]
  · simp [Rx.toRegex, Regex.Lang, ClassItem.has, isUniSpace_iff]
  · simp [Rx.toRegex, Regex.Lang, ClassItem.has, ← isUniSpace_iff]

theorem has_iff (i : ClassItem) (c : Char) : i.has digit c = true ↔ i.Member digit c := by
  cases i <;> simp [ClassItem.has, ClassItem.Member, ← isUniSpace_iff]

/-- **C64** A class matches one character that one of its members stands for, a negated class one character that none of them
stands for. -/
theorem C64_classes (s : Str) (is : List ClassItem) (h : ClassText s is) :
    (s.head? ≠ some '^' → ∃ r, parse ('[' :: (s ++ [']'])) = some r ∧
      ∀ u, (r.toRegex digit).Lang u ↔ ∃ c, u = [c] ∧ ∃ i ∈ is, i.Member digit c) ∧
    ∃ r, parse ('[' :: '^' :: (s ++ [']'])) = some r ∧
      ∀ u, (r.toRegex digit).Lang u ↔ ∃ c, u = [c] ∧ ∀ i ∈ is, ¬ i.Member digit c := by
  refine ⟨fun hs => ⟨.cls false is, (C64_syntax _ _).2 (.one (.one (.plain (.cls h hs)))), fun u => ?_⟩,
    .cls true is, (C64_syntax _ _).2 (.one (.one (.plain (.negated h)))), fun u => ?_⟩
  · simp only [Rx.toRegex, Regex.Lang, Bool.false_bne, List.any_eq_true, has_iff]
    exact exists_congr fun c => and_comm
  · simp only [Rx.toRegex, Regex.Lang, Bool.true_bne, Bool.not_eq_true', List.any_eq_false, has_iff]
    exact exists_congr fun c => and_comm

/-- **C64** `\\x`, `\\u` and `\\U` with the number of a character in hexadecimal digits, either two, four and eight of them or any
number in braces, match this character and nothing else; so do the escapes of metacharacters. -/
theorem C64_escapes (c : Char) :
    (∀ s, HexText s c → ∀ e ∈ ['x', 'u', 'U'], ∃ r, parse ('\\' :: e :: '{' :: (s ++ ['}'])) = some r ∧
      ∀ u, (r.toRegex digit).Lang u ↔ u = [c]) ∧
    (∀ s, HexText s c → ∀ e, (e, s.length) ∈ [('x', 2), ('u', 4), ('U', 8)] → ∃ r, parse ('\\' :: e :: s) = some r ∧
      ∀ u, (r.toRegex digit).Lang u ↔ u = [c]) ∧
    (¬ PlainChar c → ∃ r, parse ['\\', c] = some r ∧ ∀ u, (r.toRegex digit).Lang u ↔ u = [c]) := by
  have key : ∀ t, EscapeText t (.one c) → ∃ r, parse ('\\' :: t) = some r ∧ ∀ u, (r.toRegex digit).Lang u ↔ u = [c] := by
    intro t ht
    refine ⟨.one (.one c), (C64_syntax _ _).2 (.one (.one (.plain (.escape ht)))), fun u => ?_⟩
    simp [Rx.toRegex, Regex.Lang, ClassItem.has]
  refine ⟨fun s h e he => key _ (.braces he h), fun s h e he => key _ (.hex he h), fun h => key _ (.self ?_)⟩
  simp only [PlainChar, not_not] at h
  exact List.mem_append_left [']', '}', '#', '&', '-', '~'] h

/-- non-vacuity: the classes `[+-]`, `[-a-z&]` and `[^\u{4e00}-\u9fa5^]`, with their members, and three ways to write `A` -/
example : ClassText "+-".toList [.one '+', .one '-'] ∧ ClassText "-a-z&".toList [.one '-', .range 'a' 'z', .one '&'] ∧
    ClassText "\\u{4e00}-\\u9fa5^".toList [.range '\u4e00' '\u9fa5', .one '^'] ∧ HexText "41".toList 'A' ∧
    parse "[+-]".toList = some (.cls false [.one '+', .one '-']) ∧
    parse "[^\\u{4e00}-\\u9fa5^]".toList = some (.cls true [.range '\u4e00' '\u9fa5', .one '^']) ∧
    parse "\\x41\\u0041\\U{0041}".toList = some (.cat [.one (.one 'A'), .one (.one 'A'), .one (.one 'A')]) ∧
    parse "[a&&b]".toList = none ∧ parse "[z-a]".toList = none ∧ parse "\\u{d800}".toList = none := by
  have hex : ∀ {s c}, hexChar s = some (.one c) → HexText s c := by
    intro s c h
    obtain ⟨d, e, hd⟩ := hexChar_iff.1 h
    cases e; exact hd
  have ns : ∀ c : Char, c ∉ ['&', '~'] → ∀ t : Str, ∀ d ∈ ['&', '~'], [c] = [d] → t.head? ≠ some d := by
    rintro c hc t d hd e
    cases e
    exact absurd hd hc
  have h1 : ItemsText (['+'] ++ ['-']) [.one '+', .one '-'] :=
    .cons (.prim (.plain (by simp [PlainInClass]))) (ns _ (by decide) _) .minus
  have h2 : ItemsText (['a', '-', 'z'] ++ (['&'] ++ [])) [.range 'a' 'z', .one '&'] :=
    .cons (.range (s := ['a']) (t := ['z']) (.plain (by simp [PlainInClass])) (.plain (by simp [PlainInClass])) (by decide)) (by simp)
      (.cons (.prim (.plain (by simp [PlainInClass]))) (by simp) .nil)
  have h3 : ItemsText ("\\u{4e00}-\\u9fa5".toList ++ (['^'] ++ [])) [.range '\u4e00' '\u9fa5', .one '^'] :=
    .cons (.range (s := "\\u{4e00}".toList) (t := "\\u9fa5".toList)
        (.escape (s := "u{4e00}".toList) (.braces (e := 'u') (s := "4e00".toList) (by simp) (hex (by decide +kernel))))
        (.escape (s := "u9fa5".toList) (.hex (e := 'u') (s := "9fa5".toList) (by simp) (hex (by decide +kernel)))) (by decide))
      (by simp) (.cons (.prim (.plain (by simp [PlainInClass]))) (by simp) .nil)
  exact ⟨.items h1 (by simp), .minus h2, .items h3 (by simp), hex (by decide +kernel), by decide +kernel, by decide +kernel,
    by decide +kernel, by decide +kernel, by decide +kernel, by decide +kernel⟩

end Syntaxis
