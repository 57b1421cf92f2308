import Verif.Spec.Restart
import Verif.Props.Lexer

/-! # C88: scanning can be resumed at every token -/

namespace Syntaxis

variable {ms : List Matcher} {names : List Str}

/-- the same lexer behind a text and a number of tokens -/
def Lexer.behind (u : Str) (k : Nat) (l : Lexer) : Lexer :=
  { l with
    input := u ++ l.input
    cursor := byteLen u + l.cursor
    tokenIndex := k + l.tokenIndex
    position := (posOf u).behind l.position }

theorem dropBytes_behind (u s : Str) (n : Nat) : dropBytes (u ++ s) (byteLen u + n) = dropBytes s n := by
  induction u with
  | nil => simp
  | cons c u ih =>
    have hc : 0 < c.utf8Size := Char.utf8Size_pos c
    rw [List.cons_append, byteLen_cons]
    obtain ⟨m, hm⟩ : ∃ m, c.utf8Size + byteLen u + n = m + 1 := ⟨c.utf8Size + byteLen u + n - 1, by omega⟩
    rw [hm, dropBytes, if_neg (by omega), ← hm, show c.utf8Size + byteLen u + n - c.utf8Size = byteLen u + n by omega, ih]

theorem slice_behind (u s : Str) (a b : Nat) : slice (u ++ s) (byteLen u + a) (byteLen u + b) = slice s a b := by
  rw [slice, slice, dropBytes_behind, show byteLen u + b - (byteLen u + a) = b - a by omega]
  simp only [Nat.add_lt_add_iff_left]

theorem newPos_behind (p q : Position) (w : Str) (n : Nat) :
    Lexer.newPos (p.behind q) w n = p.behind (Lexer.newPos q w n) := by
  rw [Lexer.newPos, Lexer.newPos]
  split
  · simp only [Position.behind]
    split <;> simp [Nat.add_assoc]
  · simp only [Position.behind]
    rw [if_neg (by omega)]
    congr 1
    omega

theorem scanToken_behind (u : Str) (k : Nat) (l : Lexer) :
    (l.behind u k).scanToken = l.scanToken.map fun x => (x.1.map (Token.behind u k), x.2.behind u k) := by
  rw [Lexer.scanToken, Lexer.scanToken]
  have hd : dropBytes (l.behind u k).input (l.behind u k).cursor = dropBytes l.input l.cursor := dropBytes_behind _ _ _
  have hr : (l.behind u k).regexList = l.regexList := rfl
  have hn : (l.behind u k).tokenNames = l.tokenNames := rfl
  rw [hd, hr, hn]
  cases dropBytes l.input l.cursor with
  | error e => rfl
  | ok rest =>
    simp only [bind_ok]
    by_cases ht : (Lexer.longest rest l.regexList 0 0 0).2 = 0
    · simp [ht, Except.map]
    · simp only [if_neg ht]
      have hs : slice (l.behind u k).input (l.behind u k).cursor
          ((l.behind u k).cursor + (Lexer.longest rest l.regexList 0 0 0).1) =
          slice l.input l.cursor (l.cursor + (Lexer.longest rest l.regexList 0 0 0).1) := by
        rw [← slice_behind u l.input, ← Nat.add_assoc]
        rfl
      rw [hs]
      cases slice l.input l.cursor (l.cursor + (Lexer.longest rest l.regexList 0 0 0).1) with
      | error e => rfl
      | ok text =>
        simp only [bind_ok]
        cases unwrap l.tokenNames[(Lexer.longest rest l.regexList 0 0 0).2]? with
        | error e => rfl
        | ok name =>
          simp only [bind_ok, Except.map, Option.map_some, Except.ok.injEq, Prod.mk.injEq, Option.some.injEq]
          constructor
          · simp only [Token.behind, Lexer.behind, newPos_behind, Nat.add_assoc]
          · simp only [Lexer.behind, newPos_behind, Nat.add_assoc]

theorem scan_behind (u : Str) (k : Nat) (l : Lexer) :
    (l.behind u k).scan = l.scan.map fun x => (x.1.map (Token.behind u k), x.2.behind u k) := by
  have hc : (l.behind u k).cursor = byteLen u + l.cursor := rfl
  have hi : byteLen (l.behind u k).input = byteLen u + byteLen l.input := by simp [Lexer.behind]
  rw [Lexer.scan, Lexer.scan, hc, hi]
  by_cases h1 : l.cursor > byteLen l.input
  · rw [if_pos h1, if_pos (by omega)]
    rfl
  · rw [if_neg h1, if_neg (by omega)]
    by_cases h2 : l.cursor ≥ byteLen l.input
    · rw [if_pos h2, if_pos (by omega)]
      simp only [Except.map, Option.map_some, Except.ok.injEq, Prod.mk.injEq, Option.some.injEq]
      constructor
      · simp only [Token.behind, Lexer.behind, Nat.add_assoc]
      · simp only [Lexer.behind, Nat.add_assoc]
    · rw [if_neg h2, if_neg (by omega)]
      exact scanToken_behind u k l

theorem posOf_behind_zero (u : Str) : (posOf u).behind ⟨0, 0⟩ = posOf u := by
  simp [Position.behind]

/-- the state at a token is the state at the beginning of the rest, behind what was scanned -/
theorem At.eq_behind {u v : Str} {l : Lexer} {k : Nat} (h : At ms names (u ++ v) l u v k) :
    l = (Lexer.new ms names v).behind u k := by
  have h1 := h.input_eq
  have h2 := h.cursor
  have h3 := h.regexes
  have h4 := h.names_eq
  have h5 := h.pos
  have h6 := h.index
  cases l
  simp only at h1 h2 h3 h4 h5 h6
  simp only [Lexer.behind, Lexer.new, Lexer.mk.injEq, Nat.add_zero, posOf_behind_zero]
  exact ⟨h1, h2, h3, h4, h6, h5⟩

section
variable {scan : Lexer → Res (Option Token × Lexer)} {u : Str} {k : Nat}

theorem scans_behind (hcomm : ∀ l, scan (l.behind u k) = (scan l).map fun x => (x.1.map (Token.behind u k), x.2.behind u k))
    {l l' : Lexer} {toks : List Token} (h : Scans scan l toks l') :
    Scans scan (l.behind u k) (toks.map (Token.behind u k)) (l'.behind u k) := by
  induction h with
  | nil => exact .nil _
  | snoc h1 h2 ih =>
    rw [List.map_append]
    exact .snoc ih (by rw [hcomm, h2]; rfl)

theorem scans_of_behind (hcomm : ∀ l, scan (l.behind u k) = (scan l).map fun x => (x.1.map (Token.behind u k), x.2.behind u k))
    {l l' : Lexer} {toks : List Token} (h : Scans scan (l.behind u k) toks l') :
    ∃ toks' l1, toks = toks'.map (Token.behind u k) ∧ l' = l1.behind u k ∧ Scans scan l toks' l1 := by
  generalize hl : l.behind u k = l0 at h
  induction h with
  | nil => exact ⟨[], l, rfl, hl.symm, .nil _⟩
  | @snoc l1 l2 toks tok h1 h2 ih =>
    obtain ⟨toks', l3, rfl, rfl, h3⟩ := ih
    rw [hcomm] at h2
    cases hs : scan l3 with
    | error e => rw [hs] at h2; cases h2
    | ok x =>
      obtain ⟨o, l4⟩ := x
      rw [hs] at h2
      simp only [Except.map, Except.ok.injEq, Prod.mk.injEq] at h2
      cases o with
      | none => cases h2.1
      | some t =>
        simp only [Option.map_some, Option.some.injEq] at h2
        obtain ⟨rfl, rfl⟩ := h2
        exact ⟨toks' ++ [t], l4, by simp, rfl, .snoc h3 hs⟩

theorem fails_behind (hcomm : ∀ l, scan (l.behind u k) = (scan l).map fun x => (x.1.map (Token.behind u k), x.2.behind u k))
    (hst : ∀ l l', scan l = .ok (none, l') → l' = l) (l : Lexer) : Fails scan (l.behind u k) ↔ Fails scan l := by
  rw [Fails, Fails, hcomm]
  constructor
  · intro h
    cases hs : scan l with
    | error e => rw [hs] at h; cases h
    | ok x =>
      obtain ⟨o, l'⟩ := x
      rw [hs] at h
      simp only [Except.map, Except.ok.injEq, Prod.mk.injEq, Option.map_eq_none_iff] at h
      obtain ⟨rfl, _⟩ := h
      rw [hst l l' hs]
  · intro h
    rw [h]
    rfl

end

theorem scanToken_none {l l' : Lexer} (h : l.scanToken = .ok (none, l')) : l' = l := by
  rw [Lexer.scanToken] at h
  cases hd : dropBytes l.input l.cursor with
  | error e => rw [hd] at h; cases h
  | ok rest =>
    rw [hd] at h
    simp only [bind_ok] at h
    by_cases ht : (Lexer.longest rest l.regexList 0 0 0).2 = 0
    · simp only [ht, if_true, Except.ok.injEq, Prod.mk.injEq, true_and] at h
      exact h.symm
    · simp only [if_neg ht] at h
      obtain ⟨text, _, h⟩ := bind_eq_ok.1 h
      obtain ⟨name, _, h⟩ := bind_eq_ok.1 h
      simp at h

theorem scan_none {l l' : Lexer} (h : l.scan = .ok (none, l')) : l' = l := by
  rw [Lexer.scan] at h
  split_ifs at h
  · simp only [Except.ok.injEq, Prod.mk.injEq, true_and] at h
    exact h.symm
  · simp at h
  · exact scanToken_none h

/-- **C88** Once the tokens `toks` of a text `u ++ v` have covered `u`, scanning goes on as in the text `v` alone: it
returns the tokens of `v`, with lines, columns, offsets and indices counted from there, and fails where `v` fails. -/
theorem C88_restart (hok : LexerOk ms names) {u v : Str} {toks : List Token} {l : Lexer}
    (h : Scans Lexer.scan (Lexer.new ms names (u ++ v)) toks l) (hu : covered toks = u) (hs : ∀ t ∈ toks, t.tokenType ≠ 1) :
    (∀ toks' l', Scans Lexer.scan (Lexer.new ms names v) toks' l' →
      ∃ l'', Scans Lexer.scan l (toks'.map (Token.behind u toks.length)) l'' ∧
        (Fails Lexer.scan l'' ↔ Fails Lexer.scan l')) ∧
    (∀ toks'' l'', Scans Lexer.scan l toks'' l'' →
      ∃ toks' l', toks'' = toks'.map (Token.behind u toks.length) ∧ Scans Lexer.scan (Lexer.new ms names v) toks' l' ∧
        (Fails Lexer.scan l'' ↔ Fails Lexer.scan l')) := by
  rcases scans_cases hok h with ⟨done, rest, ht, ha⟩ | ⟨body, hb, rfl, _, _⟩
  · rw [ht.covered] at hu
    subst hu
    have hrv : rest = v := (List.append_cancel_left ha.split).symm
    subst hrv
    have hl := ha.eq_behind
    subst hl
    refine ⟨fun toks' l' h' => ⟨_, scans_behind (scan_behind _ _) h', ?_⟩, fun toks'' l'' h' => ?_⟩
    · exact fails_behind (scan_behind _ _) (fun _ _ => scan_none) _
    · obtain ⟨toks', l1, h1, rfl, h2⟩ := scans_of_behind (scan_behind _ _) h'
      exact ⟨toks', l1, h1, h2, fails_behind (scan_behind _ _) (fun _ _ => scan_none) _⟩
  · exact absurd rfl (hs (stopToken (u ++ v) body.length) (by simp))

/-- **C88** The same for the first lexer. -/
theorem C88_restart_first_lexer (hok : LexerOk ms names) {u v : Str} {toks : List Token} {l : Lexer}
    (h : Scans Lexer.scanOld (Lexer.new ms names (u ++ v)) toks l) (hu : (toks.map Token.text).flatten = u) :
    (∀ toks' l', Scans Lexer.scanOld (Lexer.new ms names v) toks' l' →
      ∃ l'', Scans Lexer.scanOld l (toks'.map (Token.behind u toks.length)) l'' ∧
        (Fails Lexer.scanOld l'' ↔ Fails Lexer.scanOld l')) ∧
    (∀ toks'' l'', Scans Lexer.scanOld l toks'' l'' →
      ∃ toks' l', toks'' = toks'.map (Token.behind u toks.length) ∧ Scans Lexer.scanOld (Lexer.new ms names v) toks' l' ∧
        (Fails Lexer.scanOld l'' ↔ Fails Lexer.scanOld l')) := by
  obtain ⟨done, rest, ht, ha⟩ := scansOld_cases hok h
  rw [ht.texts] at hu
  subst hu
  have hrv : rest = v := (List.append_cancel_left ha.split).symm
  subst hrv
  have hl := ha.eq_behind
  subst hl
  have hcomm : ∀ l : Lexer, Lexer.scanOld (l.behind done toks.length) =
      (Lexer.scanOld l).map fun x => (x.1.map (Token.behind done toks.length), x.2.behind done toks.length) :=
    scanToken_behind _ _
  have hnone : ∀ l l' : Lexer, Lexer.scanOld l = .ok (none, l') → l' = l := fun _ _ => scanToken_none
  refine ⟨fun toks' l' h' => ⟨_, scans_behind hcomm h', fails_behind hcomm hnone _⟩, fun toks'' l'' h' => ?_⟩
  obtain ⟨toks', l1, h1, rfl, h2⟩ := scans_of_behind hcomm h'
  exact ⟨toks', l1, h1, h2, fails_behind hcomm hnone _⟩

theorem scanLoop_behind {scan : Lexer → Res (Option Token × Lexer)} {u : Str} {k : Nat}
    (hcomm : ∀ l, scan (l.behind u k) = (scan l).map fun x => (x.1.map (Token.behind u k), x.2.behind u k))
    (skip : Nat → Bool) (channel fuel : Nat) (acc : List Token) (l : Lexer) :
    Lexer.scanLoop scan skip channel fuel (acc.map (Token.behind u k)) (l.behind u k) =
      (Lexer.scanLoop scan skip channel fuel acc l).map fun x => (x.1.map (Token.behind u k), x.2.behind u k) := by
  induction fuel generalizing acc l with
  | zero => rfl
  | succ fuel ih =>
    rw [Lexer.scanLoop, Lexer.scanLoop, hcomm]
    cases scan l with
    | error e => rfl
    | ok x =>
      obtain ⟨o, l'⟩ := x
      cases o with
      | none => rfl
      | some t =>
        simp only [Except.map, Option.map_some, bind_ok]
        have h1 : (t.behind u k).tokenType = t.tokenType := rfl
        have h2 : (t.behind u k).channel = t.channel := rfl
        have h3 : acc.map (Token.behind u k) ++ [t.behind u k] = (acc ++ [t]).map (Token.behind u k) := by simp
        rw [h1, h2, h3]
        split_ifs
        · exact ih acc l'
        · exact ih _ l'
        · exact ih acc l'

/-- **C88** After some tokens were taken one by one, all remaining tokens and the text that is reported as not scanned
are those of the rest of the input alone. -/
theorem C88_scan_all (hok : LexerOk ms names) {u v : Str} {toks : List Token} {l : Lexer}
    (h : Scans Lexer.scan (Lexer.new ms names (u ++ v)) toks l) (hu : covered toks = u) (hs : ∀ t ∈ toks, t.tokenType ≠ 1)
    (whiteSpace channel fuel : Nat) :
    (l.scanAll whiteSpace channel fuel).map (fun r => (r.1, r.2.1)) =
      ((Lexer.new ms names v).scanAll whiteSpace channel fuel).map
        fun r => (r.1.map (Token.behind u toks.length), r.2.1) := by
  rcases scans_cases hok h with ⟨done, rest, ht, ha⟩ | ⟨body, hb, rfl, _, _⟩
  · rw [ht.covered] at hu
    subst hu
    have hrv : rest = v := (List.append_cancel_left ha.split).symm
    subst hrv
    have hl := ha.eq_behind
    subst hl
    have hloop := scanLoop_behind (scan_behind done toks.length) (· == whiteSpace) channel fuel [] (Lexer.new ms names rest)
    rw [List.map_nil] at hloop
    rw [Lexer.scanAll, Lexer.scanAll, hloop]
    cases Lexer.scanLoop Lexer.scan (· == whiteSpace) channel fuel [] (Lexer.new ms names rest) with
    | error e => rfl
    | ok x =>
      obtain ⟨r, l'⟩ := x
      simp only [Except.map, bind_ok]
      have h1 : (l'.behind done toks.length).cursor = byteLen done + l'.cursor := rfl
      have h2 : (l'.behind done toks.length).input = done ++ l'.input := rfl
      rw [h1, h2, dropBytes_behind, byteLen_append]
      simp only [Nat.add_lt_add_iff_left]
      split_ifs
      · cases dropBytes l'.input l'.cursor <;> rfl
      · rfl
  · exact absurd rfl (hs (stopToken (u ++ v) body.length) (by simp))

/-- non-vacuity: behind `ab\n` the token `cd` of `cd ;` begins in line 1 at offset 3 -/
example : ((V1.lexer isDigit09 "ab\ncd ;".toList).scan.bind fun r => r.2.scan.bind fun r => r.2.scan.map fun r => r.1) =
    (V1.lexer isDigit09 "cd ;".toList).scan.map fun r => r.1.map (Token.behind "ab\n".toList 2) := by decide +kernel

end Syntaxis
