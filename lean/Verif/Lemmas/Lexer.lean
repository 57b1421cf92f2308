import Verif.Lemmas.Str

/-! # Invariants of the lexers -/

namespace Syntaxis

theorem longest_spec (rest : Str) (ms : List Matcher) (i len ty : Nat) :
    ((Lexer.longest rest ms i len ty = (len, ty)) ∧
      ∀ (j : Nat) (m : Matcher) (k : Nat), ms[j]? = some m → m rest = some k → k ≤ len) ∨
    ∃ j n, Lexer.longest rest ms i len ty = (n, i + j + 2) ∧ len < n ∧
      (∃ m, ms[j]? = some m ∧ m rest = some n) ∧
      ∀ (j' : Nat) (m : Matcher) (k : Nat), ms[j']? = some m → m rest = some k →
        k ≤ n ∧ (j' < j → k < n) := by
  induction ms generalizing i len ty with
  | nil => left; simp [Lexer.longest]
  | cons m ms ih =>
    -- the recursive call when the first matcher does not win
    have skip : ∀ (hm : ∀ k, m rest = some k → k ≤ len),
        Lexer.longest rest (m :: ms) i len ty = Lexer.longest rest ms (i + 1) len ty →
        ((Lexer.longest rest (m :: ms) i len ty = (len, ty)) ∧
          ∀ (j : Nat) (m' : Matcher) (k : Nat), (m :: ms)[j]? = some m' → m' rest = some k → k ≤ len) ∨
        ∃ j n, Lexer.longest rest (m :: ms) i len ty = (n, i + j + 2) ∧ len < n ∧
          (∃ m', (m :: ms)[j]? = some m' ∧ m' rest = some n) ∧
          ∀ (j' : Nat) (m' : Matcher) (k : Nat), (m :: ms)[j']? = some m' → m' rest = some k →
            k ≤ n ∧ (j' < j → k < n) := by
      intro hm he
      rw [he]
      rcases ih (i + 1) len ty with ⟨h1, h2⟩ | ⟨j, n, h1, h2, h3, h4⟩
      · left
        refine ⟨h1, fun j m' k hj hk => ?_⟩
        cases j with
        | zero => simp only [List.getElem?_cons_zero, Option.some.injEq] at hj; subst hj; exact hm k hk
        | succ j => exact h2 j m' k (by simpa using hj) hk
      · right
        refine ⟨j + 1, n, by rw [h1]; congr 1; omega, h2, by simpa using h3, fun j' m' k hj hk => ?_⟩
        cases j' with
        | zero =>
          simp only [List.getElem?_cons_zero, Option.some.injEq] at hj; subst hj
          have := hm k hk
          exact ⟨by omega, fun _ => by omega⟩
        | succ j' =>
          have := h4 j' m' k (by simpa using hj) hk
          exact ⟨this.1, fun h => this.2 (by omega)⟩
    cases hm : m rest with
    | none => exact skip (by simp [hm]) (by simp [Lexer.longest, hm])
    | some e =>
      by_cases he : e > len
      · right
        have hl : Lexer.longest rest (m :: ms) i len ty = Lexer.longest rest ms (i + 1) e (i + 2) := by
          simp [Lexer.longest, hm, he]
        rw [hl]
        rcases ih (i + 1) e (i + 2) with ⟨h1, h2⟩ | ⟨j, n, h1, h2, h3, h4⟩
        · refine ⟨0, e, by rw [h1], he, ⟨m, rfl, hm⟩, fun j' m' k hj hk => ?_⟩
          cases j' with
          | zero =>
            simp only [List.getElem?_cons_zero, Option.some.injEq] at hj; subst hj
            rw [hm] at hk; cases hk
            exact ⟨Nat.le_refl _, fun h => absurd h (by omega)⟩
          | succ j' => exact ⟨h2 j' m' k (by simpa using hj) hk, fun h => absurd h (by omega)⟩
        · refine ⟨j + 1, n, by rw [h1]; congr 1; omega, by omega, by simpa using h3, fun j' m' k hj hk => ?_⟩
          cases j' with
          | zero =>
            simp only [List.getElem?_cons_zero, Option.some.injEq] at hj; subst hj
            rw [hm] at hk; cases hk
            exact ⟨by omega, fun _ => by omega⟩
          | succ j' =>
            have := h4 j' m' k (by simpa using hj) hk
            exact ⟨this.1, fun h => this.2 (by omega)⟩
      · exact skip (fun k hk => by rw [hm] at hk; cases hk; omega) (by simp [Lexer.longest, hm, he])

theorem longest_cases (rest : Str) (ms : List Matcher) :
    (Lexer.longest rest ms 0 0 0 = (0, 0) ∧ NoMatch ms rest) ∨
    ∃ i n, Lexer.longest rest ms 0 0 0 = (n, i + 2) ∧ Wins ms rest i n := by
  rcases longest_spec rest ms 0 0 0 with ⟨h1, h2⟩ | ⟨j, n, h1, h2, h3, h4⟩
  · exact Or.inl ⟨h1, fun j m k hj hk => Nat.le_zero.1 (h2 j m k hj hk)⟩
  · exact Or.inr ⟨j, n, by rw [h1]; simp, h2, h3, h4⟩

theorem Wins.not_noMatch {ms : List Matcher} {rest : Str} {i n : Nat} (h : Wins ms rest i n) :
    ¬ NoMatch ms rest := by
  intro hn
  obtain ⟨h1, ⟨m, h2, h3⟩, _⟩ := h
  have := hn i m n h2 h3
  omega

theorem Wins.unique {ms : List Matcher} {rest : Str} {i n i' n' : Nat} (h : Wins ms rest i n)
    (h' : Wins ms rest i' n') : i = i' ∧ n = n' := by
  obtain ⟨_, ⟨m, h2, h3⟩, h4⟩ := h
  obtain ⟨_, ⟨m', h2', h3'⟩, h4'⟩ := h'
  have a := h4 i' m' n' h2' h3'
  have b := h4' i m n h2 h3
  have hn : n = n' := by omega
  refine ⟨?_, hn⟩
  rcases Nat.lt_trichotomy i i' with hlt | heq | hlt
  · have := b.2 hlt; omega
  · exact heq
  · have := a.2 hlt; omega

theorem Wins.lt {ms : List Matcher} {rest : Str} {i n : Nat} (h : Wins ms rest i n) : i < ms.length := by
  obtain ⟨_, ⟨m, h2, _⟩, _⟩ := h
  by_contra hc
  rw [List.getElem?_eq_none (by omega)] at h2
  cases h2

variable {ms : List Matcher} {names : List Str} {input : Str}

/-- the lexer has consumed exactly `done`, returning `k` tokens -/
structure At (ms : List Matcher) (names : List Str) (input : Str) (l : Lexer) (done rest : Str)
    (k : Nat) : Prop where
  input_eq : l.input = input
  split : input = done ++ rest
  cursor : l.cursor = byteLen done
  regexes : l.regexList = ms
  names_eq : l.tokenNames = names
  pos : l.position = posOf done
  index : l.tokenIndex = k

theorem At.new : At ms names input (Lexer.new ms names input) [] input 0 where
  input_eq := rfl
  split := rfl
  cursor := rfl
  regexes := rfl
  names_eq := rfl
  pos := rfl
  index := rfl

/-- the token for a match of `u` by rule `i` after `done` -/
def mkToken (names : List Str) (done u : Str) (i k : Nat) (name : Str) : Token :=
  { tokenType := i + 2, tokenName := name, start := posOf done, stop := posOf (done ++ u),
    channel := 0, text := u, tokenIndex := k, charStartIndex := byteLen done,
    charStopIndex := byteLen done + byteLen u }

/-- `scanToken` from a known state -/
theorem At.scanToken (hok : LexerOk ms names) {l : Lexer} {done rest : Str} {k : Nat}
    (h : At ms names input l done rest k) :
    (NoMatch ms rest ∧ l.scanToken = .ok (none, l)) ∨
    ∃ i u v name l', Wins ms rest i (byteLen u) ∧ rest = u ++ v ∧ names[i + 2]? = some name ∧
      l.scanToken = .ok (some (mkToken names done u i k name), l') ∧
      At ms names input l' (done ++ u) v (k + 1) := by
  have hd : dropBytes l.input l.cursor = .ok rest := by
    rw [h.input_eq, h.split, h.cursor, dropBytes_append]
  simp only [Lexer.scanToken, hd, bind_ok]
  rw [h.regexes]
  rcases longest_cases rest ms with ⟨h1, h2⟩ | ⟨i, n, h1, h2⟩
  · left
    rw [h1]
    exact ⟨h2, by simp⟩
  · right
    rw [h1]
    obtain ⟨_, ⟨m, hm1, hm2⟩, _⟩ := id h2
    obtain ⟨u, v, e, rfl⟩ := hok.1 m (List.mem_of_getElem? hm1) rest n hm2
    have hlt : i + 2 < names.length := by
      have := h2.lt
      have := hok.2
      omega
    have hs : slice l.input l.cursor (l.cursor + byteLen u) = .ok u := by
      rw [h.input_eq, h.split, h.cursor, e, slice_append]
    have hname : names[i + 2]? = some names[i + 2] := List.getElem?_eq_getElem hlt
    refine ⟨i, u, v, names[i + 2],
      { l with cursor := l.cursor + byteLen u, tokenIndex := l.tokenIndex + 1,
               position := posOf (done ++ u) }, h2, e, hname, ?_, ?_⟩
    · simp only [hs, bind_ok, h.names_eq, hname, unwrap_some, h.pos, newPos_posOf, mkToken, h.index]
      rw [if_neg (by omega)]
      simp [h.cursor, h.regexes]
    · exact { input_eq := h.input_eq
              split := by rw [h.split, e, List.append_assoc]
              cursor := by simp [h.cursor]
              regexes := h.regexes
              names_eq := h.names_eq
              pos := rfl
              index := by simp [h.index] }

theorem Wins.pos {rest : Str} {i n : Nat} (h : Wins ms rest i n) : 0 < n := h.1

theorem noMatch_nil (hok : LexerOk ms names) : NoMatch ms [] := by
  intro j m k hj hk
  obtain ⟨u, v, e, rfl⟩ := hok.1 m (List.mem_of_getElem? hj) [] k hk
  have : u = [] := (List.append_eq_nil_iff.1 e.symm).1
  rw [this]; rfl

/-- the `_STOP` token after the whole input -/
def stopToken (input : Str) (k : Nat) : Token :=
  { tokenType := 1, tokenName := "_STOP".toList, start := posOf input, stop := posOf input,
    channel := 0, text := "_STOP".toList, tokenIndex := k,
    charStartIndex := byteLen input + 10, charStopIndex := byteLen input + 10 }

/-- `scan` from a known state -/
theorem At.scan (hok : LexerOk ms names) {l : Lexer} {done rest : Str} {k : Nat}
    (h : At ms names input l done rest k) :
    (rest = [] ∧ l.scan = .ok (some (stopToken input k), { l with cursor := byteLen input + 10 })) ∨
    (rest ≠ [] ∧ NoMatch ms rest ∧ l.scan = .ok (none, l)) ∨
    (∃ i u v name l', Wins ms rest i (byteLen u) ∧ rest = u ++ v ∧ names[i + 2]? = some name ∧
      l.scan = .ok (some (mkToken names done u i k name), l') ∧
      At ms names input l' (done ++ u) v (k + 1)) := by
  have hlen : byteLen l.input = byteLen done + byteLen rest := by
    rw [h.input_eq, h.split, byteLen_append]
  by_cases hr : rest = []
  · left
    subst hr
    refine ⟨rfl, ?_⟩
    have hin : input = done := by simpa using h.split
    simp only [Lexer.scan]
    rw [if_neg (by rw [hlen, h.cursor]; simp), if_pos (by rw [hlen, h.cursor]; simp)]
    simp only [stopToken, h.pos, h.cursor, h.index, hin]
  · right
    have hpos : 0 < byteLen rest := by
      rw [Nat.pos_iff_ne_zero, ne_eq, byteLen_eq_zero]; exact hr
    have hs : l.scan = l.scanToken := by
      simp only [Lexer.scan]
      rw [if_neg (by rw [hlen, h.cursor]; omega), if_neg (by rw [hlen, h.cursor]; omega)]
    rw [hs]
    rcases h.scanToken hok with ⟨h1, h2⟩ | h1
    · exact Or.inl ⟨hr, h1, h2⟩
    · exact Or.inr h1

/-- the tokens returned so far are those of `done` -/
inductive TokensOf (ms : List Matcher) (names : List Str) (input : Str) : Str → List Token → Prop
  | nil : TokensOf ms names input [] []
  | snoc {done u v : Str} {toks : List Token} {i : Nat} {name : Str} : TokensOf ms names input done toks →
      input = done ++ (u ++ v) → Wins ms (u ++ v) i (byteLen u) → names[i + 2]? = some name →
      TokensOf ms names input (done ++ u) (toks ++ [mkToken names done u i toks.length name])

/-- every history of `scan`: before the end token, or after it -/
theorem scans_cases (hok : LexerOk ms names) {toks : List Token} {l : Lexer}
    (h : Scans Lexer.scan (Lexer.new ms names input) toks l) :
    (∃ done rest, TokensOf ms names input done toks ∧ At ms names input l done rest toks.length) ∨
    (∃ body, TokensOf ms names input input body ∧ toks = body ++ [stopToken input body.length] ∧
      l.input = input ∧ l.cursor = byteLen input + 10) := by
  induction h with
  | nil => exact Or.inl ⟨[], input, .nil, At.new⟩
  | @snoc l1 l2 toks tok h1 h2 ih =>
    rcases ih with ⟨done, rest, ht, ha⟩ | ⟨body, hb, rfl, hi, hc⟩
    · rcases ha.scan hok with ⟨rfl, hs⟩ | ⟨_, _, hs⟩ | ⟨i, u, v, name, l', hw, rfl, hn, hs, ha'⟩
      · rw [hs] at h2
        simp only [Except.ok.injEq, Prod.mk.injEq, Option.some.injEq] at h2
        obtain ⟨rfl, rfl⟩ := h2
        have hin : input = done := by simpa using ha.split
        right
        refine ⟨toks, by have := ht; rw [← hin] at this; exact this, rfl, ha.input_eq, rfl⟩
      · rw [hs] at h2; simp at h2
      · rw [hs] at h2
        simp only [Except.ok.injEq, Prod.mk.injEq, Option.some.injEq] at h2
        obtain ⟨rfl, rfl⟩ := h2
        left
        exact ⟨_, _, .snoc ht ha.split hw hn, by simpa using ha'⟩
    · exfalso
      simp only [Lexer.scan] at h2
      rw [if_pos (by rw [hi, hc]; omega)] at h2
      simp at h2

/-- every history of the first lexer's `scan` -/
theorem scansOld_cases (hok : LexerOk ms names) {toks : List Token} {l : Lexer}
    (h : Scans Lexer.scanOld (Lexer.new ms names input) toks l) :
    ∃ done rest, TokensOf ms names input done toks ∧ At ms names input l done rest toks.length := by
  induction h with
  | nil => exact ⟨[], input, .nil, At.new⟩
  | @snoc l1 l2 toks tok h1 h2 ih =>
    obtain ⟨done, rest, ht, ha⟩ := ih
    rcases ha.scanToken hok with ⟨_, hs⟩ | ⟨i, u, v, name, l', hw, rfl, hn, hs, ha'⟩
    · rw [Lexer.scanOld, hs] at h2; simp at h2
    · rw [Lexer.scanOld, hs] at h2
      simp only [Except.ok.injEq, Prod.mk.injEq, Option.some.injEq] at h2
      obtain ⟨rfl, rfl⟩ := h2
      exact ⟨_, _, .snoc ht ha.split hw hn, by simpa using ha'⟩

theorem TokensOf.texts {done : Str} {toks : List Token} (h : TokensOf ms names input done toks) :
    (toks.map Token.text).flatten = done := by
  induction h with
  | nil => rfl
  | snoc _ _ _ _ ih => simp [ih, mkToken]

theorem TokensOf.prefix {done : Str} {toks : List Token} (h : TokensOf ms names input done toks) :
    ∃ rest, input = done ++ rest := by
  cases h with
  | nil => exact ⟨input, rfl⟩
  | snoc _ e _ _ => exact ⟨_, by rw [e, List.append_assoc]⟩

/-- what is known about the `j`-th token -/
theorem TokensOf.get {done : Str} {toks : List Token} (h : TokensOf ms names input done toks) {j : Nat}
    {tok : Token} (hj : toks[j]? = some tok) :
    ∃ before u v i name, ((toks.take j).map Token.text).flatten = before ∧
      input = before ++ (u ++ v) ∧ Wins ms (u ++ v) i (byteLen u) ∧ names[i + 2]? = some name ∧
      tok = mkToken names before u i j name := by
  induction h with
  | nil => simp at hj
  | @snoc done u v toks i name ht e hw hn ih =>
    rcases Nat.lt_trichotomy j toks.length with hlt | heq | hgt
    · rw [List.getElem?_append_left hlt] at hj
      rw [List.take_append_of_le_length (by omega)]
      exact ih hj
    · subst heq
      simp only [List.getElem?_append_right (Nat.le_refl _), Nat.sub_self, List.getElem?_cons_zero,
        Option.some.injEq] at hj
      refine ⟨done, u, v, i, name, ?_, e, hw, hn, hj.symm⟩
      rw [List.take_append_of_le_length (Nat.le_refl _), List.take_length, ht.texts]
    · rw [List.getElem?_eq_none (by simp; omega)] at hj
      cases hj

theorem TokensOf.type_ge {done : Str} {toks : List Token} (h : TokensOf ms names input done toks) :
    ∀ t ∈ toks, 2 ≤ t.tokenType ∧ t.channel = 0 := by
  induction h with
  | nil => simp
  | snoc _ _ _ _ ih =>
    intro t ht
    simp only [List.mem_append, List.mem_singleton] at ht
    rcases ht with ht | rfl
    · exact ih t ht
    · simp [mkToken]

theorem Scans.cons {scan : Lexer → Res (Option Token × Lexer)} {l l1 l2 : Lexer} {tok : Token}
    {toks : List Token} (h : scan l = .ok (some tok, l1)) (h' : Scans scan l1 toks l2) :
    Scans scan l (tok :: toks) l2 := by
  induction h' with
  | nil => exact Scans.snoc (Scans.nil l) h
  | snoc _ h2 ih => exact Scans.snoc ih h2

/-- the tokens `scan_all_on_channel_tokens` keeps -/
def keep (skip : Nat → Bool) (channel : Nat) (t : Token) : Bool :=
  !skip t.tokenType && decide (t.channel = channel)

theorem scanLoop_step {scan : Lexer → Res (Option Token × Lexer)} {skip : Nat → Bool} {channel fuel : Nat}
    {acc : List Token} {l l1 : Lexer} {tok : Token} (h : scan l = .ok (some tok, l1)) :
    Lexer.scanLoop scan skip channel (fuel + 1) acc l =
      Lexer.scanLoop scan skip channel fuel (acc ++ [tok].filter (keep skip channel)) l1 := by
  rw [Lexer.scanLoop]
  simp only [h, bind_ok]
  by_cases h1 : skip tok.tokenType = true
  · simp [h1, List.filter_cons, keep]
  · by_cases h2 : tok.channel = channel
    · simp [h1, h2, List.filter_cons, keep]
    · simp [h1, h2, List.filter_cons, keep]

theorem scanLoop_end {scan : Lexer → Res (Option Token × Lexer)} {skip : Nat → Bool} {channel fuel : Nat}
    {acc : List Token} {l l1 : Lexer} (h : scan l = .ok (none, l1)) :
    Lexer.scanLoop scan skip channel (fuel + 1) acc l = .ok (acc, l1) := by
  rw [Lexer.scanLoop]
  simp only [h, bind_ok]

/-- the text and type of a token -/
def Token.out (t : Token) : Nat × Str := (t.tokenType, t.text)

/-- the loop of `scan_all_on_channel_tokens` from a known state -/
theorem At.scanLoop (hok : LexerOk ms names) (skip : Nat → Bool) (channel : Nat) {l : Lexer}
    {done rest : Str} {k : Nat} (h : At ms names input l done rest k) :
    ∃ out rem toks l' n, Lexes ms rest out rem ∧ Scans Lexer.scan l toks l' ∧
      l'.scan = .ok (none, l') ∧ l'.input = input ∧
      toks.map Token.out = out ++ (if rem = [] then [(1, "_STOP".toList)] else []) ∧
      (∀ t ∈ toks, t.channel = 0) ∧
      (rem = [] → l'.cursor = byteLen input + 10) ∧
      (rem ≠ [] → ∃ d, input = d ++ rem ∧ l'.cursor = byteLen d) ∧
      ∀ fuel, n ≤ fuel → ∀ acc, Lexer.scanLoop Lexer.scan skip channel fuel acc l =
        .ok (acc ++ toks.filter (keep skip channel), l') := by
  obtain ⟨b, hb⟩ : ∃ b, b = byteLen rest := ⟨_, rfl⟩
  induction b using Nat.strong_induction_on generalizing l done rest k with
  | _ b ih =>
    rcases h.scan hok with ⟨rfl, hs⟩ | ⟨hne, hnm, hs⟩ | ⟨i, u, v, name, l', hw, rfl, hn, hs, ha'⟩
    · have hend : Lexer.scan { l with cursor := byteLen input + 10 } =
          .ok (none, { l with cursor := byteLen input + 10 }) := by
        simp only [Lexer.scan]
        rw [if_pos (by simp only [h.input_eq]; omega)]
      refine ⟨[], [], [stopToken input k], { l with cursor := byteLen input + 10 }, 2,
        .stop _ (noMatch_nil hok), Scans.snoc (Scans.nil l) hs, hend, h.input_eq, by
          simp [Token.out, stopToken], by simp [stopToken], fun _ => rfl, fun hc => absurd rfl hc, ?_⟩
      intro fuel hf acc
      obtain ⟨f, rfl⟩ : ∃ f, fuel = f + 1 + 1 := ⟨fuel - 2, by omega⟩
      rw [scanLoop_step hs, scanLoop_end hend]
    · refine ⟨[], rest, [], l, 1, .stop _ hnm, Scans.nil l, hs, h.input_eq, by simp [hne], by simp,
        fun hc => absurd hc hne, fun _ => ⟨done, h.split, h.cursor⟩, ?_⟩
      intro fuel hf acc
      obtain ⟨f, rfl⟩ : ∃ f, fuel = f + 1 := ⟨fuel - 1, by omega⟩
      rw [scanLoop_end hs]
      simp
    · have hpos := hw.pos
      obtain ⟨out, rem, toks, l2, n, h1, h2, h3, h4, h5, h6, h7, h8, h9⟩ :=
        ih (byteLen v) (by rw [hb, byteLen_append]; omega) ha' rfl
      refine ⟨(i + 2, u) :: out, rem, mkToken names done u i k name :: toks, l2, n + 1,
        .step hw h1, h2.cons hs, h3, h4, by simp [h5, Token.out, mkToken], ?_, h7, h8, ?_⟩
      · intro t ht
        simp only [List.mem_cons] at ht
        rcases ht with rfl | ht
        · rfl
        · exact h6 t ht
      · intro fuel hf acc
        obtain ⟨f, rfl⟩ : ∃ f, fuel = f + 1 := ⟨fuel - 1, by omega⟩
        rw [scanLoop_step hs, h9 f (by omega)]
        rw [List.append_assoc, ← List.filter_append]
        rfl

/-- the same for the first lexer -/
theorem At.scanLoopOld (hok : LexerOk ms names) (skip : Nat → Bool) (channel : Nat) {l : Lexer}
    {done rest : Str} {k : Nat} (h : At ms names input l done rest k) :
    ∃ out rem toks l' n, Lexes ms rest out rem ∧ Scans Lexer.scanOld l toks l' ∧
      l'.scanOld = .ok (none, l') ∧ l'.input = input ∧ toks.map Token.out = out ∧
      (∀ t ∈ toks, t.channel = 0) ∧
      (∃ d, input = d ++ rem ∧ l'.cursor = byteLen d) ∧
      ∀ fuel, n ≤ fuel → ∀ acc, Lexer.scanLoop Lexer.scanOld skip channel fuel acc l =
        .ok (acc ++ toks.filter (keep skip channel), l') := by
  obtain ⟨b, hb⟩ : ∃ b, b = byteLen rest := ⟨_, rfl⟩
  induction b using Nat.strong_induction_on generalizing l done rest k with
  | _ b ih =>
    rcases h.scanToken hok with ⟨hnm, hs⟩ | ⟨i, u, v, name, l', hw, rfl, hn, hs, ha'⟩
    · refine ⟨[], rest, [], l, 1, .stop _ hnm, Scans.nil l, hs, h.input_eq, by simp, by simp,
        ⟨done, h.split, h.cursor⟩, ?_⟩
      intro fuel hf acc
      obtain ⟨f, rfl⟩ : ∃ f, fuel = f + 1 := ⟨fuel - 1, by omega⟩
      rw [scanLoop_end (scan := Lexer.scanOld) hs]
      simp
    · have hpos := hw.pos
      obtain ⟨out, rem, toks, l2, n, h1, h2, h3, h4, h5, h6, h7, h9⟩ :=
        ih (byteLen v) (by rw [hb, byteLen_append]; omega) ha' rfl
      refine ⟨(i + 2, u) :: out, rem, mkToken names done u i k name :: toks, l2, n + 1,
        .step hw h1, Scans.cons (scan := Lexer.scanOld) hs h2, h3, h4, by simp [h5, Token.out, mkToken],
        ?_, h7, ?_⟩
      · intro t ht
        simp only [List.mem_cons] at ht
        rcases ht with rfl | ht
        · rfl
        · exact h6 t ht
      · intro fuel hf acc
        obtain ⟨f, rfl⟩ : ∃ f, fuel = f + 1 := ⟨fuel - 1, by omega⟩
        rw [scanLoop_step (scan := Lexer.scanOld) hs, h9 f (by omega)]
        rw [List.append_assoc, ← List.filter_append]
        rfl

end Syntaxis
