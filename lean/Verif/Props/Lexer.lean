import Verif.Lemmas.Regex

/-!
# C28–C34: the lexers

Everything is stated for an arbitrary list of matchers that satisfy the contract of the `regex` crate
(`Matcher.Ok`) and an arbitrary input, for every sequence of calls; the v1 lexer and the generated
lexers (`scan`) and, where it has the property, the first lexer (`scanOld`).
-/

namespace Syntaxis

variable {ms : List Matcher} {names : List Str} {input : Str}

/-- the source text covered by tokens: the texts of all tokens except `_STOP` -/
def covered (toks : List Token) : Str := ((toks.filter (·.tokenType ≠ 1)).map Token.text).flatten

theorem TokensOf.filter {done : Str} {toks : List Token} (h : TokensOf ms names input done toks) :
    toks.filter (·.tokenType ≠ 1) = toks := by
  rw [List.filter_eq_self]
  intro t ht
  have := (h.type_ge t ht).1
  simp only [ne_eq, decide_eq_true_eq]
  omega

theorem TokensOf.covered {done : Str} {toks : List Token} (h : TokensOf ms names input done toks) :
    covered toks = done := by
  rw [Syntaxis.covered, h.filter, h.texts]

theorem covered_stop {done : Str} {toks : List Token} (h : TokensOf ms names input done toks) (k : Nat) :
    covered (toks ++ [stopToken input k]) = done := by
  have := h.filter
  have h2 := h.texts
  rw [Syntaxis.covered, List.filter_append, this]
  simp [stopToken, h2]

/-! ## a concrete lexer: the v1 regexes -/

/-- the v1 lexer satisfies the hypothesis of the theorems below -/
theorem v1_ok (digit : Char → Bool) : LexerOk ((V1.regexes digit).map Regex.find) V1.tokenNames := by
  constructor
  · intro m hm
    obtain ⟨r, _, rfl⟩ := List.mem_map.1 hm
    exact r.find_ok
  · rfl

/-- so does the first lexer -/
theorem old_ok (digit : Char → Bool) : LexerOk ((Old.regexes digit).map Regex.find) Old.tokenNames := by
  constructor
  · intro m hm
    obtain ⟨r, _, rfl⟩ := List.mem_map.1 hm
    exact r.find_ok
  · rfl

/-! ## C28 -/

/-- **C28** after any sequence of scans with unlexed input left, the next scan returns the longest
match, typed by the first rule reporting that length, or fails iff no rule reports a nonempty match. -/
theorem C28_longest_match (hok : LexerOk ms names) (toks : List Token) (l : Lexer)
    (h : Scans Lexer.scan (Lexer.new ms names input) toks l) (rest : Str)
    (hr : input = covered toks ++ rest) (hne : rest ≠ []) :
    (l.scan = .ok (none, l) ∧ NoMatch ms rest) ∨
    ∃ tok l' i u v, l.scan = .ok (some tok, l') ∧ rest = u ++ v ∧ Wins ms rest i (byteLen u) ∧
      tok.tokenType = i + 2 ∧ tok.text = u ∧ names[i + 2]? = some tok.tokenName := by
  rcases scans_cases hok h with ⟨done, rest', ht, ha⟩ | ⟨body, hb, rfl, _, _⟩
  · rw [ht.covered] at hr
    have hrr : rest' = rest := List.append_cancel_left (ha.split.symm.trans hr)
    subst hrr
    rcases ha.scan hok with ⟨e, _⟩ | ⟨_, h1, h2⟩ | ⟨i, u, v, name, l', hw, e, hn, hs, _⟩
    · exact absurd e hne
    · exact Or.inl ⟨h2, h1⟩
    · exact Or.inr ⟨_, l', i, u, v, hs, e, hw, rfl, rfl, hn⟩
  · rw [covered_stop hb] at hr
    exact absurd (List.append_cancel_left (hr.symm.trans (List.append_nil input).symm)) hne

/-- **C28** the two alternatives exclude each other, and type and text are determined by the input. -/
theorem C28_deterministic (rest : Str) (i j n m : Nat) :
    (Wins ms rest i n → ¬ NoMatch ms rest) ∧ (Wins ms rest i n → Wins ms rest j m → i = j ∧ n = m) :=
  ⟨fun h => h.not_noMatch, fun h h' => h.unique h'⟩

/-- non-vacuity: after scanning `ab ` of `ab ::=x` -/
example : ((V1.lexer isDigit09 "ab ::=x".toList).scan.bind fun r => r.2.scan.bind fun r => r.2.scan.map
    fun r => r.1.map Token.out) = .ok (some (4, "::=".toList)) := by decide +kernel

/-! ## C29 -/

/-- **C29** the texts of the scanned tokens make up the consumed prefix. -/
theorem C29_lossless (hok : LexerOk ms names) (toks : List Token) (l : Lexer)
    (h : Scans Lexer.scan (Lexer.new ms names input) toks l) :
    ∃ rest, input = covered toks ++ rest ∧
      ((∀ t ∈ toks, t.tokenType ≠ 1) → l.cursor = byteLen (covered toks)) ∧
      ((∃ t ∈ toks, t.tokenType = 1) → rest = []) := by
  rcases scans_cases hok h with ⟨done, rest, ht, ha⟩ | ⟨body, hb, rfl, _, hc⟩
  · refine ⟨rest, by rw [ht.covered]; exact ha.split, fun _ => by rw [ht.covered]; exact ha.cursor, ?_⟩
    rintro ⟨t, hm, he⟩
    have := (ht.type_ge t hm).1
    omega
  · refine ⟨[], by rw [covered_stop hb]; simp, ?_, fun _ => rfl⟩
    intro hall
    exact absurd rfl (hall (stopToken input body.length) (by simp))

/-- **C29** the offsets of a scanned token (other than `_STOP`) are the byte range of its text:
slicing the input with them gives the text, and the token begins where the previous ones end. -/
theorem C29_offsets (hok : LexerOk ms names) (toks : List Token) (l : Lexer)
    (h : Scans Lexer.scan (Lexer.new ms names input) toks l) (j : Nat) (tok : Token)
    (hj : toks[j]? = some tok) (hns : tok.tokenType ≠ 1) :
    tok.charStartIndex = byteLen (covered (toks.take j)) ∧
    tok.charStopIndex = tok.charStartIndex + byteLen tok.text ∧
    slice input tok.charStartIndex tok.charStopIndex = .ok tok.text := by
  have key : ∀ done body, TokensOf ms names input done body → body[j]? = some tok →
      toks.take j = body.take j →
      tok.charStartIndex = byteLen (covered (toks.take j)) ∧
      tok.charStopIndex = tok.charStartIndex + byteLen tok.text ∧
      slice input tok.charStartIndex tok.charStopIndex = .ok tok.text := by
    intro done body hb hbj htk
    obtain ⟨before, u, v, i, name, h1, h2, h3, h4, rfl⟩ := hb.get hbj
    have hcov : covered (toks.take j) = before := by
      rw [← h1, htk, covered]
      congr 2
      rw [List.filter_eq_self]
      intro t ht
      have := (hb.type_ge t (List.mem_of_mem_take ht)).1
      simp only [ne_eq, decide_eq_true_eq]
      omega
    refine ⟨by rw [hcov]; rfl, rfl, ?_⟩
    simp only [mkToken]
    conv_lhs => rw [h2]
    exact slice_append _ _ _
  rcases scans_cases hok h with ⟨done, rest, ht, ha⟩ | ⟨body, hb, rfl, _, hc⟩
  · exact key done toks ht hj rfl
  · rcases Nat.lt_or_ge j body.length with hlt | hge
    · rw [List.getElem?_append_left hlt] at hj
      exact key input body hb hj (by rw [List.take_append_of_le_length (by omega)])
    · rw [List.getElem?_append_right hge] at hj
      cases hjj : j - body.length with
      | zero =>
        simp only [hjj, List.getElem?_cons_zero, Option.some.injEq] at hj
        subst hj
        exact absurd rfl hns
      | succ k => rw [hjj] at hj; simp at hj

/-- **C29** for the first lexer. -/
theorem C29_lossless_first_lexer (hok : LexerOk ms names) (toks : List Token) (l : Lexer)
    (h : Scans Lexer.scanOld (Lexer.new ms names input) toks l) :
    (∃ rest, input = (toks.map Token.text).flatten ++ rest ∧
      l.cursor = byteLen (toks.map Token.text).flatten) ∧
    ∀ (j : Nat) (tok : Token), toks[j]? = some tok →
      tok.charStartIndex = byteLen ((toks.take j).map Token.text).flatten ∧
      tok.charStopIndex = tok.charStartIndex + byteLen tok.text ∧
      slice input tok.charStartIndex tok.charStopIndex = .ok tok.text := by
  obtain ⟨done, rest, ht, ha⟩ := scansOld_cases hok h
  refine ⟨⟨rest, by rw [ht.texts]; exact ha.split, by rw [ht.texts]; exact ha.cursor⟩, ?_⟩
  intro j tok hj
  obtain ⟨before, u, v, i, name, h1, h2, h3, h4, rfl⟩ := ht.get hj
  refine ⟨by rw [h1]; rfl, rfl, ?_⟩
  simp only [mkToken]
  conv_lhs => rw [h2]
  exact slice_append _ _ _

/-- non-vacuity of C29–C31: scanning `ε\nab` twice, with a two-byte character and a line break -/
example : ((V1.lexer isDigit09 "ε\nab".toList).scan.bind fun r => r.2.scan.bind fun r => r.2.scan.map
    fun r => r.1.map fun t => (t.text, t.charStartIndex, t.charStopIndex, t.start, t.stop)) =
    .ok (some ("ab".toList, 3, 5, ⟨1, 0⟩, ⟨1, 2⟩)) := by decide +kernel

/-! ## C30 -/

/-- **C30** the positions of every token of every history are those of its ends in the input. -/
theorem C30_positions (hok : LexerOk ms names) (toks : List Token) (l : Lexer)
    (h : Scans Lexer.scan (Lexer.new ms names input) toks l) (j : Nat) (tok : Token)
    (hj : toks[j]? = some tok) :
    tok.start = posOf (covered (toks.take j)) ∧ tok.stop = posOf (covered (toks.take (j + 1))) := by
  have take_cov : ∀ (body : List Token) (done : Str) (n : Nat), TokensOf ms names input done body →
      covered (body.take n) = ((body.take n).map Token.text).flatten := by
    intro body done n hb
    rw [covered]
    congr 2
    rw [List.filter_eq_self]
    intro t ht
    have := (hb.type_ge t (List.mem_of_mem_take ht)).1
    simp only [ne_eq, decide_eq_true_eq]
    omega
  have key : ∀ done body, TokensOf ms names input done body → body[j]? = some tok →
      toks.take j = body.take j → toks.take (j + 1) = body.take (j + 1) →
      tok.start = posOf (covered (toks.take j)) ∧
      tok.stop = posOf (covered (toks.take (j + 1))) := by
    intro done body hb hbj htk htk1
    obtain ⟨before, u, v, i, name, h1, h2, h3, h4, hm⟩ := hb.get hbj
    have e1 : covered (toks.take j) = before := by rw [htk, take_cov body done j hb, h1]
    have e2 : covered (toks.take (j + 1)) = before ++ u := by
      rw [htk1, take_cov body done (j + 1) hb, List.take_add_one, hbj]
      simp only [Option.toList_some, List.map_append, List.flatten_append, h1]
      simp [hm, mkToken]
    rw [e1, e2, hm]
    exact ⟨rfl, rfl⟩
  rcases scans_cases hok h with ⟨done, rest, ht, ha⟩ | ⟨body, hb, rfl, _, hc⟩
  · exact key done toks ht hj rfl rfl
  · rcases Nat.lt_or_ge j body.length with hlt | hge
    · rw [List.getElem?_append_left hlt] at hj
      exact key input body hb hj (by rw [List.take_append_of_le_length (by omega)])
        (by rw [List.take_append_of_le_length (by omega)])
    · rw [List.getElem?_append_right hge] at hj
      cases hjj : j - body.length with
      | zero =>
        simp only [hjj, List.getElem?_cons_zero, Option.some.injEq] at hj
        subst hj
        have hj' : j = body.length := by omega
        subst hj'
        rw [List.take_append_of_le_length (Nat.le_refl _), List.take_length, hb.covered,
          List.take_of_length_le (by simp), covered_stop hb]
        exact ⟨rfl, rfl⟩
      | succ k => rw [hjj] at hj; simp at hj

/-- **C30** for the first lexer. -/
theorem C30_positions_first_lexer (hok : LexerOk ms names) (toks : List Token) (l : Lexer)
    (h : Scans Lexer.scanOld (Lexer.new ms names input) toks l) (j : Nat) (tok : Token)
    (hj : toks[j]? = some tok) :
    tok.start = posOf ((toks.take j).map Token.text).flatten ∧
    tok.stop = posOf ((toks.take (j + 1)).map Token.text).flatten := by
  obtain ⟨done, rest, ht, ha⟩ := scansOld_cases hok h
  obtain ⟨before, u, v, i, name, h1, h2, h3, h4, hm⟩ := ht.get hj
  rw [List.take_add_one, hj]
  simp only [Option.toList_some, List.map_append, List.flatten_append, h1]
  rw [hm]
  simp [mkToken]

/-! ## C31 -/

/-- **C31** in every history token indices count 0, 1, 2, …; an end token occurs at most once, as the
last token, only after the whole input has been covered, and every scan after it fails; and once
the whole input is covered the next scan returns it. -/
theorem C31_end_token (hok : LexerOk ms names) (toks : List Token) (l : Lexer)
    (h : Scans Lexer.scan (Lexer.new ms names input) toks l) :
    (∀ (j : Nat) (tok : Token), toks[j]? = some tok → tok.tokenIndex = j) ∧
    (∀ (j : Nat) (tok : Token), toks[j]? = some tok → tok.tokenType = 1 →
      j + 1 = toks.length ∧ input = covered toks ∧ l.scan = .ok (none, l)) ∧
    (input = covered toks → (∀ t ∈ toks, t.tokenType ≠ 1) →
      ∃ tok l', l.scan = .ok (some tok, l') ∧ tok.tokenType = 1 ∧ tok.text = "_STOP".toList ∧
        tok.tokenIndex = toks.length) := by
  rcases scans_cases hok h with ⟨done, rest, ht, ha⟩ | ⟨body, hb, rfl, hi, hc⟩
  · refine ⟨?_, ?_, ?_⟩
    · intro j tok hj
      obtain ⟨before, u, v, i, name, h1, h2, h3, h4, rfl⟩ := ht.get hj
      rfl
    · intro j tok hj he
      have := (ht.type_ge tok (List.mem_of_getElem? hj)).1
      omega
    · intro he _
      rw [ht.covered] at he
      have hr : rest = [] := by
        have := ha.split
        rw [he] at this
        simpa using this
      rcases ha.scan hok with ⟨_, hs⟩ | ⟨hne, _⟩ | ⟨i, u, v, name, l', hw, e, _⟩
      · exact ⟨_, _, hs, rfl, rfl, rfl⟩
      · exact absurd hr hne
      · rw [hr] at e
        have : u = [] := (List.append_eq_nil_iff.1 e.symm).1
        have hp := hw.pos
        rw [this] at hp
        simp at hp
  · refine ⟨?_, ?_, ?_⟩
    · intro j tok hj
      rcases Nat.lt_or_ge j body.length with hlt | hge
      · rw [List.getElem?_append_left hlt] at hj
        obtain ⟨before, u, v, i, name, h1, h2, h3, h4, rfl⟩ := hb.get hj
        rfl
      · rw [List.getElem?_append_right hge] at hj
        cases hjj : j - body.length with
        | zero =>
          simp only [hjj, List.getElem?_cons_zero, Option.some.injEq] at hj
          subst hj
          simp only [stopToken]; omega
        | succ k => rw [hjj] at hj; simp at hj
    · intro j tok hj he
      rcases Nat.lt_or_ge j body.length with hlt | hge
      · rw [List.getElem?_append_left hlt] at hj
        have := (hb.type_ge tok (List.mem_of_getElem? hj)).1
        omega
      · rw [List.getElem?_append_right hge] at hj
        have hjj : j = body.length := by
          by_contra hne
          rw [List.getElem?_eq_none (by simp; omega)] at hj
          cases hj
        refine ⟨by simp [hjj], by rw [covered_stop hb], ?_⟩
        simp only [Lexer.scan]
        rw [if_pos (by rw [hi, hc]; omega)]
    · intro _ hall
      exact absurd rfl (hall (stopToken input body.length) (by simp))

/-- **C31** the first lexer never returns an end token. -/
theorem C31_first_lexer_no_end_token (hok : LexerOk ms names) (toks : List Token) (l : Lexer)
    (h : Scans Lexer.scanOld (Lexer.new ms names input) toks l) :
    ∀ (j : Nat) (tok : Token), toks[j]? = some tok → tok.tokenIndex = j ∧ tok.tokenType ≠ 1 := by
  obtain ⟨done, rest, ht, ha⟩ := scansOld_cases hok h
  intro j tok hj
  have := (ht.type_ge tok (List.mem_of_getElem? hj)).1
  obtain ⟨before, u, v, i, name, h1, h2, h3, h4, rfl⟩ := ht.get hj
  exact ⟨rfl, by omega⟩

/-! ## C32 -/

/-- **C32** `scan_all_on_channel_tokens` returns for every input, and returns the specified
tokenisation (plus `_STOP` iff the whole input was lexable) without the white space tokens on channel
0, and nothing on any other channel; the unlexed remainder is printed iff it is nonempty. -/
theorem C32_scan_all (hok : LexerOk ms names) (whiteSpace channel : Nat) :
    ∃ out rem toks l' n, Lexes ms input out rem ∧
      Scans Lexer.scan (Lexer.new ms names input) toks l' ∧
      toks.map Token.out = out ++ (if rem = [] then [(1, "_STOP".toList)] else []) ∧
      ∀ fuel, n ≤ fuel → Lexer.scanAll whiteSpace channel fuel (Lexer.new ms names input) =
        .ok (if channel = 0 then toks.filter (·.tokenType ≠ whiteSpace) else [],
          if rem = [] then none else some rem, l') := by
  obtain ⟨out, rem, toks, l', n, h1, h2, h3, h4, h5, h6, h7, h8, h9⟩ :=
    (At.new (ms := ms) (names := names) (input := input)).scanLoop hok (· == whiteSpace) channel
  refine ⟨out, rem, toks, l', n, h1, h2, h5, fun fuel hf => ?_⟩
  simp only [Lexer.scanAll, h9 fuel hf, bind_ok, List.nil_append, h4]
  have hfil : toks.filter (keep (· == whiteSpace) channel) =
      if channel = 0 then toks.filter (·.tokenType ≠ whiteSpace) else [] := by
    by_cases hch : channel = 0
    · subst hch
      rw [if_pos rfl]
      apply List.filter_congr
      intro t ht
      by_cases hw : t.tokenType = whiteSpace <;> simp [keep, h6 t ht, hw]
    · rw [if_neg hch, List.filter_eq_nil_iff]
      intro t ht
      simp [keep, h6 t ht, Ne.symm hch]
  rw [hfil]
  by_cases hrem : rem = []
  · rw [if_neg (by rw [h7 hrem]; omega), if_pos hrem]
  · obtain ⟨d, hd, hc⟩ := h8 hrem
    have hpos : 0 < byteLen rem := by
      rw [Nat.pos_iff_ne_zero, ne_eq, byteLen_eq_zero]; exact hrem
    rw [if_pos (by rw [hc, hd, byteLen_append]; omega), if_neg hrem]
    conv_lhs => rw [hd, hc, dropBytes_append]
    rfl

/-- the specified tokenisation is unique -/
theorem Lexes.unique {s rem rem' : Str} {out out' : List (Nat × Str)} (h : Lexes ms s out rem)
    (h' : Lexes ms s out' rem') : out = out' ∧ rem = rem' := by
  induction h generalizing out' rem' with
  | stop rest hn =>
    cases h' with
    | stop _ _ => exact ⟨rfl, rfl⟩
    | step hw _ => exact absurd hn hw.not_noMatch
  | @step u v rem i out hw _ ih =>
    generalize hs : u ++ v = s at h'
    cases h' with
    | stop _ hn => rw [← hs] at hn; exact absurd hn hw.not_noMatch
    | @step u' v' _ i' out' hw' h2 =>
      rw [← hs] at hw'
      obtain ⟨rfl, hl⟩ := hw.unique hw'
      obtain ⟨rfl, rfl⟩ := append_inj_byteLen hs hl
      obtain ⟨rfl, rfl⟩ := ih h2
      exact ⟨rfl, rfl⟩

/-- **C32** for the first lexer: it returns for every input, drops comments and white space, and prints
the remainder (possibly empty). -/
theorem C32_scan_all_first_lexer (hok : LexerOk ms names) (channel : Nat) :
    ∃ out rem toks l' n, Lexes ms input out rem ∧
      Scans Lexer.scanOld (Lexer.new ms names input) toks l' ∧ toks.map Token.out = out ∧
      ∀ fuel, n ≤ fuel → Lexer.scanAllOld channel fuel (Lexer.new ms names input) =
        .ok (if channel = 0 then
            toks.filter (fun t => t.tokenType ≠ 2 ∧ t.tokenType ≠ 3 ∧ t.tokenType ≠ 4) else [],
          rem, l') := by
  obtain ⟨out, rem, toks, l', n, h1, h2, h3, h4, h5, h6, ⟨d, hd, hc⟩, h9⟩ :=
    (At.new (ms := ms) (names := names) (input := input)).scanLoopOld hok
      (fun t => t == 2 || t == 3 || t == 4) channel
  refine ⟨out, rem, toks, l', n, h1, h2, h5, fun fuel hf => ?_⟩
  simp only [Lexer.scanAllOld, h9 fuel hf, bind_ok, List.nil_append, h4]
  have hfil : toks.filter (keep (fun t => t == 2 || t == 3 || t == 4) channel) =
      if channel = 0 then
        toks.filter (fun t => t.tokenType ≠ 2 ∧ t.tokenType ≠ 3 ∧ t.tokenType ≠ 4) else [] := by
    by_cases hch : channel = 0
    · subst hch
      rw [if_pos rfl]
      apply List.filter_congr
      intro t ht
      by_cases a : t.tokenType = 2 <;> by_cases b : t.tokenType = 3 <;> by_cases c : t.tokenType = 4 <;>
        simp [keep, h6 t ht, a, b, c]
    · rw [if_neg hch, List.filter_eq_nil_iff]
      intro t ht
      simp [keep, h6 t ht, Ne.symm hch]
  rw [hfil]
  conv_lhs => rw [hd, hc, dropBytes_append]
  rfl

/-- non-vacuity: `ab: "` stops at the double quote -/
example : ((V1.lexer isDigit09 "ab: \"".toList).scanAll V1.WHITE_SPACE 0 20).map
    (fun r => (r.1.map Token.out, r.2.1)) =
      .ok ([(2, "ab".toList), (4, ":".toList)], some "\"".toList) := by decide +kernel

/-! ## C33 -/

/-- **C33** after any history a failing scan leaves the lexer unchanged, so every later scan fails
too; it fails exactly at an unmatched nonempty remainder, or after `_STOP`. -/
theorem C33_error_keeps_state (hok : LexerOk ms names) (toks : List Token) (l l' : Lexer)
    (h : Scans Lexer.scan (Lexer.new ms names input) toks l) (he : l.scan = .ok (none, l')) :
    l' = l ∧ ∃ rest, input = covered toks ++ rest ∧
      ((rest ≠ [] ∧ NoMatch ms rest ∧ dropBytes input l.cursor = .ok rest) ∨
        ∃ t, toks.getLast? = some t ∧ t.tokenType = 1) := by
  rcases scans_cases hok h with ⟨done, rest, ht, ha⟩ | ⟨body, hb, rfl, hi, hc⟩
  · rcases ha.scan hok with ⟨_, hs⟩ | ⟨hne, h1, h2⟩ | ⟨i, u, v, name, l', hw, e, hn, hs, _⟩
    · rw [hs] at he; simp at he
    · rw [h2] at he
      simp only [Except.ok.injEq, Prod.mk.injEq, true_and] at he
      refine ⟨he.symm, rest, by rw [ht.covered]; exact ha.split, Or.inl ⟨hne, h1, ?_⟩⟩
      conv_lhs => rw [ha.split, ha.cursor, dropBytes_append]
    · rw [hs] at he; simp at he
  · simp only [Lexer.scan] at he
    rw [if_pos (by rw [hi, hc]; omega)] at he
    simp only [Except.ok.injEq, Prod.mk.injEq, true_and] at he
    exact ⟨he.symm, [], by rw [covered_stop hb]; simp, Or.inr ⟨stopToken input body.length, by simp, rfl⟩⟩

/-- **C33** `scan` never panics: slices stay on character boundaries and names exist. -/
theorem C33_scan_never_panics (hok : LexerOk ms names) (toks : List Token) (l : Lexer)
    (h : Scans Lexer.scan (Lexer.new ms names input) toks l) : ∃ r, l.scan = .ok r := by
  rcases scans_cases hok h with ⟨done, rest, ht, ha⟩ | ⟨body, hb, rfl, hi, hc⟩
  · rcases ha.scan hok with ⟨_, hs⟩ | ⟨hne, h1, h2⟩ | ⟨i, u, v, name, l', hw, e, hn, hs, _⟩
    · exact ⟨_, hs⟩
    · exact ⟨_, h2⟩
    · exact ⟨_, hs⟩
  · simp only [Lexer.scan]
    rw [if_pos (by rw [hi, hc]; omega)]
    exact ⟨_, rfl⟩

/-- non-vacuity: `"` cannot be lexed -/
example : (V1.lexer isDigit09 "\"".toList).scan.map (fun r => r.1) = .ok none := by decide +kernel

/-! ## C34 -/

/-- **C34** is false of the code: on every completely scanned input the `_STOP` token lies ten bytes
behind the end of the input, and slicing the input with its offsets panics. -/
theorem C34_stop_token_outside (hok : LexerOk ms names) (toks : List Token) (l : Lexer)
    (h : Scans Lexer.scan (Lexer.new ms names input) toks l) (tok : Token) (hm : tok ∈ toks)
    (hs : tok.tokenType = 1) :
    tok.charStartIndex = byteLen input + 10 ∧ tok.charStopIndex = byteLen input + 10 ∧
    slice input tok.charStartIndex tok.charStopIndex = .error .panic := by
  rcases scans_cases hok h with ⟨done, rest, ht, ha⟩ | ⟨body, hb, rfl, hi, hc⟩
  · have := (ht.type_ge tok hm).1
    omega
  · simp only [List.mem_append, List.mem_singleton] at hm
    rcases hm with hm | rfl
    · have := (hb.type_ge tok hm).1
      omega
    · refine ⟨rfl, rfl, ?_⟩
      cases hsl : slice input (stopToken input body.length).charStartIndex
          (stopToken input body.length).charStopIndex with
      | ok s =>
        exfalso
        simp only [slice, bind_eq_ok, stopToken] at hsl
        obtain ⟨t, ht, _⟩ := hsl
        obtain ⟨u, e, hu⟩ := dropBytes_ok ht
        have := congrArg byteLen e
        simp at this; omega
      | error e =>
        cases e with
        | panic => rfl
        | fuel =>
          exfalso
          have nofuel : ∀ (s : Str) (n : Nat), dropBytes s n ≠ .error .fuel := by
            intro s
            induction s with
            | nil => intro n; cases n <;> simp [dropBytes]
            | cons c s ih =>
              intro n
              cases n with
              | zero => simp [dropBytes]
              | succ n =>
                simp only [dropBytes]
                split
                · simp
                · exact ih _
          simp only [slice, stopToken] at hsl
          cases hd : dropBytes input (byteLen input + 10) with
          | ok t =>
            obtain ⟨u, e, hu⟩ := dropBytes_ok hd
            have := congrArg byteLen e
            simp at this; omega
          | error e =>
            rw [hd] at hsl
            simp only [bind_error, Except.error.injEq] at hsl
            rw [hsl] at hd
            exact nofuel _ _ hd

/-- **C34** there is such a token for every input that can be lexed to the end, e.g. the empty one -/
theorem C34_empty_input (hok : LexerOk ms names) :
    ∃ tok l, (Lexer.new ms names []).scan = .ok (some tok, l) ∧ tok.charStopIndex = 10 := by
  rcases (At.new (ms := ms) (names := names) (input := [])).scan hok with ⟨_, hs⟩ | ⟨h, _⟩ |
    ⟨i, u, v, name, l', hw, e, _⟩
  · exact ⟨_, _, hs, rfl⟩
  · exact absurd rfl h
  · have : u = [] := (List.append_eq_nil_iff.1 e.symm).1
    have hp := hw.pos
    rw [this] at hp
    simp at hp

/-- **C34**, what holds: every other token lies inside the input.  Missing (false): `_STOP`. -/
theorem C34_offsets_inside_partial (hok : LexerOk ms names) (toks : List Token) (l : Lexer)
    (h : Scans Lexer.scan (Lexer.new ms names input) toks l) (tok : Token) (hm : tok ∈ toks)
    (hns : tok.tokenType ≠ 1) :
    tok.charStartIndex ≤ tok.charStopIndex ∧ tok.charStopIndex ≤ byteLen input ∧
    ∃ s, slice input tok.charStartIndex tok.charStopIndex = .ok s := by
  obtain ⟨j, hj⟩ := List.getElem?_of_mem hm
  obtain ⟨h1, h2, h3⟩ := C29_offsets hok toks l h j tok hj hns
  refine ⟨by omega, ?_, _, h3⟩
  simp only [slice, bind_eq_ok] at h3
  obtain ⟨t, ht, h3⟩ := h3
  obtain ⟨u, e, hu⟩ := dropBytes_ok ht
  rw [if_neg (by omega)] at h3
  obtain ⟨v, e', hv⟩ := takeBytes_ok h3
  rw [e, e']
  simp; omega

end Syntaxis
