import Verif.Props.Lexer

/-!
# C97: the order of the lexer rules
-/

namespace Syntaxis

/-- everything about a token but its type and name: text, positions, byte offsets, index, channel -/
def Token.place (t : Token) : Str × Position × Position × Nat × Nat × Nat × Nat :=
  (t.text, t.start, t.stop, t.charStartIndex, t.charStopIndex, t.tokenIndex, t.channel)

variable {ms ms' : List Matcher} {names names' : List Str} {input : Str}

theorem noMatch_iff : NoMatch ms input ↔ ∀ m ∈ ms, ∀ k, m input = some k → k = 0 := by
  constructor
  · intro h m hm k hk
    obtain ⟨j, hj⟩ := List.getElem?_of_mem hm
    exact h j m k hj hk
  · intro h j m k hj hk
    exact h m (List.mem_of_getElem? hj) k hk

theorem noMatch_same (hs : ∀ m, m ∈ ms ↔ m ∈ ms') : NoMatch ms input ↔ NoMatch ms' input := by
  simp only [noMatch_iff, hs]

/-- the length of the longest match does not depend on the order -/
theorem wins_same (hs : ∀ m, m ∈ ms ↔ m ∈ ms') {i i' n n' : Nat} (h : Wins ms input i n) (h' : Wins ms' input i' n') :
    n = n' := by
  obtain ⟨_, ⟨m, h2, h3⟩, h4⟩ := h
  obtain ⟨_, ⟨m', h2', h3'⟩, h4'⟩ := h'
  obtain ⟨j, hj⟩ := List.getElem?_of_mem ((hs m').2 (List.mem_of_getElem? h2'))
  obtain ⟨j', hj'⟩ := List.getElem?_of_mem ((hs m).1 (List.mem_of_getElem? h2))
  exact Nat.le_antisymm (h4' j' m n hj' h3).1 (h4 j m' n' hj h3').1

/-- `t` and `t'` are the same piece of the input, for which the rules of their types report the same match -/
def SameMatch (ms ms' : List Matcher) (names names' : List Str) (input : Str) (t t' : Token) : Prop :=
  t'.place = t.place ∧ ((t.tokenType = 1 ∧ t' = t) ∨
    ∃ rest i i' m m', rest <:+ input ∧ t.tokenType = i + 2 ∧ t'.tokenType = i' + 2 ∧ ms[i]? = some m ∧ ms'[i']? = some m' ∧
      0 < byteLen t.text ∧ m rest = some (byteLen t.text) ∧ m' rest = some (byteLen t.text) ∧
      names[i + 2]? = some t.tokenName ∧ names'[i' + 2]? = some t'.tokenName)

theorem tokensOf_same (hs : ∀ m, m ∈ ms ↔ m ∈ ms') {done done' : Str} {toks toks' : List Token}
    (h : TokensOf ms names input done toks) (h' : TokensOf ms' names' input done' toks') (hl : toks.length = toks'.length) :
    done = done' ∧ List.Forall₂ (SameMatch ms ms' names names' input) toks toks' := by
  induction h generalizing done' toks' with
  | nil =>
    cases h' with
    | nil => exact ⟨rfl, .nil⟩
    | snoc => simp at hl
  | @snoc done u v toks i name ht e hw hn ih =>
    cases h' with
    | nil => simp at hl
    | @snoc done' u' v' toks' i' name' ht' e' hw' hn' =>
      have hl' : toks.length = toks'.length := by simpa using hl
      obtain ⟨rfl, hf⟩ := ih ht' hl'
      have er : u ++ v = u' ++ v' := List.append_cancel_left (e.symm.trans e')
      rw [← er] at hw'
      have en := wins_same hs hw hw'
      obtain ⟨rfl, rfl⟩ : u = u' ∧ v = v' := by
        rcases List.append_eq_append_iff.1 er with ⟨a, ha, hb⟩ | ⟨a, ha, hb⟩
        · subst ha
          rw [byteLen_append] at en
          have : a = [] := byteLen_eq_zero.1 (by omega)
          subst this
          exact ⟨by simp, by simpa using hb⟩
        · subst ha
          rw [byteLen_append] at en
          have : a = [] := byteLen_eq_zero.1 (by omega)
          subst this
          exact ⟨by simp, by simpa using hb.symm⟩
      refine ⟨rfl, List.rel_append hf (.cons ⟨by simp [mkToken, Token.place, hl'], .inr ?_⟩ .nil)⟩
      obtain ⟨p1, ⟨m, p2, p3⟩, _⟩ := hw
      obtain ⟨q1, ⟨m', q2, q3⟩, _⟩ := hw'
      exact ⟨u ++ v, i, i', m, m', ⟨done, e.symm⟩, rfl, rfl, p2, q2, p1, p3, q3, hn, hn'⟩

/-- two histories of the same length -/
theorem scans_same (hok : LexerOk ms names) (hok' : LexerOk ms' names') (hs : ∀ m, m ∈ ms ↔ m ∈ ms')
    {toks toks' : List Token} {l l' : Lexer} (h : Scans Lexer.scan (Lexer.new ms names input) toks l)
    (h' : Scans Lexer.scan (Lexer.new ms' names' input) toks' l') (hl : toks.length = toks'.length) :
    List.Forall₂ (SameMatch ms ms' names names' input) toks toks' ∧
    ((∃ t l1, l.scan = .ok (some t, l1)) → ∃ t l1, l'.scan = .ok (some t, l1)) := by
  have over : ∀ {ms : List Matcher} {names : List Str} {done : Str} {body toks : List Token} {l : Lexer} {ms' names'},
      (∀ m, m ∈ ms ↔ m ∈ ms') → LexerOk ms names → TokensOf ms' names' input input body →
      TokensOf ms names input done toks → toks.length = body.length + 1 → False := by
    intro ms names done body toks l ms' names' hs hok hb ht hl
    cases ht with
    | nil => simp at hl
    | @snoc done u v toks i name ht e hw hn =>
      obtain ⟨rfl, -⟩ := tokensOf_same hs ht hb (by simpa using hl)
      have : u ++ v = [] := by
        have := congrArg List.length e
        simp only [List.length_append] at this
        exact List.eq_nil_of_length_eq_zero (by rw [List.length_append]; omega)
      rw [this] at hw
      exact hw.not_noMatch (noMatch_nil hok)
  rcases scans_cases hok h with ⟨done, rest, ht, ha⟩ | ⟨body, hb, rfl, hi, hc⟩
  · rcases scans_cases hok' h' with ⟨done', rest', ht', ha'⟩ | ⟨body', hb', rfl, hi', hc'⟩
    · obtain ⟨rfl, hf⟩ := tokensOf_same hs ht ht' hl
      have er : rest = rest' := List.append_cancel_left (ha.split.symm.trans ha'.split)
      subst er
      refine ⟨hf, fun ⟨t, l1, hx⟩ => ?_⟩
      rcases ha'.scan hok' with ⟨_, e⟩ | ⟨h1, h2, e⟩ | ⟨i, u, v, name, l2, _, _, _, e, _⟩
      · exact ⟨_, _, e⟩
      · rcases ha.scan hok with ⟨h3, _⟩ | ⟨_, _, e'⟩ | ⟨i, u, v, name, l2, hw, _⟩
        · exact absurd h3 h1
        · rw [e'] at hx; cases hx
        · exact absurd ((noMatch_same hs).2 h2) hw.not_noMatch
      · exact ⟨_, _, e⟩
    · exact (over (l := l) hs hok hb' ht (by simpa using hl)).elim
  · rcases scans_cases hok' h' with ⟨done', rest', ht', ha'⟩ | ⟨body', hb', rfl, hi', hc'⟩
    · exact (over (l := l) (fun m => (hs m).symm) hok' hb ht' (by simpa using hl.symm)).elim
    · have hl' : body.length = body'.length := by simpa using hl
      obtain ⟨-, hf⟩ := tokensOf_same hs hb hb' hl'
      refine ⟨List.rel_append hf (.cons ⟨by rw [hl'], .inl ⟨rfl, by rw [hl']⟩⟩ .nil), fun ⟨t, l1, hx⟩ => ?_⟩
      simp only [Lexer.scan] at hx
      rw [if_pos (by rw [hi, hc]; omega)] at hx
      cases hx

/-- **C97** two lexers with the same rules in different orders cut every input into the same pieces: after equally many
scans the tokens have the same texts and positions, and the next scan succeeds for both or for none.  The types of two
tokens for the same text are those of rules that report the same match there. -/
theorem C97_boundaries (hok : LexerOk ms names) (hok' : LexerOk ms' names') (hp : ms.Perm ms') (toks toks' : List Token)
    (l l' : Lexer) (h : Scans Lexer.scan (Lexer.new ms names input) toks l)
    (h' : Scans Lexer.scan (Lexer.new ms' names' input) toks' l') (hl : toks.length = toks'.length) :
    toks'.map Token.place = toks.map Token.place ∧
    ((∃ t l1, l.scan = .ok (some t, l1)) ↔ ∃ t l1, l'.scan = .ok (some t, l1)) ∧
    ∀ (j : Nat) (t t' : Token), toks[j]? = some t → toks'[j]? = some t' → t.tokenType ≠ 1 → ∃ rest m m', rest <:+ input ∧
      2 ≤ t.tokenType ∧ 2 ≤ t'.tokenType ∧ ms[t.tokenType - 2]? = some m ∧ ms'[t'.tokenType - 2]? = some m' ∧
      m rest = some (byteLen t.text) ∧ m' rest = some (byteLen t.text) := by
  have hs : ∀ m, m ∈ ms ↔ m ∈ ms' := fun m => hp.mem_iff
  obtain ⟨h1, h2⟩ := scans_same hok hok' hs h h' hl
  obtain ⟨-, h3⟩ := scans_same hok' hok (fun m => (hs m).symm) h' h hl.symm
  refine ⟨?_, ⟨h2, h3⟩, ?_⟩
  · clear h2 h3 hl h h'
    induction h1 with
    | nil => rfl
    | cons hx _ ih => simp only [List.map_cons, ih, hx.1]
  · intro j t t' ht ht' h1t
    have := List.forall₂_iff_get.1 h1
    obtain ⟨hj, et⟩ := List.getElem?_eq_some_iff.1 ht
    obtain ⟨hj', et'⟩ := List.getElem?_eq_some_iff.1 ht'
    have hm := this.2 j hj hj'
    simp only [List.get_eq_getElem, et, et'] at hm
    rcases hm.2 with ⟨h1, _⟩ | ⟨rest, i, i', m, m', q1, q2, q3, q4, q5, q6, q7, q8, q9, q10⟩
    · exact absurd h1 h1t
    · refine ⟨rest, m, m', q1, by omega, by omega, ?_, ?_, q7, q8⟩
      · rw [q2]; exact q4
      · rw [q3]; exact q5

/-- the names of the tokens of a lexer with these rules -/
def ruleNames (rs : List (Matcher × Str)) : List Str := "_START".toList :: "_STOP".toList :: rs.map Prod.snd

/-- **C97** if no two rules report the same match anywhere in the input, the order of the rules makes no difference but for
the numbers of the types: the tokens have the same texts, positions and names. -/
theorem C97_names (rs rs' : List (Matcher × Str)) (hp : rs.Perm rs') (hm : ∀ r ∈ rs, r.1.Ok)
    (hd : ∀ rest, rest <:+ input → ∀ r ∈ rs, ∀ r' ∈ rs, ∀ n, 0 < n → r.1 rest = some n → r'.1 rest = some n → r.2 = r'.2)
    (toks toks' : List Token) (l l' : Lexer)
    (h : Scans Lexer.scan (Lexer.new (rs.map Prod.fst) (ruleNames rs) input) toks l)
    (h' : Scans Lexer.scan (Lexer.new (rs'.map Prod.fst) (ruleNames rs') input) toks' l')
    (hl : toks.length = toks'.length) :
    toks'.map (fun t => (t.tokenName, t.place)) = toks.map (fun t => (t.tokenName, t.place)) := by
  have hok : LexerOk (rs.map Prod.fst) (ruleNames rs) := by
    refine ⟨fun m hm' => ?_, by simp [ruleNames]⟩
    obtain ⟨r, hr, rfl⟩ := List.mem_map.1 hm'
    exact hm r hr
  have hok' : LexerOk (rs'.map Prod.fst) (ruleNames rs') := by
    refine ⟨fun m hm' => ?_, by simp [ruleNames]⟩
    obtain ⟨r, hr, rfl⟩ := List.mem_map.1 hm'
    exact hm r (hp.mem_iff.2 hr)
  obtain ⟨h1, -⟩ := scans_same hok hok' (fun m => (hp.map Prod.fst).mem_iff) h h' hl
  clear hl h h'
  induction h1 with
  | nil => rfl
  | @cons t t' _ _ hx _ ih =>
    simp only [List.map_cons, ih, List.cons.injEq, Prod.mk.injEq, and_true]
    refine ⟨?_, hx.1⟩
    rcases hx.2 with ⟨_, rfl⟩ | ⟨rest, i, i', m, m', q1, q2, q3, q4, q5, q6, q7, q8, q9, q10⟩
    · rfl
    · simp only [ruleNames, List.getElem?_cons_succ, List.getElem?_map] at q4 q5 q9 q10
      cases e : rs[i]? with
      | none => rw [e] at q4; cases q4
      | some r =>
        cases e' : rs'[i']? with
        | none => rw [e'] at q5; cases q5
        | some r' =>
          rw [e] at q4 q9
          rw [e'] at q5 q10
          simp only [Option.map_some, Option.some.injEq] at q4 q5 q9 q10
          subst q4 q5
          rw [← q9, ← q10]
          exact (hd rest q1 r (List.mem_of_getElem? e) r' (hp.mem_iff.2 (List.mem_of_getElem? e')) _ q6 q7 q8).symm

/-- **C97** where two rules report the same match, the order decides: `ab` is a `KEY` or an `ID`. -/
theorem C97_tie :
    ∃ rs rs' : List (Matcher × Str), rs.Perm rs' ∧ (∀ r ∈ rs, r.1.Ok) ∧ ∃ t t' l l',
      Scans Lexer.scan (Lexer.new (rs.map Prod.fst) (ruleNames rs) ['a', 'b']) [t] l ∧
      Scans Lexer.scan (Lexer.new (rs'.map Prod.fst) (ruleNames rs') ['a', 'b']) [t'] l' ∧
      t.place = t'.place ∧ t.tokenName = ['K', 'E', 'Y'] ∧ t'.tokenName = ['I', 'D'] := by
  have run : ∀ (ms : List Matcher) (names : List Str) (n : Str),
      (match (Lexer.new ms names ['a', 'b']).scan with
        | .ok (some t, _) => decide (t.tokenName = n ∧ t.place = (['a', 'b'], ⟨0, 0⟩, ⟨0, 2⟩, 0, 2, 0, 0))
        | _ => false) = true →
      ∃ t l, Scans Lexer.scan (Lexer.new ms names ['a', 'b']) [t] l ∧ t.tokenName = n ∧
        t.place = (['a', 'b'], ⟨0, 0⟩, ⟨0, 2⟩, 0, 2, 0, 0) := by
    intro ms names n h
    cases hr : (Lexer.new ms names ['a', 'b']).scan with
    | error e => rw [hr] at h; cases h
    | ok x =>
      obtain ⟨t, l⟩ := x
      rw [hr] at h
      cases t with
      | none => cases h
      | some t =>
        obtain ⟨h1, h2⟩ := of_decide_eq_true h
        exact ⟨t, l, .snoc (.nil _) hr, h1, h2⟩
  let key : Matcher × Str := ((Regex.str ['a', 'b']).find, ['K', 'E', 'Y'])
  let ident : Matcher × Str := ((Regex.seq (.cls Char.isLower) (.star (.cls Char.isLower))).find, ['I', 'D'])
  obtain ⟨t, l, h1, h2, h3⟩ := run ([key, ident].map Prod.fst) (ruleNames [key, ident]) ['K', 'E', 'Y'] (by decide +kernel)
  obtain ⟨t', l', h1', h2', h3'⟩ := run ([ident, key].map Prod.fst) (ruleNames [ident, key]) ['I', 'D'] (by decide +kernel)
  refine ⟨[key, ident], [ident, key], .swap .., ?_, t, t', l, l', h1, h1', h3.trans h3'.symm, h2, h2'⟩
  intro r hr
  simp only [List.mem_cons, List.not_mem_nil, or_false] at hr
  rcases hr with rfl | rfl <;> exact Regex.find_ok _

/-- the hypotheses of `C97_names` can be met: two rules that share no first character, on an input with both -/
example : ∃ rs rs' : List (Matcher × Str), rs ≠ rs' ∧ rs.Perm rs' ∧ (∀ r ∈ rs, r.1.Ok) ∧
    (∀ rest, ∀ r ∈ rs, ∀ r' ∈ rs, ∀ n, 0 < n → r.1 rest = some n → r'.1 rest = some n → r.2 = r'.2) ∧
    ∃ toks toks' l l', toks.length = 2 ∧ toks'.length = 2 ∧
      Scans Lexer.scan (Lexer.new (rs.map Prod.fst) (ruleNames rs) ['a', 'b']) toks l ∧
      Scans Lexer.scan (Lexer.new (rs'.map Prod.fst) (ruleNames rs') ['a', 'b']) toks' l' := by
  have run : ∀ (ms : List Matcher) (names : List Str),
      ((Lexer.new ms names ['a', 'b']).scan.bind fun x => x.2.scan.map fun y => (x.1.isSome, y.1.isSome)) =
        .ok (true, true) → ∃ toks l, toks.length = 2 ∧ Scans Lexer.scan (Lexer.new ms names ['a', 'b']) toks l := by
    intro ms names h
    cases hr : (Lexer.new ms names ['a', 'b']).scan with
    | error e => rw [hr] at h; cases h
    | ok x =>
      obtain ⟨t, l⟩ := x
      rw [hr] at h
      simp only [Except.bind] at h
      cases hq : l.scan with
      | error e => rw [hq] at h; cases h
      | ok y =>
        obtain ⟨t', l'⟩ := y
        rw [hq] at h
        simp only [Except.map, Except.ok.injEq, Prod.mk.injEq, Option.isSome_iff_exists] at h
        obtain ⟨⟨t, rfl⟩, t', rfl⟩ := h
        exact ⟨[t, t'], l', rfl, .snoc (.snoc (.nil _) hr) hq⟩
  let a : Matcher × Str := ((Regex.str ['a']).find, ['A'])
  let b : Matcher × Str := ((Regex.str ['b']).find, ['B'])
  obtain ⟨toks, l, h1, h2⟩ := run ([a, b].map Prod.fst) (ruleNames [a, b]) (by decide +kernel)
  obtain ⟨toks', l', h1', h2'⟩ := run ([b, a].map Prod.fst) (ruleNames [b, a]) (by decide +kernel)
  refine ⟨[a, b], [b, a], ?_, .swap .., ?_, ?_, toks, toks', l, l', h1, h1', h2, h2'⟩
  · intro e
    have := congrArg (List.map Prod.snd) e
    simp [a, b] at this
  · intro r hr
    simp only [List.mem_cons, List.not_mem_nil, or_false] at hr
    rcases hr with rfl | rfl <;> exact Regex.find_ok _
  · intro rest r hr r' hr' n hn h h'
    simp only [List.mem_cons, List.not_mem_nil, or_false] at hr hr'
    have no : ∀ n, (Regex.str ['a']).find rest = some n → (Regex.str ['b']).find rest = some n → False := by
      intro n h h'
      cases rest with
      | nil => simp [Regex.find, Regex.str, Regex.run, Regex.lit] at h
      | cons c s =>
        simp [Regex.find, Regex.str, Regex.run, Regex.lit] at h h'
        split_ifs at h h' <;> simp_all
    rcases hr with rfl | rfl <;> rcases hr' with rfl | rfl
    · rfl
    · exact (no n h h').elim
    · exact (no n h' h).elim
    · rfl

end Syntaxis
