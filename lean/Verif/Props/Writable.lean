import Verif.Props.Joined
import Verif.Props.TokenNames
import Verif.Spec.Writable

/-!
# C106: the grammars that can be written down
-/

namespace Syntaxis
open Regex Grammar

variable {digit : Char → Bool}

/-! ### texts of words separated by blanks -/

/-- the word, written alone, is a token of this kind -/
def WordAlone (digit : Char → Bool) (x : Nat × Str) : Prop :=
  ∃ i, x.1 = i + 2 ∧ i ≠ 13 ∧ MaxMunch (V1.regexes digit) x.2 i x.2

/-- no slash comes after a literal that ends with an escaped slash -/
def Apart (x y : Nat × Str) : Prop := x.1 = 14 → Swallows x.2 → '/' ∉ y.2

theorem wordAlone_of_kind {j : Nat} {k : Kind} (hj : (V1.kinds digit)[j]? = some k) (h13 : j ≠ 13) {u : Str} (h : k.Shape u)
    (he : u ≠ ['e', 'p', 's', 'i', 'l', 'o', 'n'] ∨ j = 0) : WordAlone digit (j + 2, u) := by
  have hlen : (V1.kinds digit).length = (V1.regexes digit).length := rfl
  have hk := List.mem_of_getElem? hj
  have hjl : j < (V1.regexes digit).length := by
    rw [← hlen]
    exact (List.getElem?_eq_some_iff.1 hj).1
  obtain ⟨k', hk', hn, _, h5⟩ := v1_kind_shape (digit := digit) j _ (List.getElem?_eq_getElem hjl)
  rw [hj] at hk'
  cases hk'
  have hne : u ≠ [] := by
    rcases Classical.em (u = ['e', 'p', 's', 'i', 'l', 'o', 'n']) with rfl | h'
    · simp
    · obtain ⟨c, w, rfl, -⟩ := kindOfHead_eq hk h h'
      simp
  refine ⟨j, rfl, h13, hne, List.prefix_refl _, ⟨_, List.getElem?_eq_getElem hjl, (h5 u).2 h⟩,
    fun _ _ w hw _ => hw.length_le, fun i r hi hr hl => ?_⟩
  rcases he with he | he
  · obtain ⟨k2, hk2, hn2, -, h6⟩ := v1_kind_shape i r hr
    obtain ⟨c, w, rfl, h7⟩ := kindOfHead_eq hk h he
    obtain ⟨c', w', e, h8⟩ := kindOfHead_eq (List.mem_of_getElem? hk2) ((h6 _).1 hl) he
    cases e
    rw [h7] at h8
    omega
  · omega

theorem lexes_nil : Lexes ((V1.regexes digit).map Regex.find) [] [] [] := by
  obtain ⟨out, rem, toks, h, -⟩ := scansTo_iff (digit := digit) []
  have e := lexes_texts h
  obtain ⟨e1, rfl⟩ := List.append_eq_nil_iff.1 e.symm
  have hs := h
  generalize hS : ([] : Str) = S at h
  cases h with
  | stop rest hn => subst hS; exact hs
  | @step u v rem i out hw hl =>
    obtain ⟨rfl, -⟩ := List.append_eq_nil_iff.1 hS.symm
    exact absurd hw.1 (by simp [byteLen])

theorem isSpace_blank : IsSpace ' ' := (isWhite_iff _).1 (by decide)

theorem lexes_words (hb : digit '\\' = false) (hq : digit '\'' = false) :
    ∀ ws : List (Nat × Str), (∀ x ∈ ws, WordAlone digit x) → ws.Pairwise Apart →
    ∃ out, Lexes ((V1.regexes digit).map Regex.find) ((ws.map Prod.snd).flatMap (· ++ [' '])) out [] ∧ solid out = ws
  | [], _, _ => ⟨[], lexes_nil, rfl⟩
  | x :: ws, h, hp => by
    obtain ⟨out, h1, h2⟩ := lexes_words hb hq ws (fun y hy => h y (by simp [hy])) hp.tail
    obtain ⟨out1, h3, h4⟩ := lexes_white_any hb hq (g := [' ']) (by
      intro c hc
      cases List.mem_singleton.1 hc
      exact isSpace_blank) h1
    obtain ⟨i, e, hi, hm⟩ := h x (by simp)
    obtain ⟨n, u⟩ := x
    obtain rfl : n = i + 2 := e
    have hl : Lexes ((V1.regexes digit).map Regex.find) (u ++ []) [(i + 2, u)] [] :=
      .step (maxMunch_wins hb hq (by simpa using hm)) lexes_nil
    rw [List.append_nil] at hl
    obtain ⟨out2, h5, h6⟩ := lexes_join hb hq hl rfl isSpace_blank h3 (by
      intro y hy h14 hs hc
      cases List.mem_singleton.1 hy
      replace hc := List.mem_flatMap.1 (show '/' ∈ (ws.map Prod.snd).flatMap (· ++ [' ']) from hc)
      obtain ⟨w, hw, hc⟩ := hc
      obtain ⟨z, hz, rfl⟩ := List.mem_map.1 hw
      rcases List.mem_append.1 hc with hc | hc
      · exact (List.rel_of_pairwise_cons hp hz) h14 hs hc
      · simp at hc)
    refine ⟨out2, ?_, ?_⟩
    · simpa using h5
    · rw [h6, solid_cons hi, h4, h2]
      simp [solid]

theorem scansTo_words (hb : digit '\\' = false) (hq : digit '\'' = false) (ts : List Token)
    (h : ∀ t ∈ ts, WordAlone digit t.out) (hp : (ts.map Token.out).Pairwise Apart) :
    ∃ toks stop, V1.ScansTo digit ((ts.map Token.text).flatMap (· ++ [' '])) (toks ++ [stop]) none ∧
      stop.tokenType = 1 ∧ toks.map Token.out = ts.map Token.out := by
  obtain ⟨out, h1, h2⟩ := lexes_words hb hq (ts.map Token.out) (by simpa using h) hp
  rw [List.map_map] at h1
  obtain ⟨out2, rem2, tk2, m1, m2, m3⟩ := scansTo_iff (digit := digit) ((ts.map Token.text).flatMap (· ++ [' ']))
  obtain ⟨rfl, rfl⟩ := m1.unique h1
  rw [if_pos rfl, h2] at m2
  obtain ⟨tk, st, rfl, e1, e2⟩ := List.map_eq_append_iff.1 m2
  obtain ⟨stop, r, rfl, e3, e4⟩ := List.map_eq_cons_iff.1 e2
  cases List.map_eq_nil_iff.1 e4
  exact ⟨tk, stop, (m3 _ _).2 ⟨rfl, by simp⟩, congrArg Prod.fst e3, e1⟩

/-! ### the tokens of a grammar -/

/-- a token of a file without literals of regular expressions -/
def Plain (digit : Char → Bool) (t : Token) : Prop := WordAlone digit t.out ∧ t.tokenType ≠ 14

/-- a token of this type and text -/
def mkTok (n : Nat) (u : Str) : Token := { (tk n) with text := u }

theorem plain_sign {n : Nat} {u : Str} (h : (n, u) ∈ [(4, [':']), (5, [';']), (6, ['|']), (7, ['ε']), (8, ['*']), (9, ['+']),
    (10, ['?']), (11, ['(']), (12, [')'])]) : Plain digit (mkTok n u) := by
  simp only [List.mem_cons, Prod.mk.injEq, List.not_mem_nil, or_false] at h
  rcases h with ⟨rfl, rfl⟩ | ⟨rfl, rfl⟩ | ⟨rfl, rfl⟩ | ⟨rfl, rfl⟩ | ⟨rfl, rfl⟩ | ⟨rfl, rfl⟩ | ⟨rfl, rfl⟩ | ⟨rfl, rfl⟩ |
    ⟨rfl, rfl⟩
  · exact ⟨wordAlone_of_kind (j := 2) rfl (by decide) (show [':'] ∈ arrows by decide) (.inl (by decide)), by decide⟩
  · exact ⟨wordAlone_of_kind (j := 3) rfl (by decide) (show [';'] ∈ _ from List.mem_cons_self) (.inl (by decide)), by decide⟩
  · exact ⟨wordAlone_of_kind (j := 4) rfl (by decide) (show ['|'] ∈ _ from List.mem_cons_self) (.inl (by decide)), by decide⟩
  · exact ⟨wordAlone_of_kind (j := 5) rfl (by decide) (show ['ε'] ∈ _ from List.mem_cons_self) (.inl (by decide)), by decide⟩
  · exact ⟨wordAlone_of_kind (j := 6) rfl (by decide) (show ['*'] ∈ _ from List.mem_cons_self) (.inl (by decide)), by decide⟩
  · exact ⟨wordAlone_of_kind (j := 7) rfl (by decide) (show ['+'] ∈ _ from List.mem_cons_self) (.inl (by decide)), by decide⟩
  · exact ⟨wordAlone_of_kind (j := 8) rfl (by decide) (show ['?'] ∈ _ from List.mem_cons_self) (.inl (by decide)), by decide⟩
  · exact ⟨wordAlone_of_kind (j := 9) rfl (by decide) (show ['('] ∈ _ from List.mem_cons_self) (.inl (by decide)), by decide⟩
  · exact ⟨wordAlone_of_kind (j := 10) rfl (by decide) (show [')'] ∈ _ from List.mem_cons_self) (.inl (by decide)), by decide⟩

theorem ruleName_word {u : Str} (h : IsRuleName u) : Plain digit (mkTok 2 u) :=
  ⟨wordAlone_of_kind (j := 0) rfl (by decide) h (.inr rfl), fun e => by cases e⟩

theorem tokenName_head {u : Str} (h : IsTokenName u) : u ≠ ['e', 'p', 's', 'i', 'l', 'o', 'n'] := by
  rintro rfl
  obtain ⟨c, w, e, hc, -⟩ := h
  cases e
  exact absurd hc (by decide)

theorem tokenName_word {u : Str} (h : IsTokenName u) : Plain digit (mkTok 3 u) :=
  ⟨wordAlone_of_kind (j := 1) rfl (by decide) h (.inl (tokenName_head h)), fun e => by cases e⟩

theorem literal_word {u : Str} (h : IsStringLiteral digit u) : Plain digit (mkTok 13 u) :=
  ⟨wordAlone_of_kind (j := 11) rfl (by decide) h (.inl (by
    rintro rfl
    obtain ⟨us, e, -⟩ := h
    cases e)), fun e => by cases e⟩

theorem regular_word {u : Str} (h : IsRegularLiteral u) : WordAlone digit (mkTok 14 u).out :=
  wordAlone_of_kind (j := 12) rfl (by decide) h (.inl (by
    rintro rfl
    obtain ⟨us, -, e, -⟩ := h
    cases e))

theorem seq_written {es : List Elem} (hne : es ≠ [])
    (h : ∀ e ∈ es, ∃ ts, WElem e ts ∧ (∀ t ∈ ts, Plain digit t) ∧ ts.map Token.text = e.words) :
    ∃ ts, WSeq es ts ∧ (∀ t ∈ ts, Plain digit t) ∧ ts.map Token.text = seqWords es := by
  induction es with
  | nil => exact absurd rfl hne
  | cons e es ih =>
    obtain ⟨ts, h1, h2, h3⟩ := h e (by simp)
    cases es with
    | nil => exact ⟨ts, .one h1, h2, by simp [seqWords, h3]⟩
    | cons e' es =>
      obtain ⟨us, k1, k2, k3⟩ := ih (by simp) fun x hx => h x (List.mem_cons_of_mem _ hx)
      refine ⟨ts ++ us, .cons h1 k1, fun t ht => (List.mem_append.1 ht).elim (h2 t) (k2 t), ?_⟩
      rw [List.map_append, h3, k3, seqWords.eq_2 e]

theorem alt_written {es : List Elem}
    (h : ∀ e ∈ es, ∃ ts, WElem e ts ∧ (∀ t ∈ ts, Plain digit t) ∧ ts.map Token.text = e.words) :
    ∃ ts, WAlt es ts ∧ (∀ t ∈ ts, Plain digit t) ∧ ts.map Token.text = altWords es := by
  cases es with
  | nil => exact ⟨[mkTok 7 ['ε']], .epsilon rfl, by simpa using plain_sign (by simp), by simp [altWords, mkTok]⟩
  | cons e es =>
    obtain ⟨ts, h1, h2, h3⟩ := seq_written (by simp) h
    exact ⟨ts, .seq h1, h2, by rw [h3, seqWords, altWords]⟩

theorem block_written {alts : List (List Elem)} (hne : alts ≠ [])
    (h : ∀ a ∈ alts, ∀ e ∈ a, ∃ ts, WElem e ts ∧ (∀ t ∈ ts, Plain digit t) ∧ ts.map Token.text = e.words) :
    ∃ ts, WBlock alts ts ∧ (∀ t ∈ ts, Plain digit t) ∧ ts.map Token.text = blockWords alts := by
  induction alts with
  | nil => exact absurd rfl hne
  | cons a as ih =>
    obtain ⟨ts, h1, h2, h3⟩ := alt_written (h a (by simp))
    cases as with
    | nil => exact ⟨ts, .one h1, h2, by simp [blockWords, blockTail, h3]⟩
    | cons a' as =>
      obtain ⟨us, k1, k2, k3⟩ := ih (by simp) fun x hx => h x (List.mem_cons_of_mem _ hx)
      refine ⟨ts ++ mkTok 6 ['|'] :: us, .cons h1 rfl k1, ?_, ?_⟩
      · intro t ht
        simp only [List.mem_append, List.mem_cons] at ht
        rcases ht with ht | rfl | ht
        · exact h2 t ht
        · exact plain_sign (by simp)
        · exact k2 t ht
      · rw [List.map_append, List.map_cons, h3, k3]
        simp [blockWords, blockTail, mkTok]

mutual
theorem AtomOk.written : ∀ {e : Elem}, AtomOk digit e →
    ∃ ts, WAtom e ts ∧ (∀ t ∈ ts, Plain digit t) ∧ ts.map Token.text = e.words
  | _, .token h => ⟨[mkTok 3 _], WAtom.token (t := mkTok 3 _) rfl, by simpa using tokenName_word h, by simp [Elem.words, mkTok]⟩
  | _, .literal h =>
    ⟨[mkTok 13 _], WAtom.literal (t := mkTok 13 _) rfl, by simpa using literal_word h, by simp [Elem.words, mkTok]⟩
  | _, .rule h => ⟨[mkTok 2 _], WAtom.rule (t := mkTok 2 _) rfl, by simpa using ruleName_word h, by simp [Elem.words, mkTok]⟩
  | _, .group hne h => by
    obtain ⟨ts, h1, h2, h3⟩ := block_written hne fun a ha e he => (h a ha e he).written
    refine ⟨mkTok 11 ['('] :: (ts ++ [mkTok 12 [')']]), .group rfl rfl h1, ?_, ?_⟩
    · intro t ht
      simp only [List.mem_append, List.mem_cons, List.not_mem_nil, or_false] at ht
      rcases ht with rfl | ht | rfl
      · exact plain_sign (by simp)
      · exact h2 t ht
      · exact plain_sign (by simp)
    · rw [List.map_cons, List.map_append, h3]
      simp [Elem.words, mkTok]
theorem ElemOk.written : ∀ {e : Elem}, ElemOk digit e →
    ∃ ts, WElem e ts ∧ (∀ t ∈ ts, Plain digit t) ∧ ts.map Token.text = e.words
  | _, .plain h => by
    obtain ⟨ts, h1, h2, h3⟩ := h.written
    exact ⟨ts, .plain h1, h2, h3⟩
  | _, .suffix f h => by
    obtain ⟨ts, h1, h2, h3⟩ := h.written
    refine ⟨ts ++ [mkTok f.token f.word], .suffix h1 (.plain rfl), ?_, ?_⟩
    · intro t ht
      rcases List.mem_append.1 ht with ht | ht
      · exact h2 t ht
      · cases List.mem_singleton.1 ht
        exact plain_sign (by cases f <;> simp [Suffix.token, Suffix.word])
    · rw [List.map_append, h3]
      simp [Elem.words, mkTok]
end

theorem rules_written {D : Rules} (hn : ∀ r ∈ D, IsRuleName r.1)
    (hb : ∀ r ∈ D, r.2 ≠ [] ∧ ∀ a ∈ r.2, ∀ e ∈ a, ElemOk digit e) :
    ∃ ts, WFile D [] ts ∧ (∀ t ∈ ts, Plain digit t) ∧ ts.map Token.text = fileWords D [] := by
  induction D with
  | nil => exact ⟨[], .nil, by simp, rfl⟩
  | cons r D ih =>
    obtain ⟨us, h1, h2, h3⟩ := ih (fun x hx => hn x (List.mem_cons_of_mem _ hx)) fun x hx => hb x (List.mem_cons_of_mem _ hx)
    obtain ⟨n, alts⟩ := r
    obtain ⟨hne, hbl⟩ := hb _ (List.mem_cons_self)
    obtain ⟨ts, k1, k2, k3⟩ := block_written hne fun a ha e he => (hbl a ha e he).written
    refine ⟨mkTok 2 n :: mkTok 4 [':'] :: (ts ++ mkTok 5 [';'] :: us), WFile.parserRule (n := mkTok 2 n) rfl rfl k1 rfl h1, ?_, ?_⟩
    · intro t ht
      simp only [List.mem_append, List.mem_cons] at ht
      rcases ht with rfl | rfl | ht | rfl | ht
      · exact ruleName_word (hn _ (List.mem_cons_self))
      · exact plain_sign (by simp)
      · exact k2 t ht
      · exact plain_sign (by simp)
      · exact h2 t ht
    · simp only [List.map_cons, List.map_append, k3, h3]
      simp [fileWords, mkTok]

theorem name_noslash {p : Char → Prop} {u : Str} (hp : ¬ p '/') (h : IsIdentifier p u) : '/' ∉ u := by
  obtain ⟨c, w, rfl, hc, -, hw⟩ := h
  intro hm
  rcases List.mem_cons.1 hm with e | hm
  · exact hp (e ▸ hc)
  · have := hw _ hm
    revert this
    decide

theorem regular_slash {u : Str} (h : IsRegularLiteral u) : '/' ∈ u := by
  obtain ⟨us, -, rfl, -⟩ := h
  simp

theorem lexRules_written {L : List (Str × Str)} (ht : ∀ p ∈ L, IsTokenName p.1 ∧ IsRegularLiteral p.2)
    (hs : ∀ p ∈ L.dropLast, ¬ ['\\', '/'] <:+ p.2) :
    ∃ ts, WFile [] L ts ∧ (∀ t ∈ ts, WordAlone digit t.out) ∧ (ts.map Token.out).Pairwise Apart ∧
      ts.map Token.text = fileWords [] L := by
  induction L with
  | nil => exact ⟨[], .nil, by simp, by simp, rfl⟩
  | cons p L ih =>
    obtain ⟨us, h1, h2, h3, h4⟩ := ih (fun x hx => ht x (List.mem_cons_of_mem _ hx)) (by
      intro x hx
      refine hs x ?_
      cases L with
      | nil => cases hx
      | cons q L => rw [List.dropLast_cons_cons]; exact List.mem_cons_of_mem _ hx)
    obtain ⟨n, r⟩ := p
    obtain ⟨hn, hr⟩ := ht _ (List.mem_cons_self)
    refine ⟨mkTok 3 n :: mkTok 4 [':'] :: mkTok 14 r :: mkTok 5 [';'] :: us, 
      WFile.lexerRule (n := mkTok 3 n) (r := mkTok 14 r) rfl rfl rfl rfl h1, ?_, ?_, ?_⟩
    · intro t ht
      simp only [List.mem_cons] at ht
      rcases ht with rfl | rfl | rfl | rfl | ht
      · exact (tokenName_word hn).1
      · exact (plain_sign (by simp)).1
      · exact regular_word hr
      · exact (plain_sign (by simp)).1
      · exact h2 t ht
    · simp only [List.map_cons]
      refine .cons ?_ (.cons ?_ (.cons ?_ (.cons ?_ h3)))
      · intro y _ e; cases e
      · intro y _ e; cases e
      · intro y hy _ hsw
        rcases List.mem_cons.1 hy with rfl | hy
        · decide
        · cases L with
          | nil =>
            cases h1
            cases hy
          | cons q L =>
            exact absurd hsw (hs (n, r) (by rw [List.dropLast_cons_cons]; exact List.mem_cons_self))
      · intro y _ e; cases e
    · simp only [List.map_cons, h4]
      simp [fileWords, mkTok]

/-- what can be written is written by `fileText`: its words are scanned and form a file with these rules -/
theorem fileText_scans (hb : digit '\\' = false) (hq : digit '\'' = false) {D : Rules} {L : List (Str × Str)}
    (h : Writable digit D L) :
    ∃ toks stop, V1.ScansTo digit (fileText D L) (toks ++ [stop]) none ∧ stop.tokenType = 1 ∧ WFile D L toks ∧
      toks.map Token.text = fileWords D L := by
  obtain ⟨ts, h1, h2, h3⟩ := rules_written h.names h.bodies
  obtain ⟨us, k1, k2, k3, k4⟩ := lexRules_written (digit := digit) h.tokens h.slashes
  obtain ⟨toks, stop, m1, m2, m3⟩ := scansTo_words hb hq (ts ++ us)
    (fun t ht => (List.mem_append.1 ht).elim (fun h => (h2 t h).1) (k2 t)) (by
      rw [List.map_append]
      refine List.pairwise_append.2 ⟨?_, k3, ?_⟩
      · refine List.pairwise_map.2 (List.Pairwise.imp_of_mem (R := fun _ _ => True) ?_ (by simp [List.pairwise_iff_forall_sublist]))
        intro a b ha _ _ h14
        exact absurd h14 (h2 a ha).2
      · intro x hx y _ h14
        obtain ⟨a, ha, rfl⟩ := List.mem_map.1 hx
        exact absurd h14 (h2 a ha).2)
  have e : (ts ++ us).map Token.text = fileWords D L := by
    rw [List.map_append, h3, k4]
    simp [fileWords]
  refine ⟨toks, stop, ?_, m2, (by simpa using h1.append k1 : WFile D L (ts ++ us)).congr m3, ?_⟩
  · rw [e] at m1
    exact m1
  · have := congrArg (List.map Prod.snd) m3
    rw [List.map_map, List.map_map] at this
    exact this.trans e

/-! ### what a file can contain -/

/-- type and text of the token agree -/
def Fit (digit : Char → Bool) (x : Nat × Str) : Prop :=
  ∃ j k, (V1.kinds digit)[j]? = some k ∧ x.1 = j + 2 ∧ k.Shape x.2

theorem lexes_fit (hb : digit '\\' = false) (hq : digit '\'' = false) {s rem : Str} {out : List (Nat × Str)}
    (h : Lexes ((V1.regexes digit).map Regex.find) s out rem) : ∀ x ∈ out, Fit digit x := by
  induction h with
  | stop => simp
  | @step u v rem i out hw hl ih =>
    intro x hx
    rcases List.mem_cons.1 hx with rfl | hx
    · obtain ⟨-, -, ⟨r, hr, hu⟩, -⟩ := wins_maxMunch (v1_best hb hq) rfl hw
      obtain ⟨k, hk, -, -, h5⟩ := v1_kind_shape i r hr
      exact ⟨i, k, hk, rfl, (h5 u).1 hu⟩
    · exact ih x hx

theorem lexes_apart (hb : digit '\\' = false) (hq : digit '\'' = false) {s rem : Str} {out : List (Nat × Str)}
    (h : Lexes ((V1.regexes digit).map Regex.find) s out rem) : out.Pairwise Apart := by
  induction h with
  | stop => simp
  | @step u v rem i out hw hl ih =>
    refine .cons (fun y hy h14 hsw hc => ?_) ih
    obtain rfl : i = 12 := by simpa using h14
    refine maxMunch_swallow (wins_maxMunch (v1_best hb hq) rfl hw) hsw ?_
    rw [lexes_texts hl]
    exact List.mem_append_left _ (List.mem_flatten.2 ⟨_, List.mem_map.2 ⟨y, hy, rfl⟩, hc⟩)

theorem fit_shape {x : Nat × Str} (h : Fit digit x) {j : Nat} {k : Kind} (hj : x.1 = j + 2)
    (hk : (V1.kinds digit)[j]? = some k) : k.Shape x.2 := by
  obtain ⟨i, k', h1, h2, h3⟩ := h
  obtain rfl : i = j := by omega
  rw [h1] at hk
  cases hk
  exact h3

mutual
theorem WAtom.ok : ∀ {e : Elem} {ts : List Token}, WAtom e ts → (∀ t ∈ ts, Fit digit t.out) → AtomOk digit e
  | _, _, .token h, hf => .token (fit_shape (j := 1) (hf _ (by simp)) h rfl)
  | _, _, .literal h, hf => .literal (fit_shape (j := 11) (hf _ (by simp)) h rfl)
  | _, _, .rule h, hf => .rule (fit_shape (j := 0) (hf _ (by simp)) h rfl)
  | _, _, .group _ _ h, hf => by
    obtain ⟨h1, h2⟩ := WBlock.ok h fun t ht => hf t (by simp [ht])
    exact .group h1 h2
theorem WElem.ok : ∀ {e : Elem} {ts : List Token}, WElem e ts → (∀ t ∈ ts, Fit digit t.out) → ElemOk digit e
  | _, _, .plain h, hf => .plain (WAtom.ok h hf)
  | _, _, .suffix h _, hf => .suffix _ (WAtom.ok h fun t ht => hf t (by simp [ht]))
theorem WSeq.ok : ∀ {es : List Elem} {ts : List Token}, WSeq es ts → (∀ t ∈ ts, Fit digit t.out) → ∀ e ∈ es, ElemOk digit e
  | _, _, .one h, hf => by simpa using WElem.ok h hf
  | _, _, .cons h hs, hf => by
    have h1 := WElem.ok h fun t ht => hf t (by simp [ht])
    have h2 := WSeq.ok hs fun t ht => hf t (by simp [ht])
    simpa using ⟨h1, h2⟩
theorem WAlt.ok : ∀ {es : List Elem} {ts : List Token}, WAlt es ts → (∀ t ∈ ts, Fit digit t.out) → ∀ e ∈ es, ElemOk digit e
  | _, _, .epsilon _, _ => by simp
  | _, _, .seq h, hf => WSeq.ok h hf
theorem WBlock.ok : ∀ {as : List (List Elem)} {ts : List Token}, WBlock as ts → (∀ t ∈ ts, Fit digit t.out) →
    as ≠ [] ∧ ∀ a ∈ as, ∀ e ∈ a, ElemOk digit e
  | _, _, .one h, hf => ⟨by simp, by simpa using WAlt.ok h hf⟩
  | _, _, .cons h _ hs, hf => by
    have h1 := WAlt.ok h fun t ht => hf t (by simp [ht])
    have h2 := (WBlock.ok hs fun t ht => hf t (by simp [ht])).2
    exact ⟨by simp, fun a ha => (List.mem_cons.1 ha).elim (fun e => e ▸ h1) (h2 a)⟩
end

theorem WFile.literals {D : Rules} {L : List (Str × Str)} {ts : List Token} (h : WFile D L ts) :
    ∀ p ∈ L, ∃ t ∈ ts, t.tokenType = 14 ∧ t.text = p.2 := by
  induction h with
  | nil => simp
  | parserRule hn hc hb hs h ih =>
    intro p hp
    obtain ⟨t, h1, h2⟩ := ih p hp
    exact ⟨t, by simp [h1], h2⟩
  | @lexerRule n c r s us D L hn hc hr hs h ih =>
    intro p hp
    rcases List.mem_cons.1 hp with rfl | hp
    · exact ⟨r, by simp, hr, rfl⟩
    · obtain ⟨t, h1, h2⟩ := ih p hp
      exact ⟨t, by simp [h1], h2⟩

theorem WFile.writable {D : Rules} {L : List (Str × Str)} {ts : List Token} (h : WFile D L ts)
    (hf : ∀ t ∈ ts, Fit digit t.out) (hp : (ts.map Token.out).Pairwise Apart) : Writable digit D L := by
  induction h with
  | nil => exact ⟨by simp, by simp, by simp, by simp⟩
  | @parserRule n c s alts ts us D L hn hc hb hs h ih =>
    have ih := ih (fun t ht => hf t (by simp [ht])) (by
      refine hp.sublist (List.Sublist.map _ ?_)
      exact ((((List.sublist_cons_self s us).trans (List.sublist_append_right ts _)).cons c).cons n))
    have hbl := hb.ok (digit := digit) fun t ht => hf t (by simp [ht])
    refine ⟨fun r hr => ?_, fun r hr => ?_, ih.tokens, ih.slashes⟩
    · rcases List.mem_cons.1 hr with rfl | hr
      · exact fit_shape (j := 0) (hf n (by simp)) hn rfl
      · exact ih.names r hr
    · rcases List.mem_cons.1 hr with rfl | hr
      · exact hbl
      · exact ih.bodies r hr
  | @lexerRule n c r s us D L hn hc hr hs h ih =>
    simp only [List.map_cons] at hp
    obtain ⟨-, hp⟩ := List.pairwise_cons.1 hp
    obtain ⟨-, hp⟩ := List.pairwise_cons.1 hp
    obtain ⟨hap, hp⟩ := List.pairwise_cons.1 hp
    have ih := ih (fun t ht => hf t (by simp [ht])) hp.tail
    refine ⟨ih.names, ih.bodies, fun p hp => ?_, fun p hp' => ?_⟩
    · rcases List.mem_cons.1 hp with rfl | hp
      · exact ⟨fit_shape (j := 1) (hf n (by simp)) hn rfl, fit_shape (j := 12) (hf r (by simp)) hr rfl⟩
      · exact ih.tokens p hp
    · cases L with
      | nil => simp at hp'
      | cons q L =>
        rw [List.dropLast_cons_cons] at hp'
        rcases List.mem_cons.1 hp' with rfl | hp'
        · intro hsw
          obtain ⟨t, h1, h2, h3⟩ := h.literals q (by simp)
          refine hap t.out (List.mem_cons_of_mem _ (List.mem_map.2 ⟨t, h1, rfl⟩)) hr hsw ?_
          show '/' ∈ t.text
          rw [h3]
          exact regular_slash (ih.tokens q (by simp)).2
        · exact ih.slashes p hp'

theorem file_writable (hb : digit '\\' = false) (hq : digit '\'' = false) {text : Str} {toks : List Token} {stop : Token}
    (h : V1.ScansTo digit text (toks ++ [stop]) none) {D : Rules} {L : List (Str × Str)} (hw : WFile D L toks) :
    Writable digit D L := by
  obtain ⟨out, h1, h2⟩ := scansTo_split h
  rw [List.map_append, List.map_singleton] at h2
  have h2 := (List.append_inj' h2 rfl).1
  refine hw.writable (fun t ht => lexes_fit hb hq h1 _ ?_) ?_
  · have : t.out ∈ solid out := h2 ▸ List.mem_map.2 ⟨t, ht, rfl⟩
    unfold solid at this
    exact List.mem_of_mem_filter this
  · rw [h2]
    exact (lexes_apart hb hq h1).filter _

/-! ### the property -/

open Main in
/-- **C106** Every grammar whose names are names, whose elements have at most one suffix and only whose last lexer rule ends
with an escaped slash can be written down: its words separated by blanks are drawn without a message, and the rules read
from the tree are the rules of the grammar. -/
theorem C106_written (hb : digit '\\' = false) (hq : digit '\'' = false) (D : Rules) (L : List (Str × Str))
    (h : Writable digit D L) :
    ∃ r, (∀ h, Ends h digit (fileText D L) (.ok ⟨[], [], none, [], Page.render "parser".toList r⟩)) ∧
      r.toAst.leaves.map Token.text = fileWords D L ∧
      readRules .v1 r.children = some D ∧ readLexRules .v1 r.children = L.map some := by
  obtain ⟨toks, stop, h1, h2, h3, h4⟩ := fileText_scans hb hq h
  obtain ⟨r, m1, m2, m3, m4⟩ := C70_drawn digit _ toks stop h1 h2 D L h3
  exact ⟨r, m1, by rw [m2, h4], m3, m4⟩

open Main Shipped in
/-- **C106** No other grammar can: whatever text is lexed to its end and parsed without a message, for every hash order, the
rules read from its tree can be written; so these are exactly the grammars there are files for. -/
theorem C106_expressible (hb : digit '\\' = false) (hq : digit '\'' = false) (o : IterOrder grammar) (so : SetOrder)
    (fuel : Nat) (ts : TableState) (h : runTable grammar o so fuel = .ok ts) (D : Rules) (L : List (Str × Str)) :
    (∃ text toks fuel' r, V1.ScansTo digit text toks none ∧ (parserOf grammar ts toks).parse fuel' = .ok (r, []) ∧
      readRules .v1 r.children = some D ∧ readLexRules .v1 r.children = L.map some) ↔ Writable digit D L := by
  constructor
  · rintro ⟨text, toks, fuel', r, h1, h2, h3, h4⟩
    obtain ⟨w, stop, rest, rfl, k1, k2, k3⟩ := C23_whole_input grammar o so fuel ts h _ endsEmpty
        (by simp) follow_start toks fuel' r h2
    obtain ⟨rfl, -, -⟩ := stop_last h1 k1
    exact file_writable hb hq h1 ((C57_read_as_written o so fuel ts h w stop k1 D L).2 ⟨fuel', r, h2, k2, h3, h4⟩)
  · intro hw
    obtain ⟨toks, stop, h1, h2, h3, -⟩ := fileText_scans hb hq hw
    obtain ⟨f, r, k1, -, k2, k3⟩ := (C57_read_as_written o so fuel ts h toks stop h2 D L).1 h3
    exact ⟨_, _, f, r, h1, k1, k2, k3⟩

open Main in
/-- **C106** Every grammar file can be put in order: whatever its spacing and the order of its rules, the words of its parser
rules and then of its lexer rules, separated by blanks, are drawn without a message and have the same rules. -/
theorem C106_formatted (hb : digit '\\' = false) (hq : digit '\'' = false) (text : Str) (toks : List Token) (stop : Token)
    (h : V1.ScansTo digit text (toks ++ [stop]) none) (D : Rules) (L : List (Str × Str)) (hw : WFile D L toks) :
    ∃ r, (∀ h, Ends h digit (fileText D L) (.ok ⟨[], [], none, [], Page.render "parser".toList r⟩)) ∧
      readRules .v1 r.children = some D ∧ readLexRules .v1 r.children = L.map some := by
  obtain ⟨r, h1, -, h2⟩ := C106_written hb hq D L (file_writable hb hq h hw)
  exact ⟨r, h1, h2⟩

/-- **C106** Different grammars have different texts. -/
theorem C106_distinct (hb : digit '\\' = false) (hq : digit '\'' = false) (D D' : Rules) (L L' : List (Str × Str))
    (h : Writable digit D L) (h' : Writable digit D' L') : fileText D L = fileText D' L' ↔ D = D' ∧ L = L' := by
  constructor
  · intro e
    obtain ⟨toks, stop, h1, -, h2, -⟩ := fileText_scans hb hq h
    obtain ⟨toks', stop', h1', -, h2', -⟩ := fileText_scans hb hq h'
    rw [← e] at h1'
    obtain ⟨_, _, _, -, -, hd⟩ := scansTo_iff (digit := digit) (fileText D L)
    have := ((hd _ _).1 h1).1.trans ((hd _ _).1 h1').1.symm
    obtain ⟨rfl, -⟩ := List.append_inj' this rfl
    exact h2.det h2'
  · rintro ⟨rfl, rfl⟩
    rfl

/-! ### examples -/

/-- a rule of each kind: `ex : ( ex | 'x' ) * AB ? | ε ;` and the lexer rules `AB : /a/ ;`, `CD : /c\/ ;` -/
def sampleRules : Rules :=
  [(chars! "ex", [[.rep .star (.group [[.ref (chars! "ex")], [.tok (chars! "'x'")]]), .rep .question (.tok (chars! "AB"))], []])]

def sampleLex : List (Str × Str) := [(chars! "AB", chars! "/a/"), (chars! "CD", chars! "/c\\/")]

theorem sample_writable : Writable isDigit09 sampleRules sampleLex := by
  have hex : IsRuleName (chars! "ex") := ⟨'e', ['x'], rfl, by decide, by simp, by decide⟩
  have hab : IsTokenName (chars! "AB") := ⟨'A', ['B'], rfl, by decide, by simp, by decide⟩
  have hcd : IsTokenName (chars! "CD") := ⟨'C', ['D'], rfl, by decide, by simp, by decide⟩
  have hx : IsStringLiteral isDigit09 (chars! "'x'") :=
    ⟨[['x']], rfl, fun x hx => .inr ⟨'x', List.mem_singleton.1 hx, .inr (by decide)⟩⟩
  refine ⟨?_, ?_, ?_, ?_⟩
  · simpa [sampleRules] using hex
  · simp only [sampleRules, List.mem_singleton, forall_eq]
    refine ⟨by simp, fun a ha e he => ?_⟩
    simp only [List.mem_cons, List.not_mem_nil, or_false] at ha
    rcases ha with rfl | rfl
    · simp only [List.mem_cons, List.not_mem_nil, or_false] at he
      rcases he with rfl | rfl
      · refine .suffix _ (.group (by simp) fun a ha e he => ?_)
        simp only [List.mem_cons, List.not_mem_nil, or_false] at ha
        rcases ha with rfl | rfl
        · cases List.mem_singleton.1 he
          exact .plain (.rule hex)
        · cases List.mem_singleton.1 he
          exact .plain (.literal hx)
      · exact .suffix _ (.token hab)
    · cases he
  · simp only [sampleLex, List.mem_cons, List.not_mem_nil, or_false]
    rintro p (rfl | rfl)
    · exact ⟨hab, [['a']], by simp, rfl, fun x hx => .inr ⟨'a', by decide, List.mem_singleton.1 hx⟩⟩
    · refine ⟨hcd, [['c'], ['\\']], by simp, rfl, fun x hx => .inr ?_⟩
      simp only [List.mem_cons, List.not_mem_nil, or_false] at hx
      rcases hx with rfl | rfl
      · exact ⟨'c', by decide, rfl⟩
      · exact ⟨'\\', by decide, rfl⟩
  · intro p hp
    cases List.mem_singleton.1 (show p ∈ [(chars! "AB", chars! "/a/")] from hp)
    decide

open Main in
/-- non-vacuity of `C106_written` -/
example : fileText sampleRules sampleLex = chars! "ex : ( ex | 'x' ) * AB ? | ε ; AB : /a/ ; CD : /c\\/ ; " ∧
    ∃ r, (∀ h, Ends h isDigit09 (fileText sampleRules sampleLex) (.ok ⟨[], [], none, [], Page.render "parser".toList r⟩)) ∧
      readRules .v1 r.children = some sampleRules := by
  obtain ⟨r, h1, -, h2, -⟩ := C106_written (digit := isDigit09) (by decide) (by decide) _ _ sample_writable
  exact ⟨by simp [fileText, fileWords, sampleRules, sampleLex, blockWords, blockTail, altWords, seqWords, Elem.words,
    Suffix.word], r, h1, h2⟩

/-- non-vacuity of `C106_distinct`: another writable grammar has another text -/
example : fileText sampleRules sampleLex ≠ fileText sampleRules sampleLex.dropLast := by
  have h := sample_writable
  rw [Ne, C106_distinct (digit := isDigit09) (by decide) (by decide) _ _ _ _ h
    ⟨h.names, h.bodies, fun p hp => h.tokens p (List.dropLast_subset _ hp),
      fun p hp => h.slashes p (List.dropLast_subset _ hp)⟩]
  simp [sampleLex]

open Main Shipped in
/-- `C106_expressible` excludes something: no file has a rule named `e`, none has an element with two suffixes, none has two
lexer rules the first of which ends with an escaped slash -/
example (o : IterOrder grammar) (so : SetOrder) (fuel : Nat) (ts : TableState) (h : runTable grammar o so fuel = .ok ts) :
    (∀ D L, D = [(['e'], [[]])] ∨ D = [(chars! "ex", [[.rep .star (.rep .plus (.ref (chars! "ex")))]])] ∨
      L = [(chars! "AB", chars! "/a\\/"), (chars! "CD", chars! "/c/")] →
      ¬ ∃ text toks fuel' r, V1.ScansTo isDigit09 text toks none ∧ (parserOf grammar ts toks).parse fuel' = .ok (r, []) ∧
        readRules .v1 r.children = some D ∧ readLexRules .v1 r.children = L.map some) := by
  intro D L hD hr
  have hw := (C106_expressible (by decide) (by decide) o so fuel ts h D L).1 hr
  rcases hD with rfl | rfl | rfl
  · obtain ⟨c, w, e, -, hne, -⟩ := hw.names _ (List.mem_singleton.2 rfl)
    cases e
    exact hne rfl
  · have := (hw.bodies _ (List.mem_singleton.2 rfl)).2 _ (List.mem_singleton.2 rfl) _ (List.mem_singleton.2 rfl)
    cases this with
    | plain h => cases h
    | suffix _ h => cases h
  · exact hw.slashes (chars! "AB", chars! "/a\\/") (by simp) (by decide)

end Syntaxis
