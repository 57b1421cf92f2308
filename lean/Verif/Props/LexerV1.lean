import Verif.Lemmas.RegexV1
import Verif.Props.Lexer

/-!
# C35, C53: what the v1 lexer makes of grammar files

`digit` is the class `\d`; of it only `'` and `\` not being digits is used.
-/

namespace Syntaxis

variable {digit : Char → Bool} {input : Str}

/-- `u` is the token text at the front of `rest`, and rule `i` gives its type: `u` is the longest prefix
in the language of any rule, and rule `i` is the first one whose language contains it -/
def MaxMunch (rs : List Regex) (rest : Str) (i : Nat) (u : Str) : Prop :=
  u ≠ [] ∧ u <+: rest ∧ (∃ r, rs[i]? = some r ∧ r.Lang u) ∧
  (∀ r ∈ rs, ∀ w, w <+: rest → r.Lang w → w.length ≤ u.length) ∧
  (∀ (j : Nat) (r : Regex), j < i → rs[j]? = some r → ¬ r.Lang u)

/-- no rule matches a nonempty prefix -/
def NoPrefix (rs : List Regex) (rest : Str) : Prop := ∀ r ∈ rs, ∀ w, w <+: rest → r.Lang w → w = []

theorem byteLen_prefix_le {u w rest : Str} (hu : u <+: rest) (hw : w <+: rest)
    (h : byteLen w ≤ byteLen u) : w.length ≤ u.length := by
  rcases Nat.le_total w.length u.length with hl | hl
  · exact hl
  · obtain ⟨x, rfl⟩ := List.prefix_of_prefix_length_le hu hw hl
    rw [byteLen_append] at h
    have : byteLen x = 0 := by omega
    rw [byteLen_eq_zero] at this
    subst this; simp

/-- winning among matchers that report their longest match is maximal munch over the languages -/
theorem wins_maxMunch {rs : List Regex} (hbest : ∀ r ∈ rs, r.Best) {rest u v : Str} {i : Nat}
    (e : rest = u ++ v) (h : Wins (rs.map Regex.find) rest i (byteLen u)) : MaxMunch rs rest i u := by
  obtain ⟨hpos, ⟨m, hm, hmn⟩, hall⟩ := h
  have hp : u <+: rest := ⟨v, e.symm⟩
  have hne : u ≠ [] := by rintro rfl; simp at hpos
  rw [List.getElem?_map, Option.map_eq_some_iff] at hm
  obtain ⟨r, hr, rfl⟩ := hm
  obtain ⟨u', v', e', hu', hl⟩ := Regex.find_some hmn
  obtain ⟨rfl, rfl⟩ := append_inj_byteLen (e.symm.trans e') hl
  refine ⟨hne, hp, ⟨r, hr, hu'⟩, ?_, ?_⟩
  · intro q hq w hw hlw
    refine byteLen_prefix_le hp hw ?_
    obtain ⟨j, hj⟩ := List.getElem?_of_mem hq
    obtain ⟨x, hx⟩ := hw
    cases hf : q.find rest with
    | none => exact absurd hlw (Regex.find_none.1 hf w x hx.symm)
    | some k =>
      exact Nat.le_trans (hbest q hq rest k hf w x hx.symm hlw)
        (hall j q.find k (by rw [List.getElem?_map, hj]; rfl) hf).1
  · intro j q hj hq hlq
    cases hf : q.find rest with
    | none => exact absurd hlq (Regex.find_none.1 hf u v e)
    | some k =>
      have h1 := hbest q (List.mem_of_getElem? hq) rest k hf u v e hlq
      have h2 := (hall j q.find k (by rw [List.getElem?_map, hq]; rfl) hf).2 hj
      omega

theorem noMatch_noPrefix {rs : List Regex} (hbest : ∀ r ∈ rs, r.Best) {rest : Str}
    (h : NoMatch (rs.map Regex.find) rest) : NoPrefix rs rest := by
  rintro r hr w ⟨x, hx⟩ hlw
  obtain ⟨j, hj⟩ := List.getElem?_of_mem hr
  cases hf : r.find rest with
  | none => exact absurd hlw (Regex.find_none.1 hf w x hx.symm)
  | some k =>
    have h1 := hbest r hr rest k hf w x hx.symm hlw
    have h2 := h j r.find k (by rw [List.getElem?_map, hj]; rfl) hf
    rw [← byteLen_eq_zero]; omega

/-- **C53** at every point of every scan of every input, the v1 lexer returns the longest prefix in any
of its 14 token languages, typed by the first language containing it, and fails iff there is none. -/
theorem C53_maximal_munch (hb : digit '\\' = false) (hq : digit '\'' = false) (toks : List Token)
    (l : Lexer) (h : Scans Lexer.scan (V1.lexer digit input) toks l) (rest : Str)
    (hr : input = covered toks ++ rest) (hne : rest ≠ []) :
    (l.scan = .ok (none, l) ∧ NoPrefix (V1.regexes digit) rest) ∨
    ∃ tok l' i, l.scan = .ok (some tok, l') ∧ MaxMunch (V1.regexes digit) rest i tok.text ∧
      tok.tokenType = i + 2 ∧ V1.tokenNames[i + 2]? = some tok.tokenName := by
  rcases C28_longest_match (v1_ok digit) toks l h rest hr hne with ⟨h1, h2⟩ |
    ⟨tok, l', i, u, v, hs, e, hw, ht, rfl, hn⟩
  · exact Or.inl ⟨h1, noMatch_noPrefix (Regex.v1_best hb hq) h2⟩
  · exact Or.inr ⟨tok, l', i, hs, wins_maxMunch (Regex.v1_best hb hq) e hw, ht, hn⟩

/-- **C53** the two outcomes exclude each other, and type and text are determined by the input. -/
theorem C53_unique {rs : List Regex} {rest : Str} {i j : Nat} {u w : Str} (h : MaxMunch rs rest i u) :
    ¬ NoPrefix rs rest ∧ (MaxMunch rs rest j w → i = j ∧ u = w) := by
  obtain ⟨hne, hp, ⟨r, hr, hu⟩, hmax, hfirst⟩ := h
  refine ⟨fun hno => hne (hno r (List.mem_of_getElem? hr) u hp hu), ?_⟩
  rintro ⟨hne', hp', ⟨r', hr', hu'⟩, hmax', hfirst'⟩
  have h1 := hmax r' (List.mem_of_getElem? hr') w hp' hu'
  have h2 := hmax' r (List.mem_of_getElem? hr) u hp hu
  have e : u = w := (List.prefix_of_prefix_length_le hp hp' h2).eq_of_length (by omega)
  subst e
  refine ⟨?_, rfl⟩
  rcases Nat.lt_trichotomy i j with hij | hij | hij
  · exact absurd hu (hfirst' i r hij hr)
  · exact hij
  · exact absurd hu' (hfirst j r' hij hr')

/-- non-vacuity: a regular literal containing `\/` is one token -/
example : (V1.lexer isDigit09 "/a\\/b/ ;".toList).scan.map (fun r => r.1.map Token.out) =
    .ok (some (14, "/a\\/b/".toList)) := by decide +kernel

/-! ## C35 -/

section first
open Regex

/-- the first character of every token, by rule -/
theorem v1_first {i : Nat} {r : Regex} {c : Char} {w : Str} (hr : (V1.regexes digit)[i]? = some r)
    (h : r.Lang (c :: w)) :
    (i = 0 ∧ isLowerAZ c = true ∧ V1.ruleRef.Lang (c :: w)) ∨
    (i = 1 ∧ isUpperAZ c = true ∧ V1.tokenRef.Lang (c :: w)) ∨
    (i = 5 ∧ (c :: w = ['ε'] ∨ c :: w = "epsilon".toList)) ∨
    c ∈ [':', '-', '=', ';', '|', '*', '+', '?', '(', ')', '\'', '/', ' ', '\r', '\n', '\t', '\x0c'] := by
  match i, hr with
  | 0, hr =>
    cases hr
    obtain ⟨a, b, e, ⟨d, hd, rfl⟩, hb⟩ := id h
    simp only [List.cons_append, List.nil_append, List.cons.injEq] at e
    rw [← e.1] at hd
    exact Or.inl ⟨rfl, hd, h⟩
  | 1, hr =>
    cases hr
    obtain ⟨a, b, e, ⟨d, hd, rfl⟩, hb⟩ := id h
    simp only [List.cons_append, List.nil_append, List.cons.injEq] at e
    rw [← e.1] at hd
    exact Or.inr (Or.inl ⟨rfl, hd, h⟩)
  | 2, hr =>
    cases hr
    simp only [V1.colon, alts, Lang, lang_lit, lang_str, List.cons.injEq] at h
    right; right; right
    rcases h with ⟨rfl, _⟩ | ⟨rfl, _⟩ | ⟨rfl, _⟩ | ⟨rfl, _⟩ | ⟨rfl, _⟩ | ⟨rfl, _⟩ <;> simp
  | 3, hr => cases hr; simp only [lang_lit, List.cons.injEq] at h; simp [h.1]
  | 4, hr => cases hr; simp only [lang_lit, List.cons.injEq] at h; simp [h.1]
  | 5, hr =>
    cases hr
    simp only [V1.epsilon, alts, Lang, lang_lit, lang_str] at h
    exact Or.inr (Or.inr (Or.inl ⟨rfl, h⟩))
  | 6, hr => cases hr; simp only [lang_lit, List.cons.injEq] at h; simp [h.1]
  | 7, hr => cases hr; simp only [lang_lit, List.cons.injEq] at h; simp [h.1]
  | 8, hr => cases hr; simp only [lang_lit, List.cons.injEq] at h; simp [h.1]
  | 9, hr => cases hr; simp only [lang_lit, List.cons.injEq] at h; simp [h.1]
  | 10, hr => cases hr; simp only [lang_lit, List.cons.injEq] at h; simp [h.1]
  | 11, hr =>
    cases hr
    simp only [V1.stringLiteral, Lang, lang_lit] at h
    obtain ⟨_, _, e, rfl, _⟩ := h
    simp only [List.cons_append, List.cons.injEq] at e
    simp [e.1]
  | 12, hr =>
    cases hr
    simp only [V1.regularLiteral, Lang, lang_lit] at h
    obtain ⟨_, _, e, rfl, _⟩ := h
    simp only [List.cons_append, List.cons.injEq] at e
    simp [e.1]
  | 13, hr =>
    cases hr
    obtain ⟨a, b, e, ⟨d, hd, rfl⟩, hb⟩ := h
    simp only [List.cons_append, List.nil_append, List.cons.injEq] at e
    rw [← e.1] at hd
    simp only [V1.isWhite, Bool.or_eq_true, beq_iff_eq] at hd
    rcases hd with (((rfl | rfl) | rfl) | rfl) | rfl <;> simp
  | n + 14, hr => simp [V1.regexes] at hr

theorem lang_ident {p : Char → Bool} {c : Char} {w : Str} :
    (seq (cls p) (plus (cls isIdent))).Lang (c :: w) ↔
      p c = true ∧ w ≠ [] ∧ ∀ d ∈ w, isIdent d = true := by
  constructor
  · rintro ⟨a, b, e, ⟨d, hd, rfl⟩, a', b', rfl, ⟨d', hd', rfl⟩, hb⟩
    simp only [List.cons_append, List.nil_append, List.cons.injEq] at e
    obtain ⟨rfl, rfl⟩ := e
    refine ⟨hd, by simp, ?_⟩
    intro x hx
    rcases List.mem_cons.1 hx with rfl | hx
    · exact hd'
    · exact mem_star_cls (p := isIdent) hb x hx
  · rintro ⟨hc, hw, hall⟩
    cases w with
    | nil => exact absurd rfl hw
    | cons d w =>
      refine ⟨[c], d :: w, rfl, ⟨c, hc, rfl⟩, [d], w, rfl, ⟨d, hall d (by simp), rfl⟩, ?_⟩
      have hw : ∀ x ∈ w, isIdent x = true := fun x hx => hall x (by simp [hx])
      clear hall hc
      simp only [Lang]
      induction w with
      | nil => exact .nil
      | cons x w ih =>
        exact Star.cons (u := [x]) ⟨x, hw x (by simp), rfl⟩ (ih (by simp) fun y hy => hw y (by simp [hy]))

/-- longest identifier prefix -/
theorem ident_prefix_le {w v x : Str} (hx : ∀ d ∈ x, isIdent d = true)
    (hv : ∀ d v', v = d :: v' → isIdent d = false) (hp : x <+: w ++ v) : x.length ≤ w.length := by
  by_contra hlt
  obtain ⟨y, hy⟩ : w <+: x := List.prefix_of_prefix_length_le (List.prefix_append w v) hp (by omega)
  subst hy
  cases y with
  | nil => simp at hlt
  | cons d y =>
    rw [List.prefix_append_right_inj] at hp
    obtain ⟨z, hz⟩ := hp
    have h1 := hv d (y ++ z) (by rw [← hz]; rfl)
    rw [hx d (by simp)] at h1
    cases h1

theorem lower_not_special {c : Char} (h : isLowerAZ c = true ∨ isUpperAZ c = true) :
    c ∉ [':', '-', '=', ';', '|', '*', '+', '?', '(', ')', '\'', '/', ' ', '\r', '\n', '\t', '\x0c'] := by
  intro hm
  simp only [List.mem_cons, List.not_mem_nil, or_false] at hm
  rcases hm with rfl | rfl | rfl | rfl | rfl | rfl | rfl | rfl | rfl | rfl | rfl | rfl | rfl | rfl |
    rfl | rfl | rfl <;> revert h <;> decide

theorem not_lower_upper {c : Char} (h1 : isLowerAZ c = true) (h2 : isUpperAZ c = true) : False := by
  simp only [isLowerAZ, isUpperAZ, decide_eq_true_eq] at h1 h2
  have : ('a' : Char) ≤ 'Z' := Char.le_trans h1.1 h2.2
  revert this; decide

end first

variable {toks : List Token} {l : Lexer} {rest : Str}

/-- the remainder `l` is about to scan: the hypothesis of the C35 theorems -/
structure V1At (digit : Char → Bool) (input : Str) (toks : List Token) (l : Lexer) (rest : Str) : Prop where
  backslash : digit '\\' = false
  quote : digit '\'' = false
  scans : Scans Lexer.scan (V1.lexer digit input) toks l
  split : input = covered toks ++ rest

/-- **C35** is false of the code, `epsilon`: wherever `epsilon` begins the remaining input, the token
returned is a RULE_REF (type 2), never an EPSILON (type 7). -/
theorem C35_epsilon_is_rule_ref (h : V1At digit input toks l rest) (v : Str)
    (hr : rest = "epsilon".toList ++ v) :
    ∃ tok l', l.scan = .ok (some tok, l') ∧ tok.tokenType = 2 ∧ tok.tokenName = "RULE_REF".toList ∧
      "epsilon".toList <+: tok.text := by
  have hlow : V1.ruleRef.Lang "epsilon".toList := lang_ident.2 (by decide)
  have hpre : "epsilon".toList <+: rest := ⟨v, hr.symm⟩
  rcases C53_maximal_munch h.backslash h.quote toks l h.scans rest h.split (by rw [hr]; simp) with
    ⟨_, hno⟩ | ⟨tok, l', i, hs, ⟨hne, hp, ⟨r, hri, hu⟩, hmax, hfirst⟩, ht, hn⟩
  · exact absurd (hno V1.ruleRef (by simp [V1.regexes]) _ hpre hlow) (by decide)
  · have hlen := hmax V1.ruleRef (by simp [V1.regexes]) _ hpre hlow
    have hpt : "epsilon".toList <+: tok.text := List.prefix_of_prefix_length_le hpre hp hlen
    obtain ⟨w, hw⟩ := hpt
    have hi : i = 0 := by
      rw [← hw] at hu
      rcases v1_first hri hu with ⟨rfl, _⟩ | ⟨rfl, hup, _⟩ | ⟨rfl, he⟩ | hm
      · rfl
      · exact absurd hup (by decide)
      · rcases he with he | he
        · simp at he
        · exfalso
          refine hfirst 0 V1.ruleRef (by omega) rfl ?_
          rw [← hw]
          have he' : "epsilon".toList ++ w = "epsilon".toList ++ [] := he
          have : w = [] := List.append_cancel_left he'
          rw [this]; exact hlow
      · exact absurd hm (by decide)
    subst hi
    refine ⟨tok, l', hs, ht, ?_, w, hw⟩
    have hnn : V1.tokenNames[0 + 2]? = some "RULE_REF".toList := rfl
    rw [hnn] at hn
    exact (Option.some.inj hn).symm

/-- **C35** is false of the code, identifiers: a one-letter identifier is a lexical error. -/
theorem C35_one_letter_identifier_fails (h : V1At digit input toks l rest) (c : Char) (v : Str)
    (hr : rest = c :: v) (hc : isLowerAZ c = true ∨ isUpperAZ c = true)
    (hv : ∀ d v', v = d :: v' → isIdent d = false) : l.scan = .ok (none, l) := by
  rcases C53_maximal_munch h.backslash h.quote toks l h.scans rest h.split (by rw [hr]; simp) with
    ⟨hs, _⟩ | ⟨tok, l', i, hs, ⟨hne, hp, ⟨r, hri, hu⟩, hmax, hfirst⟩, ht, hn⟩
  · exact hs
  · exfalso
    cases htx : tok.text with
    | nil => exact hne htx
    | cons d w =>
      rw [htx] at hu hp
      rw [hr, List.cons_prefix_cons] at hp
      obtain ⟨rfl, hp⟩ := hp
      have noid : ∀ {p : Char → Bool},
          ¬ (Regex.seq (Regex.cls p) (Regex.plus (Regex.cls isIdent))).Lang (d :: w) := by
        intro p hl
        obtain ⟨_, hw, hall⟩ := lang_ident.1 hl
        have := ident_prefix_le (w := []) hall hv (by simpa using hp)
        exact hw (List.length_eq_zero_iff.1 (by simpa using this))
      rcases v1_first hri hu with ⟨_, _, hl⟩ | ⟨_, _, hl⟩ | ⟨_, he⟩ | hm
      · exact noid hl
      · exact noid hl
      · rcases he with he | he
        · simp only [List.cons.injEq] at he
          obtain ⟨rfl, _⟩ := he
          revert hc; decide
        · refine noid (p := isLowerAZ) ?_
          rw [he]
          exact lang_ident.2 (by decide)
      · exact lower_not_special hc hm

/-- **C35**, what holds: an identifier of at least two characters is one token, RULE_REF or TOKEN_REF by
the case of its first letter, and `ε` is an EPSILON.  Missing (false): the keyword `epsilon` and
one-letter identifiers. -/
theorem C35_identifiers_partial (h : V1At digit input toks l rest) :
    (∀ c w v, rest = c :: w ++ v → w ≠ [] → (∀ d ∈ w, isIdent d = true) →
      (∀ d v', v = d :: v' → isIdent d = false) →
      (isLowerAZ c = true → ∃ tok l', l.scan = .ok (some tok, l') ∧ tok.tokenType = 2 ∧ tok.text = c :: w) ∧
      (isUpperAZ c = true → ∃ tok l', l.scan = .ok (some tok, l') ∧ tok.tokenType = 3 ∧ tok.text = c :: w)) ∧
    (∀ v, rest = 'ε' :: v → ∃ tok l', l.scan = .ok (some tok, l') ∧ tok.tokenType = 7 ∧ tok.text = ['ε']) := by
  constructor
  · intro c w v hr hw hall hv
    have hpre : c :: w <+: rest := ⟨v, hr.symm⟩
    -- the text is an identifier by one of the two identifier rules; it is then `c :: w`
    have key : ∀ (p : Char → Bool) (q : Regex), q = Regex.seq (Regex.cls p) (Regex.plus (Regex.cls isIdent)) →
        q ∈ V1.regexes digit → p c = true → (isLowerAZ c = true ∨ isUpperAZ c = true) →
        ∃ tok l' i r, l.scan = .ok (some tok, l') ∧ tok.text = c :: w ∧ tok.tokenType = i + 2 ∧
          (V1.regexes digit)[i]? = some r ∧ r.Lang (c :: w) ∧
          (∀ (j : Nat) (r : Regex), j < i → (V1.regexes digit)[j]? = some r → ¬ r.Lang (c :: w)) := by
      rintro p q rfl hq hpc hc
      have hl : (Regex.seq (Regex.cls p) (Regex.plus (Regex.cls isIdent))).Lang (c :: w) :=
        lang_ident.2 ⟨hpc, hw, hall⟩
      rcases C53_maximal_munch h.backslash h.quote toks l h.scans rest h.split (by rw [hr]; simp) with
        ⟨_, hno⟩ | ⟨tok, l', i, hs, ⟨hne, hp, ⟨r, hri, hu⟩, hmax, hfirst⟩, ht, hn⟩
      · exact absurd (hno _ hq _ hpre hl) (by simp)
      · have hlen := hmax _ hq _ hpre hl
        obtain ⟨x, hx⟩ := List.prefix_of_prefix_length_le hpre hp hlen
        have hid : ∀ d ∈ w ++ x, isIdent d = true := by
          rw [← hx] at hu
          rcases v1_first hri hu with ⟨_, _, hl⟩ | ⟨_, _, hl⟩ | ⟨_, he⟩ | hm
          · exact (lang_ident.1 hl).2.2
          · exact (lang_ident.1 hl).2.2
          · rcases he with he | he
            · simp only [List.cons.injEq, List.append_eq, List.append_eq_nil_iff] at he
              exact absurd he.2.1 hw
            · rw [show ("epsilon".toList) = 'e' :: "psilon".toList from rfl] at he
              simp only [List.cons.injEq, List.append_eq] at he
              rw [he.2]; decide
          · exact absurd hm (lower_not_special hc)
        have hlx : (w ++ x).length ≤ w.length := by
          refine ident_prefix_le hid hv ?_
          rw [← hx, hr, List.cons_append, List.cons_append, List.cons_prefix_cons] at hp
          exact hp.2
        have hx0 : x = [] := by
          rw [List.length_append] at hlx
          exact List.length_eq_zero_iff.1 (by omega)
        rw [hx0, List.append_nil] at hx
        refine ⟨tok, l', i, r, hs, hx.symm, ht, hri, by rw [hx]; exact hu, ?_⟩
        rw [hx]; exact hfirst
    constructor
    · intro hc
      obtain ⟨tok, l', i, r, hs, htx, hty, hri, hu, hfirst⟩ :=
        key isLowerAZ V1.ruleRef rfl (by simp [V1.regexes]) hc (Or.inl hc)
      refine ⟨tok, l', hs, ?_, htx⟩
      rcases Nat.eq_zero_or_pos i with rfl | hi
      · exact hty
      · exact absurd (lang_ident.2 ⟨hc, hw, hall⟩) (hfirst 0 V1.ruleRef hi rfl)
    · intro hc
      obtain ⟨tok, l', i, r, hs, htx, hty, hri, hu, hfirst⟩ :=
        key isUpperAZ V1.tokenRef rfl (by simp [V1.regexes]) hc (Or.inr hc)
      refine ⟨tok, l', hs, ?_, htx⟩
      rcases v1_first hri hu with ⟨_, hl, _⟩ | ⟨rfl, _, _⟩ | ⟨_, he⟩ | hm
      · exact absurd (not_lower_upper hl hc) id
      · exact hty
      · rcases he with he | he
        · simp only [List.cons.injEq] at he
          exact absurd he.2 hw
        · rw [show ("epsilon".toList) = 'e' :: "psilon".toList from rfl] at he
          simp only [List.cons.injEq] at he
          rw [he.1] at hc
          exact absurd hc (by decide)
      · exact absurd hm (lower_not_special (Or.inr hc))
  · intro v hr
    have hpre : ['ε'] <+: rest := ⟨v, hr.symm⟩
    have hl : V1.epsilon.Lang ['ε'] := Or.inl ⟨'ε', rfl, rfl⟩
    rcases C53_maximal_munch h.backslash h.quote toks l h.scans rest h.split (by rw [hr]; simp) with
      ⟨_, hno⟩ | ⟨tok, l', i, hs, ⟨hne, hp, ⟨r, hri, hu⟩, hmax, hfirst⟩, ht, hn⟩
    · exact absurd (hno V1.epsilon (by simp [V1.regexes]) _ hpre hl) (by simp)
    · cases htx : tok.text with
      | nil => exact absurd htx hne
      | cons d w =>
        rw [htx] at hu hp
        rw [hr, List.cons_prefix_cons] at hp
        obtain ⟨rfl, hp⟩ := hp
        rcases v1_first hri hu with ⟨_, hl, _⟩ | ⟨_, hl, _⟩ | ⟨rfl, he⟩ | hm
        · exact absurd hl (by decide)
        · exact absurd hl (by decide)
        · rcases he with he | he
          · exact ⟨tok, l', hs, ht, by rw [htx, he]⟩
          · simp at he
        · exact absurd hm (by decide)

/-- non-vacuity of the C35 hypotheses: the start of the input, and after one token -/
example : V1At isDigit09 "epsilon".toList [] (V1.lexer isDigit09 "epsilon".toList) "epsilon".toList :=
  ⟨by decide, by decide, .nil _, by decide⟩

example : ∃ toks l, V1At isDigit09 ":ab".toList toks l "ab".toList := by
  have hrun : ((V1.lexer isDigit09 ":ab".toList).scan.map fun r => r.1.map Token.out) =
      .ok (some (4, ":".toList)) := by decide +kernel
  cases hr : (V1.lexer isDigit09 ":ab".toList).scan with
  | error e => rw [hr] at hrun; cases hrun
  | ok r =>
    obtain ⟨o, l⟩ := r
    rw [hr] at hrun
    cases o with
    | none => simp [Except.map] at hrun
    | some tok =>
      simp only [Except.map, Option.map_some, Except.ok.injEq, Option.some.injEq, Token.out,
        Prod.mk.injEq] at hrun
      refine ⟨[tok], l, by decide, by decide, (Scans.nil _).snoc hr, ?_⟩
      simp [covered, hrun.1, hrun.2]

end Syntaxis
