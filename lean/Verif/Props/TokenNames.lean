import Verif.Spec.TokenNames
import Verif.Props.LexerV1
import Verif.Props.Comments

/-! # C87: number, name and text of the tokens of grammar files -/

namespace Syntaxis

open Regex

variable {digit : Char → Bool} {input : Str}

theorem star_cls_iff {p : Char → Bool} {u : Str} : Star (cls p).Lang u ↔ ∀ c ∈ u, p c = true := by
  constructor
  · intro h
    exact mem_star_cls (p := p) (by simpa only [Lang] using h)
  · intro h
    induction u with
    | nil => exact .nil
    | cons c u ih => exact .cons (u := [c]) ⟨c, h c (by simp), rfl⟩ (ih fun d hd => h d (by simp [hd]))

theorem star_flatten {L : Str → Prop} {u : Str} : Star L u ↔ ∃ us : List Str, u = us.flatten ∧ ∀ x ∈ us, L x := by
  constructor
  · intro h
    induction h with
    | nil => exact ⟨[], rfl, by simp⟩
    | @cons u v hu _ ih =>
      obtain ⟨us, rfl, h⟩ := ih
      exact ⟨u :: us, rfl, by simpa using ⟨hu, h⟩⟩
  · rintro ⟨us, rfl, h⟩
    induction us with
    | nil => exact .nil
    | cons x us ih => exact .cons (h x (by simp)) (ih fun y hy => h y (by simp [hy]))

theorem plus_cls_iff {p : Char → Bool} {u : Str} : (plus (cls p)).Lang u ↔ u ≠ [] ∧ ∀ c ∈ u, p c = true := by
  simp only [plus, Lang]
  constructor
  · rintro ⟨a, b, rfl, ⟨c, hc, rfl⟩, hb⟩
    have := star_cls_iff.1 hb
    simpa using ⟨hc, this⟩
  · rintro ⟨hne, h⟩
    cases u with
    | nil => exact absurd rfl hne
    | cons c u =>
      exact ⟨[c], u, rfl, ⟨c, h c (by simp), rfl⟩, star_cls_iff.2 fun d hd => h d (by simp [hd])⟩

theorem isIdent_iff (d : Char) : isIdent d = true ↔
    ('a' ≤ d ∧ d ≤ 'z') ∨ ('A' ≤ d ∧ d ≤ 'Z') ∨ ('0' ≤ d ∧ d ≤ '9') ∨ d = '_' := by
  simp [isIdent, isLowerAZ, isUpperAZ, isDigit09, or_assoc]

theorem identifier_iff {p : Char → Bool} {P : Char → Prop} (hp : ∀ c, p c = true ↔ P c) (u : Str) :
    (seq (cls p) (plus (cls isIdent))).Lang u ↔ IsIdentifier P u := by
  rw [Lang]
  simp only [plus_cls_iff]
  constructor
  · rintro ⟨a, b, rfl, ⟨c, hc, rfl⟩, hne, hb⟩
    exact ⟨c, b, rfl, (hp c).1 hc, hne, fun d hd => (isIdent_iff d).1 (hb d hd)⟩
  · rintro ⟨c, w, rfl, hc, hne, hw⟩
    exact ⟨[c], w, rfl, ⟨c, (hp c).2 hc, rfl⟩, hne, fun d hd => (isIdent_iff d).2 (hw d hd)⟩

theorem ruleRef_iff (u : Str) : V1.ruleRef.Lang u ↔ IsIdentifier (fun c => 'a' ≤ c ∧ c ≤ 'z') u :=
  identifier_iff (fun c => by simp [isLowerAZ]) u

theorem tokenRef_iff (u : Str) : V1.tokenRef.Lang u ↔ IsIdentifier (fun c => 'A' ≤ c ∧ c ≤ 'Z') u :=
  identifier_iff (fun c => by simp [isUpperAZ]) u

theorem colon_iff (u : Str) : V1.colon.Lang u ↔ IsOneOf arrows u := by
  simp [V1.colon, alts, Lang, lang_lit, lang_str, IsOneOf, arrows]

theorem epsilon_iff (u : Str) : V1.epsilon.Lang u ↔ IsOneOf [['ε'], ['e', 'p', 's', 'i', 'l', 'o', 'n']] u := by
  simp [V1.epsilon, alts, Lang, lang_lit, lang_str, IsOneOf]

theorem lit_iff (c : Char) (u : Str) : (lit c).Lang u ↔ IsOneOf [[c]] u := by
  rw [lang_lit, IsOneOf, List.mem_singleton]

theorem escape_iff (u : Str) : V1.stringEscape.Lang u ↔ IsEscape u := by
  simp only [V1.stringEscape, alts, Lang, lang_str, opt, lang_lit, plus_cls_iff]
  constructor
  · rintro (rfl | rfl | rfl | rfl | rfl | rfl | rfl | rfl | rfl | h)
    all_goals try exact .inl ⟨_, by decide, rfl⟩
    obtain ⟨_, _, rfl, rfl, p, _, rfl, hp, h, _, rfl, ⟨h1, h2⟩, rfl⟩ := h
    refine .inr ⟨p, h, by simp, by tauto, h1, fun d hd => ?_⟩
    simpa [isDigit09] using h2 d hd
  · rintro (⟨c, hc, rfl⟩ | ⟨p, h, rfl, hp, h1, h2⟩)
    · simp only [List.mem_cons, List.not_mem_nil, or_false] at hc
      rcases hc with rfl | rfl | rfl | rfl | rfl | rfl | rfl | rfl | rfl <;> simp
    · iterate 9 right
      refine ⟨_, p ++ (h ++ ['}']), by simp, rfl, p, h ++ ['}'], rfl, by tauto, h, _, rfl, ⟨h1, fun d hd => ?_⟩, rfl⟩
      simpa [isDigit09] using h2 d hd

/-- the two orders of the items of string literals -/
theorem string_iff {items : List Regex}
    (h : ∀ x, (alts items).Lang x ↔ (cls fun c => !(V1.stringExcluded c || digit c)).Lang x ∨ V1.stringEscape.Lang x ∨
      (cls digit).Lang x) (u : Str) :
    (seq (lit '\'') (seq (star (alts items)) (lit '\''))).Lang u ↔ IsStringLiteral digit u := by
  have hx : ∀ x, (alts items).Lang x ↔ IsEscape x ∨ ∃ c, x = [c] ∧
      (digit c = true ∨ c ∉ ['\x07', '\n', '\r', '\t', '\x0c', '\x0b', '\\', '\'']) := by
    intro x
    rw [h, escape_iff]
    simp only [Lang]
    constructor
    · rintro (⟨c, hc, rfl⟩ | he | ⟨c, hc, rfl⟩)
      · refine .inr ⟨c, rfl, .inr ?_⟩
        simp [V1.stringExcluded] at hc
        simp [hc]
      · exact .inl he
      · exact .inr ⟨c, rfl, .inl hc⟩
    · rintro (he | ⟨c, rfl, hc⟩)
      · exact .inr (.inl he)
      · cases hd : digit c with
        | true => exact .inr (.inr ⟨c, hd, rfl⟩)
        | false =>
          refine .inl ⟨c, ?_, rfl⟩
          simp [hd] at hc
          simp [V1.stringExcluded, hd, hc]
  simp only [Lang, lang_lit, star_flatten, hx]
  constructor
  · rintro ⟨_, _, rfl, rfl, _, _, rfl, ⟨us, rfl, hus⟩, rfl⟩
    exact ⟨us, rfl, hus⟩
  · rintro ⟨us, rfl, hus⟩
    exact ⟨_, us.flatten ++ ['\''], rfl, rfl, _, _, rfl, ⟨us, rfl, hus⟩, rfl⟩

theorem v1_string_iff (u : Str) : (V1.stringLiteral digit).Lang u ↔ IsStringLiteral digit u :=
  string_iff (fun x => by simp only [alts, Lang]) u

theorem old_string_iff (u : Str) : (Old.stringLiteral digit).Lang u ↔ IsStringLiteral digit u :=
  string_iff (fun x => by
    simp only [alts, Lang]
    exact ⟨fun h => h.elim (fun h => .inr (.inl h)) fun h => h.elim (fun h => .inr (.inr h)) .inl,
      fun h => h.elim (fun h => .inr (.inr h)) fun h => h.elim .inl fun h => .inr (.inl h)⟩) u

theorem regular_iff (u : Str) : V1.regularLiteral.Lang u ↔ IsRegularLiteral u := by
  have hx : ∀ x, (alt (str ['\\', '/']) (cls fun c => c != '/')).Lang x ↔ x = ['\\', '/'] ∨ ∃ c, c ≠ '/' ∧ x = [c] := by
    intro x
    simp [Lang, lang_str]
  simp only [V1.regularLiteral, plus]
  rw [Lang]
  simp only [lang_lit]
  constructor
  · rintro ⟨_, _, rfl, rfl, a, _, rfl, ⟨b, c, rfl, hb, hc⟩, hd⟩
    rw [lang_lit] at hd
    subst hd
    rw [hx] at hb
    simp only [Lang] at hc
    obtain ⟨us, rfl, hus⟩ := star_flatten.1 hc
    refine ⟨b :: us, by simp, by simp, fun y hy => ?_⟩
    rcases List.mem_cons.1 hy with rfl | hy
    · exact hb
    · exact (hx y).1 (hus y hy)
  · rintro ⟨us, hne, rfl, hus⟩
    cases us with
    | nil => exact absurd rfl hne
    | cons b us =>
      refine ⟨_, b ++ us.flatten ++ ['/'], by simp, rfl, b ++ us.flatten, ['/'], rfl,
        ⟨b, us.flatten, rfl, (hx b).2 (hus b (by simp)), ?_⟩, (lang_lit _ _).2 rfl⟩
      rw [Lang]
      exact star_flatten.2 ⟨us, rfl, fun y hy => (hx y).2 (hus y (by simp [hy]))⟩

theorem blank_iff {p : Char → Bool} {cs : List Char} (hp : ∀ c, p c = true ↔ c ∈ cs) (u : Str) :
    (plus (cls p)).Lang u ↔ IsBlank cs u := by
  rw [plus_cls_iff, IsBlank]
  simp only [hp]

/-- the languages of the rules of the v1 lexer are the shapes of its kinds -/
theorem v1_kind_shape (i : Nat) (r : Regex) (hr : (V1.regexes digit)[i]? = some r) :
    ∃ k, (V1.kinds digit)[i]? = some k ∧ k.number = i + 2 ∧ V1.tokenNames[i + 2]? = some k.name ∧
      ∀ u, r.Lang u ↔ k.Shape u := by
  match i, hr with
  | 0, hr => cases hr; exact ⟨_, rfl, rfl, rfl, ruleRef_iff⟩
  | 1, hr => cases hr; exact ⟨_, rfl, rfl, rfl, tokenRef_iff⟩
  | 2, hr => cases hr; exact ⟨_, rfl, rfl, rfl, colon_iff⟩
  | 3, hr => cases hr; exact ⟨_, rfl, rfl, rfl, lit_iff _⟩
  | 4, hr => cases hr; exact ⟨_, rfl, rfl, rfl, lit_iff _⟩
  | 5, hr => cases hr; exact ⟨_, rfl, rfl, rfl, epsilon_iff⟩
  | 6, hr => cases hr; exact ⟨_, rfl, rfl, rfl, lit_iff _⟩
  | 7, hr => cases hr; exact ⟨_, rfl, rfl, rfl, lit_iff _⟩
  | 8, hr => cases hr; exact ⟨_, rfl, rfl, rfl, lit_iff _⟩
  | 9, hr => cases hr; exact ⟨_, rfl, rfl, rfl, lit_iff _⟩
  | 10, hr => cases hr; exact ⟨_, rfl, rfl, rfl, lit_iff _⟩
  | 11, hr => cases hr; exact ⟨_, rfl, rfl, rfl, v1_string_iff⟩
  | 12, hr => cases hr; exact ⟨_, rfl, rfl, rfl, regular_iff⟩
  | 13, hr => cases hr; exact ⟨_, rfl, rfl, rfl, blank_iff fun c => by simp [V1.isWhite, or_assoc]⟩
  | i + 14, hr => simp [V1.regexes] at hr

/-- every token before the end token is won by a rule -/
theorem tokensOf_won {ms : List Matcher} {names : List Str} {done : Str} {toks : List Token}
    (h : TokensOf ms names input done toks) : ∀ t ∈ toks, ∃ i rest, Wins ms (t.text ++ rest) i (byteLen t.text) ∧
      t.tokenType = i + 2 ∧ names[i + 2]? = some t.tokenName := by
  induction h with
  | nil => simp
  | @snoc done u v toks i name _ _ hw hn ih =>
    intro t ht
    rcases List.mem_append.1 ht with ht | ht
    · exact ih t ht
    · rw [List.mem_singleton] at ht
      subst ht
      exact ⟨i, v, hw, rfl, hn⟩

theorem wins_lang {rs : List Regex} {u rest : Str} {i : Nat} (h : Wins (rs.map Regex.find) (u ++ rest) i (byteLen u)) :
    ∃ r, rs[i]? = some r ∧ r.find (u ++ rest) = some (byteLen u) ∧ r.Lang u := by
  obtain ⟨_, ⟨m, hm, hmn⟩, _⟩ := h
  rw [List.getElem?_map, Option.map_eq_some_iff] at hm
  obtain ⟨r, hr, rfl⟩ := hm
  obtain ⟨u', v', e', hu', hl⟩ := Regex.find_some hmn
  obtain ⟨rfl, rfl⟩ := append_inj_byteLen e' hl
  exact ⟨r, hr, hmn, hu'⟩

/-- **C87** Number, name and text of every token of the v1 lexer agree, for every input and every history. -/
theorem C87_v1 {toks : List Token} {l : Lexer} (h : Scans Lexer.scan (V1.lexer digit input) toks l) :
    ∀ t ∈ toks, (t.tokenType = 1 ∧ t.tokenName = "_STOP".toList) ∨ ∃ k ∈ V1.kinds digit, k.Fits t := by
  have key : ∀ {done : Str} {ts : List Token}, TokensOf ((V1.regexes digit).map Regex.find) V1.tokenNames input done ts →
      ∀ t ∈ ts, ∃ k ∈ V1.kinds digit, k.Fits t := by
    intro done ts ht t hm
    obtain ⟨i, rest, hw, h1, h2⟩ := tokensOf_won ht t hm
    obtain ⟨r, hr, _, hL⟩ := wins_lang hw
    obtain ⟨k, hk, h3, h4, h5⟩ := v1_kind_shape i r hr
    rw [h2] at h4
    exact ⟨k, List.mem_of_getElem? hk, h1.trans h3.symm, Option.some.inj h4, (h5 _).1 hL⟩
  rcases scans_cases (v1_ok digit) h with ⟨done, rest, ht, _⟩ | ⟨body, hb, rfl, _, _⟩
  · exact fun t hm => .inr (key ht t hm)
  · intro t hm
    rcases List.mem_append.1 hm with hm | hm
    · exact .inr (key hb t hm)
    · rw [List.mem_singleton] at hm
      subst hm
      exact .inl ⟨rfl, rfl⟩

/-- the kind that a first character leads to; 7 and 2 share the letter of `epsilon` -/
def kindOfHead (c : Char) : Nat :=
  if isLowerAZ c then 2 else if isUpperAZ c then 3
  else if c = ':' ∨ c = '-' ∨ c = '=' then 4 else if c = ';' then 5 else if c = '|' then 6 else if c = 'ε' then 7
  else if c = '*' then 8 else if c = '+' then 9 else if c = '?' then 10 else if c = '(' then 11 else if c = ')' then 12
  else if c = '\'' then 13 else if c = '/' then 14 else 15

theorem kindOfHead_eq {k : Kind} (hk : k ∈ V1.kinds digit) {u : Str} (h : k.Shape u)
    (he : u ≠ ['e', 'p', 's', 'i', 'l', 'o', 'n']) : ∃ c w, u = c :: w ∧ kindOfHead c = k.number := by
  simp only [V1.kinds, List.mem_cons, List.not_mem_nil, or_false] at hk
  rcases hk with rfl | rfl | rfl | rfl | rfl | rfl | rfl | rfl | rfl | rfl | rfl | rfl | rfl | rfl
  · obtain ⟨c, w, rfl, hc, _⟩ := h
    exact ⟨c, w, rfl, by rw [kindOfHead, if_pos (by simpa [isLowerAZ] using hc)]⟩
  · obtain ⟨c, w, rfl, hc, _⟩ := h
    refine ⟨c, w, rfl, ?_⟩
    have : isLowerAZ c = false := by
      have h1 : 'A'.toNat ≤ c.toNat ∧ c.toNat ≤ 'Z'.toNat := hc
      have h2 : ¬ ('a'.toNat ≤ c.toNat) := by
        simp only [show 'Z'.toNat = 90 from rfl, show 'a'.toNat = 97 from rfl] at h1 ⊢
        omega
      rw [isLowerAZ, decide_eq_false_iff_not]
      exact fun h => h2 h.1
    rw [kindOfHead, this, if_neg (by simp), if_pos (by simpa [isUpperAZ] using hc)]
  all_goals first
    | (simp only [IsOneOf, arrows, List.mem_cons, List.not_mem_nil, or_false] at h
       rcases h with rfl | rfl | rfl | rfl | rfl | rfl <;> exact ⟨_, _, rfl, by decide⟩)
    | (simp only [IsOneOf, List.mem_cons, List.not_mem_nil, or_false] at h
       rcases h with rfl | rfl
       · exact ⟨_, _, rfl, by decide⟩
       · exact absurd rfl he)
    | skip
  · obtain ⟨us, rfl, _⟩ := h
    exact ⟨_, _, rfl, show kindOfHead '\'' = 13 by decide⟩
  · obtain ⟨us, _, rfl, _⟩ := h
    exact ⟨_, _, rfl, by decide⟩
  · obtain ⟨hne, h⟩ := h
    cases u with
    | nil => exact absurd rfl hne
    | cons c w =>
      refine ⟨c, w, rfl, ?_⟩
      have := h c (by simp)
      simp only [List.mem_cons, List.not_mem_nil, or_false] at this
      rcases this with rfl | rfl | rfl | rfl | rfl <;> decide

theorem kinds_number {k k' : Kind} (h : k ∈ V1.kinds digit) (h' : k' ∈ V1.kinds digit) (e : k.number = k'.number) :
    k = k' := by
  simp only [V1.kinds, List.mem_cons, List.not_mem_nil, or_false] at h h'
  rcases h with rfl | rfl | rfl | rfl | rfl | rfl | rfl | rfl | rfl | rfl | rfl | rfl | rfl | rfl <;>
    rcases h' with rfl | rfl | rfl | rfl | rfl | rfl | rfl | rfl | rfl | rfl | rfl | rfl | rfl | rfl <;>
    first | rfl | exact absurd e (by simp)

/-- **C87** Conversely every text with the shape of a kind, written alone, is scanned as one token of this kind; only
`epsilon` is a `RULE_REF`. -/
theorem C87_v1_whole (hb : digit '\\' = false) (hq : digit '\'' = false) {k : Kind} (hk : k ∈ V1.kinds digit) {u : Str}
    (h : k.Shape u) (he : u ≠ ['e', 'p', 's', 'i', 'l', 'o', 'n']) :
    ∃ t l, (V1.lexer digit u).scan = .ok (some t, l) ∧ k.Fits t ∧ t.text = u := by
  obtain ⟨c, w, hcw, hkind⟩ := kindOfHead_eq hk h he
  have hne : u ≠ [] := by rw [hcw]; simp
  have hlen : (V1.kinds digit).length = (V1.regexes digit).length := rfl
  obtain ⟨j, hj⟩ := List.getElem?_of_mem hk
  have hjl : j < (V1.regexes digit).length := by
    rw [← hlen]
    exact (List.getElem?_eq_some_iff.1 hj).1
  obtain ⟨k', hk', _, _, h5⟩ := v1_kind_shape (digit := digit) j _ (List.getElem?_eq_getElem hjl)
  rw [hj] at hk'
  cases hk'
  rcases C53_maximal_munch hb hq [] (V1.lexer digit u) (.nil _) u rfl hne with ⟨_, hno⟩ | ⟨t, l, i, hs, hm, ht, hn⟩
  · exact absurd (hno _ (List.getElem_mem hjl) u (List.prefix_refl _) ((h5 u).2 h)) hne
  · obtain ⟨_, hp, ⟨r, hr, hL⟩, hmax, _⟩ := hm
    have h6 := hmax _ (List.getElem_mem hjl) u (List.prefix_refl _) ((h5 u).2 h)
    have h7 : t.text = u := hp.eq_of_length (Nat.le_antisymm hp.length_le h6)
    obtain ⟨k2, hk2, h8, h9, h10⟩ := v1_kind_shape i r hr
    rw [h7] at hL
    obtain ⟨c', w', e', h11⟩ := kindOfHead_eq (List.mem_of_getElem? hk2) ((h10 u).1 hL) he
    rw [hcw] at e'
    cases e'
    have := kinds_number (List.mem_of_getElem? hk2) hk (h11.symm.trans hkind)
    subst this
    rw [hn] at h9
    exact ⟨t, l, hs, ⟨ht.trans h8.symm, Option.some.inj h9, by rw [h7]; exact h⟩, h7⟩

/-- the rules of the first lexer, apart from the two that are reluctant -/
theorem old_kind_shape (i : Nat) (r : Regex) (hr : (Old.regexes digit)[i]? = some r) (u rest : Str)
    (hf : r.find (u ++ rest) = some (byteLen u)) (hL : r.Lang u) :
    ∃ k, (Old.kinds digit)[i]? = some k ∧ k.number = i + 2 ∧ (i ≠ 11 → Old.tokenNames[i + 2]? = some k.name) ∧
      k.Shape u := by
  match i, hr with
  | 0, hr => cases hr; exact ⟨_, rfl, rfl, fun _ => rfl, lineComment_head hL⟩
  | 1, hr =>
    cases hr
    refine ⟨_, rfl, rfl, fun _ => rfl, ?_⟩
    obtain ⟨t, rfl⟩ := blockComment_head hL
    refine ⟨t, rfl, ?_⟩
    -- the first `*/` behind the beginning
    have hfirst : ∀ s : Str, (∃ p q, s = p ++ '*' :: '/' :: q) →
        ∃ p q, s = p ++ '*' :: '/' :: q ∧ ∀ p' q', p ++ ['*', '/'] = p' ++ '*' :: '/' :: q' → q' = [] := by
      intro s
      induction s with
      | nil => rintro ⟨p, q, e⟩; simp at e
      | cons c s ih =>
        rintro ⟨p, q, e⟩
        by_cases hc : ∃ q, c :: s = '*' :: '/' :: q
        · obtain ⟨q, e⟩ := hc
          refine ⟨[], q, e, fun p' q' e' => ?_⟩
          have := congrArg List.length e'
          simp at this
          exact List.length_eq_zero_iff.1 (by omega)
        · cases p with
          | nil => exact absurd ⟨q, e⟩ hc
          | cons d p =>
            simp only [List.cons_append, List.cons.injEq] at e
            obtain ⟨rfl, e⟩ := e
            obtain ⟨p1, q1, e1, h1⟩ := ih ⟨p, q, e⟩
            refine ⟨c :: p1, q1, by rw [e1]; rfl, fun p' q' e' => ?_⟩
            cases p' with
            | nil =>
              exfalso
              simp only [List.cons_append, List.nil_append, List.cons.injEq] at e'
              refine hc ?_
              rw [e1, e'.1]
              cases p1 with
              | nil => simp at e'
              | cons x p1 =>
                simp only [List.cons_append, List.cons.injEq] at e'
                exact ⟨p1 ++ '*' :: '/' :: q1, by rw [e'.2.1]; rfl⟩
            | cons x p' =>
              simp only [List.cons_append, List.cons.injEq] at e'
              exact h1 p' q' e'.2
    obtain ⟨p, q, e, hp⟩ := hfirst (t ++ ['*', '/']) ⟨t, [], rfl⟩
    have h1 : IsBlockComment ('/' :: '*' :: (p ++ ['*', '/'])) := ⟨p, rfl, hp⟩
    have h2 := find_blockComment (v := q ++ rest) h1
    have h3 : '/' :: '*' :: (p ++ ['*', '/']) ++ (q ++ rest) = '/' :: '*' :: (t ++ ['*', '/']) ++ rest := by
      rw [e]; simp
    rw [h3, hf] at h2
    have h4 := Option.some.inj h2
    rw [e] at h4
    have h5 : byteLen q = 0 := by
      simp only [byteLen, byteLen_append] at h4
      omega
    rw [byteLen_eq_zero] at h5
    subst h5
    rw [e]
    exact hp
  | 2, hr => cases hr; exact ⟨_, rfl, rfl, fun _ => rfl, (blank_iff (fun c => by simp [or_assoc]) u).1 hL⟩
  | 3, hr =>
    cases hr
    refine ⟨_, rfl, rfl, fun _ => rfl, ?_⟩
    rw [Old.fragment, lang_str] at hL
    rw [hL]
    exact List.mem_singleton.2 (by decide +kernel)
  | 4, hr => cases hr; exact ⟨_, rfl, rfl, fun _ => rfl, (tokenRef_iff u).1 hL⟩
  | 5, hr => cases hr; exact ⟨_, rfl, rfl, fun _ => rfl, (ruleRef_iff u).1 hL⟩
  | 6, hr => cases hr; exact ⟨_, rfl, rfl, fun _ => rfl, (colon_iff u).1 hL⟩
  | 7, hr => cases hr; exact ⟨_, rfl, rfl, fun _ => rfl, (lit_iff _ u).1 hL⟩
  | 8, hr => cases hr; exact ⟨_, rfl, rfl, fun _ => rfl, (lit_iff _ u).1 hL⟩
  | 9, hr => cases hr; exact ⟨_, rfl, rfl, fun _ => rfl, (lit_iff _ u).1 hL⟩
  | 10, hr => cases hr; exact ⟨_, rfl, rfl, fun _ => rfl, (lit_iff _ u).1 hL⟩
  | 11, hr => cases hr; exact ⟨_, rfl, rfl, fun h => absurd rfl h, (lit_iff _ u).1 hL⟩
  | 12, hr => cases hr; exact ⟨_, rfl, rfl, fun _ => rfl, (lit_iff _ u).1 hL⟩
  | 13, hr => cases hr; exact ⟨_, rfl, rfl, fun _ => rfl, (lit_iff _ u).1 hL⟩
  | 14, hr => cases hr; exact ⟨_, rfl, rfl, fun _ => rfl, (lit_iff _ u).1 hL⟩
  | 15, hr => cases hr; exact ⟨_, rfl, rfl, fun _ => rfl, (lit_iff _ u).1 hL⟩
  | 16, hr => cases hr; exact ⟨_, rfl, rfl, fun _ => rfl, (lit_iff _ u).1 hL⟩
  | 17, hr => cases hr; exact ⟨_, rfl, rfl, fun _ => rfl, (old_string_iff u).1 hL⟩
  | 18, hr => cases hr; exact ⟨_, rfl, rfl, fun _ => rfl, List.mem_singleton.2 ((lang_str _ u).1 hL)⟩
  | 19, hr => cases hr; exact ⟨_, rfl, rfl, fun _ => rfl, (regular_iff u).1 hL⟩
  | 20, hr => cases hr; exact ⟨_, rfl, rfl, fun _ => rfl, (epsilon_iff u).1 hL⟩
  | i + 21, hr => simp [Old.regexes] at hr

/-- **C87** For the first lexer number and text agree for every token, and the name too unless it is a question mark.
Missing: the name of the question mark. -/
theorem C87_old_partial {toks : List Token} {l : Lexer} (h : Scans Lexer.scanOld (Old.lexer digit input) toks l) :
    ∀ t ∈ toks, ∃ k ∈ Old.kinds digit, t.tokenType = k.number ∧ k.Shape t.text ∧
      (t.tokenType ≠ 13 → k.Fits t) := by
  obtain ⟨done, rest, ht, _⟩ := scansOld_cases (old_ok digit) h
  intro t hm
  obtain ⟨i, rest, hw, h1, h2⟩ := tokensOf_won ht t hm
  obtain ⟨r, hr, hf, hL⟩ := wins_lang hw
  obtain ⟨k, hk, h3, h4, h5⟩ := old_kind_shape i r hr _ _ hf hL
  refine ⟨k, List.mem_of_getElem? hk, h1.trans h3.symm, h5, fun hne => ⟨h1.trans h3.symm, ?_, h5⟩⟩
  have := h4 (by omega)
  rw [h2] at this
  exact Option.some.inj this

/-- **C87** Every question mark has the name `QUEStION` with a small letter in the first lexer, which is the name of no
kind. -/
theorem C87_question_name {toks : List Token} {l : Lexer} (h : Scans Lexer.scanOld (Old.lexer digit input) toks l) :
    (∀ t ∈ toks, t.tokenType = 13 → t.tokenName = "QUEStION".toList) ∧
    ∀ k ∈ Old.kinds digit, k.name ≠ "QUEStION".toList := by
  constructor
  · obtain ⟨done, rest, ht, _⟩ := scansOld_cases (old_ok digit) h
    intro t hm h13
    obtain ⟨i, rest, hw, h1, h2⟩ := tokensOf_won ht t hm
    have : i = 11 := by omega
    subst this
    have h3 : Old.tokenNames[11 + 2]? = some "QUEStION".toList := rfl
    rw [h3] at h2
    exact (Option.some.inj h2).symm
  · simp only [Old.kinds, List.mem_cons, List.not_mem_nil, or_false]
    rintro k (rfl | rfl | rfl | rfl | rfl | rfl | rfl | rfl | rfl | rfl | rfl | rfl | rfl | rfl | rfl | rfl | rfl | rfl |
      rfl | rfl | rfl) <;> dsimp only <;> decide +kernel

/-- non-vacuity: a question mark in the first lexer -/
example : (Old.lexer isDigit09 ['?']).scanOld.map (fun r => r.1.map fun t => (t.tokenType, t.tokenName)) =
    .ok (some (13, "QUEStION".toList)) := by decide +kernel

/-- non-vacuity: a string literal with an escape, an identifier and a comment have the shapes -/
example : IsStringLiteral isDigit09 "'a\\u{0x1f}'".toList ∧ IsIdentifier (fun c => 'a' ≤ c ∧ c ≤ 'z') "ab_1".toList ∧
    IsBlockComment "/* a */".toList := by
  refine ⟨⟨[['a'], "\\u{0x1f}".toList], by decide +kernel, ?_⟩, ⟨'a', ['b', '_', '1'], by decide +kernel, by decide,
    by simp, by decide⟩, ⟨" a ".toList, by decide +kernel, ?_⟩⟩
  · intro x hx
    simp only [List.mem_cons, List.not_mem_nil, or_false] at hx
    rcases hx with rfl | rfl
    · exact .inr ⟨'a', rfl, .inr (by decide)⟩
    · exact .inl (.inr ⟨['0', 'x'], ['1', 'f'], by decide +kernel, .inr (.inr rfl), by simp, by decide⟩)
  · intro p q e
    have e' : [' ', 'a', ' ', '*', '/'] = p ++ '*' :: '/' :: q := e
    match p with
    | [] | [_] | [_, _] => simp at e'
    | [_, _, _] => exact (by simpa using e'.symm : _ ∧ _ ∧ _ ∧ q = []).2.2.2
    | _ :: _ :: _ :: _ :: p =>
      have := congrArg List.length e'
      simp at this
      omega

end Syntaxis
