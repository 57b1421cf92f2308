import Verif.Props.LexerV1
import Verif.Props.ParserErrors
import Verif.Spec.Spacing

/-!
# C63: white space is insignificant
-/

namespace Syntaxis
open Regex

variable {digit : Char → Bool}

theorem isWhite_iff (c : Char) : V1.isWhite c = true ↔ IsSpace c := by
  simp [V1.isWhite, IsSpace, or_assoc]

theorem ident_plain {c : Char} (h : isIdent c = true) : ¬ IsSpace c ∧ c ≠ '/' ∧ c ≠ '\'' := by
  refine ⟨?_, ?_, ?_⟩
  · rintro (rfl | rfl | rfl | rfl | rfl) <;> revert h <;> decide
  · rintro rfl; revert h; decide
  · rintro rfl; revert h; decide

theorem lower_ident {c : Char} (h : isLowerAZ c = true ∨ isUpperAZ c = true) : isIdent c = true := by
  rcases h with h | h <;> simp [isIdent, h]

/-- the words of the first eleven rules contain no white space, slash or quote; the last three begin with
quote, slash, white space -/
theorem v1_kind {i : Nat} {r : Regex} {w : Str} (hr : (V1.regexes digit)[i]? = some r) (h : r.Lang w) :
    (i < 11 ∧ ∀ c ∈ w, ¬ IsSpace c ∧ c ≠ '/' ∧ c ≠ '\'') ∨
    (i = 11 ∧ (V1.stringLiteral digit).Lang w ∧ ∃ w', w = '\'' :: w') ∨
    (i = 12 ∧ V1.regularLiteral.Lang w ∧ ∃ w', w = '/' :: w') ∨
    (i = 13 ∧ w ≠ [] ∧ ∀ c ∈ w, IsSpace c) := by
  have single : ∀ d : Char, (¬ IsSpace d ∧ d ≠ '/' ∧ d ≠ '\'') → (lit d).Lang w →
      ∀ c ∈ w, ¬ IsSpace c ∧ c ≠ '/' ∧ c ≠ '\'' := by
    intro d hd hl c hc
    rw [lang_lit] at hl
    subst hl
    rw [List.mem_singleton] at hc
    subst hc; exact hd
  have sp : ∀ d : Char, d ∈ [';', '|', '*', '+', '?', '(', ')', ':', '=', '-', '>', 'ε'] →
      (¬ IsSpace d ∧ d ≠ '/' ∧ d ≠ '\'') := by
    intro d hd
    simp only [List.mem_cons, List.not_mem_nil, or_false] at hd
    simp only [IsSpace]
    rcases hd with rfl | rfl | rfl | rfl | rfl | rfl | rfl | rfl | rfl | rfl | rfl | rfl <;> decide
  have idt : ∀ {p : Char → Bool}, (∀ c, p c = true → isLowerAZ c = true ∨ isUpperAZ c = true) →
      (seq (cls p) (plus (cls isIdent))).Lang w → ∀ c ∈ w, ¬ IsSpace c ∧ c ≠ '/' ∧ c ≠ '\'' := by
    intro p hp hl c hc
    cases w with
    | nil => cases hc
    | cons d w =>
      obtain ⟨h1, _, h3⟩ := lang_ident.1 hl
      rcases List.mem_cons.1 hc with rfl | hc
      · exact ident_plain (lower_ident (hp _ h1))
      · exact ident_plain (h3 c hc)
  match i, hr with
  | 0, hr => cases hr; exact Or.inl ⟨by omega, idt (fun c hc => Or.inl hc) h⟩
  | 1, hr => cases hr; exact Or.inl ⟨by omega, idt (fun c hc => Or.inr hc) h⟩
  | 2, hr =>
    cases hr
    refine Or.inl ⟨by omega, fun c hc => sp c ?_⟩
    simp only [V1.colon, alts, Lang, lang_lit, lang_str] at h
    rcases h with rfl | rfl | rfl | rfl | rfl | rfl <;>
      (simp only [List.mem_cons, List.not_mem_nil, or_false] at hc ⊢; rcases hc with rfl | rfl | rfl <;> simp)
  | 3, hr => cases hr; exact Or.inl ⟨by omega, single _ (sp _ (by simp)) h⟩
  | 4, hr => cases hr; exact Or.inl ⟨by omega, single _ (sp _ (by simp)) h⟩
  | 5, hr =>
    cases hr
    refine Or.inl ⟨by omega, fun c hc => ?_⟩
    simp only [V1.epsilon, alts, Lang, lang_lit, lang_str] at h
    rcases h with rfl | rfl
    · rw [List.mem_singleton] at hc
      subst hc; exact sp _ (by simp)
    · refine ident_plain ?_
      simp only [List.mem_cons, List.not_mem_nil, or_false] at hc
      rcases hc with rfl | rfl | rfl | rfl | rfl | rfl | rfl <;> decide
  | 6, hr => cases hr; exact Or.inl ⟨by omega, single _ (sp _ (by simp)) h⟩
  | 7, hr => cases hr; exact Or.inl ⟨by omega, single _ (sp _ (by simp)) h⟩
  | 8, hr => cases hr; exact Or.inl ⟨by omega, single _ (sp _ (by simp)) h⟩
  | 9, hr => cases hr; exact Or.inl ⟨by omega, single _ (sp _ (by simp)) h⟩
  | 10, hr => cases hr; exact Or.inl ⟨by omega, single _ (sp _ (by simp)) h⟩
  | 11, hr =>
    cases hr
    refine Or.inr (Or.inl ⟨rfl, h, ?_⟩)
    simp only [V1.stringLiteral, Lang, lang_lit] at h
    obtain ⟨_, _, e, rfl, _⟩ := h
    exact ⟨_, e⟩
  | 12, hr =>
    cases hr
    refine Or.inr (Or.inr (Or.inl ⟨rfl, h, ?_⟩))
    simp only [V1.regularLiteral, Lang, lang_lit] at h
    obtain ⟨_, _, e, rfl, _⟩ := h
    exact ⟨_, e⟩
  | 13, hr =>
    cases hr
    refine Or.inr (Or.inr (Or.inr ⟨rfl, ?_, ?_⟩))
    · obtain ⟨a, b, rfl, ⟨d, hd, rfl⟩, hb⟩ := h
      simp
    · obtain ⟨a, b, rfl, ⟨d, hd, rfl⟩, hb⟩ := h
      intro c hc
      rcases List.mem_append.1 hc with hc | hc
      · rw [List.mem_singleton] at hc
        subst hc; exact (isWhite_iff _).1 hd
      · exact (isWhite_iff _).1 (mem_star_cls (p := V1.isWhite) hb c hc)
  | n + 14, hr => simp [V1.regexes] at hr

/-! ### regular literals -/

/-- one unit of the body of a regular literal -/
abbrev regUnit : Regex := alt (str ['\\', '/']) (cls fun c => c != '/')

theorem regUnit_words {u : Str} : regUnit.Lang u ↔ u = ['\\', '/'] ∨ ∃ c, c ≠ '/' ∧ u = [c] := by
  simp only [regUnit, Lang, lang_str, bne_iff_ne, ne_eq]

theorem lang_plus_iff {r : Regex} (hne : ¬ r.Lang []) {u : Str} :
    (plus r).Lang u ↔ u ≠ [] ∧ Star r.Lang u := by
  constructor
  · rintro ⟨a, b, rfl, ha, hb⟩
    refine ⟨?_, Star.cons ha hb⟩
    intro he
    rw [(List.append_eq_nil_iff.1 he).1] at ha
    exact hne ha
  · rintro ⟨h1, h2⟩
    cases h2 with
    | nil => exact absurd rfl h1
    | cons ha hb => exact ⟨_, _, rfl, ha, hb⟩

theorem lang_regular {w : Str} : V1.regularLiteral.Lang w ↔
    ∃ b, w = '/' :: (b ++ ['/']) ∧ b ≠ [] ∧ Star regUnit.Lang b := by
  have hne : ¬ regUnit.Lang [] := by rw [regUnit_words]; rintro (h | ⟨c, _, h⟩) <;> cases h
  constructor
  · rintro ⟨a, b, rfl, ha, c, d, rfl, hc, hd⟩
    rw [lang_lit] at ha hd
    subst ha hd
    exact ⟨c, rfl, (lang_plus_iff hne).1 hc⟩
  · rintro ⟨b, rfl, hb⟩
    exact ⟨['/'], _, rfl, (lang_lit _ _).2 rfl, b, ['/'], rfl, (lang_plus_iff hne).2 hb, (lang_lit _ _).2 rfl⟩

/-- a slash in the body ends a unit -/
theorem star_slash {p q : Str} (h : Star regUnit.Lang (p ++ '/' :: q)) : Star regUnit.Lang (p ++ ['/']) := by
  generalize hs : p ++ '/' :: q = s at h
  induction h generalizing p with
  | nil => simp at hs
  | @cons u v hu hv ih =>
    rcases regUnit_words.1 hu with rfl | ⟨c, hc, rfl⟩
    · cases p with
      | nil => simp at hs
      | cons a p =>
        simp only [List.cons_append, List.nil_append, List.cons.injEq] at hs
        obtain ⟨rfl, hs⟩ := hs
        cases p with
        | nil =>
          exact Star.cons (u := ['\\', '/']) (v := []) hu Star.nil
        | cons b p =>
          simp only [List.cons_append, List.cons.injEq] at hs
          obtain ⟨rfl, hs⟩ := hs
          exact Star.cons (u := ['\\', '/']) hu (ih hs)
    · cases p with
      | nil =>
        simp only [List.nil_append, List.cons_append, List.cons.injEq] at hs
        exact absurd hs.1.symm hc
      | cons a p =>
        simp only [List.cons_append, List.nil_append, List.cons.injEq] at hs
        obtain ⟨rfl, hs⟩ := hs
        exact Star.cons (u := [a]) hu (ih hs)

theorem star_append {L : Str → Prop} {a b : Str} (ha : Star L a) (hb : Star L b) : Star L (a ++ b) := by
  induction ha with
  | nil => exact hb
  | cons hu _ ih => rw [List.append_assoc]; exact Star.cons hu ih

theorem star_noslash {y : Str} (h : '/' ∉ y) : Star regUnit.Lang y := by
  induction y with
  | nil => exact .nil
  | cons c y ih =>
    simp only [List.mem_cons, not_or] at h
    exact Star.cons (u := [c]) (regUnit_words.2 (Or.inr ⟨c, fun e => h.1 e.symm, rfl⟩)) (ih h.2)

/-- a literal that could go on somewhere goes on wherever a slash follows -/
theorem regular_extends {u x v : Str} (hu : V1.regularLiteral.Lang u) (hx : x ≠ [])
    (hw : V1.regularLiteral.Lang (u ++ x)) (hv : '/' ∈ v) :
    ∃ y, y ≠ [] ∧ y <+: v ∧ V1.regularLiteral.Lang (u ++ y) := by
  obtain ⟨b, rfl, hb, hs⟩ := lang_regular.1 hu
  obtain ⟨b', e, hb', hs'⟩ := lang_regular.1 hw
  obtain ⟨x', d, rfl⟩ : ∃ x' d, x = x' ++ [d] := ⟨x.dropLast, x.getLast hx, (List.dropLast_append_getLast hx).symm⟩
  have e2 : b ++ '/' :: x' = b' := by
    simp only [List.cons_append, List.cons.injEq, true_and] at e
    have e3 : (b ++ '/' :: x') ++ [d] = b' ++ ['/'] := by simpa using e
    exact (List.append_inj' e3 rfl).1
  rw [← e2] at hs'
  have hs2 := star_slash hs'
  obtain ⟨y, z, rfl, hy⟩ : ∃ y z, v = y ++ '/' :: z ∧ '/' ∉ y := by
    clear e2 hs'
    induction v with
    | nil => cases hv
    | cons c v ih =>
      by_cases hc : c = '/'
      · subst hc; exact ⟨[], v, rfl, by simp⟩
      · rcases List.mem_cons.1 hv with h | h
        · exact absurd h.symm hc
        · obtain ⟨y, z, rfl, hy⟩ := ih h
          exact ⟨c :: y, z, rfl, by simp [hy, Ne.symm hc]⟩
  refine ⟨y ++ ['/'], by simp, ⟨z, by simp⟩, lang_regular.2 ⟨b ++ '/' :: y, by simp, by simp, ?_⟩⟩
  have := star_append hs2 (star_noslash hy)
  simpa using this

/-! ### maximal munch does not depend on what follows the white space -/

theorem maxMunch_respace (hb : digit '\\' = false) (hq : digit '\'' = false) {u v v' : Str} {i : Nat}
    (h : MaxMunch (V1.regexes digit) (u ++ v) i u) (hi : i ≠ 13)
    (hsp : ∀ c s', v' = c :: s' → IsSpace c) (hsl : '/' ∈ v' → '/' ∈ v) :
    MaxMunch (V1.regexes digit) (u ++ v') i u := by
  obtain ⟨hne, hp, ⟨r, hr, hu⟩, hmax, hfirst⟩ := h
  refine ⟨hne, List.prefix_append _ _, ⟨r, hr, hu⟩, ?_, hfirst⟩
  intro q hqm w hw hl
  by_contra hlt
  obtain ⟨j, hj⟩ := List.getElem?_of_mem hqm
  obtain ⟨x, rfl⟩ : u <+: w := List.prefix_of_prefix_length_le (List.prefix_append _ _) hw (by omega)
  rw [List.prefix_append_right_inj] at hw
  have hx : x ≠ [] := by rintro rfl; simp at hlt
  obtain ⟨c, x', rfl⟩ := List.exists_cons_of_ne_nil hx
  have hc : IsSpace c := by
    obtain ⟨z, hz⟩ := hw
    exact hsp c (x' ++ z) (by rw [← hz]; rfl)
  obtain ⟨d, u', rfl⟩ := List.exists_cons_of_ne_nil hne
  have notspace_quote : ¬ IsSpace '\'' := by simp only [IsSpace]; decide
  have notspace_slash : ¬ IsSpace '/' := by simp only [IsSpace]; decide
  rcases v1_kind hj hl with ⟨_, hk⟩ | ⟨_, hk, w', e⟩ | ⟨rfl, hk, w', e⟩ | ⟨_, _, hk⟩
  · exact (hk c (by simp)).1 hc
  · simp only [List.cons_append, List.cons.injEq] at e
    obtain ⟨rfl, _⟩ := e
    rcases v1_kind hr hu with ⟨_, hk'⟩ | ⟨_, hk', _⟩ | ⟨_, _, w'', e'⟩ | ⟨_, _, hk'⟩
    · exact (hk' '\'' (by simp)).2.2 rfl
    · have := uni_stringLiteral hb hq _ (c :: x') _ [] (by simp) hk' hk
      simp at this
    · simp at e'
    · exact notspace_quote (hk' '\'' (by simp))
  · simp only [List.cons_append, List.cons.injEq] at e
    obtain ⟨rfl, _⟩ := e
    rcases v1_kind hr hu with ⟨_, hk'⟩ | ⟨_, _, w'', e'⟩ | ⟨rfl, hk', _⟩ | ⟨_, _, hk'⟩
    · exact (hk' '/' (by simp)).2.1 rfl
    · simp at e'
    · -- the longer literal contains a slash after `u`
      have hv' : '/' ∈ v' := by
        obtain ⟨b, hb1, _, _⟩ := lang_regular.1 hk
        have hlast : ('/' :: u' ++ c :: x').getLast? = some '/' := by
          rw [hb1, ← List.cons_append, List.getLast?_append]; rfl
        rw [List.getLast?_append] at hlast
        have hne' : (c :: x').getLast? = some '/' := by
          obtain ⟨y, hy⟩ : ∃ y, (c :: x').getLast? = some y := ⟨_, List.getLast?_eq_some_getLast (by simp)⟩
          rw [hy] at hlast ⊢
          simpa using hlast
        exact hw.subset (List.mem_of_getLast? hne')
      obtain ⟨y, hy1, hy2, hy3⟩ := regular_extends hk' hx hk (hsl hv')
      have := hmax V1.regularLiteral (List.mem_of_getElem? (i := 12) rfl) ('/' :: u' ++ y)
        (by rw [List.prefix_append_right_inj]; exact hy2) hy3
      have : y.length = 0 := by simp at this; omega
      exact hy1 (List.length_eq_zero_iff.1 this)
    · exact notspace_slash (hk' '/' (by simp))
  · have hd := hk d (by simp)
    rcases v1_kind hr hu with ⟨_, hk'⟩ | ⟨_, _, w'', e'⟩ | ⟨_, _, w'', e'⟩ | ⟨rfl, _⟩
    · exact (hk' d (by simp)).1 hd
    · simp only [List.cons.injEq] at e'; rw [e'.1] at hd; exact notspace_quote hd
    · simp only [List.cons.injEq] at e'; rw [e'.1] at hd; exact notspace_slash hd
    · exact hi rfl

theorem lang_white {w : Str} (hne : w ≠ []) (h : ∀ c ∈ w, IsSpace c) : V1.whiteSpace.Lang w := by
  refine (lang_plus_iff (r := cls V1.isWhite) (by rintro ⟨c, _, e⟩; cases e)).2 ⟨hne, ?_⟩
  clear hne
  induction w with
  | nil => exact .nil
  | cons c w ih =>
    exact Star.cons (u := [c]) ⟨c, (isWhite_iff c).2 (h c (by simp)), rfl⟩ (ih fun d hd => h d (by simp [hd]))

theorem maxMunch_white {g s : Str} (hne : g ≠ []) (hg : ∀ c ∈ g, IsSpace c)
    (hs : ∀ c s', s = c :: s' → ¬ IsSpace c) : MaxMunch (V1.regexes digit) (g ++ s) 13 g := by
  obtain ⟨d, g', rfl⟩ := List.exists_cons_of_ne_nil hne
  have hd := hg d (by simp)
  have notspace_quote : ¬ IsSpace '\'' := by simp only [IsSpace]; decide
  have notspace_slash : ¬ IsSpace '/' := by simp only [IsSpace]; decide
  have kind : ∀ j r w, (V1.regexes digit)[j]? = some r → r.Lang (d :: w) → j = 13 ∧ ∀ c ∈ d :: w, IsSpace c := by
    intro j r w hr hl
    rcases v1_kind hr hl with ⟨_, hk⟩ | ⟨_, _, w', e⟩ | ⟨_, _, w', e⟩ | ⟨hj, _, hk⟩
    · exact absurd hd (hk d (by simp)).1
    · simp only [List.cons.injEq] at e; rw [e.1] at hd; exact absurd hd notspace_quote
    · simp only [List.cons.injEq] at e; rw [e.1] at hd; exact absurd hd notspace_slash
    · exact ⟨hj, hk⟩
  refine ⟨by simp, List.prefix_append _ _, ⟨V1.whiteSpace, rfl, lang_white (by simp) hg⟩, ?_, ?_⟩
  · intro q hqm w hw hl
    by_contra hlt
    obtain ⟨j, hj⟩ := List.getElem?_of_mem hqm
    obtain ⟨x, rfl⟩ : d :: g' <+: w := List.prefix_of_prefix_length_le (List.prefix_append _ _) hw (by omega)
    rw [List.prefix_append_right_inj] at hw
    cases x with
    | nil => simp at hlt
    | cons c x =>
      obtain ⟨z, hz⟩ := hw
      exact hs c (x ++ z) (by rw [← hz]; rfl) ((kind j q _ hj hl).2 c (by simp))
  · intro j q hj hqj hl
    have := (kind j q _ hqj hl).1
    omega

theorem maxMunch_wins (hb : digit '\\' = false) (hq : digit '\'' = false) {u v : Str} {i : Nat}
    (h : MaxMunch (V1.regexes digit) (u ++ v) i u) :
    Wins ((V1.regexes digit).map Regex.find) (u ++ v) i (byteLen u) := by
  rcases longest_cases (u ++ v) ((V1.regexes digit).map Regex.find) with ⟨_, hn⟩ | ⟨j, n, _, hw⟩
  · exact absurd (noMatch_noPrefix (v1_best hb hq) hn) (C53_unique (j := 0) (w := []) h).1
  · obtain ⟨m, hm, hmn⟩ := hw.2.1
    obtain ⟨u', v', e, rfl⟩ := (v1_ok digit).1 m (List.mem_of_getElem? hm) _ _ hmn
    obtain ⟨rfl, rfl⟩ := (C53_unique h).2 (wins_maxMunch (v1_best hb hq) e hw)
    exact hw

/-! ### re-spacing a whole input -/

theorem lexes_texts {ms : List Matcher} {s rem : Str} {out : List (Nat × Str)} (h : Lexes ms s out rem) :
    s = (out.map Prod.snd).flatten ++ rem := by
  induction h with
  | stop => simp
  | step _ _ ih => rw [List.map_cons, List.flatten_cons, List.append_assoc, ← ih]

theorem spaced_slash {us : List Str} {s : Str} (h : Spaced us s) {c : Char} (hc : c ∈ s) :
    IsSpace c ∨ c ∈ us.flatten := by
  induction h with
  | nil hg => exact Or.inl (hg c hc)
  | cons hg _ _ ih =>
    rcases List.mem_append.1 hc with hc | hc
    · exact Or.inl (hg c hc)
    · rcases List.mem_append.1 hc with hc | hc
      · exact Or.inr (by simp [hc])
      · rcases ih hc with h | h
        · exact Or.inl h
        · exact Or.inr (by rw [List.flatten_cons]; exact List.mem_append_right _ h)

/-- the tokens that are not white space -/
def solid (out : List (Nat × Str)) : List (Nat × Str) := out.filter (·.1 ≠ V1.WHITE_SPACE)

theorem lexes_white (hb : digit '\\' = false) (hq : digit '\'' = false) {g s : Str} {out : List (Nat × Str)}
    (hg : ∀ c ∈ g, IsSpace c) (hs : ∀ c s', s = c :: s' → ¬ IsSpace c)
    (h : Lexes ((V1.regexes digit).map Regex.find) s out []) :
    ∃ out', Lexes ((V1.regexes digit).map Regex.find) (g ++ s) out' [] ∧ solid out' = solid out := by
  by_cases hne : g = []
  · subst hne; exact ⟨out, h, rfl⟩
  · exact ⟨_, Lexes.step (maxMunch_wins hb hq (maxMunch_white hne hg hs)) h, by simp [solid, V1.WHITE_SPACE]⟩

theorem lexes_respace (hb : digit '\\' = false) (hq : digit '\'' = false) {s rem : Str}
    {out : List (Nat × Str)} (h : Lexes ((V1.regexes digit).map Regex.find) s out rem) (hrem : rem = [])
    {s' : Str} (hs : Spaced ((solid out).map Prod.snd) s') :
    ∃ out', Lexes ((V1.regexes digit).map Regex.find) s' out' [] ∧ solid out' = solid out := by
  induction h generalizing s' with
  | stop rest hn =>
    subst hrem
    generalize hus : (solid []).map Prod.snd = us at hs
    cases hs with
    | nil hg =>
      obtain ⟨out', h1, h2⟩ := lexes_white hb hq (s := []) hg (fun c s' e => by cases e) (Lexes.stop [] hn)
      exact ⟨out', by simpa using h1, h2⟩
    | cons => simp [solid] at hus
  | @step u v rem i out hw hl ih =>
    have hm := wins_maxMunch (v1_best hb hq) rfl hw
    by_cases hi : i = 13
    · subst hi
      have : solid ((13 + 2, u) :: out) = solid out := by simp [solid, V1.WHITE_SPACE]
      rw [this] at hs ⊢
      exact ih hrem hs
    · have hsol : solid ((i + 2, u) :: out) = (i + 2, u) :: solid out := by
        simp only [solid, V1.WHITE_SPACE, ne_eq]
        rw [List.filter_cons_of_pos (by simpa using hi)]
      rw [hsol] at hs ⊢
      generalize hus : List.map Prod.snd ((i + 2, u) :: solid out) = us at hs
      cases hs with
      | nil => simp at hus
      | @cons g u' s us hg hs hsp =>
        simp only [List.map_cons, List.cons.injEq] at hus
        obtain ⟨rfl, rfl⟩ := hus
        obtain ⟨out1, h1, h2⟩ := ih hrem hs
        have hsl : '/' ∈ s → '/' ∈ v := by
          intro hc
          rcases spaced_slash hs hc with h | h
          · exact absurd h (by simp only [IsSpace]; decide)
          · rw [lexes_texts hl]
            obtain ⟨t, ht, hc⟩ := List.mem_flatten.1 h
            obtain ⟨x, hx, rfl⟩ := List.mem_map.1 ht
            exact List.mem_append_left _ (List.mem_flatten.2
              ⟨x.2, List.mem_map.2 ⟨x, List.mem_of_mem_filter hx, rfl⟩, hc⟩)
        have hm' := maxMunch_respace hb hq (v' := s) hm hi hsp hsl
        have hl' := Lexes.step (maxMunch_wins hb hq hm') h1
        have hhead : ∀ c s', u ++ s = c :: s' → ¬ IsSpace c := by
          obtain ⟨hne, _, ⟨r, hr, hu⟩, _⟩ := hm
          obtain ⟨d, u', rfl⟩ := List.exists_cons_of_ne_nil hne
          intro c s' e hc
          simp only [List.cons_append, List.cons.injEq] at e
          rw [← e.1] at hc
          rcases v1_kind hr hu with ⟨_, hk⟩ | ⟨_, _, w', e⟩ | ⟨_, _, w', e⟩ | ⟨hj, _⟩
          · exact (hk d (by simp)).1 hc
          · simp only [List.cons.injEq] at e; rw [e.1] at hc; revert hc; simp only [IsSpace]; decide
          · simp only [List.cons.injEq] at e; rw [e.1] at hc; revert hc; simp only [IsSpace]; decide
          · exact hi hj
        obtain ⟨out2, g1, g2⟩ := lexes_white hb hq hg hhead hl'
        refine ⟨out2, g1, ?_⟩
        rw [g2]
        simp only [solid, V1.WHITE_SPACE, ne_eq] at h2 hsol ⊢
        rw [List.filter_cons_of_pos (by simpa using hi), h2]

/-- what is returned and printed, in terms of the specified tokenisation -/
theorem scansTo_iff (input : Str) : ∃ out rem toks,
    Lexes ((V1.regexes digit).map Regex.find) input out rem ∧
    toks.map Token.out = solid out ++ (if rem = [] then [(1, "_STOP".toList)] else []) ∧
    ∀ toks' p, V1.ScansTo digit input toks' p ↔ toks' = toks ∧ p = if rem = [] then none else some rem := by
  obtain ⟨out, rem, toks, l', n, h1, _, h3, h4⟩ := C32_scan_all (input := input) (v1_ok digit) V1.WHITE_SPACE 0
  refine ⟨out, rem, toks.filter (·.tokenType ≠ V1.WHITE_SPACE), h1, ?_, ?_⟩
  · have : (toks.filter (·.tokenType ≠ V1.WHITE_SPACE)).map Token.out =
        (toks.map Token.out).filter (·.1 ≠ V1.WHITE_SPACE) := by
      rw [List.filter_map]; rfl
    rw [this, h3, List.filter_append]
    congr 1
    split <;> simp [V1.WHITE_SPACE]
  · intro toks' p
    constructor
    · rintro ⟨m, l, hm⟩
      have a := h4 (max n m) (by omega)
      have b := hm (max n m) (by omega)
      rw [V1.lexer, a] at b
      simp only [if_pos, Except.ok.injEq, Prod.mk.injEq] at b
      exact ⟨b.1.symm, b.2.1.symm⟩
    · rintro ⟨rfl, rfl⟩
      exact ⟨n, l', fun fuel hf => by rw [V1.lexer, h4 fuel hf, if_pos rfl]⟩

/-- **C63** if the v1 lexer lexes an input completely, then it lexes every re-spacing of its tokens
completely, into the same tokens up to positions: same types, same texts, ended by `_STOP`. -/
theorem C63_white_space_insignificant (hb : digit '\\' = false) (hq : digit '\'' = false)
    (input : Str) (toks : List Token) (h : V1.ScansTo digit input toks none) (input' : Str)
    (hs : Spaced ((toks.filter (·.tokenType ≠ 1)).map Token.text) input') :
    ∃ toks', V1.ScansTo digit input' toks' none ∧
      toks'.map (fun t => (t.tokenType, t.text)) = toks.map (fun t => (t.tokenType, t.text)) := by
  obtain ⟨out, rem, tk1, h1, h2, h3⟩ := scansTo_iff (digit := digit) input
  obtain ⟨rfl, hp⟩ := (h3 _ _).1 h
  have hrem : rem = [] := by
    by_contra hr
    rw [if_neg hr] at hp; cases hp
  have htx : (toks.filter (·.tokenType ≠ 1)).map Token.text = (solid out).map Prod.snd := by
    have e : (toks.filter (·.tokenType ≠ 1)).map Token.text =
        ((toks.map Token.out).filter (·.1 ≠ 1)).map Prod.snd := by
      rw [List.filter_map, List.map_map]; rfl
    rw [e, h2, if_pos hrem, List.filter_append]
    have hge : ∀ x ∈ out, 2 ≤ x.1 := by
      clear h2 h3 hp e hs h
      induction h1 with
      | stop => simp
      | step _ _ ih =>
        intro x hx
        rcases List.mem_cons.1 hx with rfl | hx
        · simp
        · exact ih hrem x hx
    rw [List.filter_eq_self.2 (fun x hx => by
      have := hge x (List.mem_of_mem_filter hx)
      simp only [ne_eq, decide_eq_true_eq]; omega)]
    simp
  rw [htx] at hs
  obtain ⟨out', g1, g2⟩ := lexes_respace hb hq h1 hrem hs
  obtain ⟨out2, rem2, tk2, k1, k2, k3⟩ := scansTo_iff (digit := digit) input'
  obtain ⟨rfl, rfl⟩ := k1.unique g1
  refine ⟨tk2, (k3 _ _).2 ⟨rfl, by simp⟩, ?_⟩
  change tk2.map Token.out = toks.map Token.out
  rw [k2, h2, g2, if_pos rfl, if_pos hrem]

/-- **C63** the re-spaced text also gets the same syntax tree, up to the tokens' positions, from any table:
same skeleton, same leaf texts, same messages. -/
theorem C63_same_tree (hb : digit '\\' = false) (hq : digit '\'' = false)
    (input : Str) (toks : List Token) (h : V1.ScansTo digit input toks none) (input' : Str)
    (hs : Spaced ((toks.filter (·.tokenType ≠ 1)).map Token.text) input')
    (T : Table) (v : Vocabulary) (A fuel : Nat) (r : RuleContext) (log : MismatchLog)
    (hr : Parser.parseRule ⟨toks, T, v⟩ A fuel = .ok (r, log)) :
    ∃ toks' r' fuel', V1.ScansTo digit input' toks' none ∧
      Parser.parseRule ⟨toks', T, v⟩ A fuel' = .ok (r', log) ∧
      r'.toAst.skeleton = r.toAst.skeleton ∧
      r'.toAst.leaves.map Token.text = r.toAst.leaves.map Token.text := by
  obtain ⟨toks', h1, h2⟩ := C63_white_space_insignificant hb hq input toks h input' hs
  have hty : toks'.map Token.tokenType = toks.map Token.tokenType := by
    have := congrArg (List.map Prod.fst) h2
    simpa [Function.comp_def] using this
  have htx : toks'.map Token.text = toks.map Token.text := by
    have := congrArg (List.map Prod.snd) h2
    simpa [Function.comp_def] using this
  obtain ⟨n, r', g1, g2, g3⟩ := C61_types_and_one_lookahead _ A fuel r log hr toks' (by
    intro i _
    rw [← List.getElem?_map, ← List.getElem?_map, hty])
  refine ⟨toks', r', n, h1, g1 n (Nat.le_refl _), g2, ?_⟩
  obtain ⟨k, hk, hl⟩ := C18_leaves_are_consumed_tokens _ _ _ _ _ hr
  rw [g3, List.map_take, htx, hl, List.map_take, List.length_take, Nat.min_eq_left hk]

theorem scanLoop_mono {scan : Lexer → Res (Option Token × Lexer)} {skip : Nat → Bool} {channel n : Nat}
    {acc : List Token} {l : Lexer} {x : List Token × Lexer}
    (h : Lexer.scanLoop scan skip channel n acc l = .ok x) {m : Nat} (hm : n ≤ m) :
    Lexer.scanLoop scan skip channel m acc l = .ok x := by
  induction n generalizing acc l m with
  | zero => cases h
  | succ n ih =>
    obtain ⟨k, rfl⟩ : ∃ k, m = k + 1 := ⟨m - 1, by omega⟩
    rw [Lexer.scanLoop] at h ⊢
    cases hs : scan l with
    | error e => rw [hs] at h; cases h
    | ok r =>
      obtain ⟨t, l'⟩ := r
      rw [hs] at h
      simp only [bind_ok] at h ⊢
      cases t with
      | none => exact h
      | some tok =>
        simp only at h ⊢
        split at h
        · rw [if_pos ‹_›]; exact ih h (by omega)
        · rw [if_neg ‹_›]
          split at h
          · rw [if_pos ‹_›]; exact ih h (by omega)
          · rw [if_neg ‹_›]; exact ih h (by omega)

/-- one run that is not cut short tells what is returned -/
theorem scansTo_of {input : Str} {toks : List Token} {p : Option Str} {n : Nat}
    (h : ((V1.lexer digit input).scanAll V1.WHITE_SPACE 0 n).map (fun x => (x.1, x.2.1)) = .ok (toks, p)) :
    V1.ScansTo digit input toks p := by
  cases hr : (V1.lexer digit input).scanAll V1.WHITE_SPACE 0 n with
  | error e => rw [hr] at h; cases h
  | ok x =>
    obtain ⟨a, b, l⟩ := x
    rw [hr] at h
    simp only [Except.map, Except.ok.injEq, Prod.mk.injEq] at h
    obtain ⟨rfl, rfl⟩ := h
    refine ⟨n, l, fun fuel hf => ?_⟩
    rw [Lexer.scanAll] at hr ⊢
    cases hl : Lexer.scanLoop Lexer.scan (· == V1.WHITE_SPACE) 0 n [] (V1.lexer digit input) with
    | error e => rw [hl] at hr; cases hr
    | ok y =>
      rw [hl] at hr
      rw [scanLoop_mono hl hf]
      exact hr

/-- non-vacuity: `ab:/c/;` re-spaced -/
example : ∃ toks', V1.ScansTo isDigit09 " ab\n: /c/\t;\n".toList toks' none ∧
    toks'.map (fun t => (t.tokenType, t.text)) =
      [(2, "ab".toList), (4, ":".toList), (14, "/c/".toList), (5, ";".toList), (1, "_STOP".toList)] := by
  cases hr : (V1.lexer isDigit09 "ab:/c/;".toList).scanAll V1.WHITE_SPACE 0 20 with
  | error e =>
    have : ((V1.lexer isDigit09 "ab:/c/;".toList).scanAll V1.WHITE_SPACE 0 20).map (fun _ => ()) = .ok () := by
      decide +kernel
    rw [hr] at this; cases this
  | ok x =>
    have hx : ((V1.lexer isDigit09 "ab:/c/;".toList).scanAll V1.WHITE_SPACE 0 20).map
        (fun x => (x.1.map (fun t => (t.tokenType, t.text)), x.2.1)) =
        .ok ([(2, "ab".toList), (4, ":".toList), (14, "/c/".toList), (5, ";".toList), (1, "_STOP".toList)],
          none) := by decide +kernel
    rw [hr] at hx
    simp only [Except.map, Except.ok.injEq, Prod.mk.injEq] at hx
    have hsc : V1.ScansTo isDigit09 "ab:/c/;".toList x.1 none :=
      scansTo_of (n := 20) (by rw [hr]; simp only [Except.map]; rw [hx.2])
    have htx : (x.1.filter (·.tokenType ≠ 1)).map Token.text =
        ["ab".toList, ":".toList, "/c/".toList, ";".toList] := by
      have e : (x.1.filter (·.tokenType ≠ 1)).map Token.text =
          ((x.1.map (fun t => (t.tokenType, t.text))).filter (·.1 ≠ 1)).map Prod.snd := by
        rw [List.filter_map, List.map_map]; rfl
      rw [e, hx.1]; decide
    obtain ⟨toks', h1, h2⟩ := C63_white_space_insignificant (by decide) (by decide) _ x.1 hsc
      " ab\n: /c/\t;\n".toList (by
        rw [htx]
        have sp : ∀ s : Str, s.all V1.isWhite = true → ∀ c ∈ s, IsSpace c := fun s hs c hc =>
          (isWhite_iff c).1 (List.all_eq_true.1 hs c hc)
        have hd : ∀ (d : Char) (t : Str), V1.isWhite d = true → ∀ c s', d :: t = c :: s' → IsSpace c := by
          intro d t hd c s' e
          simp only [List.cons.injEq] at e
          rw [← e.1]; exact (isWhite_iff d).1 hd
        refine Spaced.cons (g := " ".toList) (u := "ab".toList) (s := "\n: /c/\t;\n".toList) (sp _ (by decide)) ?_
          (hd '\n' _ (by decide))
        refine Spaced.cons (g := "\n".toList) (u := ":".toList) (s := " /c/\t;\n".toList) (sp _ (by decide)) ?_
          (hd ' ' _ (by decide))
        refine Spaced.cons (g := " ".toList) (u := "/c/".toList) (s := "\t;\n".toList) (sp _ (by decide)) ?_
          (hd '\t' _ (by decide))
        exact Spaced.cons (g := "\t".toList) (u := ";".toList) (s := "\n".toList) (sp _ (by decide))
          (Spaced.nil (sp _ (by decide))) (hd '\n' _ (by decide)))
    exact ⟨toks', h1, by rw [h2, hx.1]⟩

end Syntaxis
