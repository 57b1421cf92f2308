import Verif.Props.Main

/-!
# C95: joining grammar files
-/

namespace Syntaxis
open Regex

variable {digit : Char → Bool}

/-- the literal ends with an escaped slash: it only is a literal because no slash follows -/
def Swallows (u : Str) : Prop := ['\\', '/'] <:+ u

instance (u : Str) : Decidable (Swallows u) := inferInstanceAs (Decidable (_ <:+ _))

/-- of two literals one of which begins with the other, the shorter ends with an escaped slash -/
theorem regular_swallows {u x : Str} (hu : V1.regularLiteral.Lang u) (hx : x ≠ []) (hw : V1.regularLiteral.Lang (u ++ x)) :
    Swallows u := by
  obtain ⟨b, rfl, hb, -⟩ := lang_regular.1 hu
  obtain ⟨b', e, hb', hs'⟩ := lang_regular.1 hw
  obtain ⟨x', d, rfl⟩ : ∃ x' d, x = x' ++ [d] := ⟨x.dropLast, x.getLast hx, (List.dropLast_append_getLast hx).symm⟩
  have e2 : b ++ '/' :: x' = b' := by
    simp only [List.cons_append, List.cons.injEq, true_and] at e
    have e3 : (b ++ '/' :: x') ++ [d] = b' ++ ['/'] := by simpa using e
    exact (List.append_inj' e3 rfl).1
  rw [← e2] at hs'
  have hs2 := star_slash hs'
  clear e e2 hs' hw hb' hx hu
  have key : ∀ s : Str, Star regUnit.Lang s → ∀ b, s = b ++ ['/'] → b ≠ [] → ['\\', '/'] <:+ s := by
    intro s hs
    induction hs with
    | nil => intro b e; simp at e
    | @cons u v hu hv ih =>
      intro b e hne
      rcases regUnit_words.1 hu with rfl | ⟨c, hc, rfl⟩
      · cases hv' : v with
        | nil => exact ⟨[], rfl⟩
        | cons z zs =>
          obtain ⟨y, hy⟩ : ∃ y, v = y ++ ['/'] := by
            rw [hv'] at e ⊢
            refine ⟨(z :: zs).dropLast, ?_⟩
            have h1 : (z :: zs).getLast (by simp) = '/' := by
              have := congrArg List.getLast? e
              rw [List.getLast?_append, List.getLast?_append, List.getLast?_eq_some_getLast (l := z :: zs) (by simp)] at this
              simpa using this
            rw [← h1, List.dropLast_append_getLast]
          cases y with
          | nil =>
            rw [List.nil_append] at hy
            rw [hy] at hv
            exfalso
            generalize hq : ['/'] = q at hv
            cases hv with
            | nil => cases hq
            | cons h1 h2 =>
              rcases regUnit_words.1 h1 with rfl | ⟨c, hc, rfl⟩
              · simp at hq
              · simp only [List.cons_append, List.nil_append, List.cons.injEq] at hq
                exact hc hq.1.symm
          | cons y0 ys =>
            rw [← hv']
            exact (ih _ hy (by simp)).trans (List.suffix_append _ _)
      · cases b with
        | nil => exact absurd rfl hne
        | cons b0 bs =>
          simp only [List.cons_append, List.nil_append, List.cons.injEq] at e
          cases bs with
          | nil =>
            rw [List.nil_append] at e
            obtain ⟨-, rfl⟩ := e
            exfalso
            generalize hq : ['/'] = q at hv
            cases hv with
            | nil => cases hq
            | cons h1 h2 =>
              rcases regUnit_words.1 h1 with rfl | ⟨c, hc, rfl⟩
              · simp at hq
              · simp only [List.cons_append, List.nil_append, List.cons.injEq] at hq
                exact hc hq.1.symm
          | cons b1 bs => exact (ih _ e.2 (by simp)).trans (List.suffix_append _ _)
  have := key _ hs2 b rfl hb
  exact this.trans (List.suffix_cons _ _)

theorem space_facts : ¬ IsSpace '\'' ∧ ¬ IsSpace '/' := by
  constructor <;> (simp only [IsSpace]; decide)

/-- a token stays the longest match if white space follows the text, and then any other text, unless it is a literal
that goes on there -/
theorem maxMunch_join (hb : digit '\\' = false) (hq : digit '\'' = false) {u v z : Str} {c : Char} {i : Nat}
    (h : MaxMunch (V1.regexes digit) (u ++ v) i u) (hi : i ≠ 13) (hc : IsSpace c)
    (hsw : i = 12 → Swallows u → '/' ∉ z) : MaxMunch (V1.regexes digit) (u ++ (v ++ c :: z)) i u := by
  obtain ⟨hne, hp, ⟨r, hr, hu⟩, hmax, hfirst⟩ := h
  refine ⟨hne, List.prefix_append _ _, ⟨r, hr, hu⟩, ?_, hfirst⟩
  intro q hqm w hw hl
  by_contra hlt
  obtain ⟨j, hj⟩ := List.getElem?_of_mem hqm
  by_cases hle : w.length ≤ (u ++ v).length
  · refine hlt (hmax q hqm w ?_ hl)
    refine List.prefix_of_prefix_length_le hw ?_ hle
    rw [← List.append_assoc]
    exact List.prefix_append _ _
  · obtain ⟨x, rfl⟩ : u ++ v <+: w := by
      refine List.prefix_of_prefix_length_le ?_ hw (by omega)
      rw [← List.append_assoc]
      exact List.prefix_append _ _
    rw [← List.append_assoc, List.prefix_append_right_inj] at hw
    cases x with
    | nil => simp at hle
    | cons c' x =>
      obtain ⟨rest, hrest⟩ := hw
      simp only [List.cons_append, List.cons.injEq] at hrest
      obtain ⟨rfl, hrest⟩ := hrest
      obtain ⟨d, u', rfl⟩ := List.exists_cons_of_ne_nil hne
      obtain ⟨nq, ns⟩ := space_facts
      rcases v1_kind hj hl with ⟨_, hk⟩ | ⟨_, hk, w', e⟩ | ⟨rfl, hk, w', e⟩ | ⟨_, _, hk⟩
      · exact (hk c' (by simp)).1 hc
      · simp only [List.cons_append, List.cons.injEq] at e
        obtain ⟨rfl, _⟩ := e
        rcases v1_kind hr hu with ⟨_, hk'⟩ | ⟨_, hk', _⟩ | ⟨_, _, w'', e'⟩ | ⟨_, _, hk'⟩
        · exact (hk' '\'' (by simp)).2.2 rfl
        · have := uni_stringLiteral hb hq _ (v ++ c' :: x) _ [] (by simp) hk' hk
          simp at this
        · simp at e'
        · exact nq (hk' '\'' (by simp))
      · simp only [List.cons_append, List.cons.injEq] at e
        obtain ⟨rfl, _⟩ := e
        rcases v1_kind hr hu with ⟨_, hk'⟩ | ⟨_, _, w'', e'⟩ | ⟨rfl, hk', _⟩ | ⟨_, _, hk'⟩
        · exact (hk' '/' (by simp)).2.1 rfl
        · simp at e'
        · rw [List.append_assoc] at hk
          have hs := regular_swallows hk' (by simp) hk
          refine hsw rfl hs ?_
          obtain ⟨b, hb1, _, _⟩ := lang_regular.1 hk
          have hlast : ('/' :: u' ++ (v ++ c' :: x)).getLast? = some '/' := by
            rw [hb1, ← List.cons_append, List.getLast?_append]; rfl
          rw [List.getLast?_append, List.getLast?_append] at hlast
          have hne' : (c' :: x).getLast? = some '/' := by
            obtain ⟨y, hy⟩ : ∃ y, (c' :: x).getLast? = some y := ⟨_, List.getLast?_eq_some_getLast (by simp)⟩
            rw [hy] at hlast ⊢
            simpa using hlast
          have hm := List.mem_of_getLast? hne'
          rcases List.mem_cons.1 hm with h | h
          · rw [← h] at hc
            exact absurd hc ns
          · rw [← hrest]
            exact List.mem_append_left _ h
        · exact ns (hk' '/' (by simp))
      · have hd := hk d (by simp)
        rcases v1_kind hr hu with ⟨_, hk'⟩ | ⟨_, _, w'', e'⟩ | ⟨_, _, w'', e'⟩ | ⟨rfl, _⟩
        · exact (hk' d (by simp)).1 hd
        · simp only [List.cons.injEq] at e'; rw [e'.1] at hd; exact nq hd
        · simp only [List.cons.injEq] at e'; rw [e'.1] at hd; exact ns hd
        · exact hi rfl

/-- the head of a token that is not white space -/
theorem head_solid {u s : Str} {i : Nat} (hm : MaxMunch (V1.regexes digit) (u ++ s) i u) (hi : i ≠ 13) :
    ∀ t c s', u ++ t = c :: s' → ¬ IsSpace c := by
  obtain ⟨hne, _, ⟨r, hr, hu⟩, _⟩ := hm
  obtain ⟨d, u', rfl⟩ := List.exists_cons_of_ne_nil hne
  intro t c s' e hc
  simp only [List.cons_append, List.cons.injEq] at e
  rw [← e.1] at hc
  rcases v1_kind hr hu with ⟨_, hk⟩ | ⟨_, _, w', e⟩ | ⟨_, _, w', e⟩ | ⟨hj, _⟩
  · exact (hk d (by simp)).1 hc
  · simp only [List.cons.injEq] at e; rw [e.1] at hc; exact space_facts.1 hc
  · simp only [List.cons.injEq] at e; rw [e.1] at hc; exact space_facts.2 hc
  · exact hi hj

/-- after a token of white space none follows -/
theorem head_after {u v : Str} (hm : MaxMunch (V1.regexes digit) (u ++ v) 13 u) : ∀ c s', v = c :: s' → ¬ IsSpace c := by
  obtain ⟨hne, _, ⟨r, hr, hu⟩, hmax, _⟩ := hm
  rintro c s' rfl hc
  cases hr
  rcases v1_kind (digit := digit) (i := 13) rfl hu with ⟨h, _⟩ | ⟨h, _⟩ | ⟨h, _⟩ | ⟨_, _, hk⟩
  · omega
  · omega
  · omega
  · have := hmax V1.whiteSpace (List.mem_of_getElem? (i := 13) rfl) (u ++ [c]) (by
      rw [List.prefix_append_right_inj]; exact ⟨s', rfl⟩) (lang_white (by simp) (by
      intro d hd
      rcases List.mem_append.1 hd with h | h
      · exact hk d h
      · cases List.mem_singleton.1 h
        exact hc))
    rw [List.length_append] at this
    exact Nat.not_succ_le_self _ this

theorem solid_cons {i : Nat} {u : Str} {out : List (Nat × Str)} (hi : i ≠ 13) :
    solid ((i + 2, u) :: out) = (i + 2, u) :: solid out := by
  simp only [solid, V1.WHITE_SPACE, ne_eq]
  rw [List.filter_cons_of_pos (by simpa using hi)]

theorem solid_white {u : Str} {out : List (Nat × Str)} : solid ((13 + 2, u) :: out) = solid out := by
  simp [solid, V1.WHITE_SPACE]

/-- white space can be put before any text -/
theorem lexes_white_any (hb : digit '\\' = false) (hq : digit '\'' = false) {g s : Str} {out : List (Nat × Str)}
    (hg : ∀ c ∈ g, IsSpace c) (h : Lexes ((V1.regexes digit).map Regex.find) s out []) :
    ∃ out', Lexes ((V1.regexes digit).map Regex.find) (g ++ s) out' [] ∧ solid out' = solid out := by
  generalize hrem : ([] : Str) = rem at h
  cases h with
  | stop rest hn =>
    subst hrem
    exact lexes_white hb hq hg (fun c s' e => by cases e) (Lexes.stop [] hn)
  | @step u v rem i out hw hl =>
    subst hrem
    have hm := wins_maxMunch (v1_best hb hq) rfl hw
    by_cases hi : i = 13
    · subst hi
      have hu : ∀ c ∈ u, IsSpace c := by
        obtain ⟨_, _, ⟨r, hr, hu⟩, _⟩ := hm
        rcases v1_kind hr hu with ⟨h, _⟩ | ⟨h, _⟩ | ⟨h, _⟩ | ⟨_, _, hk⟩
        · omega
        · omega
        · omega
        · exact hk
      obtain ⟨out', h1, h2⟩ := lexes_white hb hq (g := g ++ u) (fun c hc => by
        rcases List.mem_append.1 hc with h | h
        · exact hg c h
        · exact hu c h) (head_after hm) hl
      exact ⟨out', by rwa [List.append_assoc] at h1, by rw [h2, solid_white]⟩
    · exact lexes_white hb hq hg (head_solid hm hi v) (Lexes.step hw hl)

theorem lexes_join (hb : digit '\\' = false) (hq : digit '\'' = false) {s : Str} {rem : Str} {out : List (Nat × Str)}
    (h : Lexes ((V1.regexes digit).map Regex.find) s out rem) (hrem : rem = []) {c : Char} {z : Str} {out1 : List (Nat × Str)}
    (hc : IsSpace c) (hz : Lexes ((V1.regexes digit).map Regex.find) (c :: z) out1 [])
    (hsw : ∀ x ∈ out, x.1 = 14 → Swallows x.2 → '/' ∉ z) :
    ∃ out', Lexes ((V1.regexes digit).map Regex.find) (s ++ c :: z) out' [] ∧ solid out' = solid out ++ solid out1 := by
  induction h with
  | stop rest hn =>
    subst hrem
    exact ⟨out1, hz, by simp [solid]⟩
  | @step u v rem i out hw hl ih =>
    have hm := wins_maxMunch (v1_best hb hq) rfl hw
    obtain ⟨out', h1, h2⟩ := ih hrem fun x hx => hsw x (by simp [hx])
    rw [List.append_assoc]
    by_cases hi : i = 13
    · subst hi
      obtain ⟨out2, k1, k2⟩ := lexes_white_any hb hq (g := u) (by
        obtain ⟨_, _, ⟨r, hr, hu⟩, _⟩ := hm
        rcases v1_kind hr hu with ⟨h, _⟩ | ⟨h, _⟩ | ⟨h, _⟩ | ⟨_, _, hk⟩
        · omega
        · omega
        · omega
        · exact hk) h1
      exact ⟨out2, k1, by rw [k2, h2, solid_white]⟩
    · refine ⟨_, Lexes.step (maxMunch_wins hb hq (maxMunch_join hb hq hm hi hc fun h12 =>
        hsw _ (List.mem_cons_self) (by simp [h12]))) h1, ?_⟩
      rw [solid_cons hi, solid_cons hi, h2]
      rfl

/-- a literal that ends with an escaped slash goes on up to the next slash, if there is one -/
theorem maxMunch_swallow {u s : Str} (hmu : MaxMunch (V1.regexes digit) (u ++ s) 12 u) (hsw : Swallows u) : '/' ∉ s := by
  intro hz
  obtain ⟨hne, _, ⟨r, hr, hu⟩, hmax, _⟩ := hmu
  cases hr
  change V1.regularLiteral.Lang u at hu
  -- a longer literal
  obtain ⟨p, q, hpq, hp⟩ : ∃ p q, s = p ++ '/' :: q ∧ '/' ∉ p := by
    have hmem := hz
    clear hmax
    generalize s = l at hmem
    clear hz
    induction l with
    | nil => cases hmem
    | cons d l ih =>
      by_cases hd : d = '/'
      · subst hd; exact ⟨[], l, rfl, by simp⟩
      · rcases List.mem_cons.1 hmem with h | h
        · exact absurd h.symm hd
        · obtain ⟨y, z, rfl, hy⟩ := ih h
          exact ⟨d :: y, z, rfl, by simp [hy, Ne.symm hd]⟩
  have hlong : V1.regularLiteral.Lang (u ++ (p ++ ['/'])) := by
    obtain ⟨b, rfl, hb0, hsb⟩ := lang_regular.1 hu
    -- `b` ends with a backslash, which is a unit of its own
    obtain ⟨y, hy⟩ := hsw
    have hby : ∃ b0, b = b0 ++ ['\\'] := by
      obtain ⟨y', rfl⟩ : ∃ y', y = '/' :: y' := by
        cases y with
        | nil => simp at hy
        | cons y0 y => simp only [List.cons_append, List.cons.injEq] at hy; exact ⟨y, by rw [hy.1]⟩
      simp only [List.cons_append, List.cons.injEq, true_and] at hy
      have : (y' ++ ['\\']) ++ ['/'] = b ++ ['/'] := by simpa using hy
      exact ⟨y', (List.append_inj' this rfl).1.symm⟩
    obtain ⟨b0, rfl⟩ := hby
    have hsb0 : Star regUnit.Lang b0 := by
      have key : ∀ s : Str, Star regUnit.Lang s → ∀ b0, s = b0 ++ ['\\'] → Star regUnit.Lang b0 := by
        intro s hs
        induction hs with
        | nil => intro b0 e; simp at e
        | @cons a t ha ht iht =>
          intro b0 e
          cases b0 with
          | nil => exact .nil
          | cons d b0 =>
            rcases regUnit_words.1 ha with rfl | ⟨c', hc', rfl⟩
            · simp only [List.cons_append, List.nil_append, List.cons.injEq] at e
              obtain ⟨rfl, e⟩ := e
              cases b0 with
              | nil =>
                simp only [List.nil_append, List.cons.injEq] at e
                exact absurd e.1 (by decide)
              | cons d' b0 =>
                simp only [List.cons_append, List.cons.injEq] at e
                obtain ⟨rfl, e⟩ := e
                exact Star.cons (u := ['\\', '/']) ha (iht b0 e)
            · simp only [List.cons_append, List.nil_append, List.cons.injEq] at e
              obtain ⟨rfl, e⟩ := e
              exact Star.cons (u := [c']) ha (iht b0 e)
      exact key _ hsb b0 rfl
    refine lang_regular.2 ⟨b0 ++ (['\\', '/'] ++ p), by simp, by simp, ?_⟩
    exact star_append hsb0 (Star.cons (u := ['\\', '/']) (regUnit_words.2 (.inl rfl)) (star_noslash hp))
  have := hmax V1.regularLiteral (List.mem_of_getElem? (i := 12) rfl) (u ++ (p ++ ['/'])) (by
    rw [List.prefix_append_right_inj, hpq]
    exact ⟨q, by simp⟩) hlong
  rw [List.length_append, List.length_append] at this
  exact absurd this (by simp only [List.length_singleton]; omega)

/-- a literal that ends with an escaped slash goes on after the end of the text -/
theorem not_join (hb : digit '\\' = false) (hq : digit '\'' = false) {s : Str} {rem : Str} {out : List (Nat × Str)}
    (h : Lexes ((V1.regexes digit).map Regex.find) s out rem) {c : Char} {z : Str} (hc : IsSpace c) {out' : List (Nat × Str)}
    {rem' : Str} (h' : Lexes ((V1.regexes digit).map Regex.find) (s ++ c :: z) out' rem') {out1 : List (Nat × Str)}
    (e : solid out' = solid out ++ out1) {x : Nat × Str} (hx : x ∈ out) (h14 : x.1 = 14) (hs : Swallows x.2) : '/' ∉ z := by
  induction h generalizing out' with
  | stop rest hn => cases hx
  | @step u v rem i out hw hl ih =>
    intro hz
    have hm := wins_maxMunch (v1_best hb hq) rfl hw
    rw [List.append_assoc] at h'
    -- the first token of the joined text
    have first : ∀ {t j w}, MaxMunch (V1.regexes digit) (u ++ (v ++ c :: z)) j w → w ++ t = u ++ (v ++ c :: z) →
        ∃ out2, out' = (j + 2, w) :: out2 ∧ Lexes ((V1.regexes digit).map Regex.find) t out2 rem' := by
      intro t j w hj et
      generalize hS : u ++ (v ++ c :: z) = S at h' hj et
      cases h' with
      | stop rest hn => exact absurd (noMatch_noPrefix (v1_best hb hq) hn) (C53_unique (j := 0) (w := []) hj).1
      | @step u2 v2 _ i2 out2 hw2 hl2 =>
        have hm2 := wins_maxMunch (v1_best hb hq) rfl hw2
        obtain ⟨rfl, rfl⟩ := (C53_unique hj).2 hm2
        have := List.append_cancel_left et
        subst this
        exact ⟨out2, rfl, hl2⟩
    by_cases hi : i = 13
    · subst hi
      have hx' : x ∈ out := by
        rcases List.mem_cons.1 hx with rfl | h
        · simp at h14
        · exact h
      have hv : v ≠ [] := by
        rintro rfl
        have := lexes_texts hl
        have : (out.map Prod.snd).flatten = [] := (List.append_eq_nil_iff.1 this.symm).1
        rw [List.flatten_eq_nil_iff] at this
        have h0 := this x.2 (List.mem_map.2 ⟨x, hx', rfl⟩)
        rw [h0] at hs
        simp [Swallows] at hs
      have hu : u ≠ [] ∧ ∀ c ∈ u, IsSpace c := by
        obtain ⟨_, _, ⟨r, hr, hu⟩, _⟩ := hm
        rcases v1_kind hr hu with ⟨h, _⟩ | ⟨h, _⟩ | ⟨h, _⟩ | ⟨_, h, hk⟩
        · omega
        · omega
        · omega
        · exact ⟨h, hk⟩
      have hm' : MaxMunch (V1.regexes digit) (u ++ (v ++ c :: z)) 13 u := maxMunch_white hu.1 hu.2 (by
        intro d s' e
        obtain ⟨d', v', rfl⟩ := List.exists_cons_of_ne_nil hv
        simp only [List.cons_append, List.cons.injEq] at e
        rw [← e.1]
        exact head_after hm d' v' rfl)
      obtain ⟨out2, rfl, hl2⟩ := first hm' rfl
      rw [solid_white, solid_white] at e
      exact ih hl2 e hx' hz
    · by_cases hbad : i = 12 ∧ Swallows u
      · obtain ⟨rfl, hsw⟩ := hbad
        rw [solid_cons hi] at e
        -- the first token of the joined text would be `u`
        have hfirst : ∃ out2, out' = (12 + 2, u) :: out2 := by
          generalize hS : u ++ (v ++ c :: z) = S at h'
          cases h' with
          | stop rest hn => simp [solid] at e
          | @step u2 v2 _ i2 out2 hw2 hl2 =>
            have hm2 := wins_maxMunch (v1_best hb hq) rfl hw2
            by_cases hi2 : i2 = 13
            · subst hi2
              exfalso
              obtain ⟨hne2, _, ⟨r, hr, hu2⟩, _⟩ := hm2
              obtain ⟨d2, u2', rfl⟩ := List.exists_cons_of_ne_nil hne2
              rcases v1_kind hr hu2 with ⟨h, _⟩ | ⟨h, _⟩ | ⟨h, _⟩ | ⟨_, _, hk⟩
              · omega
              · omega
              · omega
              · exact head_solid hm hi (v ++ c :: z) d2 (u2' ++ v2) hS (hk d2 (by simp))
            · rw [solid_cons hi2] at e
              simp only [List.cons_append, List.cons.injEq, Prod.mk.injEq] at e
              obtain ⟨⟨e1, rfl⟩, -⟩ := e
              obtain rfl : i2 = 12 := by omega
              exact ⟨out2, rfl⟩
        obtain ⟨out2, rfl⟩ := hfirst
        have hmu : MaxMunch (V1.regexes digit) (u ++ (v ++ c :: z)) 12 u := by
          generalize hS : u ++ (v ++ c :: z) = S at h'
          generalize hO : (12 + 2, u) :: out2 = O at h'
          cases h' with
          | stop rest hn => cases hO
          | @step u2 v2 _ i2 out3 hw2 hl2 =>
            simp only [List.cons.injEq, Prod.mk.injEq] at hO
            obtain ⟨⟨h1, rfl⟩, -⟩ := hO
            obtain rfl : i2 = 12 := by omega
            exact wins_maxMunch (v1_best hb hq) rfl hw2
        exact maxMunch_swallow hmu hsw (by simp [hz])
      · have hm' := maxMunch_join hb hq (z := z) hm hi hc fun h1 h2 => absurd ⟨h1, h2⟩ hbad
        obtain ⟨out2, rfl, hl2⟩ := first hm' rfl
        rw [solid_cons hi, solid_cons hi, List.cons_append, List.cons.injEq] at e
        have hx' : x ∈ out := by
          rcases List.mem_cons.1 hx with rfl | h
          · exact absurd ⟨by simpa using h14, hs⟩ hbad
          · exact h
        exact ih hl2 e.2 hx' hz

/-- a scan that reaches the end ends with the end token -/
theorem scansTo_split {text : Str} {toks : List Token} (h : V1.ScansTo digit text toks none) :
    ∃ out, Lexes ((V1.regexes digit).map Regex.find) text out [] ∧ toks.map Token.out = solid out ++ [(1, "_STOP".toList)] := by
  obtain ⟨out, rem, tk, h1, h2, h3⟩ := scansTo_iff (digit := digit) text
  obtain ⟨rfl, hp⟩ := (h3 _ _).1 h
  have hrem : rem = [] := by
    by_contra hr
    rw [if_neg hr] at hp; cases hp
  subst hrem
  exact ⟨out, h1, by rw [h2, if_pos rfl]⟩

/-- **C95** two texts that are lexed to their ends, joined by white space, give the tokens of the first followed by those
of the second, exactly if no regular expression of the first ends with an escaped slash or the second has no slash.
(This is the condition under which the property holds: it does not hold of all texts, see `C95_swallowed`.) -/
theorem C95_joined_partial (hb : digit '\\' = false) (hq : digit '\'' = false) (a b g : Str) (hne : g ≠ [])
    (hg : ∀ c ∈ g, IsSpace c) (ta tb : List Token) (sa : Token) (h1 : V1.ScansTo digit a (ta ++ [sa]) none)
    (h2 : V1.ScansTo digit b tb none) :
    (∃ toks, V1.ScansTo digit (a ++ g ++ b) toks none ∧
      toks.map (fun t => (t.tokenType, t.text)) = (ta ++ tb).map (fun t => (t.tokenType, t.text))) ↔
    ((∀ t ∈ ta, t.tokenType = 14 → ¬ ['\\', '/'] <:+ t.text) ∨ '/' ∉ b) := by
  change (∃ toks, V1.ScansTo digit (a ++ g ++ b) toks none ∧ toks.map Token.out = (ta ++ tb).map Token.out) ↔ _
  obtain ⟨outa, la, ea⟩ := scansTo_split h1
  obtain ⟨outb, lb, eb⟩ := scansTo_split h2
  rw [List.map_append, List.map_singleton] at ea
  have ea' := (List.append_inj' ea rfl).1
  obtain ⟨c, g', rfl⟩ := List.exists_cons_of_ne_nil hne
  have hc := hg c (by simp)
  have hz : '/' ∈ g' ++ b ↔ '/' ∈ b := by
    simp only [List.mem_append, or_iff_right_iff_imp]
    intro h
    exact absurd (hg '/' (by simp [h])) space_facts.2
  have hmem : ∀ x, x ∈ outa → x.1 = 14 → ∃ t ∈ ta, t.tokenType = 14 ∧ t.text = x.2 := by
    intro x hx h14
    have : x ∈ solid outa := by
      unfold solid
      refine List.mem_filter.2 ⟨hx, ?_⟩
      simp [h14, V1.WHITE_SPACE]
    rw [← ea'] at this
    obtain ⟨t, ht, rfl⟩ := List.mem_map.1 this
    exact ⟨t, ht, h14, rfl⟩
  have hmem' : ∀ t ∈ ta, t.tokenType = 14 → t.out ∈ outa := by
    intro t ht _
    have : t.out ∈ solid outa := by rw [← ea']; exact List.mem_map.2 ⟨t, ht, rfl⟩
    unfold solid at this
    exact List.mem_of_mem_filter this
  constructor
  · rintro ⟨toks, k1, k2⟩
    obtain ⟨out, l, e⟩ := scansTo_split k1
    by_contra hcon
    push Not at hcon
    obtain ⟨⟨t, ht, ht14, hts⟩, hsl⟩ := hcon
    rw [k2, List.map_append, eb, ← List.append_assoc] at e
    have e2 := (List.append_inj' e rfl).1
    rw [ea'] at e2
    rw [List.append_assoc, List.cons_append] at l
    exact not_join hb hq la hc l e2.symm (hmem' t ht ht14) ht14 hts (hz.2 hsl)
  · intro hcon
    obtain ⟨out1, k1, k2⟩ := lexes_white_any hb hq hg lb
    obtain ⟨out', l1, l2⟩ := lexes_join hb hq la rfl hc k1 (by
      intro x hx h14 hs
      obtain ⟨t, ht, h14', hte⟩ := hmem x hx h14
      rcases hcon with h | h
      · exact absurd (hte ▸ hs) (h t ht h14')
      · exact fun h' => h (hz.1 h'))
    obtain ⟨out2, rem2, tk2, m1, m2, m3⟩ := scansTo_iff (digit := digit) (a ++ c :: g' ++ b)
    rw [List.append_assoc, List.cons_append] at m1
    obtain ⟨rfl, rfl⟩ := m1.unique l1
    refine ⟨tk2, (m3 _ _).2 ⟨rfl, by simp⟩, ?_⟩
    rw [m2, if_pos rfl, l2, k2, List.map_append, eb, ea', List.append_assoc]

/-! ### joined files -/

theorem out_eq {t t' : Token} (h : t'.out = t.out) : t'.tokenType = t.tokenType ∧ t'.text = t.text :=
  ⟨congrArg Prod.fst h, congrArg Prod.snd h⟩

theorem WSuffix.congr {f : Suffix} {ts : List Token} (h : WSuffix f ts) {ts' : List Token}
    (e : ts'.map Token.out = ts.map Token.out) : WSuffix f ts' := by
  cases h with
  | plain h =>
    obtain ⟨t', r, rfl, h1, h2⟩ := List.map_eq_cons_iff.1 e
    cases List.map_eq_nil_iff.1 h2
    exact .plain ((out_eq h1).1.trans h)
  | lazy h hq =>
    obtain ⟨t', r, rfl, h1, h2⟩ := List.map_eq_cons_iff.1 e
    obtain ⟨q', r, rfl, h3, h4⟩ := List.map_eq_cons_iff.1 h2
    cases List.map_eq_nil_iff.1 h4
    exact .lazy ((out_eq h1).1.trans h) ((out_eq h3).1.trans hq)

mutual
theorem WAtom.congr : ∀ {x : Elem} {ts : List Token}, WAtom x ts → ∀ {ts' : List Token},
    ts'.map Token.out = ts.map Token.out → WAtom x ts'
  | _, _, .token h, _, e => by
    obtain ⟨t', r, rfl, h1, h2⟩ := List.map_eq_cons_iff.1 e
    cases List.map_eq_nil_iff.1 h2
    rw [← (out_eq h1).2]
    exact .token ((out_eq h1).1.trans h)
  | _, _, .literal h, _, e => by
    obtain ⟨t', r, rfl, h1, h2⟩ := List.map_eq_cons_iff.1 e
    cases List.map_eq_nil_iff.1 h2
    rw [← (out_eq h1).2]
    exact .literal ((out_eq h1).1.trans h)
  | _, _, .rule h, _, e => by
    obtain ⟨t', r, rfl, h1, h2⟩ := List.map_eq_cons_iff.1 e
    cases List.map_eq_nil_iff.1 h2
    rw [← (out_eq h1).2]
    exact .rule ((out_eq h1).1.trans h)
  | _, _, .group hl hr h, _, e => by
    obtain ⟨l', r, rfl, h1, h2⟩ := List.map_eq_cons_iff.1 e
    rw [List.map_append] at h2
    obtain ⟨a, b, rfl, h3, h4⟩ := List.map_eq_append_iff.1 h2
    obtain ⟨r', q, rfl, h5, h6⟩ := List.map_eq_cons_iff.1 h4
    cases List.map_eq_nil_iff.1 h6
    exact .group ((out_eq h1).1.trans hl) ((out_eq h5).1.trans hr) (WBlock.congr h h3)
theorem WElem.congr : ∀ {x : Elem} {ts : List Token}, WElem x ts → ∀ {ts' : List Token},
    ts'.map Token.out = ts.map Token.out → WElem x ts'
  | _, _, .plain h, _, e => .plain (WAtom.congr h e)
  | _, _, .suffix h hs, _, e => by
    rw [List.map_append] at e
    obtain ⟨a, b, rfl, h3, h4⟩ := List.map_eq_append_iff.1 e
    exact .suffix (WAtom.congr h h3) (hs.congr h4)
theorem WSeq.congr : ∀ {x : List Elem} {ts : List Token}, WSeq x ts → ∀ {ts' : List Token},
    ts'.map Token.out = ts.map Token.out → WSeq x ts'
  | _, _, .one h, _, e => .one (WElem.congr h e)
  | _, _, .cons h hs, _, e => by
    rw [List.map_append] at e
    obtain ⟨a, b, rfl, h3, h4⟩ := List.map_eq_append_iff.1 e
    exact .cons (WElem.congr h h3) (WSeq.congr hs h4)
theorem WAlt.congr : ∀ {x : List Elem} {ts : List Token}, WAlt x ts → ∀ {ts' : List Token},
    ts'.map Token.out = ts.map Token.out → WAlt x ts'
  | _, _, .epsilon h, _, e => by
    obtain ⟨t', r, rfl, h1, h2⟩ := List.map_eq_cons_iff.1 e
    cases List.map_eq_nil_iff.1 h2
    exact .epsilon ((out_eq h1).1.trans h)
  | _, _, .seq h, _, e => .seq (WSeq.congr h e)
theorem WBlock.congr : ∀ {x : List (List Elem)} {ts : List Token}, WBlock x ts → ∀ {ts' : List Token},
    ts'.map Token.out = ts.map Token.out → WBlock x ts'
  | _, _, .one h, _, e => .one (WAlt.congr h e)
  | _, _, .cons h ho hs, _, e => by
    rw [List.map_append] at e
    obtain ⟨a, b, rfl, h3, h4⟩ := List.map_eq_append_iff.1 e
    obtain ⟨o', q, rfl, h5, h6⟩ := List.map_eq_cons_iff.1 h4
    exact .cons (WAlt.congr h h3) ((out_eq h5).1.trans ho) (WBlock.congr hs h6)
end

/-- whether tokens are a grammar file, and which, is told by their types and texts -/
theorem WFile.congr {D : Rules} {L : List (Str × Str)} {ts : List Token} (h : WFile D L ts) {ts' : List Token}
    (e : ts'.map Token.out = ts.map Token.out) : WFile D L ts' := by
  induction h generalizing ts' with
  | nil => cases List.map_eq_nil_iff.1 e; exact .nil
  | parserRule hn hc hb hs h ih =>
    obtain ⟨n, r, rfl, e1, e⟩ := List.map_eq_cons_iff.1 e
    obtain ⟨c, r, rfl, e2, e⟩ := List.map_eq_cons_iff.1 e
    rw [List.map_append] at e
    obtain ⟨x, r, rfl, e3, e⟩ := List.map_eq_append_iff.1 e
    obtain ⟨s, r, rfl, e4, e⟩ := List.map_eq_cons_iff.1 e
    rw [← (out_eq e1).2]
    exact .parserRule ((out_eq e1).1.trans hn) ((out_eq e2).1.trans hc) (hb.congr e3) ((out_eq e4).1.trans hs) (ih e)
  | lexerRule hn hc hr hs h ih =>
    obtain ⟨n, r, rfl, e1, e⟩ := List.map_eq_cons_iff.1 e
    obtain ⟨c, r, rfl, e2, e⟩ := List.map_eq_cons_iff.1 e
    obtain ⟨x, r, rfl, e3, e⟩ := List.map_eq_cons_iff.1 e
    obtain ⟨s, r, rfl, e4, e⟩ := List.map_eq_cons_iff.1 e
    rw [← (out_eq e1).2, ← (out_eq e3).2]
    exact .lexerRule ((out_eq e1).1.trans hn) ((out_eq e2).1.trans hc) ((out_eq e3).1.trans hr) ((out_eq e4).1.trans hs)
      (ih e)

theorem WFile.append {D D' : Rules} {L L' : List (Str × Str)} {ts ts' : List Token} (h : WFile D L ts)
    (h' : WFile D' L' ts') : WFile (D ++ D') (L ++ L') (ts ++ ts') := by
  induction h with
  | nil => exact h'
  | parserRule hn hc hb hs h ih =>
    simp only [List.cons_append, List.append_assoc]
    exact .parserRule hn hc hb hs ih
  | lexerRule hn hc hr hs h ih => exact .lexerRule hn hc hr hs ih

theorem WSuffix.no14 {f : Suffix} {ts : List Token} (h : WSuffix f ts) : ∀ t ∈ ts, t.tokenType ≠ 14 := by
  cases h with
  | plain h => cases f <;> simp_all [Suffix.token]
  | lazy h hq => cases f <;> simp_all [Suffix.token]

mutual
theorem WAtom.no14 : ∀ {x : Elem} {ts : List Token}, WAtom x ts → ∀ t ∈ ts, t.tokenType ≠ 14
  | _, _, .token h, t, ht => by cases List.mem_singleton.1 ht; omega
  | _, _, .literal h, t, ht => by cases List.mem_singleton.1 ht; omega
  | _, _, .rule h, t, ht => by cases List.mem_singleton.1 ht; omega
  | _, _, .group hl hr h, t, ht => by
    simp only [List.mem_cons, List.mem_append, List.not_mem_nil, or_false] at ht
    rcases ht with rfl | ht | rfl
    · omega
    · exact WBlock.no14 h t ht
    · omega
theorem WElem.no14 : ∀ {x : Elem} {ts : List Token}, WElem x ts → ∀ t ∈ ts, t.tokenType ≠ 14
  | _, _, .plain h, t, ht => WAtom.no14 h t ht
  | _, _, .suffix h hs, t, ht => by
    rcases List.mem_append.1 ht with ht | ht
    · exact WAtom.no14 h t ht
    · exact hs.no14 t ht
theorem WSeq.no14 : ∀ {x : List Elem} {ts : List Token}, WSeq x ts → ∀ t ∈ ts, t.tokenType ≠ 14
  | _, _, .one h, t, ht => WElem.no14 h t ht
  | _, _, .cons h hs, t, ht => by
    rcases List.mem_append.1 ht with ht | ht
    · exact WElem.no14 h t ht
    · exact WSeq.no14 hs t ht
theorem WAlt.no14 : ∀ {x : List Elem} {ts : List Token}, WAlt x ts → ∀ t ∈ ts, t.tokenType ≠ 14
  | _, _, .epsilon h, t, ht => by cases List.mem_singleton.1 ht; omega
  | _, _, .seq h, t, ht => WSeq.no14 h t ht
theorem WBlock.no14 : ∀ {x : List (List Elem)} {ts : List Token}, WBlock x ts → ∀ t ∈ ts, t.tokenType ≠ 14
  | _, _, .one h, t, ht => WAlt.no14 h t ht
  | _, _, .cons h ho hs, t, ht => by
    simp only [List.mem_cons, List.mem_append] at ht
    rcases ht with ht | rfl | ht
    · exact WAlt.no14 h t ht
    · omega
    · exact WBlock.no14 hs t ht
end

/-- the regular expressions of a file are those of its lexer rules -/
theorem WFile.regulars {D : Rules} {L : List (Str × Str)} {ts : List Token} (h : WFile D L ts) :
    ∀ t ∈ ts, t.tokenType = 14 → ∃ n, (n, t.text) ∈ L := by
  induction h with
  | nil => simp
  | parserRule hn hc hb hs h ih =>
    intro t ht h14
    simp only [List.mem_cons, List.mem_append] at ht
    rcases ht with rfl | rfl | ht | rfl | ht
    · omega
    · omega
    · exact absurd h14 (hb.no14 t ht)
    · omega
    · exact ih t ht h14
  | lexerRule hn hc hr hs h ih =>
    intro t ht h14
    simp only [List.mem_cons] at ht
    rcases ht with rfl | rfl | rfl | rfl | ht
    · omega
    · omega
    · exact ⟨_, List.mem_cons_self⟩
    · omega
    · obtain ⟨n, hn⟩ := ih t ht h14
      exact ⟨n, List.mem_cons_of_mem _ hn⟩

open Main in
/-- **C95** joined grammar files are a grammar file with the rules of both, and are drawn as such, provided that no regular
expression of the first ends with an escaped slash, or the second has no slash at all.  Missing (false): other files,
`C95_swallowed`. -/
theorem C95_files_partial (hb : digit '\\' = false) (hq : digit '\'' = false) (a b g : Str) (hne : g ≠ [])
    (hg : ∀ c ∈ g, IsSpace c) (ta tb : List Token) (sa sb : Token) (h1 : V1.ScansTo digit a (ta ++ [sa]) none)
    (h2 : V1.ScansTo digit b (tb ++ [sb]) none) (D D' : Rules) (L L' : List (Str × Str)) (w1 : WFile D L ta)
    (w2 : WFile D' L' tb) (hs : (∀ x ∈ L, ¬ ['\\', '/'] <:+ x.2) ∨ '/' ∉ b) :
    ∃ r, (∀ h, Ends h digit (a ++ g ++ b) (.ok ⟨[], [], none, [], Page.render "parser".toList r⟩)) ∧
      r.toAst.leaves.map Token.text = (ta ++ tb).map Token.text ∧
      readRules .v1 r.children = some (D ++ D') ∧ readLexRules .v1 r.children = (L ++ L').map some := by
  obtain ⟨toks, k1, k2⟩ := (C95_joined_partial hb hq a b g hne hg ta (tb ++ [sb]) sa h1 h2).2 (hs.imp_left
    fun h t ht h14 => by
      obtain ⟨n, hn⟩ := w1.regulars t ht h14
      exact h _ hn)
  change toks.map Token.out = _ at k2
  rw [← List.append_assoc] at k2
  change toks.map Token.out = ((ta ++ tb) ++ [sb]).map Token.out at k2
  rw [List.map_append] at k2
  obtain ⟨tk, st, rfl, e1, e2⟩ := List.map_eq_append_iff.1 k2
  obtain ⟨stop, r, rfl, e3, e4⟩ := List.map_eq_cons_iff.1 e2
  cases List.map_eq_nil_iff.1 e4
  have hsb : sb.tokenType = 1 := by
    obtain ⟨out, -, e⟩ := scansTo_split h2
    rw [List.map_append] at e
    have := (List.append_inj' e rfl).2
    simp only [List.map_singleton, List.cons.injEq, and_true] at this
    exact congrArg Prod.fst this
  obtain ⟨r, m1, m2, m3, m4⟩ := C70_drawn digit _ tk stop k1 ((out_eq e3).1.trans hsb) _ _ ((w1.append w2).congr e1)
  refine ⟨r, m1, ?_, m3, m4⟩
  rw [m2]
  have := congrArg (List.map Prod.snd) e1
  rw [List.map_map, List.map_map] at this
  exact this

theorem scansTo_run {text : Str} {x : List (Nat × Str)} {p : Option Str}
    (h : ((V1.lexer digit text).scanAll V1.WHITE_SPACE 0 60).map (fun x => (x.1.map Token.out, x.2.1)) = .ok (x, p)) :
    ∃ toks, V1.ScansTo digit text toks p ∧ toks.map Token.out = x := by
  cases hr : (V1.lexer digit text).scanAll V1.WHITE_SPACE 0 60 with
  | error e => rw [hr] at h; cases h
  | ok y =>
    rw [hr] at h
    simp only [Except.map, Except.ok.injEq, Prod.mk.injEq] at h
    exact ⟨y.1, scansTo_of (n := 60) (by rw [hr]; simp only [Except.map]; rw [h.2]), h.1⟩

/-- one lexer rule -/
theorem file_of_rule {text n r : Str} (h : ((V1.lexer digit text).scanAll V1.WHITE_SPACE 0 60).map
    (fun x => (x.1.map Token.out, x.2.1)) =
      .ok ([(3, n), (4, chars! ":"), (14, r), (5, chars! ";"), (1, chars! "_STOP")], none)) :
    ∃ toks stop, V1.ScansTo digit text (toks ++ [stop]) none ∧ stop.tokenType = 1 ∧ WFile [] [(n, r)] toks := by
  obtain ⟨toks, h1, h2⟩ := scansTo_run h
  obtain ⟨t1, q, rfl, e1, e⟩ := List.map_eq_cons_iff.1 h2
  obtain ⟨t2, q, rfl, e2, e⟩ := List.map_eq_cons_iff.1 e
  obtain ⟨t3, q, rfl, e3, e⟩ := List.map_eq_cons_iff.1 e
  obtain ⟨t4, q, rfl, e4, e⟩ := List.map_eq_cons_iff.1 e
  obtain ⟨t5, q, rfl, e5, e⟩ := List.map_eq_cons_iff.1 e
  cases List.map_eq_nil_iff.1 e
  have x1 : t1.text = n := congrArg Prod.snd e1
  have x3 : t3.text = r := congrArg Prod.snd e3
  refine ⟨[t1, t2, t3, t4], t5, h1, congrArg Prod.fst e5, ?_⟩
  rw [← x1, ← x3]
  exact .lexerRule (congrArg Prod.fst e1) (congrArg Prod.fst e2) (congrArg Prod.fst e3) (congrArg Prod.fst e4) .nil

open Main in
/-- **C95** not all grammar files can be joined: the program draws `AB: /x\/;` and `CD: /y/;` without a message, but not
the two one below the other.  The regular expression of the first then goes on up to the first slash of the second. -/
theorem C95_swallowed :
    (∃ page, ∀ h, Ends h isDigit09 (chars! "AB: /x\\/;") (.ok ⟨[], [], none, [], page⟩)) ∧
    (∃ page, ∀ h, Ends h isDigit09 (chars! "CD: /y/;") (.ok ⟨[], [], none, [], page⟩)) ∧
    ¬ (∃ page, ∀ h, Ends h isDigit09 (chars! "AB: /x\\/;\nCD: /y/;") (.ok ⟨[], [], none, [], page⟩)) := by
  refine ⟨(C70_silent_iff _ _).2 ?_, (C70_silent_iff _ _).2 ?_, fun h => ?_⟩
  · obtain ⟨toks, stop, h1, h2, h3⟩ := file_of_rule (digit := isDigit09) (text := chars! "AB: /x\\/;") (n := chars! "AB")
      (r := chars! "/x\\/") (by decide +kernel)
    exact ⟨toks, stop, _, _, h1, h2, h3⟩
  · obtain ⟨toks, stop, h1, h2, h3⟩ := file_of_rule (digit := isDigit09) (text := chars! "CD: /y/;") (n := chars! "CD")
      (r := chars! "/y/") (by decide +kernel)
    exact ⟨toks, stop, _, _, h1, h2, h3⟩
  · obtain ⟨toks, stop, D, L, h1, -, -⟩ := (C70_silent_iff _ _).1 h
    obtain ⟨toks', h2, -⟩ := scansTo_run (digit := isDigit09) (text := chars! "AB: /x\\/;\nCD: /y/;")
      (x := [(3, chars! "AB"), (4, chars! ":"), (14, chars! "/x\\/;\nCD: /")]) (p := some (chars! "y/;"))
      (by decide +kernel)
    obtain ⟨out, rem, tk, -, -, h3⟩ := scansTo_iff (digit := isDigit09) (chars! "AB: /x\\/;\nCD: /y/;")
    have e1 := ((h3 _ _).1 h1).2
    have e2 := ((h3 _ _).1 h2).2
    rw [← e2] at e1
    cases e1

open Main in
/-- non-vacuity of `C95_files_partial`: two rules one below the other -/
example : ∃ r, (∀ h, Ends h isDigit09 (chars! "AB: /x/;" ++ ['\n'] ++ chars! "CD: /y/;")
      (.ok ⟨[], [], none, [], Page.render "parser".toList r⟩)) ∧
    readLexRules .v1 r.children = [some (chars! "AB", chars! "/x/"), some (chars! "CD", chars! "/y/")] := by
  obtain ⟨ta, sa, h1, -, h3⟩ := file_of_rule (digit := isDigit09) (text := chars! "AB: /x/;") (n := chars! "AB")
    (r := chars! "/x/") (by decide +kernel)
  obtain ⟨tb, sb, k1, -, k3⟩ := file_of_rule (digit := isDigit09) (text := chars! "CD: /y/;") (n := chars! "CD")
    (r := chars! "/y/") (by decide +kernel)
  obtain ⟨r, m1, -, -, m4⟩ := C95_files_partial (by decide) (by decide) _ _ ['\n'] (by simp) (by
    intro c hc
    cases List.mem_singleton.1 hc
    exact (isWhite_iff _).1 (by decide)) ta tb sa sb h1 k1 [] [] _ _ h3 k3 (.inl (by decide))
  exact ⟨r, m1, m4⟩

end Syntaxis
