import Verif.Spec.Comments
import Verif.Props.Spacing

/-!
# C67: comments of the first lexer

A comment is one token whatever it contains, and is skipped; a line comment that ends with the input instead
of a line feed is a lexical error.
-/

namespace Syntaxis

open Regex

variable {digit : Char → Bool}

/-! ### reluctant repetition stops at the first opportunity -/

theorem iterateLazy_cls_flatMap {p : Char → Bool} {q : Str → List Str} {t s : Str} {n : Nat}
    (hp : ∀ c ∈ t, p c = true) (hq : ∀ a b, t = a ++ b → b ≠ [] → q (b ++ s) = []) (hn : (t ++ s).length ≤ n)
    (hs : q s ≠ []) :
    ((iterateLazy (run (cls p)) n (t ++ s)).flatMap q).head? = (q s).head? := by
  induction t generalizing n with
  | nil =>
    cases n with
    | zero => simp [iterateLazy]
    | succ n =>
      simp only [List.nil_append, iterateLazy, List.flatMap_cons]
      cases h : q s with
      | nil => exact absurd h hs
      | cons x xs => rfl
  | cons c t ih =>
    cases n with
    | zero => simp at hn
    | succ n =>
      have h0 : q (c :: t ++ s) = [] := hq [] (c :: t) rfl (by simp)
      have hc : p c = true := hp c (by simp)
      have hrun : run (cls p) (c :: t ++ s) = [t ++ s] := by simp [run, hc]
      simp only [iterateLazy, List.flatMap_cons, h0, List.nil_append, hrun, List.flatMap_nil,
        List.append_nil]
      rw [if_pos (by simp)]
      exact ih (fun d hd => hp d (by simp [hd])) (fun a b e hb => hq (c :: a) b (by rw [e]; rfl) hb)
        (by simp at hn ⊢; omega)

theorem run_str_append (w s : Str) : run (str w) (w ++ s) = [s] := by
  match w with
  | [] => rfl
  | [c] => simp [str, lit, run]
  | c :: d :: w =>
    have := run_str_append (d :: w) s
    simp only [List.cons_append] at this ⊢
    simp [str, lit, run, this]

theorem run_str_nil {w s : Str} (h : ¬ w <+: s) : run (str w) s = [] := by
  rw [List.eq_nil_iff_forall_not_mem]
  intro t ht
  obtain ⟨u, rfl, hu⟩ := (mem_run _ _ _).1 ht
  rw [lang_str] at hu
  subst hu
  exact h ⟨t, rfl⟩

/-- a reluctantly repeated class between two strings -/
theorem find_lazy {p : Char → Bool} {w x t v : Str} (hp : ∀ c ∈ t, p c = true)
    (hx : ∀ a b, t = a ++ b → b ≠ [] → ¬ x <+: b ++ (x ++ v)) :
    (seq (str w) (seq (lazyStar (cls p)) (str x))).find (w ++ (t ++ (x ++ v))) =
      some (byteLen (w ++ (t ++ x))) := by
  have h : (run (seq (str w) (seq (lazyStar (cls p)) (str x))) (w ++ (t ++ (x ++ v)))).head? = some v := by
    show ((run (str w) (w ++ (t ++ (x ++ v)))).flatMap fun s =>
      (iterateLazy (run (cls p)) s.length s).flatMap (run (str x))).head? = some v
    simp only [run_str_append, List.flatMap_cons, List.flatMap_nil, List.append_nil]
    rw [iterateLazy_cls_flatMap hp (fun a b e hb => run_str_nil (hx a b e hb)) (Nat.le_refl _)
      (by rw [run_str_append]; simp), run_str_append]
    rfl
  simp only [find, h, Option.map_some, byteLen_append]
  congr 1
  omega

theorem find_lineComment {u v : Str} (h : IsLineComment u) :
    Old.lineComment.find (u ++ v) = some (byteLen u) := by
  obtain ⟨t, rfl, ht⟩ := h
  have := find_lazy (p := fun c => c != '\n') (w := ['/', '/']) (x := ['\n']) (t := t) (v := v)
    (fun c hc => by simp only [bne_iff_ne, ne_eq]; rintro rfl; exact ht hc)
    (fun a b e hb hpre => by
      cases b with
      | nil => exact hb rfl
      | cons d b =>
        simp only [List.cons_append, List.cons_prefix_cons] at hpre
        apply ht; rw [e, ← hpre.1]; simp)
  simpa [Old.lineComment, str] using this

theorem find_blockComment {u v : Str} (h : IsBlockComment u) :
    Old.blockComment.find (u ++ v) = some (byteLen u) := by
  obtain ⟨t, rfl, ht⟩ := h
  have := find_lazy (p := fun _ => true) (w := ['/', '*']) (x := ['*', '/']) (t := t) (v := v)
    (fun c hc => rfl)
    (fun a b e hb hpre => by
      match b, hb with
      | [d], _ =>
        simp at hpre
      | d :: d' :: b, _ =>
        simp only [List.cons_append, List.cons_prefix_cons] at hpre
        have := ht a (b ++ ['*', '/']) (by rw [e, ← hpre.1, ← hpre.2.1]; simp)
        simp at this)
  simpa [Old.blockComment] using this

/-! ### nothing else matches as much -/

/-- the rules that match something beginning with a slash -/
theorem old_slash {i : Nat} {r : Regex} {w : Str} (hr : (Old.regexes digit)[i]? = some r)
    (h : r.Lang ('/' :: w)) :
    (i = 0 ∧ Old.lineComment.Lang ('/' :: w)) ∨ (i = 1 ∧ Old.blockComment.Lang ('/' :: w)) ∨
      (i = 19 ∧ V1.regularLiteral.Lang ('/' :: w)) := by
  have cl : ∀ {p : Char → Bool} {q : Regex}, p '/' = false → ¬ (seq (cls p) q).Lang ('/' :: w) := by
    rintro p q hp ⟨a, b, e, ⟨d, hd, rfl⟩, _⟩
    simp only [List.cons_append, List.nil_append, List.cons.injEq] at e
    rw [← e.1, hp] at hd
    cases hd
  match i, hr with
  | 0, hr => cases hr; exact Or.inl ⟨rfl, h⟩
  | 1, hr => cases hr; exact Or.inr (Or.inl ⟨rfl, h⟩)
  | 2, hr => cases hr; exact absurd h (cl (by decide))
  | 3, hr => cases hr; rw [Old.fragment, lang_str] at h; simp at h
  | 4, hr => cases hr; exact absurd h (cl (by decide))
  | 5, hr => cases hr; exact absurd h (cl (by decide))
  | 6, hr => cases hr; simp [V1.colon, alts, Lang, lang_lit, lang_str] at h
  | 7, hr => cases hr; simp [lang_lit] at h
  | 8, hr => cases hr; simp [lang_lit] at h
  | 9, hr => cases hr; simp [lang_lit] at h
  | 10, hr => cases hr; simp [lang_lit] at h
  | 11, hr => cases hr; simp [lang_lit] at h
  | 12, hr => cases hr; simp [lang_lit] at h
  | 13, hr => cases hr; simp [lang_lit] at h
  | 14, hr => cases hr; simp [lang_lit] at h
  | 15, hr => cases hr; simp [lang_lit] at h
  | 16, hr => cases hr; simp [lang_lit] at h
  | 17, hr =>
    cases hr
    obtain ⟨a, b, e, ha, _⟩ := h
    rw [lang_lit] at ha
    subst ha
    simp at e
  | 18, hr => cases hr; simp [lang_str] at h
  | 19, hr => cases hr; exact Or.inr (Or.inr ⟨rfl, h⟩)
  | 20, hr => cases hr; simp [V1.epsilon, alts, Lang, lang_lit, lang_str] at h
  | n + 21, hr => simp [Old.regexes] at hr

theorem lineComment_head {w : Str} (h : Old.lineComment.Lang w) : ∃ t, w = '/' :: '/' :: (t ++ ['\n']) ∧ '\n' ∉ t := by
  obtain ⟨a, b, rfl, ha, c, d, rfl, hc, hd⟩ := h
  rw [lang_str] at ha
  rw [lang_lit] at hd
  subst ha hd
  refine ⟨c, rfl, fun hm => ?_⟩
  have := mem_star_cls (p := fun c => c != '\n') hc _ hm
  simp at this

theorem blockComment_head {w : Str} (h : Old.blockComment.Lang w) : ∃ t, w = '/' :: '*' :: (t ++ ['*', '/']) := by
  obtain ⟨a, b, rfl, ha, c, d, rfl, _, hd⟩ := h
  rw [lang_str] at ha hd
  subst ha hd
  exact ⟨c, rfl⟩

/-- in the body of a regular literal a slash follows a backslash -/
theorem star_backslash {p q : Str} (h : Star regUnit.Lang (p ++ '/' :: q)) : ∃ p', p = p' ++ ['\\'] := by
  generalize hs : p ++ '/' :: q = s at h
  induction h generalizing p with
  | nil => simp at hs
  | @cons u v hu hv ih =>
    rcases regUnit_words.1 hu with rfl | ⟨c, hc, rfl⟩
    · cases p with
      | nil => simp at hs
      | cons a p =>
        simp only [List.cons_append, List.nil_append, List.cons.injEq] at hs
        obtain ⟨rfl, hs⟩ := hs
        cases p with
        | nil => exact ⟨[], rfl⟩
        | cons b p =>
          simp only [List.cons_append, List.cons.injEq] at hs
          obtain ⟨p', rfl⟩ := ih hs.2
          exact ⟨'\\' :: b :: p', rfl⟩
    · cases p with
      | nil =>
        simp only [List.nil_append, List.cons_append, List.cons.injEq] at hs
        exact absurd hs.1.symm hc
      | cons a p =>
        simp only [List.cons_append, List.nil_append, List.cons.injEq] at hs
        obtain ⟨p', rfl⟩ := ih hs.2
        exact ⟨a :: p', rfl⟩

/-- the matchers of the first lexer -/
abbrev oldMs (digit : Char → Bool) : List Matcher := (Old.regexes digit).map Regex.find

theorem old_get {j : Nat} {m : Matcher} (h : (oldMs digit)[j]? = some m) :
    ∃ r, (Old.regexes digit)[j]? = some r ∧ m = r.find := by
  simp only [List.getElem?_map, Option.map_eq_some_iff] at h
  obtain ⟨r, hr, rfl⟩ := h
  exact ⟨r, hr, rfl⟩

/-- a match of a rule of the first lexer on something beginning with a slash is empty or by one of the three
rules -/
theorem old_match_slash {j k : Nat} {m : Matcher} {s : Str} (h : (oldMs digit)[j]? = some m)
    (hk : m ('/' :: s) = some k) : k = 0 ∨ ∃ w v, s = w ++ v ∧ k = byteLen ('/' :: w) ∧
      ((j = 0 ∧ Old.lineComment.Lang ('/' :: w)) ∨ (j = 1 ∧ Old.blockComment.Lang ('/' :: w)) ∨
      (j = 19 ∧ V1.regularLiteral.Lang ('/' :: w))) := by
  obtain ⟨r, hr, rfl⟩ := old_get h
  obtain ⟨u, v, e, hu, rfl⟩ := find_some hk
  cases u with
  | nil => exact Or.inl rfl
  | cons c w =>
    simp only [List.cons_append, List.cons.injEq] at e
    obtain ⟨rfl, e⟩ := e
    exact Or.inr ⟨w, v, e, rfl, old_slash hr hu⟩

theorem byteLen_slash_pos (t : Str) : 0 < byteLen ('/' :: t) := by
  have : '/'.utf8Size = 1 := by decide
  simp only [byteLen]
  omega

theorem wins_line {u v : Str} (h : IsLineComment u) : Wins (oldMs digit) (u ++ v) 0 (byteLen u) := by
  have hf := find_lineComment (v := v) h
  obtain ⟨t, rfl, ht⟩ := h
  refine ⟨byteLen_slash_pos _, ⟨_, rfl, hf⟩, fun j m k hj hk => ⟨?_, fun hlt => absurd hlt (by omega)⟩⟩
  rw [List.cons_append] at hk
  rcases old_match_slash hj hk with rfl | ⟨w, x, e, rfl, ⟨rfl, hl⟩ | ⟨rfl, hl⟩ | ⟨rfl, hl⟩⟩
  · omega
  · have : m = Old.lineComment.find := (Option.some.inj hj).symm
    rw [this, ← List.cons_append, hf] at hk
    exact Nat.le_of_eq (Option.some.inj hk).symm
  · obtain ⟨t', e'⟩ := blockComment_head hl
    simp only [List.cons.injEq, true_and] at e'
    rw [e'] at e
    simp at e
  · obtain ⟨b, e', hne, hb⟩ := lang_regular.1 hl
    simp only [List.cons.injEq, true_and] at e'
    rw [e'] at e
    cases b with
    | nil => exact absurd rfl hne
    | cons c b =>
      simp only [List.cons_append, List.cons.injEq] at e
      rw [← e.1] at hb
      obtain ⟨p', hp⟩ := star_backslash (p := []) hb
      simp at hp

theorem wins_block {u v : Str} (h : IsBlockComment u) : Wins (oldMs digit) (u ++ v) 1 (byteLen u) := by
  have hf := find_blockComment (v := v) h
  obtain ⟨t, rfl, ht⟩ := h
  refine ⟨byteLen_slash_pos _, ⟨_, rfl, hf⟩, fun j m k hj hk => ?_⟩
  rw [List.cons_append] at hk
  rcases old_match_slash hj hk with rfl | ⟨w, x, e, rfl, ⟨rfl, hl⟩ | ⟨rfl, hl⟩ | ⟨rfl, hl⟩⟩
  · exact ⟨by omega, fun _ => byteLen_slash_pos _⟩
  · obtain ⟨t', e', _⟩ := lineComment_head hl
    simp only [List.cons.injEq, true_and] at e'
    rw [e'] at e
    simp at e
  · have : m = Old.blockComment.find := (Option.some.inj hj).symm
    rw [this, ← List.cons_append, hf] at hk
    exact ⟨Nat.le_of_eq (Option.some.inj hk).symm, fun hlt => absurd hlt (by omega)⟩
  · refine ⟨?_, fun hlt => absurd hlt (by omega)⟩
    obtain ⟨b, e', hne, hb⟩ := lang_regular.1 hl
    simp only [List.cons.injEq, true_and] at e'
    by_contra hgt
    have hpre : '/' :: '*' :: (t ++ ['*', '/']) <+: '/' :: w := by
      rcases List.prefix_or_prefix_of_prefix (l₃ := '/' :: w ++ x)
        (l₁ := '/' :: '*' :: (t ++ ['*', '/'])) (l₂ := '/' :: w) ⟨v, by simpa using e⟩ ⟨x, rfl⟩ with h | h
      · exact h
      · obtain ⟨z, hz⟩ := h
        exfalso; apply hgt
        rw [← hz, byteLen_append]; omega
    obtain ⟨z, hz⟩ := hpre
    have hz2 : '*' :: (t ++ ['*', '/']) ++ z = b ++ ['/'] := by
      rw [← e']; simpa using hz
    rcases List.eq_nil_or_concat z with rfl | ⟨z', c, rfl⟩
    · apply hgt
      rw [← hz]; simp
    · rw [List.concat_eq_append, ← List.append_assoc] at hz2
      obtain ⟨hb2, _⟩ := List.append_inj' hz2 rfl
      rw [← hb2] at hb
      obtain ⟨p', hp⟩ := star_backslash (p := '*' :: (t ++ ['*'])) (q := z') (by simpa using hb)
      rw [← List.cons_append] at hp
      exact absurd (List.append_inj' hp rfl).2 (by decide)

/-! ## C67 -/

variable {input : Str} {toks : List Token} {l : Lexer} {rest : Str}

/-- the remainder the first lexer is about to scan -/
structure OldAt (digit : Char → Bool) (input : Str) (toks : List Token) (l : Lexer) (rest : Str) : Prop where
  scans : Scans Lexer.scanOld (Old.lexer digit input) toks l
  split : input = covered toks ++ rest

theorem OldAt.at (h : OldAt digit input toks l rest) :
    ∃ k, At (oldMs digit) Old.tokenNames input l (covered toks) rest k := by
  obtain ⟨done, rest', ht, ha⟩ := scansOld_cases (old_ok digit) h.scans
  have : covered toks = done := ht.covered
  subst this
  have hr : rest' = rest := by
    have := ha.split.symm.trans h.split
    exact List.append_cancel_left this
  subst hr
  exact ⟨_, ha⟩

theorem OldAt.wins (h : OldAt digit input toks l rest) {i : Nat} {u v : Str} (hr : rest = u ++ v)
    (hw : Wins (oldMs digit) rest i (byteLen u)) :
    ∃ tok l', l.scanOld = .ok (some tok, l') ∧ tok.tokenType = i + 2 ∧ tok.text = u ∧
      OldAt digit input (toks ++ [tok]) l' v := by
  obtain ⟨k, ha⟩ := h.at
  rcases ha.scanToken (old_ok digit) with ⟨hno, _⟩ | ⟨i', u', v', name, l', hw', e, hn, hs, ha'⟩
  · exact absurd hno hw.not_noMatch
  · obtain ⟨rfl, hlen⟩ := hw.unique hw'
    have hu : u = u' := by
      refine (append_inj_byteLen (hr.symm.trans e) hlen).1
    subst hu
    have hsc : l.scanOld = .ok (some (mkToken Old.tokenNames (covered toks) u i k name), l') := hs
    refine ⟨_, l', hsc, rfl, rfl, h.scans.snoc hsc, ?_⟩
    rw [h.split, hr]
    have : covered (toks ++ [mkToken Old.tokenNames (covered toks) u i k name]) = covered toks ++ u := by
      simp [covered, mkToken]
    rw [this, List.append_assoc]

/-- **C67** wherever a line comment begins the remaining input it is scanned as one token.  Missing (false):
comments that end with the input instead of a line feed. -/
theorem C67_line_comment_partial (h : OldAt digit input toks l rest) {u v : Str} (hr : rest = u ++ v)
    (hu : IsLineComment u) : ∃ tok l', l.scanOld = .ok (some tok, l') ∧ tok.tokenType = 2 ∧ tok.text = u ∧
      OldAt digit input (toks ++ [tok]) l' v :=
  h.wins hr (hr ▸ wins_line hu)

/-- **C67** wherever a block comment begins the remaining input it is scanned as one token, although a
regular literal may begin the same way. -/
theorem C67_block_comment (h : OldAt digit input toks l rest) {u v : Str} (hr : rest = u ++ v)
    (hu : IsBlockComment u) : ∃ tok l', l.scanOld = .ok (some tok, l') ∧ tok.tokenType = 3 ∧ tok.text = u ∧
      OldAt digit input (toks ++ [tok]) l' v :=
  h.wins hr (hr ▸ wins_block hu)

/-- **C67** is false of the code for a line comment at the end of the input: it is a lexical error. -/
theorem C67_comment_at_end (h : OldAt digit input toks l rest) {t : Str} (hr : rest = '/' :: '/' :: t)
    (ht : '\n' ∉ t) : l.scanOld = .ok (none, l) := by
  obtain ⟨k, ha⟩ := h.at
  rcases ha.scanToken (old_ok digit) with ⟨_, hs⟩ | ⟨i, u, v, name, l', ⟨hpos, ⟨m, hm, hf⟩, _⟩, _⟩
  · exact hs
  · exfalso
    rw [hr] at hf
    rcases old_match_slash hm hf with h0 | ⟨w, x, e, -, ⟨rfl, hl⟩ | ⟨rfl, hl⟩ | ⟨rfl, hl⟩⟩
    · omega
    · obtain ⟨t', e', _⟩ := lineComment_head hl
      simp only [List.cons.injEq, true_and] at e'
      rw [e'] at e
      simp only [List.cons_append, List.cons.injEq, true_and] at e
      exact ht (by rw [e]; simp)
    · obtain ⟨t', e'⟩ := blockComment_head hl
      simp only [List.cons.injEq, true_and] at e'
      rw [e'] at e
      simp at e
    · obtain ⟨b, e', hne, hb⟩ := lang_regular.1 hl
      simp only [List.cons.injEq, true_and] at e'
      rw [e'] at e
      cases b with
      | nil => exact absurd rfl hne
      | cons c b =>
        simp only [List.cons_append, List.cons.injEq] at e
        rw [← e.1] at hb
        obtain ⟨p', hp⟩ := star_backslash (p := []) hb
        simp at hp

/-- the entries that are not comments or white space -/
def solidOld (out : List (Nat × Str)) : List (Nat × Str) := out.filter (fun p => p.1 ≠ 2 ∧ p.1 ≠ 3 ∧ p.1 ≠ 4)

theorem oldScansTo_exists (digit : Char → Bool) (input : Str) : ∃ out rem, Lexes (oldMs digit) input out rem ∧
    Old.ScansTo digit input (solidOld out) rem := by
  obtain ⟨out, rem, toks, l', n, h1, h2, h3, h4⟩ :=
    C32_scan_all_first_lexer (input := input) (old_ok digit) 0
  refine ⟨out, rem, h1, n, _, l', h4, ?_⟩
  rw [if_pos rfl, ← h3, solidOld, List.filter_map]
  rfl

theorem Old.ScansTo.unique {digit : Char → Bool} {input : Str} {out out' : List (Nat × Str)} {p p' : Str}
    (h : Old.ScansTo digit input out p) (h' : Old.ScansTo digit input out' p') : out = out' ∧ p = p' := by
  obtain ⟨n, toks, l, h1, rfl⟩ := h
  obtain ⟨n', toks', l', h1', rfl⟩ := h'
  have e := (h1 (max n n') (Nat.le_max_left _ _)).symm.trans (h1' (max n n') (Nat.le_max_right _ _))
  simp only [Except.ok.injEq, Prod.mk.injEq] at e
  exact ⟨by rw [e.1], e.2.1⟩

/-- **C67** a comment in front of a text changes nothing in what `scan_all_on_channel_tokens` returns and
prints. -/
theorem C67_comments_skipped_partial {u s : Str} (hu : IsLineComment u ∨ IsBlockComment u)
    (out : List (Nat × Str)) (printed : Str) :
    Old.ScansTo digit (u ++ s) out printed ↔ Old.ScansTo digit s out printed := by
  obtain ⟨o, rem, hl, hs⟩ := oldScansTo_exists digit s
  obtain ⟨o', rem', hl', hs'⟩ := oldScansTo_exists digit (u ++ s)
  have he : solidOld o' = solidOld o ∧ rem' = rem := by
    rcases hu with hu | hu
    · obtain ⟨rfl, rfl⟩ := hl'.unique (Lexes.step (wins_line hu) hl)
      exact ⟨rfl, rfl⟩
    · obtain ⟨rfl, rfl⟩ := hl'.unique (Lexes.step (wins_block hu) hl)
      exact ⟨rfl, rfl⟩
  rw [he.1, he.2] at hs'
  constructor
  · intro h
    obtain ⟨rfl, rfl⟩ := h.unique hs'
    exact hs
  · intro h
    obtain ⟨rfl, rfl⟩ := h.unique hs
    exact hs'

/-! non-vacuity -/

example : IsBlockComment "/* a / b \\* **/".toList :=
  ⟨" a / b \\* *".toList, rfl, fun p q e => by
    have hl := congrArg List.length e
    match p with
    | [] | [_] | [_, _] | [_, _, _] | [_, _, _, _] | [_, _, _, _, _] | [_, _, _, _, _, _]
    | [_, _, _, _, _, _, _] | [_, _, _, _, _, _, _, _] | [_, _, _, _, _, _, _, _, _]
    | [_, _, _, _, _, _, _, _, _, _] => simp at e
    | _ :: _ :: _ :: _ :: _ :: _ :: _ :: _ :: _ :: _ :: _ :: p =>
      simp at hl
      exact List.length_eq_zero_iff.1 (by omega)⟩

example : IsLineComment "// see /a/ \r\n".toList := ⟨" see /a/ \r".toList, rfl, by decide⟩

/-- a comment between two tokens, and one at the end without a line feed -/
example : ((Old.lexer isDigit09 "ab/* x */cd// y".toList).scanAllOld 0 20).map
    (fun r => (r.1.map Token.out, r.2.1)) =
      .ok ([(7, "ab".toList), (7, "cd".toList)], "// y".toList) := by decide +kernel

end Syntaxis
