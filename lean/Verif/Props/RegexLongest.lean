import Verif.Lemmas.RegexLongest
import Verif.Props.RegexRules
import Verif.Props.RegexText
import Verif.Props.LexerV1
import Verif.Props.Toolchain

/-!
# C108: when lexer rules take the longest word

The `regex` crate prefers earlier alternatives and more repetitions, not longer matches.
-/

namespace Syntaxis
open Grammar RegexSyntax

variable {digit : Char → Bool}

theorem Regex.Best.longest {r : Regex} (h : r.Best) {s : Str} {n : Nat} (hf : r.find s = some n) :
    ∃ u, LongestPrefix r.Lang s u ∧ n = byteLen u := by
  obtain ⟨u, v, rfl, hu, rfl⟩ := Regex.find_some hf
  refine ⟨u, ⟨⟨v, rfl⟩, hu, ?_⟩, rfl⟩
  rintro w ⟨x, hx⟩ hw
  exact byteLen_prefix_le ⟨v, rfl⟩ ⟨x, hx⟩ (h _ _ hf w x hx.symm hw)

/-- **C108** If the choices in the regex of a lexer rule are in order, the rule matches the longest prefix of the rest of the
input in the language of its regex. -/
theorem C108_rule_longest (r : Str) (t : Rx) (h : parse (unescapeSlash r) = some t) (ht : (t.toRegex digit).Tidy) :
    ∃ re, ruleRegex ('/' :: r ++ ['/']) = .ok (some re) ∧
      ∀ s, (toMatcher digit re s = none ↔ ∀ u, u <+: s → ¬ (t.toRegex digit).Lang u) ∧
        ∀ n, toMatcher digit re s = some n ↔ ∃ u, LongestPrefix (t.toRegex digit).Lang s u ∧ n = byteLen u := by
  refine ⟨_, C50_regex_text r, fun s => ?_⟩
  have hm : toMatcher digit ("^(".toList ++ unescapeSlash r ++ ")".toList) = (t.toRegex digit).find := toMatcher_wrapped h
  have hnone : (t.toRegex digit).find s = none ↔ ∀ u, u <+: s → ¬ (t.toRegex digit).Lang u := by
    rw [Regex.find_none]
    constructor
    · rintro h u ⟨v, rfl⟩
      exact h u v rfl
    · rintro h u v rfl
      exact h u ⟨v, rfl⟩
  rw [hm]
  refine ⟨hnone, fun n => ⟨ht.best.longest, ?_⟩⟩
  rintro ⟨u, ⟨hu, hL, hmax⟩, rfl⟩
  cases hf : (t.toRegex digit).find s with
  | none => exact absurd hL (hnone.1 hf u hu)
  | some n =>
    obtain ⟨w, ⟨hw, hLw, hmaxw⟩, rfl⟩ := ht.best.longest hf
    have h1 := hmax w hw hLw
    have h2 := hmaxw u hu hL
    obtain ⟨x, rfl⟩ := hu
    obtain ⟨y, hy⟩ := hw
    rw [(List.append_inj hy (by omega)).1]

/-- `rs` are the regexes of the lexer rules, and their choices are in order -/
def TidyRules (digit : Char → Bool) (data : List LexerRuleData) (rs : List Regex) : Prop :=
  List.Forall₂ (fun d r => ∃ w t, d.regex = "^(".toList ++ w ++ ")".toList ∧ parse w = some t ∧ r = t.toRegex digit ∧ r.Tidy)
    data rs

theorem TidyRules.matchers {data : List LexerRuleData} {rs : List Regex} (h : TidyRules digit data rs) :
    (data.map fun d => toMatcher digit d.regex) = rs.map Regex.find ∧ WellFormed data ∧ ∀ r ∈ rs, r.Best := by
  induction h with
  | nil => exact ⟨rfl, by simp [WellFormed], by simp⟩
  | @cons d r ds rs h _ ih =>
    obtain ⟨w, t, e, hp, rfl, ht⟩ := h
    obtain ⟨h1, h2, h3⟩ := ih
    refine ⟨?_, ?_, ?_⟩
    · rw [List.map_cons, List.map_cons, h1, e, toMatcher_wrapped hp]
    · intro d' hd'
      rcases List.mem_cons.1 hd' with rfl | hd'
      · exact ⟨w, t, e, hp⟩
      · exact h2 d' hd'
    · intro r' hr'
      rcases List.mem_cons.1 hr' with rfl | hr'
      · exact ht.best
      · exact h3 r' hr'

/-- **C108** If this holds of all lexer rules of a file, then at every point of every scan the generated lexer returns the
longest prefix of the rest of the input in the language of any rule, with the name and number of the first rule whose language
has it, and fails if and only if there is no such prefix but the empty one. -/
theorem C108_maximal_munch {data : List LexerRuleData} {rs : List Regex} (h : TidyRules digit data rs) (input : Str)
    (toks : List Token) (l : Lexer) (hs : Scans Lexer.scan (generatedLexer (toMatcher digit) data input) toks l) (rest : Str)
    (hr : input = covered toks ++ rest) (hne : rest ≠ []) :
    (l.scan = .ok (none, l) ∧ NoPrefix rs rest) ∨
    ∃ tok l' i d, l.scan = .ok (some tok, l') ∧ MaxMunch rs rest i tok.text ∧
      tok.tokenType = i + 2 ∧ data[i]? = some d ∧ tok.tokenName = d.tokenName := by
  obtain ⟨hm, hw, hb⟩ := h.matchers
  rcases C28_longest_match (hw.ok (digit := digit)) toks l hs rest hr hne with ⟨h1, h2⟩ | ⟨tok, l', i, u, v, hsc, e, hwin, ht, rfl, hn⟩
  · rw [hm] at h2
    exact Or.inl ⟨h1, noMatch_noPrefix hb h2⟩
  · rw [hm] at hwin
    simp only [List.getElem?_cons_succ, List.getElem?_map, Option.map_eq_some_iff] at hn
    obtain ⟨d, hd, hn⟩ := hn
    exact Or.inr ⟨tok, l', i, d, hsc, wins_maxMunch hb e hwin, ht, hd, hn.symm⟩

/-! ### the lexer together with the parser -/

/-- a text cut into longest words, each with the number of the first rule that has it -/
inductive Munches (rs : List Regex) : Str → List (Nat × Str) → Prop
  | nil : Munches rs [] []
  | cons {u v : Str} {i : Nat} {out : List (Nat × Str)} (h : MaxMunch rs (u ++ v) i u) (hv : Munches rs v out) :
      Munches rs (u ++ v) ((i + 2, u) :: out)

theorem byteLen_le_of_prefix {u w rest : Str} (hu : u <+: rest) (hw : w <+: rest) (h : w.length ≤ u.length) :
    byteLen w ≤ byteLen u ∧ (byteLen w = byteLen u → w = u) := by
  obtain ⟨x, rfl⟩ := List.prefix_of_prefix_length_le hw hu h
  rw [byteLen_append]
  refine ⟨by omega, fun e => ?_⟩
  have : byteLen x = 0 := by omega
  rw [byteLen_eq_zero] at this
  simp [this]

theorem wins_of_maxMunch {rs : List Regex} (hbest : ∀ r ∈ rs, r.Best) {rest u : Str} {i : Nat} (h : MaxMunch rs rest i u) :
    Wins (rs.map Regex.find) rest i (byteLen u) := by
  obtain ⟨hne, hp, ⟨r, hr, hu⟩, hmax, hfirst⟩ := h
  have key : ∀ q ∈ rs, ∀ k, q.find rest = some k → ∃ w, w <+: rest ∧ q.Lang w ∧ k = byteLen w := by
    intro q _ k hk
    obtain ⟨w, x, e, hw, hl⟩ := Regex.find_some hk
    exact ⟨w, ⟨x, e.symm⟩, hw, hl⟩
  refine ⟨?_, ⟨r.find, by rw [List.getElem?_map, hr]; rfl, ?_⟩, ?_⟩
  · rcases Nat.eq_zero_or_pos (byteLen u) with h0 | h0
    · exact absurd (byteLen_eq_zero.1 h0) hne
    · exact h0
  · have hm := List.mem_of_getElem? hr
    obtain ⟨x, hx⟩ := hp
    cases hf : r.find rest with
    | none => exact absurd hu (Regex.find_none.1 hf u x hx.symm)
    | some k =>
      obtain ⟨w, hw, hLw, rfl⟩ := key r hm k hf
      have h1 := hbest r hm rest _ hf u x hx.symm hu
      have h2 := (byteLen_le_of_prefix ⟨x, hx⟩ hw (hmax r hm w hw hLw)).1
      rw [Nat.le_antisymm h2 h1]
  · intro j m k hj hk
    rw [List.getElem?_map, Option.map_eq_some_iff] at hj
    obtain ⟨q, hq, rfl⟩ := hj
    have hm := List.mem_of_getElem? hq
    obtain ⟨w, hw, hLw, rfl⟩ := key q hm k hk
    obtain ⟨h1, h2⟩ := byteLen_le_of_prefix hp hw (hmax q hm w hw hLw)
    refine ⟨h1, fun hji => Nat.lt_of_le_of_ne h1 fun e => ?_⟩
    rw [h2 e] at hLw
    exact hfirst j q hji hq hLw

theorem lexes_munches {rs : List Regex} (hbest : ∀ r ∈ rs, r.Best) (s : Str) (out : List (Nat × Str)) :
    Lexes (rs.map Regex.find) s out [] ↔ Munches rs s out := by
  constructor
  · intro h
    generalize hrem : ([] : Str) = rem at h
    induction h with
    | stop rest _ => subst hrem; exact .nil
    | step hw _ ih => exact .cons (wins_maxMunch hbest rfl hw) (ih hrem)
  · intro h
    induction h with
    | nil =>
      refine .stop [] ?_
      intro j m k hj hk
      rw [List.getElem?_map, Option.map_eq_some_iff] at hj
      obtain ⟨q, _, rfl⟩ := hj
      obtain ⟨w, x, e, _, rfl⟩ := Regex.find_some hk
      rw [(List.append_eq_nil_iff.1 e.symm).1]
      rfl
    | cons h _ ih => exact .step (wins_of_maxMunch hbest h) ih

/-- **C108** If the choices in all lexer rules of a file are in order, no suffix is shared between a token and another element
and the table has no conflict, then the lexer and the parser made from the file accept a text if and only if the text, cut into
longest words of the lexer rules, is a word of the first rule, apart from white space. -/
theorem C108_accepts {fuel : Nat} {ast : RuleContext} (hf : sizeOf ast.toAst ≤ fuel) {g : Grammar} {data : List LexerRuleData}
    (h : loadAst fuel ast = .ok (g, data))
    (hk : ∀ k ∈ ast.children, k.isRule 1 = true ∨ k.isRule 7 = true) {start : Str} {alts : List (List Elem)} {D : Rules}
    (hD : readRules .old ast.children = some ((start, alts) :: D)) (hs : SuffixesApart ((start, alts) :: D) g.vocabulary)
    {white : LexerRuleData} (hw : white ∈ data)
    {o : IterOrder g} {so : SetOrder} {fuel' : Nat} {ts : TableState} (ht : runTable g o so fuel' = .ok ts)
    (hc : ts.conflicts = []) {rs : List Regex} (hr : TidyRules digit data rs) (input : Str) :
    Accepts (toMatcher digit) data g ts white.tokenType input ↔
      ∃ out, Munches rs input out ∧
        Word ((start, alts) :: D) g.vocabulary.getTerminalIdByName [.ref start]
          ((out.map Prod.fst).filter (· ≠ white.tokenType)) := by
  obtain ⟨hm, hwf, hb⟩ := hr.matchers
  rw [C77_accepts_exactly hf h hk hD hs hw ht hc
    (fun d hd => (hwf.ok (digit := digit)).1 _ (List.mem_map.2 ⟨d, hd, rfl⟩)) input, hm]
  simp only [lexes_munches hb]

/-! ### lists of words -/

/-- the tree of a word -/
def wordTree (w : Str) : Rx := .cat (w.map fun c => .one (.one c))

theorem wordTree_text {w : Str} (h : ∀ c ∈ w, PlainChar c) : ConcatText false w (wordTree w) := by
  induction w with
  | nil => exact .nil
  | cons c w ih =>
    have hc : PieceText false [c] (.one (.one c)) := .plain (.char (h c (by simp)))
    have hw := ih fun d hd => h d (by simp [hd])
    cases w with
    | nil => exact .one hc
    | cons d w => exact .cons hc (by simp) hw

theorem wordTree_run (w s : Str) : ((wordTree w).toRegex digit).run s = if w <+: s then [s.drop w.length] else [] := by
  induction w generalizing s with
  | nil => simp [wordTree, Rx.cat, Rx.toRegex, Regex.run]
  | cons c w ih =>
    have key : ((wordTree (c :: w)).toRegex digit).run s =
        (((Rx.one (.one c)).toRegex digit).run s).flatMap ((wordTree w).toRegex digit).run := by
      cases w with
      | nil =>
        have : ((wordTree []).toRegex digit).run = fun s => [s] := by
          funext s; simp [wordTree, Rx.cat, Rx.toRegex, Regex.run]
        rw [this]
        simp [wordTree, Rx.cat]
      | cons d w => rfl
    rw [key]
    cases s with
    | nil => simp [Rx.toRegex, Regex.run]
    | cons d s =>
      by_cases e : d = c
      · subst e
        simp [Rx.toRegex, Regex.run, ClassItem.has, ih, List.cons_prefix_cons]
      · simp [Rx.toRegex, Regex.run, ClassItem.has, e, List.cons_prefix_cons, Ne.symm e]

/-- the tree of a list of words -/
def wordsTree (ws : List Str) : Rx := .alts (ws.map wordTree)

theorem wordsTree_text {ws : List Str} (hne : ws ≠ []) (h : ∀ w ∈ ws, ∀ c ∈ w, PlainChar c) :
    AltsText false (['|'].intercalate ws) (wordsTree ws) := by
  induction ws with
  | nil => exact absurd rfl hne
  | cons w ws ih =>
    have hw := wordTree_text (h w (by simp))
    cases ws with
    | nil => simpa [List.intercalate, wordsTree, Rx.alts] using AltsText.one hw
    | cons v ws =>
      have := AltsText.cons hw (ih (by simp) fun x hx => h x (by simp [hx]))
      simpa [List.intercalate, wordsTree, Rx.alts] using this

theorem wordsTree_run {ws : List Str} (hne : ws ≠ []) (s : Str) :
    ((wordsTree ws).toRegex digit).run s = (ws.filter (· <+: s)).map fun w => s.drop w.length := by
  induction ws with
  | nil => exact absurd rfl hne
  | cons w ws ih =>
    cases ws with
    | nil =>
      have : wordsTree [w] = wordTree w := rfl
      rw [this, wordTree_run]
      by_cases hw : w <+: s <;> simp [hw]
    | cons v ws =>
      have : ((wordsTree (w :: v :: ws)).toRegex digit).run s =
          ((wordTree w).toRegex digit).run s ++ ((wordsTree (v :: ws)).toRegex digit).run s := rfl
      rw [this, ih (by simp), wordTree_run]
      by_cases hw : w <+: s <;> simp [hw, List.filter_cons]

theorem wordsTree_find {ws : List Str} (hne : ws ≠ []) (s : Str) :
    ((wordsTree ws).toRegex digit).find s = (ws.find? (· <+: s)).map byteLen := by
  rw [Regex.find, wordsTree_run hne, List.head?_map, List.head?_filter, Option.map_map]
  cases hf : ws.find? (· <+: s) with
  | none => rfl
  | some w =>
    have := List.find?_some hf
    simp only [decide_eq_true_eq] at this
    obtain ⟨v, rfl⟩ := this
    simp [byteLen_append]

/-- **C108** A lexer rule that lists words, `/u|v|w/`, matches the first of the words with which the rest of the input begins.
It always is the longest of them if and only if no word stands behind a proper prefix of it without standing in front of that,
too. -/
theorem C108_words (r : Str) (ws : List Str) (hne : ws ≠ []) (hws : ∀ w ∈ ws, ∀ c ∈ w, PlainChar c)
    (hr : unescapeSlash r = ['|'].intercalate ws) :
    ∃ re, ruleRegex ('/' :: r ++ ['/']) = .ok (some re) ∧
      (∀ s, toMatcher digit re s = (ws.find? (· <+: s)).map byteLen) ∧
      ((∀ s n, toMatcher digit re s = some n → ∃ u, LongestPrefix (· ∈ ws) s u ∧ n = byteLen u) ↔
        ∀ l u m v, ws = l ++ u :: m → v ∈ m → u <+: v → u = v ∨ v ∈ l) := by
  have hp : parse (unescapeSlash r) = some (wordsTree ws) := by
    rw [hr]; exact (C64_syntax _ _).2 (wordsTree_text hne hws)
  have hm : toMatcher digit ("^(".toList ++ unescapeSlash r ++ ")".toList) = ((wordsTree ws).toRegex digit).find :=
    toMatcher_wrapped hp
  refine ⟨_, C50_regex_text r, fun s => by rw [hm, wordsTree_find hne], ?_⟩
  rw [hm]
  simp only [wordsTree_find hne]
  constructor
  · rintro h l u m v rfl hv huv
    have hex : ∃ x, (l ++ u :: m).find? (· <+: v) = some x := by
      cases hf : (l ++ u :: m).find? (· <+: v) with
      | some x => exact ⟨x, rfl⟩
      | none =>
        have := List.find?_eq_none.1 hf u (by simp)
        simp [huv] at this
    obtain ⟨x, hx⟩ := hex
    obtain ⟨w, ⟨hwp, hwm, hmax⟩, hb⟩ := h v (byteLen x) (by rw [hx]; rfl)
    have hxp : x <+: v := by simpa using List.find?_some hx
    have hvw : v.length ≤ w.length := hmax v List.prefix_rfl (by simp [hv])
    obtain rfl : w = v := hwp.eq_of_length (by have := hwp.length_le; omega)
    have hxw : x = w := by
      obtain ⟨y, rfl⟩ := hxp
      have : byteLen y = 0 := by rw [byteLen_append] at hb; omega
      rw [byteLen_eq_zero] at this
      simp [this]
    subst hxw
    rw [List.find?_append] at hx
    cases hf : l.find? (· <+: x) with
    | some y =>
      rw [hf] at hx
      simp only [Option.some_or, Option.some.injEq] at hx
      subst hx
      exact Or.inr (List.mem_of_find?_eq_some hf)
    | none =>
      rw [hf] at hx
      simp only [Option.none_or, List.find?_cons, huv, decide_true, Option.some.injEq] at hx
      exact Or.inl hx
  · intro h s n hn
    obtain ⟨u, hu, rfl⟩ := Option.map_eq_some_iff.1 hn
    obtain ⟨hus, l, m, e, hl⟩ := List.find?_eq_some_iff_append.1 hu
    simp only [decide_eq_true_eq] at hus
    refine ⟨u, ⟨hus, by rw [e]; simp, ?_⟩, rfl⟩
    intro v hvs hv
    rw [e] at hv
    rcases List.mem_append.1 hv with hv | hv
    · have := hl v hv
      simp [hvs] at this
    · rcases List.mem_cons.1 hv with rfl | hv
      · exact Nat.le_refl _
      · rcases Nat.le_total v.length u.length with hlen | hlen
        · exact hlen
        · rcases h l u m v e hv (List.prefix_of_prefix_length_le hus hvs hlen) with rfl | hvl
          · exact Nat.le_refl _
          · have := hl v hvl
            simp [hvs] at this

/-- **C108** is false for other regexes: of the text `ab` the lexer generated for the one rule `/a|ab/` returns the token `a`,
although `ab` is a word of the rule. -/
theorem C108_shorter : ∃ (t : Rx) (d : LexerRuleData) (tok : Token) (l : Lexer), parse "a|ab".toList = some t ∧
    ruleRegex "/a|ab/".toList = .ok (some d.regex) ∧ (t.toRegex digit).Lang "ab".toList ∧
    (generatedLexer (toMatcher digit) [d] "ab".toList).scan = .ok (some tok, l) ∧ tok.text = "a".toList := by
  refine ⟨.alt (.one (.one 'a')) (.seq (.one (.one 'a')) (.one (.one 'b'))), ⟨2, "AB".toList, "^(a|ab)".toList⟩, _, _, rfl,
    by decide +kernel, ?_, rfl, rfl⟩
  exact Or.inr ⟨['a'], ['b'], rfl, ⟨'a', by simp [ClassItem.has], rfl⟩, 'b', by simp [ClassItem.has], rfl⟩

/-! ### regexes of this kind -/

namespace Regex

theorem Tidy.cls (p : Char → Bool) : (Regex.cls p).Tidy := by
  refine .prefixFree ?_
  rintro u v ⟨c, _, rfl⟩ ⟨d, _, e⟩
  simp only [List.singleton_append, List.cons.injEq] at e
  exact e.2

theorem Tidy.opt {r : Regex} (h : r.Tidy) : (Regex.opt r).Tidy :=
  .alt h (.prefixFree fun u v hu hv => by
    have : u ++ v = [] := hv
    exact (List.append_eq_nil_iff.1 this).2) fun u v _ hv => by
    have : u ++ v = [] := hv
    exact (List.append_eq_nil_iff.1 this).2

theorem Tidy.plus {r : Regex} (h : r.Tidy) (hD : Decided r.Lang r.Lang) : (Regex.plus r).Tidy := by
  refine .seq h (.star h hD) ?_
  intro u c w v hu hw hv
  have hv : Star r.Lang (c :: v) := hv
  rcases hv.nonempty with e | ⟨a, b, e, ha, hL, _⟩
  · cases e
  · cases a with
    | nil => exact ha rfl
    | cons d a =>
      simp only [List.cons_append, List.cons.injEq] at e
      rw [← e.1] at hL
      exact hD u c w a hu hw hL

theorem decided_cls (p : Char → Bool) (M : Str → Prop) : Decided (Regex.cls p).Lang M := by
  rintro u c w v ⟨d, _, rfl⟩ ⟨e, _, h⟩
  simp at h

theorem lang_plus_cls {p : Char → Bool} {u : Str} (h : (Regex.plus (.cls p)).Lang u) : ∀ c ∈ u, p c = true := by
  obtain ⟨a, b, rfl, ⟨d, hd, rfl⟩, hb⟩ := h
  intro c hc
  rcases List.mem_append.1 hc with hc | hc
  · rw [List.mem_singleton.1 hc]; exact hd
  · exact mem_star_cls hb c hc

/-- a repeated class is over where a character of another class stands -/
theorem decided_plus_cls (p : Char → Bool) (M : Str → Prop) (h : ∀ c v, M (c :: v) → p c = false) :
    Decided (Regex.plus (.cls p)).Lang M := by
  intro u c w v _ hw hv
  have := lang_plus_cls hw c (by simp)
  rw [h c v hv] at this
  cases this

end Regex

/-- `[0-9]+(\.[0-9]+)?` -/
theorem number_tidy : ∃ t, parse "[0-9]+(\\.[0-9]+)?".toList = some t ∧ (t.toRegex digit).Tidy := by
  refine ⟨.seq (.plus (.cls false [.range '0' '9'])) (.opt (.seq (.one (.one '.')) (.plus (.cls false [.range '0' '9'])))),
    by decide +kernel, ?_⟩
  refine .seq ((Regex.Tidy.cls _).plus (Regex.decided_cls _ _)) (.opt (.seq (.cls _) ((Regex.Tidy.cls _).plus (Regex.decided_cls _ _))
    (Regex.decided_cls _ _))) (Regex.decided_plus_cls _ _ ?_)
  rintro c v (⟨a, b, e, ⟨d, hd, rfl⟩, _⟩ | h)
  · simp only [List.singleton_append, List.cons.injEq] at e
    simp only [ClassItem.has, beq_iff_eq] at hd
    rw [e.1, hd]
    rfl
  · cases h

/-- non-vacuity of `C108_rule_longest` and `C108_maximal_munch`: numbers and white space -/
example : ∃ rs, TidyRules digit [⟨2, "NUM".toList, "^([0-9]+(\\.[0-9]+)?)".toList⟩, ⟨3, "WHITE_SPACE".toList, "^( )".toList⟩] rs := by
  obtain ⟨t, ht, h⟩ := number_tidy (digit := digit)
  exact ⟨_, .cons ⟨_, _, by decide +kernel, ht, rfl, h⟩ (.cons ⟨" ".toList, .one (.one ' '), by decide +kernel, by decide +kernel, rfl, .cls _⟩ .nil)⟩

/-- non-vacuity of `C108_accepts`: the lexer rules of `ToolEx.tree`, of which `Props/Toolchain` shows the other hypotheses -/
example : ∃ g data rs, loadAst 5000 ToolEx.tree = .ok (g, data) ∧ TidyRules digit data rs ∧ rs.length = 3 := by
  have h : (loadAst 5000 ToolEx.tree).map (·.2) = .ok [⟨2, "NUM".toList, "^([0-9]+)".toList⟩,
    ⟨3, "OPEN".toList, "^(\\()".toList⟩, ⟨4, "WHITE_SPACE".toList, "^( )".toList⟩] := by decide +kernel
  cases hb : loadAst 5000 ToolEx.tree with
  | error e => rw [hb] at h; cases h
  | ok r =>
    rw [hb] at h
    obtain ⟨g, data⟩ := r
    obtain rfl := Except.ok.inj h
    exact ⟨g, _, _, rfl, .cons ⟨"[0-9]+".toList, .plus (.cls false [.range '0' '9']), by decide +kernel, by decide +kernel, rfl,
      (Regex.Tidy.cls _).plus (Regex.decided_cls _ _)⟩ (.cons ⟨"\\(".toList, .one (.one '('), by decide +kernel, by decide +kernel, rfl,
      .cls _⟩ (.cons ⟨" ".toList, .one (.one ' '), by decide +kernel, by decide +kernel, rfl, .cls _⟩ .nil)), rfl⟩

/-- non-vacuity of `C108_words`: `/<=|<\/|</` is in order, `/<|<=/` is not -/
example : unescapeSlash "<=|<\\/|<".toList = ['|'].intercalate ["<=".toList, "</".toList, "<".toList] ∧
    (∀ l u m v, ["<=".toList, "</".toList, "<".toList] = l ++ u :: m → v ∈ m → u <+: v → u = v ∨ v ∈ l) ∧
    ¬ ∀ l u m v, ["<".toList, "<=".toList] = l ++ u :: m → v ∈ m → u <+: v → u = v ∨ v ∈ l := by
  refine ⟨by decide +kernel, ?_, ?_⟩
  · intro l u m v e hv huv
    match l, e with
    | [], e =>
      obtain ⟨rfl, rfl⟩ := List.cons.inj e
      simp only [List.mem_cons, List.not_mem_nil, or_false] at hv
      rcases hv with rfl | rfl <;> exact absurd huv (by decide)
    | [_], e =>
      obtain ⟨rfl, rfl⟩ := List.cons.inj (List.cons.inj e).2
      simp only [List.mem_cons, List.not_mem_nil, or_false] at hv
      rcases hv with rfl
      exact absurd huv (by decide)
    | [_, _], e =>
      obtain ⟨rfl, rfl⟩ := List.cons.inj (List.cons.inj (List.cons.inj e).2).2
      cases hv
    | _ :: _ :: _ :: _, e => simp at e
  · intro h
    have := h [] "<".toList ["<=".toList] "<=".toList rfl (by simp) (by decide)
    revert this
    decide

end Syntaxis
