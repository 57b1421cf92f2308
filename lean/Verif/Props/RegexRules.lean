import Verif.Props.RegexSyntax
import Verif.Props.LexerRules
import Verif.Props.Lexer

/-!
# C55, C64, C65: what the regexes of lexer rules and string literals match
-/

namespace Syntaxis
open Grammar RegexSyntax

variable {lc : LexConsts} {digit : Char → Bool}

theorem toMatcher_wrapped {r : Str} {t : Rx} (h : parse r = some t) :
    toMatcher digit ("^(".toList ++ r ++ ")".toList) = (t.toRegex digit).find := by
  rw [toMatcher, compile_wrapped h]
  exact Pattern.find_anchored _ _

/-- **C64** The regex generated for the lexer rule `/r/` is what `r`, with `\/` read as `/`, says: it compiles;
a match is a prefix of the rest of the input in the language of `r`, and there is one if any prefix is. -/
theorem C64_rule_regex (r : Str) (t : Rx) (h : parse (unescapeSlash r) = some t) :
    ∃ re p, ruleRegex ('/' :: r ++ ['/']) = .ok (some re) ∧ compile re = some p ∧
      Pattern.find digit p = (t.toRegex digit).find ∧
      (∀ s n, Pattern.find digit p s = some n →
        ∃ u v, s = u ++ v ∧ n = byteLen u ∧ (t.toRegex digit).Lang u) ∧
      (∀ s, Pattern.find digit p s = none ↔ ∀ u v, s = u ++ v → ¬ (t.toRegex digit).Lang u) := by
  refine ⟨_, _, C50_regex_text r, compile_wrapped h, Pattern.find_anchored _ _, ?_, ?_⟩
  · intro s n hn
    rw [Pattern.find_anchored] at hn
    obtain ⟨u, v, h1, h2, h3⟩ := Regex.find_some hn
    exact ⟨u, v, h1, h3, h2⟩
  · intro s
    rw [Pattern.find_anchored]
    exact Regex.find_none

/-- non-vacuity: `/[0-9]+\/(a|b*)?/` -/
example : (parse (unescapeSlash "[0-9]+\\/(a|b*)?".toList)).isSome = true := by decide +kernel

/-! ### C65 -/

/-- the data of a lexer whose rules are regexes on their own -/
def WellFormed (data : List LexerRuleData) : Prop :=
  ∀ d ∈ data, ∃ r t, d.regex = "^(".toList ++ r ++ ")".toList ∧ parse r = some t

theorem WellFormed.ok {data : List LexerRuleData} (h : WellFormed data) :
    LexerOk (data.map fun d => toMatcher digit d.regex)
      ("_START".toList :: "_STOP".toList :: data.map (·.tokenName)) := by
  constructor
  · intro m hm
    obtain ⟨d, hd, rfl⟩ := List.mem_map.1 hm
    obtain ⟨r, t, hr, ht⟩ := h d hd
    rw [hr, toMatcher_wrapped ht]
    exact (t.toRegex digit).find_ok
  · simp

/-- **C65** (partial) If the text of every lexer rule is a regex on its own, then every token of the generated
lexer, other than the end token, carries the name of its rule and a text that the regex of that rule matches. -/
theorem C65_token_text_partial (data : List LexerRuleData) (h : WellFormed data) (input : Str) (toks : List Token)
    (l : Lexer) (hs : Scans Lexer.scan (generatedLexer (toMatcher digit) data input) toks l) (tok : Token)
    (htok : tok ∈ toks) (hne : tok.tokenType ≠ 1) :
    ∃ d r t, data[tok.tokenType - 2]? = some d ∧ d.tokenName = tok.tokenName ∧
      d.regex = "^(".toList ++ r ++ ")".toList ∧ parse r = some t ∧ (t.toRegex digit).Lang tok.text := by
  have key : ∀ done body, TokensOf (data.map fun d => toMatcher digit d.regex)
      ("_START".toList :: "_STOP".toList :: data.map (·.tokenName)) input done body → tok ∈ body →
      ∃ d r t, data[tok.tokenType - 2]? = some d ∧ d.tokenName = tok.tokenName ∧
        d.regex = "^(".toList ++ r ++ ")".toList ∧ parse r = some t ∧ (t.toRegex digit).Lang tok.text := by
    intro done body hb hm
    obtain ⟨j, hj⟩ := List.getElem?_of_mem hm
    obtain ⟨before, u, v, i, name, h1, h2, h3, h4, rfl⟩ := hb.get hj
    obtain ⟨_, ⟨m, hm, hmr⟩, _⟩ := h3
    rw [List.getElem?_map, Option.map_eq_some_iff] at hm
    obtain ⟨d, hd, rfl⟩ := hm
    obtain ⟨r, t, hr, ht⟩ := h d (List.mem_of_getElem? hd)
    rw [hr, toMatcher_wrapped ht] at hmr
    obtain ⟨u', v', e1, e3, e2⟩ := Regex.find_some hmr
    have : u' = u := by
      exact (append_inj_byteLen e1 e2).1.symm
    subst this
    refine ⟨d, r, t, ?_, ?_, hr, ht, e3⟩
    · simpa [mkToken] using hd
    · simpa [mkToken, hd] using h4
  rcases scans_cases h.ok hs with ⟨done, rest, ht, _⟩ | ⟨body, hb, rfl, _, _⟩
  · exact key done toks ht htok
  · rcases List.mem_append.1 htok with hm | hm
    · exact key input body hb hm
    · rw [List.mem_singleton] at hm
      subst hm
      exact absurd rfl hne

/-- non-vacuity: two rules, and the tokens of a text -/
example : WellFormed [⟨2, "NUM".toList, "^([0-9]+)".toList⟩, ⟨3, "WHITE_SPACE".toList, "^( )".toList⟩] ∧
    ((generatedLexer (toMatcher fun _ => false) [⟨2, "NUM".toList, "^([0-9]+)".toList⟩,
      ⟨3, "WHITE_SPACE".toList, "^( )".toList⟩] "12 3".toList).scan.bind fun r => r.2.scan.map fun r =>
        r.1.map fun tok => (tok.tokenType, tok.text)) = .ok (some (3, " ".toList)) := by
  refine ⟨?_, by decide +kernel⟩
  intro d hd
  simp only [List.mem_cons, List.not_mem_nil, or_false] at hd
  rcases hd with rfl | rfl
  · exact ⟨"[0-9]+".toList, _, by decide +kernel, rfl⟩
  · exact ⟨" ".toList, _, by decide +kernel, rfl⟩

/-- a lexer rule whose text is no regex on its own, and what `load_ast` makes of it -/
def unbalancedRule : LexerRuleData := ⟨2, "TOK".toList, "^(a)|(b)".toList⟩

/-- **C65** is false in general: the rule `TOK : /a)|(b/ ;` is accepted, its regex compiles, and the generated
lexer turns the text `xxb` into one token although neither branch matches an `x`. -/
theorem C65_unbalanced :
    ruleRegex "/a)|(b/".toList = .ok (some unbalancedRule.regex) ∧
    (compile unbalancedRule.regex).isSome = true ∧
    ((generatedLexer (toMatcher fun _ => false) [unbalancedRule] "xxb".toList).scan.map fun r =>
      r.1.map fun tok => (tok.tokenType, tok.text)) = .ok (some (2, "xxb".toList)) := by
  refine ⟨by decide +kernel, by decide +kernel, by decide +kernel⟩

/-- … and `xxb` contains characters that occur in no match of `a` or `b`. -/
theorem C65_unbalanced_not_matched (p : Pattern) (hp : compile unbalancedRule.regex = some p) :
    ∀ b ∈ p, ¬ (b.2.toRegex digit).Lang "xxb".toList := by
  have : compile unbalancedRule.regex = some [(true, .one (.one 'a')), (false, .one (.one 'b'))] := by decide +kernel
  rw [this] at hp
  cases hp
  intro b hb
  simp only [List.mem_cons, List.not_mem_nil, or_false] at hb
  rcases hb with rfl | rfl <;> · rintro ⟨c, _, h⟩; simp at h

/-! ### C55 with the actual matcher -/

theorem regexMeta_eq (c : Char) : regexMeta c = isMeta c := by
  rw [Bool.eq_iff_iff]
  simp [regexMeta, isMeta, or_assoc]

theorem single_plain {c : Char} (h : isMeta c = false) (s : Str) : single false (c :: s) = some (.one (.one c), s) := by
  have hk : atomKind c = .plain := by
    have h' := h
    simp only [isMeta, Bool.or_eq_false_iff] at h'
    simp [atomKind, h', h]
  rw [single, hk, singleOf]

theorem peek_of_meta {c d : Char} (h : isMeta c = false) (hd : isMeta d = true) (s : Str) : peek d (c :: s) = false := by
  simp only [peek, List.head?_cons, beq_eq_false_iff_ne, ne_eq, Option.some.injEq]
  rintro rfl; simp [h] at hd

/-- the first character of the regex of a literal is never a quantifier, a `|` or a `)` -/
theorem repeatOp_units (us : List LitUnit) (h : ∀ u ∈ us, u.Handled) : repeatOp (us.flatMap LitUnit.regex) = none := by
  cases us with
  | nil => rfl
  | cons u us =>
    rw [List.flatMap_cons, LitUnit.regex]
    split
    · rfl
    split
    · rfl
    · rename_i h1 h2
      have hm : isMeta u.value = false := by
        rw [← regexMeta_eq]
        cases u with
        | plain c =>
          cases hc : regexMeta c with
          | false => exact hc
          | true =>
            rcases (h (.plain c) (by simp)).2 hc with rfl | rfl
            · exact absurd rfl h1
            · exact absurd rfl h2
        | _ => decide
      simp only [isMeta, Bool.or_eq_false_iff] at hm
      cases u with
      | plain c =>
        simp only [LitUnit.value] at hm
        simp [escapedValue, LitUnit.value, repeatOp, hm]
      | _ => rfl

theorem parseConcat_single {n : Nat} {s s' s'' : Str} {r : Rx} {rs : List Rx} (hb : branchEnd s = false)
    (hp : peek '(' s = false) (hs : single false s = some (r, s')) (hq : quantifier r s' = some (r, s'))
    (hr : parseConcat false (n + 1) s' = some (rs, s'')) : parseConcat false (n + 2) s = some (r :: rs, s'') := by
  rw [parseConcat, hb, parseAtom, hp, hs]
  simp only [Bool.false_eq_true, if_false, hq, hr]

/-- the regex of a literal is read as the sequence of its characters -/
theorem parseConcat_units (us : List LitUnit) (h : ∀ u ∈ us, u.Handled) (n : Nat) (hn : us.length + 2 ≤ n) :
    parseConcat false n (us.flatMap LitUnit.regex) = some (us.map fun u => .one (.one u.value), []) := by
  induction us generalizing n with
  | nil =>
    obtain ⟨n, rfl⟩ : ∃ k, n = k + 1 := ⟨n - 1, by simp at hn; omega⟩
    simp [parseConcat, branchEnd]
  | cons u us ih =>
    rw [List.length_cons] at hn
    obtain ⟨n, rfl⟩ : ∃ k, n = k + 2 := ⟨n - 2, by omega⟩
    have h' : ∀ v ∈ us, v.Handled := fun v hv => h v (by simp [hv])
    have ih := ih h' (n + 1) (by omega)
    have hrep := repeatOp_units us h'
    have hq : ∀ r, quantifier r (us.flatMap LitUnit.regex) = some (r, us.flatMap LitUnit.regex) := by
      intro r; rw [quantifier, hrep]
    have hone : u.regex = [u.value] → isMeta u.value = false → parseConcat false (n + 2) ((u :: us).flatMap LitUnit.regex) =
        some ((u :: us).map fun u => .one (.one u.value), []) := by
      intro h1 hm
      have b : branchEnd (u.value :: us.flatMap LitUnit.regex) = false := by
        simp [branchEnd, peek_of_meta hm (d := '|') (by decide), peek_of_meta hm (d := ')') (by decide)]
      rw [List.flatMap_cons, h1]
      exact parseConcat_single b (peek_of_meta hm (d := '(') (by decide) _) (single_plain hm _) (hq _) ih
    cases u with
    | plain c =>
      cases hc : regexMeta c with
      | false =>
        refine hone ?_ (by rw [← regexMeta_eq]; exact hc)
        rw [LitUnit.regex, if_neg, if_neg]
        · rfl
        · rintro h1; cases h1; cases hc
        · rintro h1; cases h1; cases hc
      | true =>
        rcases (h (.plain c) (by simp)).2 hc with rfl | rfl
        · exact parseConcat_single rfl rfl rfl (hq _) ih
        · exact parseConcat_single rfl rfl rfl (hq _) ih
    | alert => exact parseConcat_single rfl rfl rfl (hq _) ih
    | feed => exact parseConcat_single rfl rfl rfl (hq _) ih
    | vertical => exact parseConcat_single rfl rfl rfl (hq _) ih
    | _ => exact hone rfl (by decide)

theorem lang_cat (cs : Str) (w : Str) :
    ((Rx.cat (cs.map fun c => .one (.one c))).toRegex digit).Lang w ↔ w = cs := by
  induction cs generalizing w with
  | nil => simp [Rx.cat, Rx.toRegex, Regex.Lang]
  | cons c cs ih =>
    cases cs with
    | nil => simp [Rx.cat, Rx.toRegex, Regex.Lang, ClassItem.has]
    | cons d cs =>
      have : Rx.cat ((c :: d :: cs).map fun c => .one (.one c)) =
          .seq (.one (.one c)) (Rx.cat ((d :: cs).map fun c => .one (.one c))) := rfl
      rw [this, Rx.toRegex, Regex.Lang]
      constructor
      · rintro ⟨a, b, rfl, ha, hb⟩
        rw [ih] at hb
        simp only [Rx.toRegex, Regex.Lang, ClassItem.has, beq_iff_eq] at ha
        obtain ⟨_, rfl, rfl⟩ := ha
        rw [hb]; rfl
      · rintro rfl
        exact ⟨[c], d :: cs, rfl, by simp [Rx.toRegex, Regex.Lang, ClassItem.has], (ih _).2 rfl⟩

/-- **C55** (partial) the same with the compiled regex, for the `k`-th distinct literal: on every rest of the
input it matches if and only if the rest begins with the string the literal stands for, and then exactly that
string.  Not so for other metacharacters and for `\\`: see `C55_metacharacters_match`. -/
theorem C55_literal_matcher_partial (ast : RuleContext) (rs : List Str)
    (h : literalTexts lc ast = rs.map fun r => '\'' :: r ++ ['\'']) (k : Nat) (us : List LitUnit)
    (hu : ∀ u ∈ us, u.Handled) (hk : (firstOccurrences [] rs)[k]? = some (us.flatMap LitUnit.source)) :
    ∃ s' d p, runStrLit lc ast .new = .ok s' ∧ s'.data[k]? = some d ∧ compile d.regex = some p ∧
      ∀ s n, Pattern.find digit p s = some n ↔
        us.map LitUnit.value <+: s ∧ n = byteLen (us.map LitUnit.value) := by
  obtain ⟨s', h1, h2⟩ := runStrLit_eq h
  have hp : parse (us.flatMap LitUnit.regex) = some (Rx.cat ((us.map LitUnit.value).map fun c => .one (.one c))) := by
    have hl : us.length ≤ (us.flatMap LitUnit.regex).length := by
      clear hk hu h h1 h2
      induction us with
      | nil => simp
      | cons u us ih =>
        rw [List.flatMap_cons, List.length_append, List.length_cons]
        have : 1 ≤ u.regex.length := by
          rw [LitUnit.regex]; split
          · simp
          split
          · simp
          · cases u <;> simp [escapedValue]
        omega
    rw [parse, fuelFor, parseAlts, parseConcat_units us hu _ (by omega)]
    simp [peek, Rx.alts, Function.comp_def]
  refine ⟨s', _, [(true, Rx.cat ((us.map LitUnit.value).map fun c => .one (.one c)))], h1,
    by rw [h2]; exact literalEntries_get _ 2 k _ hk, ?_, ?_⟩
  · rw [literalText_units us fun u h => (hu u h).escaped]
    exact compile_wrapped hp
  intro s n
  rw [Pattern.find_anchored]
  constructor
  · intro hf
    obtain ⟨u, v, rfl, hl, hn⟩ := Regex.find_some hf
    rw [lang_cat] at hl
    subst hl
    exact ⟨⟨v, rfl⟩, hn⟩
  · rintro ⟨⟨v, rfl⟩, rfl⟩
    cases hf : Regex.find _ (us.map LitUnit.value ++ v) with
    | none => exact absurd ((lang_cat _ _).2 rfl) (Regex.find_none.1 hf _ _ rfl)
    | some n =>
      obtain ⟨u, v', e, hl, hn⟩ := Regex.find_some hf
      rw [lang_cat] at hl
      rw [hn, hl]

/-- non-vacuity: see the example behind `C55_backslash`; the matcher of its first literal, evaluated -/
example : (compile ("^(".toList ++ literalText "a+\\n".toList ++ ")".toList)).map (fun p =>
    Pattern.find (fun _ => false) p "a+\nb".toList) = some (some 3) := by decide +kernel

/-- **C55** is false in general: the matcher made of `'.'` matches the beginning of `xy`. -/
theorem C55_metacharacters_match : ∃ s' d p, runStrLit .old (oneLiteral "'.'") .new = .ok s' ∧ s'.data[0]? = some d ∧
    compile d.regex = some p ∧ Pattern.find digit p "xy".toList = some 1 := by
  obtain ⟨s', h1, h2⟩ := runStrLit_eq (lc := .old) (ast := oneLiteral "'.'") (rs := [['.']]) (by decide +kernel)
  refine ⟨s', _, [(true, .dot false)], h1, by rw [h2]; rfl, by decide +kernel, ?_⟩
  rw [Pattern.find_anchored]
  rfl

/-- **C55** even the literal `'('`, a token of the grammar of grammars, gives a text that is outside the regex
fragment (in fact an unclosed group, on which `Regex::new` fails and the generated lexer panics). -/
theorem C55_parenthesis : ∃ s' d, runStrLit .old (oneLiteral "'('") .new = .ok s' ∧ s'.data[0]? = some d ∧
    d.regex = "^(()".toList ∧ compile d.regex = none := by
  obtain ⟨s', h1, h2⟩ := runStrLit_eq (lc := .old) (ast := oneLiteral "'('") (rs := [['(']]) (by decide +kernel)
  refine ⟨s', _, h1, by rw [h2]; rfl, by decide +kernel, by decide +kernel⟩

end Syntaxis
