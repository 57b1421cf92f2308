import Verif.Model.LexerRuleVisitor
import Verif.Spec.LexRules
import Verif.Props.GrammarVisitor

/-!
# C50, C54, C55: lexer rules and string literals
-/

namespace Syntaxis
open Grammar

variable {lc : LexConsts}

/-! ### replacing -/

theorem replace_nil (pat new : Str) : replace [] pat new = [] := rfl

theorem replaceLoop_skip (pat new : Str) (u v : Str) :
    replaceLoop pat new u.length (u ++ v) = replaceLoop pat new 0 v := by
  induction u with
  | nil => rfl
  | cons c u ih => exact ih

/-- an occurrence is replaced -/
theorem replace_hit (a : Char) (p new s : Str) : replace (a :: p ++ s) (a :: p) new = new ++ replace s (a :: p) new := by
  have h : (a :: p).isPrefixOf (a :: (p ++ s)) = true := by
    rw [List.isPrefixOf_iff_prefix]
    exact ⟨s, by simp⟩
  simp only [replace, List.cons_append, replaceLoop, h, if_true, List.length_cons, Nat.add_sub_cancel]
  rw [replaceLoop_skip]

/-- elsewhere the character is kept -/
theorem replace_miss (c : Char) (s pat new : Str) (h : ¬ pat <+: c :: s) :
    replace (c :: s) pat new = c :: replace s pat new := by
  have h : pat.isPrefixOf (c :: s) = false := by
    rw [← Bool.not_eq_true, List.isPrefixOf_iff_prefix]; exact h
  simp only [replace, replaceLoop, h]
  rfl

/-- **C50** the replacement of `\/` by `/` -/
theorem replace_slash (s : Str) : replace s "\\/".toList "/".toList = unescapeSlash s := by
  show replace s ['\\', '/'] ['/'] = _
  induction s using unescapeSlash.induct with
  | case1 s ih => rw [unescapeSlash, ← ih]; exact replace_hit '\\' ['/'] ['/'] s
  | case2 c s h ih =>
    rw [unescapeSlash, ← ih]
    · refine replace_miss c s _ _ ?_
      rintro ⟨t, ht⟩
      simp only [List.cons_append, List.nil_append, List.cons.injEq] at ht
      exact h t ht.1.symm ht.2.symm
    · exact h
  | case3 => rfl

/-- **C50** The regex made from the literal `/r/` is `^(r')`, where `r'` is `r` with each `\/` replaced by
`/`. -/
theorem C50_regex_text (r : Str) :
    ruleRegex ('/' :: r ++ ['/']) = .ok (some ("^(".toList ++ unescapeSlash r ++ ")".toList)) := by
  have hl : byteLen ('/' :: r ++ ['/']) = 1 + byteLen r + 1 := by
    simp only [List.cons_append, byteLen_cons, byteLen_append, byteLen_nil]
    have : ('/' : Char).utf8Size = 1 := by decide
    omega
  have hs : slice ('/' :: r ++ ['/']) 1 (byteLen ('/' :: r ++ ['/']) - 1) = .ok r := by
    rw [hl]
    have := slice_append ['/'] r ['/']
    have e : byteLen ['/'] = 1 := by decide
    rw [e] at this
    simpa using this
  rw [ruleRegex, if_neg (by omega), hs, bind_ok, replace_slash]

/-! ### the two visitors that collect lexer rules -/

/-- the lexer rules among these nodes -/
def lexNodes (is : List Nat) (ast : RuleContext) : List Ast := (topmost is ast).filter (Ast.isRule 7)

theorem lexVisitor_quiet (lc : LexConsts) : (lexVisitor lc).Quiet :=
  ⟨⟨_, fun _ => rfl⟩, fun _ b => ⟨b, fun _ => rfl⟩, fun _ _ _ => rfl⟩

theorem lexVisitor_opaque (lc : LexConsts) : (lexVisitor lc).Opaque := by
  intro k f h c th th'
  cases k <;> simp [lexVisitor] at h <;> subst h <;> rfl

theorem runLex_eq (lc : LexConsts) (r : RuleContext) (s : LexState) :
    runLex lc r s = (topmost [7] r).foldlM (fun s a => (lexVisitor lc).callOn a s) s := by
  have ht : topmost [7] r = Ast.frontierList (lexVisitor lc).overridden r.children := by
    rw [topmost]
    congr 1
    funext c
    obtain ⟨n, ks, i⟩ := c
    rcases i with _|_|_|_|_|_|_|_|_|i <;> simp <;> rfl
  rw [ht, ← Visitor.loop_frontier (lexVisitor lc) (lexVisitor_quiet lc) (lexVisitor_opaque lc) r r.children () s]
  have h : (lexVisitor lc).accept .ruleList r s = (lexVisitor lc).visitLoop r r.children () s := rfl
  rw [runLex, h]
  cases (lexVisitor lc).visitLoop r r.children () s <;> rfl

theorem readLex_model {n : Str} {ks : List Ast} {m t : Str} (h : readLex lc (.rule n 7 ks) = some (m, t)) :
    (∃ tk, (⟨n, ks, 7⟩ : RuleContext).tokenRef lc = some tk ∧ tk.text = m) ∧
    ∃ rg tk, (⟨n, ks, 7⟩ : RuleContext).regular = some rg ∧ rg.regularLiteral lc = some tk ∧ tk.text = t := by
  simp only [readLex, Ast.kids] at h
  split at h
  · rename_i n' x hn hx
    rw [Option.map_eq_some_iff] at h
    obtain ⟨t', ht, he⟩ := h
    cases he
    constructor
    · have := getTerminal_text ⟨n, ks, 7⟩ lc.TOKEN_REF
      rw [hn, Option.map_eq_some_iff] at this
      exact this
    · have hz := getRuleContext_zero ⟨n, ks, 7⟩ 8
      rw [show (⟨n, ks, 7⟩ : RuleContext).children = ks from rfl, hx, Option.map_eq_some_iff] at hz
      obtain ⟨rg, h1, h2⟩ := hz
      subst h2
      have := getTerminal_text rg lc.REGULAR_LITERAL
      obtain ⟨tk, h3, h4⟩ := Option.map_eq_some_iff.1 (this.trans ht)
      exact ⟨rg, tk, h1, h3, h4⟩
  · cases h

theorem lexVisit_step {k : Ast} (hk : k.isRule 7 = true) {m r : Str} (h : readLex lc k = some (m, '/' :: r ++ ['/']))
    (s : LexState) : (lexVisitor lc).callOn k s =
      .ok (if m ∈ s.data.map (·.tokenName) then s.print (m ++ chars! " 重复定义") else
        { s with
          data := s.data ++ [⟨s.nextTokenType, m, "^(".toList ++ unescapeSlash r ++ ")".toList⟩]
          nextTokenType := s.nextTokenType + 1 }) := by
  cases k with
  | terminal t => cases hk
  | error t => cases hk
  | rule n i ks =>
    simp only [Ast.isRule, beq_iff_eq] at hk
    subst hk
    obtain ⟨⟨tk, h1, h1'⟩, rg, tk2, h2, h3, h3'⟩ := readLex_model h
    have : (lexVisitor lc).callOn (.rule n 7 ks) s = (lexVisitLexerRule lc ⟨n, ks, 7⟩ s).map Prod.snd := rfl
    rw [this, lexVisitLexerRule, h1, unwrap_some, bind_ok]
    dsimp only
    rw [h1']
    have hany : (s.data.any fun item => item.tokenName == m) = true ↔ m ∈ s.data.map (·.tokenName) := by
      simp [List.any_eq_true]
    by_cases hm : m ∈ s.data.map (·.tokenName)
    · rw [if_pos (hany.2 hm), if_pos hm]; rfl
    · rw [if_neg (fun h => hm (hany.1 h)), if_neg hm, h2, unwrap_some, bind_ok, h3, unwrap_some, bind_ok, h3',
        C50_regex_text, bind_ok]
      rfl

theorem lexVisit_other {k : Ast} (hk : ¬ k.isRule 7 = true) (s : LexState) : (lexVisitor lc).callOn k s = .ok s := by
  cases k with
  | terminal t => rfl
  | error t => rfl
  | rule n i ks => rcases i with _|_|_|_|_|_|_|_|_|i <;> first | rfl | exact absurd rfl hk

/-- **C50** The lexer rules collected by `LexerRuleVisitor`: those of the tree in order, without the ones whose
name is already defined, numbered from the counter, with the regexes above; for the others a message is printed. -/
theorem C50_lexer_rule_visitor (ast : RuleContext) (defs : List (Str × Str)) (data : List LexerRuleData) (next : Nat)
    (out : List Str) (hdefs : (lexNodes [7] ast).map (readLex lc) = defs.map fun d => some (d.1, '/' :: d.2 ++ ['/'])) :
    runLex lc ast ⟨data, next, out⟩ =
      .ok ⟨data ++ numbered next (firstWins (data.map (·.tokenName)) defs),
        next + (firstWins (data.map (·.tokenName)) defs).length,
        out ++ (dropped (data.map (·.tokenName)) defs).map (· ++ chars! " 重复定义")⟩ := by
  rw [runLex_eq]
  rw [lexNodes] at hdefs
  have hseen : ∀ (l : List (Str × Str)) (a b : List Str), (∀ x, x ∈ a ↔ x ∈ b) → firstWins a l = firstWins b l := by
    intro l
    induction l with
    | nil => intros; rfl
    | cons d l ih =>
      intro a b h
      rw [firstWins, firstWins]
      simp only [h d.1]
      split
      · exact ih a b h
      · rw [ih (d.1 :: a) (d.1 :: b) (by simp [h])]
  have hseen' : ∀ (l : List (Str × Str)) (a b : List Str), (∀ x, x ∈ a ↔ x ∈ b) → dropped a l = dropped b l := by
    intro l
    induction l with
    | nil => intros; rfl
    | cons d l ih =>
      intro a b h
      rw [dropped, dropped]
      simp only [h d.1]
      split
      · rw [ih a b h]
      · exact ih (d.1 :: a) (d.1 :: b) (by simp [h])
  generalize topmost [7] ast = l at hdefs
  induction l generalizing defs data next out with
  | nil =>
    cases defs with
    | nil => simp [firstWins, dropped, numbered]; rfl
    | cons d ds => cases hdefs
  | cons k l ih =>
    rw [List.foldlM_cons]
    by_cases hk : k.isRule 7 = true
    · rw [List.filter_cons_of_pos hk, List.map_cons] at hdefs
      cases defs with
      | nil => cases hdefs
      | cons d ds =>
        rw [List.map_cons, List.cons.injEq] at hdefs
        rw [lexVisit_step hk hdefs.1, bind_ok, firstWins, dropped]
        dsimp only
        split
        · rename_i hm
          rw [LexState.print, ih ds data next _ hdefs.2]
          simp
        · rename_i hm
          rw [ih ds _ _ _ hdefs.2, List.map_append, List.map_singleton,
            hseen' ds (_ ++ [d.1]) (d.1 :: data.map (·.tokenName)) (by intro x; simp [or_comm]),
            hseen ds (_ ++ [d.1]) (d.1 :: data.map (·.tokenName)) (by intro x; simp [or_comm])]
          simp only [numbered, List.append_assoc, List.singleton_append, List.length_cons]
          congr 2
          omega
    · rw [List.filter_cons_of_neg hk] at hdefs
      rw [lexVisit_other hk, bind_ok]
      exact ih defs data next out hdefs

theorem symVisit_step {n0 r0 : Nat} {k : Ast} (hk : k.isRule 7 = true) {m r : Str}
    (h : readLex lc k = some (m, '/' :: r ++ ['/'])) (s : SymState) (hs : SymInv n0 r0 s) (h0 : 2 ≤ n0) :
    ∃ s', (symVisitor lc).callOn k s = .ok s' ∧ SymInv n0 r0 s' ∧
      s'.nextTokenId = (if s.grammar.vocabulary.isTerminalNameDefined m = true then s.nextTokenId
        else s.nextTokenId + 1) ∧
      s'.data = (if s.grammar.vocabulary.isTerminalNameDefined m = true then s.data else
        s.data ++ [⟨s.nextTokenId, m, "^(".toList ++ unescapeSlash r ++ ")".toList⟩]) ∧
      (∀ x, s'.grammar.vocabulary.isTerminalNameDefined x = true ↔
        x = m ∨ s.grammar.vocabulary.isTerminalNameDefined x = true) := by
  cases k with
  | terminal t => cases hk
  | error t => cases hk
  | rule n i ks =>
    simp only [Ast.isRule, beq_iff_eq] at hk
    subst hk
    obtain ⟨⟨tk, h1, h1'⟩, rg, tk2, h2, h3, h3'⟩ := readLex_model h
    have hcall : (symVisitor lc).callOn (.rule n 7 ks) s = (symVisitLexerRule lc ⟨n, ks, 7⟩ s).map Prod.snd := rfl
    have hinv := symInv_lexerRule lc h0 ⟨n, ks, 7⟩ s (hs := hs)
    rw [hcall]
    rw [symVisitLexerRule, h1, unwrap_some, bind_ok] at hinv ⊢
    dsimp only at hinv ⊢
    rw [h1'] at hinv ⊢
    by_cases hm : s.grammar.vocabulary.isTerminalNameDefined m = true
    · simp only [if_pos hm]
      refine ⟨_, rfl, hs.print _, rfl, rfl, fun x => ⟨.inr, ?_⟩⟩
      rintro (rfl | hx)
      · exact hm
      · exact hx
    · simp only [if_neg hm]
      rw [if_neg hm] at hinv
      rw [h2, unwrap_some, bind_ok, h3, unwrap_some, bind_ok, h3', C50_regex_text, bind_ok] at hinv ⊢
      refine ⟨_, rfl, hinv _ rfl, rfl, rfl, fun x => ?_⟩
      have hd : s.grammar.vocabulary.isTerminalNameDefined m = false := by simpa using hm
      have hn : s.nextTokenId ∉ s.grammar.vocabulary.terminals := by
        rw [hs.tok]
        have := hs.next
        omega
      dsimp only
      simp only [addTerminal_fresh hd hn, Vocabulary.isTerminalNameDefined, HMap.containsKey_iff, HMap.get_insert]
      split
      · rename_i he
        simp [he]
      · rename_i he
        have : ¬ x = m := fun h => he h.symm
        simp [this]

theorem symVisit_other {n0 r0 : Nat} {k : Ast} (hk : ¬ k.isRule 7 = true) {s s' : SymState} (hs : SymInv n0 r0 s)
    (h0 : 2 ≤ n0) (h : (symVisitor lc).callOn k s = .ok s') : SymInv n0 r0 s' ∧
      s'.nextTokenId = s.nextTokenId ∧ s'.data = s.data ∧
      (∀ x, s'.grammar.vocabulary.isTerminalNameDefined x = s.grammar.vocabulary.isTerminalNameDefined x) := by
  have hc := h
  rw [sym_callOn] at h
  split at h
  · rename_i n ks
    obtain ⟨_, h⟩ := map_snd_ok h
    refine ⟨symInv_parserRule lc _ s s' hs h, ?_⟩
    rw [symVisitParserRule, bind_eq_ok] at h
    obtain ⟨tk, _, h⟩ := h
    dsimp only at h
    split at h
    · cases h; exact ⟨rfl, rfl, fun _ => rfl⟩
    · cases h
      refine ⟨rfl, rfl, fun x => ?_⟩
      simp only [Vocabulary.isTerminalNameDefined, Vocabulary.addNamedNonterminal]
      split <;> rfl
  · exact absurd rfl hk
  · cases h; exact ⟨hs, rfl, rfl, fun _ => rfl⟩

/-- **C50** The lexer data of the symbol pass: as for `LexerRuleVisitor`, except that the two reserved names
count as defined. -/
theorem C50_symbol_visitor (ast : RuleContext) (defs : List (Str × Str)) (name : Str) {n0 r0 : Nat} (h0 : 2 ≤ n0)
    (hdefs : (lexNodes [1, 7] ast).map (readLex lc) = defs.map fun d => some (d.1, '/' :: d.2 ++ ['/']))
    {s' : SymState} (h : runSym lc ast { grammar := Grammar.new name, data := [], nextTokenId := n0, nextRuleId := r0 } = .ok s') :
    s'.data = numbered n0 (firstWins ["_START".toList, "_STOP".toList] defs) := by
  rw [runSym_eq, sym_topmost] at h
  rw [lexNodes] at hdefs
  have key : ∀ (l : List Ast) (defs : List (Str × Str)) (seen : List Str) (s s' : SymState), SymInv n0 r0 s →
      (∀ x, s.grammar.vocabulary.isTerminalNameDefined x = true ↔ x ∈ seen) →
      (l.filter (Ast.isRule 7)).map (readLex lc) = defs.map (fun d => some (d.1, '/' :: d.2 ++ ['/'])) →
      l.foldlM (fun s a => (symVisitor lc).callOn a s) s = .ok s' →
      s'.data = s.data ++ numbered s.nextTokenId (firstWins seen defs) := by
    intro l
    induction l with
    | nil =>
      intro defs seen s s' _ _ hd h
      cases h
      cases defs with
      | nil => simp [firstWins, numbered]
      | cons d ds => cases hd
    | cons k l ih =>
      intro defs seen s s' hs hseen hd h
      rw [List.foldlM_cons, bind_eq_ok] at h
      obtain ⟨s1, h1, h2⟩ := h
      by_cases hk : k.isRule 7 = true
      · rw [List.filter_cons_of_pos hk, List.map_cons] at hd
        cases defs with
        | nil => cases hd
        | cons d ds =>
          rw [List.map_cons, List.cons.injEq] at hd
          obtain ⟨s1', he, hs1, hn, hdata, hdef⟩ := symVisit_step hk hd.1 s hs h0
          rw [he] at h1
          cases h1
          rw [firstWins]
          have hm := hseen d.1
          by_cases hin : d.1 ∈ seen
          · rw [if_pos hin]
            rw [if_pos (hm.2 hin)] at hn hdata
            rw [ih ds seen s1 s' hs1 ?_ hd.2 h2, hn, hdata]
            intro x
            rw [hdef, hseen]
            exact ⟨fun h => h.elim (fun h => h ▸ hin) id, .inr⟩
          · rw [if_neg hin]
            rw [if_neg (fun h => hin (hm.1 h))] at hn hdata
            rw [ih ds (d.1 :: seen) s1 s' hs1 ?_ hd.2 h2, hn, hdata, numbered]
            · simp
            · intro x
              rw [hdef, hseen, List.mem_cons]
      · rw [List.filter_cons_of_neg hk] at hd
        obtain ⟨hs1, hn, hdata, hdef⟩ := symVisit_other hk hs h0 h1
        rw [ih defs seen s1 s' hs1 (fun x => by rw [hdef]; exact hseen x) hd h2, hn, hdata]
  have hinit : ∀ x, (Grammar.new name).vocabulary.isTerminalNameDefined x = true ↔
      x ∈ ["_START".toList, "_STOP".toList] := by
    intro x
    have e : (Grammar.new name).vocabulary.tNameToId =
        ((HMap.empty).insert Vocabulary.startName 0).insert Vocabulary.stopName 1 := rfl
    simp only [Vocabulary.isTerminalNameDefined, e, HMap.containsKey_iff, HMap.get_insert, HMap.get_empty,
      List.mem_cons, List.not_mem_nil, or_false]
    show _ ↔ x = Vocabulary.startName ∨ x = Vocabulary.stopName
    by_cases h1 : Vocabulary.stopName = x
    · simp [h1]
    · by_cases h2 : Vocabulary.startName = x
      · rw [if_neg h1, if_pos h2]; simp [h2]
      · rw [if_neg h1, if_neg h2]
        constructor
        · rintro ⟨a, ha⟩; cases ha
        · rintro (h | h)
          · exact absurd h.symm h2
          · exact absurd h.symm h1
  simpa using key _ defs _ _ s' (symInv_init name n0 r0 h0) hinit hdefs h

/-- what remains are exactly the first definitions of names not defined before -/
theorem mem_firstWins (seen : List Str) (ds : List (Str × Str)) (d : Str × Str) :
    d ∈ firstWins seen ds ↔ ∃ pre post, ds = pre ++ d :: post ∧ d.1 ∉ seen ∧ ∀ e ∈ pre, e.1 ≠ d.1 := by
  induction ds generalizing seen with
  | nil => simp [firstWins]
  | cons e ds ih =>
    rw [firstWins]
    split
    · rename_i hm
      rw [ih]
      constructor
      · rintro ⟨pre, post, rfl, h1, h2⟩
        refine ⟨e :: pre, post, rfl, h1, ?_⟩
        intro x hx
        rcases List.mem_cons.1 hx with rfl | hx
        · exact fun h => h1 (h ▸ hm)
        · exact h2 x hx
      · rintro ⟨pre, post, h, h1, h2⟩
        cases pre with
        | nil => cases h; exact absurd hm h1
        | cons x pre =>
          cases h
          exact ⟨pre, post, rfl, h1, fun x hx => h2 x (by simp [hx])⟩
    · rename_i hm
      rw [List.mem_cons, ih]
      constructor
      · rintro (rfl | ⟨pre, post, rfl, h1, h2⟩)
        · exact ⟨[], ds, rfl, hm, by simp⟩
        · rw [List.mem_cons, not_or] at h1
          refine ⟨e :: pre, post, rfl, h1.2, ?_⟩
          intro x hx
          rcases List.mem_cons.1 hx with rfl | hx
          · exact fun h => h1.1 h.symm
          · exact h2 x hx
      · rintro ⟨pre, post, h, h1, h2⟩
        cases pre with
        | nil => cases h; exact .inl rfl
        | cons x pre =>
          cases h
          refine .inr ⟨pre, post, rfl, ?_, fun x hx => h2 x (by simp [hx])⟩
          rw [List.mem_cons, not_or]
          exact ⟨fun h => h2 e (by simp) h.symm, h1⟩

/-- **C50** first definition wins: the data contains a rule of this name with this regex iff the first
definition of the name in the tree has that regex text (names not defined before). -/
theorem C50_first_definition_wins (ast : RuleContext) (defs : List (Str × Str)) (next : Nat)
    (hdefs : (lexNodes [7] ast).map (readLex lc) = defs.map fun d => some (d.1, '/' :: d.2 ++ ['/'])) :
    ∃ s', runLex lc ast ⟨[], next, []⟩ = .ok s' ∧ ∀ n re,
      (∃ d ∈ s'.data, d.tokenName = n ∧ d.regex = re) ↔
      ∃ r pre post, defs = pre ++ (n, r) :: post ∧ (∀ e ∈ pre, e.1 ≠ n) ∧
        re = "^(".toList ++ unescapeSlash r ++ ")".toList := by
  refine ⟨_, C50_lexer_rule_visitor ast defs [] next [] hdefs, fun n re => ?_⟩
  have hnum : ∀ (l : List (Str × Str)) (i : Nat), (∃ d ∈ numbered i l, d.tokenName = n ∧ d.regex = re) ↔
      ∃ d ∈ l, d.1 = n ∧ re = "^(".toList ++ unescapeSlash d.2 ++ ")".toList := by
    intro l
    induction l with
    | nil => simp [numbered]
    | cons d l ih =>
      intro i
      simp only [numbered, List.mem_cons, exists_eq_or_imp, ih]
      constructor
      · rintro (⟨h1, h2⟩ | h)
        · exact .inl ⟨h1, h2.symm⟩
        · exact .inr h
      · rintro (⟨h1, h2⟩ | h)
        · exact .inl ⟨h1, h2.symm⟩
        · exact .inr h
  simp only [List.map_nil, List.nil_append, hnum, mem_firstWins]
  constructor
  · rintro ⟨⟨m, r⟩, ⟨pre, post, h1, _, h2⟩, rfl, h3⟩
    exact ⟨r, pre, post, h1, h2, h3⟩
  · rintro ⟨r, pre, post, h1, h2, h3⟩
    exact ⟨(n, r), ⟨pre, post, h1, by simp, h2⟩, rfl, h3⟩

example : (lexNodes [7] ExTree.tree).map (readLex .old) =
    [("B".toList, "b".toList), ("B".toList, "x".toList), ("C".toList, "\\/c".toList)].map
      (fun d => some (d.1, '/' :: d.2 ++ ['/'])) ∧
    (lexNodes [1, 7] ExTree.tree).map (readLex .old) = (lexNodes [7] ExTree.tree).map (readLex .old) := by
  decide +kernel

/-! ### string literals -/

mutual
theorem frontier_leaf (k : Ast) : k.frontier (fun _ => false) = k.leafNodes.map
    fun x => if x.1 = false then Ast.terminal x.2 else Ast.error x.2 := by
  cases k with
  | terminal t => rfl
  | error t => rfl
  | rule n i ks => rw [Ast.frontier, if_neg (by simp), frontier_leaves ks, Ast.leafNodes]
theorem frontier_leaves (ks : List Ast) : Ast.frontierList (fun _ => false) ks = (Ast.leafNodesList ks).map
    fun x => if x.1 = false then Ast.terminal x.2 else Ast.error x.2 := by
  cases ks with
  | nil => rfl
  | cons k ks => rw [Ast.frontierList, frontier_leaf k, frontier_leaves ks, Ast.leafNodesList, List.map_append]
end

theorem strLit_leaves (lc : LexConsts) (ks : List Ast) : ∀ (c : RuleContext) (s : StrLitState),
    ((strLitVisitor lc).visitLoop c ks () s).map Prod.snd =
      (Ast.leafNodesList ks).foldlM (fun s x =>
        if x.1 = false then (strLitVisitTerminal lc x.2 s).map Prod.snd else .ok s) s := by
  have hq : (strLitVisitor lc).Quiet := ⟨⟨_, fun _ => rfl⟩, fun _ b => ⟨b, fun _ => rfl⟩, fun _ _ _ => rfl⟩
  have ho : (strLitVisitor lc).Opaque := by intro k f h; cases h
  intro c s
  rw [Visitor.loop_frontier _ hq ho]
  have hov : (strLitVisitor lc).overridden = fun _ => false := by
    funext c
    simp only [Visitor.overridden]
    cases RuleKind.declared c.ruleIndex <;> rfl
  rw [hov]
  rw [frontier_leaves, List.foldlM_map]
  congr 1
  funext s x
  obtain ⟨b, t⟩ := x
  cases b <;> rfl


/-- the entries made for string literals with these contents -/
def literalEntries : Nat → List Str → List LexerRuleData
  | _, [] => []
  | i, r :: rs => ⟨i, "T_".toList ++ (Nat.repr i).toList, "^(".toList ++ literalText r ++ ")".toList⟩ ::
      literalEntries (i + 1) rs

theorem literal_slice (r : Str) : byteLen ('\'' :: r ++ ['\'']) ≠ 0 ∧
    slice ('\'' :: r ++ ['\'']) 1 (byteLen ('\'' :: r ++ ['\'']) - 1) = .ok r := by
  have hl : byteLen ('\'' :: r ++ ['\'']) = 1 + byteLen r + 1 := by
    simp only [List.cons_append, byteLen_cons, byteLen_append, byteLen_nil]
    have : ('\'' : Char).utf8Size = 1 := by decide
    omega
  refine ⟨by omega, ?_⟩
  rw [hl]
  have := slice_append ['\''] r ['\'']
  have e : byteLen ['\''] = 1 := by decide
  rw [e] at this
  simpa using this

theorem strLit_run (l : List (Bool × Token)) : ∀ (rs : List Str) (seen : List Str) (s : StrLitState),
    (l.filterMap fun x => if x.1 = false ∧ x.2.tokenType = lc.STRING_LITERAL then some x.2.text else none) =
      rs.map (fun r => '\'' :: r ++ ['\'']) →
    (∀ x, x ∈ s.cache ↔ ∃ r ∈ seen, x = '\'' :: r ++ ['\'']) →
    ∃ s', l.foldlM (fun s x => if x.1 = false then (strLitVisitTerminal lc x.2 s).map Prod.snd else .ok s) s = .ok s' ∧
      s'.data = s.data ++ literalEntries s.nextTokenType (firstOccurrences seen rs) := by
  induction l with
  | nil =>
    intro rs seen s h _
    cases rs with
    | nil => exact ⟨s, rfl, by simp [firstOccurrences, literalEntries]⟩
    | cons r rs => cases h
  | cons x l ih =>
    intro rs seen s h hs
    obtain ⟨b, t⟩ := x
    rw [List.foldlM_cons]
    rw [List.filterMap_cons] at h
    by_cases hc : b = false ∧ t.tokenType = lc.STRING_LITERAL
    · rw [if_pos hc] at h
      obtain ⟨rfl, ht⟩ := hc
      cases rs with
      | nil => cases h
      | cons r rs =>
        simp only [List.map_cons, List.cons.injEq] at h
        obtain ⟨h1, h2⟩ := h
        simp only [if_true]
        rw [strLitVisitTerminal, if_pos ht]
        have hin : t.text ∈ s.cache ↔ r ∈ seen := by
          rw [hs, h1]
          constructor
          · rintro ⟨r', hr', he⟩
            have : r = r' := by simpa using he
            exact this ▸ hr'
          · exact fun hr => ⟨r, hr, rfl⟩
        dsimp only
        rw [firstOccurrences]
        by_cases hm : r ∈ seen
        · rw [if_pos (hin.2 hm), if_pos hm]
          exact ih rs seen s h2 hs
        · rw [if_neg (fun h => hm (hin.1 h)), if_neg hm, h1, if_neg (literal_slice r).1, (literal_slice r).2, bind_ok]
          dsimp only [Except.map]
          rw [bind_ok]
          have hs' : ∀ x, x ∈ insert ('\'' :: r ++ ['\'']) s.cache ↔ ∃ r' ∈ r :: seen, x = '\'' :: r' ++ ['\''] := by
            intro x
            simp only [Finset.mem_insert, hs, List.mem_cons, exists_eq_or_imp]
          obtain ⟨s', h3, h4⟩ := ih rs (r :: seen) ⟨s.data ++ [⟨s.nextTokenType,
            "T_".toList ++ (Nat.repr s.nextTokenType).toList, "^(".toList ++ literalText r ++ ")".toList⟩],
            s.nextTokenType + 1, insert ('\'' :: r ++ ['\'']) s.cache⟩ h2 hs'
          refine ⟨s', h3, ?_⟩
          rw [h4, literalEntries]
          simp
    · rw [if_neg hc] at h
      have : (if b = false then (strLitVisitTerminal lc t s).map Prod.snd else .ok s : Res StrLitState) = .ok s := by
        split
        · rename_i hb
          rw [strLitVisitTerminal, if_neg (fun h => hc ⟨hb, h⟩)]; rfl
        · rfl
      dsimp only
      rw [this, bind_ok]
      exact ih rs seen s h hs

theorem runStrLit_eq {ast : RuleContext} {rs : List Str}
    (h : literalTexts lc ast = rs.map fun r => '\'' :: r ++ ['\'']) :
    ∃ s', runStrLit lc ast .new = .ok s' ∧ s'.data = literalEntries 2 (firstOccurrences [] rs) := by
  obtain ⟨s', h1, h2⟩ := strLit_run (lc := lc) (Ast.leafNodesList ast.children) rs [] .new h
    (by intro x; simp [StrLitState.new])
  refine ⟨s', ?_, by simpa [StrLitState.new] using h2⟩
  rw [← strLit_leaves lc ast.children ast] at h1
  have : (strLitVisitor lc).accept .ruleList ast .new = (strLitVisitor lc).visitLoop ast ast.children () .new := rfl
  rw [runStrLit, this]
  cases hx : (strLitVisitor lc).visitLoop ast ast.children () .new with
  | error e => rw [hx] at h1; cases h1
  | ok p => rw [hx] at h1; cases h1; rfl

theorem literalEntries_get (rs : List Str) : ∀ (i k : Nat) (r : Str), rs[k]? = some r →
    (literalEntries i rs)[k]? = some ⟨i + k, "T_".toList ++ (Nat.repr (i + k)).toList,
      "^(".toList ++ literalText r ++ ")".toList⟩ := by
  induction rs with
  | nil => intro i k r h; simp at h
  | cons x rs ih =>
    intro i k r h
    cases k with
    | zero => simp at h; subst h; rfl
    | succ k =>
      have := ih (i + 1) k r (by simpa using h)
      rw [literalEntries, List.getElem?_cons_succ, this, Nat.add_right_comm, Nat.add_assoc]

theorem literalEntries_length (rs : List Str) : ∀ i, (literalEntries i rs).length = rs.length := by
  induction rs with
  | nil => intro i; rfl
  | cons x rs ih => intro i; simp [literalEntries, ih]

theorem firstOccurrences_spec (seen ts : List Str) : (firstOccurrences seen ts).Nodup ∧
    ∀ t, t ∈ firstOccurrences seen ts ↔ t ∈ ts ∧ t ∉ seen := by
  induction ts generalizing seen with
  | nil => simp [firstOccurrences]
  | cons x ts ih =>
    rw [firstOccurrences]
    split
    · rename_i hm
      refine ⟨(ih seen).1, fun t => ?_⟩
      rw [(ih seen).2, List.mem_cons]
      constructor
      · rintro ⟨h1, h2⟩; exact ⟨.inr h1, h2⟩
      · rintro ⟨rfl | h1, h2⟩
        · exact absurd hm h2
        · exact ⟨h1, h2⟩
    · rename_i hm
      refine ⟨List.nodup_cons.2 ⟨fun h => ?_, (ih _).1⟩, fun t => ?_⟩
      · exact (((ih _).2 x).1 h).2 (by simp)
      · rw [List.mem_cons, (ih _).2]
        simp only [List.mem_cons, not_or]
        constructor
        · rintro (rfl | ⟨h1, h2, h3⟩)
          · exact ⟨.inl rfl, hm⟩
          · exact ⟨.inr h1, h3⟩
        · rintro ⟨rfl | h1, h2⟩
          · exact .inl rfl
          · by_cases h : t = x
            · exact .inl h
            · exact .inr ⟨h1, h, h2⟩

/-- **C54** Every distinct string literal of the tree gets exactly one lexer rule: the `k`-th literal in order
of first occurrence gets token type `2 + k` and name `T_<2+k>`. -/
theorem C54_literals_numbered (ast : RuleContext) (rs : List Str)
    (h : literalTexts lc ast = rs.map fun r => '\'' :: r ++ ['\'']) :
    ∃ s', runStrLit lc ast .new = .ok s' ∧ s'.data.length = (firstOccurrences [] rs).length ∧
      (∀ k r, (firstOccurrences [] rs)[k]? = some r → ∃ d, s'.data[k]? = some d ∧ d.tokenType = 2 + k ∧
        d.tokenName = "T_".toList ++ (Nat.repr (2 + k)).toList) ∧
      (firstOccurrences [] rs).Nodup ∧ ∀ r, r ∈ firstOccurrences [] rs ↔ r ∈ rs := by
  obtain ⟨s', h1, h2⟩ := runStrLit_eq h
  refine ⟨s', h1, by rw [h2, literalEntries_length], fun k r hk => ?_, (firstOccurrences_spec [] rs).1,
    fun r => by rw [(firstOccurrences_spec [] rs).2]; simp⟩
  rw [h2]
  exact ⟨_, literalEntries_get _ 2 k r hk, rfl, rfl⟩

/-- replacing a two-character pattern that begins with a backslash, piece by piece -/
theorem replace_pair {x : Char} {new : Str} {f g : LitUnit → Str} (us : List LitUnit)
    (h : ∀ u ∈ us, (∃ c, c ≠ '\\' ∧ f u = [c] ∧ g u = [c]) ∨
      (∃ y, y ≠ x ∧ y ≠ '\\' ∧ f u = ['\\', y] ∧ g u = ['\\', y]) ∨ (f u = ['\\', x] ∧ g u = new)) :
    replace (us.flatMap f) ['\\', x] new = us.flatMap g := by
  have hne : ∀ (c : Char) (t : Str), c ≠ '\\' → ¬ ['\\', x] <+: c :: t := by
    rintro c t hc ⟨w, hw⟩
    simp only [List.cons_append, List.cons.injEq] at hw
    exact hc hw.1.symm
  induction us with
  | nil => rfl
  | cons u us ih =>
    have ih := ih (fun v hv => h v (by simp [hv]))
    rw [List.flatMap_cons, List.flatMap_cons]
    rcases h u (by simp) with ⟨c, hc, h1, h2⟩ | ⟨y, hy, hy', h1, h2⟩ | ⟨h1, h2⟩
    · rw [h1, h2, List.singleton_append, List.singleton_append, replace_miss _ _ _ _ (hne c _ hc), ih]
    · rw [h1, h2]
      simp only [List.cons_append, List.nil_append]
      rw [replace_miss, replace_miss _ _ _ _ (hne y _ hy'), ih]
      rintro ⟨w, hw⟩
      simp only [List.cons_append, List.cons.injEq] at hw
      exact hy hw.2.1.symm
    · rw [h1, h2, replace_hit, ih]

theorem replace_one {a : Char} {new : Str} {f g : LitUnit → Str} (us : List LitUnit)
    (h : ∀ u ∈ us, (a ∉ f u ∧ g u = f u) ∨ (f u = [a] ∧ g u = new)) :
    replace (us.flatMap f) [a] new = us.flatMap g := by
  have hmiss : ∀ (u t : Str), a ∉ u → replace (u ++ t) [a] new = u ++ replace t [a] new := by
    intro u t hu
    induction u with
    | nil => rfl
    | cons c u ih =>
      rw [List.mem_cons, not_or] at hu
      rw [List.cons_append, replace_miss, ih hu.2]
      · rfl
      · rintro ⟨w, hw⟩
        simp only [List.cons_append, List.cons.injEq] at hw
        exact hu.1 hw.1
  induction us with
  | nil => rfl
  | cons u us ih =>
    have ih := ih (fun v hv => h v (by simp [hv]))
    rw [List.flatMap_cons, List.flatMap_cons]
    rcases h u (by simp) with ⟨h1, h2⟩ | ⟨h1, h2⟩
    · rw [hmiss _ _ h1, h2, ih]
    · rw [h1, h2, replace_hit, ih]

/-- the part of the literal syntax for which the generated regex is right -/
def LitUnit.Handled : LitUnit → Prop
  | .plain c => c ≠ '\\' ∧ (regexMeta c = true → c = '+' ∨ c = '*')
  | _ => True

/-- the backslash only in escapes -/
def LitUnit.Escaped : LitUnit → Prop
  | .plain c => c ≠ '\\'
  | _ => True

theorem LitUnit.Handled.escaped {u : LitUnit} (h : u.Handled) : u.Escaped := by
  cases u with
  | plain c => exact h.1
  | _ => trivial

/-- the text of a unit before `+` and `*` are escaped -/
def escapedValue : LitUnit → Str
  | .alert => ['\\', 'a']
  | .feed => ['\\', 'f']
  | .vertical => ['\\', 'v']
  | u => [u.value]

/-- the regex made of a unit -/
def LitUnit.regex (u : LitUnit) : Str :=
  if u = .plain '+' then ['\\', '+'] else if u = .plain '*' then ['\\', '*'] else escapedValue u

theorem literalText_units (us : List LitUnit) (h : ∀ u ∈ us, u.Escaped) :
    literalText (us.flatMap LitUnit.source) = us.flatMap LitUnit.regex := by
  have e1 := replace_pair (x := 'n') (new := ['\n']) (f := LitUnit.source)
    (g := fun u => match u with | .newline => ['\n'] | u => u.source) us (by
      intro u hu
      cases u with
      | plain c => exact .inl ⟨c, h _ hu, rfl, rfl⟩
      | newline => exact .inr (.inr ⟨rfl, rfl⟩)
      | tab => exact .inr (.inl ⟨_, by decide, by decide, rfl, rfl⟩)
      | ret => exact .inr (.inl ⟨_, by decide, by decide, rfl, rfl⟩)
      | quote => exact .inr (.inl ⟨_, by decide, by decide, rfl, rfl⟩)
      | alert => exact .inr (.inl ⟨_, by decide, by decide, rfl, rfl⟩)
      | feed => exact .inr (.inl ⟨_, by decide, by decide, rfl, rfl⟩)
      | vertical => exact .inr (.inl ⟨_, by decide, by decide, rfl, rfl⟩))
  have e2 := replace_pair (x := 't') (new := ['\t'])
    (f := fun u => match u with | .newline => ['\n'] | u => u.source)
    (g := fun u => match u with | .newline => ['\n'] | .tab => ['\t'] | u => u.source) us (by
      intro u hu
      cases u with
      | plain c => exact .inl ⟨c, h _ hu, rfl, rfl⟩
      | newline => exact .inl ⟨_, by decide, rfl, rfl⟩
      | tab => exact .inr (.inr ⟨rfl, rfl⟩)
      | ret => exact .inr (.inl ⟨_, by decide, by decide, rfl, rfl⟩)
      | quote => exact .inr (.inl ⟨_, by decide, by decide, rfl, rfl⟩)
      | alert => exact .inr (.inl ⟨_, by decide, by decide, rfl, rfl⟩)
      | feed => exact .inr (.inl ⟨_, by decide, by decide, rfl, rfl⟩)
      | vertical => exact .inr (.inl ⟨_, by decide, by decide, rfl, rfl⟩))
  have e3 := replace_pair (x := '\\') (new := ['\\'])
    (f := fun u => match u with | .newline => ['\n'] | .tab => ['\t'] | u => u.source)
    (g := fun u => match u with | .newline => ['\n'] | .tab => ['\t'] | u => u.source) us (by
      intro u hu
      cases u with
      | plain c => exact .inl ⟨c, h _ hu, rfl, rfl⟩
      | newline => exact .inl ⟨_, by decide, rfl, rfl⟩
      | tab => exact .inl ⟨_, by decide, rfl, rfl⟩
      | ret => exact .inr (.inl ⟨_, by decide, by decide, rfl, rfl⟩)
      | quote => exact .inr (.inl ⟨_, by decide, by decide, rfl, rfl⟩)
      | alert => exact .inr (.inl ⟨_, by decide, by decide, rfl, rfl⟩)
      | feed => exact .inr (.inl ⟨_, by decide, by decide, rfl, rfl⟩)
      | vertical => exact .inr (.inl ⟨_, by decide, by decide, rfl, rfl⟩))
  have e4 := replace_pair (x := 'r') (new := ['\r'])
    (f := fun u => match u with | .newline => ['\n'] | .tab => ['\t'] | u => u.source)
    (g := fun u => match u with | .quote => ['\\', '\''] | .alert => ['\\', 'a'] | .feed => ['\\', 'f'] | .vertical => ['\\', 'v'] | u => [u.value]) us (by
      intro u hu
      cases u with
      | plain c => exact .inl ⟨c, h _ hu, rfl, rfl⟩
      | newline => exact .inl ⟨_, by decide, rfl, rfl⟩
      | tab => exact .inl ⟨_, by decide, rfl, rfl⟩
      | ret => exact .inr (.inr ⟨rfl, rfl⟩)
      | quote => exact .inr (.inl ⟨_, by decide, by decide, rfl, rfl⟩)
      | alert => exact .inr (.inl ⟨_, by decide, by decide, rfl, rfl⟩)
      | feed => exact .inr (.inl ⟨_, by decide, by decide, rfl, rfl⟩)
      | vertical => exact .inr (.inl ⟨_, by decide, by decide, rfl, rfl⟩))
  have e5 := replace_pair (x := '\'') (new := ['\''])
    (f := fun u => match u with | .quote => ['\\', '\''] | .alert => ['\\', 'a'] | .feed => ['\\', 'f'] | .vertical => ['\\', 'v'] | u => [u.value])
    (g := escapedValue) us (by
      intro u hu
      cases u with
      | plain c => exact .inl ⟨c, h _ hu, rfl, rfl⟩
      | newline => exact .inl ⟨_, by decide, rfl, rfl⟩
      | tab => exact .inl ⟨_, by decide, rfl, rfl⟩
      | ret => exact .inl ⟨_, by decide, rfl, rfl⟩
      | quote => exact .inr (.inr ⟨rfl, rfl⟩)
      | alert => exact .inr (.inl ⟨_, by decide, by decide, rfl, rfl⟩)
      | feed => exact .inr (.inl ⟨_, by decide, by decide, rfl, rfl⟩)
      | vertical => exact .inr (.inl ⟨_, by decide, by decide, rfl, rfl⟩))
  have e6 := replace_one (a := '+') (new := ['\\', '+']) (f := escapedValue)
    (g := fun u => if u = .plain '+' then ['\\', '+'] else escapedValue u) us (by
      intro u hu
      by_cases hp : u = .plain '+'
      · subst hp; exact .inr ⟨rfl, rfl⟩
      · refine .inl ⟨?_, if_neg hp⟩
        cases u with
        | plain c => simpa [escapedValue, LitUnit.value, eq_comm] using hp
        | _ => decide)
  have e7 := replace_one (a := '*') (new := ['\\', '*'])
    (f := fun u => if u = .plain '+' then ['\\', '+'] else escapedValue u) (g := LitUnit.regex) us (by
      intro u hu
      by_cases hp : u = .plain '+'
      · subst hp; exact .inl ⟨by decide, rfl⟩
      · by_cases hs : u = .plain '*'
        · subst hs; exact .inr ⟨rfl, rfl⟩
        · refine .inl ?_
          rw [if_neg hp]
          cases u with
          | plain c =>
            refine ⟨by simpa [escapedValue, LitUnit.value, eq_comm] using hs, ?_⟩
            rw [LitUnit.regex, if_neg hp, if_neg hs]
          | newline => exact ⟨by decide, rfl⟩
          | tab => exact ⟨by decide, rfl⟩
          | ret => exact ⟨by decide, rfl⟩
          | quote => exact ⟨by decide, rfl⟩
          | alert => exact ⟨by decide, rfl⟩
          | feed => exact ⟨by decide, rfl⟩
          | vertical => exact ⟨by decide, rfl⟩)
  have hlit : ∀ t, literalText t = replace (replace (replace (replace (replace (replace (replace t ['\\', 'n'] ['\n'])
      ['\\', 't'] ['\t']) ['\\', '\\'] ['\\']) ['\\', 'r'] ['\r']) ['\\', '\''] ['\'']) ['+'] ['\\', '+'])
      ['*'] ['\\', '*'] := fun _ => rfl
  rw [hlit, e1, e2, e3, e4, e5, e6, e7]

theorem simple_ordinary (c : Char) (s : Str) (hm : regexMeta c = false) :
    simpleRegex (c :: s) = (simpleRegex s).map ((· == c) :: ·) := by
  rw [simpleRegex, if_neg (by simp [hm])]
  · rintro c' s' rfl; cases hm
  · rintro rfl; cases hm

theorem simple_escaped (c d : Char) (s : Str) (hm : escapedChar c = some d) :
    simpleRegex ('\\' :: c :: s) = (simpleRegex s).map ((· == d) :: ·) := by
  rw [simpleRegex, hm]

theorem simpleRegex_units (us : List LitUnit) (h : ∀ u ∈ us, u.Handled) :
    simpleRegex (us.flatMap LitUnit.regex) = some (us.map fun u c => c == u.value) := by
  induction us with
  | nil => rfl
  | cons u us ih =>
    have ih := ih (fun v hv => h v (by simp [hv]))
    have hu := h u (by simp)
    have hesc : ∀ c, u.regex = ['\\', c] → escapedChar c = some u.value →
        simpleRegex ((u :: us).flatMap LitUnit.regex) = some ((u :: us).map fun u c => c == u.value) := by
      intro c h1 h2
      rw [List.flatMap_cons, h1]
      simp only [List.cons_append, List.nil_append]
      rw [simple_escaped _ _ _ h2, ih]; rfl
    have hone : u.regex = [u.value] → regexMeta u.value = false →
        simpleRegex ((u :: us).flatMap LitUnit.regex) = some ((u :: us).map fun u c => c == u.value) := by
      intro h1 h2
      rw [List.flatMap_cons, h1, List.singleton_append, simple_ordinary _ _ h2, ih]; rfl
    cases u with
    | plain c =>
      cases hc : regexMeta c with
      | false =>
        refine hone ?_ hc
        rw [LitUnit.regex, if_neg, if_neg]
        · rfl
        · rintro h1; cases h1; cases hc
        · rintro h1; cases h1; cases hc
      | true =>
        rcases hu.2 hc with rfl | rfl
        · exact hesc _ rfl (by decide)
        · exact hesc _ rfl (by decide)
    | alert => exact hesc _ rfl (by decide)
    | feed => exact hesc _ rfl (by decide)
    | vertical => exact hesc _ rfl (by decide)
    | _ => exact hone rfl (by decide)

theorem matchesAll_chars (us : List LitUnit) (w : Str) :
    MatchesAll (us.map fun u c => c == u.value) w ↔ w = us.map LitUnit.value := by
  induction us generalizing w with
  | nil => simp [MatchesAll]
  | cons u us ih =>
    simp only [MatchesAll, List.map_cons, List.forall₂_cons_left_iff] at ih ⊢
    constructor
    · rintro ⟨c, w', hc, hw, rfl⟩
      rw [(ih w').1 hw, eq_of_beq hc]
    · rintro rfl
      exact ⟨_, _, beq_self_eq_true _, (ih _).2 rfl, rfl⟩

/-- **C55** (partial) If the `k`-th distinct literal is made of characters other than the backslash and the
regex metacharacters (except `+` and `*`) and the escapes `\n`, `\t`, `\r`, `\'`, `\a`, `\f`, `\v`, then its regex matches the
string the literal stands for and nothing else.  Not so for other metacharacters and for `\\`: see
`C55_metacharacters` and `C55_backslash`. -/
theorem C55_literal_regex_partial (ast : RuleContext) (rs : List Str)
    (h : literalTexts lc ast = rs.map fun r => '\'' :: r ++ ['\'']) (k : Nat) (us : List LitUnit)
    (hu : ∀ u ∈ us, u.Handled) (hk : (firstOccurrences [] rs)[k]? = some (us.flatMap LitUnit.source)) :
    ∃ s' d e cs, runStrLit lc ast .new = .ok s' ∧ s'.data[k]? = some d ∧
      d.regex = "^(".toList ++ e ++ ")".toList ∧ simpleRegex e = some cs ∧
      ∀ w, MatchesAll cs w ↔ w = us.map LitUnit.value := by
  obtain ⟨s', h1, h2⟩ := runStrLit_eq h
  refine ⟨s', _, us.flatMap LitUnit.regex, _, h1, by rw [h2]; exact literalEntries_get _ 2 k _ hk, ?_,
    simpleRegex_units us hu, matchesAll_chars us⟩
  rw [literalText_units us fun u h => (hu u h).escaped]

/-- a tree with one string literal -/
def oneLiteral (t : String) : RuleContext := ⟨[], [.rule [] 1 [.terminal (.new 19 [] t.toList)]], 0⟩

/-- **C55** is false in general: the regex made of `'.'` matches `x`. -/
theorem C55_metacharacters : ∃ s' d e cs, runStrLit .old (oneLiteral "'.'") .new = .ok s' ∧ s'.data[0]? = some d ∧
    d.regex = "^(".toList ++ e ++ ")".toList ∧ simpleRegex e = some cs ∧ MatchesAll cs "x".toList := by
  obtain ⟨s', h1, h2⟩ := runStrLit_eq (lc := .old) (ast := oneLiteral "'.'") (rs := [['.']]) (by decide +kernel)
  refine ⟨s', _, ['.'], [(· != '\n')], h1, by rw [h2]; rfl, by decide +kernel, rfl, ?_⟩
  exact .cons (by decide) .nil

/-- **C55** is false in general: the literal `'\\n'`, an escaped backslash before the letter n, becomes a
backslash before a line break: the line break is introduced although the literal contains none. -/
theorem C55_backslash : ∃ s' d, runStrLit .old (oneLiteral "'\\\\n'") .new = .ok s' ∧ s'.data[0]? = some d ∧
    d.regex = "^(\\\n)".toList := by
  obtain ⟨s', h1, h2⟩ := runStrLit_eq (lc := .old) (ast := oneLiteral "'\\\\n'") (rs := [['\\', '\\', 'n']]) (by decide +kernel)
  refine ⟨s', _, h1, by rw [h2]; rfl, by decide +kernel⟩

/-- a tree with the literals `'a+\n'`, `'*'`, `'a+\n'`, in nested nodes -/
example : literalTexts .old ⟨[], [.rule [] 1 [.terminal (.new 19 [] "'a+\\n'".toList),
      .rule [] 2 [.terminal (.new 19 [] "'*'".toList)]], .terminal (.new 19 [] "'a+\\n'".toList),
      .terminal (.new 7 [] "'*'".toList)], 0⟩ =
    ["a+\\n".toList, "*".toList, "a+\\n".toList].map (fun r => '\'' :: r ++ ['\'']) ∧
    (firstOccurrences [] ["a+\\n".toList, "*".toList, "a+\\n".toList])[0]? =
      some ([LitUnit.plain 'a', .plain '+', .newline].flatMap LitUnit.source) := by
  decide +kernel

example : ∀ u ∈ [LitUnit.plain 'a', .plain '+', .newline], u.Handled := by
  intro u hu
  simp only [List.mem_cons, List.not_mem_nil, or_false] at hu
  rcases hu with rfl | rfl | rfl
  · exact ⟨by decide, by decide⟩
  · exact ⟨by decide, by decide⟩
  · trivial

end Syntaxis
