import Verif.Props.Pipeline
import Verif.Props.RegexRules
import Verif.Props.JsonText

/-!
# C77: the lexer and parser made from a grammar file accept what the file describes
-/

namespace Syntaxis
open Grammar

variable {lc : LexConsts} {n0 r0 fuel : Nat} {ast : RuleContext} {name : Str}

/-! ## the first rule is the start rule -/

/-- what one node of the second pass does to the names -/
theorem sym_step {s s' : SymState} {a : Ast} (h : (symVisitor lc).callOn a s = .ok s') (n : Str) :
    (s.grammar.vocabulary.isTerminalNameDefined n = true → s'.grammar.vocabulary.isTerminalNameDefined n = true) ∧
    (∀ A, s.grammar.vocabulary.getNonterminalIdByName n = some A →
      s'.grammar.vocabulary.getNonterminalIdByName n = some A) ∧
    (s.grammar.vocabulary.isTerminalNameDefined n = true → s.grammar.vocabulary.getNonterminalIdByName n = none →
      s'.grammar.vocabulary.getNonterminalIdByName n = none) ∧
    (a.isRule 1 = false → s'.nextRuleId = s.nextRuleId ∧
      s'.grammar.vocabulary.ntNameToId = s.grammar.vocabulary.ntNameToId ∧
      s'.grammar.vocabulary.nonterminals = s.grammar.vocabulary.nonterminals) := by
  rw [sym_callOn] at h
  split at h
  · rename_i m ks
    obtain ⟨_, h⟩ := map_snd_ok h
    rw [symVisitParserRule, bind_eq_ok] at h
    obtain ⟨tk, htk, h⟩ := h
    dsimp only at h
    split at h
    · cases h
      exact ⟨id, fun _ => id, fun _ => id, fun _ => ⟨rfl, rfl, rfl⟩⟩
    · rename_i hd
      cases h
      refine ⟨?_, ?_, ?_, fun h => by simp [Ast.isRule] at h⟩
      · intro ht
        simp only [Vocabulary.addNamedNonterminal]
        split <;> exact ht
      · intro A hA
        simp only [Vocabulary.addNamedNonterminal]
        split
        · exact hA
        · rename_i hc
          simp only [Vocabulary.getNonterminalIdByName] at hA ⊢
          rw [HMap.get_insert]
          split
          · rename_i he
            subst he
            have := (HMap.containsKey_iff s.grammar.vocabulary.ntNameToId tk.text).2 ⟨A, hA⟩
            simp [this] at hc
          · exact hA
      · intro ht hn
        simp only [Vocabulary.addNamedNonterminal]
        split
        · exact hn
        · simp only [Vocabulary.getNonterminalIdByName] at hn ⊢
          rw [HMap.get_insert]
          split
          · rename_i he
            subst he
            exact absurd ht hd
          · exact hn
  · rename_i m ks
    obtain ⟨_, h⟩ := map_snd_ok h
    rw [symVisitLexerRule, bind_eq_ok] at h
    obtain ⟨tk, htk, h⟩ := h
    dsimp only at h
    split at h
    · cases h
      exact ⟨id, fun _ => id, fun _ => id, fun _ => ⟨rfl, rfl, rfl⟩⟩
    · rw [bind_eq_ok] at h
      obtain ⟨_, _, h⟩ := h
      rw [bind_eq_ok] at h
      obtain ⟨_, _, h⟩ := h
      rw [bind_eq_ok] at h
      obtain ⟨re, _, h⟩ := h
      cases re with
      | none =>
        cases h
        exact ⟨id, fun _ => id, fun _ => id, fun _ => ⟨rfl, rfl, rfl⟩⟩
      | some re =>
        cases h
        have e : ∀ i m, (s.grammar.vocabulary.addTerminal i m).1.ntNameToId = s.grammar.vocabulary.ntNameToId ∧
            (s.grammar.vocabulary.addTerminal i m).1.nonterminals = s.grammar.vocabulary.nonterminals := by
          intro i m
          simp only [Vocabulary.addTerminal]
          split
          · exact ⟨rfl, rfl⟩
          · split <;> exact ⟨rfl, rfl⟩
        refine ⟨?_, ?_, ?_, fun _ => ⟨rfl, (e _ _).1, (e _ _).2⟩⟩
        · intro ht
          simp only [Vocabulary.addTerminal]
          split
          · exact ht
          · split
            · exact ht
            · simp only [Vocabulary.isTerminalNameDefined] at ht ⊢
              rw [HMap.containsKey_iff] at ht ⊢
              obtain ⟨v, hv⟩ := ht
              rw [HMap.get_insert]
              split
              · exact ⟨_, rfl⟩
              · exact ⟨v, hv⟩
        · intro A hA
          simp only [Vocabulary.getNonterminalIdByName, (e _ _).1] at hA ⊢
          exact hA
        · intro _ hA
          simp only [Vocabulary.getNonterminalIdByName, (e _ _).1] at hA ⊢
          exact hA
  · cases h
    exact ⟨id, fun _ => id, fun _ => id, fun _ => ⟨rfl, rfl, rfl⟩⟩

theorem first_rule {ks : List Ast} {s s' : SymState} {n : Str} {alts : List (List Elem)} {D : Rules} {A : Nat}
    (hk : ∀ k ∈ ks, k.isRule 1 = true ∨ k.isRule 7 = true)
    (hs : s.grammar.vocabulary.ntNameToId = HMap.empty) (hs2 : s.grammar.vocabulary.nonterminals = ∅)
    (hD : readRules lc ks = some ((n, alts) :: D))
    (h : ks.foldlM (fun s a => (symVisitor lc).callOn a s) s = .ok s')
    (hA : s'.grammar.vocabulary.getNonterminalIdByName n = some A) : A = s.nextRuleId := by
  induction ks generalizing s with
  | nil => simp [readRules] at hD
  | cons k ks ih =>
    rw [List.foldlM_cons, bind_eq_ok] at h
    obtain ⟨s1, h1, h2⟩ := h
    rw [readRules] at hD
    by_cases hk1 : k.isRule 1 = true
    · rw [if_pos hk1] at hD
      split at hD
      · rename_i n' alts' rs' e1 e2 e3
        cases hD
        cases k with
        | terminal t => cases hk1
        | error t => cases hk1
        | rule m i kids =>
          simp only [Ast.isRule, beq_iff_eq] at hk1
          subst hk1
          have h1' := h1
          rw [sym_callOn] at h1'
          simp only at h1'
          obtain ⟨_, h1'⟩ := map_snd_ok h1'
          rw [symVisitParserRule, bind_eq_ok] at h1'
          obtain ⟨tk, htk, h1'⟩ := h1'
          have htext : tk.text = n := by
            rw [unwrap_eq_ok] at htk
            have := getTerminal_text ⟨m, kids, 1⟩ lc.RULE_REF
            have e : Option.map (·.text) ((⟨m, kids, 1⟩ : RuleContext).ruleRef lc) = firstText lc.RULE_REF kids := this
            rw [htk] at e
            simp only [Ast.kids] at e1
            rw [e1] at e
            exact Option.some.inj e
          subst htext
          dsimp only at h1'
          split at h1'
          · rename_i hd
            cases h1'
            exfalso
            have := foldlM_inv (I := fun x : SymState =>
                x.grammar.vocabulary.isTerminalNameDefined tk.text = true ∧
                x.grammar.vocabulary.getNonterminalIdByName tk.text = none)
              (fun x a x' hx hx' => ⟨(sym_step hx' _).1 hx.1, (sym_step hx' _).2.2.1 hx.1 hx.2⟩) ks (s.print (chars! "重复定义 rule: " ++ tk.text)) s'
              ⟨hd, by show s.grammar.vocabulary.getNonterminalIdByName _ = none; rw [Vocabulary.getNonterminalIdByName, hs]; rfl⟩ h2
            rw [this.2] at hA
            cases hA
          · cases h1'
            have := foldlM_inv (I := fun x : SymState =>
                x.grammar.vocabulary.getNonterminalIdByName tk.text = some s.nextRuleId)
              (fun x a x' hx hx' => (sym_step hx' _).2.1 _ hx) ks _ s' (by
                have hc : s.grammar.vocabulary.ntNameToId.containsKey tk.text = false := by
                  rw [hs]; rfl
                simp only [Vocabulary.addNamedNonterminal, hc, hs2, Vocabulary.getNonterminalIdByName]
                simp) h2
            rw [this] at hA
            exact (Option.some.inj hA).symm
      · cases hD
    · rw [if_neg hk1] at hD
      have := (sym_step h1 n).2.2.2 (by simpa using hk1)
      rw [← this.1]
      exact ih (fun k hk' => hk k (by simp [hk'])) (by rw [this.2.1, hs]) (by rw [this.2.2, hs2]) hD h2

theorem topmost_children {ks : List Ast} (hk : ∀ k ∈ ks, k.isRule 1 = true ∨ k.isRule 7 = true) :
    Ast.frontierList (fun c => decide (c.ruleIndex ∈ [1, 7])) ks = ks := by
  induction ks with
  | nil => rfl
  | cons k ks ih =>
    rw [Ast.frontierList, ih fun k h => hk k (by simp [h])]
    cases k with
    | terminal t => rcases hk _ (List.mem_cons_self ..) with h | h <;> cases h
    | error t => rcases hk _ (List.mem_cons_self ..) with h | h <;> cases h
    | rule n i kids =>
      have : i = 1 ∨ i = 7 := by
        rcases hk _ (List.mem_cons_self ..) with h | h <;> simp only [Ast.isRule, beq_iff_eq] at h <;> omega
      rw [Ast.frontier, if_pos (by simpa using this)]
      rfl

/-- **C77** The first parser rule of the file is the start rule: it gets the number the counter starts with (0 in
`load_ast`). -/
theorem C77_first_rule (h0 : 2 ≤ n0) (hf : sizeOf ast.toAst ≤ fuel) {g : Grammar} {data : List LexerRuleData}
    (h : buildGrammar lc fuel ast (Grammar.new name) n0 r0 = .ok (g, data))
    (hk : ∀ k ∈ ast.children, k.isRule 1 = true ∨ k.isRule 7 = true) {n : Str} {alts : List (List Elem)} {D : Rules}
    (hD : readRules lc ast.children = some ((n, alts) :: D)) :
    g.vocabulary.getNonterminalIdByName n = some r0 := by
  obtain ⟨s2, s3, hb, rfl, rfl⟩ := buildGrammar_ok h
  have hB := build_ok h0 hf hb
  obtain ⟨D', hD', hr⟩ := hB.rules
  rw [hD] at hD'
  cases hD'
  obtain ⟨hI, _, hdef, _⟩ := elabRules_inv _ (runInv_init hB.sym) hr
  obtain ⟨A, hA⟩ := hdef n alts (by simp)
  have hfin := hI.nt n
  rw [hfin, hA]
  rw [buildStates, bind_eq_ok] at hb
  obtain ⟨s1, h1, hb⟩ := hb
  rw [bind_eq_ok] at hb
  obtain ⟨s2', h2, hb⟩ := hb
  rw [bind_eq_ok] at hb
  obtain ⟨s3', h3, hb⟩ := hb
  cases hb
  have h2' := h2
  rw [runSym_eq, sym_topmost, topmost, topmost_children hk] at h2'
  have e := runLit_ok h1
  have := first_rule hk (by rw [e]; rfl) (by rw [e]; rfl) hD h2' hA
  rw [this]

/-! ## the generated lexer and parser -/

/-- `main.rs:80-84` with the generated lexer (`lexer.tera`): the text is scanned to its end, white space is dropped, and the
parser returns a tree that covers all tokens up to the end token without printing a mismatch; this is what happens
with any sufficient fuel. -/
def Accepts (compile : Str → Matcher) (data : List LexerRuleData) (g : Grammar) (ts : TableState) (ws : Nat)
    (input : Str) : Prop :=
  ∃ toks l r stop n, ∀ fuel, n ≤ fuel →
    (generatedLexer compile data input).scanAll ws 0 fuel = .ok (toks, none, l) ∧
    (parserOf g ts toks).parse fuel = .ok (r, []) ∧ toks = r.toAst.leaves ++ [stop] ∧ stop.tokenType = 1

/-- **C77** Whatever regex engine is used: if the tables of a grammar have no conflicts, then the lexer and the parser
accept exactly those texts that split, by longest match between the patterns of the lexer rules, into tokens whose
types, without those of white space, are derived from the start rule. -/
theorem C77_accepts_sentences {g : Grammar} {data : List LexerRuleData} {ws : Nat} (hws : ws ≠ 1)
    {o : IterOrder g} {so : SetOrder} {fuel' : Nat} {ts : TableState} (ht : runTable g o so fuel' = .ok ts)
    (hc : ts.conflicts = []) {compile : Str → Matcher} (hm : ∀ d ∈ data, (compile d.regex).Ok) (input : Str) :
    Accepts compile data g ts ws input ↔
      ∃ out, Lexes (data.map fun d => compile d.regex) input out [] ∧
        Sentence g.productions 0 ((out.map Prod.fst).filter (· ≠ ws)) := by
  have hok : LexerOk (data.map fun d => compile d.regex)
      ("_START".toList :: "_STOP".toList :: data.map (·.tokenName)) := by
    refine ⟨fun m hm' => ?_, by simp⟩
    obtain ⟨d, hd, rfl⟩ := List.mem_map.1 hm'
    exact hm d hd
  obtain ⟨out, rem, toks, l', n, h1, _, h3, h4⟩ := C32_scan_all (input := input) hok ws 0
  simp only [if_true] at h4
  -- the types of the tokens handed to the parser
  have htypes : rem = [] → (toks.filter (·.tokenType ≠ ws)).map Token.tokenType =
      (out.map Prod.fst).filter (· ≠ ws) ++ [1] := by
    intro hr
    have e : toks.map Token.tokenType = out.map Prod.fst ++ [1] := by
      have := congrArg (List.map Prod.fst) h3
      rw [if_pos hr, List.map_map, List.map_append] at this
      exact this
    have e2 : (toks.filter (·.tokenType ≠ ws)).map Token.tokenType =
        (toks.map Token.tokenType).filter (· ≠ ws) := by
      rw [List.filter_map]; rfl
    rw [e2, e, List.filter_append]
    simp [hws.symm]
  constructor
  · rintro ⟨toks', l, r, stop, n', hacc⟩
    obtain ⟨a1, a2, a3, a4⟩ := hacc (max n n') (Nat.le_max_right ..)
    rw [generatedLexer, h4 _ (Nat.le_max_left ..)] at a1
    have hrem : rem = [] := by
      by_contra hne
      simp [hne] at a1
    simp only [Except.ok.injEq, Prod.mk.injEq] at a1
    obtain ⟨rfl, _, _⟩ := a1
    refine ⟨out, hrem ▸ h1, ?_⟩
    have ht' := htypes hrem
    refine (C22_parser_decides g o so fuel' ts ht hc _ _ ht').2 ⟨_, r, a2, ?_⟩
    have hlen : ((out.map Prod.fst).filter (· ≠ ws)).length = r.toAst.leaves.length := by
      have e := congrArg List.length ht'
      rw [List.length_map, a3] at e
      simp only [List.length_append, List.length_singleton] at e
      omega
    rw [hlen, a3, List.take_left']
    rfl
  · rintro ⟨out', hl', hword⟩
    obtain ⟨rfl, hrem⟩ := h1.unique hl'
    have ht' := htypes hrem
    obtain ⟨m, r, p1, p2⟩ := C20_parser_complete g o so fuel' ts ht hc _ [] hword _ ht'
    generalize htk : toks.filter (·.tokenType ≠ ws) = tks at *
    have hne : tks ≠ [] := by rintro rfl; simp at ht'
    have hsplit : tks = r.toAst.leaves ++ [tks.getLast hne] := by
      rw [p2]
      have e := congrArg List.length ht'
      simp only [List.length_map, List.length_append, List.length_singleton] at e
      rw [show (List.filter (fun x => decide (x ≠ ws)) (List.map Prod.fst out)).length = tks.length - 1 by
        omega, ← List.dropLast_eq_take]
      exact (List.dropLast_append_getLast hne).symm
    refine ⟨tks, l', r, tks.getLast hne, max n m, fun fuel2 hf2 => ⟨?_, ?_, hsplit, ?_⟩⟩
    · rw [generatedLexer, h4 fuel2 (by omega), if_pos hrem]
    · exact p1 fuel2 (by omega)
    · have e : (tks.map Token.tokenType).getLast (by simpa using hne) = 1 := by
        simp only [ht', List.getLast_append_singleton]
      rw [List.getLast_map] at e
      exact e

/-- **C77** … and when the grammar comes from a tree, these are the texts of the first rule of the file: the token
sequence, without the tokens of the rule `white` (that is `WHITE_SPACE`, `lexer.tera:132`), is a word of that rule. -/
theorem C77_accepts_exactly (hf : sizeOf ast.toAst ≤ fuel) {g : Grammar} {data : List LexerRuleData}
    (h : loadAst fuel ast = .ok (g, data))
    (hk : ∀ k ∈ ast.children, k.isRule 1 = true ∨ k.isRule 7 = true) {start : Str} {alts : List (List Elem)} {D : Rules}
    (hD : readRules .old ast.children = some ((start, alts) :: D)) (hs : SuffixesApart ((start, alts) :: D) g.vocabulary)
    {white : LexerRuleData} (hw : white ∈ data)
    {o : IterOrder g} {so : SetOrder} {fuel' : Nat} {ts : TableState} (ht : runTable g o so fuel' = .ok ts)
    (hc : ts.conflicts = []) {compile : Str → Matcher} (hm : ∀ d ∈ data, (compile d.regex).Ok) (input : Str) :
    Accepts compile data g ts white.tokenType input ↔
      ∃ out, Lexes (data.map fun d => compile d.regex) input out [] ∧
        Word ((start, alts) :: D) g.vocabulary.getTerminalIdByName [.ref start]
          ((out.map Prod.fst).filter (· ≠ white.tokenType)) := by
  have hstart := C77_first_rule (by omega) hf h hk hD
  have hlang := C46_apart_partial (by omega) hf h hD hs start 0 hstart
  have hws : white.tokenType ≠ 1 := by
    obtain ⟨k, hk⟩ := List.getElem?_of_mem hw
    have := (C43_token_numbering (by omega) hf h k white hk).1
    omega
  rw [C77_accepts_sentences hws ht hc hm]
  simp only [hlang]

/-- **C77** The lexer and parser made from the shipped `syntaxis2.json`, for all hash orders and all texts. -/
theorem C77_shipped {o : IterOrder Shipped.grammar} {so : SetOrder} {fuel' : Nat} {ts : TableState}
    (ht : runTable Shipped.grammar o so fuel' = .ok ts) {compile : Str → Matcher}
    (hm : ∀ d ∈ Shipped.data, (compile d.regex).Ok) (input : Str) :
    Accepts compile Shipped.data Shipped.grammar ts V1.WHITE_SPACE input ↔
      ∃ out, Lexes (Shipped.data.map fun d => compile d.regex) input out [] ∧
        Word Shipped.rules (Shipped.number Shipped.tokenNumbers) [.ref "rule_list".toList]
          ((out.map Prod.fst).filter (· ≠ V1.WHITE_SPACE)) := by
  rw [C77_accepts_sentences (by decide) ht (Shipped.C52_no_conflict o so fuel' ts ht) hm]
  simp only [Shipped.C52_language "rule_list".toList 0 (by decide +kernel)]

/-- the tree of `a : (B a)* C | ε ; B : /b/ ; C : /\/c/ ;` meets the hypotheses of `C77_first_rule` -/
example : (∀ k ∈ ExTree.tree.children, k.isRule 1 = true ∨ k.isRule 7 = true) ∧
    readRules .old ExTree.tree.children = some ExTree.rules ∧ (loadAst 5000 ExTree.tree).isOk = true := by
  refine ⟨?_, ExTree.tree_rules, by decide +kernel⟩
  have : ExTree.tree.children.all (fun k => k.isRule 1 || k.isRule 7) = true := by decide +kernel
  intro k hk
  simpa using List.all_eq_true.1 this k hk

namespace ToolEx
open ExTree

/-- `s : p* NUM ; p : OPEN s ; NUM : /[0-9]+/ ; OPEN : /\(/ ; WHITE_SPACE : / / ;` -/
def tree : RuleContext := ⟨[], [
  rule "s" [alt [el (ExTree.tk 7 "p") star, el (ExTree.tk 6 "NUM") []]],
  rule "p" [alt [el (ExTree.tk 6 "OPEN") []]],
  lex "NUM" "/[0-9]+/", lex "OPEN" "/\\(/", lex "WHITE_SPACE" "/ /"], 0⟩

/-- its rules -/
def rules : Rules :=
  [("s".toList, [[.rep .star (.ref "p".toList), .tok "NUM".toList]]), ("p".toList, [[.tok "OPEN".toList]])]

/-- the grammar made from it, up to names -/
def grammar : Grammar where
  name := []
  vocabulary := ((Vocabulary.new.addNamedNonterminal 0 ['s']).1.addNamedNonterminal 1 ['p']).1.addUnnamedNonterminal 2 |>.1
  productions := [⟨2, []⟩, ⟨2, [.nt 1, .nt 2]⟩, ⟨0, [.nt 2, .t 2]⟩, ⟨1, [.t 3]⟩]

/-- an iteration order -/
def order : IterOrder grammar where
  ids := [2, 0, 1]
  ids_mem := by
    intro i
    have : grammar.vocabulary.nonterminals = {0, 1, 2} := by decide
    rw [this]; simp; tauto
  ord := grammar.productions
  ord_perm := List.Perm.refl _
  ord_nodup := by decide

theorem ll1 : LL1 grammar.productions := by
  have h : ((runTable grammar order incSetOrder 100).map (·.conflicts)) = .ok [] := by decide +kernel
  cases hr : runTable grammar order incSetOrder 100 with
  | error e => rw [hr] at h; cases h
  | ok ts =>
    rw [hr] at h
    exact (C16_conflict_iff_not_ll1 grammar order incSetOrder 100 ts hr).1 (Except.ok.inj h)

/-- all hypotheses of `C77_accepts_exactly` hold for this tree -/
example : ∃ g data white, sizeOf tree.toAst ≤ 5000 ∧ loadAst 5000 tree = .ok (g, data) ∧
    (∀ k ∈ tree.children, k.isRule 1 = true ∨ k.isRule 7 = true) ∧ readRules .old tree.children = some rules ∧
    SuffixesSeparate rules ∧ white ∈ data ∧ white.tokenName = "WHITE_SPACE".toList ∧
    ∀ (o : IterOrder g) (so : SetOrder), ∃ fuel' ts, runTable g o so fuel' = .ok ts ∧ ts.conflicts = [] := by
  have hsize : sizeOf tree.toAst ≤ 5000 := by decide +kernel
  have h : (loadAst 5000 tree).map (fun r => (r.1.productions, r.2.map (·.tokenName))) =
      .ok (grammar.productions, ["NUM".toList, "OPEN".toList, "WHITE_SPACE".toList]) := by decide +kernel
  have hk : ∀ k ∈ tree.children, k.isRule 1 = true ∨ k.isRule 7 = true := by
    have : tree.children.all (fun k => k.isRule 1 || k.isRule 7) = true := by decide +kernel
    intro k hk
    simpa using List.all_eq_true.1 this k hk
  cases hb : loadAst 5000 tree with
  | error e => rw [hb] at h; cases h
  | ok r =>
    obtain ⟨g, data⟩ := r
    rw [hb] at h
    have h' := Except.ok.inj h
    simp only [Prod.mk.injEq] at h'
    obtain ⟨h1, h2⟩ := h'
    obtain ⟨white, hw, hn⟩ : ∃ d ∈ data, d.tokenName = "WHITE_SPACE".toList := by
      have : "WHITE_SPACE".toList ∈ data.map (·.tokenName) := by rw [h2]; simp
      exact List.mem_map.1 this
    refine ⟨g, data, white, hsize, rfl, hk, by rfl, ?_, hw, hn, fun o so => ?_⟩
    · rintro f ⟨⟨x, hx, hx'⟩, _⟩
      simp only [rules, List.mem_cons, List.not_mem_nil, or_false] at hx
      rcases hx with rfl | rfl <;> simp [altsSuffixes, seqSuffixes, Elem.suffixes, Elem.isTok] at hx'
    · obtain ⟨n, ts, ht⟩ := C45_tables_computed (by omega) hsize hb ⟨_, List.mem_cons_self, rfl⟩ o so
      exact ⟨n, ts, ht n (Nat.le_refl _),
        (C16_conflict_iff_not_ll1 g o so n ts (ht n (Nat.le_refl _))).2 (h1 ▸ ll1)⟩

end ToolEx

end Syntaxis
