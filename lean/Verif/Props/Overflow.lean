import Verif.Model.Checked
import Verif.Spec.Size
import Verif.Props.Lexer
import Verif.Props.GrammarVisitor
import Verif.Props.LexerRules

/-!
# C82: no arithmetic overflow

The model with machine arithmetic (`Model/Checked`) does the same as the one with natural numbers as long as the
input, the lists of tokens and regexes, and the syntax tree are not larger than the address space.  (A Rust `String`
has at most `isize::MAX` bytes, less than half of the values of `usize`.)
-/

namespace Syntaxis
open Checked

theorem addUsize_ok {W a b : Nat} (h : a + b < W) : addUsize W a b = .ok (a + b) := by simp [addUsize, h]

/-! ## the lexers -/

theorem checked_longest {W : Nat} (rest : Str) (ms : List Matcher) (i len ty : Nat) (h : i + ms.length + 1 < W) :
    Checked.longest W rest ms i len ty = .ok (Lexer.longest rest ms i len ty) := by
  induction ms generalizing i len ty with
  | nil => rfl
  | cons m ms ih =>
    simp only [List.length_cons] at h
    rw [Checked.longest, Lexer.longest]
    cases m rest with
    | none => exact ih _ _ _ (by omega)
    | some e =>
      dsimp only
      split
      · rw [addUsize_ok (by omega), bind_ok]
        exact ih _ _ _ (by omega)
      · exact ih _ _ _ (by omega)

theorem length_le_byteLen (s : Str) : s.length ≤ byteLen s := by
  induction s with
  | nil => simp
  | cons c s ih =>
    have := Char.utf8Size_pos c
    simp only [List.length_cons, byteLen]
    omega

theorem splitLines_len (s : Str) : (splitLines s).length ≤ byteLen s + 1 := by
  rw [splitLines_length]
  have := List.count_le_length (a := '\n') (l := s)
  have := length_le_byteLen s
  omega

theorem count_le_byteLen (s : Str) : s.count '\n' ≤ byteLen s :=
  (List.count_le_length).trans (length_le_byteLen s)

theorem col_le_byteLen (s : Str) : (posOf s).charPosition ≤ byteLen s := by
  obtain ⟨t, ht⟩ : (s.reverse.takeWhile (· ≠ '\n')).reverse <:+ s := by
    have := List.takeWhile_prefix (l := s.reverse) (fun c => decide (c ≠ '\n'))
    have := List.reverse_suffix.2 this
    rwa [List.reverse_reverse] at this
  have := congrArg byteLen ht
  rw [byteLen_append] at this
  simp only [posOf]
  omega

section
variable {ms : List Matcher} {names : List Str} {input : Str} {W : Nat}

theorem checked_newPos {done u v : Str} (h : byteLen (done ++ (u ++ v)) + 1 < W) :
    Checked.newPos W (posOf done) u (byteLen u) = .ok (Lexer.newPos (posOf done) u (byteLen u)) := by
  have h1 := col_le_byteLen done
  have h2 := splitLines_len u
  have h3 : (posOf done).line ≤ byteLen done := count_le_byteLen done
  simp only [byteLen_append] at h
  simp only [Checked.newPos, Lexer.newPos]
  split
  · rw [addUsize_ok (by omega)]; rfl
  · rw [addUsize_ok (by omega), bind_ok, subUsize, if_pos (by omega)]; rfl

/-- the number of tokens returned is at most the number of bytes consumed -/
theorem TokensOf.length_le {done : Str} {toks : List Token} (h : TokensOf ms names input done toks) :
    toks.length ≤ byteLen done := by
  induction h with
  | nil => simp
  | snoc _ _ hw _ ih =>
    have := hw.pos
    rw [List.length_append, byteLen_append]
    simp only [List.length_singleton]
    omega

theorem checked_scanToken (hok : LexerOk ms names) (hW : byteLen input + 1 < W) (hn : ms.length + 1 < W) {l : Lexer}
    {done rest : Str} {k : Nat} (h : At ms names input l done rest k) (hk : k ≤ byteLen done) :
    Checked.scanToken W l = l.scanToken := by
  have hd : dropBytes l.input l.cursor = .ok rest := by
    rw [h.input_eq, h.split, h.cursor, dropBytes_append]
  have hl := checked_longest (W := W) rest l.regexList 0 0 0 (by rw [h.regexes]; omega)
  have hW' := hW
  rw [h.split, byteLen_append] at hW
  simp only [Checked.scanToken, Lexer.scanToken, hd, bind_ok, hl]
  rw [h.regexes]
  rcases longest_cases rest ms with ⟨h1, h2⟩ | ⟨i, n, h1, h2⟩
  · rw [h1]; rfl
  · rw [h1]
    obtain ⟨_, ⟨m, hm1, hm2⟩, _⟩ := id h2
    obtain ⟨u, v, e, rfl⟩ := hok.1 m (List.mem_of_getElem? hm1) rest n hm2
    have hs : slice l.input l.cursor (l.cursor + byteLen u) = .ok u := by
      rw [h.input_eq, h.split, h.cursor, e, slice_append]
    have hu : byteLen rest = byteLen u + byteLen v := by rw [e, byteLen_append]
    have hp : Checked.newPos W l.position u (byteLen u) = .ok (Lexer.newPos l.position u (byteLen u)) := by
      rw [h.pos]
      refine checked_newPos (v := v) ?_
      simp only [byteLen_append]; omega
    have hc := h.cursor
    have hi := h.index
    simp only
    rw [addUsize_ok (by omega), bind_ok, hs, bind_ok, hp, bind_ok, bind_ok, addUsize_ok (by omega)]
    rfl

/-- **C82** As long as the input has fewer than `W - 10` bytes, `scan` does the same with machine arithmetic, however
often it has been called. -/
theorem C82_scan (hok : LexerOk ms names) (hW : byteLen input + 10 < W) (hn : ms.length + 1 < W) {toks : List Token}
    {l : Lexer} (h : Scans Lexer.scan (Lexer.new ms names input) toks l) : Checked.scan W l = l.scan := by
  rcases scans_cases hok h with ⟨done, rest, ht, ha⟩ | ⟨body, hb, rfl, hi, hc⟩
  · have hs := checked_scanToken hok (by omega) hn ha ht.length_le
    rw [Checked.scan, Lexer.scan, hs]
    have hc := ha.cursor
    have hl : byteLen l.input = byteLen done + byteLen rest := by rw [ha.input_eq, ha.split, byteLen_append]
    have hl' : byteLen input = byteLen done + byteLen rest := by rw [← hl, ha.input_eq]
    rw [addUsize_ok (by omega)]
    rfl
  · rw [Checked.scan, Lexer.scan, if_pos (by rw [hi, hc]; omega), if_pos (by rw [hi, hc]; omega)]

theorem checked_scanLoop {scan scan' : Lexer → Res (Option Token × Lexer)} {l0 : Lexer}
    (h : ∀ toks l, Scans scan l0 toks l → scan' l = scan l) (skip : Nat → Bool) (channel fuel : Nat)
    (result toks : List Token) (l : Lexer) (hl : Scans scan l0 toks l) :
    Lexer.scanLoop scan' skip channel fuel result l = Lexer.scanLoop scan skip channel fuel result l := by
  induction fuel generalizing result toks l with
  | zero => rfl
  | succ n ih =>
    rw [Lexer.scanLoop, Lexer.scanLoop, h toks l hl]
    cases hs : scan l with
    | error e => rfl
    | ok p =>
      obtain ⟨t, l'⟩ := p
      cases t with
      | none => rfl
      | some tok =>
        have := hl.snoc hs
        simp only [bind_ok, ih _ _ _ this]

/-- **C82** The same for `scan_all_on_channel_tokens`. -/
theorem C82_scan_all (hok : LexerOk ms names) (hW : byteLen input + 10 < W) (hn : ms.length + 1 < W)
    (whiteSpace channel fuel : Nat) :
    Checked.scanAll W whiteSpace channel fuel (Lexer.new ms names input) =
      (Lexer.new ms names input).scanAll whiteSpace channel fuel := by
  rw [Checked.scanAll, Lexer.scanAll, checked_scanLoop (scan := Lexer.scan) (l0 := Lexer.new ms names input)
    (fun toks l h => C82_scan hok hW hn h) _ _ _ _ [] _ (.nil _)]

/-- **C82** The first lexer. -/
theorem C82_first_lexer (hok : LexerOk ms names) (hW : byteLen input + 1 < W) (hn : ms.length + 1 < W)
    (channel fuel : Nat) :
    Checked.scanAllOld W channel fuel (Lexer.new ms names input) =
      (Lexer.new ms names input).scanAllOld channel fuel := by
  rw [Checked.scanAllOld, Lexer.scanAllOld, checked_scanLoop (scan := Lexer.scanOld) (l0 := Lexer.new ms names input)
    (fun toks l h => ?_) _ _ _ _ [] _ (.nil _)]
  obtain ⟨done, rest, ht, ha⟩ := scansOld_cases hok h
  exact checked_scanToken hok hW hn ha ht.length_le
end

/-- non-vacuity: the generated lexer on `aa:bb;`, on a machine with 64-bit words -/
example : Checked.scanAll (2 ^ 64) V1.WHITE_SPACE 0 100 (V1.lexer isDigit09 "aa:bb;".toList) =
    (V1.lexer isDigit09 "aa:bb;".toList).scanAll V1.WHITE_SPACE 0 100 :=
  C82_scan_all (v1_ok isDigit09) (by decide) (by decide) _ _ _

/-- with words of 16 values the end token of a text of six bytes does not fit, with words of 17 values it does -/
example : (Checked.scanAll 16 V1.WHITE_SPACE 0 100 (V1.lexer isDigit09 "aa:bb;".toList)).isOk = false ∧
    (Checked.scanAll 17 V1.WHITE_SPACE 0 100 (V1.lexer isDigit09 "aa:bb;".toList)).isOk = true := by
  constructor <;> decide +kernel

/-! ## the parsers -/

section
variable {W : Nat} {ps : Parser} (hW : ps.tokens.length < W)
include hW

theorem checked_parseItems {call call' : Nat → Nat → Res (RuleContext × Nat × MismatchLog)}
    (h : ∀ c r, call' c r = call c r) (items : List Item) (st : ItemState) :
    Checked.parseItems W ps call' items st = ps.parseItems call items st := by
  induction items generalizing st with
  | nil => rfl
  | cons x items ih =>
    cases x with
    | nt A =>
      simp only [Checked.parseItems, Parser.parseItems, h, ih]
      rfl
    | t a =>
      simp only [Checked.parseItems, Parser.parseItems]
      cases ht : ps.tokenAt st.cursor with
      | error e => rfl
      | ok tok =>
        have : st.cursor < ps.tokens.length := by
          rw [Parser.tokenAt, unwrap_eq_ok] at ht
          exact (List.getElem?_eq_some_iff.1 ht).1
        simp only [bind_ok]
        rw [addUsize_ok (by omega), bind_ok, ih]

/-- **C82** The parsers: as long as the tokens can be counted, `parse_ast` does the same with machine arithmetic, from
every cursor and for every rule. -/
theorem C82_parser (fuel cursor ruleIndex : Nat) :
    Checked.parseAst W ps fuel cursor ruleIndex = ps.parseAst fuel cursor ruleIndex := by
  induction fuel generalizing cursor ruleIndex with
  | zero => rfl
  | succ n ih =>
    simp only [Checked.parseAst, Parser.parseAst, checked_parseItems hW ih]
end

/-! ## the grammar builder -/

/-- the counter of the third pass, for the functions on one element -/
structure ElemBound (W : Nat) (elem elem' : ElemFn) : Prop where
  bound : ∀ r s x s', elem r s = .ok (x, s') → s'.nextRuleId ≤ s.nextRuleId + r.nodes
  same : ∀ r s, s.nextRuleId + r.nodes < W → elem' r s = elem r s

section
variable {W : Nat} {elem elem' : ElemFn} (H : ElemBound W elem elem')
include H

theorem visitElements_bound (es : List RuleContext) {s s' : ProdState} {xs : List Item}
    (h : visitElements elem es s = .ok (xs, s')) :
    s'.nextRuleId ≤ s.nextRuleId + (es.map RuleContext.nodes).sum := by
  induction es generalizing s xs with
  | nil => cases h; simp
  | cons e es ih =>
    rw [visitElements, bind_eq_ok] at h
    obtain ⟨⟨x, s1⟩, h1, h⟩ := h
    rw [bind_eq_ok] at h
    obtain ⟨⟨ys, s2⟩, h2, h⟩ := h
    cases h
    have := H.bound _ _ _ _ h1
    have := ih h2
    simp only [List.map_cons, List.sum_cons]
    omega

theorem visitElements_same (es : List RuleContext) (s : ProdState)
    (h : s.nextRuleId + (es.map RuleContext.nodes).sum < W) : visitElements elem' es s = visitElements elem es s := by
  induction es generalizing s with
  | nil => rfl
  | cons e es ih =>
    simp only [List.map_cons, List.sum_cons] at h
    rw [visitElements, visitElements, H.same e s (by omega)]
    cases h1 : elem e s with
    | error e => rfl
    | ok p =>
      obtain ⟨x, s1⟩ := p
      have := H.bound _ _ _ _ h1
      simp only [bind_ok]
      rw [ih s1 (by omega)]
end

theorem contexts_sum (r : RuleContext) (i : Nat) :
    ((r.getRuleContexts i).map RuleContext.nodes).sum ≤ Ast.nodesList r.children := by
  have h : r.getRuleContexts i = r.children.filterMap (Ast.asRule i) := (C36_lists r i).2.2
  rw [h]
  induction r.children with
  | nil => simp [Ast.nodesList]
  | cons k ks ih =>
    rw [List.filterMap_cons, Ast.nodesList]
    cases hk : k.asRule i with
    | none => simp only; omega
    | some c =>
      have : c.nodes = k.nodes := by
        cases k with
        | rule n j c' =>
          simp only [Ast.asRule] at hk
          split at hk
          · cases hk; rfl
          · cases hk
        | _ => simp [Ast.asRule] at hk
      simp only [List.map_cons, List.sum_cons, this]
      omega

section
variable {W : Nat} {elem elem' : ElemFn} (H : ElemBound W elem elem')
include H

theorem visitAlternative_bound (r : RuleContext) {s s' : ProdState} {xs : List Item}
    (h : visitAlternative elem r s = .ok (xs, s')) : s'.nextRuleId ≤ s.nextRuleId + Ast.nodesList r.children := by
  rw [visitAlternative] at h
  split at h
  · cases h; omega
  · have := visitElements_bound H _ h
    have := contexts_sum r 5
    rw [RuleContext.elementList] at *
    omega

theorem visitAlternative_same (r : RuleContext) (s : ProdState) (h : s.nextRuleId + Ast.nodesList r.children < W) :
    visitAlternative elem' r s = visitAlternative elem r s := by
  rw [visitAlternative, visitAlternative]
  split
  · rfl
  · have := contexts_sum r 5
    exact visitElements_same H _ _ (by rw [RuleContext.elementList]; omega)

theorem visitAlternatives_bound (as : List RuleContext) {s s' : ProdState} {xs : List (List Item)}
    (h : visitAlternatives elem as s = .ok (xs, s')) :
    s'.nextRuleId ≤ s.nextRuleId + (as.map RuleContext.nodes).sum := by
  induction as generalizing s xs with
  | nil => cases h; simp
  | cons e es ih =>
    rw [visitAlternatives, bind_eq_ok] at h
    obtain ⟨⟨x, s1⟩, h1, h⟩ := h
    rw [bind_eq_ok] at h
    obtain ⟨⟨ys, s2⟩, h2, h⟩ := h
    cases h
    have := visitAlternative_bound H _ h1
    have := ih h2
    have hn : e.nodes = 1 + Ast.nodesList e.children := rfl
    simp only [List.map_cons, List.sum_cons]
    omega

theorem visitAlternatives_same (as : List RuleContext) (s : ProdState)
    (h : s.nextRuleId + (as.map RuleContext.nodes).sum < W) :
    visitAlternatives elem' as s = visitAlternatives elem as s := by
  induction as generalizing s with
  | nil => rfl
  | cons e es ih =>
    simp only [List.map_cons, List.sum_cons] at h
    have hn : e.nodes = 1 + Ast.nodesList e.children := rfl
    rw [visitAlternatives, visitAlternatives, visitAlternative_same H e s (by omega)]
    cases h1 : visitAlternative elem e s with
    | error e => rfl
    | ok p =>
      obtain ⟨x, s1⟩ := p
      have := visitAlternative_bound H _ h1
      simp only [bind_ok]
      rw [ih s1 (by omega)]
end

theorem foldl_next (X : Nat) (line : Str) (rs : List (List Item)) (s : ProdState) :
    (rs.foldl (fun s right => s.insertOrPrint ⟨X, right⟩ line) s).nextRuleId = s.nextRuleId := by
  induction rs generalizing s with
  | nil => rfl
  | cons r rs ih => rw [List.foldl_cons, ih]; rfl

theorem finishBlock_bound (rs : List (List Item)) (s : ProdState) :
    (Syntaxis.finishBlock rs s).2.nextRuleId ≤ s.nextRuleId + 1 := by
  rw [Syntaxis.finishBlock]
  split
  · simp
  · simp only [foldl_next]
    exact Nat.le_refl _

theorem finishBlock_same {W : Nat} (rs : List (List Item)) (s : ProdState) (h : s.nextRuleId + 1 < W) :
    Checked.finishBlock W rs s = .ok (Syntaxis.finishBlock rs s) := by
  rw [Checked.finishBlock, Syntaxis.finishBlock]
  cases s.blockCache.get rs with
  | some i => rfl
  | none =>
    dsimp only
    rw [addUsize_ok (by rw [foldl_next]; exact h)]
    rfl

theorem setCache_next (s : ProdState) (f : Suffix) (i x : Nat) : (s.setCache f i x).nextRuleId = s.nextRuleId := by
  cases f <;> rfl

theorem applySuffix_bound (f : Suffix) (x : Item) (s : ProdState) :
    (Syntaxis.applySuffix f x s).2.nextRuleId ≤ s.nextRuleId + 1 := by
  rw [Syntaxis.applySuffix]
  dsimp only
  split
  · simp
  · simp only [setCache_next]
    exact Nat.le_refl _

theorem applySuffix_same {W : Nat} (f : Suffix) (x : Item) (s : ProdState) (h : s.nextRuleId + 1 < W) :
    Checked.applySuffix W f x s = .ok (Syntaxis.applySuffix f x s) := by
  rw [Checked.applySuffix, Syntaxis.applySuffix]
  dsimp only
  cases (ProdState.cache { s with uses := (f, x) :: s.uses } f).get x.bare with
  | some i => rfl
  | none =>
    dsimp only
    rw [addUsize_ok (by rw [setCache_next]; exact h)]
    rfl

theorem context_nodes {r c : RuleContext} {i j : Nat} (h : r.getRuleContext i j = some c) :
    c.nodes ≤ Ast.nodesList r.children := by
  have hm : c ∈ r.getRuleContexts i := by
    rw [RuleContext.getRuleContext] at h
    split at h
    · cases h; exact List.getElem_mem _
    · cases h
  refine Nat.le_trans ?_ (contexts_sum r i)
  generalize r.getRuleContexts i = l at hm
  induction l with
  | nil => cases hm
  | cons d l ih =>
    rw [List.map_cons, List.sum_cons]
    rcases List.mem_cons.1 hm with rfl | hm
    · omega
    · have := ih hm
      omega

theorem visitBlock_bound {W : Nat} {elem elem' : ElemFn} (H : ElemBound W elem elem') {r : RuleContext}
    {s s' : ProdState} {i : Nat} (h : Syntaxis.visitBlock elem r s = .ok (i, s')) :
    s'.nextRuleId ≤ s.nextRuleId + r.nodes := by
  rw [Syntaxis.visitBlock, bind_eq_ok] at h
  obtain ⟨⟨rs, s1⟩, h1, h⟩ := h
  have := visitAlternatives_bound H _ h1
  have := contexts_sum r 3
  have hb := finishBlock_bound rs s1
  rw [Except.ok.inj h] at hb
  simp only [RuleContext.nodes, RuleContext.alternativeList] at *
  omega

theorem visitBlock_same {W : Nat} {elem elem' : ElemFn} (H : ElemBound W elem elem') (r : RuleContext) (s : ProdState)
    (h : s.nextRuleId + r.nodes < W) : Checked.visitBlock W elem' r s = Syntaxis.visitBlock elem r s := by
  have hs := contexts_sum r 3
  have hn : r.nodes = 1 + Ast.nodesList r.children := rfl
  rw [Checked.visitBlock, Syntaxis.visitBlock,
    visitAlternatives_same H _ _ (by rw [RuleContext.alternativeList]; omega)]
  cases h1 : visitAlternatives elem r.alternativeList s with
  | error e => rfl
  | ok p =>
    obtain ⟨rs, s1⟩ := p
    have := visitAlternatives_bound H _ h1
    rw [RuleContext.alternativeList] at this
    simp only [bind_ok]
    rw [finishBlock_same _ _ (by omega)]

theorem visitElement_checked (lc : LexConsts) (W fuel : Nat) :
    ElemBound W (Syntaxis.visitElement lc fuel) (Checked.visitElement lc W fuel) := by
  induction fuel with
  | zero => exact ⟨fun r s x s' h => by simp [Syntaxis.visitElement] at h, fun _ _ _ => rfl⟩
  | succ n ih =>
    constructor
    · intro r s x s' h
      have hn : r.nodes = 1 + Ast.nodesList r.children := rfl
      have hsuffix : ∀ item (s1 : ProdState), s1.nextRuleId ≤ s.nextRuleId + Ast.nodesList r.children →
          (match suffixOf lc r with
            | some f => Except.ok (Syntaxis.applySuffix f item s1)
            | none => .ok (item, s1) : Res (Item × ProdState)) = .ok (x, s') →
          s'.nextRuleId ≤ s.nextRuleId + r.nodes := by
        intro item s1 hb h
        split at h
        · rename_i f _
          have := applySuffix_bound f item s1
          rw [Except.ok.inj h] at this
          simp only at this
          omega
        · cases h
          omega
      rw [Syntaxis.visitElement] at h
      cases ht : r.tokenRef lc with
      | some t =>
        rw [ht] at h
        dsimp only at h
        rw [bind_eq_ok] at h
        obtain ⟨a, _, h⟩ := h
        exact hsuffix _ _ (by dsimp only; omega) h
      | none =>
        rw [ht] at h
        dsimp only at h
        cases ht : r.stringLiteral lc with
        | some t =>
          rw [ht] at h
          dsimp only at h
          rw [bind_eq_ok] at h
          obtain ⟨a, _, h⟩ := h
          exact hsuffix _ _ (by dsimp only; omega) h
        | none =>
          rw [ht] at h
          dsimp only at h
          cases ht : r.ruleRef lc with
          | some t =>
            rw [ht] at h
            dsimp only at h
            rw [bind_eq_ok] at h
            obtain ⟨a, _, h⟩ := h
            exact hsuffix _ _ (by dsimp only; omega) h
          | none =>
            rw [ht] at h
            dsimp only at h
            cases hb : r.block with
            | none => rw [hb] at h; cases h
            | some b =>
              rw [hb] at h
              dsimp only at h
              rw [bind_eq_ok] at h
              obtain ⟨⟨i, s1⟩, h1, h⟩ := h
              have := visitBlock_bound ih h1
              have := context_nodes hb
              exact hsuffix _ _ (by dsimp only; omega) h
    · intro r s h
      have hn : r.nodes = 1 + Ast.nodesList r.children := rfl
      have hblock : ∀ b, r.block = some b →
          Checked.visitBlock W (Checked.visitElement lc W n) b s =
            Syntaxis.visitBlock (Syntaxis.visitElement lc n) b s := by
        intro b hb
        have := context_nodes hb
        exact visitBlock_same ih b s (by omega)
      have hsuffix : ∀ item (s1 : ProdState), s1.nextRuleId ≤ s.nextRuleId + Ast.nodesList r.children →
          (match suffixOf lc r with
            | some f => Checked.applySuffix W f item s1
            | none => .ok (item, s1)) =
          (match suffixOf lc r with
            | some f => .ok (Syntaxis.applySuffix f item s1)
            | none => .ok (item, s1)) := by
        intro item s1 hs
        split
        · exact applySuffix_same _ _ _ (by omega)
        · rfl
      rw [Checked.visitElement, Syntaxis.visitElement]
      cases r.tokenRef lc with
      | some t =>
        dsimp only
        cases unwrap (s.grammar.vocabulary.getTerminalIdByName t.text) with
        | error e => rfl
        | ok a => exact hsuffix _ _ (by dsimp only; omega)
      | none =>
        cases r.stringLiteral lc with
        | some t =>
          dsimp only
          cases unwrap (s.grammar.vocabulary.getTerminalIdByName t.text) with
          | error e => rfl
          | ok a => exact hsuffix _ _ (by dsimp only; omega)
        | none =>
          cases r.ruleRef lc with
          | some t =>
            dsimp only
            cases unwrap (s.grammar.vocabulary.getNonterminalIdByName t.text) with
            | error e => rfl
            | ok a => exact hsuffix _ _ (by dsimp only; omega)
          | none =>
            cases hb : r.block with
            | none => rfl
            | some b =>
              dsimp only
              rw [hblock b hb]
              cases h1 : Syntaxis.visitBlock (Syntaxis.visitElement lc n) b s with
              | error e => rfl
              | ok p =>
                obtain ⟨i, s1⟩ := p
                have := visitBlock_bound ih h1
                have := context_nodes hb
                exact hsuffix _ _ (by dsimp only; omega)

section
variable {W : Nat} {elem elem' : ElemFn} (H : ElemBound W elem elem')
include H

theorem visitNamed_bound (id : Nat) (as : List RuleContext) {s s' : ProdState} (h : visitNamed elem id as s = .ok s') :
    s'.nextRuleId ≤ s.nextRuleId + (as.map RuleContext.nodes).sum := by
  induction as generalizing s with
  | nil => cases h; simp
  | cons a as ih =>
    rw [visitNamed, bind_eq_ok] at h
    obtain ⟨⟨x, s1⟩, h1, h⟩ := h
    have := visitAlternative_bound H _ h1
    have h2 : s'.nextRuleId ≤ s1.nextRuleId + (as.map RuleContext.nodes).sum := ih (s := s1.insertOrPrint ⟨id, x⟩ _) h
    have hn : a.nodes = 1 + Ast.nodesList a.children := rfl
    simp only [List.map_cons, List.sum_cons]
    omega

theorem visitNamed_same (id : Nat) (as : List RuleContext) (s : ProdState)
    (h : s.nextRuleId + (as.map RuleContext.nodes).sum < W) : visitNamed elem' id as s = visitNamed elem id as s := by
  induction as generalizing s with
  | nil => rfl
  | cons a as ih =>
    simp only [List.map_cons, List.sum_cons] at h
    have hn : a.nodes = 1 + Ast.nodesList a.children := rfl
    rw [visitNamed, visitNamed, visitAlternative_same H a s (by omega)]
    cases h1 : visitAlternative elem a s with
    | error e => rfl
    | ok p =>
      obtain ⟨x, s1⟩ := p
      have := visitAlternative_bound H _ h1
      exact ih _ (by show s1.nextRuleId + _ < W; omega)

theorem prodVisitParserRule_bound (lc : LexConsts) (r : RuleContext) {s s' : ProdState}
    (h : prodVisitParserRule lc elem r s = .ok s') : s'.nextRuleId ≤ s.nextRuleId + r.nodes := by
  rw [prodVisitParserRule, bind_eq_ok] at h
  obtain ⟨t, _, h⟩ := h
  dsimp only at h
  rw [bind_eq_ok] at h
  obtain ⟨id, _, h⟩ := h
  rw [bind_eq_ok] at h
  obtain ⟨b, hb, h⟩ := h
  have h1 := visitNamed_bound H _ _ h
  have h2 := contexts_sum b 3
  have h3 := context_nodes (unwrap_eq_ok.1 hb)
  simp only [RuleContext.nodes, RuleContext.alternativeList] at *
  omega

theorem prodVisitParserRule_same (lc : LexConsts) (r : RuleContext) (s : ProdState) (h : s.nextRuleId + r.nodes < W) :
    prodVisitParserRule lc elem' r s = prodVisitParserRule lc elem r s := by
  rw [prodVisitParserRule, prodVisitParserRule]
  cases unwrap (r.ruleRef lc) with
  | error e => rfl
  | ok t =>
    simp only [bind_ok]
    cases unwrap (s.grammar.vocabulary.getNonterminalIdByName t.text) with
    | error e => rfl
    | ok id =>
      simp only [bind_ok]
      cases hb : unwrap r.block with
      | error e => rfl
      | ok b =>
        have h2 := contexts_sum b 3
        have h3 := context_nodes (unwrap_eq_ok.1 hb)
        have hn : r.nodes = 1 + Ast.nodesList r.children := rfl
        have hn' : b.nodes = 1 + Ast.nodesList b.children := rfl
        exact visitNamed_same H _ _ _ (by rw [RuleContext.alternativeList]; omega)

theorem prodVisitRules_same (lc : LexConsts) (rs : List RuleContext) (s : ProdState)
    (h : s.nextRuleId + (rs.map RuleContext.nodes).sum < W) :
    prodVisitRules lc elem' rs s = prodVisitRules lc elem rs s := by
  induction rs generalizing s with
  | nil => rfl
  | cons r rs ih =>
    simp only [List.map_cons, List.sum_cons] at h
    rw [prodVisitRules, prodVisitRules, prodVisitParserRule_same H lc r s (by omega)]
    cases h1 : prodVisitParserRule lc elem r s with
    | error e => rfl
    | ok s1 =>
      have := prodVisitParserRule_bound H lc _ h1
      exact ih _ (by omega)
end

/-! ### passes that are folds over the tree -/

mutual
theorem frontier_nodes (hide : RuleContext → Bool) (a : Ast) : (a.frontier hide).length ≤ a.nodes := by
  cases a with
  | terminal t => simp [Ast.frontier, Ast.nodes]
  | error t => simp [Ast.frontier, Ast.nodes]
  | rule n i kids =>
    have := frontierList_nodes hide kids
    rw [Ast.frontier, Ast.nodes]
    split
    · simp
    · omega
theorem frontierList_nodes (hide : RuleContext → Bool) (ks : List Ast) :
    (Ast.frontierList hide ks).length ≤ Ast.nodesList ks := by
  cases ks with
  | nil => simp [Ast.frontierList, Ast.nodesList]
  | cons k ks =>
    have := frontier_nodes hide k
    have := frontierList_nodes hide ks
    rw [Ast.frontierList, Ast.nodesList, List.length_append]
    omega
end

/-- a counter that goes up by at most one per node -/
theorem foldlM_checked {σ : Type} {W : Nat} {f f' : σ → Ast → Res σ} (c : σ → Nat)
    (hf : ∀ s a s', f s a = .ok s' → c s' ≤ c s + 1) (h : ∀ s a, c s + 1 < W → f' s a = f s a) (l : List Ast) (s : σ)
    (hs : c s + l.length < W) :
    l.foldlM f' s = l.foldlM f s ∧ ∀ s', l.foldlM f s = .ok s' → c s' ≤ c s + l.length := by
  induction l generalizing s with
  | nil => exact ⟨rfl, fun s' h => by cases h; simp⟩
  | cons a l ih =>
    simp only [List.length_cons] at hs
    rw [List.foldlM_cons, List.foldlM_cons, h s a (by omega)]
    cases h1 : f s a with
    | error e => exact ⟨rfl, fun s' h => by cases h⟩
    | ok s1 =>
      have h2 := hf _ _ _ h1
      obtain ⟨h3, h4⟩ := ih s1 (by omega)
      refine ⟨h3, fun s' h => ?_⟩
      have := h4 s' h
      rw [List.length_cons]
      omega

theorem accept_checked {σ : Type} {W : Nat} {vi vi' : Visitor σ Unit} (hq : vi.Quiet) (ho : vi.Opaque) (hq' : vi'.Quiet)
    (ho' : vi'.Opaque) (hov : vi'.overridden = vi.overridden) (hr : vi.override .ruleList = none)
    (hr' : vi'.override .ruleList = none) (c : σ → Nat) (hf : ∀ s a s', vi.callOn a s = .ok s' → c s' ≤ c s + 1)
    (h : ∀ s a, c s + 1 < W → vi'.callOn a s = vi.callOn a s) (r : RuleContext) (s : σ)
    (hs : c s + Ast.nodesList r.children < W) :
    (vi'.accept .ruleList r s).map Prod.snd = (vi.accept .ruleList r s).map Prod.snd ∧
      ∀ s', (vi.accept .ruleList r s).map Prod.snd = .ok s' → c s' ≤ c s + Ast.nodesList r.children := by
  have hacc : ∀ v : Visitor σ Unit, v.Quiet → v.Opaque → v.override .ruleList = none →
      (v.accept .ruleList r s).map Prod.snd =
        (Ast.frontierList v.overridden r.children).foldlM (fun s a => v.callOn a s) s := by
    intro v hq ho hr
    rw [← Visitor.loop_frontier v hq ho r r.children () s]
    obtain ⟨d, hd⟩ := hq.defaultResult
    rw [Visitor.accept, hr]
    show (Visitor.visitChildren v r s).map Prod.snd = _
    rw [Visitor.visitChildren, hd, bind_ok]
  have hl := frontierList_nodes vi.overridden r.children
  rw [hacc vi hq ho hr, hacc vi' hq' ho' hr', hov]
  obtain ⟨h1, h2⟩ := foldlM_checked (W := W) (f := fun s a => vi.callOn a s) (f' := fun s a => vi'.callOn a s) c hf h
    (Ast.frontierList vi.overridden r.children) s (by omega)
  exact ⟨h1, fun s' h => (h2 s' h).trans (by omega)⟩

/-- the larger one of the two counters of the second pass -/
def SymState.counter (s : SymState) : Nat := max s.nextTokenId s.nextRuleId

theorem symParserRule_counter (lc : LexConsts) (r : RuleContext) (s s' : SymState) (u : Unit)
    (h : Syntaxis.symVisitParserRule lc r s = .ok (u, s')) : s'.counter ≤ s.counter + 1 := by
  rw [Syntaxis.symVisitParserRule, bind_eq_ok] at h
  obtain ⟨t, _, h⟩ := h
  dsimp only at h
  split at h
  · cases h
    exact Nat.le_succ _
  · cases h
    simp only [SymState.counter]
    omega

theorem symLexerRule_counter (lc : LexConsts) (r : RuleContext) (s s' : SymState) (u : Unit)
    (h : Syntaxis.symVisitLexerRule lc r s = .ok (u, s')) : s'.counter ≤ s.counter + 1 := by
  rw [Syntaxis.symVisitLexerRule, bind_eq_ok] at h
  obtain ⟨t, _, h⟩ := h
  dsimp only at h
  split at h
  · cases h
    exact Nat.le_succ _
  · rw [bind_eq_ok] at h
    obtain ⟨rg, _, h⟩ := h
    rw [bind_eq_ok] at h
    obtain ⟨lit, _, h⟩ := h
    rw [bind_eq_ok] at h
    obtain ⟨x, _, h⟩ := h
    split at h
    · cases h
      exact Nat.le_succ _
    · cases h
      simp only [SymState.counter]
      omega

theorem symParserRule_same (lc : LexConsts) {W : Nat} (r : RuleContext) (s : SymState) (h : s.counter + 1 < W) :
    Checked.symVisitParserRule lc W r s = Syntaxis.symVisitParserRule lc r s := by
  have h' : s.nextRuleId + 1 < W := by simp only [SymState.counter] at h; omega
  simp only [Checked.symVisitParserRule, Syntaxis.symVisitParserRule, addUsize_ok h', bind_ok]

theorem symLexerRule_same (lc : LexConsts) {W : Nat} (r : RuleContext) (s : SymState) (h : s.counter + 1 < W) :
    Checked.symVisitLexerRule lc W r s = Syntaxis.symVisitLexerRule lc r s := by
  have h' : s.nextTokenId + 1 < W := by simp only [SymState.counter] at h; omega
  simp only [Checked.symVisitLexerRule, Syntaxis.symVisitLexerRule, addUsize_ok h', bind_ok]
  rfl

theorem map_bind {α β : Type} (x : Res (α × β)) : (do let (_, s) ← x; .ok s : Res β) = x.map Prod.snd := by
  cases x <;> rfl

theorem runSym_checked (lc : LexConsts) {W : Nat} (r : RuleContext) (s : SymState)
    (hs : s.counter + Ast.nodesList r.children < W) :
    Checked.runSym lc W r s = Syntaxis.runSym lc r s ∧
      ∀ s', Syntaxis.runSym lc r s = .ok s' → s'.counter ≤ s.counter + Ast.nodesList r.children := by
  rw [Checked.runSym, Syntaxis.runSym, map_bind, map_bind]
  refine accept_checked (symVisitor_quiet lc) (symVisitor_opaque lc)
    ⟨⟨_, fun _ => rfl⟩, fun _ b => ⟨b, fun _ => rfl⟩, fun _ _ _ => rfl⟩ ?_ ?_ rfl rfl SymState.counter ?_ ?_ r s hs
  · intro k f h c th th'
    cases k <;> simp [Checked.symVisitor] at h <;> subst h <;> rfl
  · funext c
    obtain ⟨n, ks, i⟩ := c
    rcases i with _|_|_|_|_|_|_|_|_|i <;> rfl
  · intro s a s' h
    cases a with
    | terminal t => cases h; exact Nat.le_succ _
    | error t => cases h; exact Nat.le_succ _
    | rule n i ks =>
      rcases i with _|_|_|_|_|_|_|_|_|i <;> first | (cases h; exact Nat.le_succ _) | obtain ⟨u, hu⟩ := map_snd_ok h
      · exact symParserRule_counter lc _ _ _ _ hu
      · exact symLexerRule_counter lc _ _ _ _ hu
  · intro s a h
    cases a with
    | terminal t => rfl
    | error t => rfl
    | rule n i ks =>
      rcases i with _|_|_|_|_|_|_|_|_|i <;> first | rfl | skip
      · exact congrArg (Except.map Prod.snd) (symParserRule_same lc ⟨n, ks, 1⟩ s h)
      · exact congrArg (Except.map Prod.snd) (symLexerRule_same lc ⟨n, ks, 7⟩ s h)

/-- **C82** The grammar builder: as long as twice the number of nodes of the tree, added to the first ids, is below
`W`, the three passes do the same with machine arithmetic. -/
theorem C82_builder (lc : LexConsts) {W : Nat} (fuel : Nat) (ast : RuleContext) (g : Grammar) (n0 r0 : Nat)
    (hW : max n0 r0 + 2 * ast.nodes < W) :
    Checked.buildStates lc W fuel ast g n0 r0 = Syntaxis.buildStates lc fuel ast g n0 r0 := by
  have hn : ast.nodes = 1 + Ast.nodesList ast.children := rfl
  rw [Checked.buildStates, Syntaxis.buildStates]
  cases h1 : runLit lc ast { grammar := g, nextTokenId := n0, data := [] } with
  | error e => rfl
  | ok s1 =>
    have e := runLit_ok h1
    subst e
    simp only [bind_ok]
    obtain ⟨h2, h3⟩ := runSym_checked lc (W := W) ast { grammar := g, data := [], nextTokenId := n0, nextRuleId := r0 }
      (by simp only [SymState.counter]; omega)
    rw [h2]
    cases h4 : Syntaxis.runSym lc ast { grammar := g, data := [], nextTokenId := n0, nextRuleId := r0 } with
    | error e => rfl
    | ok s2 =>
      have h5 := h3 s2 h4
      have h6 : s2.nextRuleId ≤ s2.counter := Nat.le_max_right ..
      have h7 := contexts_sum ast 1
      simp only [SymState.counter] at h5 h6
      simp only [bind_ok, prodVisitRuleList]
      rw [prodVisitRules_same (visitElement_checked lc W fuel) lc _ _
        (by rw [RuleContext.parserRuleList]; simp only [ProdState.new]; omega)]

/-- **C82** `load_ast` on a machine with 64-bit words: a tree with fewer than 2^62 nodes. -/
theorem C82_load_ast (fuel : Nat) (ast : RuleContext) (h : ast.nodes < 2 ^ 62) :
    (Checked.buildStates .old (2 ^ 64) fuel ast (Grammar.new "我的文法".toList) 2 0).map (fun s => (s.2.grammar, s.1.data)) =
      loadAst fuel ast := by
  rw [C82_builder _ _ _ _ _ _ (by omega), loadAst, buildGrammar]
  cases Syntaxis.buildStates .old fuel ast (Grammar.new "我的文法".toList) 2 0 <;> rfl

/-! ## the collectors of lexer rules -/

theorem lexRule_counter (lc : LexConsts) (r : RuleContext) (s s' : LexState) (u : Unit)
    (h : Syntaxis.lexVisitLexerRule lc r s = .ok (u, s')) : s'.nextTokenType ≤ s.nextTokenType + 1 := by
  rw [Syntaxis.lexVisitLexerRule, bind_eq_ok] at h
  obtain ⟨t, _, h⟩ := h
  dsimp only at h
  split at h
  · cases h
    exact Nat.le_succ _
  · rw [bind_eq_ok] at h
    obtain ⟨rg, _, h⟩ := h
    rw [bind_eq_ok] at h
    obtain ⟨lit, _, h⟩ := h
    rw [bind_eq_ok] at h
    obtain ⟨x, _, h⟩ := h
    split at h
    · cases h
      exact Nat.le_succ _
    · cases h
      exact Nat.le_refl _

/-- **C82** The collector of lexer rules. -/
theorem C82_lexer_rules (lc : LexConsts) {W : Nat} (ast : RuleContext) (s : LexState)
    (h : s.nextTokenType + ast.nodes < W) : Checked.runLex lc W ast s = Syntaxis.runLex lc ast s := by
  have hn : ast.nodes = 1 + Ast.nodesList ast.children := rfl
  rw [Checked.runLex, Syntaxis.runLex, map_bind, map_bind]
  refine (accept_checked (W := W) (lexVisitor_quiet lc) (lexVisitor_opaque lc)
    ⟨⟨_, fun _ => rfl⟩, fun _ b => ⟨b, fun _ => rfl⟩, fun _ _ _ => rfl⟩ ?_ ?_ rfl rfl LexState.nextTokenType ?_ ?_ ast s
    (by omega)).1
  · intro k f h c th th'
    cases k <;> simp [Checked.lexVisitor] at h
    subst h
    rfl
  · funext c
    obtain ⟨n, ks, i⟩ := c
    rcases i with _|_|_|_|_|_|_|_|_|i <;> rfl
  · intro s a s' h
    cases a with
    | terminal t => cases h; exact Nat.le_succ _
    | error t => cases h; exact Nat.le_succ _
    | rule n i ks =>
      rcases i with _|_|_|_|_|_|_|_|_|i <;> first | (cases h; exact Nat.le_succ _) | obtain ⟨u, hu⟩ := map_snd_ok h
      exact lexRule_counter lc _ _ _ _ hu
  · intro s a h
    cases a with
    | terminal t => rfl
    | error t => rfl
    | rule n i ks =>
      rcases i with _|_|_|_|_|_|_|_|_|i <;> first | rfl | skip
      refine congrArg (Except.map Prod.snd) (?_ : Checked.lexVisitLexerRule lc W ⟨n, ks, 7⟩ s = Syntaxis.lexVisitLexerRule lc ⟨n, ks, 7⟩ s)
      simp only [Checked.lexVisitLexerRule, Syntaxis.lexVisitLexerRule, addUsize_ok h, bind_ok]
      rfl

theorem strLit_counter (lc : LexConsts) (t : Token) (s s' : StrLitState) (u : Unit)
    (h : Syntaxis.strLitVisitTerminal lc t s = .ok (u, s')) : s'.nextTokenType ≤ s.nextTokenType + 1 := by
  rw [Syntaxis.strLitVisitTerminal] at h
  split at h
  · dsimp only at h
    split at h
    · cases h
      exact Nat.le_succ _
    · split at h <;> rw [bind_eq_ok] at h <;> obtain ⟨x, _, h⟩ := h <;> cases h <;> exact Nat.le_refl _
  · cases h
    exact Nat.le_succ _

/-- **C82** The collector of string literals. -/
theorem C82_string_literals (lc : LexConsts) {W : Nat} (ast : RuleContext) (s : StrLitState)
    (h : s.nextTokenType + ast.nodes < W) : Checked.runStrLit lc W ast s = Syntaxis.runStrLit lc ast s := by
  have hn : ast.nodes = 1 + Ast.nodesList ast.children := rfl
  rw [Checked.runStrLit, Syntaxis.runStrLit, map_bind, map_bind]
  refine (accept_checked (W := W) (vi := Syntaxis.strLitVisitor lc) (vi' := Checked.strLitVisitor lc W)
    ⟨⟨_, fun _ => rfl⟩, fun _ b => ⟨b, fun _ => rfl⟩, fun _ _ _ => rfl⟩ ?_
    ⟨⟨_, fun _ => rfl⟩, fun _ b => ⟨b, fun _ => rfl⟩, fun _ _ _ => rfl⟩ ?_ rfl rfl rfl StrLitState.nextTokenType ?_ ?_
    ast s (by omega)).1
  · intro k f h; cases h
  · intro k f h; cases h
  · intro s a s' h
    cases a with
    | terminal t =>
      obtain ⟨u, hu⟩ := map_snd_ok h
      exact strLit_counter lc _ _ _ _ hu
    | error t => cases h; exact Nat.le_succ _
    | rule n i ks =>
      have : (Syntaxis.strLitVisitor lc).callOn (.rule n i ks) s = .ok s := by
        rcases i with _|_|_|_|_|_|_|_|_|i <;> rfl
      rw [this] at h
      cases h; exact Nat.le_succ _
  · intro s a h
    cases a with
    | terminal t =>
      refine congrArg (Except.map Prod.snd) (?_ : Checked.strLitVisitTerminal lc W t s = Syntaxis.strLitVisitTerminal lc t s)
      simp only [Checked.strLitVisitTerminal, Syntaxis.strLitVisitTerminal, addUsize_ok h, bind_ok]
    | error t => rfl
    | rule n i ks => rcases i with _|_|_|_|_|_|_|_|_|i <;> rfl

/-- non-vacuity: the example tree has fewer than 2^62 nodes; with words of three values its rules do not fit -/
example : ExTree.tree.nodes < 2 ^ 62 ∧
    (Checked.buildStates .old 3 5000 ExTree.tree (Grammar.new []) 2 0).isOk = false ∧
    (Checked.buildStates .old 100 5000 ExTree.tree (Grammar.new []) 2 0).isOk = true := by
  refine ⟨?_, ?_, ?_⟩ <;> decide +kernel

end Syntaxis
