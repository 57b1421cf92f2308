import Verif.Props.Ast

/-!
# C38: the text of every node
-/

namespace Syntaxis

theorem dropBytes_no_fuel : ∀ (s : Str) (n : Nat), dropBytes s n ≠ .error .fuel
  | s, 0 => by cases s <;> simp [dropBytes]
  | [], _ + 1 => by simp [dropBytes]
  | c :: s, n + 1 => by
    rw [dropBytes]
    split
    · simp
    · exact dropBytes_no_fuel s _

theorem takeBytes_no_fuel : ∀ (s : Str) (n : Nat), takeBytes s n ≠ .error .fuel
  | s, 0 => by cases s <;> simp [takeBytes]
  | [], _ + 1 => by simp [takeBytes]
  | c :: s, n + 1 => by
    rw [takeBytes]
    split
    · simp
    · have := takeBytes_no_fuel s (n + 1 - c.utf8Size)
      cases h : takeBytes s (n + 1 - c.utf8Size) with
      | ok t => simp
      | error e =>
        rw [h] at this
        exact this

/-- a slice that ends behind the text panics -/
theorem slice_beyond {s : Str} {a b : Nat} (h : byteLen s < b) : slice s a b = .error .panic := by
  unfold slice
  cases hd : dropBytes s a with
  | error e =>
    cases e with
    | panic => rfl
    | fuel => exact absurd hd (dropBytes_no_fuel s a)
  | ok t =>
    rw [bind_ok]
    split
    · rfl
    · rename_i hab
      obtain ⟨u, e1, e2⟩ := dropBytes_ok hd
      cases ht : takeBytes t (b - a) with
      | error e =>
        cases e with
        | panic => rfl
        | fuel => exact absurd ht (takeBytes_no_fuel _ _)
      | ok w =>
        obtain ⟨v, e3, e4⟩ := takeBytes_ok ht
        subst e1
        subst e3
        rw [byteLen_append, byteLen_append] at h
        omega

variable {ms : List Matcher} {names : List Str} {input : Str}

/-- the source from one token to another -/
theorem slice_tokens (hok : LexerOk ms names) (toks : List Token) (l : Lexer)
    (h : Scans Lexer.scan (Lexer.new ms names input) toks l) {i j : Nat} {a b : Token} (hij : i ≤ j)
    (hi : toks[i]? = some a) (hj : toks[j]? = some b) (ha : a.tokenType ≠ 1) (hb : b.tokenType ≠ 1) :
    slice input a.charStartIndex b.charStopIndex = .ok (covered ((toks.take (j + 1)).drop i)) := by
  obtain ⟨a1, a2, a3⟩ := C29_offsets hok toks l h i a hi ha
  obtain ⟨b1, b2, b3⟩ := C29_offsets hok toks l h j b hj hb
  obtain ⟨rest, hin, _⟩ := C29_lossless hok toks l h
  have e1 : toks.take (j + 1) = toks.take i ++ (toks.take (j + 1)).drop i := by
    conv_lhs => rw [← List.take_append_drop i (toks.take (j + 1))]
    rw [List.take_take, Nat.min_eq_left (by omega)]
  have e2 : covered (toks.take (j + 1)) = covered (toks.take j) ++ b.text := by
    rw [List.take_add_one, hj, covered_append]
    simp [covered, hb]
  have e3 : input = covered (toks.take i) ++ (covered ((toks.take (j + 1)).drop i) ++
      (covered (toks.drop (j + 1)) ++ rest)) := by
    rw [← List.append_assoc, ← covered_append, ← e1, ← List.append_assoc, ← covered_append,
      List.take_append_drop]
    exact hin
  have e4 : b.charStopIndex = byteLen (covered (toks.take i)) +
      byteLen (covered ((toks.take (j + 1)).drop i)) := by
    rw [b2, b1, ← byteLen_append, ← e2, ← byteLen_append, ← covered_append, ← e1]
  rw [a1, e4]
  conv_lhs => rw [e3]
  exact slice_append _ _ _

theorem head_before_last {toks L : List Token} (hs : L.Sublist toks)
    (hidx : ∀ (j : Nat) (tok : Token), toks[j]? = some tok → tok.tokenIndex = j) {a b : Token} (ha : L.head? = some a)
    (hb : L.getLast? = some b) : a.tokenIndex ≤ b.tokenIndex := by
  have hpw : toks.Pairwise (fun x y => x.tokenIndex < y.tokenIndex) := by
    rw [List.pairwise_iff_getElem]
    intro m n hm hn hlt
    rw [hidx m _ (List.getElem?_eq_getElem hm), hidx n _ (List.getElem?_eq_getElem hn)]
    exact hlt
  have hpl := hpw.sublist hs
  have hbm : b ∈ L := List.mem_of_getLast? hb
  cases L with
  | nil => cases ha
  | cons x L =>
    cases ha
    rcases List.mem_cons.1 hbm with rfl | hbm
    · exact Nat.le_refl _
    · exact Nat.le_of_lt ((List.pairwise_cons.1 hpl).1 b hbm)

/-- **C38**, exactly: on every tree over scanned tokens `get_text` looks at the first and the last childless node.  If one of
them is an empty rule node the text is empty; otherwise, if the last one is `_STOP`, it panics; otherwise it returns the
source from the first one to the last one. -/
theorem C38_exact (hok : LexerOk ms names) (toks : List Token) (l : Lexer)
    (h : Scans Lexer.scan (Lexer.new ms names input) toks l) (r : RuleContext) (hs : r.toAst.leaves.Sublist toks) :
    r.getText input =
      match r.toAst.tips.head?.bind Ast.tipToken, r.toAst.tips.getLast?.bind Ast.tipToken with
      | some a, some b =>
        if b.tokenType = 1 then .error .panic
        else .ok (covered ((toks.take (b.tokenIndex + 1)).drop a.tokenIndex))
      | _, _ => .ok [] := by
  obtain ⟨h1, h2, -⟩ := C37_exact r
  rw [← h1, ← h2]
  have h0 : slice input 0 0 = .ok [] := by cases input <;> simp [slice, dropBytes, takeBytes]
  unfold RuleContext.getText
  cases ha : r.getStartToken with
  | none => exact h0
  | some a =>
    cases hb : r.getStopToken with
    | none => exact h0
    | some b =>
      have ha' := (C37_sound r a).1 ha
      have hb' := (C37_sound r b).2.1 hb
      obtain ⟨hidx, hstop, -⟩ := C31_end_token hok toks l h
      have hle := head_before_last hs hidx ha' hb'
      have ham := hs.subset (List.mem_of_mem_head? ha')
      have hbm := hs.subset (List.mem_of_getLast? hb')
      obtain ⟨i, hi⟩ := List.getElem?_of_mem ham
      obtain ⟨j, hj⟩ := List.getElem?_of_mem hbm
      obtain rfl := hidx i a hi
      obtain rfl := hidx j b hj
      dsimp only
      by_cases hbs : b.tokenType = 1
      · rw [if_pos hbs]
        exact slice_beyond (by have := (C34_stop_token_outside hok toks l h b hbm hbs).2.1; omega)
      · rw [if_neg hbs]
        refine slice_tokens hok toks l h hle hi hj (fun has => hbs ?_) hbs
        have hlen := (hstop _ a hi has).1
        have hjl := (List.getElem?_eq_some_iff.1 hj).1
        have : a.tokenIndex = b.tokenIndex := by omega
        rw [← this, hi] at hj
        cases hj
        exact has

/-- scanned tokens are not empty -/
theorem token_text_ne_nil (hok : LexerOk ms names) (toks : List Token) (l : Lexer)
    (h : Scans Lexer.scan (Lexer.new ms names input) toks l) {a : Token} (ha : a ∈ toks) : a.text ≠ [] := by
  have key : ∀ done body, TokensOf ms names input done body → a ∈ body → a.text ≠ [] := by
    intro done body hb ham
    obtain ⟨i, hi⟩ := List.getElem?_of_mem ham
    obtain ⟨before, u, v, k, name, -, -, hw, -, rfl⟩ := hb.get hi
    intro (e : u = [])
    have := hw.pos
    rw [e] at this
    simp [byteLen] at this
  rcases scans_cases hok h with ⟨done, rest, ht, -⟩ | ⟨body, hb, rfl, -⟩
  · exact key _ _ ht ha
  · rcases List.mem_append.1 ha with ha | ha
    · exact key _ _ hb ha
    · rw [List.mem_singleton.1 ha]
      simp [stopToken]

/-- **C38**, exactly when it holds: for a tree over scanned tokens with leaves `a`, …, `b`, the first of which is not `_STOP`,
`get_text` is the source from `a` to `b` iff the first and the last childless node are leaves and the last one is not
`_STOP`. -/
theorem C38_text_iff (hok : LexerOk ms names) (toks : List Token) (l : Lexer)
    (h : Scans Lexer.scan (Lexer.new ms names input) toks l) (r : RuleContext) (hs : r.toAst.leaves.Sublist toks)
    (a b : Token) (ha : r.toAst.leaves.head? = some a) (hb : r.toAst.leaves.getLast? = some b) (ha1 : a.tokenType ≠ 1) :
    r.getText input = .ok (covered ((toks.take (b.tokenIndex + 1)).drop a.tokenIndex)) ↔
      (∃ x ∈ r.toAst.tips.head?, x.tipToken.isSome) ∧ (∃ x ∈ r.toAst.tips.getLast?, x.tipToken.isSome) ∧
        b.tokenType ≠ 1 := by
  obtain ⟨h1, h2, -⟩ := C37_exact r
  have hse : ∀ o : Option Ast, (∃ x ∈ o, x.tipToken.isSome) ↔ (o.bind Ast.tipToken).isSome := by
    intro o
    cases o <;> simp
  rw [hse, hse, ← h1, ← h2, C38_exact hok toks l h r hs, ← h1, ← h2]
  have hne : covered ((toks.take (b.tokenIndex + 1)).drop a.tokenIndex) ≠ [] := by
    obtain ⟨hidx, -, -⟩ := C31_end_token hok toks l h
    have hle := head_before_last hs hidx ha hb
    have ham := hs.subset (List.mem_of_mem_head? ha)
    obtain ⟨i, hi⟩ := List.getElem?_of_mem ham
    obtain rfl := hidx i a hi
    have hm : a ∈ (toks.take (b.tokenIndex + 1)).drop a.tokenIndex := by
      refine List.mem_of_getElem? (i := 0) ?_
      rw [List.getElem?_drop, List.getElem?_take, if_pos (by omega)]
      exact hi
    have ht := token_text_ne_nil hok toks l h ham
    intro he
    rw [covered, List.flatten_eq_nil_iff] at he
    exact ht (he _ (List.mem_map.2 ⟨a, List.mem_filter.2 ⟨hm, by simpa using ha1⟩, rfl⟩))
  cases hx : r.getStartToken with
  | none => simpa using hne
  | some x =>
    cases hy : r.getStopToken with
    | none => simpa using hne
    | some y =>
      have hx' := (C37_sound r x).1 hx
      have hy' := (C37_sound r y).2.1 hy
      rw [ha] at hx'
      rw [hb] at hy'
      cases hx'
      cases hy'
      by_cases h1 : b.tokenType = 1 <;> simp [h1]

/-- non-vacuity: the three cases occur in trees of the parser, the first two for the inputs of `C38_text_lost` and
`C38_stop_leaf_panics` -/
example :
    pipeline emptyFirst emptyFirstOrder "abc".toList (fun r _ =>
      .ok (r.toAst.tips.head?.map fun x => x.tipToken.isSome)) = .ok (some false) ∧
    pipeline twoRefs twoRefsOrder "ab".toList (fun r _ =>
      .ok (r.toAst.tips.getLast?.map fun x => x.tipToken.map Token.tokenType)) = .ok (some (some 1)) ∧
    pipeline twoRefs twoRefsOrder " ab  cd".toList (fun r _ =>
      .ok (r.toAst.tips.map fun x => x.tipToken.map Token.tokenIndex)) = .ok [some 1, some 3] := by
  decide +kernel

/-- **C38** for the lexer and the parser together: there are tokens `all` (the scanned ones, with white space) such that
whatever rule is parsed with whatever table, the text of the result is the one of `C38_exact`. -/
theorem C38_parsed (hok : LexerOk ms names) (whiteSpace : Nat) :
    ∃ all toks p l' n, covered all <+: input ∧
      (∀ fuel, n ≤ fuel → Lexer.scanAll whiteSpace 0 fuel (Lexer.new ms names input) = .ok (toks, p, l')) ∧
      ∀ (ps : Parser) (A fuel : Nat) (r : RuleContext) (log : MismatchLog), ps.tokens = toks →
        ps.parseRule A fuel = .ok (r, log) →
        r.getText input =
          match r.toAst.tips.head?.bind Ast.tipToken, r.toAst.tips.getLast?.bind Ast.tipToken with
          | some a, some b =>
            if b.tokenType = 1 then .error .panic
            else .ok (covered ((all.take (b.tokenIndex + 1)).drop a.tokenIndex))
          | _, _ => .ok [] := by
  obtain ⟨out, rem, toks, l', n, -, h2, -, h4⟩ := C32_scan_all (input := input) hok whiteSpace 0
  obtain ⟨rest, hr, -⟩ := C29_lossless hok toks l' h2
  refine ⟨toks, _, _, l', n, ⟨rest, hr.symm⟩, fun fuel hf => h4 fuel hf, ?_⟩
  intro ps A fuel r log hp hr
  obtain ⟨k, -, hl⟩ := C18_leaves_are_consumed_tokens ps A fuel r log hr
  refine C38_exact hok toks l' h2 r ?_
  rw [hl, hp, if_pos rfl]
  exact (List.take_sublist _ _).trans List.filter_sublist

end Syntaxis
