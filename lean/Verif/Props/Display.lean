import Verif.Model.Display
import Verif.Spec.Display
import Verif.Spec.Cfg
import Verif.Props.Drawer
import Verif.Props.Vocabulary
import Verif.Props.Ast

/-!
# C71, C72: printed trees, tokens and grammars
-/

namespace Syntaxis
open Vocabulary

/-! ## cutting texts -/

/-- two texts with the same first separator -/
theorem cut_first {c : Char} : ∀ {x x' s s' : Str}, c ∉ x → c ∉ x' → x ++ c :: s = x' ++ c :: s' → x = x' ∧ s = s'
  | [], [], s, s', _, _, h => by simpa using h
  | [], a :: x', s, s', _, hx', h => by
    simp only [List.nil_append, List.cons_append, List.cons.injEq] at h
    exact absurd (h.1 ▸ List.mem_cons_self) hx'
  | a :: x, [], s, s', hx, _, h => by
    simp only [List.nil_append, List.cons_append, List.cons.injEq] at h
    exact absurd (h.1 ▸ List.mem_cons_self) hx
  | a :: x, b :: x', s, s', hx, hx', h => by
    simp only [List.cons_append, List.cons.injEq] at h
    obtain ⟨h1, h2⟩ := cut_first (fun hm => hx (List.mem_cons_of_mem _ hm)) (fun hm => hx' (List.mem_cons_of_mem _ hm)) h.2
    exact ⟨by rw [h.1, h1], h2⟩

/-- two texts with the same last separator -/
theorem cut_last {c : Char} {x x' s s' : Str} (hs : c ∉ s) (hs' : c ∉ s') (h : x ++ c :: s = x' ++ c :: s') :
    x = x' ∧ s = s' := by
  have h := congrArg List.reverse h
  simp only [List.reverse_append, List.reverse_cons, List.append_assoc, List.singleton_append] at h
  obtain ⟨h1, h2⟩ := cut_first (by simpa using hs) (by simpa using hs') h
  exact ⟨List.reverse_injective h2, List.reverse_injective h1⟩

theorem natToString_digit {n : Nat} {c : Char} (h : c ∈ natToString n) : c.isDigit = true :=
  Nat.isDigit_of_mem_toDigits (by omega) (by omega) h

theorem natToString_inj {m n : Nat} (h : natToString m = natToString n) : m = n := by
  have h1 := readDec_repr m
  have h2 := readDec_repr n
  rw [Nat.toList_repr] at h1 h2
  rw [← h1, ← h2]
  exact congrArg readDec h

theorem natToString_no (n : Nat) {c : Char} (hc : c.isDigit = false) : c ∉ natToString n := fun h => by
  rw [natToString_digit h] at hc
  cases hc

/-- two texts followed by nothing or by a space -/
theorem cut_head {x x' s s' : Str} (hx : ' ' ∉ x) (hx' : ' ' ∉ x') (hs : s = [] ∨ s.head? = some ' ')
    (hs' : s' = [] ∨ s'.head? = some ' ') (h : x ++ s = x' ++ s') : x = x' ∧ s = s' := by
  have key : ∀ s : Str, (s = [] ∨ s.head? = some ' ') → s = [] ∨ ∃ t, s = ' ' :: t := by
    intro s hs
    rcases hs with hs | hs
    · exact .inl hs
    · cases s with
      | nil => exact .inl rfl
      | cons c t => simp only [List.head?_cons, Option.some.injEq] at hs; exact .inr ⟨t, by rw [hs]⟩
  rcases key s hs with rfl | ⟨t, rfl⟩ <;> rcases key s' hs' with rfl | ⟨t', rfl⟩
  · simpa using h
  · exact absurd (by rw [List.append_nil] at h; rw [h]; simp) hx
  · exact absurd (by rw [List.append_nil] at h; rw [← h]; simp) hx'
  · obtain ⟨h1, h2⟩ := cut_first hx hx' h
    exact ⟨h1, by rw [h2]⟩

/-! ## C71: trees -/

mutual
theorem display_cut : ∀ {t t' : Ast} {r r' : Str}, t.PlainNames → t'.PlainNames → r.head? ≠ some '(' →
    r'.head? ≠ some '(' → t.display ++ ' ' :: r = t'.display ++ ' ' :: r' → t.outline = t'.outline ∧ r = r'
  | .terminal a, .terminal b, r, r', h, h', _, _, e => by
    obtain ⟨h1, h2⟩ := cut_first h.1 h'.1 e
    exact ⟨by simp only [Ast.outline, h1], h2⟩
  | .terminal a, .error b, r, r', h, h', _, _, e => by
    obtain ⟨h1, h2⟩ := cut_first h.1 h'.1 e
    exact ⟨by simp only [Ast.outline, h1], h2⟩
  | .error a, .terminal b, r, r', h, h', _, _, e => by
    obtain ⟨h1, h2⟩ := cut_first h.1 h'.1 e
    exact ⟨by simp only [Ast.outline, h1], h2⟩
  | .error a, .error b, r, r', h, h', _, _, e => by
    obtain ⟨h1, h2⟩ := cut_first h.1 h'.1 e
    exact ⟨by simp only [Ast.outline, h1], h2⟩
  | .terminal a, .rule n i ks, r, r', h, h', hr, _, e => by
    have e : a.tokenName ++ ' ' :: r = n ++ ' ' :: ('(' :: (Ast.displayList ks ++ ')' :: ' ' :: r')) := by
      simpa [Ast.display] using e
    obtain ⟨_, h2⟩ := cut_first h.1 h'.1.1 e
    exact absurd (by rw [h2]; rfl) hr
  | .error a, .rule n i ks, r, r', h, h', hr, _, e => by
    have e : a.tokenName ++ ' ' :: r = n ++ ' ' :: ('(' :: (Ast.displayList ks ++ ')' :: ' ' :: r')) := by
      simpa [Ast.display] using e
    obtain ⟨_, h2⟩ := cut_first h.1 h'.1.1 e
    exact absurd (by rw [h2]; rfl) hr
  | .rule n i ks, .terminal a, r, r', h, h', _, hr', e => by
    have e : n ++ ' ' :: ('(' :: (Ast.displayList ks ++ ')' :: ' ' :: r)) = a.tokenName ++ ' ' :: r' := by
      simpa [Ast.display] using e
    obtain ⟨_, h2⟩ := cut_first h.1.1 h'.1 e
    exact absurd (by rw [← h2]; rfl) hr'
  | .rule n i ks, .error a, r, r', h, h', _, hr', e => by
    have e : n ++ ' ' :: ('(' :: (Ast.displayList ks ++ ')' :: ' ' :: r)) = a.tokenName ++ ' ' :: r' := by
      simpa [Ast.display] using e
    obtain ⟨_, h2⟩ := cut_first h.1.1 h'.1 e
    exact absurd (by rw [← h2]; rfl) hr'
  | .rule n i ks, .rule n' i' ks', r, r', h, h', _, _, e => by
    have e : n ++ ' ' :: ('(' :: (Ast.displayList ks ++ ')' :: ' ' :: r)) =
        n' ++ ' ' :: ('(' :: (Ast.displayList ks' ++ ')' :: ' ' :: r')) := by
      simpa [Ast.display] using e
    obtain ⟨h1, h2⟩ := cut_first h.1.1 h'.1.1 e
    obtain ⟨h3, h4⟩ := displayList_cut h.2 h'.2 (List.cons.inj h2).2
    exact ⟨by simp only [Ast.outline, h1, h3], (List.cons.inj h4).2⟩
theorem displayList_cut : ∀ {ks ks' : List Ast} {r r' : Str}, Ast.PlainNamesAll ks → Ast.PlainNamesAll ks' →
    Ast.displayList ks ++ ')' :: r = Ast.displayList ks' ++ ')' :: r' → Ast.outlines ks = Ast.outlines ks' ∧ r = r'
  | [], [], r, r', _, _, e => ⟨rfl, (List.cons.inj e).2⟩
  | [], k :: ks, r, r', _, h', e => by
    exfalso
    have := displayList_head (k := k) (ks := ks) (r := ')' :: r') h'.1 (c := ')') (by simp)
    rw [← e] at this
    exact this rfl
  | k :: ks, [], r, r', h, _, e => by
    exfalso
    have := displayList_head (k := k) (ks := ks) (r := ')' :: r) h.1 (c := ')') (by simp)
    rw [e] at this
    exact this rfl
  | k :: ks, k' :: ks', r, r', h, h', e => by
    have e : k.display ++ ' ' :: (Ast.displayList ks ++ ')' :: r) = k'.display ++ ' ' :: (Ast.displayList ks' ++ ')' :: r') := by
      simpa [Ast.displayList] using e
    obtain ⟨h1, h2⟩ := display_cut h.1 h'.1 (displayList_noparen h.2) (displayList_noparen h'.2) e
    obtain ⟨h3, h4⟩ := displayList_cut h.2 h'.2 h2
    exact ⟨by simp only [Ast.outlines, h1, h3], h4⟩
theorem displayList_head : ∀ {k : Ast} {ks : List Ast} {r : Str}, k.PlainNames → ∀ {c : Char}, c = '(' ∨ c = ')' →
    (Ast.displayList (k :: ks) ++ r).head? ≠ some c
  | .terminal a, ks, r, h, c, hc => by
    simp only [Ast.displayList, Ast.display]
    cases hn : a.tokenName with
    | nil => rcases hc with rfl | rfl <;> simp
    | cons d n =>
      simp only [Ast.PlainNames, PlainName, hn, List.mem_cons, not_or] at h
      rcases hc with rfl | rfl <;> simp [Ne.symm h.2.1.1, Ne.symm h.2.2.1]
  | .error a, ks, r, h, c, hc => by
    simp only [Ast.displayList, Ast.display]
    cases hn : a.tokenName with
    | nil => rcases hc with rfl | rfl <;> simp
    | cons d n =>
      simp only [Ast.PlainNames, PlainName, hn, List.mem_cons, not_or] at h
      rcases hc with rfl | rfl <;> simp [Ne.symm h.2.1.1, Ne.symm h.2.2.1]
  | .rule n i kids, ks, r, h, c, hc => by
    simp only [Ast.displayList, Ast.display]
    cases n with
    | nil => rcases hc with rfl | rfl <;> simp
    | cons d n =>
      have h := h.1
      simp only [PlainName, List.mem_cons, not_or] at h
      rcases hc with rfl | rfl <;> simp [Ne.symm h.2.1.1, Ne.symm h.2.2.1]
theorem displayList_noparen : ∀ {ks : List Ast} {r : Str}, Ast.PlainNamesAll ks →
    (Ast.displayList ks ++ ')' :: r).head? ≠ some '('
  | [], r, _ => by simp [Ast.displayList]
  | k :: ks, r, h => displayList_head h.1 (.inl rfl)
end

mutual
theorem display_outline : ∀ {t t' : Ast}, t.outline = t'.outline → t.display = t'.display
  | .terminal a, .terminal b, e => by simpa [Ast.outline, Ast.display] using e
  | .terminal a, .error b, e => by simpa [Ast.outline, Ast.display] using e
  | .error a, .terminal b, e => by simpa [Ast.outline, Ast.display] using e
  | .error a, .error b, e => by simpa [Ast.outline, Ast.display] using e
  | .rule n i ks, .rule n' i' ks', e => by
    simp only [Ast.outline, Outline.node.injEq] at e
    simp only [Ast.display, e.1, displayList_outlines e.2]
  | .terminal a, .rule .., e => by simp [Ast.outline] at e
  | .error a, .rule .., e => by simp [Ast.outline] at e
  | .rule .., .terminal a, e => by simp [Ast.outline] at e
  | .rule .., .error a, e => by simp [Ast.outline] at e
theorem displayList_outlines : ∀ {ks ks' : List Ast}, Ast.outlines ks = Ast.outlines ks' →
    Ast.displayList ks = Ast.displayList ks'
  | [], [], _ => rfl
  | [], _ :: _, e => by simp [Ast.outlines] at e
  | _ :: _, [], e => by simp [Ast.outlines] at e
  | k :: ks, k' :: ks', e => by
    simp only [Ast.outlines, List.cons.injEq] at e
    simp only [Ast.displayList, display_outline e.1, displayList_outlines e.2]
end

/-- **C71** two trees whose names have no spaces and parentheses print alike exactly when they have the same
names in the same places. -/
theorem C71_tree_iff (t t' : Ast) (h : t.PlainNames) (h' : t'.PlainNames) :
    t.display = t'.display ↔ t.outline = t'.outline := by
  refine ⟨fun e => ?_, display_outline⟩
  exact (display_cut (r := []) (r' := []) h h' (by simp) (by simp) (by rw [e])).1

theorem wordsFrom_plain {n : Str} (h : PlainName n) (w s : Str) : wordsFrom w (n ++ s) = wordsFrom (w ++ n) s := by
  induction n generalizing w with
  | nil => simp
  | cons c n ih =>
    simp only [PlainName, List.mem_cons, not_or] at h
    rw [List.cons_append, wordsFrom, if_neg (by rintro (e | e | e) <;> simp_all),
      ih ⟨h.1.2, h.2.1.2, h.2.2.2⟩]
    simp

theorem wordsFrom_name {n : Str} (h : PlainName n) (hne : n ≠ []) (s : Str) :
    wordsFrom [] (n ++ ' ' :: s) = n :: wordsFrom [] s := by
  rw [wordsFrom_plain h, List.nil_append, wordsFrom, if_pos (.inl rfl), if_neg hne]
  rfl

mutual
theorem words_display : ∀ {t : Ast} {r : Str}, t.PlainNames → (∀ n ∈ t.outline.names, n ≠ []) →
    wordsFrom [] (t.display ++ ' ' :: r) = t.outline.names ++ wordsFrom [] r
  | .terminal a, r, h, hn => wordsFrom_name h (hn _ List.mem_cons_self) r
  | .error a, r, h, hn => wordsFrom_name h (hn _ List.mem_cons_self) r
  | .rule n i ks, r, h, hn => by
    have e : (Ast.rule n i ks).display ++ ' ' :: r = n ++ ' ' :: ('(' :: (Ast.displayList ks ++ ')' :: ' ' :: r)) := by
      simp [Ast.display]
    rw [e, wordsFrom_name h.1 (hn _ List.mem_cons_self), wordsFrom, if_pos (.inr (.inl rfl)), if_pos rfl, List.nil_append,
      words_displayList h.2 (fun m hm => hn m (List.mem_cons_of_mem _ hm)), wordsFrom, if_pos (.inr (.inr rfl)),
      if_pos rfl, List.nil_append, wordsFrom, if_pos (.inl rfl), if_pos rfl]
    rfl
theorem words_displayList : ∀ {ks : List Ast} {r : Str}, Ast.PlainNamesAll ks →
    (∀ n ∈ Outline.namesAll (Ast.outlines ks), n ≠ []) →
    wordsFrom [] (Ast.displayList ks ++ r) = Outline.namesAll (Ast.outlines ks) ++ wordsFrom [] r
  | [], r, _, _ => rfl
  | k :: ks, r, h, hn => by
    have e : Ast.displayList (k :: ks) ++ r = k.display ++ ' ' :: (Ast.displayList ks ++ r) := by simp [Ast.displayList]
    simp only [Ast.outlines, Outline.namesAll, List.mem_append] at hn ⊢
    rw [e, words_display h.1 (fun m hm => hn m (.inl hm)), words_displayList h.2 (fun m hm => hn m (.inr hm)),
      List.append_assoc]
end

/-- **C71** the words of the printed tree are its names in document order. -/
theorem C71_tree_words (t : Ast) (h : t.PlainNames) (hn : ∀ n ∈ t.outline.names, n ≠ []) :
    wordsFrom [] t.display = t.outline.names := by
  have key : ∀ s : Str, ∀ w, wordsFrom w (s ++ [' ']) = wordsFrom w s := by
    intro s
    induction s with
    | nil => intro w; simp [wordsFrom]
    | cons c s ih => intro w; rw [List.cons_append, wordsFrom, wordsFrom, ih, ih]
  have := words_display (r := []) h hn
  rw [key] at this
  simpa [wordsFrom] using this

/-- non-vacuity: a nested tree, its text, and a different tree that prints differently -/
example :
    let leaf (n : String) : Ast := .terminal (Token.new 2 n.toList [])
    let t := Ast.rule "a".toList 0 [leaf "X", .rule "b".toList 1 [], leaf "Y"]
    let t' := Ast.rule "a".toList 0 [leaf "X", .rule "b".toList 1 [leaf "Y"]]
    t.PlainNames ∧ t'.PlainNames ∧ t.display = "a (X b () Y )".toList ∧ t'.display = "a (X b (Y ) )".toList ∧
      t.outline.names = ["a".toList, "X".toList, "b".toList, "Y".toList] := by
  refine ⟨?_, ?_, by decide +kernel, by decide +kernel, by decide +kernel⟩ <;>
    simp only [Ast.PlainNames, Ast.PlainNamesAll, Token.new] <;> decide

/-- names with spaces and parentheses (as a JSON tree may have) can be confused -/
example :
    let leaf (n : String) : Ast := .terminal (Token.new 2 n.toList [])
    (Ast.rule "a".toList 0 [leaf "X", leaf "Y"]).display = (Ast.rule "a".toList 0 [leaf "X Y"]).display := by
  decide +kernel

/-! ## C71: tokens -/

theorem Position.display_inj {p q : Position} (h : p.display = q.display) : p = q := by
  have h : natToString p.line ++ ',' :: (chars! " position: " ++ natToString p.charPosition) =
      natToString q.line ++ ',' :: (chars! " position: " ++ natToString q.charPosition) := by
    simpa [Position.display] using h
  obtain ⟨h1, h2⟩ := cut_first (natToString_no _ rfl) (natToString_no _ rfl) h
  have h2 := List.append_cancel_left h2
  cases p; cases q
  simp only [Position.mk.injEq]
  exact ⟨natToString_inj h1, natToString_inj h2⟩

theorem Position.display_no (p : Position) : '<' ∉ p.display := by
  simp only [Position.display, List.mem_append, not_or]
  exact ⟨⟨⟨by decide, natToString_no _ rfl⟩, by decide⟩, natToString_no _ rfl⟩

theorem Token.display_eq (t : Token) : t.display =
    '[' :: '@' :: (natToString t.tokenIndex ++ ',' :: ' ' :: (natToString t.charStartIndex ++ ':' ::
      (natToString t.charStopIndex ++ '=' :: '\'' ::
        ((((t.text ++ chars! "', ") ++ '<' :: (t.tokenName ++ chars! ">, ")) ++
          '<' :: (natToString t.tokenType ++ chars! ">, start: ")) ++ '<' :: (t.start.display ++ chars! ">, stop: ") ++
          '<' :: (t.stop.display ++ chars! ">]"))))) := by
  simp [Token.display]

/-- **C71** the text of a token shows everything but its channel: two tokens (whose names have no `<`) print
alike exactly when all other fields are equal, whatever their texts are. -/
theorem C71_token_iff (a b : Token) (ha : '<' ∉ a.tokenName) (hb : '<' ∉ b.tokenName) :
    a.display = b.display ↔ a = { b with channel := a.channel } := by
  constructor
  · intro h
    rw [Token.display_eq, Token.display_eq] at h
    obtain ⟨h1, h⟩ := cut_first (natToString_no _ rfl) (natToString_no _ rfl) (List.cons.inj (List.cons.inj h).2).2
    obtain ⟨h2, h⟩ := cut_first (natToString_no _ rfl) (natToString_no _ rfl) (List.cons.inj h).2
    obtain ⟨h3, h⟩ := cut_first (natToString_no _ rfl) (natToString_no _ rfl) h
    have hq : ∀ p : Position, ∀ s : Str, '<' ∉ s → '<' ∉ p.display ++ s := fun p s hs hm =>
      (List.mem_append.1 hm).elim p.display_no hs
    obtain ⟨h, h4⟩ := cut_last (hq _ _ (by decide)) (hq _ _ (by decide)) (List.cons.inj h).2
    obtain ⟨h, h5⟩ := cut_last (hq _ _ (by decide)) (hq _ _ (by decide)) h
    have hd : ∀ n : Nat, ∀ s : Str, '<' ∉ s → '<' ∉ natToString n ++ s := fun n s hs hm =>
      (List.mem_append.1 hm).elim (natToString_no _ rfl) hs
    obtain ⟨h, h6⟩ := cut_last (hd _ _ (by decide)) (hd _ _ (by decide)) h
    have hn : ∀ n : Str, '<' ∉ n → '<' ∉ n ++ chars! ">, " := fun n hn hm =>
      (List.mem_append.1 hm).elim hn (by decide)
    obtain ⟨h7, h8⟩ := cut_last (hn _ ha) (hn _ hb) h
    have h4 := Position.display_inj (List.append_cancel_right h4)
    have h5 := Position.display_inj (List.append_cancel_right h5)
    have h6 := natToString_inj (List.append_cancel_right h6)
    have h7 := List.append_cancel_right h7
    have h8 := List.append_cancel_right h8
    cases a; cases b
    simp only [Token.mk.injEq, true_and, and_true]
    exact ⟨h6, h8, h5, h4, h7, natToString_inj h1, natToString_inj h2, natToString_inj h3⟩
  · intro h
    rw [h]
    rfl

/-- non-vacuity: a text made to look like the rest of the line -/
example :
    let a := Token.new 2 "A".toList "x', <B>, <3>, start: <line: 0, position: 0>, stop: <line: 0, position: 0>]".toList
    let b := Token.new 3 "B".toList "x".toList
    '<' ∉ a.tokenName ∧ '<' ∉ b.tokenName ∧ a.display ≠ b.display := by decide +kernel

example : ({ Token.new 2 "A".toList "x".toList with tokenIndex := 3, charStopIndex := 1, stop := ⟨0, 1⟩ } : Token).display =
    "[@3, 0:1='x', <A>, <2>, start: <line: 0, position: 0>, stop: <line: 0, position: 1>]".toList := by decide +kernel

/-- **C71** the tokens of one scan (whose names have no `<`) are printed as pairwise different texts. -/
theorem C71_scanned_distinct {ms : List Matcher} {names : List Str} {input : Str} (hok : LexerOk ms names)
    (hn : ∀ n ∈ names, '<' ∉ n) (toks : List Token) (l : Lexer)
    (h : Scans Lexer.scan (Lexer.new ms names input) toks l) : (toks.map Token.display).Nodup := by
  obtain ⟨hidx, _, _⟩ := C31_end_token hok toks l h
  have hname : ∀ t ∈ toks, '<' ∉ t.tokenName := by
    intro t ht
    rcases scans_cases hok h with ⟨done, rest, hto, ha⟩ | ⟨body, hb, rfl, _, _⟩
    · obtain ⟨j, hj⟩ := List.getElem?_of_mem ht
      obtain ⟨before, u, v, i, name, h1, h2, h3, h4, rfl⟩ := hto.get hj
      exact hn _ (List.mem_of_getElem? h4)
    · rcases List.mem_append.1 ht with ht | ht
      · obtain ⟨j, hj⟩ := List.getElem?_of_mem ht
        obtain ⟨before, u, v, i, name, h1, h2, h3, h4, rfl⟩ := hb.get hj
        exact hn _ (List.mem_of_getElem? h4)
      · rw [List.mem_singleton.1 ht]
        exact (by decide : '<' ∉ "_STOP".toList)
  rw [List.nodup_iff_pairwise_ne, List.pairwise_map, List.pairwise_iff_getElem]
  intro i j hi hj hij e
  have e := (C71_token_iff _ _ (hname _ (List.getElem_mem hi)) (hname _ (List.getElem_mem hj))).1 e
  have h1 := hidx i _ (List.getElem?_eq_getElem hi)
  have h2 := hidx j _ (List.getElem?_eq_getElem hj)
  rw [e] at h1
  have h1 : toks[j].tokenIndex = i := h1
  omega

/-- non-vacuity: the names of the two lexers, and a scan with the v1 lexer -/
example (digit : Char → Bool) : LexerOk ((V1.regexes digit).map Regex.find) V1.tokenNames ∧
    (∀ n ∈ V1.tokenNames, '<' ∉ n) ∧ (∀ n ∈ Old.tokenNames, '<' ∉ n) := ⟨v1_ok digit, by decide +kernel, by decide +kernel⟩

example : ((V1.lexer isDigit09 "ab\n:".toList).scan.bind fun r => r.2.scan.bind fun r' => r'.2.scan.map
    fun r'' => (r.1.map Token.display, r''.1.map Token.display)) =
    .ok (some "[@0, 0:2='ab', <RULE_REF>, <2>, start: <line: 0, position: 0>, stop: <line: 0, position: 2>]".toList,
      some "[@2, 3:4=':', <COLON>, <4>, start: <line: 1, position: 0>, stop: <line: 1, position: 1>]".toList) := by
  decide +kernel

/-- **C38**, for leaves: the text of a leaf is the text that a node with this leaf alone gives, for every
scanned token.  Missing (false): `_STOP`, `C38_stop_leaf_panics`. -/
theorem C38_leaf_text_partial {ms : List Matcher} {names : List Str} {input : Str} (hok : LexerOk ms names)
    (toks : List Token) (l : Lexer) (h : Scans Lexer.scan (Lexer.new ms names input) toks l) (tok : Token)
    (hm : tok ∈ toks) (hs : tok.tokenType ≠ 1) (name : Str) (idx : Nat) :
    RuleContext.getText ⟨name, [.terminal tok], idx⟩ input = .ok (terminalGetText tok) ∧
    RuleContext.getText ⟨name, [.error tok], idx⟩ input = .ok (errorGetText tok) := by
  obtain ⟨j, hj⟩ := List.getElem?_of_mem hm
  have := (C29_offsets hok toks l h j tok hj hs).2.2
  exact ⟨this, this⟩

/-! ## C72: grammars -/

theorem withDefault_inj {v : Vocabulary} (hv : VInv v) (hn : PrintableNames v) {i j : Nat}
    (h : v.getNonterminalNameWithDefault i = v.getNonterminalNameWithDefault j) : i = j := by
  unfold getNonterminalNameWithDefault at h
  cases hi : v.ntIdToName.get i with
  | none =>
    cases hj : v.ntIdToName.get j with
    | none => rw [hi, hj] at h; exact natToString_inj h
    | some n =>
      rw [hi, hj] at h
      obtain ⟨c, hc, hd⟩ := (hn.rule j n hj).2.2
      exact absurd (show c ∈ natToString i from (show natToString i = n from h) ▸ hc) (natToString_no i hd)
  | some n =>
    cases hj : v.ntIdToName.get j with
    | none =>
      rw [hi, hj] at h
      obtain ⟨c, hc, hd⟩ := (hn.rule i n hi).2.2
      exact absurd (show c ∈ natToString j from (show n = natToString j from h) ▸ hc) (natToString_no j hd)
    | some m =>
      rw [hi, hj] at h
      have h : n = m := h
      subst h
      have h1 := (hv.n_inv _ _).2 hi
      have h2 := (hv.n_inv _ _).2 hj
      rw [h1] at h2
      exact Option.some.inj h2

theorem withDefault_no {v : Vocabulary} (hn : PrintableNames v) (i : Nat) :
    ' ' ∉ v.getNonterminalNameWithDefault i ∧ ';' ∉ v.getNonterminalNameWithDefault i ∧
      v.getNonterminalNameWithDefault i ≠ [] := by
  unfold getNonterminalNameWithDefault
  cases hi : v.ntIdToName.get i with
  | none =>
    refine ⟨natToString_no _ rfl, natToString_no _ rfl, fun h => ?_⟩
    have : (Nat.toDigits 10 i).length = 0 := congrArg List.length h
    have h0 := Nat.length_toDigits_pos (b := 10) (n := i)
    omega
  | some n =>
    obtain ⟨h1, h2, c, hc, _⟩ := hn.rule i n hi
    exact ⟨h1, h2, List.ne_nil_of_mem hc⟩

/-- the text of a right side -/
def rightText (v : Vocabulary) : List Item → Res Str
  | [] => .ok []
  | .nt id :: rest => do
    let s ← rightText v rest
    .ok (v.getNonterminalNameWithDefault id ++ s)
  | .t id :: rest => do
    let name ← v.getTerminalName id
    let s ← rightText v rest
    .ok (' ' :: (name ++ s))

/-- the line of a production -/
def lineText (v : Vocabulary) (p : Production) : Res Str := do
  let s ← rightText v p.right
  .ok (v.getNonterminalNameWithDefault p.left ++ ' ' :: '-' :: '>' :: (s ++ [';', '\n']))

theorem displayRight_eq (v : Vocabulary) : ∀ (r : List Item) (out : Str),
    Grammar.displayRight v r out = (rightText v r).map (out ++ ·)
  | [], out => by simp [Grammar.displayRight, rightText, Except.map]
  | .nt id :: rest, out => by
    rw [Grammar.displayRight, displayRight_eq v rest, rightText]
    cases rightText v rest <;> simp [Except.map, bind, Except.bind]
  | .t id :: rest, out => by
    rw [Grammar.displayRight, rightText]
    cases v.getTerminalName id with
    | error e => rfl
    | ok name =>
      simp only [bind_ok]
      rw [displayRight_eq v rest]
      cases rightText v rest <;> simp [Except.map, bind, Except.bind]

theorem displayLoop_eq (v : Vocabulary) : ∀ (ps : List Production) (out : Str),
    Grammar.displayLoop v ps out = (ps.mapM (lineText v)).map (fun ls => out ++ ls.flatten)
  | [], out => by simp [Grammar.displayLoop, Except.map, pure, Except.pure]
  | p :: ps, out => by
    rw [Grammar.displayLoop, displayRight_eq, List.mapM_cons, lineText]
    cases hr : rightText v p.right with
    | error e => rfl
    | ok s =>
      simp only [Except.map, bind_ok]
      rw [displayLoop_eq v ps]
      cases ps.mapM (lineText v) <;> simp [Except.map, bind, Except.bind, pure, Except.pure]

theorem display_eq (g : Grammar) (ord : List Production) :
    g.display ord = (ord.mapM (lineText g.vocabulary)).map List.flatten := by
  rw [Grammar.display, displayLoop_eq]
  cases ord.mapM (lineText g.vocabulary) <;> simp [Except.map]

/-- the items of a right side are registered tokens or rules -/
theorem rightText_ok {v : Vocabulary} (hv : VInv v) : ∀ (r : List Item),
    (∃ s, rightText v r = .ok s) ↔ ∀ a, Item.t a ∈ r → v.isTerminalId a = true
  | [] => by simp [rightText]
  | .nt id :: rest => by
    have ih := rightText_ok hv rest
    simp only [List.mem_cons, reduceCtorEq, false_or, ← ih, rightText]
    constructor
    · rintro ⟨s, h⟩
      cases hr : rightText v rest with
      | error e => rw [hr] at h; cases h
      | ok s' => exact ⟨s', rfl⟩
    · rintro ⟨s, h⟩
      exact ⟨_, by rw [h]; rfl⟩
  | .t id :: rest => by
    have ih := rightText_ok hv rest
    have hid : v.isTerminalId id = true ↔ ∃ n, v.getTerminalName id = .ok n := by
      simp only [isTerminalId, getTerminalName, decide_eq_true_eq, hv.t_mem, unwrap_eq_ok]
    simp only [List.mem_cons, Item.t.injEq, forall_eq_or_imp, hid, ← ih, rightText]
    constructor
    · rintro ⟨s, h⟩
      cases hn : v.getTerminalName id with
      | error e => rw [hn] at h; cases h
      | ok n =>
        cases hr : rightText v rest with
        | error e => rw [hn, hr] at h; cases h
        | ok s' => exact ⟨⟨n, rfl⟩, ⟨s', rfl⟩⟩
    · rintro ⟨⟨n, hn⟩, s, h⟩
      exact ⟨_, by rw [hn, h]; rfl⟩

theorem rightText_panic {v : Vocabulary} {e : Fault} : ∀ {r : List Item}, rightText v r = .error e → e = .panic
  | [], h => by cases h
  | .nt id :: rest, h => by
    rw [rightText] at h
    cases hr : rightText v rest with
    | error e' => rw [hr] at h; cases h; exact rightText_panic hr
    | ok s => rw [hr] at h; cases h
  | .t id :: rest, h => by
    rw [rightText] at h
    cases hn : v.getTerminalName id with
    | error e' =>
      rw [hn] at h
      cases h
      unfold getTerminalName unwrap at hn
      split at hn <;> cases hn
      rfl
    | ok n =>
      cases hr : rightText v rest with
      | error e' => rw [hn, hr] at h; cases h; exact rightText_panic hr
      | ok s => rw [hn, hr] at h; cases h

theorem mapM_lines_ok {v : Vocabulary} : ∀ (ps : List Production),
    (∃ ls, ps.mapM (lineText v) = .ok ls) ↔ ∀ p ∈ ps, ∃ s, rightText v p.right = .ok s
  | [] => by simp [pure, Except.pure]
  | p :: ps => by
    have ih := mapM_lines_ok (v := v) ps
    simp only [List.mem_cons, forall_eq_or_imp, ← ih, List.mapM_cons, lineText]
    constructor
    · rintro ⟨ls, h⟩
      cases hr : rightText v p.right with
      | error e => rw [hr] at h; cases h
      | ok s =>
        cases hm : ps.mapM (lineText v) with
        | error e => rw [hr, hm] at h; cases h
        | ok ls' => exact ⟨⟨s, rfl⟩, ls', rfl⟩
    · rintro ⟨⟨s, hs⟩, ls, hl⟩
      exact ⟨_, by rw [hs, hl]; rfl⟩

theorem mapM_lines_panic {v : Vocabulary} {e : Fault} : ∀ {ps : List Production},
    ps.mapM (lineText v) = .error e → e = .panic
  | [], h => by cases h
  | p :: ps, h => by
    rw [List.mapM_cons, lineText] at h
    cases hr : rightText v p.right with
    | error e' => rw [hr] at h; cases h; exact rightText_panic hr
    | ok s =>
      cases hm : ps.mapM (lineText v) with
      | error e' => rw [hr, hm] at h; cases h; exact mapM_lines_panic hm
      | ok ls => rw [hr, hm] at h; cases h

/-- **C72** printing a grammar succeeds exactly when every token of its right sides is registered, and panics
otherwise (after having written a part). -/
theorem C72_total (ops : List VOp) (g : Grammar) (hg : g.vocabulary = runOps Vocabulary.new ops)
    (ord : List Production) :
    ((∃ s, g.display ord = .ok s) ↔ ∀ p ∈ ord, ∀ a, Item.t a ∈ p.right → g.vocabulary.isTerminalId a = true) ∧
    ((∀ s, g.display ord ≠ .ok s) → g.display ord = .error .panic) := by
  have hv : VInv g.vocabulary := hg ▸ vinv_reachable ops
  rw [display_eq]
  constructor
  · simp only [← rightText_ok hv, ← mapM_lines_ok]
    cases ord.mapM (lineText g.vocabulary) <;> simp [Except.map]
  · intro h
    cases hm : ord.mapM (lineText g.vocabulary) with
    | error e => rw [mapM_lines_panic hm]; rfl
    | ok ls => rw [hm] at h; exact absurd rfl (h _)

theorem mapM_perm {v : Vocabulary} {ps qs : List Production} (h : ps.Perm qs) :
    ∀ ls, ps.mapM (lineText v) = .ok ls → ∃ ls', qs.mapM (lineText v) = .ok ls' ∧ ls.Perm ls' := by
  induction h with
  | nil => intro ls h; exact ⟨ls, h, .refl _⟩
  | cons p _ ih =>
    intro ls h
    rw [List.mapM_cons] at h ⊢
    obtain ⟨s, hs, h⟩ := bind_eq_ok.1 h
    obtain ⟨ls1, h1, h⟩ := bind_eq_ok.1 h
    obtain ⟨ls2, h2, h3⟩ := ih _ h1
    cases h
    exact ⟨s :: ls2, by rw [hs, h2]; rfl, h3.cons _⟩
  | swap p q ps =>
    intro ls h
    rw [List.mapM_cons, List.mapM_cons] at h ⊢
    obtain ⟨s, hs, h⟩ := bind_eq_ok.1 h
    obtain ⟨ls1, h1, h⟩ := bind_eq_ok.1 h
    obtain ⟨s', hs', h1⟩ := bind_eq_ok.1 h1
    obtain ⟨ls2, h2, h1⟩ := bind_eq_ok.1 h1
    cases h; cases h1
    exact ⟨s' :: s :: ls2, by rw [hs, hs', h2]; rfl, .swap ..⟩
  | trans _ _ ih1 ih2 =>
    intro ls h
    obtain ⟨l1, h1, p1⟩ := ih1 _ h
    obtain ⟨l2, h2, p2⟩ := ih2 _ h1
    exact ⟨l2, h2, p1.trans p2⟩

theorem mapM_length {v : Vocabulary} : ∀ {ps : List Production} {ls : List Str},
    ps.mapM (lineText v) = .ok ls → ls.length = ps.length
  | [], ls, h => by cases h; rfl
  | p :: ps, ls, h => by
    rw [List.mapM_cons] at h
    obtain ⟨s, hs, h⟩ := bind_eq_ok.1 h
    obtain ⟨ls1, h1, h⟩ := bind_eq_ok.1 h
    cases h
    simp [mapM_length h1]

/-- **C72** whatever the order in which the hash set is enumerated, the same lines are printed, one per
production, each ended by `;` and a line feed. -/
theorem C72_lines (g : Grammar) (o o' : Grammar.IterOrder g) (s : Str) (h : g.display o.ord = .ok s) :
    ∃ ls ls' : List Str, s = ls.flatten ∧ g.display o'.ord = .ok ls'.flatten ∧ ls.Perm ls' ∧
      ls.length = g.productions.length ∧ ∀ l ∈ ls, ∃ b, l = b ++ [';', '\n'] := by
  rw [display_eq] at h
  cases hm : o.ord.mapM (lineText g.vocabulary) with
  | error e => rw [hm] at h; cases h
  | ok ls =>
    rw [hm] at h
    cases h
    obtain ⟨ls', h1, h2⟩ := mapM_perm (o.ord_perm.trans o'.ord_perm.symm) ls hm
    refine ⟨ls, ls', rfl, by rw [display_eq, h1]; rfl, h2, by rw [mapM_length hm, o.ord_perm.length_eq], ?_⟩
    clear h1 h2
    generalize o.ord = ps at hm
    induction ps generalizing ls with
    | nil => cases hm; simp
    | cons p ps ih =>
      rw [List.mapM_cons] at hm
      obtain ⟨t, ht, hm⟩ := bind_eq_ok.1 hm
      obtain ⟨ls1, h1, hm⟩ := bind_eq_ok.1 hm
      cases hm
      intro l hl
      rcases List.mem_cons.1 hl with rfl | hl
      · obtain ⟨u, _, hu⟩ := bind_eq_ok.1 ht
        cases hu
        exact ⟨g.vocabulary.getNonterminalNameWithDefault p.left ++ ' ' :: '-' :: '>' :: u, by simp⟩
      · exact ih _ h1 l hl

/-- right sides made of tokens -/
theorem tokens_cut {v : Vocabulary} (hv : VInv v) (hn : PrintableNames v) : ∀ {r r' : List Item} {s s' : Str},
    (∀ B, Item.nt B ∉ r) → (∀ B, Item.nt B ∉ r') → rightText v r = .ok s → rightText v r' = .ok s' →
    (s = [] ∨ s.head? = some ' ') ∧ ';' ∉ s ∧ (s = s' → r = r')
  | .nt B :: _, _, _, _, h, _, _, _ => absurd List.mem_cons_self (h B)
  | _, .nt B :: _, _, _, _, h, _, _ => absurd List.mem_cons_self (h B)
  | [], [], s, s', _, _, h, h' => by cases h; simp
  | [], .t a :: r', s, s', _, _, h, h' => by
    cases h
    rw [rightText] at h'
    obtain ⟨n, _, h'⟩ := bind_eq_ok.1 h'
    obtain ⟨u, _, h'⟩ := bind_eq_ok.1 h'
    cases h'
    simp
  | .t a :: r, [], s, s', hr, _, h, h' => by
    cases h'
    rw [rightText] at h
    obtain ⟨n, hna, h⟩ := bind_eq_ok.1 h
    obtain ⟨u, hu, h⟩ := bind_eq_ok.1 h
    cases h
    have hna' := hn.token a n (unwrap_eq_ok.1 hna)
    have ih := tokens_cut hv hn (r := r) (r' := []) (fun B hB => hr B (List.mem_cons_of_mem _ hB)) (by simp) hu rfl
    refine ⟨.inr rfl, ?_, by simp⟩
    simp only [List.mem_cons, List.mem_append, not_or]
    exact ⟨by decide, hna'.2, ih.2.1⟩
  | .t a :: r, .t a' :: r', s, s', hr, hr', h, h' => by
    rw [rightText] at h h'
    obtain ⟨n, hna, h⟩ := bind_eq_ok.1 h
    obtain ⟨u, hu, h⟩ := bind_eq_ok.1 h
    obtain ⟨n', hna', h'⟩ := bind_eq_ok.1 h'
    obtain ⟨u', hu', h'⟩ := bind_eq_ok.1 h'
    cases h; cases h'
    have h1 := hn.token a n (unwrap_eq_ok.1 hna)
    have h2 := hn.token a' n' (unwrap_eq_ok.1 hna')
    have hr := fun B (hB : Item.nt B ∈ r) => hr B (List.mem_cons_of_mem _ hB)
    have hr' := fun B (hB : Item.nt B ∈ r') => hr' B (List.mem_cons_of_mem _ hB)
    have ih := tokens_cut hv hn hr hr' hu hu'
    have ih' := tokens_cut hv hn hr' hr hu' hu
    refine ⟨.inr rfl, ?_, fun e => ?_⟩
    · simp only [List.mem_cons, List.mem_append, not_or]
      exact ⟨by decide, h1.2, ih.2.1⟩
    · obtain ⟨rfl, e2⟩ := cut_head h1.1 h2.1 ih.1 ih'.1 (List.cons.inj e).2
      have e1 : a = a' := by
        have x1 := (hv.t_inv _ _).2 (unwrap_eq_ok.1 hna)
        have x2 := (hv.t_inv _ _).2 (unwrap_eq_ok.1 hna')
        rw [x1] at x2
        exact Option.some.inj x2
      rw [e1, ih.2.2 e2]
termination_by r r' => r.length + r'.length

/-- right sides with at most one rule, in front -/
theorem right_cut {v : Vocabulary} (hv : VInv v) (hn : PrintableNames v) {r r' : List Item} {s s' : Str}
    (hr : ∀ B, Item.nt B ∉ r.tail) (hr' : ∀ B, Item.nt B ∉ r'.tail) (h : rightText v r = .ok s)
    (h' : rightText v r' = .ok s') : ';' ∉ s ∧ (s = s' → r = r') := by
  have split : ∀ {r : List Item} {s : Str}, (∀ B, Item.nt B ∉ r.tail) → rightText v r = .ok s →
      ∃ (B : Option Nat) (q : List Item) (u : Str), (∀ B, Item.nt B ∉ q) ∧ rightText v q = .ok u ∧
        r = (B.map Item.nt).toList ++ q ∧ s = (B.map v.getNonterminalNameWithDefault).getD [] ++ u := by
    intro r s hr h
    cases r with
    | nil => exact ⟨none, [], s, by simp, h, rfl, rfl⟩
    | cons i q =>
      cases i with
      | nt B =>
        rw [rightText] at h
        obtain ⟨u, hu, h⟩ := bind_eq_ok.1 h
        cases h
        exact ⟨some B, q, u, hr, hu, rfl, rfl⟩
      | t a => exact ⟨none, .t a :: q, s, by simpa using hr, h, rfl, rfl⟩
  obtain ⟨B, q, u, h1, h2, rfl, rfl⟩ := split hr h
  obtain ⟨B', q', u', h1', h2', rfl, rfl⟩ := split hr' h'
  have t := tokens_cut hv hn h1 h1' h2 h2'
  have t' := tokens_cut hv hn h1' h1 h2' h2
  have no : ∀ B : Option Nat, ' ' ∉ (B.map v.getNonterminalNameWithDefault).getD [] ∧
      ';' ∉ (B.map v.getNonterminalNameWithDefault).getD [] := by
    intro B
    cases B with
    | none => simp
    | some B => exact ⟨(withDefault_no hn B).1, (withDefault_no hn B).2.1⟩
  refine ⟨fun hm => (List.mem_append.1 hm).elim (no B).2 t.2.1, fun e => ?_⟩
  obtain ⟨e1, e2⟩ := cut_head (no B).1 (no B').1 t.1 t'.1 e
  have hB : B = B' := by
    cases B with
    | none =>
      cases B' with
      | none => rfl
      | some b => exact absurd e1.symm (withDefault_no hn b).2.2
    | some b =>
      cases B' with
      | none => exact absurd e1 (withDefault_no hn b).2.2
      | some b' => rw [withDefault_inj hv hn e1]
  rw [hB, t.2.2 e2]

theorem lines_cut {v : Vocabulary} (hv : VInv v) (hn : PrintableNames v) : ∀ {ps ps' : List Production}
    {ls ls' : List Str}, (∀ p ∈ ps, RuleFirst p) → (∀ p ∈ ps', RuleFirst p) → ps.mapM (lineText v) = .ok ls →
    ps'.mapM (lineText v) = .ok ls' → ls.flatten = ls'.flatten → ps = ps'
  | [], [], _, _, _, _, _, _, _ => rfl
  | [], p :: ps, ls, ls', _, _, h, h', e => by
    cases h
    rw [List.mapM_cons, lineText] at h'
    obtain ⟨s, hs, h'⟩ := bind_eq_ok.1 h'
    obtain ⟨l1, h1, h'⟩ := bind_eq_ok.1 h'
    obtain ⟨u, hu, hs⟩ := bind_eq_ok.1 hs
    cases h'; cases hs
    simp at e
  | p :: ps, [], ls, ls', _, _, h, h', e => by
    cases h'
    rw [List.mapM_cons, lineText] at h
    obtain ⟨s, hs, h⟩ := bind_eq_ok.1 h
    obtain ⟨l1, h1, h⟩ := bind_eq_ok.1 h
    obtain ⟨u, hu, hs⟩ := bind_eq_ok.1 hs
    cases h; cases hs
    simp at e
  | p :: ps, p' :: ps', ls, ls', hp, hp', h, h', e => by
    rw [List.mapM_cons, lineText] at h h'
    obtain ⟨s, hs, h⟩ := bind_eq_ok.1 h
    obtain ⟨l1, h1, h⟩ := bind_eq_ok.1 h
    obtain ⟨u, hu, hs⟩ := bind_eq_ok.1 hs
    obtain ⟨s', hs', h'⟩ := bind_eq_ok.1 h'
    obtain ⟨l1', h1', h'⟩ := bind_eq_ok.1 h'
    obtain ⟨u', hu', hs'⟩ := bind_eq_ok.1 hs'
    cases h; cases hs; cases h'; cases hs'
    have e : v.getNonterminalNameWithDefault p.left ++ ' ' :: '-' :: '>' :: (u ++ ';' :: '\n' :: l1.flatten) =
        v.getNonterminalNameWithDefault p'.left ++ ' ' :: '-' :: '>' :: (u' ++ ';' :: '\n' :: l1'.flatten) := by
      simpa using e
    obtain ⟨e1, e⟩ := cut_first (withDefault_no hn _).1 (withDefault_no hn _).1 e
    have c := right_cut hv hn (hp p List.mem_cons_self) (hp' p' List.mem_cons_self) hu hu'
    have c' := right_cut hv hn (hp' p' List.mem_cons_self) (hp p List.mem_cons_self) hu' hu
    obtain ⟨e2, e⟩ := cut_first c.1 c'.1 (List.cons.inj (List.cons.inj e).2).2
    have ih := lines_cut hv hn (fun q hq => hp q (List.mem_cons_of_mem _ hq))
      (fun q hq => hp' q (List.mem_cons_of_mem _ hq)) h1 h1' (List.cons.inj e).2
    have := withDefault_inj hv hn e1
    have := c.2 e2
    cases p; cases p'
    simp_all

/-- **C72**, the part that holds: when rules occur on the right only in front, the printed text determines the
productions (and the order in which they were enumerated).  Missing: right sides with several rules, for which
the claim is false. -/
theorem C72_determines_partial (ops : List VOp) (g g' : Grammar) (hg : g.vocabulary = runOps Vocabulary.new ops)
    (hg' : g'.vocabulary = g.vocabulary) (hn : PrintableNames g.vocabulary) (ord ord' : List Production)
    (hp : ∀ p ∈ ord, RuleFirst p) (hp' : ∀ p ∈ ord', RuleFirst p) (s : Str) (h : g.display ord = .ok s)
    (h' : g'.display ord' = .ok s) : ord = ord' := by
  have hv : VInv g.vocabulary := hg ▸ vinv_reachable ops
  rw [display_eq] at h h'
  rw [hg'] at h'
  cases hm : ord.mapM (lineText g.vocabulary) with
  | error e => rw [hm] at h; cases h
  | ok ls =>
    cases hm' : ord'.mapM (lineText g.vocabulary) with
    | error e => rw [hm'] at h'; cases h'
    | ok ls' =>
      rw [hm] at h; rw [hm'] at h'
      cases h
      exact lines_cut hv hn hp hp' hm hm' (Except.ok.inj h').symm

theorem HMap.mem_of_get {κ ν : Type} [DecidableEq κ] {m : HMap κ ν} {k : κ} {v : ν} (h : m.get k = some v) :
    (k, v) ∈ m.entries := by
  obtain ⟨es⟩ := m
  simp only [HMap.get] at h
  induction es with
  | nil => cases h
  | cons e es ih =>
    obtain ⟨k', v'⟩ := e
    simp only [HMap.find] at h
    split at h
    · rename_i hk
      cases h
      rw [hk]
      exact List.mem_cons_self
    · exact List.mem_cons_of_mem _ (ih h)

/-- the calls that register the rules `s`, `ab`, `a`, `b` and the token `X` -/
def gluedOps : List VOp :=
  [.addTerminal 2 ['X'], .addNamedNonterminal 0 ['s'], .addNamedNonterminal 1 ['a', 'b'], .addNamedNonterminal 2 ['a'],
    .addNamedNonterminal 3 ['b']]

/-- `s : ab; ab : X;` -/
def glued1 : Grammar := ⟨[], runOps Vocabulary.new gluedOps, [⟨0, [.nt 1]⟩, ⟨1, [.t 2]⟩]⟩
/-- `s : a b; ab : X;` -/
def glued2 : Grammar := ⟨[], runOps Vocabulary.new gluedOps, [⟨0, [.nt 2, .nt 3]⟩, ⟨1, [.t 2]⟩]⟩

/-- **C72** is false of the code: no space is written before a rule, so two grammars over the same vocabulary
print alike, of which one describes the word `X` and the other no word at all. -/
theorem C72_rules_glued :
    glued1.display glued1.productions = .ok "s ->ab;\nab -> X;\n".toList ∧
    glued2.display glued2.productions = glued1.display glued1.productions ∧
    Sentence glued1.productions 0 [2] ∧ ∀ w, ¬ Sentence glued2.productions 0 w := by
  refine ⟨by decide +kernel, by decide +kernel, ?_, fun w hw => ?_⟩
  · refine .tail (b := [.nt 1]) (.single ?_) ?_
    · exact Step.mk ⟨0, [.nt 1]⟩ (by simp [glued1]) [] []
    · exact Step.mk ⟨1, [.t 2]⟩ (by simp [glued1]) [] []
  · have inv : ∀ β, Derives glued2.productions [.nt 0] β → β = [.nt 0] ∨ β = [.nt 2, .nt 3] := by
      intro β hβ
      induction hβ with
      | refl => exact .inl rfl
      | tail _ hs ih =>
        cases hs with
        | mk p hp u v' =>
          simp only [glued2, List.mem_cons, List.not_mem_nil, or_false] at hp
          rcases ih with ih | ih
          · cases u with
            | nil =>
              simp only [List.nil_append, List.cons.injEq, Item.nt.injEq] at ih
              rcases hp with rfl | rfl
              · right; simp [ih.2]
              · exact absurd ih.1 (by decide)
            | cons _ u => simp at ih
          · have hm : Item.nt p.left ∈ [Item.nt 2, Item.nt 3] := by rw [← ih]; simp
            rcases hp with rfl | rfl <;> simp at hm
    rcases inv _ hw with h | h <;> cases w <;> simp at h

/-- non-vacuity of `C72_determines_partial`, `C72_total` and `C72_lines` -/
example : glued1.vocabulary = runOps Vocabulary.new gluedOps ∧ PrintableNames glued1.vocabulary ∧
    (∀ p ∈ glued1.productions, RuleFirst p) := by
  refine ⟨rfl, ⟨?_, ?_⟩, ?_⟩
  · intro i n h
    have e : ∀ e ∈ glued1.vocabulary.ntIdToName.entries, ' ' ∉ e.2 ∧ ';' ∉ e.2 ∧ ∃ c ∈ e.2, c.isDigit = false := by
      decide
    exact e _ (HMap.mem_of_get h)
  · intro i n h
    have e : ∀ e ∈ glued1.vocabulary.tIdToName.entries, ' ' ∉ e.2 ∧ ';' ∉ e.2 := by decide
    exact e _ (HMap.mem_of_get h)
  · intro p hp
    simp only [glued1, List.mem_cons, List.not_mem_nil, or_false] at hp
    rcases hp with rfl | rfl <;> simp [RuleFirst]

end Syntaxis
