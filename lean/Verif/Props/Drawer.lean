import Verif.Model.Drawer
import Verif.Spec.Js
import Verif.Props.LexerRules

/-!
# C48, C49: the drawn tree
-/

namespace Syntaxis
open Drawer

theorem replace_char (a : Char) (new s : Str) :
    replace s [a] new = s.flatMap fun c => if c = a then new else [c] := by
  induction s with
  | nil => rfl
  | cons c s ih =>
    rw [List.flatMap_cons, ← ih]
    split
    · rename_i h
      subst h
      exact replace_hit c [] new s
    · rename_i h
      refine replace_miss c s _ _ ?_
      rintro ⟨w, hw⟩
      simp only [List.cons_append, List.cons.injEq] at hw
      exact h hw.1.symm

/-- how one character is written -/
def escChar (c : Char) : Str := if c = '\\' ∨ c = '`' then ['\\', c] else [c]

theorem escape_eq (s : Str) : escape s = s.flatMap escChar := by
  show replace (replace s ['\\'] ['\\', '\\']) ['`'] ['\\', '`'] = _
  rw [replace_char, replace_char, List.flatMap_assoc]
  congr 1
  funext c
  by_cases h1 : c = '\\'
  · subst h1; decide
  · by_cases h2 : c = '`'
    · subst h2; decide
    · simp [escChar, h1, h2]

/-- line ends as a template literal normalises them -/
def normLines : Str → Str
  | '\r' :: '\n' :: s => '\n' :: normLines s
  | '\r' :: s => '\n' :: normLines s
  | c :: s => c :: normLines s
  | [] => []

/-- does `${` occur? -/
def hasSubst : Str → Bool
  | '$' :: '{' :: _ => true
  | _ :: s => hasSubst s
  | [] => false

theorem escChar_head (c : Char) : ∃ d t, escChar c = d :: t ∧ (d = c ∨ d = '\\') := by
  unfold escChar
  split
  · exact ⟨_, _, rfl, .inr rfl⟩
  · exact ⟨_, _, rfl, .inl rfl⟩

/-- the escaped text begins with a given character only if the text does -/
theorem escaped_head {x : Char} (hx : x ≠ '\\') (hx' : x ≠ '`') {s rest w : Str}
    (h : s.flatMap escChar ++ '`' :: rest = x :: w) : ∃ s', s = x :: s' := by
  cases s with
  | nil =>
    simp only [List.flatMap_nil, List.nil_append, List.cons.injEq] at h
    exact absurd h.1.symm hx'
  | cons c s =>
    obtain ⟨d, t, h1, h2⟩ := escChar_head c
    rw [List.flatMap_cons, h1] at h
    simp only [List.cons_append, List.cons.injEq] at h
    rcases h2 with h2 | h2
    · rw [← h2, h.1]; exact ⟨_, rfl⟩
    · exact absurd (h.1.symm.trans h2) hx

theorem template_plain (c : Char) (acc s : Str) (h1 : c ≠ '`') (h2 : c ≠ '\\') (h3 : c ≠ '\r')
    (h4 : c = '$' → ∀ s', s ≠ '{' :: s') : jsTemplate acc (c :: s) = jsTemplate (c :: acc) s := by
  rw [jsTemplate]
  · exact h1
  · intro c' s' h; exact absurd h h2
  · intro h; exact absurd h h2
  · intro s' h h'; exact h4 h s' h'
  · intro s' h; exact absurd h h3
  · exact h3

theorem hasSubst_plain (c : Char) (s : Str) (h : c = '$' → ∀ s', s ≠ '{' :: s') : hasSubst (c :: s) = hasSubst s := by
  rw [hasSubst]
  intro s' h1 h2
  exact h h1 s' h2

theorem template_escape (s acc rest : Str) :
    jsTemplate acc (escape s ++ '`' :: rest) =
      if hasSubst s then none else (jsLex rest).map (.str (acc.reverse ++ normLines s) :: ·) := by
  rw [escape_eq]
  induction s using normLines.induct generalizing acc with
  | case1 s ih =>
    have e : ('\r' :: '\n' :: s).flatMap escChar = '\r' :: '\n' :: s.flatMap escChar := by
      simp [List.flatMap_cons, escChar]
    rw [e, List.cons_append, List.cons_append, jsTemplate, ih, hasSubst_plain _ _ (fun h => absurd h (by decide)),
      hasSubst_plain _ _ (fun h => absurd h (by decide)), normLines]
    simp
  | case2 s h ih =>
    have e : ('\r' :: s).flatMap escChar = '\r' :: s.flatMap escChar := by
      simp [List.flatMap_cons, escChar]
    rw [e, List.cons_append, jsTemplate, ih, hasSubst_plain _ _ (fun h => absurd h (by decide)), normLines]
    · simp
    · exact h
    · intro s' hs'
      obtain ⟨s'', h'⟩ := escaped_head (by decide) (by decide) hs'
      exact h s'' h'
  | case3 c s h1 h2 ih =>
    have hn : normLines (c :: s) = c :: normLines s := by
      rw [normLines]
      · exact h1
      · exact h2
    have hacc : ((c :: acc).reverse ++ normLines s) = acc.reverse ++ normLines (c :: s) := by rw [hn]; simp
    by_cases hb : c = '\\' ∨ c = '`'
    · have e : (c :: s).flatMap escChar = '\\' :: c :: s.flatMap escChar := by
        simp [List.flatMap_cons, escChar, hb]
      rw [e, List.cons_append, List.cons_append, jsTemplate, ih, hacc, hasSubst_plain]
      · rw [if_pos]
        rcases hb with rfl | rfl <;> decide
      · rintro rfl
        rcases hb with hb | hb <;> cases hb
    · have hb' := not_or.1 hb
      have e : (c :: s).flatMap escChar = c :: s.flatMap escChar := by
        simp [List.flatMap_cons, escChar, hb]
      rw [e, List.cons_append]
      by_cases hd : c = '$' ∧ ∃ s', s = '{' :: s'
      · obtain ⟨rfl, s', rfl⟩ := hd
        have e : ('{' :: s').flatMap escChar = '{' :: s'.flatMap escChar := by
          simp [List.flatMap_cons, escChar]
        rw [e, List.cons_append, jsTemplate, hasSubst, if_pos rfl]
      · have hd' : c = '$' → ∀ s', s ≠ '{' :: s' := fun h s' hs => hd ⟨h, s', hs⟩
        rw [template_plain _ _ _ hb'.2 hb'.1 (fun h => h2 h), ih, hacc, hasSubst_plain _ _ hd']
        intro h s' hs'
        obtain ⟨s'', h'⟩ := escaped_head (by decide) (by decide) hs'
        exact hd' h s'' h'
  | case4 => simp [jsTemplate, hasSubst, normLines]

theorem hasSubst_iff (s : Str) : hasSubst s = true ↔ ['$', '{'] <:+: s := by
  induction s using hasSubst.induct with
  | case1 s => exact ⟨fun _ => ⟨[], s, rfl⟩, fun _ => rfl⟩
  | case2 c s h ih =>
    rw [hasSubst_plain c s (fun h1 s' h2 => h s' h1 h2), ih]
    constructor
    · rintro ⟨u, v, rfl⟩
      exact ⟨c :: u, v, rfl⟩
    · rintro ⟨u, v, h'⟩
      cases u with
      | nil => cases h'; exact absurd rfl (fun h'' => h v rfl h'')
      | cons d u => cases h'; exact ⟨u, v, rfl⟩
  | case3 => simp [hasSubst]

theorem normLines_no_cr (s : Str) : '\r' ∉ normLines s := by
  induction s using normLines.induct with
  | case1 s ih => rw [normLines]; simp [ih]
  | case2 s h ih => rw [normLines] <;> simp_all
  | case3 c s h1 h2 ih =>
    rw [normLines]
    · rw [List.mem_cons, not_or]
      exact ⟨fun h => h2 h.symm, ih⟩
    · exact h1
    · exact h2
  | case4 => simp [normLines]

theorem normLines_id {s : Str} (h : '\r' ∉ s) : normLines s = s := by
  induction s with
  | nil => rfl
  | cons c s ih =>
    rw [List.mem_cons, not_or] at h
    rw [normLines, ih h.2]
    · rintro s' rfl; exact absurd rfl h.1
    · rintro rfl; exact h.1 rfl

/-- **C48** Exactly when the template literal written for a string evaluates back to it, whatever follows: when
the string contains no carriage return and no `${`. -/
theorem C48_roundtrip_iff (s : Str) :
    (∀ rest, jsLex ('`' :: (escape s ++ '`' :: rest)) = (jsLex rest).map (.str s :: ·)) ↔ Clean s := by
  have hl : ∀ rest, jsLex ('`' :: (escape s ++ '`' :: rest)) = if hasSubst s then none else
      (jsLex rest).map (.str (normLines s) :: ·) := by
    intro rest
    have := template_escape s [] rest
    rw [List.reverse_nil, List.nil_append] at this
    rw [← this]
    rw [jsLex, if_neg (by decide), if_neg (by decide), if_pos rfl]
  constructor
  · intro h
    have := h []
    rw [hl] at this
    split at this
    · simp [jsLex] at this
    · rename_i hs
      simp only [jsLex, Option.map_some, Option.some.injEq, List.cons.injEq, JsTok.str.injEq, and_true] at this
      refine ⟨?_, fun h' => hs ((hasSubst_iff s).2 h')⟩
      rw [← this]
      exact normLines_no_cr s
  · intro h rest
    rw [hl, if_neg (fun h' => h.2 ((hasSubst_iff s).1 h')), normLines_id h.1]

/-- **C48** (partial) Strings without carriage return and without `${` come back. -/
theorem C48_text_partial (s rest : Str) (h : Clean s) :
    jsLex ('`' :: (escape s ++ '`' :: rest)) = (jsLex rest).map (.str s :: ·) := (C48_roundtrip_iff s).2 h rest

/-- **C48** is false in general: a text containing `${` is not a literal without substitutions any more. -/
theorem C48_substitution (s rest : Str) (h : ['$', '{'] <:+: s) : jsLex ('`' :: (escape s ++ '`' :: rest)) = none := by
  rw [jsLex, if_neg (by decide), if_neg (by decide), if_pos rfl, template_escape, if_pos ((hasSubst_iff s).2 h)]

/-- **C48** is false in general: a carriage return becomes a line feed. -/
theorem C48_carriage_return : jsLex ('`' :: (escape "a\rb".toList ++ ['`'])) = some [.str "a\nb".toList] := by
  decide +kernel

theorem escape_infix {t s : Str} (ht : ∀ c ∈ t, c ≠ '\\' ∧ c ≠ '`') (h : t <:+: s) : t <:+: escape s := by
  obtain ⟨u, v, rfl⟩ := h
  have : t.flatMap escChar = t := by
    induction t with
    | nil => rfl
    | cons c t ih =>
      rw [List.flatMap_cons, ih (fun d hd => ht d (by simp [hd]))]
      have := ht c (by simp)
      simp [escChar, this.1, this.2]
  rw [escape_eq, List.flatMap_append, List.flatMap_append, this]
  exact ⟨_, _, rfl⟩

/-- **C48** is false in general: `</script>` in the text of a token stays as it is, so it ends the script
element of the page. -/
theorem C48_script_end (t : Token) (h : "</script>".toList <:+: t.text) : "</script>".toList <:+: dumpLeaf t := by
  refine (escape_infix (by decide) h).trans ?_
  exact ⟨"{ name:`".toList ++ escape t.tokenName ++ "`, text: `".toList, "`}".toList, rfl⟩

example : Clean "a\\`$ {}\n'\"".toList := by
  refine ⟨by decide, ?_⟩
  rw [← hasSubst_iff]
  decide

/-! ### C49 -/

theorem template_clean (s rest : Str) (h : Clean s) :
    jsTemplate [] (escape s ++ '`' :: rest) = (jsLex rest).map (.str s :: ·) := by
  rw [template_escape, if_neg (fun h' => h.2 ((hasSubst_iff s).1 h')), normLines_id h.1]
  rfl

theorem lex_name (x : Str) : jsLex ("{ name:`".toList ++ x) =
    (jsTemplate [] x).map (fun ts => .punct '{' :: .key "name".toList :: ts) := by
  have e : "{ name:`".toList ++ x = '{' :: ' ' :: 'n' :: 'a' :: 'm' :: 'e' :: ':' :: '`' :: x := rfl
  rw [e]
  simp only [jsLex, jsKey, keyChar]
  simp
  rfl

theorem lex_text (x : Str) : jsLex (", text: `".toList ++ x) =
    (jsTemplate [] x).map (fun ts => .punct ',' :: .key "text".toList :: ts) := by
  have e : ", text: `".toList ++ x = ',' :: ' ' :: 't' :: 'e' :: 'x' :: 't' :: ':' :: ' ' :: '`' :: x := rfl
  rw [e]
  simp only [jsLex, jsKey, keyChar]
  simp
  rfl

theorem lex_id (x : Str) : jsLex (",id: `".toList ++ x) =
    (jsTemplate [] x).map (fun ts => .punct ',' :: .key "id".toList :: ts) := by
  have e : ",id: `".toList ++ x = ',' :: 'i' :: 'd' :: ':' :: ' ' :: '`' :: x := rfl
  rw [e]
  simp only [jsLex, jsKey, keyChar]
  simp
  rfl

theorem lex_children (x : Str) : jsLex (", children:[".toList ++ x) =
    (jsLex x).map (fun ts => .punct ',' :: .key "children".toList :: .punct '[' :: ts) := by
  have e : ", children:[".toList ++ x = ',' :: ' ' :: 'c' :: 'h' :: 'i' :: 'l' :: 'd' :: 'r' :: 'e' :: 'n' :: ':' :: '[' :: x := rfl
  rw [e]
  simp only [jsLex, jsKey, keyChar]
  simp
  rfl

theorem lex_punct (c : Char) (hc : c = '{' ∨ c = '}' ∨ c = '[' ∨ c = ']' ∨ c = ',') (x : Str) :
    jsLex (c :: x) = (jsLex x).map (.punct c :: ·) := by
  rcases hc with rfl | rfl | rfl | rfl | rfl <;> simp [jsLex]

mutual
/-- the lexical elements of the literal of a tree -/
def toks : Ast → List JsTok
  | .terminal t => [.punct '{', .key "name".toList, .str t.tokenName, .punct ',', .key "text".toList, .str t.text, .punct '}']
  | .error t => [.punct '{', .key "name".toList, .str t.tokenName, .punct ',', .key "text".toList, .str t.text, .punct '}']
  | .rule n i kids => [.punct '{', .key "name".toList, .str n, .punct ',', .key "id".toList, .str (Nat.repr i).toList,
      .punct ',', .key "children".toList, .punct '['] ++ (toksAll kids ++ [.punct ']', .punct ',', .punct '}'])
def toksAll : List Ast → List JsTok
  | [] => []
  | k :: ks => toks k ++ (.punct ',' :: toksAll ks)
end

theorem repr_digit {i : Nat} {c : Char} (h : c ∈ (Nat.repr i).toList) : c.isDigit = true := by
  rw [Nat.toList_repr] at h
  exact Nat.isDigit_of_mem_toDigits (by omega) (by omega) h

theorem repr_template (i : Nat) (rest : Str) :
    jsTemplate [] ((Nat.repr i).toList ++ '`' :: rest) = (jsLex rest).map (.str (Nat.repr i).toList :: ·) := by
  have hno : ∀ c, c.isDigit = false → c ∉ (Nat.repr i).toList := by
    intro c hc h
    rw [repr_digit h] at hc
    cases hc
  have hesc : escape (Nat.repr i).toList = (Nat.repr i).toList := by
    rw [escape_eq]
    generalize (Nat.repr i).toList = s at hno
    induction s with
    | nil => rfl
    | cons c s ih =>
      rw [List.flatMap_cons, ih (fun d hd h => hno d hd (by simp [h])), escChar, if_neg]
      · rfl
      · rintro (rfl | rfl)
        · exact hno '\\' (by decide) (by simp)
        · exact hno '`' (by decide) (by simp)
  have hclean : Clean (Nat.repr i).toList := by
    refine ⟨hno _ (by decide), ?_⟩
    intro h
    exact hno '$' (by decide) (h.subset (by simp))
  have := template_clean _ rest hclean
  rwa [hesc] at this

theorem map_map_toks (o : Option (List JsTok)) (a b : List JsTok) :
    (o.map (b ++ ·)).map (a ++ ·) = o.map ((a ++ b) ++ ·) := by cases o <;> simp

theorem assoc_leaf (A B D E x y rest : Str) (h1 : D = '`' :: B) (h2 : E = ['`', '}']) :
    A ++ x ++ D ++ y ++ E ++ rest = A ++ (x ++ '`' :: (B ++ (y ++ '`' :: ('}' :: rest)))) := by
  subst h1 h2; simp

theorem assoc_rule (A B C D E F G H I x y z rest : Str) (h1 : D = '`' :: B) (h2 : E = '`' :: C) (h3 : F = ['['])
    (h4 : G = [']']) (h5 : H = [',', '}']) (h6 : I = C ++ ['[']) :
    A ++ x ++ D ++ y ++ E ++ (F ++ z ++ G) ++ H ++ rest =
    A ++ (x ++ '`' :: (B ++ (y ++ '`' :: (I ++ (z ++ (']' :: ',' :: '}' :: rest)))))) := by
  subst h1 h2 h3 h4 h5 h6; simp

theorem lex_leaf (t : Token) (h1 : Clean t.tokenName) (h2 : Clean t.text) (rest : Str) :
    jsLex (dumpLeaf t ++ rest) = (jsLex rest).map ([.punct '{', .key "name".toList, .str t.tokenName, .punct ',',
      .key "text".toList, .str t.text, .punct '}'] ++ ·) := by
  have e : dumpLeaf t ++ rest = "{ name:`".toList ++ (escape t.tokenName ++ '`' :: (", text: `".toList ++
      (escape t.text ++ '`' :: ('}' :: rest)))) := by
    have e1 : "`, text: `".toList = '`' :: ", text: `".toList := by decide +kernel
    have e2 : "`}".toList = ['`', '}'] := by decide +kernel
    exact assoc_leaf _ _ _ _ _ _ _ e1 e2
  rw [e, lex_name, template_clean _ _ h1, lex_text, template_clean _ _ h2, lex_punct _ (by simp)]
  cases jsLex rest <;> rfl

theorem lit1 : "`,id: `".toList = '`' :: ",id: `".toList := by decide +kernel
theorem lit2 : ",}".toList = [',', '}'] := by decide +kernel
theorem lit3 : "]".toList = [']'] := by decide +kernel
theorem lit4 : "[".toList = ['['] := by decide +kernel
theorem lit5 : ", children:[".toList = ", children:".toList ++ ['['] := by decide +kernel
theorem lit6 : "`, children:".toList = '`' :: ", children:".toList := by decide +kernel

theorem dumpChild_rule (n : Str) (i : Nat) (kids : List Ast) (rest : Str) :
    dumpChild (.rule n i kids) ++ rest = "{ name:`".toList ++ (escape n ++ '`' :: (",id: `".toList ++
      ((Nat.repr i).toList ++ '`' :: (", children:[".toList ++ (dumpChildren kids ++ (']' :: ',' :: '}' :: rest)))))) :=
 by
  rewrite [dumpChild.eq_2]
  delta dumpRule
  exact assoc_rule "{ name:`".toList ",id: `".toList ", children:".toList "`,id: `".toList "`, children:".toList
      "[".toList "]".toList ",}".toList ", children:[".toList (escape n) (Nat.repr i).toList (dumpChildren kids) rest
      lit1 lit6 lit4 lit3 lit2 lit5

mutual
theorem lex_child (a : Ast) (h : ∀ s ∈ a.shown, Clean s) (rest : Str) :
    jsLex (dumpChild a ++ rest) = (jsLex rest).map (toks a ++ ·) := by
  cases a with
  | terminal t => exact lex_leaf t (h _ (by simp [Ast.shown])) (h _ (by simp [Ast.shown])) rest
  | error t => exact lex_leaf t (h _ (by simp [Ast.shown])) (h _ (by simp [Ast.shown])) rest
  | rule n i kids =>
    have e := dumpChild_rule n i kids rest
    rw [e, lex_name, template_clean _ _ (h _ (by simp [Ast.shown])), lex_id, repr_template, lex_children,
      lex_childs kids (fun s hs => h s (by simp [Ast.shown, hs])), lex_punct _ (by simp), lex_punct _ (by simp),
      lex_punct _ (by simp), toks]
    cases jsLex rest <;> simp
theorem lex_childs (ks : List Ast) (h : ∀ s ∈ Ast.shownAll ks, Clean s) (rest : Str) :
    jsLex (dumpChildren ks ++ rest) = (jsLex rest).map (toksAll ks ++ ·) := by
  cases ks with
  | nil => rw [dumpChildren, toksAll]; cases h : jsLex rest <;> simp [h]
  | cons k ks =>
    have e : dumpChildren (k :: ks) ++ rest = dumpChild k ++ (',' :: (dumpChildren ks ++ rest)) := by
      rw [dumpChildren]
      simp only [List.append_assoc]
      rfl
    rw [e, lex_child k (fun s hs => h s (by simp [Ast.shownAll, hs])), lex_punct _ (by simp),
      lex_childs ks (fun s hs => h s (by simp [Ast.shownAll, hs])), toksAll]
    cases jsLex rest <;> simp
end

mutual
/-- the value of the literal of a tree -/
def jsOf : Ast → JsVal
  | .terminal t => .obj [("name".toList, .str t.tokenName), ("text".toList, .str t.text)]
  | .error t => .obj [("name".toList, .str t.tokenName), ("text".toList, .str t.text)]
  | .rule n i kids => .obj [("name".toList, .str n), ("id".toList, .str (Nat.repr i).toList), ("children".toList, .arr (jsOfAll kids))]
def jsOfAll : List Ast → List JsVal
  | [] => []
  | k :: ks => jsOf k :: jsOfAll ks
end

theorem value_leaf (fuel : Nat) (n t : Str) (rest : List JsTok) (hf : 4 ≤ fuel) :
    jsValue fuel ([.punct '{', .key "name".toList, .str n, .punct ',', .key "text".toList, .str t, .punct '}'] ++ rest) =
      some (.obj [("name".toList, .str n), ("text".toList, .str t)], rest) := by
  obtain ⟨f, rfl⟩ : ∃ f, fuel = f + 4 := ⟨fuel - 4, by omega⟩
  simp [jsValue, jsFields]

mutual
theorem value_toks (a : Ast) : ∃ n, ∀ fuel, n ≤ fuel → ∀ rest, jsValue fuel (toks a ++ rest) = some (jsOf a, rest) := by
  cases a with
  | terminal t => exact ⟨4, fun fuel hf rest => value_leaf fuel _ _ rest hf⟩
  | error t => exact ⟨4, fun fuel hf rest => value_leaf fuel _ _ rest hf⟩
  | rule m i kids =>
    obtain ⟨n, hn⟩ := value_toksAll kids
    refine ⟨n + 8, fun fuel hf rest => ?_⟩
    obtain ⟨f, rfl⟩ : ∃ f, fuel = f + 6 := ⟨fuel - 6, by omega⟩
    have := hn (f + 1) (by omega) (.punct ',' :: .punct '}' :: rest)
    simp [toks, jsOf, jsValue, jsFields, this]
theorem value_toksAll (ks : List Ast) : ∃ n, ∀ fuel, n ≤ fuel → ∀ rest,
    jsElems fuel (toksAll ks ++ (.punct ']' :: rest)) = some (jsOfAll ks, rest) := by
  cases ks with
  | nil =>
    refine ⟨1, fun fuel hf rest => ?_⟩
    obtain ⟨f, rfl⟩ : ∃ f, fuel = f + 1 := ⟨fuel - 1, by omega⟩
    simp [toksAll, jsElems, jsOfAll]
  | cons k ks =>
    obtain ⟨n1, h1⟩ := value_toks k
    obtain ⟨n2, h2⟩ := value_toksAll ks
    refine ⟨n1 + n2 + 1, fun fuel hf rest => ?_⟩
    obtain ⟨f, rfl⟩ : ∃ f, fuel = f + 1 := ⟨fuel - 1, by omega⟩
    have hk : ∃ w, toks k = .punct '{' :: w := by
      cases k <;> exact ⟨_, rfl⟩
    obtain ⟨w, hw⟩ := hk
    have e : toksAll (k :: ks) ++ (.punct ']' :: rest) = toks k ++ (.punct ',' :: (toksAll ks ++ (.punct ']' :: rest))) := by
      rw [toksAll]; simp
    rw [e, jsElems, h1 f (by omega)]
    · simp [h2 f (by omega), jsOfAll]
    · rw [hw]
      intro ts hts
      cases hts
end

theorem digitChar_value (d : Nat) (h : d < 10) : (Nat.digitChar d).toNat - '0'.toNat = d := by
  revert h
  revert d
  decide

theorem readDec_append (s : Str) (c : Char) : readDec (s ++ [c]) = 10 * readDec s + (c.toNat - '0'.toNat) := by
  simp [readDec]

theorem readDec_repr (i : Nat) : readDec (Nat.repr i).toList = i := by
  rw [Nat.toList_repr]
  induction i using Nat.strongRecOn with
  | ind i ih =>
    by_cases h : i < 10
    · rw [Nat.toDigits_of_lt_base h]
      simp only [readDec, List.foldl_cons, List.foldl_nil, digitChar_value i h, Nat.mul_zero, Nat.zero_add]
    · rw [Nat.toDigits_of_base_le (by omega) (by omega), readDec_append, ih _ (by omega),
        digitChar_value _ (by omega)]
      omega

mutual
theorem view_jsOf (a : Ast) : (jsOf a).view = some a.toView := by
  cases a with
  | terminal t => rw [jsOf, JsVal.view, fieldsView, if_pos ⟨rfl, rfl⟩, Ast.toView]
  | error t => rw [jsOf, JsVal.view, fieldsView, if_pos ⟨rfl, rfl⟩, Ast.toView]
  | rule n i kids =>
    rw [jsOf, JsVal.view, fieldsView, if_pos ⟨rfl, rfl, rfl⟩, view_jsOfAll kids, Ast.toView, readDec_repr]
    rfl
theorem view_jsOfAll (ks : List Ast) : viewAll (jsOfAll ks) = some (Ast.toViews ks) := by
  cases ks with
  | nil => rw [jsOfAll, viewAll, Ast.toViews]
  | cons k ks => rw [jsOfAll, viewAll, view_jsOf k, view_jsOfAll ks, Ast.toViews]
end

/-- **C49** (partial) If no name and no text contains a carriage return or `${`, what the drawer writes reads
back as a value that is the tree: same names, ids, texts and nesting.  Missing: the other trees, for which it is
false (`C49_substitution`, `C49_carriage_return`). -/
theorem C49_drawn_tree_partial (r : RuleContext) (h : ∀ s ∈ r.toAst.shown, Clean s) :
    ∃ v, JsReadsAs (dump r) v ∧ v.view = some r.toAst.toView := by
  refine ⟨jsOf r.toAst, ?_, view_jsOf _⟩
  obtain ⟨n, hn⟩ := value_toks r.toAst
  refine ⟨toks r.toAst, n, ?_, fun fuel hf => ?_⟩
  · have := lex_child r.toAst h []
    rw [List.append_nil] at this
    rw [show dump r = dumpChild r.toAst from rfl, this]
    simp [jsLex]
  · have := hn fuel hf []
    rwa [List.append_nil] at this

/-- **C49** The drawn text determines the tree that is shown: two trees without carriage returns and `${` that
are drawn alike agree in names, ids, texts and nesting. -/
theorem C49_faithful_partial (r r' : RuleContext) (h : ∀ s ∈ r.toAst.shown, Clean s)
    (h' : ∀ s ∈ r'.toAst.shown, Clean s) (he : dump r = dump r') : r.toAst.toView = r'.toAst.toView := by
  obtain ⟨v, ⟨ts, n, h1, h2⟩, h3⟩ := C49_drawn_tree_partial r h
  obtain ⟨v', ⟨ts', n', h1', h2'⟩, h3'⟩ := C49_drawn_tree_partial r' h'
  rw [he, h1'] at h1
  cases h1
  have e1 := h2 (n + n') (by omega)
  have e2 := h2' (n + n') (by omega)
  rw [e1] at e2
  cases e2
  rw [h3] at h3'
  exact Option.some.inj h3'

/-- **C49** is false in general: a tree with `${` in a token text is not written as a literal of its parts; the
page evaluates the text as a JavaScript expression. -/
theorem C49_substitution : jsLex (dump ⟨"r".toList, [.terminal (Token.new 1 "A".toList "${f()}".toList)], 0⟩) = none := by
  decide +kernel

/-- **C49** is false in general: two different texts are drawn as literals with the same value. -/
theorem C49_carriage_return :
    jsLex (dump ⟨"r".toList, [.terminal (Token.new 1 "A".toList "\r".toList)], 0⟩) =
      jsLex (dump ⟨"r".toList, [.terminal (Token.new 1 "A".toList "\n".toList)], 0⟩) ∧
    (jsLex (dump ⟨"r".toList, [.terminal (Token.new 1 "A".toList "\r".toList)], 0⟩)).isSome = true := by
  decide +kernel

/-- an error node, nested rules, a backquote, a backslash and an id of two digits -/
def drawn : RuleContext :=
  ⟨"rule_list".toList, [.rule "a".toList 17 [.terminal (Token.new 1 "A".toList "`\\$".toList)],
    .error (Token.new 2 "B".toList "x\n{}".toList), .rule "b".toList 3 []], 0⟩

theorem clean_iff (s : Str) : Clean s ↔ (!s.contains '\r' && !hasSubst s) = true := by
  rw [Clean, ← hasSubst_iff]
  simp

example : ∃ v, JsReadsAs (dump drawn) v ∧ v.view = some drawn.toAst.toView := by
  refine C49_drawn_tree_partial drawn ?_
  have : drawn.toAst.shown.all (fun s => !s.contains '\r' && !hasSubst s) = true := by decide +kernel
  intro s hs
  exact (clean_iff s).2 (List.all_eq_true.1 this s hs)

end Syntaxis
