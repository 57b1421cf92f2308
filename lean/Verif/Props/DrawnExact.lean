import Verif.Props.Drawer

/-!
# C49: what the drawn text says of every tree
-/

namespace Syntaxis
open Drawer

mutual
/-- the tree with its names and texts changed -/
def View.mapText (f : Str → Str) : View → View
  | .leaf n t => .leaf (f n) (f t)
  | .node n i ks => .node (f n) i (View.mapTexts f ks)
def View.mapTexts (f : Str → Str) : List View → List View
  | [] => []
  | k :: ks => k.mapText f :: View.mapTexts f ks
end

mutual
/-- the syntax tree with its names and texts changed -/
def Ast.mapText (f : Str → Str) : Ast → Ast
  | .terminal t => .terminal { t with tokenName := f t.tokenName, text := f t.text }
  | .error t => .error { t with tokenName := f t.tokenName, text := f t.text }
  | .rule n i ks => .rule (f n) i (Ast.mapTexts f ks)
def Ast.mapTexts (f : Str → Str) : List Ast → List Ast
  | [] => []
  | k :: ks => k.mapText f :: Ast.mapTexts f ks
end

mutual
theorem toView_mapText (f : Str → Str) : ∀ a : Ast, (a.mapText f).toView = a.toView.mapText f
  | .terminal t => by simp [Ast.mapText, Ast.toView, View.mapText]
  | .error t => by simp [Ast.mapText, Ast.toView, View.mapText]
  | .rule n i ks => by rw [Ast.mapText, Ast.toView, Ast.toView, View.mapText, toViews_mapTexts f ks]
theorem toViews_mapTexts (f : Str → Str) : ∀ ks : List Ast, Ast.toViews (Ast.mapTexts f ks) = View.mapTexts f (Ast.toViews ks)
  | [] => rfl
  | k :: ks => by rw [Ast.mapTexts, Ast.toViews, Ast.toViews, View.mapTexts, toView_mapText f k, toViews_mapTexts f ks]
end

theorem template_any (s rest : Str) : jsTemplate [] (escape s ++ '`' :: rest) =
    if hasSubst s then none else (jsLex rest).map (.str (normLines s) :: ·) := template_escape s [] rest

theorem lex_leaf_any (t : Token) (rest : Str) :
    jsLex (dumpLeaf t ++ rest) = if hasSubst t.tokenName || hasSubst t.text then none else
      (jsLex rest).map ([.punct '{', .key "name".toList, .str (normLines t.tokenName), .punct ',',
        .key "text".toList, .str (normLines t.text), .punct '}'] ++ ·) := by
  have e : dumpLeaf t ++ rest = "{ name:`".toList ++ (escape t.tokenName ++ '`' :: (", text: `".toList ++
      (escape t.text ++ '`' :: ('}' :: rest)))) := by
    have e1 : "`, text: `".toList = '`' :: ", text: `".toList := by decide +kernel
    have e2 : "`}".toList = ['`', '}'] := by decide +kernel
    exact assoc_leaf _ _ _ _ _ _ _ e1 e2
  rw [e, lex_name, template_any, lex_text, template_any, lex_punct _ (by simp)]
  cases hasSubst t.tokenName <;> cases hasSubst t.text <;> cases jsLex rest <;> rfl

mutual
theorem lex_any (a : Ast) (rest : Str) : jsLex (dumpChild a ++ rest) =
    if a.shown.any hasSubst then none else (jsLex rest).map (toks (a.mapText normLines) ++ ·) := by
  cases a with
  | terminal t =>
    refine (lex_leaf_any t rest).trans ?_
    simp [Ast.shown, Ast.mapText, toks]
  | error t =>
    refine (lex_leaf_any t rest).trans ?_
    simp [Ast.shown, Ast.mapText, toks]
  | rule n i kids =>
    have e := dumpChild_rule n i kids rest
    rw [e, lex_name, template_any, lex_id, repr_template, lex_children, lex_any_all kids, lex_punct _ (by simp),
      lex_punct _ (by simp), lex_punct _ (by simp), Ast.mapText, toks, Ast.shown, List.any_cons]
    cases hasSubst n <;> cases (Ast.shownAll kids).any hasSubst <;> cases jsLex rest <;> simp
theorem lex_any_all (ks : List Ast) (rest : Str) : jsLex (dumpChildren ks ++ rest) =
    if (Ast.shownAll ks).any hasSubst then none else (jsLex rest).map (toksAll (Ast.mapTexts normLines ks) ++ ·) := by
  cases ks with
  | nil => rw [dumpChildren, Ast.mapTexts, toksAll]; cases h : jsLex rest <;> simp [h, Ast.shownAll]
  | cons k ks =>
    have e : dumpChildren (k :: ks) ++ rest = dumpChild k ++ (',' :: (dumpChildren ks ++ rest)) := by
      rw [dumpChildren]
      simp only [List.append_assoc]
      rfl
    rw [e, lex_any k, lex_punct _ (by simp), lex_any_all ks, Ast.mapTexts, toksAll, Ast.shownAll, List.any_append]
    cases k.shown.any hasSubst <;> cases (Ast.shownAll ks).any hasSubst <;> cases jsLex rest <;> simp
end

theorem any_subst (l : List Str) : l.any hasSubst = true ↔ ∃ s ∈ l, ['$', '{'] <:+: s := by
  simp [hasSubst_iff]

/-- **C49** What is drawn, for every tree: with `${` in a name or a text it is no literal; otherwise it reads as the tree with
the line ends of all names and texts normalised (as in every template literal), and as nothing else. -/
theorem C49_exact (r : RuleContext) :
    ((∃ s ∈ r.toAst.shown, ['$', '{'] <:+: s) → jsLex (dump r) = none) ∧
    ((∀ s ∈ r.toAst.shown, ¬ ['$', '{'] <:+: s) →
      ∃ v, JsReadsAs (dump r) v ∧ v.view = some (r.toAst.toView.mapText normLines)) := by
  have h := lex_any r.toAst []
  rw [List.append_nil, show dumpChild r.toAst = dump r from rfl] at h
  constructor
  · intro hs
    rw [h, if_pos ((any_subst _).2 hs)]
  · intro hs
    rw [if_neg (fun h' => by
      obtain ⟨s, h1, h2⟩ := (any_subst _).1 h'
      exact hs s h1 h2)] at h
    obtain ⟨n, hn⟩ := value_toks (r.toAst.mapText normLines)
    refine ⟨jsOf (r.toAst.mapText normLines), ⟨toks (r.toAst.mapText normLines), n, by rw [h]; simp [jsLex], fun fuel hf => ?_⟩, ?_⟩
    · have := hn fuel hf []
      rwa [List.append_nil] at this
    · rw [view_jsOf, toView_mapText]

mutual
theorem mapText_fixed {f : Str → Str} : ∀ {a : Ast}, a.toView.mapText f = a.toView ↔ ∀ s ∈ a.shown, f s = s
  | .terminal t => by simp [Ast.toView, View.mapText, Ast.shown]
  | .error t => by simp [Ast.toView, View.mapText, Ast.shown]
  | .rule n i ks => by simp [Ast.toView, View.mapText, Ast.shown, mapTexts_fixed (f := f) (ks := ks)]
theorem mapTexts_fixed {f : Str → Str} : ∀ {ks : List Ast},
    View.mapTexts f (Ast.toViews ks) = Ast.toViews ks ↔ ∀ s ∈ Ast.shownAll ks, f s = s
  | [] => by simp [Ast.toViews, View.mapTexts, Ast.shownAll]
  | k :: ks => by
    simp only [Ast.toViews, View.mapTexts, Ast.shownAll, List.cons.injEq, List.mem_append, or_imp, forall_and,
      mapText_fixed (f := f) (a := k), mapTexts_fixed (f := f) (ks := ks)]
end

theorem readsAs_unique {s : Str} {v v' : JsVal} (h : JsReadsAs s v) (h' : JsReadsAs s v') : v = v' := by
  obtain ⟨ts, n, h1, h2⟩ := h
  obtain ⟨ts', n', h1', h2'⟩ := h'
  rw [h1'] at h1
  cases h1
  have e1 := h2 (n + n') (by omega)
  have e2 := h2' (n + n') (by omega)
  rw [e1] at e2
  cases e2
  rfl

/-- **C49** Exactly the trees without carriage return and `${` in their names and texts are drawn as they are. -/
theorem C49_drawn_iff (r : RuleContext) :
    (∃ v, JsReadsAs (dump r) v ∧ v.view = some r.toAst.toView) ↔ ∀ s ∈ r.toAst.shown, Clean s := by
  constructor
  · rintro ⟨v, h1, h2⟩
    have hs : ∀ s ∈ r.toAst.shown, ¬ ['$', '{'] <:+: s := by
      intro s hs hi
      have := (C49_exact r).1 ⟨s, hs, hi⟩
      obtain ⟨ts, n, h3, -⟩ := h1
      rw [this] at h3
      cases h3
    obtain ⟨v', h3, h4⟩ := (C49_exact r).2 hs
    obtain rfl := readsAs_unique h1 h3
    rw [h2] at h4
    have := mapText_fixed.1 (Option.some.inj h4).symm
    intro s h
    refine ⟨?_, hs s h⟩
    rw [← this s h]
    exact normLines_no_cr s
  · exact C49_drawn_tree_partial r

/-- **C49** Two trees without `${` are drawn as the same value exactly if they differ in line ends only. -/
theorem C49_alike_iff (r r' : RuleContext) (h : ∀ s ∈ r.toAst.shown, ¬ ['$', '{'] <:+: s)
    (h' : ∀ s ∈ r'.toAst.shown, ¬ ['$', '{'] <:+: s) :
    (∃ v v', JsReadsAs (dump r) v ∧ JsReadsAs (dump r') v' ∧ v.view = v'.view) ↔
      r.toAst.toView.mapText normLines = r'.toAst.toView.mapText normLines := by
  obtain ⟨v, h1, h2⟩ := (C49_exact r).2 h
  obtain ⟨v', h1', h2'⟩ := (C49_exact r').2 h'
  constructor
  · rintro ⟨w, w', k1, k2, e⟩
    obtain rfl := readsAs_unique k1 h1
    obtain rfl := readsAs_unique k2 h1'
    rw [h2, h2'] at e
    exact Option.some.inj e
  · intro e
    exact ⟨v, v', h1, h1', by rw [h2, h2', e]⟩

/-- a tree with a carriage return and no `${` -/
def crTree : RuleContext := ⟨"r".toList, [.terminal (Token.new 1 "A".toList "a\r\nb".toList)], 0⟩

example : (∃ v, JsReadsAs (dump crTree) v ∧ v.view = some (.node ['r'] 0 [.leaf ['A'] ['a', '\n', 'b']])) ∧
    ¬ ∃ v, JsReadsAs (dump crTree) v ∧ v.view = some crTree.toAst.toView := by
  constructor
  · obtain ⟨v, h1, h2⟩ := (C49_exact crTree).2 (by
      intro s hs
      rw [← hasSubst_iff]
      simp only [crTree, RuleContext.toAst, Ast.shown, Ast.shownAll, Token.new, List.append_nil, List.mem_cons,
        List.not_mem_nil, or_false] at hs
      rcases hs with rfl | rfl | rfl <;> decide)
    exact ⟨v, h1, h2⟩
  · rw [C49_drawn_iff]
    intro h
    exact (h "a\r\nb".toList (by simp [crTree, RuleContext.toAst, Ast.shown, Ast.shownAll, Token.new])).1 (by decide)

end Syntaxis
