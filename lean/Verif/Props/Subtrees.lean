import Verif.Spec.Subtree
import Verif.Props.Parser
import Verif.Props.ParserErrors

/-!
# C104: every node is what the parser makes of its tokens; C105: edits inside a node can be re-parsed locally
-/

namespace Syntaxis
open Grammar

/-! ## C104 -/

theorem Ast.At.append {xs ys : List Ast} {d : Nat} {x : Ast} (h : Ast.At (xs ++ ys) d x) :
    Ast.At xs d x ∨ ∃ e, d = (Ast.leavesList xs).length + e ∧ Ast.At ys e x := by
  induction xs generalizing d with
  | nil => exact .inr ⟨d, by simp [Ast.leavesList], h⟩
  | cons k xs ih =>
    rw [List.cons_append] at h
    cases h with
    | here => exact .inl (.here _ _)
    | later _ h =>
      rcases ih h with h | ⟨e, rfl, h'⟩
      · exact .inl (.later _ h)
      · exact .inr ⟨e, by simp [Ast.leavesList]; omega, h'⟩
    | inside _ _ _ h => exact .inl (.inside _ _ _ h)

/-- the messages of a parser that starts `d` tokens earlier -/
def MismatchLog.shift (d : Nat) (l : MismatchLog) : MismatchLog := l.map fun m => (m.1, d + m.2)

variable {ps : Parser}

/-- a run inside a run -/
theorem Run.sub {α : List Item} {c c' : Nat} {f : List PTree} {ks : List Ast} {l : MismatchLog}
    (h : Run ps α c f ks c' l) : ∀ {d : Nat} {nm : Str} {B : Nat} {kids : List Ast}, Ast.At ks d (.rule nm B kids) →
      nm = ps.vocabulary.getNonterminalNameWithDefault B ∧ ∃ tok p f' e l' l1 l2, ps.tokens[c + d]? = some tok ∧
        ps.table.get (B, tok.tokenType) = some p ∧ Run ps p.right (c + d) f' kids e l' ∧ l = l1 ++ l' ++ l2 := by
  induction h with
  | nil c =>
    intro d nm B kids h
    cases h
  | @t a tok c c' rest f ks l htok _ ih =>
    intro d nm B kids h
    cases h with
    | later _ h =>
      obtain ⟨h1, tok', p, f', e, l', l1, l2, h2, h3, h4, rfl⟩ := ih h
      refine ⟨h1, tok', p, f', e, l', (if a ≠ tok.tokenType then [(a, c)] else []) ++ l1, l2, ?_, h3, ?_, by simp⟩
      · rw [← h2, Ast.leaves, List.length_singleton]
        congr 1
        omega
      · rw [Ast.leaves, List.length_singleton]
        rwa [Nat.add_assoc] at h4
  | @nt A tok p c c1 c2 rest f1 f2 ks1 ks2 l1 l2 htok hp hr1 _ ih1 ih2 =>
    intro d nm B kids h
    rcases h.append with h | ⟨e, rfl, h'⟩
    · have inner : ∀ {d}, Ast.At ks1 d (.rule nm B kids) → nm = ps.vocabulary.getNonterminalNameWithDefault B ∧
          ∃ tok p f' e l' m1 m2, ps.tokens[c + d]? = some tok ∧ ps.table.get (B, tok.tokenType) = some p ∧
            Run ps p.right (c + d) f' kids e l' ∧ l1 ++ l2 = m1 ++ l' ++ m2 := by
        intro d h
        obtain ⟨h1, tok', p, f', e, l', m1, m2, h2, h3, h4, rfl⟩ := ih1 h
        exact ⟨h1, tok', p, f', e, l', m1, m2 ++ l2, h2, h3, h4, by simp⟩
      rw [Parser.wrap] at h
      split at h
      · cases h with
        | here => exact ⟨rfl, tok, p, f1, c1, l1, [], l2, htok, hp, hr1, by simp⟩
        | later _ h => cases h
        | inside _ _ _ h => exact inner h
      · exact inner h
    · obtain ⟨h1, tok', p', f', e', l', m1, m2, h2, h3, h4, rfl⟩ := ih2 h'
      have hlen : c + (Ast.leavesList (ps.wrap A ks1)).length = c1 := by
        obtain ⟨d1, d2, d3⟩ := hr1.diffs
        rw [leavesList_wrap]
        rw [List.length_map] at d1
        omega
      refine ⟨h1, tok', p', f', e', l', l1 ++ m1, m2, ?_, h3, ?_, by simp⟩
      · rw [← Nat.add_assoc, hlen]
        exact h2
      · rw [← Nat.add_assoc, hlen]
        exact h4

/-- a run on another token list with the same tokens, further left -/
theorem Run.move {α : List Item} {c c' : Nat} {f : List PTree} {ks : List Ast} {l : MismatchLog}
    (h : Run ps α c f ks c' l) {d b : Nat} (hd : c = d + b) {toks : List Token}
    (ht : ∀ i, c ≤ i → i ≤ c' → toks[i - d]? = ps.tokens[i]?) :
    ∃ l', l = MismatchLog.shift d l' ∧ Run { ps with tokens := toks } α b f ks (c' - d) l' := by
  induction h generalizing b with
  | nil c =>
    subst hd
    exact ⟨[], rfl, by rw [Nat.add_sub_cancel_left]; exact .nil b⟩
  | @t a tok c c' rest f ks l htok hr ih =>
    have hle := hr.leaves.1
    obtain ⟨l', rfl, h2⟩ := ih (b := b + 1) (by omega) (fun i h1 h2 => ht i (by omega) h2)
    have h3 := ht c (Nat.le_refl _) (by omega)
    rw [htok, hd, Nat.add_sub_cancel_left] at h3
    refine ⟨(if a ≠ tok.tokenType then [(a, b)] else []) ++ l', ?_, .t h3 h2⟩
    rw [MismatchLog.shift, MismatchLog.shift, List.map_append]
    congr 1
    split
    · simp [hd]
    · rfl
  | @nt A tok p c c1 c2 rest f1 f2 ks1 ks2 l1 l2 htok hp hr1 hr2 ih1 ih2 =>
    have hle1 := hr1.leaves.1
    have hle2 := hr2.leaves.1
    obtain ⟨m1, rfl, h1⟩ := ih1 hd (fun i h1 h2 => ht i h1 (by omega))
    obtain ⟨m2, rfl, h2⟩ := ih2 (b := c1 - d) (by omega) (fun i h1 h2 => ht i (by omega) h2)
    have h3 := ht c (Nat.le_refl _) (by omega)
    rw [htok, hd, Nat.add_sub_cancel_left] at h3
    exact ⟨m1 ++ m2, by simp [MismatchLog.shift], .nt h3 hp h1 h2⟩

/-- **C104** whatever the table: a rule node anywhere in a returned tree is exactly what the parser returns when it is
started at that rule with the tokens of the node and the one behind them (and any others after that); it then prints the
messages that were printed in between, at positions counted from the first token of the node. -/
theorem C104_node_reparsed (ps : Parser) (A fuel : Nat) (r : RuleContext) (log : MismatchLog)
    (h : ps.parseRule A fuel = .ok (r, log)) (d : Nat) (x : RuleContext) (hx : Ast.At [r.toAst] d x.toAst) :
    ∃ before log' after, log = before ++ MismatchLog.shift d log' ++ after ∧
      ∀ toks', toks'.take (x.toAst.leaves.length + 1) = (ps.tokens.drop d).take (x.toAst.leaves.length + 1) →
        ∃ n, ∀ fuel', n ≤ fuel' → Parser.parseRule { ps with tokens := toks' } x.ruleIndex fuel' = .ok (x, log') := by
  obtain ⟨c, h⟩ := Parser.parseRule_ok.1 h
  obtain ⟨e1, e2, tok, p, f, htok, hp, hrun⟩ := parseAst_run h
  have hsub : x.ruleName = ps.vocabulary.getNonterminalNameWithDefault x.ruleIndex ∧
      ∃ tok p f' e l' l1 l2, ps.tokens[d]? = some tok ∧ ps.table.get (x.ruleIndex, tok.tokenType) = some p ∧
        Run ps p.right d f' x.children e l' ∧ log = l1 ++ l' ++ l2 := by
    cases hr : r with
    | mk rn rk ri =>
      cases hx' : x with
      | mk xn xk xi =>
        subst hr hx'
        simp only [RuleContext.toAst] at hx
        cases hx with
        | here => exact ⟨by rw [e2]; exact congrArg _ e1.symm, tok, p, f, c, log, [], [], htok, by rw [← hp]; exact congrArg (fun a => ps.table.get (a, tok.tokenType)) e1, hrun, by simp⟩
        | later _ h => cases h
        | inside _ _ _ h =>
          have := hrun.sub h
          simpa using this
  obtain ⟨hn, tok', p', f', e, l', l1, l2, h2, h3, h4, rfl⟩ := hsub
  have hlen : x.toAst.leaves.length + d = e := by
    obtain ⟨d1, d2, d3⟩ := h4.diffs
    rw [List.length_map] at d1
    simp only [RuleContext.toAst, Ast.leaves]
    omega
  have hshift : ∃ l'', l' = MismatchLog.shift d l'' := by
    obtain ⟨l'', h5, _⟩ := h4.move (d := d) (b := 0) (by omega) (toks := ps.tokens.drop d)
      (fun i h1 h2 => by rw [List.getElem?_drop]; congr 1; omega)
    exact ⟨l'', h5⟩
  obtain ⟨l'', hl''⟩ := hshift
  refine ⟨l1, l'', l2, by rw [hl''], fun toks' ht => ?_⟩
  have hget : ∀ i, d ≤ i → i ≤ e → toks'[i - d]? = ps.tokens[i]? := by
    intro i hi1 hi2
    have := congrArg (fun l => l[i - d]?) ht
    rw [List.getElem?_take, List.getElem?_take, if_pos (by omega), if_pos (by omega), List.getElem?_drop] at this
    rw [this]
    congr 1
    omega
  obtain ⟨m, h5, h6⟩ := h4.move (d := d) (b := 0) (by omega) hget
  have hm : m = l'' := by
    rw [hl''] at h5
    have := List.map_injective_iff (f := fun m : Nat × Nat => (m.1, d + m.2)) |>.2 (by
      rintro ⟨a, b⟩ ⟨a', b'⟩ h
      simp only [Prod.mk.injEq, Nat.add_left_cancel_iff] at h
      exact Prod.ext h.1 h.2) h5
    exact this.symm
  subst hm
  have h7 : toks'[0]? = some tok' := by
    have := hget d (Nat.le_refl _) (by omega)
    rwa [Nat.sub_self, h2] at this
  obtain ⟨n, hn'⟩ := run_parseAst (ps := { ps with tokens := toks' }) h7 h3 h6
  refine ⟨n, fun fuel' hf => Parser.parseRule_ok.2 ⟨e - d, ?_⟩⟩
  rw [hn' fuel' hf]
  simp only [← hn]

/-! ## C105 -/

/-- the trees that are built for derivation trees -/
inductive Shape (v : Vocabulary) : List PTree → List Ast → Prop
  | nil : Shape v [] []
  | leaf (tok : Token) {a : Nat} (ha : tok.tokenType = a) {f : List PTree} {ks : List Ast} (h : Shape v f ks) :
      Shape v (.leaf a :: f) (.terminal tok :: ks)
  | named (p : Production) {n : Str} (hn : v.getNonterminalNameById p.left = some n) {f1 f2 : List PTree}
      {ks1 ks2 : List Ast} (h1 : Shape v f1 ks1) (h2 : Shape v f2 ks2) :
      Shape v (.node p f1 :: f2) (.rule (v.getNonterminalNameWithDefault p.left) p.left ks1 :: ks2)
  | unnamed (p : Production) (hn : v.getNonterminalNameById p.left = none) {f1 f2 : List PTree}
      {ks1 ks2 : List Ast} (h1 : Shape v f1 ks1) (h2 : Shape v f2 ks2) :
      Shape v (.node p f1 :: f2) (ks1 ++ ks2)

theorem Run.shape {P : List Production} (hT : TableOf P ps.table) {α : List Item} {c d : Nat} {f : List PTree}
    {ks : List Ast} {l : MismatchLog} (h : Run ps α c f ks d l) (hl : l = []) : Shape ps.vocabulary f ks := by
  induction h with
  | nil c => exact .nil
  | @t a tok c c' rest f ks l htok _ ih =>
    rw [List.append_eq_nil_iff] at hl
    have ha : a = tok.tokenType := by
      by_contra hne
      rw [if_pos hne] at hl
      cases hl.1
    exact .leaf tok ha.symm (ih hl.2)
  | @nt A tok p c c1 c2 rest f1 f2 ks1 ks2 l1 l2 htok hp _ _ ih1 ih2 =>
    rw [List.append_eq_nil_iff] at hl
    obtain ⟨_, rfl⟩ := hT _ _ _ hp
    rw [Parser.wrap]
    cases hn : ps.vocabulary.getNonterminalNameById p.left with
    | none => exact .unnamed p hn (ih1 hl.1) (ih2 hl.2)
    | some n => exact .named p hn (ih1 hl.1) (ih2 hl.2)

theorem Shape.yields {v : Vocabulary} {f : List PTree} {ks : List Ast} (h : Shape v f ks) :
    PTree.yields f = (Ast.leavesList ks).map Token.tokenType := by
  induction h with
  | nil => rfl
  | leaf tok ha _ ih => simp [PTree.yields, PTree.yield, Ast.leavesList, Ast.leaves, ih, ha]
  | named p hn _ _ ih1 ih2 => simp [PTree.yields, PTree.yield, Ast.leavesList, Ast.leaves, ih1, ih2]
  | unnamed p hn _ _ ih1 ih2 => simp [PTree.yields, PTree.yield, leavesList_append, ih1, ih2]

/-- derivation tree and tokens determine the tree -/
theorem Shape.det {v : Vocabulary} {f : List PTree} {ks ks' : List Ast} (h : Shape v f ks) (h' : Shape v f ks')
    (hl : Ast.leavesList ks = Ast.leavesList ks') : ks = ks' := by
  induction h generalizing ks' with
  | nil =>
    cases h'
    rfl
  | leaf tok _ _ ih =>
    cases h' with
    | leaf tok' _ h' =>
      simp only [Ast.leavesList, Ast.leaves, List.singleton_append, List.cons.injEq] at hl
      rw [hl.1, ih h' hl.2]
  | named p hn h1 _ ih1 ih2 =>
    cases h' with
    | named _ _ h1' h2' =>
      simp only [Ast.leavesList, Ast.leaves] at hl
      have hlen := congrArg List.length (h1.yields.symm.trans h1'.yields)
      rw [List.length_map, List.length_map] at hlen
      obtain ⟨e1, e2⟩ := List.append_inj hl hlen
      rw [ih1 h1' e1, ih2 h2' e2]
    | unnamed _ hn' => rw [hn] at hn'; cases hn'
  | unnamed p hn h1 _ ih1 ih2 =>
    cases h' with
    | named _ hn' => rw [hn] at hn'; cases hn'
    | unnamed _ _ h1' h2' =>
      rw [leavesList_append, leavesList_append] at hl
      have hlen := congrArg List.length (h1.yields.symm.trans h1'.yields)
      rw [List.length_map, List.length_map] at hlen
      obtain ⟨e1, e2⟩ := List.append_inj hl hlen
      rw [ih1 h1' e1, ih2 h2' e2]

theorem Ast.Put.append {x y : Ast} {xs ys zs : List Ast} {d : Nat} (h : Ast.Put x y (xs ++ ys) d zs) :
    (∃ xs', zs = xs' ++ ys ∧ Ast.Put x y xs d xs') ∨
    ∃ e ys', d = (Ast.leavesList xs).length + e ∧ zs = xs ++ ys' ∧ Ast.Put x y ys e ys' := by
  induction xs generalizing d zs with
  | nil => exact .inr ⟨d, zs, by simp [Ast.leavesList], rfl, h⟩
  | cons k xs ih =>
    rw [List.cons_append] at h
    cases h with
    | here => exact .inl ⟨_ :: xs, rfl, .here _⟩
    | later _ h =>
      rcases ih h with ⟨xs', rfl, h'⟩ | ⟨e, ys', rfl, rfl, h'⟩
      · exact .inl ⟨k :: xs', rfl, .later _ h'⟩
      · exact .inr ⟨e, ys', by simp [Ast.leavesList]; omega, rfl, h'⟩
    | inside _ _ _ h => exact .inl ⟨_ :: xs, rfl, .inside _ _ _ h⟩

theorem Ast.Put.leaves {x y : Ast} {xs ys : List Ast} {d : Nat} (h : Ast.Put x y xs d ys) :
    ∃ u w, u.length = d ∧ Ast.leavesList xs = u ++ x.leaves ++ w ∧ Ast.leavesList ys = u ++ y.leaves ++ w := by
  induction h with
  | here ks => exact ⟨[], Ast.leavesList ks, rfl, rfl, rfl⟩
  | later k _ ih =>
    obtain ⟨u, w, rfl, h1, h2⟩ := ih
    exact ⟨k.leaves ++ u, w, by simp, by simp [Ast.leavesList, h1], by simp [Ast.leavesList, h2]⟩
  | inside n i ks _ ih =>
    obtain ⟨u, w, rfl, h1, h2⟩ := ih
    exact ⟨u, w ++ Ast.leavesList ks, rfl, by simp [Ast.leavesList, Ast.leaves, h1],
      by simp [Ast.leavesList, Ast.leaves, h2]⟩

/-- exchanging a node for one of the same rule -/
theorem Shape.put {v : Vocabulary} {P : List Production} {f : List PTree} {ks : List Ast} (h : Shape v f ks)
    (hv : PTree.Valids P f) {nm : Str} {B : Nat} {q : Production} (hB : q.left = B) {kids kids' : List Ast}
    {f' : List PTree} (hq : (PTree.node q f').Valid P) (hs : Shape v f' kids') {d : Nat} {ks' : List Ast}
    (hp : Ast.Put (.rule nm B kids) (.rule (v.getNonterminalNameWithDefault B) B kids') ks d ks') :
    ∃ g, PTree.Valids P g ∧ g.map PTree.root = f.map PTree.root ∧ Shape v g ks' := by
  induction h generalizing d ks' with
  | nil => cases hp
  | @leaf tok a ha _ _ _ ih =>
    simp only [PTree.Valids] at hv
    cases hp with
    | later _ hp =>
      obtain ⟨g, h1, h2, h3⟩ := ih hv.2 hp
      exact ⟨.leaf a :: g, by simp [PTree.Valids, PTree.Valid, h1], by simp [h2], .leaf tok ha h3⟩
  | @named p n hn f1 f2 ks1 ks2 h1 h2 ih1 ih2 =>
    simp only [PTree.Valids] at hv
    cases hp with
    | here =>
      refine ⟨.node q f' :: f2, ?_, ?_, ?_⟩
      · simp only [PTree.Valids]
        exact ⟨hq, hv.2⟩
      · simp only [List.map_cons, PTree.root, hB]
      · rw [← hB] at hn ⊢
        exact .named q hn hs h2
    | later _ hp =>
      obtain ⟨g, h3, h4, h5⟩ := ih2 hv.2 hp
      exact ⟨.node p f1 :: g, by simp only [PTree.Valids]; exact ⟨hv.1, h3⟩, by simp [h4], .named p hn h1 h5⟩
    | inside _ _ _ hp =>
      simp only [PTree.Valid] at hv
      obtain ⟨g, h3, h4, h5⟩ := ih1 hv.1.2.2 hp
      refine ⟨.node p g :: f2, ?_, by simp [PTree.root], .named p hn h5 h2⟩
      simp only [PTree.Valids, PTree.Valid]
      exact ⟨⟨hv.1.1, h4.trans hv.1.2.1, h3⟩, hv.2⟩
  | @unnamed p hn f1 f2 ks1 ks2 h1 h2 ih1 ih2 =>
    simp only [PTree.Valids, PTree.Valid] at hv
    rcases hp.append with ⟨xs', rfl, hp'⟩ | ⟨e, ys', rfl, rfl, hp'⟩
    · obtain ⟨g, h3, h4, h5⟩ := ih1 hv.1.2.2 hp'
      refine ⟨.node p g :: f2, ?_, by simp [PTree.root], .unnamed p hn h5 h2⟩
      simp only [PTree.Valids, PTree.Valid]
      exact ⟨⟨hv.1.1, h4.trans hv.1.2.1, h3⟩, hv.2⟩
    · obtain ⟨g, h3, h4, h5⟩ := ih2 hv.2 hp'
      refine ⟨.node p f1 :: g, ?_, by simp [h4], .unnamed p hn h1 h5⟩
      simp only [PTree.Valids, PTree.Valid]
      exact ⟨hv.1, h3⟩

/-- a tree of the grammar is what the parser returns for its tokens -/
theorem shape_parsed {g : Grammar} {o : IterOrder g} {so : SetOrder} {fuel : Nat} {ts : TableState}
    (h : runTable g o so fuel = .ok ts) (hc : ts.conflicts = []) {p : Production} {f : List PTree} {ks : List Ast}
    (hv : (PTree.node p f).Valid g.productions) (hs : Shape g.vocabulary f ks) {e : Token} {rest : List Token}
    (he : InFollow g.productions p.left e.tokenType) :
    ∃ n, ∀ k, n ≤ k → (parserOf g ts (Ast.leavesList ks ++ e :: rest)).parseRule p.left k =
      .ok (⟨g.vocabulary.getNonterminalNameWithDefault p.left, ks, p.left⟩, []) := by
  have hsp : Spells (parserOf g ts (Ast.leavesList ks ++ e :: rest)) 0 ((PTree.node p f).yield ++ [e.tokenType]) := by
    refine spells_of_types (rest := rest.map Token.tokenType) ?_
    rw [PTree.yield, hs.yields, List.map_append, List.map_cons]
  obtain ⟨ks', hrun⟩ := run_complete_tree (ps := parserOf g ts (Ast.leavesList ks ++ e :: rest))
    (tableComplete_of h hc) hv (fun B hB => by rw [PTree.root] at hB; cases hB; exact flw_iff.2 he) hsp
  rw [PTree.root] at hrun
  generalize hl : ([] : MismatchLog) = l0 at hrun
  cases hrun with
  | nt htok hp hrun hnil =>
    cases hnil
    rw [List.append_nil] at hl
    subst hl
    obtain ⟨n, hn⟩ := run_parseAst htok hp hrun
    rename_i tok ks1
    have hks : ks1 = ks := by
      refine Shape.det (hrun.shape (tableOf_of h) rfl) hs ?_
      rw [hrun.leaves.2.2, PTree.yield, hs.yields]
      simp [parserOf]
    rw [hks] at hn
    exact ⟨n, fun k hk => Parser.parseRule_ok.2 ⟨_, hn k hk⟩⟩

/-- **C105** without conflicts: if the tokens of a node of a tree are replaced by tokens that the parser, started at the
rule of the node, accepts without message - whatever comes after them there -, then parsing the changed token list
gives the old tree with the new node in the place of the old. -/
theorem C105_local_reparse (g : Grammar) (o : IterOrder g) (so : SetOrder) (fuel : Nat) (ts : TableState)
    (h : runTable g o so fuel = .ok ts) (hc : ts.conflicts = []) (A j : Nat) (toks rest : List Token) (e : Token)
    (he : InFollow g.productions A e.tokenType) (r : RuleContext)
    (hr : (parserOf g ts (toks ++ e :: rest)).parseRule A j = .ok (r, [])) (hl : r.toAst.leaves = toks)
    (x y : RuleContext) (toks' : List Token) (j' : Nat)
    (hy : (parserOf g ts toks').parseRule x.ruleIndex j' = .ok (y, [])) (d : Nat) (z : RuleContext)
    (hz : Ast.Put x.toAst y.toAst [r.toAst] d [z.toAst]) :
    ∃ n, ∀ k, n ≤ k → (parserOf g ts (toks.take d ++ y.toAst.leaves ++ toks.drop (d + x.toAst.leaves.length) ++
      e :: rest)).parseRule A k = .ok (z, []) := by
  obtain ⟨c, hr⟩ := Parser.parseRule_ok.1 hr
  obtain ⟨rfl, e2, tok, p, f, htok, hp, hrun⟩ := parseAst_run hr
  obtain ⟨c', hy⟩ := Parser.parseRule_ok.1 hy
  obtain ⟨a1, a2, tok', q, f', htok', hq, hrun'⟩ := parseAst_run hy
  have hT := tableOf_of h
  obtain ⟨hpP, hpl⟩ := hT _ _ _ hp
  obtain ⟨hqP, hql⟩ := hT _ _ _ hq
  obtain ⟨v1, v2⟩ := hrun.valid hT
  obtain ⟨v3, v4⟩ := hrun'.valid hT
  have s1 := hrun.shape hT rfl
  have s2 := hrun'.shape hT rfl
  have vq : (PTree.node q f').Valid g.productions := by
    rw [PTree.Valid]
    exact ⟨hqP, v4, v3⟩
  -- the tokens
  have htoks : toks.take d ++ y.toAst.leaves ++ toks.drop (d + x.toAst.leaves.length) = z.toAst.leaves := by
    obtain ⟨u, w, hu, h1, h2⟩ := hz.leaves
    simp only [Ast.leavesList, List.append_nil] at h1 h2
    rw [← hl, h1, h2, ← hu]
    rw [← List.length_append, List.drop_left, List.append_assoc u, List.take_left]
  rw [htoks]
  -- the tree
  have key : ∃ p' f'', p'.left = r.ruleIndex ∧ (PTree.node p' f'').Valid g.productions ∧
      Shape g.vocabulary f'' z.children ∧
      z = ⟨g.vocabulary.getNonterminalNameWithDefault r.ruleIndex, z.children, r.ruleIndex⟩ := by
    cases hre : r with
    | mk rn rk ri =>
    cases hxe : x with
    | mk xn xk xi =>
    cases hye : y with
    | mk yn yk yi =>
    cases hze : z with
    | mk zn zk zi =>
      subst hre hxe hye hze
      simp only at a1 a2 e2 hpl hql
      subst a1 a2 e2
      simp only [RuleContext.toAst] at hz
      generalize hzz : [Ast.rule zn zi zk] = zz at hz
      cases hz with
      | here =>
        cases hzz
        exact ⟨q, f', hql, vq, s2, rfl⟩
      | later _ hz => cases hz
      | inside _ _ _ hz =>
        cases hzz
        obtain ⟨f'', h1, h2, h3⟩ := Shape.put s1 v1 hql vq s2 hz
        refine ⟨p, f'', hpl, ?_, h3, rfl⟩
        rw [PTree.Valid]
        exact ⟨hpP, h2.trans v2, h1⟩
  obtain ⟨p', f'', hp', hv', hs', hze⟩ := key
  obtain ⟨n, hn⟩ := shape_parsed h hc hv' hs' (e := e) (rest := rest) (by rw [hp']; exact he)
  refine ⟨n, fun k hk => ?_⟩
  have := hn k hk
  rw [hp', ← hze] at this
  rw [← this, hze]
  simp only [RuleContext.toAst, Ast.leaves]

/-! ## examples -/

/-- `e : t ('+' t)*`, `t : ID | '(' e ')'`, i.e. `E → T 1`, `1 → '+' T 1 | ε`, `T → ID | '(' E ')'` with `'+'` = 3,
`ID` = 2, `'('` = 4, `')'` = 5 -/
def nestGrammar : Grammar where
  name := []
  vocabulary := ((Vocabulary.new.addNamedNonterminal 0 ['e']).1.addNamedNonterminal 2 ['t']).1.addUnnamedNonterminal 1 |>.1
  productions := [⟨0, [.nt 2, .nt 1]⟩, ⟨1, [.t 3, .nt 2, .nt 1]⟩, ⟨1, []⟩, ⟨2, [.t 2]⟩, ⟨2, [.t 4, .nt 0, .t 5]⟩]

/-- some iteration order of it -/
def nestOrder : IterOrder nestGrammar where
  ids := [2, 0, 1]
  ids_mem := by
    intro i
    have : nestGrammar.vocabulary.nonterminals = {0, 1, 2} := by decide
    rw [this]; simp; tauto
  ord := nestGrammar.productions.reverse
  ord_perm := List.reverse_perm _
  ord_nodup := by decide

/-- the node `t : ID` -/
def nestId : Ast := .rule ['t'] 2 [.terminal (tk 2)]

/-- the tree of `'(' ID ')' '+' ID` -/
def nestTree : RuleContext := ⟨['e'], [.rule ['t'] 2 [.terminal (tk 4), .rule ['e'] 0 [nestId], .terminal (tk 5)],
  .terminal (tk 3), nestId], 0⟩

/-- the tree of `'(' ID '+' ID ')' '+' ID` -/
def nestTree' : RuleContext := ⟨['e'], [.rule ['t'] 2 [.terminal (tk 4),
  .rule ['e'] 0 [nestId, .terminal (tk 3), nestId], .terminal (tk 5)], .terminal (tk 3), nestId], 0⟩

/-- non-vacuity of C104 and C105: the tree of `'(' ID ')' '+' ID` has a node `e` behind its first token; exchanging it
for the tree of `ID '+' ID` gives the tree of `'(' ID '+' ID ')' '+' ID` -/
example : ∃ ts, runTable nestGrammar nestOrder incSetOrder 10 = .ok ts ∧ ts.conflicts = [] ∧
    (parserOf nestGrammar ts ([tk 4, tk 2, tk 5, tk 3, tk 2] ++ tk 1 :: [])).parseRule 0 10 = .ok (nestTree, []) ∧
    nestTree.toAst.leaves = [tk 4, tk 2, tk 5, tk 3, tk 2] ∧
    Ast.At [nestTree.toAst] 1 (.rule ['e'] 0 [nestId]) ∧
    (parserOf nestGrammar ts [tk 2, tk 3, tk 2, tk 1]).parseRule 0 10 =
      .ok (⟨['e'], [nestId, .terminal (tk 3), nestId], 0⟩, []) ∧
    Ast.Put (.rule ['e'] 0 [nestId]) (.rule ['e'] 0 [nestId, .terminal (tk 3), nestId]) [nestTree.toAst] 1
      [nestTree'.toAst] ∧ InFollow nestGrammar.productions 0 (tk 1).tokenType := by
  have h : ((runTable nestGrammar nestOrder incSetOrder 10).bind fun ts =>
      .ok (ts.conflicts, (parserOf nestGrammar ts [tk 4, tk 2, tk 5, tk 3, tk 2, tk 1]).parseRule 0 10,
        (parserOf nestGrammar ts [tk 2, tk 3, tk 2, tk 1]).parseRule 0 10)) =
      .ok ([], .ok (nestTree, []), .ok (⟨['e'], [nestId, .terminal (tk 3), nestId], 0⟩, [])) := by rfl
  cases hr : runTable nestGrammar nestOrder incSetOrder 10 with
  | error e => rw [hr] at h; cases h
  | ok ts =>
    rw [hr] at h
    have h' := Except.ok.inj h
    simp only [Prod.mk.injEq] at h'
    refine ⟨ts, rfl, h'.1, h'.2.1, rfl, ?_, h'.2.2, ?_, stop_follows_start _⟩
    · exact .inside _ _ _ (.inside _ _ _ (.later (.terminal (tk 4)) (.here _ _)))
    · exact .inside _ _ _ (.inside _ _ _ (.later (.terminal (tk 4)) (.here _)))

end Syntaxis
