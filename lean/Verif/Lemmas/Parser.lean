import Verif.Lemmas.Cfg
import Verif.Model.Parser
import Verif.Spec.Tree

/-! # Big-step description of the parser -/

namespace Syntaxis

/-- what a finished rule contributes to its parent's children -/
def Parser.wrap (ps : Parser) (A : Nat) (ks : List Ast) : List Ast :=
  match ps.vocabulary.getNonterminalNameById A with
  | some _ => [.rule (ps.vocabulary.getNonterminalNameWithDefault A) A ks]
  | none => ks

/-- `Run ps α c f ks c' l`: parsing the items `α` from cursor `c` returns the children `ks` at cursor
`c'`, printing `l`; `f` records the productions applied. -/
inductive Run (ps : Parser) : List Item → Nat → List PTree → List Ast → Nat → MismatchLog → Prop
  | nil (c : Nat) : Run ps [] c [] [] c []
  | t {a : Nat} {tok : Token} {c c' : Nat} {rest : List Item} {f : List PTree} {ks : List Ast}
      {l : MismatchLog} : ps.tokens[c]? = some tok → Run ps rest (c + 1) f ks c' l →
      Run ps (.t a :: rest) c (.leaf a :: f) (.terminal tok :: ks) c'
        ((if a ≠ tok.tokenType then [(a, c)] else []) ++ l)
  | nt {A : Nat} {tok : Token} {p : Production} {c c1 c2 : Nat} {rest : List Item} {f1 f2 : List PTree}
      {ks1 ks2 : List Ast} {l1 l2 : MismatchLog} : ps.tokens[c]? = some tok →
      ps.table.get (A, tok.tokenType) = some p → Run ps p.right c f1 ks1 c1 l1 →
      Run ps rest c1 f2 ks2 c2 l2 →
      Run ps (.nt A :: rest) c (.node p f1 :: f2) (ps.wrap A ks1 ++ ks2) c2 (l1 ++ l2)

/-- parsing the items `α` from cursor `c` panics -/
inductive Panics (ps : Parser) : List Item → Nat → Prop
  | tok {x : Item} {rest : List Item} {c : Nat} : ps.tokens[c]? = none → Panics ps (x :: rest) c
  | t {a : Nat} {tok : Token} {rest : List Item} {c : Nat} : ps.tokens[c]? = some tok →
      Panics ps rest (c + 1) → Panics ps (.t a :: rest) c
  | entry {A : Nat} {tok : Token} {rest : List Item} {c : Nat} : ps.tokens[c]? = some tok →
      ps.table.get (A, tok.tokenType) = none → Panics ps (.nt A :: rest) c
  | sub {A : Nat} {tok : Token} {p : Production} {rest : List Item} {c : Nat} :
      ps.tokens[c]? = some tok → ps.table.get (A, tok.tokenType) = some p → Panics ps p.right c →
      Panics ps (.nt A :: rest) c
  | rest {A : Nat} {tok : Token} {p : Production} {rest : List Item} {c c1 : Nat} {f1 : List PTree}
      {ks1 : List Ast} {l1 : MismatchLog} :
      ps.tokens[c]? = some tok → ps.table.get (A, tok.tokenType) = some p →
      Run ps p.right c f1 ks1 c1 l1 → Panics ps rest c1 → Panics ps (.nt A :: rest) c

variable {ps : Parser}

/-- what a returning recursive call establishes -/
def RunRule (ps : Parser) (c A : Nat) (r : RuleContext) (c' : Nat) (l : MismatchLog) : Prop :=
  r.ruleIndex = A ∧ r.ruleName = ps.vocabulary.getNonterminalNameWithDefault A ∧
  ∃ tok p f, ps.tokens[c]? = some tok ∧ ps.table.get (A, tok.tokenType) = some p ∧
    Run ps p.right c f r.children c' l

theorem parseItems_run {call : Nat → Nat → Res (RuleContext × Nat × MismatchLog)}
    (hcall : ∀ c A r c' l, call c A = .ok (r, c', l) → RunRule ps c A r c' l)
    {α : List Item} {st st' : ItemState} (h : ps.parseItems call α st = .ok st') :
    ∃ f ks l, Run ps α st.cursor f ks st'.cursor l ∧ st'.children = st.children ++ ks ∧
      st'.log = st.log ++ l := by
  induction α generalizing st with
  | nil =>
    cases h
    exact ⟨[], [], [], Run.nil _, by simp, by simp⟩
  | cons x α ih =>
    cases x with
    | t a =>
      simp only [Parser.parseItems, Parser.tokenAt, bind_eq_ok, unwrap_eq_ok] at h
      obtain ⟨tok, htok, h⟩ := h
      obtain ⟨f, ks, l, h1, h2, h3⟩ := ih h
      refine ⟨_, _, _, Run.t htok h1, ?_, ?_⟩
      · simp [h2]
      · rw [h3]; simp only; split <;> simp
    | nt A =>
      simp only [Parser.parseItems, bind_eq_ok] at h
      obtain ⟨⟨r, c1, l1⟩, hc, h⟩ := h
      obtain ⟨f, ks, l, h1, h2, h3⟩ := ih h
      obtain ⟨e1, e2, tok, p, f1, g1, g2, g3⟩ := hcall _ _ _ _ _ hc
      refine ⟨_, _, _, Run.nt g1 g2 g3 h1, ?_, ?_⟩
      · rw [h2]
        simp only [Parser.wrap]
        cases hn : ps.vocabulary.getNonterminalNameById A with
        | none => simp
        | some n => simp [RuleContext.toAst, e1, e2]
      · rw [h3]; simp

theorem parseAst_run {fuel c A : Nat} {r : RuleContext} {c' : Nat} {l : MismatchLog}
    (h : ps.parseAst fuel c A = .ok (r, c', l)) : RunRule ps c A r c' l := by
  induction fuel generalizing c A r c' l with
  | zero => cases h
  | succ fuel ih =>
    simp only [Parser.parseAst, Parser.tokenAt, bind_eq_ok, unwrap_eq_ok] at h
    obtain ⟨tok, htok, p, hp, st, hst, h⟩ := h
    cases h
    obtain ⟨f, ks, l, h1, h2, h3⟩ := parseItems_run (fun c A r c' l h => ih h) hst
    simp only [List.nil_append] at h2 h3
    refine ⟨rfl, rfl, tok, p, f, htok, hp, ?_⟩
    simp only [h2, h3]
    exact h1

theorem run_parseItems {α : List Item} {c : Nat} {f : List PTree} {ks : List Ast} {c' : Nat}
    {l : MismatchLog} (h : Run ps α c f ks c' l) :
    ∃ n, ∀ fuel, n ≤ fuel → ∀ cs log,
      ps.parseItems (ps.parseAst fuel) α { children := cs, cursor := c, log } =
        .ok { children := cs ++ ks, cursor := c', log := log ++ l } := by
  induction h with
  | nil c => exact ⟨0, fun fuel _ cs log => by simp [Parser.parseItems]⟩
  | t htok _ ih =>
    obtain ⟨n, ih⟩ := ih
    refine ⟨n, fun fuel hf cs log => ?_⟩
    simp only [Parser.parseItems, Parser.tokenAt, htok, unwrap_some, bind_ok, ih fuel hf]
    simp only [List.append_assoc, List.singleton_append]
    split <;> simp
  | nt htok hp _ _ ih1 ih2 =>
    obtain ⟨n1, ih1⟩ := ih1
    obtain ⟨n2, ih2⟩ := ih2
    refine ⟨max (n1 + 1) n2, fun fuel hf cs log => ?_⟩
    obtain ⟨k, rfl⟩ : ∃ k, fuel = k + 1 := ⟨fuel - 1, by omega⟩
    have e1 := ih1 k (by omega) [] []
    simp only [Parser.parseItems]
    rw [Parser.parseAst]
    simp only [Parser.tokenAt, htok, hp, unwrap_some, bind_ok, e1, ih2 (k + 1) (by omega)]
    simp only [Parser.wrap, List.nil_append, List.append_assoc]
    cases ps.vocabulary.getNonterminalNameById _ <;> simp [RuleContext.toAst]

/-- a rule whose entry is known and whose right-hand side runs is returned by `parse_ast` -/
theorem run_parseAst {c A : Nat} {tok : Token} {p : Production} {f : List PTree} {ks : List Ast}
    {c' : Nat} {l : MismatchLog} (htok : ps.tokens[c]? = some tok)
    (hp : ps.table.get (A, tok.tokenType) = some p) (h : Run ps p.right c f ks c' l) :
    ∃ n, ∀ fuel, n ≤ fuel → ps.parseAst fuel c A =
      .ok ({ ruleName := ps.vocabulary.getNonterminalNameWithDefault A, children := ks, ruleIndex := A },
        c', l) := by
  obtain ⟨n, hn⟩ := run_parseItems h
  refine ⟨n + 1, fun fuel hf => ?_⟩
  obtain ⟨k, rfl⟩ : ∃ k, fuel = k + 1 := ⟨fuel - 1, by omega⟩
  simp [Parser.parseAst, Parser.tokenAt, htok, hp, hn k (by omega)]

theorem panics_parseItems {α : List Item} {c : Nat} (h : Panics ps α c) :
    ∃ n, ∀ fuel, n ≤ fuel → ∀ cs log,
      ps.parseItems (ps.parseAst fuel) α { children := cs, cursor := c, log } = .error .panic := by
  induction h with
  | @tok x rest c h =>
    refine ⟨1, fun fuel hf cs log => ?_⟩
    obtain ⟨k, rfl⟩ : ∃ k, fuel = k + 1 := ⟨fuel - 1, by omega⟩
    cases x with
    | t a => simp only [Parser.parseItems, Parser.tokenAt, h, unwrap_none, bind_error]
    | nt A =>
      simp only [Parser.parseItems, Parser.parseAst, Parser.tokenAt, h, unwrap_none, bind_error]
  | t htok _ ih =>
    obtain ⟨n, ih⟩ := ih
    refine ⟨n, fun fuel hf cs log => ?_⟩
    simp only [Parser.parseItems, Parser.tokenAt, htok, unwrap_some, bind_ok, ih fuel hf]
  | entry htok hp =>
    refine ⟨1, fun fuel hf cs log => ?_⟩
    obtain ⟨k, rfl⟩ : ∃ k, fuel = k + 1 := ⟨fuel - 1, by omega⟩
    simp only [Parser.parseItems, Parser.parseAst, Parser.tokenAt, htok, hp, unwrap_some, bind_ok,
      unwrap_none, bind_error]
  | sub htok hp _ ih =>
    obtain ⟨n, ih⟩ := ih
    refine ⟨n + 1, fun fuel hf cs log => ?_⟩
    obtain ⟨k, rfl⟩ : ∃ k, fuel = k + 1 := ⟨fuel - 1, by omega⟩
    simp only [Parser.parseItems, Parser.parseAst, Parser.tokenAt, htok, hp, unwrap_some, bind_ok,
      ih k (by omega), bind_error]
  | rest htok hp hr _ ih =>
    obtain ⟨n1, h1⟩ := run_parseAst htok hp hr
    obtain ⟨n2, h2⟩ := ih
    refine ⟨max n1 n2, fun fuel hf cs log => ?_⟩
    simp only [Parser.parseItems, h1 fuel (by omega), bind_ok]
    exact h2 fuel (by omega) _ _

theorem panics_parseAst {c A : Nat} (h : Panics ps [.nt A] c) :
    ∃ n, ∀ fuel, n ≤ fuel → ps.parseAst fuel c A = .error .panic := by
  obtain ⟨n, hn⟩ := panics_parseItems h
  refine ⟨n, fun fuel hf => ?_⟩
  have := hn fuel hf [] []
  simp only [Parser.parseItems] at this
  cases hr : ps.parseAst fuel c A with
  | error e => simpa [hr] using this
  | ok x => simp [hr] at this

/-- the parser is deterministic -/
theorem Run.det {α : List Item} {c : Nat} {f f' : List PTree} {ks ks' : List Ast} {d d' : Nat}
    {l l' : MismatchLog} (h : Run ps α c f ks d l) (h' : Run ps α c f' ks' d' l') :
    f = f' ∧ ks = ks' ∧ d = d' ∧ l = l' := by
  induction h generalizing f' ks' d' l' with
  | nil c => cases h'; simp
  | t htok _ ih =>
    cases h' with
    | t htok' h' =>
      rw [htok] at htok'; cases htok'
      obtain ⟨rfl, rfl, rfl, rfl⟩ := ih h'
      simp
  | nt htok hp _ _ ih1 ih2 =>
    cases h' with
    | nt htok' hp' h1 h2 =>
      rw [htok] at htok'; cases htok'
      rw [hp] at hp'; cases hp'
      obtain ⟨rfl, rfl, rfl, rfl⟩ := ih1 h1
      obtain ⟨rfl, rfl, rfl, rfl⟩ := ih2 h2
      simp

/-- a call that returns cannot panic -/
theorem Run.not_panics {α : List Item} {c : Nat} {f : List PTree} {ks : List Ast} {d : Nat}
    {l : MismatchLog} (h : Run ps α c f ks d l) : ¬ Panics ps α c := by
  intro hp
  obtain ⟨n, hn⟩ := run_parseItems h
  obtain ⟨m, hm⟩ := panics_parseItems hp
  have a := hn (max n m) (by omega) [] []
  rw [hm (max n m) (by omega)] at a
  cases a

/-! ## leaves -/

theorem leavesList_append (a b : List Ast) :
    Ast.leavesList (a ++ b) = Ast.leavesList a ++ Ast.leavesList b := by
  induction a with
  | nil => simp [Ast.leavesList]
  | cons x a ih => simp [Ast.leavesList, ih]

theorem leavesList_wrap (A : Nat) (ks : List Ast) :
    Ast.leavesList (ps.wrap A ks) = Ast.leavesList ks := by
  simp only [Parser.wrap]
  split <;> simp [Ast.leavesList, Ast.leaves]

theorem take_drop_append (l : List Token) {a b c : Nat} (h1 : a ≤ b) (h2 : b ≤ c) :
    (l.drop a).take (b - a) ++ (l.drop b).take (c - b) = (l.drop a).take (c - a) := by
  have e1 : l.drop b = (l.drop a).drop (b - a) := by
    rw [List.drop_drop]; congr 1; omega
  have e2 : c - a = (b - a) + (c - b) := by omega
  rw [e1, e2, List.take_add]

theorem Run.leaves {α : List Item} {c : Nat} {f : List PTree} {ks : List Ast} {d : Nat}
    {l : MismatchLog} (h : Run ps α c f ks d l) :
    c ≤ d ∧ (c ≤ ps.tokens.length → d ≤ ps.tokens.length) ∧
      Ast.leavesList ks = (ps.tokens.drop c).take (d - c) := by
  induction h with
  | nil c => simp [Ast.leavesList]
  | @t a tok c c' rest f ks l htok _ ih =>
    obtain ⟨h1, h2, h3⟩ := ih
    have hlt : c < ps.tokens.length := by
      by_contra hc
      rw [List.getElem?_eq_none (by omega)] at htok; cases htok
    refine ⟨by omega, fun _ => h2 (by omega), ?_⟩
    have htok' : ps.tokens[c] = tok := by
      rw [List.getElem?_eq_getElem hlt] at htok; exact Option.some.inj htok
    rw [List.drop_eq_getElem_cons hlt, htok']
    have : c' - c = (c' - (c + 1)) + 1 := by omega
    rw [this, List.take_succ_cons]
    simp [Ast.leavesList, Ast.leaves, h3]
  | nt htok hp _ _ ih1 ih2 =>
    obtain ⟨a1, a2, a3⟩ := ih1
    obtain ⟨b1, b2, b3⟩ := ih2
    refine ⟨by omega, fun h => b2 (a2 h), ?_⟩
    rw [leavesList_append, leavesList_wrap, a3, b3]
    exact take_drop_append _ a1 b1

/-! ## the derivation tree -/

/-- every table entry is a production of its rule -/
def TableOf (P : List Production) (T : Table) : Prop :=
  ∀ A t p, T.get (A, t) = some p → p ∈ P ∧ p.left = A

theorem Run.valid {P : List Production} (hT : TableOf P ps.table) {α : List Item} {c : Nat}
    {f : List PTree} {ks : List Ast} {d : Nat} {l : MismatchLog} (h : Run ps α c f ks d l) :
    PTree.Valids P f ∧ f.map PTree.root = α := by
  induction h with
  | nil c => simp [PTree.Valids]
  | t htok _ ih => simp [PTree.Valids, PTree.Valid, PTree.root, ih.1, ih.2]
  | nt htok hp _ _ ih1 ih2 =>
    obtain ⟨h1, h2⟩ := hT _ _ _ hp
    simp [PTree.Valids, PTree.Valid, PTree.root, ih1.1, ih1.2, ih2.1, ih2.2, h1, h2]

theorem Run.yield {α : List Item} {c : Nat} {f : List PTree} {ks : List Ast} {d : Nat}
    {l : MismatchLog} (h : Run ps α c f ks d l) (hl : l = []) :
    PTree.yields f = (Ast.leavesList ks).map Token.tokenType := by
  induction h with
  | nil c => simp [PTree.yields, Ast.leavesList]
  | t htok _ ih =>
    simp only [List.append_eq_nil_iff] at hl
    have := ih hl.2
    obtain ⟨hl1, _⟩ := hl
    split at hl1
    · cases hl1
    · rename_i hne
      simp only [ne_eq, not_not] at hne
      simp [PTree.yields, PTree.yield, Ast.leavesList, Ast.leaves, this, hne]
  | nt htok hp _ _ ih1 ih2 =>
    simp only [List.append_eq_nil_iff] at hl
    simp [PTree.yields, PTree.yield, leavesList_append, leavesList_wrap, ih1 hl.1, ih2 hl.2]

theorem yields_append (f g : List PTree) : PTree.yields (f ++ g) = PTree.yields f ++ PTree.yields g := by
  induction f with
  | nil => simp [PTree.yields]
  | cons x f ih => simp [PTree.yields, ih]

mutual
theorem PTree.Valid.derives {P : List Production} : ∀ {t : PTree}, t.Valid P →
    Yields P [t.root] t.yield
  | .leaf a, _ => by
    simpa [PTree.root, PTree.yield] using Yields.t a Yields.nil
  | .node p kids, h => by
    simp only [PTree.Valid] at h
    have := PTree.Valids.derives h.2.2
    rw [h.2.1] at this
    simpa [PTree.root, PTree.yield] using Yields.nt p h.1 this Yields.nil
theorem PTree.Valids.derives {P : List Production} : ∀ {f : List PTree}, PTree.Valids P f →
    Yields P (f.map PTree.root) (PTree.yields f)
  | [], _ => by simpa [PTree.yields] using Yields.nil
  | t :: ts, h => by
    simp only [PTree.Valids] at h
    have h1 := PTree.Valid.derives h.1
    have h2 := PTree.Valids.derives h.2
    simpa [PTree.yields] using h1.append h2
end

/-- every sentence has a derivation tree -/
theorem Yields.tree {P : List Production} {α : List Item} {w : List Nat} (h : Yields P α w) :
    ∃ f, PTree.Valids P f ∧ f.map PTree.root = α ∧ PTree.yields f = w := by
  induction h with
  | nil => exact ⟨[], by simp [PTree.Valids], rfl, rfl⟩
  | t a _ ih =>
    obtain ⟨f, h1, h2, h3⟩ := ih
    exact ⟨.leaf a :: f, by simp [PTree.Valids, PTree.Valid, h1], by simp [PTree.root, h2],
      by simp [PTree.yields, PTree.yield, h3]⟩
  | nt p hp _ _ ih1 ih2 =>
    obtain ⟨f, h1, h2, h3⟩ := ih1
    obtain ⟨f', h1', h2', h3'⟩ := ih2
    exact ⟨.node p f :: f', by simp [PTree.Valids, PTree.Valid, h1, h1', hp, h2],
      by simp [PTree.root, h2'], by simp [PTree.yields, PTree.yield, h3, h3']⟩

/-! ## completeness -/

/-- the table predicts exactly: every predicted pair has its production as entry -/
def TableComplete (P : List Production) (T : Table) : Prop :=
  ∀ p ∈ P, ∀ t, Predicts P p t → T.get (p.left, t) = some p

/-- the tokens from cursor `c` on have the types `w` -/
def Spells (ps : Parser) (c : Nat) (w : List Nat) : Prop :=
  ∀ i a, w[i]? = some a → ∃ tok, ps.tokens[c + i]? = some tok ∧ tok.tokenType = a

theorem Spells.head {c a : Nat} {w : List Nat} (h : Spells ps c (a :: w)) :
    ∃ tok, ps.tokens[c]? = some tok ∧ tok.tokenType = a := by
  simpa using h 0 a rfl

theorem Spells.tail {c a : Nat} {w : List Nat} (h : Spells ps c (a :: w)) : Spells ps (c + 1) w := by
  intro i b hb
  have := h (i + 1) b (by simpa using hb)
  rwa [show c + (i + 1) = c + 1 + i by omega] at this

theorem Spells.right {c : Nat} {w w' : List Nat} (h : Spells ps c (w ++ w')) :
    Spells ps (c + w.length) w' := by
  induction w generalizing c with
  | nil => simpa using h
  | cons a w ih =>
    have := ih h.tail
    rwa [show c + 1 + w.length = c + (a :: w).length by simp; omega] at this

theorem Spells.left {c : Nat} {w w' : List Nat} (h : Spells ps c (w ++ w')) : Spells ps c w := by
  intro i a hi
  refine h i a ?_
  have hlt : i < w.length := by
    by_contra hc
    rw [List.getElem?_eq_none (by omega)] at hi; cases hi
  rw [List.getElem?_append_left hlt, hi]

/-- every nonterminal in `α` is followed in FOLLOW by what follows it in `α`, and by `s` if it can
end `α` -/
def Ctx (P : List Production) (s : Nat) (α : List Item) : Prop :=
  ∀ u B v, α = u ++ Item.nt B :: v → (∀ a, Fst P a v → Flw P a B) ∧ (Nul P v → Flw P s B)

theorem Ctx.tail {P : List Production} {s : Nat} {x : Item} {α : List Item} (h : Ctx P s (x :: α)) :
    Ctx P s α := fun u B v e => h (x :: u) B v (by simp [e])

theorem Ctx.right {P : List Production} {s : Nat} {p : Production} (hp : p ∈ P)
    (h : Flw P s p.left) : Ctx P s p.right := fun u B v e =>
  ⟨fun _ ha => Flw.first p hp u v B e ha, fun hv => Flw.follow p hp u v B e hv h⟩

mutual
theorem run_complete_tree {P : List Production} (hT : TableComplete P ps.table) :
    ∀ {t : PTree} {s c : Nat}, t.Valid P → (∀ A, t.root = .nt A → Flw P s A) →
      Spells ps c (t.yield ++ [s]) →
      ∃ ks, Run ps [t.root] c [t] ks (c + t.yield.length) []
  | .leaf a, s, c, _, _, hsp => by
    simp only [PTree.yield, List.singleton_append] at hsp
    obtain ⟨tok, htok, rfl⟩ := hsp.head
    have := Run.t (ps := ps) (a := tok.tokenType) htok (Run.nil (c + 1))
    simp only [ne_eq, not_true, if_false, List.append_nil] at this
    exact ⟨_, by simpa [PTree.root, PTree.yield] using this⟩
  | .node p kids, s, c, hv, hctx, hsp => by
    simp only [PTree.Valid] at hv
    obtain ⟨hp, hroot, hvs⟩ := hv
    have hfl : Flw P s p.left := hctx p.left rfl
    obtain ⟨ks, hr⟩ := run_complete_forest hT (f := kids) (s := s) (c := c) hvs
      (by rw [hroot]; exact Ctx.right hp hfl) (by simpa [PTree.yield] using hsp)
    rw [hroot] at hr
    have hy : Yields P p.right (PTree.yields kids) := by
      have := PTree.Valids.derives hvs
      rwa [hroot] at this
    -- the lookahead predicts `p`
    have hpred : ∃ tok, ps.tokens[c]? = some tok ∧ Predicts P p tok.tokenType := by
      simp only [PTree.yield] at hsp
      cases hw : PTree.yields kids with
      | nil =>
        rw [hw] at hsp hy
        obtain ⟨tok, htok, e⟩ := hsp.head
        refine ⟨tok, htok, Or.inr ⟨nul_iff.1 hy.nul, ?_⟩⟩
        rw [e]; exact flw_iff.1 hfl
      | cons a w =>
        rw [hw] at hsp hy
        obtain ⟨tok, htok, e⟩ := hsp.head
        refine ⟨tok, htok, Or.inl ?_⟩
        rw [e]; exact fst_iff.1 hy.fst
    obtain ⟨tok, htok, hpr⟩ := hpred
    have := Run.nt (A := p.left) htok (hT p hp _ hpr) hr (Run.nil _)
    exact ⟨_, by simpa [PTree.root, PTree.yield] using this⟩
theorem run_complete_forest {P : List Production} (hT : TableComplete P ps.table) :
    ∀ {f : List PTree} {s c : Nat}, PTree.Valids P f → Ctx P s (f.map PTree.root) →
      Spells ps c (PTree.yields f ++ [s]) →
      ∃ ks, Run ps (f.map PTree.root) c f ks (c + (PTree.yields f).length) []
  | [], s, c, _, _, _ => ⟨_, by simpa [PTree.yields] using Run.nil c⟩
  | t :: ts, s, c, hv, hctx, hsp => by
    simp only [PTree.Valids] at hv
    simp only [PTree.yields, List.append_assoc] at hsp
    have hts : Yields P (ts.map PTree.root) (PTree.yields ts) := PTree.Valids.derives hv.2
    -- the token after `t`
    obtain ⟨s', hs', hsp'⟩ : ∃ s', (∀ A, t.root = .nt A → Flw P s' A) ∧
        Spells ps c (t.yield ++ [s']) := by
      cases hw : PTree.yields ts with
      | nil =>
        rw [hw] at hsp hts
        exact ⟨s, fun A hA => (hctx [] A (ts.map PTree.root) (by simp [hA])).2 hts.nul,
          by simpa using hsp⟩
      | cons a w =>
        rw [hw] at hsp hts
        refine ⟨a, fun A hA => (hctx [] A (ts.map PTree.root) (by simp [hA])).1 a hts.fst, ?_⟩
        have : t.yield ++ (a :: w ++ [s]) = (t.yield ++ [a]) ++ (w ++ [s]) := by simp
        rw [this] at hsp
        exact hsp.left
    obtain ⟨ks1, h1⟩ := run_complete_tree hT hv.1 hs' hsp'
    obtain ⟨ks2, h2⟩ := run_complete_forest hT hv.2 (s := s) (c := c + t.yield.length)
      (Ctx.tail hctx) hsp.right
    have hlen : c + t.yield.length + (PTree.yields ts).length =
        c + (PTree.yields (t :: ts)).length := by
      simp [PTree.yields]; omega
    rw [hlen] at h2
    cases t with
    | leaf a =>
      generalize hl : ([] : MismatchLog) = l0 at h1
      cases h1 with
      | t htok h1 =>
        have hl := hl.symm
        simp only [List.append_eq_nil_iff] at hl
        cases h1
        rename_i tok _
        refine ⟨.terminal tok :: ks2, ?_⟩
        simp only [PTree.yield, List.length_singleton] at h2
        have := Run.t (a := a) htok h2
        simpa [PTree.root] using this
    | node p kids =>
      generalize hl : ([] : MismatchLog) = l0 at h1
      cases h1 with
      | nt htok hp hr hnil =>
        cases hnil
        simp only [List.append_nil] at hl
        subst hl
        exact ⟨_, by simpa [PTree.root] using Run.nt htok hp hr h2⟩
end

/-! ## termination for LL(1) tables -/

theorem run_null {P : List Production} (hT : TableComplete P ps.table) {α : List Item} {c : Nat}
    {tok : Token} (htok : ps.tokens[c]? = some tok) (hn : Nul P α) (hctx : Ctx P tok.tokenType α) :
    ∃ f ks, Run ps α c f ks c [] := by
  have hy : Yields P α [] := by rw [yields_iff]; exact nul_iff.1 hn
  obtain ⟨f, h1, h2, h3⟩ := hy.tree
  obtain ⟨ks, h⟩ := run_complete_forest hT (s := tok.tokenType) (c := c) h1 (by rw [h2]; exact hctx)
    (by
      rw [h3]
      intro i a hi
      cases i with
      | zero => simp at hi; exact ⟨tok, by simpa using htok, hi⟩
      | succ i => simp at hi)
  rw [h2, h3] at h
  exact ⟨f, ks, by simpa using h⟩

/-- returns or panics -/
def Halts (ps : Parser) (α : List Item) (c : Nat) : Prop :=
  (∃ f ks d l, Run ps α c f ks d l) ∨ Panics ps α c

theorem halts_fst {P : List Production} (hT : TableComplete P ps.table) {c : Nat} {tok : Token}
    (htok : ps.tokens[c]? = some tok) (ih : ∀ β c', c < c' → Halts ps β c') {α : List Item}
    (hf : Fst P tok.tokenType α)
    (hctx : ∀ u B v, α = u ++ Item.nt B :: v → Fst P tok.tokenType v → Flw P tok.tokenType B) :
    Halts ps α c ∧ ∀ f ks d l, Run ps α c f ks d l → c < d := by
  induction hf with
  | here rest =>
    constructor
    · rcases ih rest (c + 1) (by omega) with ⟨f, ks, d, l, h⟩ | h
      · exact Or.inl ⟨_, _, _, _, Run.t htok h⟩
      · exact Or.inr (Panics.t htok h)
    · intro f ks d l h
      cases h with
      | t _ h => have := h.leaves.1; omega
  | down p hp rest hf ih2 =>
    have hent := hT p hp _ (Or.inl (fst_iff.1 hf))
    obtain ⟨i1, i2⟩ := ih2 fun u B v e hv => Flw.first p hp u v B e hv
    constructor
    · rcases i1 with ⟨f, ks, d, l, h⟩ | h
      · rcases ih rest d (i2 _ _ _ _ h) with ⟨f', ks', d', l', h'⟩ | h'
        · exact Or.inl ⟨_, _, _, _, Run.nt htok hent h h'⟩
        · exact Or.inr (Panics.rest htok hent h h')
      · exact Or.inr (Panics.sub htok hent h)
    · intro f ks d l h
      cases h with
      | nt htok' hent' h1 h2 =>
        rw [htok] at htok'; cases htok'
        rw [hent] at hent'; cases hent'
        have := i2 _ _ _ _ h1
        have := h2.leaves.1
        omega
  | skip A rest hn hf ih2 =>
    obtain ⟨⟨p, hp, rfl, hp1⟩, _⟩ := nul_nt.1 hn
    have hfl : Flw P tok.tokenType p.left := hctx [] p.left rest rfl hf
    have hent := hT p hp _ (Or.inr ⟨nul_iff.1 hp1, flw_iff.1 hfl⟩)
    obtain ⟨f0, ks0, h0⟩ := run_null hT htok hp1 (Ctx.right hp hfl)
    obtain ⟨i1, i2⟩ := ih2 fun u B v e hv => hctx (_ :: u) B v (by rw [e]; rfl) hv
    constructor
    · rcases i1 with ⟨f, ks, d, l, h⟩ | h
      · exact Or.inl ⟨_, _, _, _, Run.nt htok hent h0 h⟩
      · exact Or.inr (Panics.rest htok hent h0 h)
    · intro f ks d l h
      cases h with
      | nt htok' hent' h1 h2 =>
        rw [htok] at htok'; cases htok'
        rw [hent] at hent'; cases hent'
        obtain ⟨_, _, rfl, _⟩ := h0.det h1
        exact i2 _ _ _ _ h2

/-- entries are predicted productions -/
def TableSound (P : List Production) (T : Table) : Prop :=
  ∀ A t p, T.get (A, t) = some p → p ∈ P ∧ p.left = A ∧ Predicts P p t

theorem halts_all {P : List Production} (hS : TableSound P ps.table) (hT : TableComplete P ps.table)
    (α : List Item) (c : Nat) : Halts ps α c := by
  obtain ⟨k, hk⟩ : ∃ k, k = ps.tokens.length - c := ⟨_, rfl⟩
  induction k using Nat.strong_induction_on generalizing α c with
  | _ k ih =>
    cases htok : ps.tokens[c]? with
    | none =>
      cases α with
      | nil => exact Or.inl ⟨_, _, _, _, Run.nil c⟩
      | cons x α => exact Or.inr (Panics.tok htok)
    | some tok =>
      have hlt : c < ps.tokens.length := by
        by_contra hc
        rw [List.getElem?_eq_none (by omega)] at htok; cases htok
      have ih' : ∀ β c', c < c' → Halts ps β c' := by
        intro β c' hc
        exact ih (ps.tokens.length - c') (by omega) β c' rfl
      induction α with
      | nil => exact Or.inl ⟨_, _, _, _, Run.nil c⟩
      | cons x α ih2 =>
        cases x with
        | t a =>
          rcases ih' α (c + 1) (by omega) with ⟨f, ks, d, l, h⟩ | h
          · exact Or.inl ⟨_, _, _, _, Run.t htok h⟩
          · exact Or.inr (Panics.t htok h)
        | nt A =>
          cases hent : ps.table.get (A, tok.tokenType) with
          | none => exact Or.inr (Panics.entry htok hent)
          | some p =>
            obtain ⟨hp, rfl, hpr⟩ := hS _ _ _ hent
            rcases hpr with hpr | ⟨hn, hfl⟩
            · obtain ⟨i1, i2⟩ := halts_fst hT htok ih' (fst_iff.2 hpr)
                fun u B v e hv => Flw.first p hp u v B e hv
              rcases i1 with ⟨f, ks, d, l, h⟩ | h
              · rcases ih' α d (i2 _ _ _ _ h) with ⟨f', ks', d', l', h'⟩ | h'
                · exact Or.inl ⟨_, _, _, _, Run.nt htok hent h h'⟩
                · exact Or.inr (Panics.rest htok hent h h')
              · exact Or.inr (Panics.sub htok hent h)
            · obtain ⟨f0, ks0, h0⟩ := run_null hT htok (nul_iff.2 hn) (Ctx.right hp (flw_iff.2 hfl))
              rcases ih2 with ⟨f, ks, d, l, h⟩ | h
              · exact Or.inl ⟨_, _, _, _, Run.nt htok hent h0 h⟩
              · exact Or.inr (Panics.rest htok hent h0 h)

end Syntaxis
