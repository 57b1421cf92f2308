import Verif.Spec.Main
import Verif.Props.WholeInput
import Verif.Props.Pipeline
import Verif.Props.Spacing
import Verif.Props.Page
import Verif.Props.ParserDepth

/-!
# C70: the program
-/

namespace Syntaxis
open Grammar

/-! ### the parser reads the table through `get` -/

theorem parseItems_congr {ps ps' : Parser} (ht : ps.tokens = ps'.tokens) (hv : ps.vocabulary = ps'.vocabulary)
    {f g : Nat → Nat → Res (RuleContext × Nat × MismatchLog)} (hfg : ∀ c A, f c A = g c A) (α : List Item) :
    ∀ st, ps.parseItems f α st = ps'.parseItems g α st := by
  induction α with
  | nil => intro st; rfl
  | cons x α ih =>
    intro st
    cases x with
    | t a => simp only [Parser.parseItems, Parser.tokenAt, ht, ih]
    | nt A => simp only [Parser.parseItems, hfg, hv, ih]

theorem parseAst_congr {ps ps' : Parser} (ht : ps.tokens = ps'.tokens) (hv : ps.vocabulary = ps'.vocabulary)
    (hT : ∀ A t, ps.table.get (A, t) = ps'.table.get (A, t)) (fuel : Nat) :
    ∀ c A, ps.parseAst fuel c A = ps'.parseAst fuel c A := by
  induction fuel with
  | zero => intro c A; rfl
  | succ fuel ih =>
    intro c A
    simp only [Parser.parseAst, Parser.tokenAt, ht, hT, hv, parseItems_congr ht hv ih]

/-! ### evaluation -/

/-- closes an equation `a = b` by `rfl`, evaluated by the kernel only -/
elab "kernel_rfl" : tactic => Lean.Elab.Tactic.liftMetaTactic fun g => do
  let t ← Lean.instantiateMVars (← g.getType)
  let some (α, a, _) := t.eq? | throwError "not an equation"
  let u ← Lean.Meta.getLevel α
  g.assign (Lean.mkApp2 (Lean.mkConst ``Eq.refl [u]) α a)
  return []

mutual
/-- equality test for elements -/
def Elem.same : Elem → Elem → Bool
  | .tok a, .tok b => decide (a = b)
  | .ref a, .ref b => decide (a = b)
  | .group a, .group b => Elem.sameAlts a b
  | .rep f a, .rep g b => decide (f = g) && Elem.same a b
  | _, _ => false
/-- equality test for alternatives -/
def Elem.sameAlts : List (List Elem) → List (List Elem) → Bool
  | [], [] => true
  | a :: as, b :: bs => Elem.sameSeq a b && Elem.sameAlts as bs
  | _, _ => false
/-- equality test for sequences -/
def Elem.sameSeq : List Elem → List Elem → Bool
  | [], [] => true
  | a :: as, b :: bs => Elem.same a b && Elem.sameSeq as bs
  | _, _ => false
end

mutual
theorem Elem.same_eq : ∀ a b : Elem, Elem.same a b = true → a = b
  | .tok a, b, h => by cases b <;> simp_all [Elem.same]
  | .ref a, b, h => by cases b <;> simp_all [Elem.same]
  | .group a, b, h => by
    cases b with
    | group b => rw [Elem.sameAlts_eq a b (by simpa [Elem.same] using h)]
    | tok _ => simp [Elem.same] at h
    | ref _ => simp [Elem.same] at h
    | rep _ _ => simp [Elem.same] at h
  | .rep f a, b, h => by
    cases b with
    | rep g b =>
      simp only [Elem.same, Bool.and_eq_true, decide_eq_true_eq] at h
      rw [h.1, Elem.same_eq a b h.2]
    | tok _ => simp [Elem.same] at h
    | ref _ => simp [Elem.same] at h
    | group _ => simp [Elem.same] at h
theorem Elem.sameAlts_eq : ∀ a b : List (List Elem), Elem.sameAlts a b = true → a = b
  | [], b, h => by cases b <;> simp_all [Elem.sameAlts]
  | a :: as, b, h => by
    cases b with
    | nil => simp [Elem.sameAlts] at h
    | cons b bs =>
      simp only [Elem.sameAlts, Bool.and_eq_true] at h
      rw [Elem.sameSeq_eq a b h.1, Elem.sameAlts_eq as bs h.2]
theorem Elem.sameSeq_eq : ∀ a b : List Elem, Elem.sameSeq a b = true → a = b
  | [], b, h => by cases b <;> simp_all [Elem.sameSeq]
  | a :: as, b, h => by
    cases b with
    | nil => simp [Elem.sameSeq] at h
    | cons b bs =>
      simp only [Elem.sameSeq, Bool.and_eq_true] at h
      rw [Elem.same_eq a b h.1, Elem.sameSeq_eq as bs h.2]
end

/-- equality test for rules -/
def sameRules : Rules → Rules → Bool
  | [], [] => true
  | a :: as, b :: bs => decide (a.1 = b.1) && Elem.sameAlts a.2 b.2 && sameRules as bs
  | _, _ => false

theorem sameRules_eq : ∀ a b : Rules, sameRules a b = true → a = b
  | [], b, h => by cases b <;> simp_all [sameRules]
  | a :: as, b, h => by
    cases b with
    | nil => simp [sameRules] at h
    | cons b bs =>
      simp only [sameRules, Bool.and_eq_true, decide_eq_true_eq] at h
      rw [Prod.ext h.1.1 (Elem.sameAlts_eq _ _ h.1.2), sameRules_eq as bs h.2]

theorem scansTo_of_run {digit : Char → Bool} {text : Str} {toks : List Token} {p : Option Str} (n : Nat)
    (h : ((V1.lexer digit text).scanAll V1.WHITE_SPACE 0 n).map (fun x => (x.1, x.2.1)) = .ok (toks, p)) :
    V1.ScansTo digit text toks p := by
  cases hr : (V1.lexer digit text).scanAll V1.WHITE_SPACE 0 n with
  | error e => rw [hr] at h; cases h
  | ok x =>
    obtain ⟨t, q, l⟩ := x
    rw [hr] at h
    simp only [Except.map, Except.ok.injEq, Prod.mk.injEq] at h
    obtain ⟨rfl, rfl⟩ := h
    refine ⟨n, l, fun fuel hf => ?_⟩
    rw [Lexer.scanAll, bind_eq_ok] at hr
    obtain ⟨y, h1, h2⟩ := hr
    rw [Lexer.scanAll, scanLoop_mono h1 hf, bind_ok]
    exact h2

namespace Main
open Shipped

/-- the hash orders for the shipped grammar -/
def Orders.iter (h : Orders) : IterOrder grammar where
  ids := h.ids grammar
  ids_mem := h.ids_mem grammar
  ord := h.ord grammar
  ord_perm := by
    have hd : grammar.productions.Nodup := order.ord_nodup
    rw [← hd.dedup]
    exact h.ord_perm grammar
  ord_nodup := (h.ord_perm grammar).nodup_iff.2 (List.nodup_dedup _)

/-- orders exist -/
def someOrders : Orders where
  ids := fun g => (List.range (g.vocabulary.nonterminals.sup id + 1)).filter (· ∈ g.vocabulary.nonterminals)
  ids_mem := fun g i => incSetOrder.mem ⟨0, []⟩ false g.vocabulary.nonterminals i
  ord := fun g => g.productions.dedup
  ord_perm := fun _ => List.Perm.refl _
  set := incSetOrder

theorem loaded : ∃ n, ∀ fuel, n ≤ fuel → SerdeAst.fromJson fuel (some json) = .ok (some ast) ∧
    ∃ s2 s3, buildStates .old fuel ast (Grammar.new "我的文法".toList) 2 0 = .ok (s2, s3) ∧ s3.grammar = grammar ∧
      s2.out ++ s3.out = [] := by
  obtain ⟨n, hn⟩ := C52_loaded
  refine ⟨n + sizeOf ast.toAst, fun fuel hf => ⟨(hn fuel (by omega)).1, ?_⟩⟩
  obtain ⟨s2, s3, h, h1, _, _, h2⟩ := built fuel (by omega)
  exact ⟨s2, s3, h, h1, h2⟩

/-- what follows the loading of the grammar -/
theorem main_eq (h : Orders) (digit : Char → Bool) (text : Str) : ∃ n, ∀ fuel, n ≤ fuel →
    main h digit (some json) text fuel = (do
      let ts ← runTable grammar h.iter h.set fuel
      let (tokens, unlexed, _) ← (V1.lexer digit text).scanAll V1.WHITE_SPACE 0 fuel
      let (ast, log) ← (parserOf grammar ts tokens).parse fuel
      .ok { messages := [], conflicts := ts.conflicts, unlexed, mismatches := log, page := Page.render "parser".toList ast }) := by
  obtain ⟨n, hn⟩ := loaded
  refine ⟨n, fun fuel hf => ?_⟩
  obtain ⟨h1, s2, s3, h2, h3, h4⟩ := hn fuel hf
  rw [main, h1, bind_ok, unwrap_some, bind_ok, h2, bind_ok]
  dsimp only
  rw [h3, h4]
  show (firstSet (h.ids grammar) (h.ord grammar) fuel >>= _) = _
  rw [runTable, runFirst]
  show _ = ((firstSet (h.ids grammar) (h.ord grammar) fuel >>= _) >>= _)
  cases firstSet (h.ids grammar) (h.ord grammar) fuel with
  | error e => rfl
  | ok x =>
    simp only [bind_ok]
    show (followSet (h.ids grammar) (h.ord grammar) x.1 fuel >>= _) =
      ((followSet (h.ids grammar) (h.ord grammar) x.1 fuel >>= _) >>= _)
    cases followSet (h.ids grammar) (h.ord grammar) x.1 fuel with
    | error e => rfl
    | ok y => rfl

/-- the result of a run, for given tokens and parser result -/
theorem ends_of_parse {digit : Char → Bool} {text : Str} {toks : List Token} {p : Option Str}
    (hs : V1.ScansTo digit text toks p) :
    ∃ res : Res (RuleContext × MismatchLog), res ≠ .error .fuel ∧
      (∀ (o : IterOrder grammar) (so : SetOrder) (fuel : Nat) (ts : TableState), runTable grammar o so fuel = .ok ts →
        ∃ n, ∀ fuel', n ≤ fuel' → (parserOf grammar ts toks).parse fuel' = res) ∧
      ∀ h, Ends h digit text (res.map fun x =>
        { messages := [], conflicts := [], unlexed := p, mismatches := x.2, page := Page.render "parser".toList x.1 }) := by
  obtain ⟨n0, ts0, ht0⟩ := C52_tables_returned order incSetOrder
  have h0 := ht0 n0 (Nat.le_refl _)
  have hc0 := C52_no_conflict order incSetOrder n0 ts0 h0
  obtain ⟨n1, res, hres, hn1⟩ := C21_parser_terminates grammar order incSetOrder n0 ts0 h0 hc0 toks 0
  have hp : ∀ (o : IterOrder grammar) (so : SetOrder) (fuel : Nat) (ts : TableState), runTable grammar o so fuel = .ok ts →
      ∃ n, ∀ fuel', n ≤ fuel' → (parserOf grammar ts toks).parse fuel' = res := by
    intro o so fuel ts ht
    refine ⟨n1, fun fuel' hf => ?_⟩
    rw [← hn1 fuel' hf, Parser.parse_eq, Parser.parseRule, Parser.parseRule]
    rw [parseAst_congr (ps := parserOf grammar ts toks) (ps' := parserOf grammar ts0 toks) rfl rfl]
    intro A t
    exact ((C17_table_order_independent grammar order o incSetOrder so n0 fuel ts0 ts h0 ht hc0).2 A t).symm
  refine ⟨res, hres, hp, fun h => ⟨?_, ?_⟩⟩
  · cases res with
    | ok x => intro e; cases e
    | error e =>
      intro e'
      apply hres
      simpa [Except.map] using e'
  · obtain ⟨k1, e1⟩ := main_eq h digit text
    obtain ⟨k2, ts, e2⟩ := C52_tables_returned h.iter h.set
    have e2' := e2 k2 (Nat.le_refl _)
    obtain ⟨k3, l, e3⟩ := hs
    obtain ⟨k4, e4⟩ := hp h.iter h.set k2 ts e2'
    refine ⟨k1 + k2 + k3 + k4, fun fuel hf => ?_⟩
    rw [e1 fuel (by omega), e2 fuel (by omega), bind_ok, e3 fuel (by omega), bind_ok]
    dsimp only
    rw [e4 fuel (by omega), C52_no_conflict h.iter h.set k2 ts e2']
    cases res <;> rfl

theorem Ends.det {h : Orders} {digit : Char → Bool} {text : Str} {r r' : Res Output} (a : Ends h digit text r)
    (b : Ends h digit text r') : r = r' := by
  obtain ⟨_, n, hn⟩ := a
  obtain ⟨_, m, hm⟩ := b
  rw [← hn (max n m) (by omega), hm (max n m) (by omega)]

/-- **C70** whatever the text: the program ends, the result is the same for all hash orders, and no conflict is
printed. -/
theorem C70_ends (digit : Char → Bool) (text : Str) :
    ∃ res, (∀ h, Ends h digit text res) ∧ ∀ out, res = .ok out → out.conflicts = [] := by
  obtain ⟨out, rem, toks, -, -, h⟩ := scansTo_iff (digit := digit) text
  obtain ⟨res, -, -, h2⟩ := ends_of_parse ((h toks _).2 ⟨rfl, rfl⟩)
  refine ⟨_, h2, fun o ho => ?_⟩
  cases res with
  | error e => cases ho
  | ok x => cases ho; rfl

/-! ### silent runs -/

theorem endsEmpty : EndsEmpty grammar.productions (· ∈ [0, 10]) := by
  have h : ∀ p ∈ Shipped.productions, p.left ∈ [0, 10] → p.right = [] ∨ p.right.getLast? = some (.nt 0) ∨
      p.right.getLast? = some (.nt 10) := by decide
  intro p hp hl
  rcases h p hp hl with h | h | h
  · exact .inl h
  · exact .inr ⟨p.right.dropLast, 0, (List.dropLast_append_getLast? _ h).symm, by simp⟩
  · exact .inr ⟨p.right.dropLast, 10, (List.dropLast_append_getLast? _ h).symm, by simp⟩

theorem follow_start : ∀ B t, B ∈ [0, 10] → InFollow grammar.productions B t → t = 1 := by
  refine follow_stop order 100 ?_ (by decide +kernel)
  intro B hB
  have : B < 18 := by
    simp at hB
    omega
  exact Finset.mem_range.2 this

/-- the types of lexed tokens begin at 2 -/
theorem lexes_types {ms : List Matcher} {s : Str} {out : List (Nat × Str)} {rem : Str} (h : Lexes ms s out rem) :
    ∀ x ∈ out, 2 ≤ x.1 := by
  induction h with
  | stop => simp
  | step _ _ ih =>
    intro x hx
    rcases List.mem_cons.1 hx with rfl | hx
    · simp
    · exact ih x hx

/-- the end token is the last one -/
theorem stop_last {digit : Char → Bool} {text : Str} {w rest : List Token} {stop : Token} {p : Option Str}
    (hs : V1.ScansTo digit text (w ++ stop :: rest) p) (h1 : stop.tokenType = 1) :
    rest = [] ∧ p = none ∧ stop.tokenType = 1 := by
  obtain ⟨out, rem, toks, hl, ht, h⟩ := scansTo_iff (digit := digit) text
  obtain ⟨rfl, hp⟩ := (h _ _).1 hs
  have hge : ∀ x ∈ solid out, x.1 ≠ 1 := by
    intro x hx
    have : x ∈ out := by
      unfold solid at hx
      exact List.mem_of_mem_filter hx
    have := lexes_types hl x this
    omega
  have e : (w.map Token.out) ++ (stop.out :: rest.map Token.out) =
      solid out ++ (if rem = [] then [(1, "_STOP".toList)] else []) := by
    rw [← ht]; simp
  have hstop : stop.out.1 = 1 := h1
  rcases List.append_eq_append_iff.1 e with ⟨a, ha1, ha2⟩ | ⟨a, ha1, ha2⟩
  · -- `solid out = w ++ a`
    cases a with
    | nil =>
      simp only [List.nil_append] at ha2
      split at ha2
      · simp only [List.cons.injEq, List.map_eq_nil_iff] at ha2
        exact ⟨ha2.2, by rw [hp, if_pos ‹_›], h1⟩
      · cases ha2
    | cons x a =>
      simp only [List.cons_append, List.cons.injEq] at ha2
      exact absurd (by rw [← ha2.1]; exact hstop) (hge x (by rw [ha1]; simp))
  · split at ha2
    · cases a with
      | nil =>
        simp only [List.nil_append, List.cons.injEq] at ha2
        have : rest = [] := by simpa using ha2.2.symm
        exact ⟨this, by rw [hp, if_pos ‹_›], h1⟩
      | cons x a =>
        have := congrArg List.length ha2
        simp at this
    · cases a <;> simp at ha2

/-- a run, from the parse with one order -/
theorem ends_of_one {digit : Char → Bool} {text : Str} {toks : List Token} {p : Option Str}
    (hs : V1.ScansTo digit text toks p) {n : Nat} {ts : TableState}
    (ht : runTable grammar order incSetOrder n = .ok ts) {f : Nat} {r : RuleContext} {log : MismatchLog}
    (hr : (parserOf grammar ts toks).parse f = .ok (r, log)) (h : Orders) :
    Ends h digit text (.ok ⟨[], [], p, log, Page.render "parser".toList r⟩) := by
  obtain ⟨res, hres, hp, he⟩ := ends_of_parse hs
  obtain ⟨m, hm⟩ := hp order incSetOrder n ts ht
  have hm := hm (max m f) (by omega)
  rw [Parser.parse_eq] at hr
  obtain ⟨c, hr⟩ := Parser.parseRule_ok.1 hr
  rw [← done_le (Nat.le_max_right m f) (by rw [Done, hr]; simp)] at hr
  have : res = .ok (r, log) := by
    rw [← hm, Parser.parse_eq]
    exact Parser.parseRule_ok.2 ⟨c, hr⟩
  subst this
  exact he h

/-- **C70** a grammar file is drawn as it is written: the program prints nothing, the tree it draws has the tokens
of the text as leaves, and the rules read from it are the rules written in the text. -/
theorem C70_drawn (digit : Char → Bool) (text : Str) (toks : List Token) (stop : Token)
    (hs : V1.ScansTo digit text (toks ++ [stop]) none) (h1 : stop.tokenType = 1) (D : Rules) (L : List (Str × Str))
    (hw : WFile D L toks) :
    ∃ r, (∀ h, Ends h digit text (.ok ⟨[], [], none, [], Page.render "parser".toList r⟩)) ∧ r.toAst.leaves = toks ∧
      readRules .v1 r.children = some D ∧ readLexRules .v1 r.children = L.map some := by
  obtain ⟨n, ts, ht⟩ := C52_tables_returned order incSetOrder
  have ht := ht n (Nat.le_refl _)
  obtain ⟨f, r, h2, h3, h4, h5⟩ := (C57_read_as_written order incSetOrder n ts ht toks stop h1 D L).1 hw
  exact ⟨r, ends_of_one hs ht h2, h3, h4, h5⟩

/-- **C70** the program runs without printing a message iff the text is a grammar file. -/
theorem C70_silent_iff (digit : Char → Bool) (text : Str) :
    (∃ page, ∀ h, Ends h digit text (.ok ⟨[], [], none, [], page⟩)) ↔
    ∃ toks stop D L, V1.ScansTo digit text (toks ++ [stop]) none ∧ stop.tokenType = 1 ∧ WFile D L toks := by
  constructor
  · rintro ⟨page, he⟩
    obtain ⟨out, rem, toks, -, -, hsc⟩ := scansTo_iff (digit := digit) text
    have hs := (hsc toks _).2 ⟨rfl, rfl⟩
    obtain ⟨res, hres, hp, hr⟩ := ends_of_parse hs
    have e := (he someOrders).det (hr someOrders)
    cases res with
    | error x => cases e
    | ok x =>
      obtain ⟨r, log⟩ := x
      simp only [Except.map, Except.ok.injEq, Output.mk.injEq] at e
      obtain ⟨-, -, e1, rfl, -⟩ := e
      obtain ⟨n, ts, ht⟩ := C52_tables_returned order incSetOrder
      have ht := ht n (Nat.le_refl _)
      obtain ⟨m, hm⟩ := hp order incSetOrder n ts ht
      have hm := hm m (Nat.le_refl _)
      obtain ⟨w, stop, rest, rfl, h1, h2, h3⟩ := C23_whole_input grammar order incSetOrder n ts ht _ endsEmpty
        (by simp) follow_start toks m r hm
      obtain ⟨rfl, hnone, -⟩ := stop_last hs h1
      rw [hnone] at hs
      rw [Parser.parse_eq] at hm
      obtain ⟨nm, kids, e, D, L, h4, h5, h6, h7⟩ := parseRule_sem ht hm (by omega)
      simp only [RuleContext.toAst, List.cons.injEq, Ast.rule.injEq, and_true] at e
      have : Ast.leavesList kids = w := by
        rw [← h2, ← e.2.2]
        simp [RuleContext.toAst, Ast.leaves]
      rw [this] at h4
      exact ⟨w, stop, D, L, hs, h1, h4⟩
  · rintro ⟨toks, stop, D, L, hs, h1, hw⟩
    obtain ⟨r, hr, -⟩ := C70_drawn digit text toks stop hs h1 D L hw
    exact ⟨_, hr⟩

/-- **C70** the whole text printed by a run that does not panic: the rest of the input that is no token, if there
is one, and one line for each token that does not match; it is empty iff the text is a grammar file. -/
theorem C70_stdout (digit : Char → Bool) (text : Str) (out : Output) (hout : ∀ h, Ends h digit text (.ok out)) :
    (∃ toks rest, V1.ScansTo digit text toks rest ∧
      out.stdout = (match rest with | none => [] | some r => r ++ "\n".toList) ++
        (List.replicate out.mismatches.length "符号不匹配\n".toList).flatten) ∧
    (out.stdout = [] ↔
      ∃ toks stop D L, V1.ScansTo digit text (toks ++ [stop]) none ∧ stop.tokenType = 1 ∧ WFile D L toks) := by
  obtain ⟨o, rem, toks, -, -, h⟩ := scansTo_iff (digit := digit) text
  have hs := (h toks _).2 ⟨rfl, rfl⟩
  obtain ⟨res, hres, hp, hr⟩ := ends_of_parse hs
  have e := (hout someOrders).det (hr someOrders)
  cases res with
  | error x => cases e
  | ok x =>
    have e : out = _ := Except.ok.inj e
    have e1 : out.messages = [] := by rw [e]
    have e2 : out.conflicts = [] := by rw [e]
    have e3 : out.unlexed = if rem = [] then none else some rem := by rw [e]
    have hrep : ∀ l : MismatchLog, (l.flatMap fun _ => "符号不匹配\n".toList) =
        (List.replicate l.length "符号不匹配\n".toList).flatten := by
      intro l
      induction l with
      | nil => rfl
      | cons a l ih => rw [List.flatMap_cons, ih]; rfl
    have hst : out.stdout = (match out.unlexed with | none => [] | some r => r ++ "\n".toList) ++
        (out.mismatches.flatMap fun _ => "符号不匹配\n".toList) := by
      rw [Output.stdout, e1, e2]
      rfl
    refine ⟨⟨toks, _, hs, ?_⟩, ?_⟩
    · rw [hst, e3, hrep]
    · rw [← C70_silent_iff]
      constructor
      · intro h0
        rw [hst, List.append_eq_nil_iff] at h0
        refine ⟨out.page, fun h => ?_⟩
        have h1 : out.unlexed = none := by
          cases hu : out.unlexed with
          | none => rfl
          | some r =>
            rw [hu] at h0
            exact absurd h0.1 (by simp)
        have h2 : out.mismatches = [] := by
          cases hm : out.mismatches with
          | nil => rfl
          | cons a l =>
            rw [hm] at h0
            exact absurd h0.2 (by simp)
        have : out = ⟨[], [], none, [], out.page⟩ := by
          rw [← e1, ← h1, ← h2]
          have : out.conflicts = out.messages.map fun _ => (⟨0, []⟩, ⟨0, []⟩) := by rw [e1, e2]; rfl
          cases out
          simp_all
        rw [← this]
        exact hout h
      · rintro ⟨page, hpage⟩
        have := (hout someOrders).det (hpage someOrders)
        cases this
        rfl

/-! ### the text in `main.rs` -/

/-- the tokens of the text -/
def scanned : List Token :=
  match (V1.lexer (fun _ => false) input).scanAll V1.WHITE_SPACE 0 5000 with
  | .ok (t, _, _) => t
  | _ => []

theorem scanned_eq (digit : Char → Bool) :
    ((V1.lexer digit input).scanAll V1.WHITE_SPACE 0 5000).map (fun x => (x.1, x.2.1)) = .ok (scanned, none) := by
  have h : decide (((V1.lexer digit input).scanAll V1.WHITE_SPACE 0 5000).map (fun x => (x.1, x.2.1)) =
      .ok (scanned, none)) = true := by kernel_rfl
  exact of_decide_eq_true h

instance (s : Str) : Decidable (Html.ScriptSafe s) := inferInstanceAs (Decidable (_ ∧ _))

/-- the tree is as expected, for one order -/
def checked : Bool :=
  match runTable grammar order incSetOrder 100 with
  | .ok ts =>
    match (parserOf grammar ts scanned).parse 300 with
    | .ok ((r : RuleContext), []) =>
      decide (r.toAst.leaves = scanned.dropLast) && (readRules .v1 r.children).any (sameRules · rules) &&
        decide (readLexRules .v1 r.children = lexRules.map some) &&
        r.toAst.shown.all fun s => decide (Html.ScriptSafe s) && (!s.contains '\r' && !hasSubst s)
    | _ => false
  | _ => false

theorem checked_true : checked = true := by decide +kernel

/-- **C70** for every hash order: run on the text in `main.rs` the program prints nothing and writes a page with
one title and one script, which begins with the declaration of a literal that is the tree of the text: its leaves
are the tokens of the text, and the rules read from it are the rules written there. -/
theorem C70_program (digit : Char → Bool) :
    ∃ (page : Str) (r : RuleContext) (stop : Token), (∀ h, Ends h digit input (.ok ⟨[], [], none, [], page⟩)) ∧
      V1.ScansTo digit input (r.toAst.leaves ++ [stop]) none ∧
      readRules .v1 r.children = some rules ∧ readLexRules .v1 r.children = lexRules.map some ∧
      ∃ ts literal v, Html.tokens page = some ts ∧ Html.texts "title".toList ts = ["parser".toList] ∧
        Html.texts "script".toList ts = ["\n    const ast = ".toList ++ literal ++ ";".toList ++ Page.scriptRest] ∧
        JsReadsAs literal v ∧ v.view = some r.toAst.toView := by
  have h := checked_true
  unfold checked at h
  split at h
  · rename_i ts ht
    split at h
    · rename_i r hr
      simp only [Bool.and_eq_true, decide_eq_true_eq, List.all_eq_true] at h
      obtain ⟨⟨⟨h1, h2⟩, h3⟩, h4⟩ := h
      have hs := scansTo_of_run 5000 (scanned_eq digit)
      have hl : scanned ≠ [] := by
        intro e
        rw [e] at hr
        cases hr
      refine ⟨_, r, scanned.getLast hl, ends_of_one hs ht hr, ?_, ?_, h3, ?_⟩
      · rw [h1, List.dropLast_append_getLast]
        exact hs
      · cases hR : readRules .v1 r.children with
        | none => rw [hR] at h2; cases h2
        | some D => rw [hR] at h2; rw [sameRules_eq _ _ h2]
      · refine C68_page_partial (by unfold TitleSafe; decide) fun s hs => ?_
        have := h4 s hs
        exact ⟨this.1, (clean_iff s).2 (by simpa using this.2)⟩
    · cases h
  · cases h

/-- the hypothesis of `C70_stdout` holds of the text in `main.rs` -/
example (digit : Char → Bool) : ∃ out, (∀ h, Ends h digit input (.ok out)) ∧ out.stdout = [] := by
  obtain ⟨page, _, _, h, _⟩ := C70_program digit
  exact ⟨_, h, rfl⟩

/-! ### the grammar it states -/

theorem plus_star {D : Rules} {tok : Str → Option Nat} {gs : List Elem} {w : List Nat} (h : Word D tok gs w) :
    ∀ e, gs = [.rep .plus e] → Word D tok [e, .rep .star e] w := by
  induction h with
  | plusOne hu h =>
    intro e he
    cases he
    exact hu.append (.starNil h)
  | plusCons hu h _ ih =>
    intro e he
    cases he
    obtain ⟨u', v, rfl, h1, h2⟩ := (ih _ rfl).split _ _ rfl
    exact hu.append (.starCons h1 h2)
  | nil => intro e he; cases he
  | tok => intro e he; cases he
  | ref => intro e he; cases he
  | group => intro e he; cases he
  | starNil => intro e he; cases he
  | starCons => intro e he; cases he
  | optNil => intro e he; cases he
  | optOne => intro e he; cases he

theorem star_plus {D : Rules} {tok : Str → Option Nat} {gs : List Elem} {v : List Nat} (h : Word D tok gs v) :
    ∀ e u, gs = [.rep .star e] → Word D tok [e] u → Word D tok [.rep .plus e] (u ++ v) := by
  induction h with
  | starNil h =>
    intro e u he hu
    cases he
    exact .plusOne hu h
  | starCons hu' _ _ ih =>
    intro e u he hu
    cases he
    exact .plusCons hu (ih _ _ rfl hu')
  | nil => intro e u he; cases he
  | tok => intro e u he; cases he
  | ref => intro e u he; cases he
  | group => intro e u he; cases he
  | plusOne => intro e u he; cases he
  | plusCons => intro e u he; cases he
  | optNil => intro e u he; cases he
  | optOne => intro e u he; cases he

/-- one or more is one and then any number -/
theorem word_plus {D : Rules} {tok : Str → Option Nat} {e : Elem} {w : List Nat} :
    Word D tok [.rep .plus e] w ↔ Word D tok [e, .rep .star e] w := by
  constructor
  · exact fun h => plus_star h e rfl
  · intro h
    obtain ⟨u, v, rfl, h1, h2⟩ := h.split _ _ rfl
    exact star_plus h2 e u rfl h1

/-- replacing the rules of a grammar by rules with the same words -/
theorem word_rules {D D' : Rules} {tok : Str → Option Nat}
    (h : ∀ n alts alt u, (n, alts) ∈ D → alt ∈ alts → Word D' tok alt u → Word D' tok [.ref n] u) {es : List Elem}
    {w : List Nat} (hw : Word D tok es w) : Word D' tok es w := by
  induction hw with
  | nil => exact .nil
  | tok hn _ ih => exact .tok hn ih
  | ref hd ha _ _ ih1 ih2 => exact (h _ _ _ _ hd ha ih1).append ih2
  | group ha _ _ ih1 ih2 => exact .group ha ih1 ih2
  | starNil _ ih => exact .starNil ih
  | starCons _ _ ih1 ih2 => exact .starCons ih1 ih2
  | plusOne _ _ ih1 ih2 => exact .plusOne ih1 ih2
  | plusCons _ _ ih1 ih2 => exact .plusCons ih1 ih2
  | optNil _ ih => exact .optNil ih
  | optOne _ _ ih1 ih2 => exact .optOne ih1 ih2

theorem word_ref {D : Rules} {tok : Str → Option Nat} {n : Str} {alts : List (List Elem)} {alt : List Elem}
    {u : List Nat} (hd : (n, alts) ∈ D) (ha : alt ∈ alts) (h : Word D tok alt u) : Word D tok [.ref n] u := by
  have := Word.ref hd ha h .nil
  rwa [List.append_nil] at this

/-- **C70** the grammar stated in `main.rs` has the language of the grammar the program is run with
(`syntaxis2.json`). -/
theorem C70_same_language (tok : Str → Option Nat) (n : Str) (w : List Nat) :
    Word rules tok [.ref n] w ↔ Word Shipped.rules tok [.ref n] w := by
  constructor
  · refine word_rules ?_
    intro n alts alt u hd ha h
    simp only [rules, List.mem_cons, List.not_mem_nil, or_false, Prod.mk.injEq] at hd
    rcases hd with hd | hd | hd | hd | hd | hd | hd | hd | hd
    case inr.inr.inr.inl =>
      obtain ⟨rfl, rfl⟩ := hd
      simp only [List.mem_cons, List.not_mem_nil, or_false] at ha
      rcases ha with rfl | rfl
      · exact word_ref (alts := [[R "element", .rep .star (R "element")], [R "epsilon"]])
          (by simp [Shipped.rules]) (by simp) (word_plus.1 h)
      · exact word_ref (alts := [[R "element", .rep .star (R "element")], [R "epsilon"]])
          (by simp [Shipped.rules]) (by simp) h
    all_goals
      obtain ⟨rfl, rfl⟩ := hd
      exact word_ref (by simp [Shipped.rules]; try tauto) ha h
  · refine word_rules ?_
    intro n alts alt u hd ha h
    simp only [Shipped.rules, List.mem_cons, List.not_mem_nil, or_false, Prod.mk.injEq] at hd
    rcases hd with hd | hd | hd | hd | hd | hd | hd | hd | hd
    case inr.inr.inr.inl =>
      obtain ⟨rfl, rfl⟩ := hd
      simp only [List.mem_cons, List.not_mem_nil, or_false] at ha
      rcases ha with rfl | rfl
      · exact word_ref (alts := [[.rep .plus (R "element")], [R "epsilon"]])
          (by simp [rules]) (by simp) (word_plus.2 h)
      · exact word_ref (alts := [[.rep .plus (R "element")], [R "epsilon"]])
          (by simp [rules]) (by simp) h
    all_goals
      obtain ⟨rfl, rfl⟩ := hd
      exact word_ref (by simp [rules]; try tauto) ha h

end Main
end Syntaxis
