import Verif.Props.Main
import Verif.Spec.Artefacts

/-!
# C73: the files in the repository are what the code writes
-/

namespace Syntaxis
open Grammar

/-- comparison of texts from left to right -/
def sameStr : Str → Str → Bool
  | [], [] => true
  | a :: s, b :: t => bif a.val == b.val then sameStr s t else false
  | _, _ => false

theorem sameStr_eq : ∀ {s t : Str}, sameStr s t = true → s = t
  | [], [], _ => rfl
  | a :: s, b :: t, h => by
    rw [sameStr] at h
    cases hab : (a.val == b.val) with
    | false => rw [hab] at h; cases h
    | true =>
      rw [hab] at h
      have hab := Char.ext (eq_of_beq hab)
      rw [hab, sameStr_eq h]
  | [], _ :: _, h => by cases h
  | _ :: _, [], h => by cases h

/-! ## the page -/

/-- the page of the tree of the text in `main.rs` is the file `parser2.html`, for one order -/
def pageChecked : Bool :=
  match runTable Shipped.grammar Shipped.order incSetOrder 100 with
  | .ok ts =>
    match (parserOf Shipped.grammar ts Main.scanned).parse 300 with
    | .ok ((r : RuleContext), []) => sameStr (Page.render "parser".toList r) Artefacts.parser2
    | _ => false
  | _ => false

theorem pageChecked_true : pageChecked = true := by decide +kernel

/-- **C73** for every hash order: the program prints nothing and writes the file `parser2.html` of the repository,
character by character. -/
theorem C73_page (digit : Char → Bool) (h : Main.Orders) :
    Main.Ends h digit Main.input (.ok ⟨[], [], none, [], Artefacts.parser2⟩) := by
  have hc := pageChecked_true
  unfold pageChecked at hc
  split at hc
  · rename_i ts ht
    split at hc
    · rename_i r hr
      rw [← sameStr_eq hc]
      exact Main.ends_of_one (scansTo_of_run 5000 (Main.scanned_eq digit)) ht hr h
    · cases hc
  · cases hc

/-! ## the lexer -/

theorem lexerChecked : sameStr (Template.render "Syntaxis".toList Shipped.data) Artefacts.generatedLexer = true := by
  decide +kernel

/-- **C73** the lexer source generated for the shipped grammar is the file `tests/lexer_generate/lexer.rs` of the
repository, character by character. -/
theorem C73_lexer (fuel : Nat) (hf : sizeOf Shipped.ast.toAst ≤ fuel) :
    ∃ g d, loadAst fuel Shipped.ast = .ok (g, d) ∧ Template.render "Syntaxis".toList d = Artefacts.generatedLexer := by
  obtain ⟨s2, s3, h, h1, h2, _⟩ := Shipped.built fuel hf
  exact ⟨Shipped.grammar, Shipped.data, by simp only [loadAst, buildGrammar, h, bind_ok, h1, h2], sameStr_eq lexerChecked⟩

/-! ## the recorded FIRST and FOLLOW sets -/

namespace Artefacts

/-- the rule with a name or number -/
def ruleOf (n : Str) : Nat := (Shipped.grammar.vocabulary.getNonterminalIdByName n).getD (readDec n)

/-- the tokens with these names -/
def tokensOf (ns : List Str) : List Nat := ns.filterMap Shipped.grammar.vocabulary.getTerminalIdByName

/-- the item with a name -/
def itemOf (n : Str) : Item :=
  match Shipped.grammar.vocabulary.getTerminalIdByName n with
  | some a => .t a
  | none => .nt (ruleOf n)

/-- the grammar of the records -/
def grammar : Grammar :=
  { Shipped.grammar with productions := productions.map fun p => ⟨ruleOf p.1, p.2.map itemOf⟩ }

/-- some iteration order of it -/
def order : IterOrder grammar where
  ids := List.range 18
  ids_mem := Shipped.order.ids_mem
  ord := grammar.productions
  ord_perm := List.Perm.refl _
  ord_nodup := by decide

/-- the names of the records are those of the shipped grammar, and every rule has a record -/
example : (∀ e ∈ first, (tokensOf e.2.1).length = e.2.1.length) ∧ (∀ e ∈ follow, (tokensOf e.2).length = e.2.length) ∧
    (∀ i < 18, ∃ e ∈ first, ruleOf e.1 = i) ∧ (∀ i < 18, ∃ e ∈ follow, ruleOf e.1 = i) := by decide +kernel

/-- it is not the shipped grammar: `element+` is now written `element element*` -/
example : (⟨13, [.nt 5]⟩ : Production) ∈ grammar.productions ∧ (⟨13, [.nt 5]⟩ : Production) ∉ Shipped.grammar.productions := by
  decide +kernel

theorem first_run : ((runFirst grammar order 100).map fun r =>
    first.all fun e => (r.1.get (ruleOf e.1)).any fun c => c.allowEpsilon == e.2.2 && decide (c.set = (tokensOf e.2.1).toFinset)) =
    .ok true := by decide +kernel

theorem follow_run : ((runFollow grammar order 100).map fun r =>
    follow.all fun e => (r.get (ruleOf e.1)).any fun c => decide (c = (tokensOf e.2).toFinset)) = .ok true := by
  decide +kernel

theorem wellFormed : grammar.WellFormed := by
  have h : (grammar.productions.all fun p => decide (p.left ∈ grammar.vocabulary.nonterminals) && p.right.all fun i =>
      match i with | .nt B => decide (B ∈ grammar.vocabulary.nonterminals) | .t _ => true) = true := by decide +kernel
  intro p hp
  have := List.all_eq_true.1 h p hp
  simp only [Bool.and_eq_true, decide_eq_true_eq, List.all_eq_true] at this
  exact ⟨this.1, fun B hB => by simpa using this.2 _ hB⟩

end Artefacts

/-- **C73** for every hash order, the FIRST sets of the grammar recorded in the tests are the recorded ones. -/
theorem C73_first (o : IterOrder Artefacts.grammar) : ∃ n F C, ∀ fuel, n ≤ fuel →
    runFirst Artefacts.grammar o fuel = .ok (F, C) ∧ ∀ e ∈ Artefacts.first,
      F.get (Artefacts.ruleOf e.1) = some ⟨e.2.2, (Artefacts.tokensOf e.2.1).toFinset⟩ := by
  obtain ⟨⟨n, ⟨F, C⟩, h⟩, -⟩ := C05_first_set_returns _ o Artefacts.wellFormed
  refine ⟨n, F, C, fun fuel hf => ⟨h fuel hf, fun e he => ?_⟩⟩
  have hr := Artefacts.first_run
  cases hm : runFirst Artefacts.grammar Artefacts.order 100 with
  | error x => rw [hm] at hr; cases hr
  | ok r =>
    obtain ⟨F', C'⟩ := r
    rw [hm] at hr
    have hr : (Artefacts.first.all fun e => (F'.get (Artefacts.ruleOf e.1)).any fun c =>
        c.allowEpsilon == e.2.2 && decide (c.set = (Artefacts.tokensOf e.2.1).toFinset)) = true := by
      simpa only [Except.map, Except.ok.injEq] using hr
    have he := List.all_eq_true.1 hr e he
    rw [(C09_first_order_independent _ o Artefacts.order n 100 F F' C C' (h n (Nat.le_refl _)) hm).1]
    cases hg : F'.get (Artefacts.ruleOf e.1) with
    | none => rw [hg] at he; cases he
    | some c =>
      rw [hg] at he
      simp only [Option.any_some, Bool.and_eq_true, beq_iff_eq, decide_eq_true_eq] at he
      obtain ⟨x, y⟩ := c
      simp only at he
      rw [he.1, he.2]

/-- **C73** for every hash order, the FOLLOW sets of the grammar recorded in the tests are the recorded ones. -/
theorem C73_follow (o : IterOrder Artefacts.grammar) : ∃ n W, ∀ fuel, n ≤ fuel →
    runFollow Artefacts.grammar o fuel = .ok W ∧ ∀ e ∈ Artefacts.follow,
      W.get (Artefacts.ruleOf e.1) = some (Artefacts.tokensOf e.2).toFinset := by
  obtain ⟨n, W, h⟩ := C10_follow_set_returns _ o Artefacts.wellFormed (by decide)
  refine ⟨n, W, fun fuel hf => ⟨h fuel hf, fun e he => ?_⟩⟩
  have hr := Artefacts.follow_run
  cases hm : runFollow Artefacts.grammar Artefacts.order 100 with
  | error x => rw [hm] at hr; cases hr
  | ok W' =>
    rw [hm] at hr
    have hr : (Artefacts.follow.all fun e => (W'.get (Artefacts.ruleOf e.1)).any fun c =>
        decide (c = (Artefacts.tokensOf e.2).toFinset)) = true := by
      simpa only [Except.map, Except.ok.injEq] using hr
    have he := List.all_eq_true.1 hr e he
    rw [C09_follow_order_independent _ o Artefacts.order n 100 W W' (h n (Nat.le_refl _)) hm]
    cases hg : W'.get (Artefacts.ruleOf e.1) with
    | none => rw [hg] at he; cases he
    | some c =>
      rw [hg] at he
      simp only [Option.any_some, decide_eq_true_eq] at he
      rw [he]

end Syntaxis
