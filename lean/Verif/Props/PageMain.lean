import Verif.Props.Main
import Verif.Props.PageView

/-!
# C92: a page without any label

The program run on an empty file.
-/

namespace Syntaxis
namespace Main
open Grammar Shipped

/-- the tokens of the empty text -/
def scannedEmpty : List Token :=
  match (V1.lexer (fun _ => false) []).scanAll V1.WHITE_SPACE 0 50 with
  | .ok (t, _, _) => t
  | _ => []

theorem scannedEmpty_eq (digit : Char → Bool) :
    ((V1.lexer digit []).scanAll V1.WHITE_SPACE 0 50).map (fun x => (x.1, x.2.1)) = .ok (scannedEmpty, none) := by
  have h : decide (((V1.lexer digit []).scanAll V1.WHITE_SPACE 0 50).map (fun x => (x.1, x.2.1)) =
      .ok (scannedEmpty, none)) = true := by kernel_rfl
  exact of_decide_eq_true h

/-- the tree is a rule without children, for one order -/
def checkedEmpty : Bool :=
  match runTable grammar order incSetOrder 100 with
  | .ok ts =>
    match (parserOf grammar ts scannedEmpty).parse 300 with
    | .ok ((r : RuleContext), []) => decide (r.ruleName = chars! "rule_list" ∧ r.children = [])
    | _ => false
  | _ => false

theorem checkedEmpty_true : checkedEmpty = true := by decide +kernel

/-- **C92** is false of the code on a page that the program writes: run on the empty file it prints nothing and draws a tree
that is one node, the rule `rule_list`; but whatever the layout and whatever is pressed, no element has a label. -/
theorem C92_empty_file (digit : Char → Bool) :
    ∃ r : RuleContext, (∀ h, Ends h digit [] (.ok ⟨[], [], none, [], Page.render "parser".toList r⟩)) ∧
      PageView.labelOf r.toAst.toView = "rule_list".toList ∧
      ∀ (lay : Outline.Layout) (presses : List Outline.Path), ∀ e ∈ (presses.foldl (Outline.pressLabel lay r.toAst.toView) (Outline.tree lay r.toAst.toView)).elements,
        e.node = [] ∧ e.label = [] := by
  have h := checkedEmpty_true
  unfold checkedEmpty at h
  split at h
  · rename_i ts ht
    split at h
    · rename_i r hr
      obtain ⟨h1, h2⟩ := of_decide_eq_true h
      have hs := scansTo_of_run 50 (scannedEmpty_eq digit)
      obtain ⟨n, ks, i⟩ := r
      dsimp only at h1 h2
      subst h1 h2
      refine ⟨_, ends_of_one hs ht hr, rfl, fun lay presses e he => ?_⟩
      have hv : (RuleContext.toAst ⟨chars! "rule_list", [], i⟩).toView = .node (chars! "rule_list") i [] := rfl
      have hn : e.node = [] ∧ PageView.NodeAt (.node (chars! "rule_list") i []) e.node (.node (chars! "rule_list") i []) := by
        obtain ⟨⟨label, tip, place, hsh, -⟩, -⟩ := Outline.C92_tree_partial lay (.node (chars! "rule_list") i []) presses
        obtain ⟨v, hv, -⟩ := hsh.element e he
        generalize e.node = p at hv
        have : ∀ p v, PageView.NodeAt (.node (chars! "rule_list") i []) p v → p = [] ∧ v = .node (chars! "rule_list") i [] := by
          intro p v h
          induction h with
          | root => exact ⟨rfl, rfl⟩
          | child _ hj ih =>
            have := ih.2
            simp only [View.node.injEq] at this
            rw [this.2.2] at hj
            cases hj
        obtain ⟨rfl, -⟩ := this p v hv
        exact ⟨rfl, .root⟩
      exact ⟨hn.1, (Outline.C92_empty_rule lay _ presses _ _ e he hn.2).1⟩
    · cases h
  · cases h

end Main
end Syntaxis
