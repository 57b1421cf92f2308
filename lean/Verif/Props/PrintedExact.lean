import Verif.Props.Display

/-!
# C72: what a printed grammar tells
-/

namespace Syntaxis
open Vocabulary

theorem rightText_words {v : Vocabulary} : ∀ {r : List Item} {s : Str}, rightText v r = .ok s →
    s = (printedWords v r).1 ++ (printedWords v r).2.flatMap (' ' :: ·)
  | [], s, h => by cases h; rfl
  | .nt B :: r, s, h => by
    rw [rightText] at h
    obtain ⟨u, hu, h⟩ := bind_eq_ok.1 h
    cases h
    rw [rightText_words hu]
    simp [printedWords]
  | .t a :: r, s, h => by
    rw [rightText] at h
    obtain ⟨n, hn, h⟩ := bind_eq_ok.1 h
    obtain ⟨u, hu, h⟩ := bind_eq_ok.1 h
    cases h
    have hn : v.getTerminalNameById a = some n := unwrap_eq_ok.1 hn
    rw [rightText_words hu, printedWords, hn]
    simp

theorem printedWords_no {v : Vocabulary} (hn : PrintableNames v) : ∀ r : List Item,
    ' ' ∉ (printedWords v r).1 ∧ ';' ∉ (printedWords v r).1 ∧ ∀ w ∈ (printedWords v r).2, ' ' ∉ w ∧ ';' ∉ w
  | [] => by simp [printedWords]
  | .nt B :: r => by
    obtain ⟨h1, h2, h3⟩ := printedWords_no hn r
    obtain ⟨k1, k2, -⟩ := withDefault_no hn B
    simp only [printedWords, List.mem_append, not_or]
    exact ⟨⟨k1, h1⟩, ⟨k2, h2⟩, h3⟩
  | .t a :: r => by
    obtain ⟨h1, h2, h3⟩ := printedWords_no hn r
    have k : ' ' ∉ (v.getTerminalNameById a).getD [] ∧ ';' ∉ (v.getTerminalNameById a).getD [] := by
      cases ha : v.getTerminalNameById a with
      | none => simp
      | some n => exact hn.token a n ha
    simp only [printedWords, List.not_mem_nil, not_false_eq_true, true_and, List.mem_cons, forall_eq_or_imp,
      List.mem_append, not_or]
    exact ⟨⟨⟨k.1, h1⟩, k.2, h2⟩, h3⟩

theorem spaced_head (ws : List Str) : ws.flatMap (' ' :: ·) = [] ∨ (ws.flatMap (' ' :: ·)).head? = some ' ' := by
  cases ws <;> simp

/-- words without spaces can be read back -/
theorem spaced_inj : ∀ {w w' : Str} {ws ws' : List Str}, ' ' ∉ w → ' ' ∉ w' → (∀ x ∈ ws, ' ' ∉ x) → (∀ x ∈ ws', ' ' ∉ x) →
    w ++ ws.flatMap (' ' :: ·) = w' ++ ws'.flatMap (' ' :: ·) → w = w' ∧ ws = ws'
  | w, w', ws, ws', h, h', hs, hs', e => by
    obtain ⟨e1, e2⟩ := cut_head h h' (spaced_head ws) (spaced_head ws') e
    refine ⟨e1, ?_⟩
    match ws, ws' with
    | [], [] => rfl
    | [], x :: xs => simp at e2
    | x :: xs, [] => simp at e2
    | x :: xs, y :: ys =>
      simp only [List.flatMap_cons, List.cons_append, List.cons.injEq, true_and] at e2
      obtain ⟨a, b⟩ := spaced_inj (hs x (by simp)) (hs' y (by simp)) (fun z hz => hs z (by simp [hz]))
        (fun z hz => hs' z (by simp [hz])) e2
      rw [a, b]
termination_by _ _ ws _ => ws.length

/-- **C72** exactly: two grammars over one vocabulary are printed alike if and only if, line by line, the rules are the same
and the right sides have the same words, a word being the name of a token with the names of the rules behind it.  So the
only thing that is lost in print is where inside a word one name ends and the next begins. -/
theorem C72_exact (ops : List VOp) (g g' : Grammar) (hg : g.vocabulary = runOps Vocabulary.new ops)
    (hg' : g'.vocabulary = g.vocabulary) (hn : PrintableNames g.vocabulary) (ord ord' : List Production) (s s' : Str)
    (h : g.display ord = .ok s) (h' : g'.display ord' = .ok s') :
    s = s' ↔ List.Forall₂ (fun p p' => p.left = p'.left ∧
      printedWords g.vocabulary p.right = printedWords g.vocabulary p'.right) ord ord' := by
  have hv : VInv g.vocabulary := hg ▸ vinv_reachable ops
  rw [display_eq] at h h'
  rw [hg'] at h'
  generalize g.vocabulary = v at *
  clear hg hg'
  have key : ∀ (ps ps' : List Production) (ls ls' : List Str), ps.mapM (lineText v) = .ok ls →
      ps'.mapM (lineText v) = .ok ls' → (ls.flatten = ls'.flatten ↔ List.Forall₂ (fun p p' => p.left = p'.left ∧
        printedWords v p.right = printedWords v p'.right) ps ps') := by
    intro ps
    induction ps with
    | nil =>
      intro ps' ls ls' h h'
      cases h
      cases ps' with
      | nil => cases h'; simp
      | cons p ps =>
        rw [List.mapM_cons, lineText] at h'
        obtain ⟨s, hs, h'⟩ := bind_eq_ok.1 h'
        obtain ⟨l1, h1, h'⟩ := bind_eq_ok.1 h'
        obtain ⟨u, hu, hs⟩ := bind_eq_ok.1 hs
        cases h'; cases hs
        simp
    | cons p ps ih =>
      intro ps' ls ls' h h'
      rw [List.mapM_cons, lineText] at h
      obtain ⟨s, hs, h⟩ := bind_eq_ok.1 h
      obtain ⟨l1, h1, h⟩ := bind_eq_ok.1 h
      obtain ⟨u, hu, hs⟩ := bind_eq_ok.1 hs
      cases h; cases hs
      cases ps' with
      | nil => cases h'; simp
      | cons p' ps' =>
        rw [List.mapM_cons, lineText] at h'
        obtain ⟨s', hs', h'⟩ := bind_eq_ok.1 h'
        obtain ⟨l1', h1', h'⟩ := bind_eq_ok.1 h'
        obtain ⟨u', hu', hs'⟩ := bind_eq_ok.1 hs'
        cases h'; cases hs'
        have no : ∀ r : List Item, ';' ∉ (printedWords v r).1 ++ (printedWords v r).2.flatMap (' ' :: ·) := by
          intro r hm
          obtain ⟨-, k2, k3⟩ := printedWords_no hn r
          rcases List.mem_append.1 hm with hm | hm
          · exact k2 hm
          · obtain ⟨w, hw, hm⟩ := List.mem_flatMap.1 hm
            rcases List.mem_cons.1 hm with hm | hm
            · exact absurd hm (by decide)
            · exact (k3 w hw).2 hm
        have e1 := rightText_words hu
        have e2 := rightText_words hu'
        rw [List.forall₂_cons, ← ih ps' l1 l1' h1 h1']
        constructor
        · intro e
          have e : v.getNonterminalNameWithDefault p.left ++ ' ' :: '-' :: '>' :: (u ++ ';' :: '\n' :: l1.flatten) =
              v.getNonterminalNameWithDefault p'.left ++ ' ' :: '-' :: '>' :: (u' ++ ';' :: '\n' :: l1'.flatten) := by
            simpa using e
          obtain ⟨e3, e⟩ := cut_first (withDefault_no hn _).1 (withDefault_no hn _).1 e
          obtain ⟨e4, e⟩ := cut_first (e1 ▸ no p.right) (e2 ▸ no p'.right) (List.cons.inj (List.cons.inj e).2).2
          rw [e1, e2] at e4
          obtain ⟨a, b⟩ := spaced_inj (printedWords_no hn _).1 (printedWords_no hn _).1
            (fun x hx => ((printedWords_no hn _).2.2 x hx).1) (fun x hx => ((printedWords_no hn _).2.2 x hx).1) e4
          exact ⟨⟨withDefault_inj hv hn e3, Prod.ext a b⟩, (List.cons.inj e).2⟩
        · rintro ⟨⟨e3, e4⟩, e5⟩
          rw [e4, ← e2] at e1
          rw [e1, e3, List.flatten_cons, List.flatten_cons, e5]
  cases hm : ord.mapM (lineText v) with
  | error e => rw [hm] at h; cases h
  | ok ls =>
    cases hm' : ord'.mapM (lineText v) with
    | error e => rw [hm'] at h'; cases h'
    | ok ls' =>
      rw [hm] at h; rw [hm'] at h'
      cases h; cases h'
      exact key ord ord' ls ls' hm hm'

/-- the two grammars of `C72_rules_glued` have the same words -/
example : List.Forall₂ (fun p p' => p.left = p'.left ∧
    printedWords glued1.vocabulary p.right = printedWords glued1.vocabulary p'.right)
    glued1.productions glued2.productions := by
  refine .cons ⟨rfl, by decide +kernel⟩ (.cons ⟨rfl, rfl⟩ .nil)

/-- and two that are printed differently do not -/
example : printedWords glued1.vocabulary [.nt 2, .t 2, .nt 3] = (['a'], [['X', 'b']]) ∧
    printedWords glued1.vocabulary [.nt 2, .nt 3, .t 2] = (['a', 'b'], [['X']]) := by decide +kernel

end Syntaxis
