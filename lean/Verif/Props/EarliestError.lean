import Verif.Model.ParserOut
import Verif.Props.ParserErrors

/-!
# C98: errors are found at the earliest wrong token
-/

namespace Syntaxis
open Grammar

/-- what is left of an ending when messages and cursor are forgotten -/
def forget {α β : Type} (f : α → MismatchLog → β) : MismatchLog × Ending α → Res β
  | (_, .error e) => .error e.1
  | (l, .ok a) => .ok (f a l)

variable {ps : Parser}

theorem itemsOut_forget {call : Nat → Nat → Res (RuleContext × Nat × MismatchLog)}
    {call' : Nat → Nat → MismatchLog × Ending (RuleContext × Nat)}
    (hc : ∀ c A, call c A = forget (fun a l => (a.1, a.2, l)) (call' c A)) (α : List Item) (cs : List Ast) (c : Nat)
    (log : MismatchLog) :
    ps.parseItems call α ⟨cs, c, log⟩ = forget (fun a l => ⟨a.1, a.2, l⟩) (ps.itemsOut call' α cs c log) := by
  induction α generalizing cs c log with
  | nil => rfl
  | cons x α ih =>
    cases x with
    | t a =>
      simp only [Parser.parseItems, Parser.itemsOut, Parser.tokenAt]
      cases ps.tokens[c]? with
      | none => rfl
      | some tok => simp only [unwrap_some, bind_ok]; exact ih _ _ _
    | nt A =>
      simp only [Parser.parseItems, Parser.itemsOut, hc]
      rcases call' c A with ⟨l, e | ⟨r, c'⟩⟩
      · rfl
      · simp only [forget, bind_ok]; exact ih _ _ _

theorem astOut_forget (fuel c A : Nat) :
    ps.parseAst fuel c A = forget (fun a l => (a.1, a.2, l)) (ps.astOut fuel c A) := by
  induction fuel generalizing c A with
  | zero => rfl
  | succ fuel ih =>
    simp only [Parser.parseAst, Parser.astOut, Parser.tokenAt]
    cases ps.tokens[c]? with
    | none => rfl
    | some tok =>
      simp only [unwrap_some, bind_ok]
      cases ps.table.get (A, tok.tokenType) with
      | none => rfl
      | some p =>
        simp only [unwrap_some, bind_ok, itemsOut_forget ih]
        rcases ps.itemsOut (ps.astOut fuel) p.right [] c [] with ⟨l, e | ⟨r, c'⟩⟩ <;> rfl

/-- **C98** the two models of `parse` agree: the same result, with the same messages if there is one. -/
theorem C98_same_parse (ps : Parser) (fuel : Nat) :
    ps.parse fuel = forget (fun r l => (r, l)) (ps.parseOut fuel) := by
  simp only [Parser.parse, Parser.parseOut, astOut_forget]
  rcases ps.astOut fuel 0 0 with ⟨l, e | ⟨r, c'⟩⟩ <;> rfl

/-- parsing the items `α` from cursor `c` prints `l`, then panics at cursor `i` -/
inductive PanicsAt (ps : Parser) : List Item → Nat → MismatchLog → Nat → Prop
  | tok {x : Item} {rest : List Item} {c : Nat} : ps.tokens[c]? = none → PanicsAt ps (x :: rest) c [] c
  | t {a : Nat} {tok : Token} {rest : List Item} {c i : Nat} {l : MismatchLog} : ps.tokens[c]? = some tok →
      PanicsAt ps rest (c + 1) l i →
      PanicsAt ps (.t a :: rest) c ((if a ≠ tok.tokenType then [(a, c)] else []) ++ l) i
  | entry {A : Nat} {tok : Token} {rest : List Item} {c : Nat} : ps.tokens[c]? = some tok →
      ps.table.get (A, tok.tokenType) = none → PanicsAt ps (.nt A :: rest) c [] c
  | sub {A : Nat} {tok : Token} {p : Production} {rest : List Item} {c i : Nat} {l : MismatchLog} :
      ps.tokens[c]? = some tok → ps.table.get (A, tok.tokenType) = some p → PanicsAt ps p.right c l i →
      PanicsAt ps (.nt A :: rest) c l i
  | rest {A : Nat} {tok : Token} {p : Production} {rest : List Item} {c c1 i : Nat} {f1 : List PTree}
      {ks1 : List Ast} {l1 l2 : MismatchLog} :
      ps.tokens[c]? = some tok → ps.table.get (A, tok.tokenType) = some p →
      Run ps p.right c f1 ks1 c1 l1 → PanicsAt ps rest c1 l2 i → PanicsAt ps (.nt A :: rest) c (l1 ++ l2) i

theorem itemsOut_panicsAt {fuel : Nat}
    (hcall : ∀ c A l i, ps.astOut fuel c A = (l, .error (.panic, i)) → PanicsAt ps [.nt A] c l i)
    {α : List Item} {cs : List Ast} {c i : Nat} {log l : MismatchLog}
    (h : ps.itemsOut (ps.astOut fuel) α cs c log = (l, .error (.panic, i))) :
    ∃ l', l = log ++ l' ∧ PanicsAt ps α c l' i := by
  induction α generalizing cs c log with
  | nil => simp [Parser.itemsOut] at h
  | cons x α ih =>
    cases x with
    | t a =>
      simp only [Parser.itemsOut] at h
      cases ht : ps.tokens[c]? with
      | none =>
        rw [ht] at h
        simp only [Prod.mk.injEq, Except.error.injEq, true_and] at h
        obtain ⟨rfl, rfl⟩ := h
        exact ⟨[], by simp, .tok ht⟩
      | some tok =>
        rw [ht] at h
        obtain ⟨l', e, h'⟩ := ih h
        refine ⟨_, ?_, .t (a := a) ht h'⟩
        rw [e]
        split <;> simp
    | nt A =>
      simp only [Parser.itemsOut] at h
      cases hr : ps.astOut fuel c A with
      | mk l0 en =>
        rw [hr] at h
        cases en with
        | error e =>
          simp only [Prod.mk.injEq, Except.error.injEq] at h
          obtain ⟨rfl, rfl⟩ := h
          have := hcall _ _ _ _ hr
          refine ⟨l0, rfl, ?_⟩
          cases this with
          | tok h1 => exact .tok h1
          | entry h1 h2 => exact .entry h1 h2
          | sub h1 h2 h3 => exact .sub h1 h2 h3
          | rest _ _ _ h4 => cases h4
        | ok x =>
          obtain ⟨r, c'⟩ := x
          obtain ⟨l', e, h'⟩ := ih h
          have : ps.parseAst fuel c A = .ok (r, c', l0) := by rw [astOut_forget, hr]; rfl
          obtain ⟨_, _, tok, p, f, h1, h2, h3⟩ := parseAst_run this
          exact ⟨_, by rw [e, List.append_assoc], .rest h1 h2 h3 h'⟩

theorem astOut_panicsAt {fuel c A i : Nat} {l : MismatchLog} (h : ps.astOut fuel c A = (l, .error (.panic, i))) :
    PanicsAt ps [.nt A] c l i := by
  induction fuel generalizing c A l i with
  | zero => simp [Parser.astOut] at h
  | succ fuel ih =>
    simp only [Parser.astOut] at h
    cases ht : ps.tokens[c]? with
    | none =>
      rw [ht] at h
      simp only [Prod.mk.injEq, Except.error.injEq, true_and] at h
      obtain ⟨rfl, rfl⟩ := h
      exact .tok ht
    | some tok =>
      rw [ht] at h
      simp only at h
      cases hp : ps.table.get (A, tok.tokenType) with
      | none =>
        rw [hp] at h
        simp only [Prod.mk.injEq, Except.error.injEq, true_and] at h
        obtain ⟨rfl, rfl⟩ := h
        exact .entry ht hp
      | some p =>
        rw [hp] at h
        simp only at h
        cases hr : ps.itemsOut (ps.astOut fuel) p.right [] c [] with
        | mk l0 en =>
          rw [hr] at h
          cases en with
          | ok x => simp at h
          | error e =>
            simp only [Prod.mk.injEq, Except.error.injEq] at h
            obtain ⟨rfl, rfl⟩ := h
            obtain ⟨l', e, h'⟩ := itemsOut_panicsAt (fun c A l i h => ih h) hr
            simp only [List.nil_append] at e
            subst e
            exact .sub ht hp h'

theorem parseOut_panicsAt {fuel i : Nat} {l : MismatchLog} (h : ps.parseOut fuel = (l, .error (.panic, i))) :
    PanicsAt ps [.nt 0] 0 l i := by
  simp only [Parser.parseOut] at h
  cases ha : ps.astOut fuel 0 0 with
  | mk l0 en =>
    rw [ha] at h
    cases en with
    | ok x => simp at h
    | error e =>
      simp only [Prod.mk.injEq, Except.error.injEq] at h
      obtain ⟨rfl, rfl⟩ := h
      exact astOut_panicsAt ha

/-- the cursor of the first message, or `d` if there is none -/
def firstStop (l : MismatchLog) (d : Nat) : Nat :=
  match l with
  | [] => d
  | x :: _ => x.2

theorem PanicsAt.ge {α : List Item} {c i : Nat} {l : MismatchLog} (h : PanicsAt ps α c l i) :
    c ≤ i ∧ ∀ x ∈ l, c ≤ x.2 ∧ x.2 < i := by
  induction h with
  | tok => simp
  | @t a tok rest c i l htok _ ih =>
    refine ⟨by omega, fun x hx => ?_⟩
    rcases List.mem_append.1 hx with hx | hx
    · split at hx
      · simp only [List.mem_singleton] at hx
        subst hx
        exact ⟨Nat.le_refl _, ih.1⟩
      · cases hx
    · have := ih.2 x hx
      omega
  | entry => simp
  | sub _ _ _ ih => exact ih
  | rest _ _ hr _ ih =>
    have := hr.leaves.1
    refine ⟨by omega, fun x hx => ?_⟩
    rcases List.mem_append.1 hx with hx | hx
    · have := hr.log_ge (e := x.1) (i := x.2) hx
      omega
    · have := ih.2 x hx
      omega

theorem PanicsAt.le {α : List Item} {c i : Nat} {l : MismatchLog} (h : PanicsAt ps α c l i)
    (hc : c ≤ ps.tokens.length) : i ≤ ps.tokens.length := by
  induction h with
  | tok => exact hc
  | t htok _ ih => exact ih (List.getElem?_eq_some_iff.1 htok).1
  | entry => exact hc
  | sub _ _ _ ih => exact ih hc
  | rest _ _ hr _ ih => exact ih (hr.leaves.2.1 hc)

theorem PanicsAt.stop_le {α : List Item} {c i : Nat} {l : MismatchLog} (h : PanicsAt ps α c l i) :
    c ≤ firstStop l i ∧ firstStop l i ≤ i := by
  have := h.ge
  cases l with
  | nil => exact ⟨this.1, Nat.le_refl _⟩
  | cons x l =>
    have := this.2 x List.mem_cons_self
    exact ⟨this.1, Nat.le_of_lt this.2⟩

/-- up to the first message the tokens are those of the tree -/
theorem Run.agree {α : List Item} {c : Nat} {f : List PTree} {ks : List Ast} {d : Nat} {l : MismatchLog}
    (h : Run ps α c f ks d l) (j : Nat) (h1 : c ≤ j) (h2 : j < firstStop l d) :
    ps.tokens[j]?.map Token.tokenType = (PTree.yields f)[j - c]? := by
  induction h with
  | nil c => simp only [firstStop] at h2; omega
  | @t a tok c c' rest f ks l htok hr ih =>
    by_cases ha : a = tok.tokenType
    · simp only [ha, ne_eq, not_true_eq_false, ↓reduceIte, List.nil_append] at h2
      by_cases hj : j = c
      · subst hj
        simp [htok, PTree.yields, PTree.yield, ha]
      · obtain ⟨k, rfl⟩ : ∃ k, j = c + 1 + k := ⟨j - (c + 1), by omega⟩
        rw [ih (by omega) h2]
        rw [show c + 1 + k - (c + 1) = k by omega, show c + 1 + k - c = k + 1 by omega]
        simp [PTree.yields, PTree.yield]
    · simp only [ne_eq, ha, not_false_eq_true, ↓reduceIte, List.singleton_append, firstStop] at h2
      omega
  | @nt A tok p c c1 c2 rest f1 f2 ks1 ks2 l1 l2 htok hp hr1 hr2 ih1 ih2 =>
    have hd := hr1.diffs.2.1
    simp only [PTree.yields, PTree.yield]
    by_cases hj : j < c1
    · rw [List.getElem?_append_left (by omega)]
      refine ih1 h1 ?_
      cases l1 with
      | nil => exact hj
      | cons x l1 => exact h2
    · rw [List.getElem?_append_right (by omega)]
      cases l1 with
      | cons x l1 =>
        have := hr1.log_ge (e := x.1) (i := x.2) List.mem_cons_self
        simp only [List.cons_append, firstStop] at h2
        omega
      | nil =>
        rw [ih2 (by omega) h2]
        congr 1
        omega

/-- every rule that is used derives something -/
def Productive (P : List Production) : Prop :=
  ∀ p ∈ P, ∀ B, Item.nt B ∈ p.right → ∃ w, Sentence P B w

theorem yields_of_all {P : List Production} {α : List Item} (h : ∀ B, Item.nt B ∈ α → ∃ w, Sentence P B w) :
    ∃ w, Yields P α w := by
  induction α with
  | nil => exact ⟨[], .nil⟩
  | cons x α ih =>
    obtain ⟨w, hw⟩ := ih fun B hB => h B (List.mem_cons_of_mem _ hB)
    cases x with
    | t a => exact ⟨_, .t a hw⟩
    | nt B =>
      obtain ⟨v, hv⟩ := h B List.mem_cons_self
      exact ⟨v ++ w, (yields_iff.2 hv).append hw⟩

/-- up to the first message or the panic the tokens start something the items derive -/
theorem PanicsAt.agree {P : List Production} (hT : TableOf P ps.table) (hP : Productive P) {α : List Item} {c i : Nat}
    {l : MismatchLog} (h : PanicsAt ps α c l i) (hα : ∀ B, Item.nt B ∈ α → ∃ w, Sentence P B w) :
    ∃ w, Yields P α w ∧ ∀ j, c ≤ j → j < firstStop l i → ps.tokens[j]?.map Token.tokenType = w[j - c]? := by
  induction h with
  | tok =>
    obtain ⟨w, hw⟩ := yields_of_all hα
    exact ⟨w, hw, fun j h1 h2 => by simp only [firstStop] at h2; omega⟩
  | entry =>
    obtain ⟨w, hw⟩ := yields_of_all hα
    exact ⟨w, hw, fun j h1 h2 => by simp only [firstStop] at h2; omega⟩
  | @t a tok rest c i l htok hr ih =>
    obtain ⟨w, hw, hag⟩ := ih fun B hB => hα B (List.mem_cons_of_mem _ hB)
    refine ⟨a :: w, .t a hw, fun j h1 h2 => ?_⟩
    by_cases ha : a = tok.tokenType
    · simp only [ha, ne_eq, not_true_eq_false, ↓reduceIte, List.nil_append] at h2
      by_cases hj : j = c
      · subst hj
        simp [htok, ha]
      · obtain ⟨k, rfl⟩ : ∃ k, j = c + 1 + k := ⟨j - (c + 1), by omega⟩
        rw [hag _ (by omega) h2]
        rw [show c + 1 + k - (c + 1) = k by omega, show c + 1 + k - c = k + 1 by omega]
        simp
    · simp only [ne_eq, ha, not_false_eq_true, ↓reduceIte, List.singleton_append, firstStop] at h2
      omega
  | @sub A tok p rest c i l htok hp hsub ih =>
    obtain ⟨hp1, rfl⟩ := hT _ _ _ hp
    obtain ⟨w, hw, hag⟩ := ih (hP p hp1)
    obtain ⟨v, hv⟩ := yields_of_all (α := rest) fun B hB => hα B (List.mem_cons_of_mem _ hB)
    refine ⟨w ++ v, .nt p hp1 hw hv, fun j h1 h2 => ?_⟩
    have hlt := (List.getElem?_eq_some_iff.1 htok).1
    have := hsub.le (by omega)
    have hs : firstStop l i ≤ i := hsub.stop_le.2
    have ht := hag j h1 h2
    rw [List.getElem?_eq_getElem (by omega)] at ht
    have := (List.getElem?_eq_some_iff.1 ht.symm).1
    rw [List.getElem?_append_left this, ← ht, List.getElem?_eq_getElem (by omega)]
  | @rest A tok p rest c c1 i f1 ks1 l1 l2 htok hp hr _ ih =>
    obtain ⟨hp1, rfl⟩ := hT _ _ _ hp
    obtain ⟨w, hw, hag⟩ := ih fun B hB => hα B (List.mem_cons_of_mem _ hB)
    have hd := hr.diffs.2.1
    have hv := PTree.Valids.derives (hr.valid hT).1
    rw [(hr.valid hT).2] at hv
    refine ⟨PTree.yields f1 ++ w, .nt p hp1 hv hw, fun j h1 h2 => ?_⟩
    by_cases hj : j < c1
    · rw [List.getElem?_append_left (by omega)]
      refine hr.agree j h1 ?_
      cases l1 with
      | nil => exact hj
      | cons x l1 => exact h2
    · rw [List.getElem?_append_right (by omega)]
      cases l1 with
      | cons x l1 =>
        have := hr.log_ge (e := x.1) (i := x.2) List.mem_cons_self
        simp only [List.cons_append, firstStop] at h2
        omega
      | nil =>
        rw [hag _ (by omega) h2]
        congr 1
        omega

/-- if other tokens have the same types up to the first message or the panic, the parser does not accept them silently -/
theorem PanicsAt.not_silent {α : List Item} {c i : Nat} {l : MismatchLog} (h : PanicsAt ps α c l i) {toks' : List Token}
    (he : ∀ j, j ≤ firstStop l i → ps.tokens[j]?.map Token.tokenType = toks'[j]?.map Token.tokenType)
    {f' : List PTree} {ks' : List Ast} {d' : Nat} : ¬ Run { ps with tokens := toks' } α c f' ks' d' [] := by
  induction h generalizing f' ks' d' with
  | @tok x rest c ht =>
    intro hr
    have hc := he c (Nat.le_refl _)
    rw [ht] at hc
    generalize hl : ([] : MismatchLog) = l' at hr
    cases hr with
    | t h1 _ => simp only at h1; rw [h1] at hc; cases hc
    | nt h1 _ _ _ => simp only at h1; rw [h1] at hc; cases hc
  | @t a tok rest c i l htok hsub ih =>
    intro hr
    generalize hl : ([] : MismatchLog) = l' at hr
    cases hr with
    | @t _ tok' _ _ _ _ _ l' h1 hr' =>
      simp only at h1
      obtain ⟨hl1, rfl⟩ := List.append_eq_nil_iff.1 hl.symm
      by_cases ha : a = tok.tokenType
      · simp only [ha, ne_eq, not_true_eq_false, ↓reduceIte, List.nil_append] at he
        exact ih he hr'
      · simp only [ne_eq, ha, not_false_eq_true, ↓reduceIte, List.singleton_append, firstStop] at he
        have hc := he c (Nat.le_refl _)
        rw [htok, h1] at hc
        simp only [Option.map_some, Option.some.injEq] at hc
        rw [← hc, if_pos ha] at hl1
        cases hl1
  | @entry A tok rest c htok hp =>
    intro hr
    have hc := he c (Nat.le_refl _)
    generalize hl : ([] : MismatchLog) = l' at hr
    cases hr with
    | nt h1 h2 _ _ =>
      simp only at h1 h2
      rw [htok, h1] at hc
      simp only [Option.map_some, Option.some.injEq] at hc
      rw [← hc, hp] at h2
      cases h2
  | @sub A tok p rest c i l htok hp hsub ih =>
    intro hr
    have hc := he c hsub.stop_le.1
    generalize hl : ([] : MismatchLog) = l' at hr
    cases hr with
    | nt h1 h2 h3 h4 =>
      simp only at h1 h2
      rw [htok, h1] at hc
      simp only [Option.map_some, Option.some.injEq] at hc
      rw [← hc, hp, Option.some.injEq] at h2
      subst h2
      obtain ⟨rfl, rfl⟩ := List.append_eq_nil_iff.1 hl.symm
      exact ih he h3
  | @rest A tok p rest c c1 i f1 ks1 l1 l2 htok hp hr1 hsub ih =>
    intro hr
    have hc := he c (PanicsAt.rest htok hp hr1 hsub).stop_le.1
    generalize hl : ([] : MismatchLog) = l' at hr
    cases hr with
    | nt h1 h2 h3 h4 =>
      simp only at h1 h2
      rw [htok, h1] at hc
      simp only [Option.map_some, Option.some.injEq] at hc
      rw [← hc, hp, Option.some.injEq] at h2
      subst h2
      obtain ⟨rfl, rfl⟩ := List.append_eq_nil_iff.1 hl.symm
      cases l1 with
      | cons x l1 =>
        obtain ⟨e, j⟩ := x
        have := hr1.first_mismatch rfl he h3
        cases this
      | nil =>
        obtain ⟨k1, q1, _⟩ := hr1.local fun j hj => he j (Nat.le_trans hj hsub.stop_le.1)
        obtain ⟨_, _, q2, _⟩ := q1.det h3
        subst q2
        exact ih he h4

/-- the tokens can be continued to a sentence followed by `_STOP` -/
def Viable (P : List Production) (u : List Nat) : Prop := ∃ w, Sentence P 0 w ∧ u <+: w ++ [1]

theorem Viable.take {P : List Production} {u : List Nat} {i j : Nat} (h : Viable P (u.take j)) (hij : i ≤ j) :
    Viable P (u.take i) := by
  obtain ⟨w, hw, hp⟩ := h
  refine ⟨w, hw, List.IsPrefix.trans ?_ hp⟩
  rw [show u.take i = (u.take j).take i by rw [List.take_take, Nat.min_eq_left hij]]
  exact List.take_prefix _ _

/-- the first `i` tokens can be continued to a sentence, the first `i + 1` cannot: `i` is the earliest wrong token -/
structure WrongAt (P : List Production) (types : List Nat) (i : Nat) : Prop where
  lt : i < types.length
  before : Viable P (types.take i)
  wrong : ¬ Viable P (types.take (i + 1))

theorem tk_type (w : List Nat) (j : Nat) : (w.map tk)[j]?.map Token.tokenType = w[j]? := by
  rw [List.getElem?_map, Option.map_map]
  have : Token.tokenType ∘ tk = id := rfl
  rw [this, Option.map_id]; rfl

variable {g : Grammar} {o : IterOrder g} {so : SetOrder} {fuel : Nat} {ts : TableState}

/-- a run that ends badly does so at the first token that is wrong, or later -/
theorem PanicsAt.not_viable (h : runTable g o so fuel = .ok ts) (hc : ts.conflicts = []) {toks : List Token} {i : Nat}
    {l : MismatchLog} (hp : PanicsAt (parserOf g ts toks) [.nt 0] 0 l i) (hi : firstStop l i < toks.length) :
    ¬ Viable g.productions ((toks.map Token.tokenType).take (firstStop l i + 1)) := by
  rintro ⟨w, hw, hpre⟩
  obtain ⟨n, r', hok, _⟩ := C20_parser_complete g o so fuel ts h hc w [] hw
    ((w ++ [1]).map tk) (by simp [tk, Token.new, Function.comp_def])
  obtain ⟨c2, h1⟩ := Parser.parseRule_ok.1 (hok n (Nat.le_refl _))
  obtain ⟨_, _, tok', p', f', htok', hp', hrun'⟩ := parseAst_run h1
  refine hp.not_silent (toks' := (w ++ [1]).map tk) (fun j hj => ?_) (Run.nt htok' hp' hrun' (Run.nil _))
  obtain ⟨t, ht⟩ := hpre
  rw [tk_type, ← ht, List.getElem?_append_left (by simp; omega), List.getElem?_take_of_lt (by omega), List.getElem?_map]
  rfl

/-- the tokens before the first message or the panic can be continued -/
theorem PanicsAt.viable (h : runTable g o so fuel = .ok ts) (hP : Productive g.productions)
    (h0 : ∃ w, Sentence g.productions 0 w) {toks : List Token} {i : Nat}
    {l : MismatchLog} (hp : PanicsAt (parserOf g ts toks) [.nt 0] 0 l i) :
    Viable g.productions ((toks.map Token.tokenType).take (firstStop l i)) := by
  obtain ⟨w, hw, hag⟩ := hp.agree (tableOf_of h) hP (by simpa using h0)
  refine ⟨w, yields_iff.1 hw, ?_⟩
  have : (toks.map Token.tokenType).take (firstStop l i) = w.take (firstStop l i) := by
    apply List.ext_getElem?
    intro j
    by_cases hj : j < firstStop l i
    · rw [List.getElem?_take_of_lt hj, List.getElem?_take_of_lt hj, List.getElem?_map]
      exact hag j (Nat.zero_le _) hj
    · rw [List.getElem?_eq_none (by simp; omega), List.getElem?_eq_none (by simp; omega)]
  rw [this]
  exact (List.take_prefix _ _).trans (List.prefix_append _ _)

theorem WrongAt.unique {P : List Production} {types : List Nat} {i k : Nat} (h : WrongAt P types i)
    (h1 : Viable P (types.take k)) (h2 : ¬ Viable P (types.take (k + 1))) : k = i := by
  rcases Nat.lt_trichotomy k i with hk | hk | hk
  · exact absurd (h.before.take hk) h2
  · exact hk
  · exact absurd (h1.take hk) h.wrong

/-- **C98** with a conflict-free table of a grammar all of whose rules derive something, a token list with an earliest
wrong token `i` is dealt with in one of three ways: the first message is about token `i`; or nothing is printed and
`parse()` panics at token `i`; or nothing is printed and `parse()` returns, having consumed a sentence, namely all tokens
before `i` — but for a `_STOP` directly before it. -/
theorem C98_earliest (h : runTable g o so fuel = .ok ts) (hc : ts.conflicts = []) (hP : Productive g.productions)
    (toks : List Token) (i : Nat) (hw : WrongAt g.productions (toks.map Token.tokenType) i) :
    ∃ n, ∀ fuel', n ≤ fuel' →
      (∃ e log en, (parserOf g ts toks).parseOut fuel' = ((e, i) :: log, en)) ∨
      (parserOf g ts toks).parseOut fuel' = ([], .error (.panic, i)) ∨
      ∃ r k, (parserOf g ts toks).parseOut fuel' = ([], .ok r) ∧ r.toAst.leaves = toks.take k ∧
        Sentence g.productions 0 ((toks.map Token.tokenType).take k) ∧
        (k = i ∨ k + 1 = i ∧ (toks.map Token.tokenType)[k]? = some 1) := by
  obtain ⟨n, res, hres, hn⟩ := C21_parser_terminates g o so fuel ts h hc toks 0
  have hilt : i < toks.length := by simpa using hw.lt
  refine ⟨n, fun fuel' hf => ?_⟩
  have hn : (parserOf g ts toks).parse fuel' = res := hn fuel' hf
  rw [C98_same_parse] at hn
  cases ho : (parserOf g ts toks).parseOut fuel' with
  | mk log en =>
    cases en with
    | error x =>
      obtain ⟨ft, k⟩ := x
      rw [ho] at hn
      have hft : ft = .panic := by
        cases ft with
        | panic => rfl
        | fuel => exact absurd hn.symm hres
      subst hft
      have hp := parseOut_panicsAt ho
      obtain ⟨w0, hw0, _⟩ := hw.before
      have hv := hp.viable h hP ⟨w0, hw0⟩
      have hle := hp.le (Nat.zero_le _)
      have hst := hp.stop_le.2
      have hs : firstStop log k = i := by
        by_cases hlt : firstStop log k < toks.length
        · exact hw.unique hv (hp.not_viable h hc hlt)
        · exact absurd (hv.take (i := i + 1) (by omega)) hw.wrong
      cases log with
      | nil =>
        simp only [firstStop] at hs
        subst hs
        exact .inr (.inl rfl)
      | cons x log =>
        simp only [firstStop] at hs
        subst hs
        exact .inl ⟨x.1, log, _, rfl⟩
    | ok r =>
      have hr : (parserOf g ts toks).parse fuel' = .ok (r, log) := by rw [C98_same_parse, ho]; rfl
      cases log with
      | cons x log =>
        obtain ⟨e, j⟩ := x
        obtain ⟨⟨v, hv⟩, h2⟩ := C60_earliest_error g o so fuel ts h hc toks fuel' r e j log hr
        have : j = i := by
          refine hw.unique ⟨_, hv, ?_⟩ fun ⟨w, h3, h4⟩ => h2 w h3 h4
          rw [List.append_assoc]
          exact List.prefix_append _ _
        subst this
        exact .inl ⟨e, log, _, rfl⟩
      | nil =>
        obtain ⟨k, hk, hlv⟩ := C18_leaves_are_consumed_tokens _ _ _ _ _ hr
        have hs := C19_parser_sound g o so fuel ts h g.vocabulary toks 0 fuel' r hr
        have hk : k ≤ toks.length := hk
        have hlv : r.toAst.leaves = toks.take k := hlv
        rw [hlv, List.map_take] at hs
        refine .inr (.inr ⟨r, k, rfl, hlv, hs, ?_⟩)
        have hki : k ≤ i := by
          by_contra hki
          exact hw.wrong (Viable.take (j := k) ⟨_, hs, List.prefix_append _ _⟩ (by omega))
        by_cases he : k = i
        · exact .inl he
        · right
          obtain ⟨w, hsw, hpre⟩ := hw.before
          obtain ⟨n1, r1, q1, -, q3⟩ := C61_types_and_one_lookahead _ _ _ _ _ hr ((w ++ [1]).map tk) (by
            intro j hj
            rw [hlv, List.length_take] at hj
            obtain ⟨t, ht⟩ := hpre
            rw [tk_type, ← ht, List.getElem?_append_left (by simp; omega), List.getElem?_take_of_lt (by omega),
              List.getElem?_map]
            rfl)
          obtain ⟨n2, r2, p1, p2⟩ := C20_parser_complete g o so fuel ts h hc w [] hsw
            ((w ++ [1]).map tk) (by simp [tk, Token.new, Function.comp_def])
          have a1 := q1 (max n1 n2) (by omega)
          have a2 : Parser.parseRule _ 0 _ = _ := p1 (max n1 n2) (by omega)
          have a1 : (parserOf g ts ((w ++ [1]).map tk)).parseRule 0 (max n1 n2) = .ok (r1, []) := a1
          rw [a1] at a2
          simp only [Except.ok.injEq, Prod.mk.injEq, and_true] at a2
          subst a2
          rw [q3, hlv] at p2
          have hlen := congrArg List.length p2
          have hpl := hpre.length_le
          simp only [List.length_take, List.length_map, List.length_append, List.length_cons, List.length_nil] at hlen hpl
          have hkw : k = w.length := by omega
          refine ⟨by omega, ?_⟩
          obtain ⟨t, ht⟩ := hpre
          have : (w ++ [1])[k]? = some 1 := by rw [hkw]; simp
          rw [← ht, List.getElem?_append_left (by simp; omega), List.getElem?_take_of_lt (by omega)] at this
          exact this

/-- **C98** without the hypothesis on the rules: the first message is not about, and no panic happens at, a token before
the earliest wrong one. -/
theorem C98_not_before (h : runTable g o so fuel = .ok ts) (hc : ts.conflicts = []) (toks : List Token) (i : Nat)
    (hi : i ≤ toks.length) (hw : Viable g.productions ((toks.map Token.tokenType).take i)) :
    ∃ n, ∀ fuel', n ≤ fuel' → ∀ log en, (parserOf g ts toks).parseOut fuel' = (log, en) →
      (∀ e j rest, log = (e, j) :: rest → i ≤ j) ∧ ∀ f j, en = .error (f, j) → f = .panic ∧ i ≤ j := by
  obtain ⟨n, res, hres, hn⟩ := C21_parser_terminates g o so fuel ts h hc toks 0
  refine ⟨n, fun fuel' hf log en ho => ?_⟩
  have hn : (parserOf g ts toks).parse fuel' = res := hn fuel' hf
  rw [C98_same_parse, ho] at hn
  cases en with
  | error x =>
    obtain ⟨ft, k⟩ := x
    cases ft with
    | fuel => exact absurd hn.symm hres
    | panic =>
      have hp := parseOut_panicsAt ho
      have hle : k ≤ toks.length := hp.le (Nat.zero_le _)
      have hst := hp.stop_le.2
      have : i ≤ firstStop log k := by
        by_contra hj
        exact hp.not_viable h hc (by omega) (hw.take (by omega))
      refine ⟨fun e j rest hl => by subst hl; exact this, fun f j hl => ?_⟩
      cases hl
      exact ⟨rfl, by omega⟩
  | ok r =>
    refine ⟨fun e j rest hl => ?_, fun f j hl => nomatch hl⟩
    subst hl
    have hr : (parserOf g ts toks).parse fuel' = .ok (r, (e, j) :: rest) := by rw [C98_same_parse, ho]; rfl
    obtain ⟨-, h2⟩ := C60_earliest_error g o so fuel ts h hc toks fuel' r e j rest hr
    by_contra hj
    obtain ⟨w, h3, h4⟩ := hw.take (i := j + 1) (by omega)
    exact h2 w h3 h4

/-- **C98** if no token is wrong, nothing is printed, and `parse()` returns or runs out of tokens. -/
theorem C98_no_wrong (h : runTable g o so fuel = .ok ts) (hc : ts.conflicts = []) (toks : List Token)
    (hw : Viable g.productions (toks.map Token.tokenType)) :
    ∃ n, ∀ fuel', n ≤ fuel' → (∃ r, (parserOf g ts toks).parseOut fuel' = ([], .ok r)) ∨
      (parserOf g ts toks).parseOut fuel' = ([], .error (.panic, toks.length)) := by
  obtain ⟨n, res, hres, hn⟩ := C21_parser_terminates g o so fuel ts h hc toks 0
  have hw' : ∀ i, Viable g.productions ((toks.map Token.tokenType).take i) := by
    obtain ⟨w, h1, h2⟩ := hw
    exact fun i => ⟨w, h1, (List.take_prefix _ _).trans h2⟩
  refine ⟨n, fun fuel' hf => ?_⟩
  have hn : (parserOf g ts toks).parse fuel' = res := hn fuel' hf
  rw [C98_same_parse] at hn
  cases ho : (parserOf g ts toks).parseOut fuel' with
  | mk log en =>
    cases en with
    | error x =>
      obtain ⟨ft, k⟩ := x
      rw [ho] at hn
      cases ft with
      | fuel => exact absurd hn.symm hres
      | panic =>
        have hp := parseOut_panicsAt ho
        have hle : k ≤ toks.length := hp.le (Nat.zero_le _)
        have hst := hp.stop_le.2
        have : ¬ firstStop log k < toks.length := fun hlt => hp.not_viable h hc hlt (hw' _)
        cases log with
        | nil =>
          simp only [firstStop] at this
          rw [show k = toks.length by omega]
          exact .inr rfl
        | cons x log =>
          have := (hp.ge.2 _ List.mem_cons_self).2
          simp only [firstStop] at *
          omega
    | ok r =>
      left
      cases log with
      | nil => exact ⟨r, rfl⟩
      | cons x log =>
        obtain ⟨e, j⟩ := x
        have hr : (parserOf g ts toks).parse fuel' = .ok (r, (e, j) :: log) := by rw [C98_same_parse, ho]; rfl
        obtain ⟨w, h3, h4⟩ := hw' (j + 1)
        exact absurd h4 ((C60_earliest_error g o so fuel ts h hc toks fuel' r e j log hr).2 w h3)

/-! ## examples -/

theorem abGrammar_viable {u : List Nat} : Viable abGrammar.productions u ↔ u <+: [2, 3, 1] := by
  have hs : ∀ w, Sentence abGrammar.productions 0 w ↔ w = [2, 3] := by
    intro w
    constructor
    · intro hw
      have hy := yields_iff.2 hw
      have : ∀ α w, Yields abGrammar.productions α w → (α = [.nt 0] → w = [2, 3]) ∧ (α = [.t 2, .t 3] → w = [2, 3]) ∧
          (α = [.t 3] → w = [3]) ∧ (α = [] → w = []) := by
        intro α w hy
        induction hy with
        | nil => simp
        | t a _ ih =>
          refine ⟨by simp, fun e => ?_, fun e => ?_, by simp⟩
          · cases e; rw [ih.2.2.1 rfl]
          · cases e; rw [ih.2.2.2 rfl]
        | nt p hp _ _ ih1 ih2 =>
          simp only [abGrammar, List.mem_singleton] at hp
          subst hp
          refine ⟨fun e => ?_, by simp, by simp, by simp⟩
          cases e
          rw [ih1.2.1 rfl, ih2.2.2.2 rfl]; rfl
      exact (this _ _ hy).1 rfl
    · rintro rfl
      exact yields_iff.1 (Yields.nt (w2 := []) ⟨0, [.t 2, .t 3]⟩ (by decide) (.t 2 (.t 3 .nil)) .nil)
  constructor
  · rintro ⟨w, hw, hp⟩
    rwa [(hs w).1 hw] at hp
  · exact fun hp => ⟨_, (hs _).2 rfl, hp⟩

/-- non-vacuity, with a message: `a a _STOP` -/
example : ∃ ts, runTable abGrammar abOrder incSetOrder 5 = .ok ts ∧ ts.conflicts = [] ∧ Productive abGrammar.productions ∧
    WrongAt abGrammar.productions ([tk 2, tk 2, tk 1].map Token.tokenType) 1 := by
  obtain ⟨ts, h1, hc, _⟩ := abGrammar_run
  refine ⟨ts, h1, hc, ?_, by decide, ?_, ?_⟩
  · intro p hp B hB
    simp only [abGrammar, List.mem_singleton] at hp
    subst hp
    simp at hB
  · rw [abGrammar_viable]; decide
  · rw [abGrammar_viable]; decide

/-- non-vacuity, with a panic: `b _STOP`; and silently: `a b a` -/
example : WrongAt abGrammar.productions ([tk 3, tk 1].map Token.tokenType) 0 ∧
    WrongAt abGrammar.productions ([tk 2, tk 3, tk 2].map Token.tokenType) 2 ∧
    WrongAt abGrammar.productions ([tk 2, tk 3, tk 1, tk 2].map Token.tokenType) 3 ∧
    ((runTable abGrammar abOrder incSetOrder 5).map fun ts =>
      (((parserOf abGrammar ts [tk 3, tk 1]).parseOut 5).2.toOption.isSome,
       ((parserOf abGrammar ts [tk 2, tk 3, tk 2]).parseOut 5).1,
       ((parserOf abGrammar ts [tk 2, tk 3, tk 2]).parseOut 5).2.toOption.isSome)) = .ok (false, [], true) := by
  refine ⟨⟨by decide, ?_, ?_⟩, ⟨by decide, ?_, ?_⟩, ⟨by decide, ?_, ?_⟩, by decide +kernel⟩
  all_goals rw [abGrammar_viable]; decide

/-- `S → a | b B`, `B → b B` with `a` = 2, `b` = 3: `B` derives nothing -/
def deadEndGrammar : Grammar where
  name := []
  vocabulary := ((Vocabulary.new.addNamedNonterminal 0 ['s']).1.addNamedNonterminal 1 ['b']).1
  productions := [⟨0, [.t 2]⟩, ⟨0, [.t 3, .nt 1]⟩, ⟨1, [.t 3, .nt 1]⟩]

/-- an iteration order of it -/
def deadEndOrder : IterOrder deadEndGrammar where
  ids := [0, 1]
  ids_mem := by
    intro i
    have : deadEndGrammar.vocabulary.nonterminals = {0, 1} := by decide
    rw [this]; simp
  ord := deadEndGrammar.productions
  ord_perm := List.Perm.refl _
  ord_nodup := by decide

/-- **C98** the hypothesis on the rules is needed: if `B` derives nothing, no sentence starts with `b`, but the parser
finds this out later, at the `_STOP` of `b b _STOP`. -/
theorem C98_dead_end : ∃ ts, runTable deadEndGrammar deadEndOrder incSetOrder 5 = .ok ts ∧ ts.conflicts = [] ∧
    WrongAt deadEndGrammar.productions ([tk 3, tk 3, tk 1].map Token.tokenType) 0 ∧
    ∀ fuel', 4 ≤ fuel' → (parserOf deadEndGrammar ts [tk 3, tk 3, tk 1]).parseOut fuel' = ([], .error (.panic, 2)) := by
  have hno : ∀ α w, Yields deadEndGrammar.productions α w → Item.nt 1 ∉ α ∧ (α = [.nt 0] → w = [2]) ∧
      (α = [.t 2] → w = [2]) ∧ (α = [] → w = []) := by
    intro α w hy
    induction hy with
    | nil => simp
    | t a _ ih =>
      refine ⟨by simpa using ih.1, by simp, fun e => ?_, by simp⟩
      cases e; rw [ih.2.2.2 rfl]
    | nt p hp _ _ ih1 ih2 =>
      simp only [deadEndGrammar, List.mem_cons, List.not_mem_nil, or_false] at hp
      rcases hp with rfl | rfl | rfl
      · refine ⟨by simpa using ih2.1, fun e => ?_, by simp, by simp⟩
        cases e
        rw [ih1.2.2.1 rfl, ih2.2.2.2 rfl]; rfl
      · exact absurd (by simp) ih1.1
      · exact absurd (by simp) ih1.1
  have hv : ∀ u, Viable deadEndGrammar.productions u ↔ u <+: [2, 1] := by
    intro u
    constructor
    · rintro ⟨w, hw, hp⟩
      rwa [(hno _ _ (yields_iff.2 hw)).2.1 rfl] at hp
    · exact fun hp => ⟨[2], yields_iff.1 (Yields.nt (w2 := []) ⟨0, [.t 2]⟩ (by decide) (.t 2 .nil) .nil), hp⟩
  have ht : ((runTable deadEndGrammar deadEndOrder incSetOrder 5).map fun ts =>
      (ts.conflicts, ts.table.get (0, 3), ts.table.get (1, 3), ts.table.get (1, 1))) =
      .ok ([], some ⟨0, [.t 3, .nt 1]⟩, some ⟨1, [.t 3, .nt 1]⟩, none) := by decide +kernel
  cases hr : runTable deadEndGrammar deadEndOrder incSetOrder 5 with
  | error e => rw [hr] at ht; cases ht
  | ok ts =>
    rw [hr] at ht
    simp only [Except.map, Except.ok.injEq, Prod.mk.injEq] at ht
    obtain ⟨h1, h2, h3, h4⟩ := ht
    refine ⟨ts, rfl, h1, ⟨by decide, ?_, ?_⟩, fun fuel' hf => ?_⟩
    · rw [hv]; decide
    · rw [hv]; decide
    · obtain ⟨k, rfl⟩ : ∃ k, fuel' = k + 1 + 1 + 1 + 1 := ⟨fuel' - 4, by omega⟩
      simp [Parser.parseOut, Parser.astOut, Parser.itemsOut, parserOf, tk, Token.new, h2, h3, h4]

end Syntaxis
