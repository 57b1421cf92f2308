import Verif.Props.ParserDepth
import Verif.Model.ParserCost
import Mathlib.Tactic.Ring

/-!
# C75: the parser takes linear time

The number of calls of `parse_ast` is at most a constant that depends on the grammar only, times the number of
tokens.  This holds for every table, also one with overwritten entries, whenever the parser finishes.
-/

namespace Syntaxis
open Grammar

variable {ps : Parser}

/-- a bound for the calls made for an empty subtree of depth `d` when right-hand sides have at most `R` items -/
def emptyCost (R : Nat) : Nat → Nat
  | 0 => 0
  | d + 1 => 1 + R * emptyCost R d

/-- calls per rule and token: one, and one empty subtree per item -/
def nodeCost (N R : Nat) : Nat := 1 + R * emptyCost R N

theorem emptyCost_mono (R : Nat) {d e : Nat} (h : d ≤ e) : emptyCost R d ≤ emptyCost R e := by
  have step : ∀ d, emptyCost R d ≤ emptyCost R (d + 1) := by
    intro d
    induction d with
    | zero => simp [emptyCost]
    | succ d ih =>
      rw [emptyCost, emptyCost]
      exact Nat.add_le_add_left (Nat.mul_le_mul_left R ih) 1
  induction e, h using Nat.le_induction with
  | base => exact Nat.le_refl _
  | succ e _ ih => exact Nat.le_trans ih (step e)

/-! ## the count does not depend on the depth allowed -/

theorem callsItems_congr {f g : Nat → Nat → Res (RuleContext × Nat × MismatchLog)} {u v : Nat → Nat → Nat}
    (hfg : ∀ c A, Done (f c A) → g c A = f c A) (huv : ∀ c A, Done (f c A) → v c A = u c A) (α : List Item)
    (st : ItemState) (h : Done (ps.parseItems f α st)) :
    ps.callsItems g v α st.cursor = ps.callsItems f u α st.cursor := by
  induction α generalizing st with
  | nil => rfl
  | cons x α ih =>
    cases x with
    | t a =>
      simp only [Parser.parseItems, Parser.callsItems] at h ⊢
      cases ht : ps.tokenAt st.cursor with
      | error e => rfl
      | ok tok =>
        rw [ht] at h
        simp only [bind_ok] at h
        exact ih _ h
    | nt A =>
      simp only [Parser.parseItems, Parser.callsItems] at h ⊢
      cases hf : f st.cursor A with
      | error e =>
        have hd : Done (f st.cursor A) := by
          rw [hf] at h ⊢
          simpa [Done] using h
        rw [hfg _ _ hd, huv _ _ hd, hf]
      | ok x =>
        have hd : Done (f st.cursor A) := by rw [hf]; simp [Done]
        rw [hfg _ _ hd, huv _ _ hd, hf]
        rw [hf] at h
        simp only [bind_ok] at h
        exact congrArg _ (ih _ h)

theorem items_done {n c A : Nat} (h : Done (ps.parseAst (n + 1) c A)) {tok : Token}
    (ht : ps.tokenAt c = .ok tok) {p : Production} (hp : ps.table.get (A, tok.tokenType) = some p) :
    Done (ps.parseItems (ps.parseAst n) p.right { children := [], cursor := c, log := [] }) := by
  rw [Parser.parseAst, ht] at h
  simp only [bind_ok, hp, unwrap_some] at h
  intro he
  rw [he] at h
  exact h rfl

theorem calls_mono (n : Nat) : ∀ c A, Done (ps.parseAst n c A) → ps.calls (n + 1) c A = ps.calls n c A := by
  induction n with
  | zero => intro c A h; exact absurd rfl h
  | succ n ih =>
    intro c A h
    rw [Parser.calls, Parser.calls]
    cases ht : ps.tokenAt c with
    | error e => rfl
    | ok tok =>
      simp only
      cases hp : ps.table.get (A, tok.tokenType) with
      | none => rfl
      | some p =>
        simp only
        rw [callsItems_congr (done_mono n) ih p.right _ (items_done h ht hp)]

theorem calls_le {n m : Nat} (hnm : n ≤ m) {c A : Nat} (h : Done (ps.parseAst n c A)) :
    ps.calls m c A = ps.calls n c A := by
  induction m, hnm using Nat.le_induction with
  | base => rfl
  | succ m hm ih => rw [calls_mono m c A (by rw [done_le hm h]; exact h), ih]

/-! ## the bound -/

/-- the bound for a call from cursor `c` of depth `d` (rules that can be active at `c`): the call returned at the
same cursor, or further on, or panicked -/
def CallBound (N R L d c cost : Nat) : Res (RuleContext × Nat × MismatchLog) → Prop
  | .ok (_, c', _) => c ≤ c' ∧ c' ≤ L ∧
      ((c' = c → cost ≤ emptyCost R d) ∧ (c < c' → cost ≤ nodeCost N R * (d + (c' - c - 1) * N)))
  | .error _ => cost ≤ nodeCost N R * (d + (L - c) * N)

/-- the loop behind the first consumed token -/
theorem items_later {N R L : Nat} {f : Nat → Nat → Res (RuleContext × Nat × MismatchLog)} {u : Nat → Nat → Nat}
    {ids : Finset Nat} (hL : ps.tokens.length = L)
    (hcall : ∀ c A, c ≤ L → A ∈ ids → Done (f c A) → ∃ d ≤ N, CallBound N R L d c (u c A) (f c A))
    (α : List Item) (hα : ∀ A, Item.nt A ∈ α → A ∈ ids) (st : ItemState) (hst : st.cursor ≤ L)
    (h : Done (ps.parseItems f α st)) :
    match ps.parseItems f α st with
    | .ok st' => st.cursor ≤ st'.cursor ∧ st'.cursor ≤ L ∧
        ps.callsItems f u α st.cursor ≤ α.length * emptyCost R N + nodeCost N R * ((st'.cursor - st.cursor) * N)
    | .error _ => ps.callsItems f u α st.cursor ≤
        α.length * emptyCost R N + nodeCost N R * ((L - st.cursor + 1) * N) := by
  induction α generalizing st with
  | nil => simp only [Parser.parseItems, Parser.callsItems]; exact ⟨Nat.le_refl _, hst, Nat.zero_le _⟩
  | cons x α ih =>
    have hα' : ∀ A, Item.nt A ∈ α → A ∈ ids := fun A hA => hα A (List.mem_cons_of_mem _ hA)
    cases x with
    | t a =>
      simp only [Parser.parseItems, Parser.callsItems] at h ⊢
      cases ht : ps.tokenAt st.cursor with
      | error e => simp only [bind_error]; exact Nat.zero_le _
      | ok tok =>
        rw [ht] at h
        simp only [bind_ok] at h ⊢
        have hlt : st.cursor < L := by
          simp only [Parser.tokenAt, unwrap_eq_ok] at ht
          rw [← hL]
          exact (List.getElem?_eq_some_iff.1 ht).1
        have := ih hα' _ (by exact hlt) h
        revert this
        generalize ps.parseItems f α _ = res
        simp only [List.length_cons, Nat.add_mul, Nat.one_mul]
        cases res with
        | error e =>
          intro this
          refine Nat.le_trans this ?_
          have h1 : L - (st.cursor + 1) + 1 ≤ L - st.cursor + 1 := by omega
          have := Nat.mul_le_mul_left (nodeCost N R) (Nat.mul_le_mul_right N h1)
          simp only [Nat.add_mul, Nat.one_mul] at this ⊢
          omega
        | ok st' =>
          simp only
          rintro ⟨h1, h2, h3⟩
          refine ⟨by omega, h2, Nat.le_trans h3 ?_⟩
          have h1 : st'.cursor - (st.cursor + 1) ≤ st'.cursor - st.cursor := by omega
          have := Nat.mul_le_mul_left (nodeCost N R) (Nat.mul_le_mul_right N h1)
          omega
    | nt A =>
      simp only [Parser.parseItems, Parser.callsItems] at h ⊢
      have hd : Done (f st.cursor A) := by
        intro he
        rw [he] at h
        exact h rfl
      obtain ⟨d, hdN, hb⟩ := hcall _ _ hst (hα A List.mem_cons_self) hd
      cases hf : f st.cursor A with
      | error e =>
        rw [hf] at hb
        simp only [CallBound] at hb
        simp only [bind_error, Nat.add_zero]
        refine Nat.le_trans hb ?_
        have h1 : d + (L - st.cursor) * N ≤ (L - st.cursor + 1) * N := by
          rw [Nat.add_mul, Nat.one_mul]; omega
        have := Nat.mul_le_mul_left (nodeCost N R) h1
        omega
      | ok x =>
        obtain ⟨r, c', l⟩ := x
        rw [hf] at hb h
        simp only [CallBound] at hb
        simp only [bind_ok] at h ⊢
        obtain ⟨hb1, hb2, hb3, hb4⟩ := hb
        have := ih hα' _ (by exact hb2) h
        have hcost : u st.cursor A ≤ emptyCost R N + nodeCost N R * ((c' - st.cursor) * N) := by
          rcases Nat.eq_or_lt_of_le hb1 with he | hlt
          · have h1 := hb3 he.symm
            have := emptyCost_mono R hdN
            omega
          · have h1 := hb4 hlt
            have h2 : d + (c' - st.cursor - 1) * N ≤ (c' - st.cursor) * N := by
              have : c' - st.cursor = c' - st.cursor - 1 + 1 := by omega
              rw [this, Nat.add_mul, Nat.one_mul, Nat.add_sub_cancel]
              omega
            have := Nat.mul_le_mul_left (nodeCost N R) h2
            omega
        revert this
        generalize ps.parseItems f α _ = res
        simp only [List.length_cons, Nat.add_mul, Nat.one_mul]
        cases res with
        | error e =>
          intro this
          have e1 : L - st.cursor = (c' - st.cursor) + (L - c') := by omega
          rw [e1]
          simp only [Nat.add_mul, Nat.mul_add, Nat.one_mul] at this ⊢
          omega
        | ok st' =>
          simp only
          rintro ⟨h1, h2, h3⟩
          refine ⟨by omega, h2, ?_⟩
          have e1 : st'.cursor - st.cursor = (c' - st.cursor) + (st'.cursor - c') := by omega
          rw [e1]
          simp only [Nat.add_mul, Nat.mul_add] at h3 ⊢
          omega

/-- the loop before the first consumed token: calls have smaller depth -/
theorem items_first {N R L d : Nat} {f : Nat → Nat → Res (RuleContext × Nat × MismatchLog)} {u : Nat → Nat → Nat}
    {ids : Finset Nat} (hL : ps.tokens.length = L) {c0 : Nat} (hdN : d ≤ N)
    (hcall : ∀ c A, c ≤ L → A ∈ ids → Done (f c A) → ∃ d ≤ N, CallBound N R L d c (u c A) (f c A))
    (hcall0 : ∀ A, A ∈ ids → Done (f c0 A) → CallBound N R L d c0 (u c0 A) (f c0 A))
    (α : List Item) (hα : ∀ A, Item.nt A ∈ α → A ∈ ids) (st : ItemState) (hst : st.cursor = c0) (hc0 : c0 ≤ L)
    (h : Done (ps.parseItems f α st)) :
    match ps.parseItems f α st with
    | .ok st' => c0 ≤ st'.cursor ∧ st'.cursor ≤ L ∧
        (st'.cursor = c0 → ps.callsItems f u α c0 ≤ α.length * emptyCost R d) ∧
        (c0 < st'.cursor → ps.callsItems f u α c0 ≤
          α.length * emptyCost R N + nodeCost N R * (d + (st'.cursor - c0 - 1) * N))
    | .error _ => ps.callsItems f u α c0 ≤ α.length * emptyCost R N + nodeCost N R * (d + (L - c0) * N) := by
  induction α generalizing st with
  | nil =>
    simp only [Parser.parseItems, Parser.callsItems, hst]
    exact ⟨Nat.le_refl _, hc0, fun _ => Nat.zero_le _, fun _ => Nat.zero_le _⟩
  | cons x α ih =>
    have hα' : ∀ A, Item.nt A ∈ α → A ∈ ids := fun A hA => hα A (List.mem_cons_of_mem _ hA)
    cases x with
    | t a =>
      simp only [Parser.parseItems, Parser.callsItems, hst] at h ⊢
      cases ht : ps.tokenAt c0 with
      | error e => simp only [bind_error]; exact Nat.zero_le _
      | ok tok =>
        rw [ht] at h
        simp only [bind_ok] at h ⊢
        have hlt : c0 < L := by
          simp only [Parser.tokenAt, unwrap_eq_ok] at ht
          rw [← hL]
          exact (List.getElem?_eq_some_iff.1 ht).1
        have := items_later (R := R) hL hcall α hα' _ (by exact hlt) h
        revert this
        generalize ps.parseItems f α _ = res
        simp only [List.length_cons, Nat.add_mul, Nat.one_mul]
        cases res with
        | error e =>
          intro this
          refine Nat.le_trans this ?_
          have h1 : (L - (c0 + 1) + 1) * N ≤ d + (L - c0) * N := by
            have e1 : L - (c0 + 1) + 1 = L - c0 := by omega
            rw [e1]; omega
          have := Nat.mul_le_mul_left (nodeCost N R) h1
          simp only [Nat.add_mul, Nat.one_mul] at this ⊢
          omega
        | ok st' =>
          simp only
          rintro ⟨h1, h2, h3⟩
          refine ⟨by omega, h2, fun he => by omega, fun _ => Nat.le_trans h3 ?_⟩
          have h1 : (st'.cursor - (c0 + 1)) * N ≤ d + (st'.cursor - c0 - 1) * N := by
            rw [Nat.sub_sub]; omega
          have := Nat.mul_le_mul_left (nodeCost N R) h1
          omega
    | nt A =>
      simp only [Parser.parseItems, Parser.callsItems, hst] at h ⊢
      have hd : Done (f c0 A) := by
        intro he
        rw [he] at h
        exact h rfl
      have hb := hcall0 _ (hα A List.mem_cons_self) hd
      cases hf : f c0 A with
      | error e =>
        rw [hf] at hb
        simp only [CallBound] at hb
        simp only [bind_error, Nat.add_zero]
        omega
      | ok x =>
        obtain ⟨r, c', l⟩ := x
        rw [hf] at hb h
        simp only [CallBound] at hb
        simp only [bind_ok] at h ⊢
        obtain ⟨hb1, hb2, hb3, hb4⟩ := hb
        rcases Nat.eq_or_lt_of_le hb1 with he | hlt
        · subst he
          have := ih hα' _ rfl h
          have hc := hb3 rfl
          have hm := emptyCost_mono R hdN
          revert this
          generalize ps.parseItems f α _ = res
          simp only [List.length_cons, Nat.add_mul, Nat.one_mul]
          cases res with
          | error e => intro this; simp only at this; omega
          | ok st' =>
            simp only
            rintro ⟨h1, h2, h3, h4⟩
            exact ⟨h1, h2, fun he => by have := h3 he; omega, fun he => by have := h4 he; omega⟩
        · have := items_later (R := R) hL hcall α hα' _ (by exact hb2) h
          have hc := hb4 hlt
          revert this
          generalize ps.parseItems f α _ = res
          simp only [List.length_cons, Nat.add_mul, Nat.one_mul]
          cases res with
          | error e =>
            intro this
            have e1 : L - c0 = (c' - c0 - 1) + (L - c' + 1) := by omega
            rw [e1]
            simp only [Nat.add_mul, Nat.mul_add, Nat.one_mul] at this hc ⊢
            omega
          | ok st' =>
            simp only
            rintro ⟨h1, h2, h3⟩
            refine ⟨by omega, h2, fun he => by omega, fun _ => ?_⟩
            have e1 : st'.cursor - c0 - 1 = (c' - c0 - 1) + (st'.cursor - c') := by omega
            rw [e1]
            simp only [Nat.add_mul, Nat.mul_add] at h3 hc ⊢
            omega

open Classical in
/-- the rules that finish at cursor `c` with depth `n` -/
noncomputable def finishing (ps : Parser) (ids : Finset Nat) (n c : Nat) : Finset Nat :=
  ids.filter fun B => Done (ps.parseAst n c B)

theorem call_bound {ids : Finset Nat} {R : Nat}
    (hids : ∀ A t p B, A ∈ ids → ps.table.get (A, t) = some p → Item.nt B ∈ p.right → B ∈ ids)
    (hR : ∀ A t p, A ∈ ids → ps.table.get (A, t) = some p → p.right.length ≤ R) (n : Nat) :
    ∀ c A, c ≤ ps.tokens.length → A ∈ ids → Done (ps.parseAst n c A) →
      CallBound ids.card R ps.tokens.length (finishing ps ids n c).card c (ps.calls n c A) (ps.parseAst n c A) := by
  classical
  induction n with
  | zero => intro c A _ _ h; exact absurd rfl h
  | succ n ih =>
    intro c A hc hA h
    have hmono : finishing ps ids n c ⊆ finishing ps ids (n + 1) c := by
      intro B hB
      simp only [finishing, Finset.mem_filter] at hB ⊢
      exact ⟨hB.1, by rw [done_mono n c B hB.2]; exact hB.2⟩
    by_cases hn : Done (ps.parseAst n c A)
    · have hb := ih c A hc hA hn
      rw [done_mono n c A hn, calls_mono n c A hn]
      have hle := Finset.card_le_card hmono
      cases hr : ps.parseAst n c A with
      | error e =>
        rw [hr] at hb
        exact Nat.le_trans hb (Nat.mul_le_mul_left _ (by omega))
      | ok x =>
        obtain ⟨r, c', l⟩ := x
        rw [hr] at hb
        exact ⟨hb.1, hb.2.1, fun he => Nat.le_trans (hb.2.2.1 he) (emptyCost_mono R hle),
          fun he => Nat.le_trans (hb.2.2.2 he) (Nat.mul_le_mul_left _ (by omega))⟩
    · have hlt : (finishing ps ids n c).card < (finishing ps ids (n + 1) c).card := by
        refine Finset.card_lt_card ⟨hmono, fun hs => ?_⟩
        have : A ∈ finishing ps ids (n + 1) c := by
          simp only [finishing, Finset.mem_filter]; exact ⟨hA, h⟩
        have := hs this
        simp only [finishing, Finset.mem_filter] at this
        exact hn this.2
      have hN : (finishing ps ids (n + 1) c).card ≤ ids.card := Finset.card_filter_le _ _
      generalize (finishing ps ids (n + 1) c).card = e at hlt hN ⊢
      have hW : 1 ≤ nodeCost ids.card R := Nat.le_add_right _ _
      have hone : 1 ≤ nodeCost ids.card R * (e + (ps.tokens.length - c) * ids.card) :=
        Nat.mul_pos hW (by omega)
      cases ht : ps.tokenAt c with
      | error er => rw [Parser.parseAst, Parser.calls, ht]; exact hone
      | ok tok =>
        cases hp : ps.table.get (A, tok.tokenType) with
        | none =>
          rw [Parser.parseAst, Parser.calls, ht]
          simp only [bind_ok, hp, unwrap_none, bind_error]
          exact hone
        | some p =>
          have hi := items_first (ps := ps) (N := ids.card) (R := R) (d := (finishing ps ids n c).card)
            (u := ps.calls n) rfl (c0 := c) (by omega)
            (fun c' B hc' hB hd => ⟨_, Finset.card_filter_le _ _, ih c' B hc' hB hd⟩)
            (fun B hB hd => ih c B hc hB hd) p.right (fun B hB => hids A _ p B hA hp hB)
            { children := [], cursor := c, log := [] } rfl hc (items_done h ht hp)
          have hlen := hR A _ p hA hp
          rw [Parser.parseAst, Parser.calls, ht]
          simp only [bind_ok, hp, unwrap_some]
          generalize (finishing ps ids n c).card = d at hi hlt
          have hmul := Nat.mul_le_mul_right (emptyCost R ids.card) hlen
          have hW2 : nodeCost ids.card R = 1 + R * emptyCost R ids.card := rfl
          obtain ⟨e', rfl⟩ : ∃ e', e = e' + 1 := ⟨e - 1, by omega⟩
          have hde : d ≤ e' := by omega
          revert hi
          cases ps.parseItems (ps.parseAst n) p.right { children := [], cursor := c, log := [] } with
          | error er =>
            intro hi
            simp only [bind_error, CallBound] at hi ⊢
            have h1 := Nat.mul_le_mul_left (nodeCost ids.card R)
              (Nat.add_le_add_right hde ((ps.tokens.length - c) * ids.card))
            have h2 : nodeCost ids.card R * (e' + 1 + (ps.tokens.length - c) * ids.card) =
              nodeCost ids.card R * (e' + (ps.tokens.length - c) * ids.card) + nodeCost ids.card R := by ring
            omega
          | ok st' =>
            intro hi
            simp only [bind_ok, CallBound] at hi ⊢
            obtain ⟨h1, h2, h3, h4⟩ := hi
            refine ⟨h1, h2, fun he => ?_, fun he => ?_⟩
            · have h5 := h3 he
              rw [emptyCost]
              have h6 := Nat.mul_le_mul hlen (emptyCost_mono R hde)
              omega
            · have h5 := h4 he
              have h6 := Nat.mul_le_mul_left (nodeCost ids.card R)
                (Nat.add_le_add_right hde ((st'.cursor - c - 1) * ids.card))
              have h7 : nodeCost ids.card R * (e' + 1 + (st'.cursor - c - 1) * ids.card) =
                nodeCost ids.card R * (e' + (st'.cursor - c - 1) * ids.card) + nodeCost ids.card R := by ring
              omega

/-- calls per token for a grammar with `N` rules and right-hand sides of at most `R` items -/
def callsPerToken (N R : Nat) : Nat := N * nodeCost N R

/-- **C75** whatever the table: if the parser finishes (it returns or panics), the number of calls is at most a
constant times (number of tokens + 1); if it returns after consuming some tokens, a constant times their number.
The constant depends on the number of rules reachable through the table and the length of the longest right-hand
side only. -/
theorem C75_linear (ps : Parser) (ids : Finset Nat) (R : Nat)
    (hids : ∀ A t p B, A ∈ ids → ps.table.get (A, t) = some p → Item.nt B ∈ p.right → B ∈ ids)
    (hR : ∀ A t p, A ∈ ids → ps.table.get (A, t) = some p → p.right.length ≤ R)
    (A : Nat) (hA : A ∈ ids) (fuel : Nat) (hd : ps.parseRule A fuel ≠ .error .fuel) :
    ps.calls fuel 0 A ≤ callsPerToken ids.card R * (ps.tokens.length + 1) ∧
    ∀ r log, ps.parseRule A fuel = .ok (r, log) → r.toAst.leaves ≠ [] →
      ps.calls fuel 0 A ≤ callsPerToken ids.card R * r.toAst.leaves.length := by
  classical
  have hd' : Done (ps.parseAst fuel 0 A) := by
    intro he
    rw [Parser.parseRule, he] at hd
    exact hd rfl
  have hb := call_bound hids hR fuel 0 A (Nat.zero_le _) hA hd'
  have hN : (finishing ps ids fuel 0).card ≤ ids.card := Finset.card_filter_le _ _
  have hpos : 1 ≤ ids.card := Finset.card_pos.2 ⟨A, hA⟩
  generalize (finishing ps ids fuel 0).card = d at hb hN
  have key : ∀ k, nodeCost ids.card R * (d + k * ids.card) ≤ callsPerToken ids.card R * (k + 1) := by
    intro k
    have := Nat.mul_le_mul_left (nodeCost ids.card R) (Nat.add_le_add_right hN (k * ids.card))
    refine Nat.le_trans this (Nat.le_of_eq ?_)
    rw [callsPerToken]; ring
  cases hr : ps.parseAst fuel 0 A with
  | error e =>
    rw [hr] at hb
    refine ⟨Nat.le_trans hb (by simpa using key ps.tokens.length), ?_⟩
    intro r log h
    rw [Parser.parseRule, hr] at h
    cases h
  | ok x =>
    obtain ⟨r, c', l⟩ := x
    rw [hr] at hb
    obtain ⟨h1, h2, h3, h4⟩ := hb
    have hleaves : r.toAst.leaves.length = c' := by
      obtain ⟨_, _, tok, p, f, htok, hp, hrun⟩ := parseAst_run hr
      have := congrArg List.length hrun.leaves.2.2
      simp only [List.drop_zero, Nat.sub_zero, List.length_take] at this
      rw [RuleContext.toAst, Ast.leaves, this]
      omega
    have hc : 0 < c' → ps.calls fuel 0 A ≤ callsPerToken ids.card R * c' := by
      intro hpos
      refine Nat.le_trans (h4 hpos) (Nat.le_trans (key _) (Nat.le_of_eq ?_))
      congr 1
      omega
    refine ⟨?_, ?_⟩
    · rcases Nat.eq_zero_or_pos c' with h0 | h0
      · refine Nat.le_trans (h3 h0) (Nat.le_trans (emptyCost_mono R hN) ?_)
        have h5 : emptyCost R ids.card ≤ nodeCost ids.card R := emptyCost_mono R (Nat.le_succ ids.card)
        have h6 := Nat.mul_le_mul hpos h5
        have h7 := Nat.mul_le_mul_left (callsPerToken ids.card R) (Nat.le_add_left 1 ps.tokens.length)
        rw [Nat.one_mul] at h6
        rw [Nat.mul_one] at h7
        exact Nat.le_trans h6 h7
      · exact Nat.le_trans (hc h0) (Nat.mul_le_mul_left _ (by omega))
    · intro r' log h hne
      rw [Parser.parseRule, hr] at h
      cases h
      rw [hleaves]
      refine hc (hleaves ▸ List.length_pos_iff.2 hne)

/-- the length of the longest right-hand side -/
def longestRight (P : List Production) : Nat := (P.map fun p => p.right.length).foldr max 0

theorem le_longestRight {P : List Production} {p : Production} (h : p ∈ P) : p.right.length ≤ longestRight P := by
  induction P with
  | nil => cases h
  | cons q P ih =>
    simp only [longestRight, List.map_cons, List.foldr_cons]
    rcases List.mem_cons.1 h with rfl | h
    · exact Nat.le_max_left _ _
    · exact Nat.le_trans (ih h) (Nat.le_max_right _ _)

/-- **C75** for a grammar without printed conflict `parse()` always ends (by returning or panicking) and its
number of calls is linear in the number of tokens, with a factor that is a function of the grammar. -/
theorem C75_ll1_linear (g : Grammar) (o : IterOrder g) (so : SetOrder) (fuel : Nat)
    (ts : TableState) (h : runTable g o so fuel = .ok ts) (hc : ts.conflicts = [])
    (A : Nat) (hA : A ∈ ruleIds g.productions) (toks : List Token) :
    ∃ n, ∀ fuel', n ≤ fuel' →
      (parserOf g ts toks).parseRule A fuel' ≠ .error .fuel ∧
      (parserOf g ts toks).calls fuel' 0 A ≤
        callsPerToken (ruleIds g.productions).card (longestRight g.productions) * (toks.length + 1) := by
  refine ⟨(ruleIds g.productions).card * (toks.length + 1), fun fuel' hf => ?_⟩
  have hd := C62_ll1_depth g o so fuel ts h hc toks A hA fuel' hf
  refine ⟨hd, (C75_linear (parserOf g ts toks) (ruleIds g.productions) _ ?_ ?_ A hA fuel' hd).1⟩
  · intro A t p B _ hp hB
    obtain ⟨h1, _⟩ := tableOf_of h A t p hp
    rw [ruleIds, List.mem_toFinset, List.mem_append]
    exact Or.inr (List.mem_flatMap.2 ⟨p, h1, List.mem_filterMap.2 ⟨_, hB, rfl⟩⟩)
  · intro A t p _ hp
    exact le_longestRight (tableOf_of h A t p hp).1

/-- non-vacuity: for `ID '+' ID` -/
example : ∃ ts n, ∀ fuel', n ≤ fuel' → (parserOf llGrammar ts [tk 2, tk 3, tk 2, tk 1]).calls fuel' 0 0 ≤
    callsPerToken 3 3 * 5 := by
  obtain ⟨ts, h, hc⟩ := llGrammar_table
  obtain ⟨n, hn⟩ := C75_ll1_linear _ _ _ _ ts h hc 0 (by decide) [tk 2, tk 3, tk 2, tk 1]
  have hcard : (ruleIds llGrammar.productions).card = 3 := by decide
  have hlen : longestRight llGrammar.productions ≤ 3 := by decide
  refine ⟨ts, n, fun fuel' hf => Nat.le_trans (hn fuel' hf).2 ?_⟩
  rw [hcard]
  refine Nat.mul_le_mul_right _ ?_
  have h4 : ∀ R, R ≤ 3 → callsPerToken 3 R ≤ callsPerToken 3 3 := by decide
  exact h4 _ hlen

/-! ## the factor can be exponential in the number of rules -/

/-- the rules `0 → 1 1`, `1 → 2 2`, …, `n → ε` -/
def doubling (n : Nat) : List Production :=
  (List.range n).map (fun i => ⟨i, [.nt (i + 1), .nt (i + 1)]⟩) ++ [⟨n, []⟩]

theorem mem_doubling {n : Nat} {p : Production} :
    p ∈ doubling n ↔ (∃ i < n, p = ⟨i, [.nt (i + 1), .nt (i + 1)]⟩) ∨ p = ⟨n, []⟩ := by
  simp only [doubling, List.mem_append, List.mem_map, List.mem_range, List.mem_singleton]
  constructor
  · rintro (⟨i, hi, rfl⟩ | rfl)
    · exact Or.inl ⟨i, hi, rfl⟩
    · exact Or.inr rfl
  · rintro (⟨i, hi, rfl⟩ | rfl)
    · exact Or.inl ⟨i, hi, rfl⟩
    · exact Or.inr rfl

theorem doubling_ll1 (n : Nat) : LL1 (doubling n) := by
  intro p hp q hq hl hne
  exfalso
  apply hne
  rcases mem_doubling.1 hp with ⟨i, hi, rfl⟩ | rfl <;> rcases mem_doubling.1 hq with ⟨j, hj, rfl⟩ | rfl
  · simp only at hl; rw [hl]
  · simp only at hl; omega
  · simp only at hl; omega
  · rfl

theorem doubling_ends (n : Nat) : ∀ i ≤ n, ∃ u, Derives (doubling n) [.nt 0] (u ++ [.nt i]) := by
  intro i
  induction i with
  | zero => exact fun _ => ⟨[], Derives.refl _⟩
  | succ i ih =>
    intro hi
    obtain ⟨u, hu⟩ := ih (by omega)
    refine ⟨u ++ [.nt (i + 1)], hu.tail ?_⟩
    have := Step.mk (P := doubling n) ⟨i, [.nt (i + 1), .nt (i + 1)]⟩ (mem_doubling.2 (Or.inl ⟨i, by omega, rfl⟩))
      u []
    simpa using this

theorem doubling_nullable (n : Nat) : ∀ k i, i + k = n → ∀ v, Derives (doubling n) (.nt i :: v) v := by
  intro k
  induction k with
  | zero =>
    intro i hi v
    have := Step.mk (P := doubling n) ⟨n, []⟩ (mem_doubling.2 (Or.inr rfl)) [] v
    obtain rfl : i = n := by omega
    exact Relation.ReflTransGen.single this
  | succ k ih =>
    intro i hi v
    have := Step.mk (P := doubling n) ⟨i, [.nt (i + 1), .nt (i + 1)]⟩ (mem_doubling.2 (Or.inl ⟨i, by omega, rfl⟩))
      [] v
    exact Relation.ReflTransGen.head this ((ih (i + 1) (by omega) _).trans (ih (i + 1) (by omega) v))

/-- **C75** (the factor) the number of calls for one token can be exponential in the number of rules, also for
conflict-free grammars: with the rules `0 → 1 1`, …, `n → ε` the empty input takes `2^(n+1) - 1` calls. -/
theorem C75_exponential_factor (n : Nat) (g : Grammar) (hg : g.productions = doubling n) (o : IterOrder g)
    (so : SetOrder) (fuel : Nat) (ts : TableState) (h : runTable g o so fuel = .ok ts) (stop : Token)
    (hs : stop.tokenType = 1) :
    ts.conflicts = [] ∧ ∀ fuel', n + 1 ≤ fuel' →
      (∃ r, (parserOf g ts [stop]).parse fuel' = .ok (r, [])) ∧
      (parserOf g ts [stop]).calls fuel' 0 0 = 2 ^ (n + 1) - 1 := by
  have hc : ts.conflicts = [] := (C16_conflict_iff_not_ll1 g o so fuel ts h).2 (hg ▸ doubling_ll1 n)
  refine ⟨hc, ?_⟩
  have hnull : ∀ i ≤ n, ∀ v, Derives (doubling n) (.nt i :: v) v := fun i hi =>
    doubling_nullable n (n - i) i (by omega)
  have hfol : ∀ i ≤ n, InFollow (doubling n) i 1 := fun i hi => Or.inr ⟨rfl, doubling_ends n i hi⟩
  have hT := tableComplete_of h hc
  rw [hg] at hT
  have hentry : ∀ i < n, (parserOf g ts [stop]).table.get (i, 1) = some ⟨i, [.nt (i + 1), .nt (i + 1)]⟩ := by
    intro i hi
    exact hT _ (mem_doubling.2 (Or.inl ⟨i, hi, rfl⟩)) 1
      (Or.inr ⟨(hnull (i + 1) hi _).trans (hnull (i + 1) hi []), hfol i (by omega)⟩)
  have hlast : (parserOf g ts [stop]).table.get (n, 1) = some ⟨n, []⟩ :=
    hT _ (mem_doubling.2 (Or.inr rfl)) 1 (Or.inr ⟨Derives.refl _, hfol n (Nat.le_refl n)⟩)
  have htok : (parserOf g ts [stop]).tokenAt 0 = .ok stop := rfl
  generalize parserOf g ts [stop] = ps at hentry hlast htok
  have key : ∀ k i, i + k = n → ∀ f, k + 1 ≤ f →
      (∃ r, ps.parseAst f 0 i = .ok (r, 0, [])) ∧ ps.calls f 0 i = 2 ^ (k + 1) - 1 := by
    intro k
    induction k with
    | zero =>
      intro i hi f hf
      obtain ⟨f, rfl⟩ : ∃ f', f = f' + 1 := ⟨f - 1, by omega⟩
      obtain rfl : i = n := by omega
      constructor
      · exact ⟨_, by rw [Parser.parseAst, htok]; simp only [bind_ok, hs, hlast, unwrap_some, Parser.parseItems]; rfl⟩
      · rw [Parser.calls, htok]; simp only [hs, hlast, Parser.callsItems]; rfl
    | succ k ih =>
      intro i hi f hf
      obtain ⟨f, rfl⟩ : ∃ f', f = f' + 1 := ⟨f - 1, by omega⟩
      obtain ⟨⟨r, hr⟩, hcalls⟩ := ih (i + 1) (by omega) f (by omega)
      constructor
      · exact ⟨_, by
          rw [Parser.parseAst, htok]
          simp only [bind_ok, hs, hentry i (by omega), unwrap_some, Parser.parseItems, hr, List.append_nil]
          rfl⟩
      · rw [Parser.calls, htok]
        simp only [hs, hentry i (by omega), Parser.callsItems, hr, hcalls, Nat.add_zero]
        have : 1 ≤ 2 ^ (k + 1) := Nat.one_le_two_pow
        rw [Nat.pow_succ 2 (k + 1)]
        omega
  intro fuel' hf
  obtain ⟨⟨r, hr⟩, hcalls⟩ := key n 0 (by omega) fuel' hf
  exact ⟨⟨r, by rw [Parser.parse_eq, Parser.parseRule, hr]; rfl⟩, hcalls⟩

/-- the grammar with the rules `0 → 1 1`, `1 → 2 2`, `2 → ε` -/
def doublingGrammar : Grammar where
  name := []
  vocabulary := (((Vocabulary.new.addNamedNonterminal 0 ['a']).1.addNamedNonterminal 1 ['b']).1.addNamedNonterminal 2
    ['c']).1
  productions := doubling 2

/-- a hash order for it -/
def doublingOrder : IterOrder doublingGrammar where
  ids := [0, 1, 2]
  ids_mem := by
    have : doublingGrammar.vocabulary.nonterminals = {0, 1, 2} := by decide +kernel
    intro i; simp [this]
  ord := doublingGrammar.productions
  ord_perm := List.Perm.refl _
  ord_nodup := by decide

/-- non-vacuity of `C75_exponential_factor` -/
example : ∃ ts, runTable doublingGrammar doublingOrder incSetOrder 10 = .ok ts ∧
    (parserOf doublingGrammar ts [tk 1]).calls 3 0 0 = 7 := by
  cases hr : runTable doublingGrammar doublingOrder incSetOrder 10 with
  | error e =>
    have : ((runTable doublingGrammar doublingOrder incSetOrder 10).map (·.conflicts)) = .ok [] := by decide +kernel
    rw [hr] at this; cases this
  | ok ts => exact ⟨ts, rfl, ((C75_exponential_factor 2 doublingGrammar rfl _ _ _ ts hr (tk 1) rfl).2 3 (by omega)).2⟩

end Syntaxis
