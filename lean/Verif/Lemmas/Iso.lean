import Verif.Lemmas.Parser
import Verif.Spec.Reorder
import Mathlib.Data.List.Forall2

/-! # Grammars that differ only in the numbers of their rules -/

namespace Syntaxis

/-- `ρ` relates symbols of two grammars one to one, tokens to themselves, and every production of the first has a
partner in the second -/
structure Hom (ρ : Item → Item → Prop) (P Q : List Production) : Prop where
  tok : ∀ a, ρ (.t a) (.t a)
  fn : ∀ x y z, ρ x y → ρ x z → y = z
  inj : ∀ x y z, ρ x z → ρ y z → x = y
  fwd : ∀ p ∈ P, ∃ q ∈ Q, ρ (.nt p.left) (.nt q.left) ∧ List.Forall₂ ρ p.right q.right

/-- the productions correspond in both directions -/
structure Iso (ρ : Item → Item → Prop) (P Q : List Production) : Prop extends Hom ρ P Q where
  bwd : ∀ q ∈ Q, ∃ p ∈ P, ρ (.nt p.left) (.nt q.left) ∧ List.Forall₂ ρ p.right q.right

theorem Iso.symm {ρ : Item → Item → Prop} {P Q : List Production} (h : Iso ρ P Q) : Iso (flip ρ) Q P where
  tok := h.tok
  fn x y z h1 h2 := h.inj y z x h1 h2
  inj x y z h1 h2 := h.fn z x y h1 h2
  fwd q hq := by
    obtain ⟨p, hp, h1, h2⟩ := h.bwd q hq
    exact ⟨p, hp, h1, h2.flip⟩
  bwd p hp := by
    obtain ⟨q, hq, h1, h2⟩ := h.fwd p hp
    exact ⟨q, hq, h1, h2.flip⟩

namespace Hom
variable {ρ : Item → Item → Prop} {P Q : List Production}

theorem tok_eq (h : Hom ρ P Q) {a : Nat} {y : Item} (h1 : ρ (.t a) y) : y = .t a := h.fn _ _ _ h1 (h.tok a)

theorem nt_of (h : Hom ρ P Q) {A : Nat} {y : Item} (h1 : ρ (.nt A) y) : ∃ B, y = .nt B := by
  cases y with
  | nt B => exact ⟨B, rfl⟩
  | t a => cases h.inj _ _ _ h1 (h.tok a)

theorem map_t (h : Hom ρ P Q) {w : List Nat} {β : List Item} (h1 : List.Forall₂ ρ (w.map .t) β) : β = w.map .t := by
  induction w generalizing β with
  | nil => cases h1; rfl
  | cons a w ih =>
    cases h1 with
    | cons h2 h3 => rw [ih h3, h.tok_eq h2]; rfl

theorem refl_t (h : Hom ρ P Q) (w : List Nat) : List.Forall₂ ρ (w.map .t) (w.map .t) := by
  induction w with
  | nil => exact .nil
  | cons a w ih => exact .cons (h.tok a) ih

theorem right_eq (h : Hom ρ P Q) {α β γ : List Item} (h1 : List.Forall₂ ρ α β) (h2 : List.Forall₂ ρ α γ) : β = γ := by
  induction h1 generalizing γ with
  | nil => cases h2; rfl
  | cons h3 _ ih =>
    cases h2 with
    | cons h4 h5 => rw [ih h5, h.fn _ _ _ h3 h4]

theorem append_inv {α β γ : List Item} (h1 : List.Forall₂ ρ (α ++ β) γ) :
    ∃ α' β', γ = α' ++ β' ∧ List.Forall₂ ρ α α' ∧ List.Forall₂ ρ β β' := by
  induction α generalizing γ with
  | nil => exact ⟨[], γ, rfl, .nil, h1⟩
  | cons x α ih =>
    cases h1 with
    | cons h2 h3 =>
      obtain ⟨α', β', rfl, h4, h5⟩ := ih h3
      exact ⟨_ :: α', β', rfl, .cons h2 h4, h5⟩

theorem step (h : Hom ρ P Q) {α β α' : List Item} (h1 : List.Forall₂ ρ α α') (h2 : Step P α β) :
    ∃ β', List.Forall₂ ρ β β' ∧ Step Q α' β' := by
  cases h2 with
  | mk p hp u v =>
    obtain ⟨u', w', rfl, hu, hw⟩ := append_inv h1
    cases hw with
    | cons hx hv =>
      obtain ⟨q, hq, hl, hr⟩ := h.fwd p hp
      cases h.fn _ _ _ hx hl
      exact ⟨_, List.rel_append hu (List.rel_append hr hv), .mk q hq _ _⟩

theorem derives (h : Hom ρ P Q) {α β α' : List Item} (h1 : List.Forall₂ ρ α α') (h2 : Derives P α β) :
    ∃ β', List.Forall₂ ρ β β' ∧ Derives Q α' β' := by
  induction h2 with
  | refl => exact ⟨α', h1, Relation.ReflTransGen.refl⟩
  | tail _ hs ih =>
    obtain ⟨γ, h3, h4⟩ := ih
    obtain ⟨β', h5, h6⟩ := h.step h3 hs
    exact ⟨β', h5, h4.tail h6⟩

theorem nullable (h : Hom ρ P Q) {α α' : List Item} (h1 : List.Forall₂ ρ α α') (h2 : Nullable P α) : Nullable Q α' := by
  obtain ⟨β, h3, h4⟩ := h.derives h1 h2
  cases h3
  exact h4

theorem inFirst (h : Hom ρ P Q) {α α' : List Item} (h1 : List.Forall₂ ρ α α') {t : Nat} (h2 : InFirst P α t) :
    InFirst Q α' t := by
  obtain ⟨β, h2⟩ := h2
  obtain ⟨β', h3, h4⟩ := h.derives h1 h2
  cases h3 with
  | cons h5 h6 =>
    cases h.tok_eq h5
    exact ⟨_, h4⟩

/-- a rule that derives something other than itself has a partner -/
theorem partner (h : Hom ρ P Q) {A : Nat} {β : List Item} (h1 : Derives P [.nt A] β) (hne : β ≠ [.nt A]) :
    ∃ A', ρ (.nt A) (.nt A') := by
  rcases Relation.ReflTransGen.cases_head h1 with rfl | ⟨γ, h2, _⟩
  · exact absurd rfl hne
  · generalize hα : [Item.nt A] = α at h2
    cases h2 with
    | mk p hp u v =>
      rcases u with _ | ⟨x, u⟩
      · simp only [List.nil_append, List.cons.injEq] at hα
        obtain ⟨e, _⟩ := hα
        cases e
        obtain ⟨q, _, hl, _⟩ := h.fwd p hp
        exact ⟨_, hl⟩
      · have := congrArg List.length hα
        simp at this

theorem inFollow (h : Hom ρ P Q) (h0 : ρ (.nt 0) (.nt 0)) {B B' : Nat} (hB : ρ (.nt B) (.nt B')) {t : Nat}
    (h2 : InFollow P B t) : InFollow Q B' t := by
  rcases h2 with ⟨A, u, v, h2⟩ | ⟨rfl, u, h2⟩
  · obtain ⟨A', hA⟩ := h.partner h2 (by
      intro he
      have := congrArg List.length he
      simp at this
      omega)
    obtain ⟨β, h3, h4⟩ := h.derives (.cons hA .nil) h2
    obtain ⟨u', w', rfl, hu, hw⟩ := append_inv h3
    cases hw with
    | cons hx hv =>
      cases h.fn _ _ _ hx hB
      cases hv with
      | cons hy hv =>
        cases h.tok_eq hy
        exact .inl ⟨A', u', _, h4⟩
  · obtain ⟨β, h3, h4⟩ := h.derives (.cons h0 .nil) h2
    obtain ⟨u', w', rfl, hu, hw⟩ := append_inv h3
    cases hw with
    | cons hx hv =>
      cases h.fn _ _ _ hx hB
      cases hv
      exact .inr ⟨rfl, u', h4⟩

theorem sentence (h : Hom ρ P Q) {A A' : Nat} (hA : ρ (.nt A) (.nt A')) {w : List Nat} (h2 : Sentence P A w) :
    Sentence Q A' w := by
  obtain ⟨β, h3, h4⟩ := h.derives (.cons hA .nil) h2
  rw [h.map_t h3] at h4
  exact h4

theorem predicts (h : Hom ρ P Q) (h0 : ρ (.nt 0) (.nt 0)) {p q : Production} (hl : ρ (.nt p.left) (.nt q.left))
    (hr : List.Forall₂ ρ p.right q.right) {t : Nat} (h2 : Predicts P p t) : Predicts Q q t := by
  rcases h2 with h2 | ⟨h2, h3⟩
  · exact .inl (h.inFirst hr h2)
  · exact .inr ⟨h.nullable hr h2, h.inFollow h0 hl h3⟩

theorem left_eq (h : Hom ρ P Q) {α β γ : List Item} (h1 : List.Forall₂ ρ α γ) (h2 : List.Forall₂ ρ β γ) : α = β := by
  induction h1 generalizing β with
  | nil => cases h2; rfl
  | cons h3 _ ih =>
    cases h2 with
    | cons h4 h5 => rw [ih h5, h.inj _ _ _ h3 h4]

theorem ll1 (h : Hom ρ P Q) (h0 : ρ (.nt 0) (.nt 0)) (h2 : LL1 Q) : LL1 P := by
  intro p hp p' hp' hl hne t ⟨h3, h4⟩
  obtain ⟨q, hq, e1, e2⟩ := h.fwd p hp
  obtain ⟨q', hq', e1', e2'⟩ := h.fwd p' hp'
  rw [hl] at e1
  refine h2 q hq q' hq' (Item.nt.inj (h.fn _ _ _ e1 e1')) ?_ t
    ⟨h.predicts h0 (by rw [hl]; exact e1) e2 h3, h.predicts h0 e1' e2' h4⟩
  rintro rfl
  have := h.left_eq e2 e2'
  cases p
  cases p'
  simp only at hl this
  exact hne (by rw [hl, this])

end Hom

theorem Iso.sentence_iff {ρ : Item → Item → Prop} {P Q : List Production} (h : Iso ρ P Q) {A A' : Nat} (hA : ρ (.nt A) (.nt A')) (w : List Nat) :
    Sentence P A w ↔ Sentence Q A' w := ⟨h.sentence hA, h.symm.sentence hA⟩

theorem Iso.ll1_iff {ρ : Item → Item → Prop} {P Q : List Production} (h : Iso ρ P Q) (h0 : ρ (.nt 0) (.nt 0)) :
    LL1 P ↔ LL1 Q := ⟨h.symm.ll1 h0, h.ll1 h0⟩

/-- two parsers over the same tokens whose tables and names correspond -/
structure SubPs (ν : Str → Str) (ρ : Item → Item → Prop) (ps ps' : Parser) : Prop where
  tokens : ps'.tokens = ps.tokens
  some : ∀ A A' t p, ρ (.nt A) (.nt A') → ps.table.get (A, t) = some p →
    ∃ q, ps'.table.get (A', t) = some q ∧ List.Forall₂ ρ p.right q.right
  names : ∀ A A', ρ (.nt A) (.nt A') →
    ps'.vocabulary.getNonterminalNameById A' = (ps.vocabulary.getNonterminalNameById A).map ν

/-- and all entries of the second for related symbols correspond to entries of the first -/
structure SamePs (ν : Str → Str) (ρ : Item → Item → Prop) (ps ps' : Parser) : Prop extends SubPs ν ρ ps ps' where
  none : ∀ A A' t, ρ (.nt A) (.nt A') → ps.table.get (A, t) = none → ps'.table.get (A', t) = none

theorem relabelList_append (ν : Str → Str) (l l' : List Ast) : relabelList ν (l ++ l') = relabelList ν l ++ relabelList ν l' := by
  induction l with
  | nil => rfl
  | cons k l ih => simp only [List.cons_append, relabelList, ih]

theorem wrap_relabel {ν : Str → Str} {ρ : Item → Item → Prop} {ps ps' : Parser} (hs : SubPs ν ρ ps ps') {A A' : Nat}
    (hA : ρ (.nt A) (.nt A')) {ks ks' : List Ast} (hk : relabelList ν ks = relabelList id ks') :
    relabelList ν (ps.wrap A ks) = relabelList id (ps'.wrap A' ks') := by
  have := hs.names A A' hA
  simp only [Parser.wrap, Vocabulary.getNonterminalNameWithDefault, Vocabulary.getNonterminalNameById] at this ⊢
  rw [this]
  cases ps.vocabulary.ntIdToName.get A with
  | none => exact hk
  | some n => simp only [Option.map_some, relabelList, Ast.relabel, hk, id]

section
variable {ν : Str → Str} {ρ : Item → Item → Prop} {P Q : List Production} {ps ps' : Parser}

theorem Hom.run (h : Hom ρ P Q) (hs : SubPs ν ρ ps ps') {α α' : List Item} {c c' : Nat} {f : List PTree}
    {ks : List Ast} {l : MismatchLog} (h1 : List.Forall₂ ρ α α') (h2 : Run ps α c f ks c' l) :
    ∃ f' ks', Run ps' α' c f' ks' c' l ∧ relabelList ν ks = relabelList id ks' := by
  induction h2 generalizing α' with
  | nil c => cases h1; exact ⟨[], [], .nil c, rfl⟩
  | t htok _ ih =>
    cases h1 with
    | cons hx hr =>
      cases h.tok_eq hx
      obtain ⟨f', ks', h3, h4⟩ := ih hr
      exact ⟨_, _, .t (by rw [hs.tokens]; exact htok) h3, by simp only [relabelList, Ast.relabel, h4]⟩
  | nt htok hp _ _ ih1 ih2 =>
    cases h1 with
    | cons hx hr =>
      obtain ⟨B, rfl⟩ := h.nt_of hx
      obtain ⟨q, hq, hpq⟩ := hs.some _ _ _ _ hx hp
      obtain ⟨f1, ks1, h3, h4⟩ := ih1 hpq
      obtain ⟨f2, ks2, h5, h6⟩ := ih2 hr
      exact ⟨_, _, .nt (by rw [hs.tokens]; exact htok) hq h3 h5, by
        rw [relabelList_append, relabelList_append, wrap_relabel hs hx h4, h6]⟩

theorem Hom.panics (h : Hom ρ P Q) (hs : SamePs ν ρ ps ps') {α α' : List Item} {c : Nat}
    (h1 : List.Forall₂ ρ α α') (h2 : Panics ps α c) : Panics ps' α' c := by
  induction h2 generalizing α' with
  | tok hn =>
    cases h1 with
    | cons hx hr => exact .tok (by rw [hs.tokens]; exact hn)
  | t htok _ ih =>
    cases h1 with
    | cons hx hr =>
      cases h.tok_eq hx
      exact .t (by rw [hs.tokens]; exact htok) (ih hr)
  | entry htok hp =>
    cases h1 with
    | cons hx hr =>
      obtain ⟨B, rfl⟩ := h.nt_of hx
      exact .entry (by rw [hs.tokens]; exact htok) (hs.none _ _ _ hx hp)
  | sub htok hp _ ih =>
    cases h1 with
    | cons hx hr =>
      obtain ⟨B, rfl⟩ := h.nt_of hx
      obtain ⟨q, hq, hpq⟩ := hs.some _ _ _ _ hx hp
      exact .sub (by rw [hs.tokens]; exact htok) hq (ih hpq)
  | rest htok hp hrun _ ih =>
    cases h1 with
    | cons hx hr =>
      obtain ⟨B, rfl⟩ := h.nt_of hx
      obtain ⟨q, hq, hpq⟩ := hs.some _ _ _ _ hx hp
      obtain ⟨f', ks', h3, _⟩ := h.run hs.toSubPs hpq hrun
      exact .rest (by rw [hs.tokens]; exact htok) hq h3 (ih hr)

end
end Syntaxis
