import Verif.Spec.Sharing
import Verif.Lemmas.Desugar

/-! # The first use of a suffix on a number decides what the repetition is -/

namespace Syntaxis

/-- the oldest use of a suffix on a number; uses are recorded latest first -/
def firstUse (u : List (Suffix × Item)) (f : Suffix) (i : Nat) : Option Item :=
  (u.reverse.find? fun p => decide (p.1 = f ∧ p.2.bare = i)).map Prod.snd

theorem firstUse_cons {u : List (Suffix × Item)} {f : Suffix} {i : Nat} {y : Item} (h : firstUse u f i = some y)
    (p : Suffix × Item) : firstUse (p :: u) f i = some y := by
  rw [firstUse, Option.map_eq_some_iff] at h ⊢
  obtain ⟨q, h1, h2⟩ := h
  exact ⟨q, by rw [List.reverse_cons, List.find?_append, h1]; rfl, h2⟩

theorem firstUse_new {u : List (Suffix × Item)} {f : Suffix} {x : Item}
    (h : ∀ y, (f, y) ∈ u → y.bare ≠ x.bare) : firstUse ((f, x) :: u) f x.bare = some x := by
  rw [firstUse, List.reverse_cons, List.find?_append]
  have : u.reverse.find? (fun p => decide (p.1 = f ∧ p.2.bare = x.bare)) = none := by
    rw [List.find?_eq_none]
    rintro ⟨g, y⟩ hy hp
    simp only [decide_eq_true_eq] at hp
    obtain ⟨rfl, hp⟩ := hp
    exact h y (List.mem_reverse.1 hy) hp
  rw [this]
  simp

/-- the productions of a repetition are those of the first use -/
structure UInv (s : ProdState) : Prop where
  first : ∀ f i X, (s.cache f).get i = some X → ∃ y, firstUse s.uses f i = some y ∧
    ∀ β, (⟨X, β⟩ : Production) ∈ s.grammar.productions ↔ β = (suffixRights f y X).1 ∨ β = (suffixRights f y X).2
  used : ∀ f x, (f, x) ∈ s.uses → ∃ X, (s.cache f).get x.bare = some X

/-- the uses that have been added are those of the given repetitions, in this order -/
structure UStep (rs : List (Suffix × Elem)) (s s' : ProdState) : Prop where
  inv : UInv s'
  uses : ∃ us, s'.uses = us.reverse ++ s.uses ∧ List.Forall₂ (fun r u => r.1 = u.1 ∧ look s' r.2 = some u.2) rs us

theorem UStep.refl {s : ProdState} (h : UInv s) : UStep [] s s := ⟨h, [], rfl, .nil⟩

theorem UStep.trans {rs rs' : List (Suffix × Elem)} {s s' s'' : ProdState} (h : UStep rs s s') (h' : UStep rs' s' s'')
    (hg : Grow s' s'') : UStep (rs ++ rs') s s'' := by
  obtain ⟨us, h1, h2⟩ := h.uses
  obtain ⟨vs, h3, h4⟩ := h'.uses
  refine ⟨h'.inv, us ++ vs, by rw [h3, h1, List.reverse_append, List.append_assoc], List.rel_append ?_ h4⟩
  exact h2.imp fun _ _ h => ⟨h.1, look_mono hg _ h.2⟩

theorem applySuffix_record (f : Suffix) (x : Item) (s : ProdState) : (applySuffix f x s).2.uses = (f, x) :: s.uses := by
  rw [applySuffix]
  cases (ProdState.cache { s with uses := (f, x) :: s.uses } f).get x.bare with
  | some X => rfl
  | none =>
    simp only
    exact (setCache_fields _ f x.bare _).2.2.1

theorem finishBlock_record (rs : List (List Item)) (s : ProdState) : (finishBlock rs s).2.uses = s.uses := by
  rw [finishBlock]
  cases hb : s.blockCache.get rs with
  | some id => rfl
  | none =>
    dsimp only
    generalize hs1 : ({ s.addUnnamed s.nextRuleId with
      blockCache := (s.addUnnamed s.nextRuleId).blockCache.insert rs s.nextRuleId } : ProdState) = s1
    obtain ⟨_, _, _, f4⟩ := foldl_insertProd s.nextRuleId rs s1
    rw [f4, ← hs1]
    rfl

section
variable {E : Env} {N : Finset Nat}

theorem finishBlock_ustep (rs : List (List Item)) {s : ProdState} (h : RunInv E N s) (u : UInv s)
    (hrs : ∀ β ∈ rs, ∀ x ∈ β, ItemOk s.grammar.vocabulary x) : UStep [] s (finishBlock rs s).2 := by
  obtain ⟨_, h2, _⟩ := finishBlock_inv rs h hrs
  obtain ⟨f1, _⟩ := finishBlock_src rs s
  refine ⟨⟨?_, ?_⟩, [], by rw [finishBlock_record]; rfl, .nil⟩
  · intro f i X hX
    rw [f1] at hX
    obtain ⟨y, h3, h4⟩ := u.first f i X hX
    refine ⟨y, by rw [finishBlock_record]; exact h3, fun β => ?_⟩
    rw [h2.prods X β (h.cache f i X hX).2.1]
    exact h4 β
  · intro f x hx
    rw [finishBlock_record] at hx
    rw [f1]
    exact u.used f x hx

theorem applySuffix_ustep (f : Suffix) (e : Elem) (x : Item) {s : ProdState} (h : RunInv E N s) (c : CInv s)
    (u : UInv s) (hx : ItemOk s.grammar.vocabulary x) (hl : look (applySuffix f x s).2 e = some x) :
    UStep [(f, e)] s (applySuffix f x s).2 := by
  obtain ⟨h1, h2, _⟩ := applySuffix_inv f x h hx
  obtain ⟨f1, _⟩ := applySuffix_src f x s
  obtain ⟨g1, _, _, X0, _, g5⟩ := applySuffix_step f x h c
  refine ⟨⟨?_, ?_⟩, [(f, x)], by rw [applySuffix_record]; rfl, .cons ⟨rfl, hl⟩ .nil⟩
  · intro g i X hX
    rw [applySuffix_record]
    by_cases hs : (s.cache g).get i = some X
    · obtain ⟨y, h3, h4⟩ := u.first g i X hs
      refine ⟨y, firstUse_cons h3 _, fun β => ?_⟩
      rw [h2.prods X β (h.cache g i X hs).2.1]
      exact h4 β
    · rcases f1 g i X hX with h3 | ⟨rfl, rfl⟩
      · exact absurd h3 hs
      · have hno : ∀ y, (g, y) ∈ s.uses → y.bare ≠ x.bare := by
          intro y hy he
          obtain ⟨Y, hY⟩ := u.used g y hy
          rw [he] at hY
          have := g1.grow.cache _ _ _ hY
          rw [hX] at this
          cases this
          exact hs hY
        obtain ⟨_, _, y, hy, hyu, hp⟩ := h1.cache g x.bare X hX
        rw [applySuffix_record, List.mem_cons] at hyu
        rcases hyu with hyu | hyu
        · cases hyu
          exact ⟨x, firstUse_new hno, hp⟩
        · exact absurd hy (hno y hyu)
  · intro g y hy
    rw [applySuffix_record, List.mem_cons] at hy
    rcases hy with hy | hy
    · cases hy
      exact ⟨X0, g5⟩
    · obtain ⟨Y, hY⟩ := u.used g y hy
      exact ⟨Y, g1.grow.cache _ _ _ hY⟩

mutual
theorem elabElem_ustep (e : Elem) {s s' : ProdState} {x : Item} (h : RunInv E N s) (c : CInv s) (u : UInv s)
    (hr : elabElem e s = .ok (x, s')) : UStep e.reps s s' := by
  obtain ⟨_, hl, _⟩ := elabElem_step e h c hr
  cases e with
  | tok n =>
    rw [elabElem, bind_eq_ok] at hr
    obtain ⟨a, ha, hr⟩ := hr
    cases hr
    exact .refl u
  | ref n =>
    rw [elabElem, bind_eq_ok] at hr
    obtain ⟨a, ha, hr⟩ := hr
    cases hr
    exact .refl u
  | group alts =>
    rw [elabElem, bind_eq_ok] at hr
    obtain ⟨⟨rs, s1⟩, ha, hr⟩ := hr
    obtain ⟨h1, h2, h3, k, h4⟩ := elabAlts_step alts h c ha
    obtain ⟨i1, _, i3, _⟩ := elabAlts_inv alts h ha
    obtain ⟨g1, g2, _⟩ := finishBlock_step i1 h1.inv h2 h3
    cases hr
    have u1 := elabAlts_ustep alts h c u ha
    have := u1.trans (finishBlock_ustep rs i1 u1.inv i3) g1.grow
    rwa [List.append_nil] at this
  | rep f e =>
    rw [elabElem, bind_eq_ok] at hr
    obtain ⟨⟨y, s1⟩, ha, hr⟩ := hr
    obtain ⟨h1, h2, h3, k, h4⟩ := elabElem_step e h c ha
    obtain ⟨i1, _, i3, _⟩ := elabElem_inv e h ha
    obtain ⟨g1, _⟩ := applySuffix_step f y i1 h1.inv
    have u1 := elabElem_ustep e h c u ha
    have u2 := applySuffix_ustep f e y i1 h1.inv u1.inv i3 (look_mono g1.grow e h2)
    have hr : applySuffix f y s1 = (x, s') := Except.ok.inj hr
    have u3 := u1.trans u2 g1.grow
    rw [hr] at u3
    exact u3
theorem elabSeq_ustep (es : List Elem) {s s' : ProdState} {β : List Item} (h : RunInv E N s) (c : CInv s) (u : UInv s)
    (hr : elabSeq es s = .ok (β, s')) : UStep (seqReps es) s s' := by
  cases es with
  | nil => rw [elabSeq] at hr; cases hr; exact .refl u
  | cons e es =>
    rw [elabSeq, bind_eq_ok] at hr
    obtain ⟨⟨x, s1⟩, ha, hr⟩ := hr
    rw [bind_eq_ok] at hr
    obtain ⟨⟨α', s2⟩, hb, hr⟩ := hr
    cases hr
    have h1 := (elabElem_step e h c ha).1
    have i1 := (elabElem_inv e h ha).1
    have u1 := elabElem_ustep e h c u ha
    exact u1.trans (elabSeq_ustep es i1 h1.inv u1.inv hb) (elabSeq_step es i1 h1.inv hb).1.grow
theorem elabAlts_ustep (as : List (List Elem)) {s s' : ProdState} {rs : List (List Item)} (h : RunInv E N s)
    (c : CInv s) (u : UInv s) (hr : elabAlts as s = .ok (rs, s')) : UStep (altsReps as) s s' := by
  cases as with
  | nil => rw [elabAlts] at hr; cases hr; exact .refl u
  | cons a as =>
    rw [elabAlts, bind_eq_ok] at hr
    obtain ⟨⟨β, s1⟩, ha, hr⟩ := hr
    rw [bind_eq_ok] at hr
    obtain ⟨⟨rs', s2⟩, hb, hr⟩ := hr
    cases hr
    have h1 := (elabSeq_step a h c ha).1
    have i1 := (elabSeq_inv a h ha).1
    have u1 := elabSeq_ustep a h c u ha
    exact u1.trans (elabAlts_ustep as i1 h1.inv u1.inv hb) (elabAlts_step as i1 h1.inv hb).1.grow
end

theorem insertOrPrint_ustep {s : ProdState} (h : RunInv E N s) (u : UInv s) {A : Nat} (hA : A ∈ N) (β : List Item)
    (line : Str) (hβ : ∀ x ∈ β, ItemOk s.grammar.vocabulary x) : UStep [] s (s.insertOrPrint ⟨A, β⟩ line) := by
  obtain ⟨_, h2⟩ := insertNamed_inv h hA β line hβ
  have hc : ∀ f, (s.insertOrPrint ⟨A, β⟩ line).cache f = s.cache f := by intro f; cases f <;> rfl
  refine ⟨⟨?_, ?_⟩, [], rfl, .nil⟩
  · intro f i X hX
    rw [hc] at hX
    obtain ⟨y, h3, h4⟩ := u.first f i X hX
    refine ⟨y, h3, fun γ => ?_⟩
    rw [h2.prods X γ (h.cache f i X hX).1 (h.cache f i X hX).2.1]
    exact h4 γ
  · intro f x hx
    rw [hc]
    exact u.used f x hx

theorem elabNamed_ustep {A : Nat} (hA : A ∈ N) (as : List (List Elem)) {s s' : ProdState} (h : RunInv E N s)
    (c : CInv s) (u : UInv s) (hr : elabNamed A as s = .ok s') : UStep (altsReps as) s s' := by
  induction as generalizing s with
  | nil => rw [elabNamed] at hr; cases hr; exact .refl u
  | cons a as ih =>
    rw [elabNamed, bind_eq_ok] at hr
    obtain ⟨⟨β, s1⟩, ha, hr⟩ := hr
    dsimp only at hr
    rw [show (chars! "产生式重复") = altTwice from rfl] at hr
    obtain ⟨h1, h2, h3, _⟩ := elabSeq_inv a h ha
    obtain ⟨c1, _⟩ := elabSeq_step a h c ha
    have g1 := (insertNamed_inv h1 hA β altTwice h3).1
    have d1 := insertOrPrint_step c1.inv ⟨A, β⟩
    have k1 := (elabNamed_step hA as g1 d1.inv hr).1
    have u1 := elabSeq_ustep a h c u ha
    have u2 := insertOrPrint_ustep h1 u1.inv hA β altTwice h3
    have := (u1.trans u2 d1.grow).trans (ih g1 d1.inv u2.inv hr) k1.grow
    rwa [List.append_nil] at this

theorem elabRules_ustep (D : Rules) {s s' : ProdState} (h : RunInv E N s) (c : CInv s) (u : UInv s)
    (hr : elabRules D s = .ok s') : UStep (rulesReps D) s s' := by
  induction D generalizing s with
  | nil => rw [elabRules] at hr; cases hr; exact .refl u
  | cons r D ih =>
    obtain ⟨n, alts⟩ := r
    rw [elabRules, bind_eq_ok] at hr
    obtain ⟨A, hA, hr⟩ := hr
    rw [unwrap_eq_ok, h.nt] at hA
    rw [bind_eq_ok] at hr
    obtain ⟨s1, h1, hr⟩ := hr
    have a1 := (elabNamed_step (h.ntOk n A hA) alts h c h1).1
    have i1 := (elabNamed_inv (h.ntOk n A hA) alts h h1).1
    have u1 := elabNamed_ustep (h.ntOk n A hA) alts h c u h1
    exact u1.trans (ih i1 a1.inv u1.inv hr) (elabRules_step D i1 a1.inv hr).1.grow

end

/-! ## repetitions and parts -/

mutual
theorem mem_reps (e : Elem) (f : Suffix) (x : Elem) : (f, x) ∈ e.reps ↔ .rep f x ∈ e.parts := by
  cases e with
  | tok n => simp [Elem.reps, Elem.parts]
  | ref n => simp [Elem.reps, Elem.parts]
  | group alts => simp [Elem.reps, Elem.parts, mem_altsReps alts]
  | rep g e => simp [Elem.reps, Elem.parts, mem_reps e, or_comm]
theorem mem_seqReps (es : List Elem) (f : Suffix) (x : Elem) : (f, x) ∈ seqReps es ↔ .rep f x ∈ seqParts es := by
  cases es with
  | nil => simp [seqReps, seqParts]
  | cons e es => simp [seqReps, seqParts, mem_reps e, mem_seqReps es]
theorem mem_altsReps (as : List (List Elem)) (f : Suffix) (x : Elem) :
    (f, x) ∈ altsReps as ↔ .rep f x ∈ altsParts as := by
  cases as with
  | nil => simp [altsReps, altsParts]
  | cons a as => simp [altsReps, altsParts, mem_seqReps a, mem_altsReps as]
end

theorem mem_rulesReps (D : Rules) (f : Suffix) (x : Elem) : (f, x) ∈ rulesReps D ↔ .rep f x ∈ rulesParts D := by
  simp only [rulesReps, rulesParts, List.mem_flatMap, mem_altsReps]

theorem find_forall₂ {α β : Type} {R : α → β → Prop} {p : α → Bool} {q : β → Bool} {l : List α} {l' : List β}
    (h : List.Forall₂ R l l') (hpq : ∀ a b, R a b → p a = q b) :
    (l.find? p = none ∧ l'.find? q = none) ∨ ∃ a b, l.find? p = some a ∧ l'.find? q = some b ∧ R a b := by
  induction h with
  | nil => exact .inl ⟨rfl, rfl⟩
  | @cons a b l l' h1 h2 ih =>
    rw [List.find?_cons, List.find?_cons, hpq a b h1]
    cases q b with
    | true => exact .inr ⟨a, b, rfl, rfl, h1⟩
    | false => exact ih

end Syntaxis
