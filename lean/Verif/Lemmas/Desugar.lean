import Verif.Spec.Desugar
import Verif.Lemmas.Resolve

/-! # Every anonymous rule belongs to an element that occurs in the grammar -/

namespace Syntaxis

/-- where the entries of the caches come from -/
structure SStep (ps : List Elem) (s s' : ProdState) : Prop where
  has : ∀ e ∈ ps, Used s' e ∧ ∃ x, look s' e = some x
  cache : ∀ f i X, (s'.cache f).get i = some X → (s.cache f).get i = some X ∨
    ∃ e x, .rep f e ∈ ps ∧ look s' e = some x ∧ x.bare = i
  ids : ∀ X, s.nextRuleId ≤ X → X < s'.nextRuleId → (∃ f i, (s'.cache f).get i = some X) ∨
    ∃ rs, s'.blockCache.get rs = some X

theorem SStep.refl (s : ProdState) : SStep [] s s :=
  ⟨by simp, fun _ _ _ h => .inl h, fun X h1 h2 => by omega⟩

theorem SStep.trans {ps ps' ps'' : List Elem} {s s' s'' : ProdState} (h : SStep ps s s') (h' : SStep ps' s' s'')
    (hg : Grow s' s'') (hp : ∀ x, x ∈ ps'' ↔ x ∈ ps ∨ x ∈ ps') : SStep ps'' s s'' := by
  refine ⟨?_, ?_, ?_⟩
  · intro e he
    rcases (hp e).1 he with h1 | h1
    · obtain ⟨h2, x, h3⟩ := h.has e h1
      exact ⟨h2.mono hg, x, look_mono hg e h3⟩
    · exact h'.has e h1
  · intro f i X hX
    rcases h'.cache f i X hX with h1 | ⟨e, x, h1, h2⟩
    · rcases h.cache f i X h1 with h2 | ⟨e, x, h2, h3, h4⟩
      · exact .inl h2
      · exact .inr ⟨e, x, (hp _).2 (.inl h2), look_mono hg e h3, h4⟩
    · exact .inr ⟨e, x, (hp _).2 (.inr h1), h2⟩
  · intro X h1 h2
    by_cases h3 : X < s'.nextRuleId
    · rcases h.ids X h1 h3 with ⟨f, i, h4⟩ | ⟨rs, h4⟩
      · exact .inl ⟨f, i, hg.cache f i X h4⟩
      · exact .inr ⟨rs, hg.block rs X h4⟩
    · exact h'.ids X (by omega) h2

theorem finishBlock_src (rs : List (List Item)) (s : ProdState) :
    (∀ f, (finishBlock rs s).2.cache f = s.cache f) ∧
      ((finishBlock rs s).2.nextRuleId = s.nextRuleId ∨
        (finishBlock rs s).2.nextRuleId = s.nextRuleId + 1 ∧ (finishBlock rs s).1 = s.nextRuleId) := by
  rw [finishBlock]
  cases hb : s.blockCache.get rs with
  | some id => exact ⟨fun _ => rfl, .inl rfl⟩
  | none =>
    dsimp only
    generalize hs1 : ({ s.addUnnamed s.nextRuleId with
      blockCache := (s.addUnnamed s.nextRuleId).blockCache.insert rs s.nextRuleId } : ProdState) = s1
    obtain ⟨_, _, _, f4⟩ := foldl_insertProd s.nextRuleId rs s1
    refine ⟨fun f => ?_, .inr ⟨?_, rfl⟩⟩
    · rw [f4, ← hs1]; cases f <;> rfl
    · rw [f4, ← hs1]; rfl

theorem applySuffix_src (f : Suffix) (x : Item) (s : ProdState) :
    (∀ g i X, ((applySuffix f x s).2.cache g).get i = some X →
      (s.cache g).get i = some X ∨ g = f ∧ x.bare = i) ∧
      ((applySuffix f x s).2.nextRuleId = s.nextRuleId ∨
        (applySuffix f x s).2.nextRuleId = s.nextRuleId + 1 ∧ (applySuffix f x s).1 = .nt s.nextRuleId) := by
  rw [applySuffix]
  cases hc : (ProdState.cache { s with uses := (f, x) :: s.uses } f).get x.bare with
  | some X =>
    simp only
    exact ⟨fun g i X h => .inl (by cases g <;> exact h), .inl trivial⟩
  | none =>
    simp only
    generalize hs1 : (((({ s with uses := (f, x) :: s.uses } : ProdState).addUnnamed s.nextRuleId).insertProd
      ⟨s.nextRuleId, (suffixRights f x s.nextRuleId).1⟩).insertProd
      ⟨s.nextRuleId, (suffixRights f x s.nextRuleId).2⟩) = s1
    have hca1 : ∀ g, s1.cache g = s.cache g := by intro g; rw [← hs1]; cases g <;> rfl
    have hn : s1.nextRuleId = s.nextRuleId := by rw [← hs1]; rfl
    refine ⟨fun g i X h => ?_, .inr ⟨?_, trivial⟩⟩
    · have h' : ((s1.setCache f x.bare s.nextRuleId).cache g).get i = some X := by cases g <;> exact h
      rw [cache_setCache, hca1] at h'
      by_cases hfg : f = g
      · subst hfg
        rw [if_pos rfl, HMap.get_insert] at h'
        by_cases hi : x.bare = i
        · exact .inr ⟨rfl, hi⟩
        · rw [if_neg hi] at h'; exact .inl h'
      · rw [if_neg hfg] at h'; exact .inl h'
    · rw [(setCache_fields s1 f x.bare s.nextRuleId).2.1, hn]

section
variable {E : Env} {N : Finset Nat}

mutual
theorem elabElem_src (e : Elem) {s s' : ProdState} {x : Item} (h : RunInv E N s) (c : CInv s)
    (hr : elabElem e s = .ok (x, s')) : SStep e.parts s s' := by
  obtain ⟨_, hl, hu, _⟩ := elabElem_step e h c hr
  cases e with
  | tok n =>
    have hr' := hr
    rw [elabElem, bind_eq_ok] at hr
    obtain ⟨a, ha, hr⟩ := hr
    cases hr
    refine ⟨?_, fun _ _ _ h => .inl h, fun X h1 h2 => by omega⟩
    intro e he
    rw [Elem.parts, List.mem_singleton] at he
    subst he
    exact ⟨hu, _, hl⟩
  | ref n =>
    rw [elabElem, bind_eq_ok] at hr
    obtain ⟨a, ha, hr⟩ := hr
    cases hr
    refine ⟨?_, fun _ _ _ h => .inl h, fun X h1 h2 => by omega⟩
    intro e he
    rw [Elem.parts, List.mem_singleton] at he
    subst he
    exact ⟨hu, _, hl⟩
  | group alts =>
    rw [elabElem, bind_eq_ok] at hr
    obtain ⟨⟨rs, s1⟩, ha, hr⟩ := hr
    have h0 := elabAlts_src alts h c ha
    obtain ⟨h1, h2, h3, k, h4⟩ := elabAlts_step alts h c ha
    obtain ⟨g1, g2, _⟩ := finishBlock_step (elabAlts_inv alts h ha).1 h1.inv h2 h3
    obtain ⟨f1, f2⟩ := finishBlock_src rs s1
    cases hr
    refine h0.trans (ps' := [.group alts]) ⟨?_, ?_, ?_⟩ g1.grow (fun y => ?_)
    · intro e he
      rw [List.mem_singleton] at he
      subst he
      exact ⟨hu, _, hl⟩
    · intro f i X hX
      rw [f1] at hX
      exact .inl hX
    · intro X h5 h6
      rcases f2 with f2 | ⟨f2, f3⟩
      · omega
      · have : X = s1.nextRuleId := by omega
        subst this
        rw [f3] at g2
        exact .inr ⟨_, g2⟩
    · rw [Elem.parts, List.mem_cons, List.mem_singleton, or_comm]
  | rep f e =>
    rw [elabElem, bind_eq_ok] at hr
    obtain ⟨⟨y, s1⟩, ha, hr⟩ := hr
    have h0 := elabElem_src e h c ha
    obtain ⟨h1, h2, h3, k, h4⟩ := elabElem_step e h c ha
    obtain ⟨g1, g2, g3, X0, g4, g5⟩ := applySuffix_step f y (elabElem_inv e h ha).1 h1.inv
    obtain ⟨f1, f2⟩ := applySuffix_src f y s1
    have hr : applySuffix f y s1 = (x, s') := Except.ok.inj hr
    rw [hr] at g1 g2 g3 g4 g5 f1 f2
    dsimp only at g1 g2 g3 g4 g5 f1 f2
    refine h0.trans (ps' := [.rep f e]) ⟨?_, ?_, ?_⟩ g1.grow (fun y => ?_)
    · intro e' he
      rw [List.mem_singleton] at he
      subst he
      exact ⟨hu, _, hl⟩
    · intro g i X hX
      rcases f1 g i X hX with h5 | ⟨rfl, h5⟩
      · exact .inl h5
      · exact .inr ⟨e, y, by simp, look_mono g1.grow e h2, h5⟩
    · intro X h5 h6
      rcases f2 with f2 | ⟨f2, f3⟩
      · omega
      · have : X = s1.nextRuleId := by omega
        subst this
        rw [g4] at f3
        cases f3
        exact .inl ⟨_, _, g5⟩
    · rw [Elem.parts, List.mem_cons, List.mem_singleton, or_comm]
theorem elabSeq_src (es : List Elem) {s s' : ProdState} {β : List Item} (h : RunInv E N s) (c : CInv s)
    (hr : elabSeq es s = .ok (β, s')) : SStep (seqParts es) s s' := by
  cases es with
  | nil => rw [elabSeq] at hr; cases hr; exact .refl _
  | cons e es =>
    rw [elabSeq, bind_eq_ok] at hr
    obtain ⟨⟨x, s1⟩, ha, hr⟩ := hr
    rw [bind_eq_ok] at hr
    obtain ⟨⟨α', s2⟩, hb, hr⟩ := hr
    cases hr
    have h1 := (elabElem_step e h c ha).1
    have g1 := (elabSeq_step es (elabElem_inv e h ha).1 h1.inv hb).1
    exact (elabElem_src e h c ha).trans (elabSeq_src es (elabElem_inv e h ha).1 h1.inv hb) g1.grow
      (fun z => by rw [seqParts, List.mem_append])
theorem elabAlts_src (as : List (List Elem)) {s s' : ProdState} {rs : List (List Item)} (h : RunInv E N s)
    (c : CInv s) (hr : elabAlts as s = .ok (rs, s')) : SStep (altsParts as) s s' := by
  cases as with
  | nil => rw [elabAlts] at hr; cases hr; exact .refl _
  | cons a as =>
    rw [elabAlts, bind_eq_ok] at hr
    obtain ⟨⟨β, s1⟩, ha, hr⟩ := hr
    rw [bind_eq_ok] at hr
    obtain ⟨⟨rs', s2⟩, hb, hr⟩ := hr
    cases hr
    have h1 := (elabSeq_step a h c ha).1
    have g1 := (elabAlts_step as (elabSeq_inv a h ha).1 h1.inv hb).1
    exact (elabSeq_src a h c ha).trans (elabAlts_src as (elabSeq_inv a h ha).1 h1.inv hb) g1.grow
      (fun z => by rw [altsParts, List.mem_append])
end

theorem insertOrPrint_src (s : ProdState) (p : Production) (line : Str) : SStep [] s (s.insertOrPrint p line) :=
  ⟨by simp, fun f i X h => .inl (by cases f <;> exact h),
    fun X h1 h2 => absurd h2 (Nat.not_lt.2 h1)⟩

theorem elabNamed_src {A : Nat} (hA : A ∈ N) (as : List (List Elem)) {s s' : ProdState} (h : RunInv E N s)
    (c : CInv s) (hr : elabNamed A as s = .ok s') : SStep (altsParts as) s s' := by
  induction as generalizing s with
  | nil => rw [elabNamed] at hr; cases hr; exact .refl _
  | cons a as ih =>
    rw [elabNamed, bind_eq_ok] at hr
    obtain ⟨⟨β, s1⟩, ha, hr⟩ := hr
    dsimp only at hr
    rw [show (chars! "产生式重复") = altTwice from rfl] at hr
    obtain ⟨h1, h2, h3, _⟩ := elabSeq_inv a h ha
    obtain ⟨c1, _⟩ := elabSeq_step a h c ha
    have g1 := (insertNamed_inv h1 hA β altTwice h3).1
    have d1 := insertOrPrint_step c1.inv ⟨A, β⟩
    have k1 := (elabNamed_step hA as g1 d1.inv hr).1
    exact ((elabSeq_src a h c ha).trans (insertOrPrint_src s1 _ _) (ps'' := seqParts a) d1.grow (by simp)).trans
      (ih g1 d1.inv hr) k1.grow (fun z => by rw [altsParts, List.mem_append])

theorem elabRules_src (D : Rules) {s s' : ProdState} (h : RunInv E N s) (c : CInv s) (hr : elabRules D s = .ok s') :
    SStep (rulesParts D) s s' := by
  induction D generalizing s with
  | nil => rw [elabRules] at hr; cases hr; exact .refl _
  | cons r D ih =>
    obtain ⟨n, alts⟩ := r
    rw [elabRules, bind_eq_ok] at hr
    obtain ⟨A, hA, hr⟩ := hr
    rw [unwrap_eq_ok, h.nt] at hA
    rw [bind_eq_ok] at hr
    obtain ⟨s1, h1, hr⟩ := hr
    have a1 := (elabNamed_step (h.ntOk n A hA) alts h c h1).1
    have i1 := (elabNamed_inv (h.ntOk n A hA) alts h h1).1
    exact (elabNamed_src (h.ntOk n A hA) alts h c h1).trans (ih i1 a1.inv hr) (elabRules_step D i1 a1.inv hr).1.grow
      (fun z => by rw [rulesParts, List.flatMap_cons, List.mem_append]; rfl)

end

/-! ## parts -/

theorem mem_parts_self (e : Elem) : e ∈ e.parts := by cases e <;> simp [Elem.parts]

theorem mem_seqParts {es : List Elem} {x : Elem} : x ∈ seqParts es ↔ ∃ e ∈ es, x ∈ e.parts := by
  induction es with
  | nil => simp [seqParts]
  | cons e es ih => simp [seqParts, ih]

theorem mem_altsParts {as : List (List Elem)} {x : Elem} : x ∈ altsParts as ↔ ∃ a ∈ as, ∃ e ∈ a, x ∈ e.parts := by
  induction as with
  | nil => simp [altsParts]
  | cons a as ih => simp [altsParts, ih, mem_seqParts]

mutual
theorem parts_trans (e : Elem) {x y : Elem} (hx : x ∈ e.parts) (hy : y ∈ x.parts) : y ∈ e.parts := by
  cases e with
  | tok n => rw [Elem.parts, List.mem_singleton] at hx; subst hx; exact hy
  | ref n => rw [Elem.parts, List.mem_singleton] at hx; subst hx; exact hy
  | group alts =>
    rw [Elem.parts, List.mem_cons] at hx
    rcases hx with rfl | hx
    · exact hy
    · rw [Elem.parts, List.mem_cons]
      exact .inr (altsParts_trans alts hx hy)
  | rep f e =>
    rw [Elem.parts, List.mem_cons] at hx
    rcases hx with rfl | hx
    · exact hy
    · rw [Elem.parts, List.mem_cons]
      exact .inr (parts_trans e hx hy)
theorem seqParts_trans (es : List Elem) {x y : Elem} (hx : x ∈ seqParts es) (hy : y ∈ x.parts) : y ∈ seqParts es := by
  cases es with
  | nil => simp [seqParts] at hx
  | cons e es =>
    rw [seqParts, List.mem_append] at hx ⊢
    rcases hx with hx | hx
    · exact .inl (parts_trans e hx hy)
    · exact .inr (seqParts_trans es hx hy)
theorem altsParts_trans (as : List (List Elem)) {x y : Elem} (hx : x ∈ altsParts as) (hy : y ∈ x.parts) :
    y ∈ altsParts as := by
  cases as with
  | nil => simp [altsParts] at hx
  | cons a as =>
    rw [altsParts, List.mem_append] at hx ⊢
    rcases hx with hx | hx
    · exact .inl (seqParts_trans a hx hy)
    · exact .inr (altsParts_trans as hx hy)
end

theorem rulesParts_trans (D : Rules) {x y : Elem} (hx : x ∈ rulesParts D) (hy : y ∈ x.parts) : y ∈ rulesParts D := by
  rw [rulesParts, List.mem_flatMap] at hx ⊢
  obtain ⟨r, hr, hx⟩ := hx
  exact ⟨r, hr, altsParts_trans _ hx hy⟩

theorem mem_rulesParts {D : Rules} {x : Elem} :
    x ∈ rulesParts D ↔ ∃ w ∈ writtenAlternatives D, x ∈ seqParts w.2 := by
  simp only [rulesParts, writtenAlternatives, List.mem_flatMap, List.mem_map, mem_altsParts, mem_seqParts]
  constructor
  · rintro ⟨r, hr, a, ha, e, he, hx⟩
    exact ⟨_, ⟨r, hr, a, ha, rfl⟩, e, he, hx⟩
  · rintro ⟨_, ⟨r, hr, a, ha, rfl⟩, e, he, hx⟩
    exact ⟨r, hr, a, ha, e, he, hx⟩

mutual
theorem groups_parts (e : Elem) {alts : List (List Elem)} (h : alts ∈ e.groups) : .group alts ∈ e.parts := by
  cases e with
  | tok n => simp [Elem.groups] at h
  | ref n => simp [Elem.groups] at h
  | group as =>
    rw [Elem.groups, List.mem_cons] at h
    rw [Elem.parts, List.mem_cons]
    rcases h with rfl | h
    · exact .inl rfl
    · exact .inr (altsGroups_parts as h)
  | rep f e =>
    rw [Elem.groups] at h
    rw [Elem.parts, List.mem_cons]
    exact .inr (groups_parts e h)
theorem seqGroups_parts (es : List Elem) {alts : List (List Elem)} (h : alts ∈ seqGroups es) :
    .group alts ∈ seqParts es := by
  cases es with
  | nil => simp [seqGroups] at h
  | cons e es =>
    rw [seqGroups, List.mem_append] at h
    rw [seqParts, List.mem_append]
    exact h.imp (groups_parts e) (seqGroups_parts es)
theorem altsGroups_parts (as : List (List Elem)) {alts : List (List Elem)} (h : alts ∈ altsGroups as) :
    .group alts ∈ altsParts as := by
  cases as with
  | nil => simp [altsGroups] at h
  | cons a as =>
    rw [altsGroups, List.mem_append] at h
    rw [altsParts, List.mem_append]
    exact h.imp (seqGroups_parts a) (altsGroups_parts as)
end

end Syntaxis
