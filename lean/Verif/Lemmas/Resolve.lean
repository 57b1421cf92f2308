import Verif.Spec.Messages
import Verif.Lemmas.ElabInv

/-!
# What the caches say about the elements that have been translated

`look` reads the item an element was translated to off the caches.  Caches only grow, so an element is always
translated to the same item, and without collisions of suffixes different elements get different items.
-/

namespace Syntaxis

/-- the message about an alternative of a block that is already there -/
def blockTwice : Str := chars! "重复产生式"
/-- the message about an alternative of a rule that is already there -/
def altTwice : Str := chars! "产生式重复"

theorem altTwice_ne : altTwice ≠ blockTwice := by decide

mutual
/-- the item of an element according to the caches -/
def look (s : ProdState) : Elem → Option Item
  | .tok n => (s.grammar.vocabulary.getTerminalIdByName n).map .t
  | .ref n => (s.grammar.vocabulary.getNonterminalIdByName n).map .nt
  | .group alts => (lookAlts s alts).bind fun rs => (s.blockCache.get rs).map .nt
  | .rep f e => (look s e).bind fun x => ((s.cache f).get x.bare).map .nt
def lookSeq (s : ProdState) : List Elem → Option (List Item)
  | [] => some []
  | e :: es => (look s e).bind fun x => (lookSeq s es).map (x :: ·)
def lookAlts (s : ProdState) : List (List Elem) → Option (List (List Item))
  | [] => some []
  | a :: as => (lookSeq s a).bind fun β => (lookAlts s as).map (β :: ·)
end

mutual
/-- all suffixes in the element have been recorded -/
def Used (s : ProdState) : Elem → Prop
  | .tok _ => True
  | .ref _ => True
  | .group alts => UsedAlts s alts
  | .rep f e => Used s e ∧ ∃ x, look s e = some x ∧ (f, x) ∈ s.uses
def UsedSeq (s : ProdState) : List Elem → Prop
  | [] => True
  | e :: es => Used s e ∧ UsedSeq s es
def UsedAlts (s : ProdState) : List (List Elem) → Prop
  | [] => True
  | a :: as => UsedSeq s a ∧ UsedAlts s as
end

/-- the caches grow -/
structure Grow (s s' : ProdState) : Prop where
  tok : ∀ n, s'.grammar.vocabulary.getTerminalIdByName n = s.grammar.vocabulary.getTerminalIdByName n
  nt : ∀ n, s'.grammar.vocabulary.getNonterminalIdByName n = s.grammar.vocabulary.getNonterminalIdByName n
  cache : ∀ f i X, (s.cache f).get i = some X → (s'.cache f).get i = some X
  block : ∀ rs X, s.blockCache.get rs = some X → s'.blockCache.get rs = some X
  uses : ∀ u ∈ s.uses, u ∈ s'.uses

theorem Grow.refl (s : ProdState) : Grow s s :=
  ⟨fun _ => rfl, fun _ => rfl, fun _ _ _ h => h, fun _ _ h => h, fun _ h => h⟩

theorem Grow.trans {s s' s'' : ProdState} (h : Grow s s') (h' : Grow s' s'') : Grow s s'' :=
  ⟨fun n => (h'.tok n).trans (h.tok n), fun n => (h'.nt n).trans (h.nt n),
    fun f i X hX => h'.cache f i X (h.cache f i X hX), fun rs X hX => h'.block rs X (h.block rs X hX),
    fun u hu => h'.uses u (h.uses u hu)⟩

mutual
theorem look_mono {s s' : ProdState} (h : Grow s s') (e : Elem) {x : Item} (hx : look s e = some x) :
    look s' e = some x := by
  cases e with
  | tok n => rw [look] at hx ⊢; rw [h.tok]; exact hx
  | ref n => rw [look] at hx ⊢; rw [h.nt]; exact hx
  | group alts =>
    rw [look, Option.bind_eq_some_iff] at hx
    obtain ⟨rs, h1, h2⟩ := hx
    rw [Option.map_eq_some_iff] at h2
    obtain ⟨X, h2, rfl⟩ := h2
    rw [look, lookAlts_mono h alts h1, Option.bind_some, h.block _ _ h2]
    rfl
  | rep f e =>
    rw [look, Option.bind_eq_some_iff] at hx
    obtain ⟨y, h1, h2⟩ := hx
    rw [Option.map_eq_some_iff] at h2
    obtain ⟨X, h2, rfl⟩ := h2
    rw [look, look_mono h e h1, Option.bind_some, h.cache _ _ _ h2]
    rfl
theorem lookSeq_mono {s s' : ProdState} (h : Grow s s') (es : List Elem) {β : List Item}
    (hx : lookSeq s es = some β) : lookSeq s' es = some β := by
  cases es with
  | nil => exact hx
  | cons e es =>
    rw [lookSeq, Option.bind_eq_some_iff] at hx
    obtain ⟨y, h1, h2⟩ := hx
    rw [Option.map_eq_some_iff] at h2
    obtain ⟨γ, h2, rfl⟩ := h2
    rw [lookSeq, look_mono h e h1, Option.bind_some, lookSeq_mono h es h2]
    rfl
theorem lookAlts_mono {s s' : ProdState} (h : Grow s s') (as : List (List Elem)) {rs : List (List Item)}
    (hx : lookAlts s as = some rs) : lookAlts s' as = some rs := by
  cases as with
  | nil => exact hx
  | cons a as =>
    rw [lookAlts, Option.bind_eq_some_iff] at hx
    obtain ⟨y, h1, h2⟩ := hx
    rw [Option.map_eq_some_iff] at h2
    obtain ⟨γ, h2, rfl⟩ := h2
    rw [lookAlts, lookSeq_mono h a h1, Option.bind_some, lookAlts_mono h as h2]
    rfl
end

mutual
theorem Used.mono {s s' : ProdState} (h : Grow s s') (e : Elem) (hx : Used s e) : Used s' e := by
  cases e with
  | tok n => trivial
  | ref n => trivial
  | group alts => rw [Used] at hx ⊢; exact UsedAlts.mono h alts hx
  | rep f e =>
    rw [Used] at hx ⊢
    obtain ⟨h1, x, h2, h3⟩ := hx
    exact ⟨Used.mono h e h1, x, look_mono h e h2, h.uses _ h3⟩
theorem UsedSeq.mono {s s' : ProdState} (h : Grow s s') (es : List Elem) (hx : UsedSeq s es) : UsedSeq s' es := by
  cases es with
  | nil => trivial
  | cons e es => rw [UsedSeq] at hx ⊢; exact ⟨Used.mono h e hx.1, UsedSeq.mono h es hx.2⟩
theorem UsedAlts.mono {s s' : ProdState} (h : Grow s s') (as : List (List Elem)) (hx : UsedAlts s as) :
    UsedAlts s' as := by
  cases as with
  | nil => trivial
  | cons a as => rw [UsedAlts] at hx ⊢; exact ⟨UsedSeq.mono h a hx.1, UsedAlts.mono h as hx.2⟩
end

/-- invariant of the caches and of the messages about blocks -/
structure CInv (s : ProdState) : Prop where
  cacheInj : ∀ f i g j X, (s.cache f).get i = some X → (s.cache g).get j = some X → f = g ∧ i = j
  blockInj : ∀ rs rs' X, s.blockCache.get rs = some X → s.blockCache.get rs' = some X → rs = rs'
  sep : ∀ f i rs X, (s.cache f).get i = some X → s.blockCache.get rs = some X → False
  bad : blockTwice ∈ s.out ↔ ∃ rs X, s.blockCache.get rs = some X ∧ ¬ rs.Nodup

section
variable {E : Env} {N : Finset Nat}

mutual
/-- without collisions different elements have different items -/
theorem look_inj {s : ProdState} (h : RunInv E N s) (c : CInv s) (hc : NoClash s.uses)
    (ht : ∀ n m a, E.tok n = some a → E.tok m = some a → n = m) (e e' : Elem) {x : Item} (hu : Used s e)
    (hu' : Used s e') (h1 : look s e = some x) (h2 : look s e' = some x) : e = e' := by
  cases e with
  | tok n =>
    rw [look, Option.map_eq_some_iff] at h1
    obtain ⟨a, h1, rfl⟩ := h1
    cases e' with
    | tok m =>
      rw [look, Option.map_eq_some_iff] at h2
      obtain ⟨b, h2, hb⟩ := h2
      cases hb
      rw [h.tok] at h1 h2
      rw [ht n m a h1 h2]
    | ref m =>
      rw [look, Option.map_eq_some_iff] at h2
      obtain ⟨b, _, hb⟩ := h2
      cases hb
    | group alts =>
      rw [look, Option.bind_eq_some_iff] at h2
      obtain ⟨b, _, hb⟩ := h2
      rw [Option.map_eq_some_iff] at hb
      obtain ⟨_, _, hb⟩ := hb
      cases hb
    | rep f e0 =>
      rw [look, Option.bind_eq_some_iff] at h2
      obtain ⟨b, _, hb⟩ := h2
      rw [Option.map_eq_some_iff] at hb
      obtain ⟨_, _, hb⟩ := hb
      cases hb
  | ref n =>
    rw [look, Option.map_eq_some_iff] at h1
    obtain ⟨A, h1, rfl⟩ := h1
    rw [h.nt] at h1
    have hlt := h.old A (h.ntOk n A h1)
    cases e' with
    | tok m =>
      rw [look, Option.map_eq_some_iff] at h2
      obtain ⟨b, _, hb⟩ := h2
      cases hb
    | ref m =>
      rw [look, Option.map_eq_some_iff] at h2
      obtain ⟨b, h2, hb⟩ := h2
      cases hb
      rw [h.nt] at h2
      rw [h.inj n m A h1 h2]
    | group alts =>
      rw [look, Option.bind_eq_some_iff] at h2
      obtain ⟨b, _, hb⟩ := h2
      rw [Option.map_eq_some_iff] at hb
      obtain ⟨X, h3, hb⟩ := hb
      cases hb
      have := (h.block _ _ h3).1
      omega
    | rep f e0 =>
      rw [look, Option.bind_eq_some_iff] at h2
      obtain ⟨b, _, hb⟩ := h2
      rw [Option.map_eq_some_iff] at hb
      obtain ⟨X, h3, hb⟩ := hb
      cases hb
      have := (h.cache _ _ _ h3).1
      omega
  | group alts =>
    rw [look, Option.bind_eq_some_iff] at h1
    obtain ⟨rs, h1, hb⟩ := h1
    rw [Option.map_eq_some_iff] at hb
    obtain ⟨X, h3, rfl⟩ := hb
    have hlt := (h.block _ _ h3).1
    cases e' with
    | tok m =>
      rw [look, Option.map_eq_some_iff] at h2
      obtain ⟨b, _, hb⟩ := h2
      cases hb
    | ref m =>
      rw [look, Option.map_eq_some_iff] at h2
      obtain ⟨b, h2, hb⟩ := h2
      cases hb
      rw [h.nt] at h2
      have := h.old _ (h.ntOk m _ h2)
      omega
    | group alts' =>
      rw [look, Option.bind_eq_some_iff] at h2
      obtain ⟨rs', h2, hb⟩ := h2
      rw [Option.map_eq_some_iff] at hb
      obtain ⟨X', h4, hb⟩ := hb
      cases hb
      have := c.blockInj _ _ _ h3 h4
      subst this
      rw [Used] at hu hu'
      rw [lookAlts_inj h c hc ht alts alts' hu hu' h1 h2]
    | rep f e0 =>
      rw [look, Option.bind_eq_some_iff] at h2
      obtain ⟨b, _, hb⟩ := h2
      rw [Option.map_eq_some_iff] at hb
      obtain ⟨X', h4, hb⟩ := hb
      cases hb
      exact (c.sep _ _ _ _ h4 h3).elim
  | rep f e0 =>
    rw [look, Option.bind_eq_some_iff] at h1
    obtain ⟨y, h1, hb⟩ := h1
    rw [Option.map_eq_some_iff] at hb
    obtain ⟨X, h3, rfl⟩ := hb
    have hlt := (h.cache _ _ _ h3).1
    cases e' with
    | tok m =>
      rw [look, Option.map_eq_some_iff] at h2
      obtain ⟨b, _, hb⟩ := h2
      cases hb
    | ref m =>
      rw [look, Option.map_eq_some_iff] at h2
      obtain ⟨b, h2, hb⟩ := h2
      cases hb
      rw [h.nt] at h2
      have := h.old _ (h.ntOk m _ h2)
      omega
    | group alts' =>
      rw [look, Option.bind_eq_some_iff] at h2
      obtain ⟨rs', h2, hb⟩ := h2
      rw [Option.map_eq_some_iff] at hb
      obtain ⟨X', h4, hb⟩ := hb
      cases hb
      exact (c.sep _ _ _ _ h3 h4).elim
    | rep g e1 =>
      rw [look, Option.bind_eq_some_iff] at h2
      obtain ⟨z, h2, hb⟩ := h2
      rw [Option.map_eq_some_iff] at hb
      obtain ⟨X', h4, hb⟩ := hb
      cases hb
      obtain ⟨rfl, hyz⟩ := c.cacheInj _ _ _ _ _ h3 h4
      rw [Used] at hu hu'
      obtain ⟨hu, y', hy', hmem⟩ := hu
      obtain ⟨hu', z', hz', hmem'⟩ := hu'
      cases h1.symm.trans hy'
      cases h2.symm.trans hz'
      have := hc f y z hmem hmem' hyz
      subst this
      rw [look_inj h c hc ht e0 e1 hu hu' h1 h2]
theorem lookSeq_inj {s : ProdState} (h : RunInv E N s) (c : CInv s) (hc : NoClash s.uses)
    (ht : ∀ n m a, E.tok n = some a → E.tok m = some a → n = m) (e e' : List Elem) {x : List Item}
    (hu : UsedSeq s e) (hu' : UsedSeq s e') (h1 : lookSeq s e = some x) (h2 : lookSeq s e' = some x) : e = e' := by
  cases e with
  | nil =>
    rw [lookSeq] at h1
    cases h1
    cases e' with
    | nil => rfl
    | cons a as =>
      rw [lookSeq, Option.bind_eq_some_iff] at h2
      obtain ⟨z, h2, hb⟩ := h2
      rw [Option.map_eq_some_iff] at hb
      obtain ⟨_, _, hb⟩ := hb
      cases hb
  | cons b bs =>
    rw [lookSeq, Option.bind_eq_some_iff] at h1
    obtain ⟨y, h1, hb⟩ := h1
    rw [Option.map_eq_some_iff] at hb
    obtain ⟨γ, h3, rfl⟩ := hb
    cases e' with
    | nil => rw [lookSeq] at h2; cases h2
    | cons a as =>
      rw [lookSeq, Option.bind_eq_some_iff] at h2
      obtain ⟨z, h2, hb⟩ := h2
      rw [Option.map_eq_some_iff] at hb
      obtain ⟨γ', h4, hb⟩ := hb
      cases hb
      rw [UsedSeq] at hu hu'
      rw [look_inj h c hc ht b a hu.1 hu'.1 h1 h2, lookSeq_inj h c hc ht bs as hu.2 hu'.2 h3 h4]
theorem lookAlts_inj {s : ProdState} (h : RunInv E N s) (c : CInv s) (hc : NoClash s.uses)
    (ht : ∀ n m a, E.tok n = some a → E.tok m = some a → n = m) (e e' : List (List Elem)) {x : List (List Item)}
    (hu : UsedAlts s e) (hu' : UsedAlts s e') (h1 : lookAlts s e = some x) (h2 : lookAlts s e' = some x) :
    e = e' := by
  cases e with
  | nil =>
    rw [lookAlts] at h1
    cases h1
    cases e' with
    | nil => rfl
    | cons a as =>
      rw [lookAlts, Option.bind_eq_some_iff] at h2
      obtain ⟨z, h2, hb⟩ := h2
      rw [Option.map_eq_some_iff] at hb
      obtain ⟨_, _, hb⟩ := hb
      cases hb
  | cons b bs =>
    rw [lookAlts, Option.bind_eq_some_iff] at h1
    obtain ⟨y, h1, hb⟩ := h1
    rw [Option.map_eq_some_iff] at hb
    obtain ⟨γ, h3, rfl⟩ := hb
    cases e' with
    | nil => rw [lookAlts] at h2; cases h2
    | cons a as =>
      rw [lookAlts, Option.bind_eq_some_iff] at h2
      obtain ⟨z, h2, hb⟩ := h2
      rw [Option.map_eq_some_iff] at hb
      obtain ⟨γ', h4, hb⟩ := hb
      cases hb
      rw [UsedAlts] at hu hu'
      rw [lookSeq_inj h c hc ht b a hu.1 hu'.1 h1 h2, lookAlts_inj h c hc ht bs as hu.2 hu'.2 h3 h4]
end

/-- one step of the elaboration: `gs` are the blocks translated -/
structure CStep (gs : List (List (List Elem))) (s s' : ProdState) : Prop where
  grow : Grow s s'
  inv : CInv s'
  has : ∀ alts ∈ gs, UsedAlts s' alts ∧ ∃ rs X, lookAlts s' alts = some rs ∧ s'.blockCache.get rs = some X
  src : ∀ rs X, s'.blockCache.get rs = some X → s.blockCache.get rs = some X ∨
    ∃ alts ∈ gs, UsedAlts s' alts ∧ lookAlts s' alts = some rs

theorem CStep.refl {s : ProdState} (c : CInv s) : CStep [] s s :=
  ⟨.refl s, c, by simp, fun _ _ h => .inl h⟩

theorem CStep.trans {gs gs' gs'' : List (List (List Elem))} {s s' s'' : ProdState} (h : CStep gs s s')
    (h' : CStep gs' s' s'') (hg : ∀ x, x ∈ gs'' ↔ x ∈ gs ∨ x ∈ gs') : CStep gs'' s s'' := by
  refine ⟨h.grow.trans h'.grow, h'.inv, ?_, ?_⟩
  · intro alts ha
    rcases (hg alts).1 ha with h1 | h1
    · obtain ⟨h2, rs, X, h3, h4⟩ := h.has alts h1
      exact ⟨h2.mono h'.grow, rs, X, lookAlts_mono h'.grow alts h3, h'.grow.block rs X h4⟩
    · exact h'.has alts h1
  · intro rs X hX
    rcases h'.src rs X hX with h1 | ⟨alts, h1, h2, h3⟩
    · rcases h.src rs X h1 with h1 | ⟨alts, h1, h2, h3⟩
      · exact .inl h1
      · exact .inr ⟨alts, (hg alts).2 (.inl h1), h2.mono h'.grow, lookAlts_mono h'.grow alts h3⟩
    · exact .inr ⟨alts, (hg alts).2 (.inr h1), h2, h3⟩

/-- the messages of inserting the alternatives of a new block -/
theorem foldl_out (X : Nat) (rs : List (List Item)) (s : ProdState) :
    ∃ k, (rs.foldl (fun s right => s.insertOrPrint ⟨X, right⟩ blockTwice) s).out =
        s.out ++ List.replicate k blockTwice ∧
      (k = 0 ↔ rs.Nodup ∧ ∀ β ∈ rs, (⟨X, β⟩ : Production) ∉ s.grammar.productions) := by
  induction rs generalizing s with
  | nil => exact ⟨0, by simp, by simp⟩
  | cons r rs ih =>
    obtain ⟨k, h1, h2⟩ := ih (s.insertOrPrint ⟨X, r⟩ blockTwice)
    have hm : ∀ q, q ∈ (s.insertOrPrint ⟨X, r⟩ blockTwice).grammar.productions ↔
        q ∈ s.grammar.productions ∨ q = ⟨X, r⟩ := mem_insertProduction _ _
    simp only [List.foldl_cons]
    by_cases hp : (⟨X, r⟩ : Production) ∈ s.grammar.productions
    · refine ⟨k + 1, ?_, ?_⟩
      · rw [h1]
        have : (s.insertOrPrint ⟨X, r⟩ blockTwice).out = s.out ++ [blockTwice] := by
          simp [ProdState.insertOrPrint, Grammar.insertProduction, hp]
        rw [this, List.append_assoc, List.replicate_succ]
        rfl
      · constructor
        · intro h; omega
        · exact fun h => absurd hp (h.2 r List.mem_cons_self)
    · refine ⟨k, ?_, ?_⟩
      · rw [h1]
        have : (s.insertOrPrint ⟨X, r⟩ blockTwice).out = s.out := by
          simp [ProdState.insertOrPrint, Grammar.insertProduction, hp]
        rw [this]
      · rw [h2]
        simp only [hm, not_or, List.nodup_cons, List.mem_cons, forall_eq_or_imp]
        constructor
        · rintro ⟨a, b⟩
          exact ⟨⟨fun hr => (b r hr).2 rfl, a⟩, hp, fun β hβ => (b β hβ).1⟩
        · rintro ⟨⟨a, b⟩, _, d⟩
          refine ⟨b, fun β hβ => ⟨d β hβ, ?_⟩⟩
          intro he
          cases he
          exact a hβ

theorem finishBlock_step {s : ProdState} (h : RunInv E N s) (c : CInv s) {alts : List (List Elem)}
    {rs : List (List Item)} (hl : lookAlts s alts = some rs) (hu : UsedAlts s alts) :
    CStep [alts] s (finishBlock rs s).2 ∧ (finishBlock rs s).2.blockCache.get rs = some (finishBlock rs s).1 ∧
      ∃ k, (finishBlock rs s).2.out = s.out ++ List.replicate k blockTwice := by
  rw [finishBlock]
  cases hb : s.blockCache.get rs with
  | some id =>
    refine ⟨⟨.refl _, c, ?_, fun _ _ h => .inl h⟩, hb, 0, by simp⟩
    intro as ha
    rw [List.mem_singleton] at ha
    subst ha
    exact ⟨hu, rs, id, hl, hb⟩
  | none =>
    simp only
    generalize hs1 : ({ s.addUnnamed s.nextRuleId with
      blockCache := (s.addUnnamed s.nextRuleId).blockCache.insert rs s.nextRuleId } : ProdState) = s1
    obtain ⟨k, hk1, hk2⟩ := foldl_out s.nextRuleId rs s1
    obtain ⟨_, _, f3, f4⟩ := foldl_insertProd s.nextRuleId rs s1
    rw [show (chars! "重复产生式") = blockTwice from rfl] at f3 f4 ⊢
    generalize hS : rs.foldl (fun s' right => s'.insertOrPrint ⟨s.nextRuleId, right⟩ blockTwice) s1 = S at *
    have hbl : S.blockCache = s.blockCache.insert rs s.nextRuleId := by rw [f4, ← hs1]; rfl
    have hca : ∀ f, S.cache f = s.cache f := by intro f; rw [f4, ← hs1]; cases f <;> rfl
    have hus : S.uses = s.uses := by rw [f4, ← hs1]; rfl
    have hvo : S.grammar.vocabulary = (s.grammar.vocabulary.addUnnamedNonterminal s.nextRuleId).1 := by
      rw [f3, ← hs1]; rfl
    rw [h.addUnnamed_eq] at hvo
    have hso : s1.out = s.out := by rw [← hs1]; rfl
    have hsp : s1.grammar.productions = s.grammar.productions := by rw [← hs1]; rfl
    have hgrow : Grow s S := by
      refine ⟨fun n => by rw [hvo]; rfl, fun n => by rw [hvo]; rfl, fun f i X hX => by rw [hca]; exact hX, ?_,
        fun u hu => by rw [hus]; exact hu⟩
      intro rs' X hX
      rw [hbl, HMap.get_insert]
      split
      · rename_i he
        rw [← he, hb] at hX
        cases hX
      · exact hX
    have hget : S.blockCache.get rs = some s.nextRuleId := by rw [hbl, HMap.get_insert_self]
    have hcase : ∀ rs' X, S.blockCache.get rs' = some X → (rs' = rs ∧ X = s.nextRuleId) ∨
        s.blockCache.get rs' = some X := by
      intro rs' X hX
      rw [hbl, HMap.get_insert] at hX
      split at hX
      · rename_i he
        cases hX
        exact .inl ⟨he.symm, rfl⟩
      · exact .inr hX
    have hcinv : CInv S := by
      constructor
      · intro f i g j X h1 h2
        rw [hca] at h1 h2
        exact c.cacheInj f i g j X h1 h2
      · intro a b X ha hb'
        rcases hcase a X ha with ⟨rfl, rfl⟩ | ha
        · rcases hcase b _ hb' with ⟨rfl, _⟩ | hb'
          · rfl
          · exact absurd (h.block _ _ hb').2.1 (Nat.lt_irrefl _)
        · rcases hcase b _ hb' with ⟨rfl, rfl⟩ | hb'
          · exact absurd (h.block _ _ ha).2.1 (Nat.lt_irrefl _)
          · exact c.blockInj a b X ha hb'
      · intro f i rs' X h1 h2
        rw [hca] at h1
        rcases hcase rs' X h2 with ⟨rfl, rfl⟩ | h2
        · exact absurd (h.cache _ _ _ h1).2.1 (Nat.lt_irrefl _)
        · exact c.sep f i rs' X h1 h2
      · rw [hk1, hso, List.mem_append, c.bad]
        have hfresh : ∀ β ∈ rs, (⟨s.nextRuleId, β⟩ : Production) ∉ s1.grammar.productions := by
          intro β _ hm
          rw [hsp] at hm
          exact absurd (h.fresh _ hm) (Nat.lt_irrefl _)
        constructor
        · rintro (⟨rs', X, h1, h2⟩ | h1)
          · exact ⟨rs', X, hgrow.block _ _ h1, h2⟩
          · refine ⟨rs, _, hget, fun hn => ?_⟩
            rw [hk2.2 ⟨hn, hfresh⟩] at h1
            cases h1
        · rintro ⟨rs', X, h1, h2⟩
          rcases hcase rs' X h1 with ⟨rfl, rfl⟩ | h1
          · right
            rw [List.mem_replicate]
            exact ⟨fun h0 => h2 (hk2.1 h0).1, rfl⟩
          · exact .inl ⟨rs', X, h1, h2⟩
    have hnext : Grow S { S with nextRuleId := S.nextRuleId + 1 } :=
      ⟨fun _ => rfl, fun _ => rfl, fun f i X h => by cases f <;> exact h, fun _ _ h => h, fun _ h => h⟩
    have hl' := lookAlts_mono hnext alts (lookAlts_mono hgrow alts hl)
    have hu' := (hu.mono hgrow).mono hnext
    refine ⟨⟨⟨hgrow.tok, hgrow.nt, fun f i X h => by cases f <;> exact hgrow.cache _ i X h, hgrow.block, hgrow.uses⟩,
      ⟨fun f i g j X h1 h2 => hcinv.cacheInj f i g j X (by cases f <;> exact h1) (by cases g <;> exact h2),
        hcinv.blockInj, fun f i rs X h1 h2 => hcinv.sep f i rs X (by cases f <;> exact h1) h2, hcinv.bad⟩, ?_, ?_⟩,
      hget, k, hk1.trans (by rw [hso])⟩
    · intro as ha
      rw [List.mem_singleton] at ha
      subst ha
      exact ⟨hu', rs, _, hl', hget⟩
    · intro rs' X hX
      rcases hcase rs' X hX with ⟨rfl, rfl⟩ | h1
      · exact .inr ⟨alts, List.mem_singleton.2 rfl, hu', hl'⟩
      · exact .inl h1

theorem applySuffix_step (f : Suffix) (x : Item) {s : ProdState} (h : RunInv E N s) (c : CInv s) :
    CStep [] s (applySuffix f x s).2 ∧ (f, x) ∈ (applySuffix f x s).2.uses ∧ (applySuffix f x s).2.out = s.out ∧
      ∃ X, (applySuffix f x s).1 = .nt X ∧ ((applySuffix f x s).2.cache f).get x.bare = some X := by
  rw [applySuffix]
  cases hc : (ProdState.cache { s with uses := (f, x) :: s.uses } f).get x.bare with
  | some X =>
    simp only [hc]
    refine ⟨⟨⟨fun _ => rfl, fun _ => rfl, fun f i X h => by cases f <;> exact h, fun _ _ h => h,
      fun _ h => List.mem_cons_of_mem _ h⟩, ⟨fun f i g j X h1 h2 => c.cacheInj f i g j X (by cases f <;> exact h1)
      (by cases g <;> exact h2), c.blockInj, fun f i rs X h1 h2 => c.sep f i rs X (by cases f <;> exact h1) h2, c.bad⟩,
      by simp, fun _ _ h => .inl h⟩, List.mem_cons_self, trivial, X, rfl, rfl⟩
  | none =>
    simp only
    have hc' : (s.cache f).get x.bare = none := by cases f <;> exact hc
    generalize hs1 : (((({ s with uses := (f, x) :: s.uses } : ProdState).addUnnamed s.nextRuleId).insertProd
      ⟨s.nextRuleId, (suffixRights f x s.nextRuleId).1⟩).insertProd
      ⟨s.nextRuleId, (suffixRights f x s.nextRuleId).2⟩) = s1
    have hg : s1.grammar.vocabulary = (s.grammar.vocabulary.addUnnamedNonterminal s.nextRuleId).1 := by
      rw [← hs1]
      simp only [ProdState.insertProd, insertProduction_vocabulary]
      rfl
    rw [h.addUnnamed_eq] at hg
    have hca1 : ∀ g, s1.cache g = s.cache g := by intro g; rw [← hs1]; cases g <;> rfl
    have hbl1 : s1.blockCache = s.blockCache := by rw [← hs1]; rfl
    have hus1 : s1.uses = (f, x) :: s.uses := by rw [← hs1]; rfl
    have hou1 : s1.out = s.out := by rw [← hs1]; rfl
    obtain ⟨e1, e2, e3, e4, e5⟩ := setCache_fields s1 f x.bare s.nextRuleId
    have e6 : (s1.setCache f x.bare s.nextRuleId).out = s1.out := by cases f <;> rfl
    have e7 : ∀ g, (s1.setCache f x.bare s.nextRuleId).cache g =
        if f = g then (s.cache g).insert x.bare s.nextRuleId else s.cache g := by
      intro g
      rw [cache_setCache, hca1]
    generalize s1.setCache f x.bare s.nextRuleId = S at e1 e2 e3 e4 e5 e6 e7
    have hget : ∀ g i X, (S.cache g).get i = some X ↔
        (g = f ∧ i = x.bare ∧ X = s.nextRuleId) ∨ (s.cache g).get i = some X := by
      intro g i X
      rw [e7]
      by_cases hfg : f = g
      · subst hfg
        rw [if_pos rfl, HMap.get_insert]
        by_cases hi : x.bare = i
        · subst hi
          rw [if_pos rfl, hc']
          simp [eq_comm]
        · rw [if_neg hi]
          simp [Ne.symm hi]
      · rw [if_neg hfg]
        simp [Ne.symm hfg]
    refine ⟨⟨⟨fun n => ?_, fun n => ?_, fun g i X hX => ?_, fun rs X hX => ?_, fun u hu => ?_⟩,
      ⟨fun g i g' j X h1 h2 => ?_, fun rs rs' X h1 h2 => ?_, fun g i rs X h1 h2 => ?_, ?_⟩, by simp,
      fun rs X hX => .inl ?_⟩, ?_, e6.trans hou1, _, rfl, ?_⟩
    · show S.grammar.vocabulary.getTerminalIdByName n = _
      rw [e1, hg]; rfl
    · show S.grammar.vocabulary.getNonterminalIdByName n = _
      rw [e1, hg]; rfl
    · have : (S.cache g).get i = some X := (hget g i X).2 (.inr hX)
      cases g <;> exact this
    · show S.blockCache.get rs = some X
      rw [e4, hbl1]; exact hX
    · show u ∈ S.uses
      rw [e3, hus1]; exact List.mem_cons_of_mem _ hu
    · have h1 : (S.cache g).get i = some X := by cases g <;> exact h1
      have h2 : (S.cache g').get j = some X := by cases g' <;> exact h2
      rw [hget] at h1 h2
      rcases h1 with ⟨rfl, rfl, rfl⟩ | h1
      · rcases h2 with ⟨rfl, rfl, _⟩ | h2
        · exact ⟨rfl, rfl⟩
        · exact absurd (h.cache _ _ _ h2).2.1 (Nat.lt_irrefl _)
      · rcases h2 with ⟨rfl, rfl, rfl⟩ | h2
        · exact absurd (h.cache _ _ _ h1).2.1 (Nat.lt_irrefl _)
        · exact c.cacheInj _ _ _ _ _ h1 h2
    · have h1 : S.blockCache.get rs = some X := h1
      have h2 : S.blockCache.get rs' = some X := h2
      rw [e4, hbl1] at h1 h2
      exact c.blockInj _ _ _ h1 h2
    · have h1 : (S.cache g).get i = some X := by cases g <;> exact h1
      have h2 : S.blockCache.get rs = some X := h2
      rw [e4, hbl1] at h2
      rw [hget] at h1
      rcases h1 with ⟨rfl, rfl, rfl⟩ | h1
      · exact absurd (h.block _ _ h2).2.1 (Nat.lt_irrefl _)
      · exact c.sep _ _ _ _ h1 h2
    · show blockTwice ∈ S.out ↔ ∃ rs X, S.blockCache.get rs = some X ∧ _
      rw [e6, hou1, e4, hbl1]
      exact c.bad
    · have hX : S.blockCache.get rs = some X := hX
      rwa [e4, hbl1] at hX
    · show (f, x) ∈ S.uses
      rw [e3, hus1]
      exact List.mem_cons_self
    · have : (S.cache f).get x.bare = some s.nextRuleId := (hget _ _ _).2 (.inl ⟨rfl, rfl, rfl⟩)
      cases f <;> exact this

mutual
/-- translating an element: the caches know it afterwards -/
theorem elabElem_step (e : Elem) {s s' : ProdState} {x : Item} (h : RunInv E N s) (c : CInv s)
    (hr : elabElem e s = .ok (x, s')) :
    CStep e.groups s s' ∧ look s' e = some x ∧ Used s' e ∧ ∃ k, s'.out = s.out ++ List.replicate k blockTwice := by
  cases e with
  | tok n =>
    rw [elabElem, bind_eq_ok] at hr
    obtain ⟨a, ha, hr⟩ := hr
    cases hr
    rw [unwrap_eq_ok] at ha
    exact ⟨.refl c, by rw [look, ha]; rfl, trivial, 0, by simp⟩
  | ref n =>
    rw [elabElem, bind_eq_ok] at hr
    obtain ⟨a, ha, hr⟩ := hr
    cases hr
    rw [unwrap_eq_ok] at ha
    exact ⟨.refl c, by rw [look, ha]; rfl, trivial, 0, by simp⟩
  | group alts =>
    rw [elabElem, bind_eq_ok] at hr
    obtain ⟨⟨rs, s1⟩, ha, hr⟩ := hr
    obtain ⟨h1, h2, h3, k, h4⟩ := elabAlts_step alts h c ha
    obtain ⟨g1, g2, k', g3⟩ := finishBlock_step (elabAlts_inv alts h ha).1 h1.inv h2 h3
    cases hr
    refine ⟨h1.trans g1 (fun y => ?_), ?_, ?_, k + k', ?_⟩
    · rw [Elem.groups, List.mem_cons, List.mem_singleton, or_comm]
    · rw [look, lookAlts_mono g1.grow alts h2, Option.bind_some, g2]; rfl
    · rw [Used]; exact h3.mono g1.grow
    · rw [g3, h4, List.append_assoc, List.replicate_append_replicate]
  | rep f e =>
    rw [elabElem, bind_eq_ok] at hr
    obtain ⟨⟨y, s1⟩, ha, hr⟩ := hr
    obtain ⟨h1, h2, h3, k, h4⟩ := elabElem_step e h c ha
    obtain ⟨g1, g2, g3, X, g4, g5⟩ := applySuffix_step f y (elabElem_inv e h ha).1 h1.inv
    have hr : applySuffix f y s1 = (x, s') := Except.ok.inj hr
    rw [hr] at g1 g2 g3 g4 g5
    dsimp only at g1 g2 g3 g4 g5
    subst g4
    refine ⟨h1.trans g1 (fun z => by simp [Elem.groups]), ?_, ?_, k, g3.trans h4⟩
    · rw [look, look_mono g1.grow e h2, Option.bind_some, g5]; rfl
    · rw [Used]; exact ⟨h3.mono g1.grow, y, look_mono g1.grow e h2, g2⟩
theorem elabSeq_step (es : List Elem) {s s' : ProdState} {β : List Item} (h : RunInv E N s) (c : CInv s)
    (hr : elabSeq es s = .ok (β, s')) :
    CStep (seqGroups es) s s' ∧ lookSeq s' es = some β ∧ UsedSeq s' es ∧
      ∃ k, s'.out = s.out ++ List.replicate k blockTwice := by
  cases es with
  | nil => rw [elabSeq] at hr; cases hr; exact ⟨.refl c, rfl, trivial, 0, by simp⟩
  | cons e es =>
    rw [elabSeq, bind_eq_ok] at hr
    obtain ⟨⟨x, s1⟩, ha, hr⟩ := hr
    rw [bind_eq_ok] at hr
    obtain ⟨⟨α', s2⟩, hb, hr⟩ := hr
    cases hr
    obtain ⟨h1, h2, h3, k, h4⟩ := elabElem_step e h c ha
    obtain ⟨g1, g2, g3, k', g4⟩ := elabSeq_step es (elabElem_inv e h ha).1 h1.inv hb
    refine ⟨h1.trans g1 (fun z => by rw [seqGroups, List.mem_append]), ?_, ?_, k + k', ?_⟩
    · rw [lookSeq, look_mono g1.grow e h2, Option.bind_some, g2]; rfl
    · rw [UsedSeq]; exact ⟨h3.mono g1.grow, g3⟩
    · rw [g4, h4, List.append_assoc, List.replicate_append_replicate]
theorem elabAlts_step (as : List (List Elem)) {s s' : ProdState} {rs : List (List Item)} (h : RunInv E N s)
    (c : CInv s) (hr : elabAlts as s = .ok (rs, s')) :
    CStep (altsGroups as) s s' ∧ lookAlts s' as = some rs ∧ UsedAlts s' as ∧
      ∃ k, s'.out = s.out ++ List.replicate k blockTwice := by
  cases as with
  | nil => rw [elabAlts] at hr; cases hr; exact ⟨.refl c, rfl, trivial, 0, by simp⟩
  | cons a as =>
    rw [elabAlts, bind_eq_ok] at hr
    obtain ⟨⟨β, s1⟩, ha, hr⟩ := hr
    rw [bind_eq_ok] at hr
    obtain ⟨⟨rs', s2⟩, hb, hr⟩ := hr
    cases hr
    obtain ⟨h1, h2, h3, k, h4⟩ := elabSeq_step a h c ha
    obtain ⟨g1, g2, g3, k', g4⟩ := elabAlts_step as (elabSeq_inv a h ha).1 h1.inv hb
    refine ⟨h1.trans g1 (fun z => by rw [altsGroups, List.mem_append]), ?_, ?_, k + k', ?_⟩
    · rw [lookAlts, lookSeq_mono g1.grow a h2, Option.bind_some, g2]; rfl
    · rw [UsedAlts]; exact ⟨h3.mono g1.grow, g3⟩
    · rw [g4, h4, List.append_assoc, List.replicate_append_replicate]
end

/-- the number of productions of named rules -/
def namedCount (E : Env) (s : ProdState) : Nat :=
  s.grammar.productions.countP fun p => decide (p.left < E.base)

theorem namedCount_ext {s s' : ProdState} (h : RunInv E N s) (h' : RunInv E N s') (he : Ext s s') :
    namedCount E s' = namedCount E s := by
  rw [namedCount, namedCount, List.countP_eq_length_filter, List.countP_eq_length_filter]
  refine List.Perm.length_eq ((List.perm_ext_iff_of_nodup (h'.nodup.filter _) (h.nodup.filter _)).2 fun p => ?_)
  simp only [List.mem_filter, decide_eq_true_eq]
  constructor
  · rintro ⟨h1, h2⟩
    exact ⟨(he.prods p.left p.right (Nat.lt_of_lt_of_le h2 h.le)).1 h1, h2⟩
  · rintro ⟨h1, h2⟩
    exact ⟨(he.prods p.left p.right (Nat.lt_of_lt_of_le h2 h.le)).2 h1, h2⟩

theorem insertOrPrint_step {s : ProdState} (c : CInv s) (p : Production) : CStep [] s (s.insertOrPrint p altTwice) := by
  have hv : (s.insertOrPrint p altTwice).grammar.vocabulary = s.grammar.vocabulary := insertProduction_vocabulary _ _
  refine ⟨⟨fun n => by rw [hv], fun n => by rw [hv], fun f i X h => by cases f <;> exact h, fun _ _ h => h, fun _ h => h⟩,
    ⟨fun f i g j X h1 h2 => c.cacheInj f i g j X (by cases f <;> exact h1) (by cases g <;> exact h2), c.blockInj,
    fun f i rs X h1 h2 => c.sep f i rs X (by cases f <;> exact h1) h2, ?_⟩, by simp, fun _ _ h => .inl h⟩
  refine Iff.trans ?_ c.bad
  simp only [ProdState.insertOrPrint]
  split
  · rfl
  · rw [List.mem_append, List.mem_singleton]
    simp only [altTwice_ne.symm, or_false]

theorem insertOrPrint_count {s : ProdState} {p : Production} (hp : p.left < E.base) :
    (s.insertOrPrint p altTwice).out.count altTwice + namedCount E (s.insertOrPrint p altTwice) =
      s.out.count altTwice + namedCount E s + 1 := by
  by_cases h : p ∈ s.grammar.productions
  · simp [ProdState.insertOrPrint, ProdState.insertProd, Grammar.insertProduction, h, namedCount]
    omega
  · simp [ProdState.insertOrPrint, ProdState.insertProd, Grammar.insertProduction, h, namedCount, hp]
    omega

theorem count_blockTwice (k : Nat) : (List.replicate k blockTwice).count altTwice = 0 := by
  rw [List.count_eq_zero]
  intro h
  exact altTwice_ne (List.mem_replicate.1 h).2

theorem elabNamed_step {A : Nat} (hA : A ∈ N) (as : List (List Elem)) {s s' : ProdState} (h : RunInv E N s)
    (c : CInv s) (hr : elabNamed A as s = .ok s') :
    CStep (altsGroups as) s s' ∧
      s'.out.count altTwice + namedCount E s' = s.out.count altTwice + namedCount E s + as.length ∧
      (∀ alt ∈ as, UsedSeq s' alt ∧ ∃ β, lookSeq s' alt = some β ∧ (⟨A, β⟩ : Production) ∈ s'.grammar.productions) ∧
      (∀ B β, B < E.base → (⟨B, β⟩ : Production) ∈ s'.grammar.productions →
        (⟨B, β⟩ : Production) ∈ s.grammar.productions ∨ B = A ∧ ∃ alt ∈ as, lookSeq s' alt = some β) := by
  induction as generalizing s with
  | nil =>
    rw [elabNamed] at hr
    cases hr
    exact ⟨.refl c, by simp, by simp, fun _ _ _ h => .inl h⟩
  | cons a as ih =>
    rw [elabNamed, bind_eq_ok] at hr
    obtain ⟨⟨β, s1⟩, ha, hr⟩ := hr
    dsimp only at hr
    rw [show (chars! "产生式重复") = altTwice from rfl] at hr
    obtain ⟨h1, h2, h3, _⟩ := elabSeq_inv a h ha
    obtain ⟨c1, c2, c3, k, c4⟩ := elabSeq_step a h c ha
    obtain ⟨g1, g2⟩ := insertNamed_inv h1 hA β altTwice h3
    have d1 := insertOrPrint_step c1.inv ⟨A, β⟩
    have d2 := insertOrPrint_count (E := E) (s := s1) (p := ⟨A, β⟩) (h.old A hA)
    obtain ⟨k1, k2, k3, k4⟩ := ih g1 d1.inv hr
    have kE := (elabNamed_inv hA as g1 hr).2.1
    have hp : ∀ q, q ∈ (s1.insertOrPrint ⟨A, β⟩ altTwice).grammar.productions ↔ q ∈ s1.grammar.productions ∨ q = ⟨A, β⟩ :=
      mem_insertProduction _ _
    have hlook : lookSeq s' a = some β := lookSeq_mono k1.grow a (lookSeq_mono d1.grow a c2)
    refine ⟨(c1.trans d1 (gs'' := seqGroups a) (by simp)).trans k1 (fun z => by rw [altsGroups, List.mem_append]), ?_, ?_, ?_⟩
    · rw [namedCount_ext h h1 h2, c4, List.count_append, count_blockTwice] at d2
      rw [List.length_cons]
      omega
    · intro alt halt
      rcases List.mem_cons.1 halt with rfl | halt
      · exact ⟨(c3.mono d1.grow).mono k1.grow, β, hlook, kE.mono _ ((hp _).2 (.inr rfl))⟩
      · exact k3 alt halt
    · intro B γ hB hm
      rcases k4 B γ hB hm with h5 | ⟨h5, alt, h6, h7⟩
      · rcases (hp _).1 h5 with h5 | h5
        · exact .inl ((h2.prods B γ (Nat.lt_of_lt_of_le hB h.le)).1 h5)
        · cases h5
          exact .inr ⟨rfl, a, List.mem_cons_self, hlook⟩
      · exact .inr ⟨h5, alt, List.mem_cons_of_mem _ h6, h7⟩

theorem elabRules_step (D : Rules) {s s' : ProdState} (h : RunInv E N s) (c : CInv s) (hr : elabRules D s = .ok s') :
    CStep (D.flatMap fun r => altsGroups r.2) s s' ∧
      s'.out.count altTwice + namedCount E s' = s.out.count altTwice + namedCount E s + (writtenAlternatives D).length ∧
      (∀ w ∈ writtenAlternatives D, UsedSeq s' w.2 ∧ ∃ A β, E.nt w.1 = some A ∧ lookSeq s' w.2 = some β ∧
        (⟨A, β⟩ : Production) ∈ s'.grammar.productions) ∧
      (∀ B β, B < E.base → (⟨B, β⟩ : Production) ∈ s'.grammar.productions →
        (⟨B, β⟩ : Production) ∈ s.grammar.productions ∨
          ∃ w ∈ writtenAlternatives D, E.nt w.1 = some B ∧ lookSeq s' w.2 = some β) := by
  induction D generalizing s with
  | nil =>
    rw [elabRules] at hr
    cases hr
    exact ⟨.refl c, by simp [writtenAlternatives], by simp [writtenAlternatives], fun _ _ _ h => .inl h⟩
  | cons r D ih =>
    obtain ⟨n, alts⟩ := r
    rw [elabRules, bind_eq_ok] at hr
    obtain ⟨A, hA, hr⟩ := hr
    rw [unwrap_eq_ok, h.nt] at hA
    rw [bind_eq_ok] at hr
    obtain ⟨s1, h1, hr⟩ := hr
    obtain ⟨a1, a2, a3, a4⟩ := elabNamed_step (h.ntOk n A hA) alts h c h1
    have i1 := (elabNamed_inv (h.ntOk n A hA) alts h h1).1
    have i2 := (elabRules_inv D i1 hr).2.1
    obtain ⟨b1, b2, b3, b4⟩ := ih i1 a1.inv hr
    refine ⟨a1.trans b1 (fun z => by rw [List.flatMap_cons, List.mem_append]), ?_, ?_, ?_⟩
    · simp only [writtenAlternatives, List.flatMap_cons, List.length_append, List.length_map] at b2 ⊢
      omega
    · intro w hw
      simp only [writtenAlternatives, List.flatMap_cons, List.mem_append, List.mem_map] at hw
      rcases hw with ⟨alt, halt, rfl⟩ | hw
      · obtain ⟨e1, β, e2, e3⟩ := a3 alt halt
        exact ⟨e1.mono b1.grow, A, β, hA, lookSeq_mono b1.grow alt e2, i2.mono _ e3⟩
      · exact b3 w hw
    · intro B β hB hm
      simp only [writtenAlternatives, List.flatMap_cons, List.mem_append, List.mem_map]
      rcases b4 B β hB hm with h5 | ⟨w, h5, h6⟩
      · rcases a4 B β hB h5 with h5 | ⟨rfl, alt, h5, h6⟩
        · exact .inl h5
        · exact .inr ⟨(n, alt), .inl ⟨alt, h5, rfl⟩, hA, lookSeq_mono b1.grow alt h6⟩
      · exact .inr ⟨w, .inr h5, h6⟩

end

end Syntaxis
