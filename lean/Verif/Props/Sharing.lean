import Verif.Lemmas.Sharing
import Verif.Props.Desugar

/-!
# C86: the grammar that is built, for every file

`C83` describes the built grammar when no suffix is applied both to a token and to something else.  Here is what is
built in general: a repetition whose suffix was applied before to something with the same number repeats that instead.
-/

namespace Syntaxis
open Grammar

variable {lc : LexConsts} {ast : RuleContext} {name : Str} {n0 r0 fuel : Nat}

theorem bare_number (x : Item) : x.number = x.bare := by cases x <;> rfl

theorem uinv_init (g : Grammar) (k : Nat) : UInv (ProdState.new g k) where
  first f i X h := by cases f <;> cases h
  used f x h := by cases h

theorem lookAlts_itemOf {s : ProdState} {as : List (List Elem)} (h : ∀ a ∈ as, ∀ e ∈ a, ∃ x, look s e = some x) :
    lookAlts s as = some (as.map (List.map (itemOf s))) := by
  induction as with
  | nil => rfl
  | cons a as ih =>
    rw [lookAlts, lookSeq_itemOf (h a (by simp)), Option.bind_some, ih (fun b hb => h b (by simp [hb]))]
    rfl

/-- which elements have the same item -/
theorem look_merged {E : Env} {N : Finset Nat} {s : ProdState} (h : RunInv E N s) (c : CInv s)
    (ht : ∀ n m a, E.tok n = some a → E.tok m = some a → n = m) (e e' : Elem) {x x' : Item}
    (hp : ∀ y ∈ e.parts, ∃ z, look s y = some z) (hp' : ∀ y ∈ e'.parts, ∃ z, look s y = some z)
    (h1 : look s e = some x) (h2 : look s e' = some x') : x = x' ↔ Merged (itemOf s) e e' := by
  have kids : ∀ alts : List (List Elem), (∀ y ∈ (Elem.group alts).parts, ∃ z, look s y = some z) →
      ∀ a ∈ alts, ∀ y ∈ a, ∃ z, look s y = some z := by
    intro alts hp a ha y hy
    refine hp y ?_
    rw [Elem.parts]
    exact List.mem_cons_of_mem _ (mem_altsParts.2 ⟨a, ha, y, hy, mem_parts_self y⟩)
  have inv : ∀ (e : Elem) {x : Item}, look s e = some x → match e with
      | .tok n => ∃ a, x = .t a ∧ E.tok n = some a
      | .ref n => ∃ A, x = .nt A ∧ E.nt n = some A ∧ A < E.base
      | .group alts => ∃ A rs, x = .nt A ∧ lookAlts s alts = some rs ∧ s.blockCache.get rs = some A ∧ E.base ≤ A
      | .rep f e => ∃ A y, x = .nt A ∧ look s e = some y ∧ (s.cache f).get y.bare = some A ∧ E.base ≤ A := by
    intro e x hx
    cases e with
    | tok n =>
      rw [look, Option.map_eq_some_iff] at hx
      obtain ⟨a, ha, rfl⟩ := hx
      exact ⟨a, rfl, by rw [← h.tok]; exact ha⟩
    | ref n =>
      rw [look, Option.map_eq_some_iff] at hx
      obtain ⟨a, ha, rfl⟩ := hx
      rw [h.nt] at ha
      exact ⟨a, rfl, ha, h.old a (h.ntOk n a ha)⟩
    | group alts =>
      rw [look, Option.bind_eq_some_iff] at hx
      obtain ⟨rs, h3, hx⟩ := hx
      rw [Option.map_eq_some_iff] at hx
      obtain ⟨a, ha, rfl⟩ := hx
      exact ⟨a, rs, rfl, h3, ha, (h.block _ _ ha).1⟩
    | rep f e =>
      rw [look, Option.bind_eq_some_iff] at hx
      obtain ⟨y, h3, hx⟩ := hx
      rw [Option.map_eq_some_iff] at hx
      obtain ⟨a, ha, rfl⟩ := hx
      exact ⟨a, y, rfl, h3, ha, (h.cache _ _ _ ha).1⟩
  have i1 := inv e h1
  have i2 := inv e' h2
  cases e with
  | tok n =>
    obtain ⟨a, rfl, ha⟩ := i1
    cases e' with
    | tok m =>
      obtain ⟨b, rfl, hb⟩ := i2
      rw [Merged, Item.t.injEq]
      constructor
      · rintro rfl; exact ht n m a ha hb
      · rintro rfl; rw [ha] at hb; exact Option.some.inj hb
    | ref m => obtain ⟨B, rfl, _⟩ := i2; simp [Merged]
    | group bs => obtain ⟨B, _, rfl, _⟩ := i2; simp [Merged]
    | rep g b => obtain ⟨B, _, rfl, _⟩ := i2; simp [Merged]
  | ref n =>
    obtain ⟨A, rfl, hA, hlt⟩ := i1
    cases e' with
    | tok m => obtain ⟨B, rfl, _⟩ := i2; simp [Merged]
    | ref m =>
      obtain ⟨B, rfl, hB, _⟩ := i2
      rw [Merged, Item.nt.injEq]
      constructor
      · rintro rfl; exact h.inj n m A hA hB
      · rintro rfl; rw [hA] at hB; exact Option.some.inj hB
    | group bs =>
      obtain ⟨B, _, rfl, _, _, hle⟩ := i2
      simp only [Merged, Item.nt.injEq, iff_false]
      omega
    | rep g b =>
      obtain ⟨B, _, rfl, _, _, hle⟩ := i2
      simp only [Merged, Item.nt.injEq, iff_false]
      omega
  | group as =>
    obtain ⟨A, rs, rfl, hl, hA, hle⟩ := i1
    cases e' with
    | tok m => obtain ⟨B, rfl, _⟩ := i2; simp [Merged]
    | ref m =>
      obtain ⟨B, rfl, _, hlt⟩ := i2
      simp only [Merged, Item.nt.injEq, iff_false]
      omega
    | group bs =>
      obtain ⟨B, rs', rfl, hl', hB, _⟩ := i2
      rw [Merged, Item.nt.injEq]
      rw [lookAlts_itemOf (kids as hp)] at hl
      rw [lookAlts_itemOf (kids bs hp')] at hl'
      cases hl
      cases hl'
      constructor
      · rintro rfl; exact c.blockInj _ _ _ hA hB
      · intro he; rw [he, hB] at hA; exact (Option.some.inj hA).symm
    | rep g b =>
      obtain ⟨B, y, rfl, _, hB, _⟩ := i2
      simp only [Merged, Item.nt.injEq, iff_false]
      rintro rfl
      exact c.sep _ _ _ _ hB hA
  | rep f a =>
    obtain ⟨A, y, rfl, hl, hA, hle⟩ := i1
    cases e' with
    | tok m => obtain ⟨B, rfl, _⟩ := i2; simp [Merged]
    | ref m =>
      obtain ⟨B, rfl, _, hlt⟩ := i2
      simp only [Merged, Item.nt.injEq, iff_false]
      omega
    | group bs =>
      obtain ⟨B, rs, rfl, _, hB, _⟩ := i2
      simp only [Merged, Item.nt.injEq, iff_false]
      rintro rfl
      exact c.sep _ _ _ _ hA hB
    | rep g b =>
      obtain ⟨B, z, rfl, hl', hB, _⟩ := i2
      rw [Merged, Item.nt.injEq, itemOf_eq hl, itemOf_eq hl', bare_number, bare_number]
      constructor
      · rintro rfl; exact c.cacheInj _ _ _ _ _ hA hB
      · rintro ⟨rfl, he⟩
        rw [he, hB] at hA
        exact (Option.some.inj hA).symm

theorem ExpandsBy.right_parts {D : Rules} {own : Suffix → Elem → Elem}
    (ho : ∀ f e, .rep f e ∈ rulesParts D → .rep f (own f e) ∈ rulesParts D) {e : Elem} {a : List Elem}
    (h : ExpandsBy D own e a) : ∀ x ∈ a, x ∈ rulesParts D := by
  intro x hx
  cases h with
  | rule h => exact mem_rulesParts.2 ⟨_, h, mem_seqParts.2 ⟨x, hx, mem_parts_self x⟩⟩
  | group h ha =>
    refine rulesParts_trans D h ?_
    rw [Elem.parts]
    exact List.mem_cons_of_mem _ (mem_altsParts.2 ⟨a, ha, x, hx, mem_parts_self x⟩)
  | @rep f e a h ha =>
    have h1 := rep_inner (ho f e h)
    cases f <;> simp only [repRules, List.mem_cons, List.not_mem_nil, or_false] at ha <;>
      rcases ha with rfl | rfl <;> simp only [List.mem_cons, List.not_mem_nil, or_false] at hx
    · rcases hx with rfl | rfl
      · exact h1
      · exact h
    · subst hx; exact h1
    · rcases hx with rfl | rfl
      · exact h1
      · exact h
    · subst hx; exact h1

/-- elements that are the same symbol have the same rules -/
theorem ExpandsBy.merged {D : Rules} {num : Elem → Item} {e e' : Elem} {a : List Elem}
    (h : ExpandsBy D (repeated D num) e a) (he : IsSymbol D e') (hm : Merged num e e') (hn : num e = num e') :
    ∃ a', ExpandsBy D (repeated D num) e' a' ∧ a'.map num = a.map num := by
  cases h with
  | @rule n a hw =>
    cases e' with
    | ref m => rw [Merged] at hm; subst hm; exact ⟨a, .rule hw, rfl⟩
    | _ => exact hm.elim
  | @group alts a hg ha =>
    cases e' with
    | group bs =>
      rw [Merged] at hm
      have : a.map num ∈ bs.map (List.map num) := by rw [← hm]; exact List.mem_map_of_mem ha
      obtain ⟨b, hb, hba⟩ := List.mem_map.1 this
      refine ⟨b, .group ?_ hb, hba⟩
      rcases he with he | ⟨_, _, he⟩
      · exact he
      · cases he
    | _ => exact hm.elim
  | @rep f e a hg ha =>
    cases e' with
    | rep g e1 =>
      rw [Merged] at hm
      obtain ⟨rfl, hm⟩ := hm
      have hg' : .rep f e1 ∈ rulesParts D := by
        rcases he with he | ⟨_, _, he⟩
        · exact he
        · cases he
      have hrep : repeated D num f e = repeated D num f e1 := by
        have hsome : ((rulesReps D).find? fun r => decide (r.1 = f ∧ (num r.2).number = (num e).number)).isSome := by
          rw [List.find?_isSome]
          exact ⟨(f, e), (mem_rulesReps D f e).2 hg, by simp⟩
        obtain ⟨r, hr⟩ := Option.isSome_iff_exists.1 hsome
        rw [repeated, repeated, ← hm, hr]
        rfl
      have key : ∀ o, a ∈ repRules f o (.rep f e) → ∃ a' ∈ repRules f o (.rep f e1), a'.map num = a.map num := by
        intro o ha
        cases f <;> simp only [repRules, List.mem_cons, List.not_mem_nil, or_false] at ha <;>
          rcases ha with rfl | rfl <;> simp [repRules, hn]
      obtain ⟨a', h1, h2⟩ := key _ ha
      rw [hrep] at h1
      exact ⟨a', .rep hg' h1, h2⟩
    | _ => exact hm.elim

/-- the words of a grammar whose productions are the rules of `ExpandsBy` -/
theorem words_iff {D : Rules} {num : Elem → Item} {P : List Production} {tok : Str → Option Nat}
    (htok : ∀ n, IsSymbol D (.tok n) → ∃ a, tok n = some a ∧ num (.tok n) = .t a)
    (hkind : ∀ e, IsSymbol D e → e.isTok = false → ∃ A, num e = .nt A)
    (hm : ∀ e e', IsSymbol D e → IsSymbol D e' → (num e = num e' ↔ Merged num e e'))
    (ho : ∀ f e, .rep f e ∈ rulesParts D → .rep f (repeated D num f e) ∈ rulesParts D)
    (hp : ∀ p, p ∈ P ↔ ∃ e a, ExpandsBy D (repeated D num) e a ∧ num e = .nt p.left ∧ a.map num = p.right)
    {es : List Elem} (hes : ∀ e ∈ es, IsSymbol D e) (w : List Nat) :
    Yields P (es.map num) w ↔ WordBy D (repeated D num) tok es w := by
  have left : ∀ {e a}, ExpandsBy D (repeated D num) e a → IsSymbol D e := by
    intro e a h
    cases h with
    | rule h =>
      rw [writtenAlternatives, List.mem_flatMap] at h
      obtain ⟨r, hr, h⟩ := h
      obtain ⟨b, _, hb⟩ := List.mem_map.1 h
      cases hb
      exact .inr ⟨r, hr, rfl⟩
    | group h => exact .inl h
    | rep h => exact .inl h
  constructor
  · intro h
    generalize hα : es.map num = α at h
    induction h generalizing es with
    | nil =>
      rw [List.map_eq_nil_iff] at hα
      subst hα
      exact .nil
    | t _ _ ih =>
      cases es with
      | nil => cases hα
      | cons e es =>
        rw [List.map_cons, List.cons.injEq] at hα
        obtain ⟨h1, h2⟩ := hα
        have he := hes e (by simp)
        cases hk : e.isTok with
        | false =>
          obtain ⟨A, hA⟩ := hkind e he hk
          rw [h1] at hA
          cases hA
        | true =>
          cases e with
          | tok n =>
            obtain ⟨a, h3, h4⟩ := htok n he
            rw [h1] at h4
            cases h4
            exact .tok h3 (ih (fun e h => hes e (by simp [h])) h2)
          | _ => cases hk
    | nt q hmem _ _ ih1 ih2 =>
      cases es with
      | nil => cases hα
      | cons e es =>
        rw [List.map_cons, List.cons.injEq] at hα
        obtain ⟨h1, h2⟩ := hα
        have he := hes e (by simp)
        obtain ⟨e', a, h3, h4, h5⟩ := (hp _).1 hmem
        have heq : num e' = num e := h4.trans h1.symm
        obtain ⟨a', h6, h7⟩ := h3.merged he ((hm e' e (left h3) he).1 heq) heq
        exact .sym h6 (ih1 (fun x hx => .inl (h6.right_parts ho x hx)) (h7.trans h5))
          (ih2 (fun e h => hes e (by simp [h])) h2)
  · intro h
    induction h with
    | nil => exact .nil
    | @tok n a es w hn _ ih =>
      obtain ⟨b, h3, h4⟩ := htok n (hes _ (by simp))
      rw [hn] at h3
      cases h3
      rw [List.map_cons, h4]
      exact .t _ (ih fun e h => hes e (by simp [h]))
    | @sym e a es u w he _ _ ih1 ih2 =>
      have hk : e.isTok = false := by cases he <;> rfl
      obtain ⟨A, hA⟩ := hkind e (left he) hk
      rw [List.map_cons, hA]
      exact Yields.nt ⟨A, a.map num⟩ ((hp _).2 ⟨e, a, he, hA, rfl⟩)
        (ih1 fun x hx => .inl (he.right_parts ho x hx)) (ih2 fun e h => hes e (by simp [h]))

/-- **C86** For every file there is a numbering of the elements that gives tokens and rules the numbers of the
vocabulary, merges exactly the elements of `Merged`, and under which the productions are exactly those of `ExpandsBy`:
the written alternatives for rules and blocks, and for a repetition the textbook rules over the element of the first
repetition in the file with the same suffix and the same number.  Every registered rule is a named one or the number of a
block or repetition that occurs.  The words of every rule are those by these rules. -/
theorem C86_translation (h0 : 2 ≤ n0) (hf : sizeOf ast.toAst ≤ fuel) {g : Grammar}
    {data : List LexerRuleData} (h : buildGrammar lc fuel ast (Grammar.new name) n0 r0 = .ok (g, data))
    {D : Rules} (hD : readRules lc ast.children = some D) :
    ∃ num : Elem → Item,
      (∀ n a, g.vocabulary.getTerminalIdByName n = some a → num (.tok n) = .t a) ∧
      (∀ n A, g.vocabulary.getNonterminalIdByName n = some A → num (.ref n) = .nt A) ∧
      (∀ e, IsSymbol D e → if e.isTok then ∃ a, num e = .t a else ∃ A, num e = .nt A) ∧
      (∀ e e', IsSymbol D e → IsSymbol D e' → (num e = num e' ↔ Merged num e e')) ∧
      (∀ p, p ∈ g.productions ↔
        ∃ e a, ExpandsBy D (repeated D num) e a ∧ num e = .nt p.left ∧ a.map num = p.right) ∧
      (∀ A, g.vocabulary.isNonterminalId A = true → (∃ n, g.vocabulary.getNonterminalIdByName n = some A) ∨
        ∃ e ∈ rulesParts D, (∀ n, e ≠ .ref n) ∧ num e = .nt A) ∧
      ∀ r ∈ D, ∃ A, g.vocabulary.getNonterminalIdByName r.1 = some A ∧
        ∀ w, Sentence g.productions A w ↔
          WordBy D (repeated D num) g.vocabulary.getTerminalIdByName [.ref r.1] w := by
  obtain ⟨s2, s3, hb, rfl, rfl⟩ := buildGrammar_ok h
  obtain ⟨h1, _, h3, h4, h5⟩ := altTwice_count h0 hf hb hD
  have hB := build_ok h0 hf hb
  have hi := hB.inv
  obtain ⟨D', hD', hr⟩ := hB.rules
  rw [hD] at hD'
  cases hD'
  have hi0 := runInv_init hB.sym
  have hS := elabRules_src D hi0 (cinv_init _ _) hr
  have hU := elabRules_ustep D hi0 (cinv_init _ _) (uinv_init _ _) hr
  have hdef := (elabRules_inv D hi0 hr).2.2.1
  have hpart : ∀ e ∈ rulesParts D, ∃ x, look s3 e = some x := fun e he => (hS.has e he).2
  have hlook : ∀ e, IsSymbol D e → ∃ x, look s3 e = some x := by
    rintro e (he | ⟨r, hr', rfl⟩)
    · exact hpart e he
    · obtain ⟨A, hA⟩ := hdef r.1 r.2 hr'
      exact ⟨.nt A, by rw [look, hi.nt, hA]; rfl⟩
  have hparts : ∀ e, IsSymbol D e → ∀ y ∈ e.parts, ∃ z, look s3 y = some z := by
    rintro e (he | ⟨r, hr', rfl⟩) y hy
    · exact hpart y (rulesParts_trans D he hy)
    · rw [Elem.parts, List.mem_singleton] at hy
      subst hy
      exact hlook _ (.inr ⟨r, hr', rfl⟩)
  -- what a repetition repeats
  obtain ⟨us, hus, hrel⟩ := hU.uses
  rw [show (ProdState.new _ _).uses = [] from rfl, List.append_nil] at hus
  have hown : ∀ f e, .rep f e ∈ rulesParts D → ∃ A y, look s3 (.rep f e) = some (.nt A) ∧
      (.rep f (repeated D (itemOf s3) f e)) ∈ rulesParts D ∧ look s3 (repeated D (itemOf s3) f e) = some y ∧
      ∀ β, (⟨A, β⟩ : Production) ∈ s3.grammar.productions ↔
        β = (suffixRights f y A).1 ∨ β = (suffixRights f y A).2 := by
    intro f e he
    obtain ⟨x, hx⟩ := hpart e (rep_inner he)
    obtain ⟨z, hz⟩ := hpart _ he
    have hz' := hz
    rw [look, hx, Option.bind_some, Option.map_eq_some_iff] at hz
    obtain ⟨A, hA, rfl⟩ := hz
    obtain ⟨y, hy, hp⟩ := hU.inv.first f _ A hA
    rw [firstUse, hus, List.reverse_reverse, Option.map_eq_some_iff] at hy
    obtain ⟨u, hu, rfl⟩ := hy
    rcases find_forall₂ (p := fun r : Suffix × Elem =>
        decide (r.1 = f ∧ (itemOf s3 r.2).number = (itemOf s3 e).number))
      (q := fun p : Suffix × Item => decide (p.1 = f ∧ p.2.bare = x.bare)) hrel (fun a b hab => by
        rw [itemOf_eq hab.2, itemOf_eq hx, bare_number, bare_number, hab.1]) with ⟨_, h7⟩ | ⟨r, v, h6, h7, h8⟩
    · rw [hu] at h7
      cases h7
    · rw [hu] at h7
      cases h7
      have hrep : repeated D (itemOf s3) f e = r.2 := by rw [repeated, h6]; rfl
      have hr1 := List.find?_some h6
      rw [decide_eq_true_eq] at hr1
      refine ⟨A, u.2, hz', ?_, by rw [hrep]; exact h8.2, hp⟩
      rw [hrep, ← mem_rulesReps, ← hr1.1]
      exact List.mem_of_find?_eq_some h6
  have hcache : ∀ f i A, (s3.cache f).get i = some A →
      ∃ e, .rep f e ∈ rulesParts D ∧ look s3 (.rep f e) = some (.nt A) := by
    intro f i A hA
    rcases hS.cache f i A hA with h6 | ⟨e, x, h6, h7, h8⟩
    · cases f <;> cases h6
    · refine ⟨e, h6, ?_⟩
      rw [look, h7, Option.bind_some, h8, hA]
      rfl
  have hblock : ∀ rs A, s3.blockCache.get rs = some A → ∃ alts, .group alts ∈ rulesParts D ∧
      lookAlts s3 alts = some rs ∧ look s3 (.group alts) = some (.nt A) := by
    intro rs A hA
    rcases h5.src rs A hA with h6 | ⟨alts, h6, _, h7⟩
    · cases h6
    · obtain ⟨r, hr', h8⟩ := List.mem_flatMap.1 h6
      refine ⟨alts, List.mem_flatMap.2 ⟨r, hr', altsGroups_parts _ h8⟩, h7, ?_⟩
      rw [look, h7, Option.bind_some, hA]
      rfl
  have hanon : ∀ A ∈ s3.grammar.vocabulary.nonterminals, (envOf s2).base ≤ A →
      (∃ f i, (s3.cache f).get i = some A) ∨ ∃ rs, s3.blockCache.get rs = some A := by
    intro A hA hle
    rcases (hi.ids A).1 hA with h6 | h6
    · have := hi.old A h6
      omega
    · exact hS.ids A hle h6.2
  have hrights : ∀ f e A, .rep f e ∈ rulesParts D → look s3 (.rep f e) = some (.nt A) → ∀ β,
      (⟨A, β⟩ : Production) ∈ s3.grammar.productions ↔
        ∃ a ∈ repRules f (repeated D (itemOf s3) f e) (.rep f e), a.map (itemOf s3) = β := by
    intro f e A he hA β
    obtain ⟨B, y, h6, h7, h8, h9⟩ := hown f e he
    rw [hA] at h6
    cases h6
    rw [h9]
    cases f <;> simp [repRules, suffixRights, itemOf_eq hA, itemOf_eq h8, eq_comm]
  have hkind : ∀ e, IsSymbol D e → if e.isTok then ∃ a, itemOf s3 e = .t a else ∃ A, itemOf s3 e = .nt A := by
    intro e he
    obtain ⟨x, hx⟩ := hlook e he
    rw [itemOf_eq hx]
    exact look_kind hx
  have hmerged : ∀ e e', IsSymbol D e → IsSymbol D e' → (itemOf s3 e = itemOf s3 e' ↔ Merged (itemOf s3) e e') := by
    intro e e' he he'
    obtain ⟨x, hx⟩ := hlook e he
    obtain ⟨x', hx'⟩ := hlook e' he'
    rw [itemOf_eq hx, itemOf_eq hx']
    exact look_merged hi h1 (tok_inj hB.sym) e e' (hparts e he) (hparts e' he') hx hx'
  have hprods : ∀ p, p ∈ s3.grammar.productions ↔ ∃ e a, ExpandsBy D (repeated D (itemOf s3)) e a ∧
      itemOf s3 e = .nt p.left ∧ a.map (itemOf s3) = p.right := by
    rintro ⟨A, β⟩
    dsimp only
    constructor
    · intro hp
      by_cases hA : A < (envOf s2).base
      · obtain ⟨w, h6, h7, h8⟩ := h4 _ hp hA
        refine ⟨.ref w.1, w.2, .rule h6, itemOf_eq (by rw [look, hi.nt, h7]; rfl), ?_⟩
        rw [lookSeq_itemOf (lookSeq_mem h8)] at h8
        exact Option.some.inj h8
      · rcases hanon A (hi.closed _ hp).1 (by omega) with ⟨f, i, h6⟩ | ⟨rs, h6⟩
        · obtain ⟨e, h7, h8⟩ := hcache f i A h6
          obtain ⟨a, ha, h9⟩ := (hrights f e A h7 h8 β).1 hp
          exact ⟨_, a, .rep h7 ha, itemOf_eq h8, h9⟩
        · obtain ⟨alts, h7, h8, h9⟩ := hblock rs A h6
          obtain ⟨a, ha, hl⟩ := (lookAlts_mem h8 β).1 (((hi.block rs A h6).2.2 β).1 hp)
          rw [lookSeq_itemOf (lookSeq_mem hl)] at hl
          exact ⟨_, a, .group h7 ha, itemOf_eq h9, Option.some.inj hl⟩
    · rintro ⟨e, a, he, hA, hβ⟩
      subst hβ
      cases he with
      | rule hw =>
        obtain ⟨_, B, γ, e1, _, e3, e4⟩ := h3 _ hw
        rw [itemOf_eq (s := s3) (x := .nt B) (by rw [look, hi.nt, e1]; rfl)] at hA
        cases hA
        rw [lookSeq_itemOf (lookSeq_mem e3)] at e3
        cases e3
        exact e4
      | group hg ha =>
        obtain ⟨x, hx⟩ := hpart _ hg
        rw [itemOf_eq hx] at hA
        subst hA
        rw [look, Option.bind_eq_some_iff] at hx
        obtain ⟨rs, h6, h7⟩ := hx
        rw [Option.map_eq_some_iff] at h7
        obtain ⟨B, h7, hB'⟩ := h7
        cases hB'
        refine ((hi.block rs _ h7).2.2 _).2 ((lookAlts_mem h6 _).2 ⟨a, ha, lookSeq_itemOf fun y hy => ?_⟩)
        refine hpart y (rulesParts_trans D hg ?_)
        rw [Elem.parts]
        exact List.mem_cons_of_mem _ (mem_altsParts.2 ⟨a, ha, y, hy, mem_parts_self y⟩)
      | rep hg ha =>
        obtain ⟨x, hx⟩ := hpart _ hg
        rw [itemOf_eq hx] at hA
        subst hA
        exact (hrights _ _ A hg hx _).2 ⟨a, ha, rfl⟩
  refine ⟨itemOf s3, fun n a hn => itemOf_eq (by rw [look, hn]; rfl), fun n A hn => itemOf_eq (by rw [look, hn]; rfl),
    hkind, hmerged, hprods, ?_, ?_⟩
  · intro A hA
    rw [Vocabulary.isNonterminalId, decide_eq_true_eq] at hA
    by_cases hlt : A < (envOf s2).base
    · left
      rcases (hi.ids A).1 hA with h6 | h6
      · obtain ⟨_, _, n, hn⟩ := hB.sym.nts A h6
        exact ⟨n, by rw [hi.nt]; exact (hB.sym.voc.n_inv n A).2 hn⟩
      · omega
    · right
      rcases hanon A hA (by omega) with ⟨f, i, h6⟩ | ⟨rs, h6⟩
      · obtain ⟨e, h7, h8⟩ := hcache f i A h6
        exact ⟨_, h7, fun _ => nofun, itemOf_eq h8⟩
      · obtain ⟨alts, h7, _, h9⟩ := hblock rs A h6
        exact ⟨_, h7, fun _ => nofun, itemOf_eq h9⟩
  · intro r hr'
    obtain ⟨A, hA⟩ := hdef r.1 r.2 hr'
    refine ⟨A, by rw [hi.nt, hA], fun w => ?_⟩
    have hs : IsSymbol D (.ref r.1) := .inr ⟨r, hr', rfl⟩
    rw [Sentence, ← yields_iff, ← words_iff (num := itemOf s3) (P := s3.grammar.productions) ?_ ?_ hmerged
      (fun f e he => (hown f e he).choose_spec.choose_spec.2.1) hprods (es := [.ref r.1]) (by simpa using hs) w]
    · rw [List.map_cons, List.map_nil, itemOf_eq (s := s3) (x := .nt A) (by rw [look, hi.nt, hA]; rfl)]
    · intro n hn
      obtain ⟨x, hx⟩ := hlook _ hn
      have hx' := hx
      rw [look, Option.map_eq_some_iff] at hx
      obtain ⟨a, ha, rfl⟩ := hx
      exact ⟨a, ha, itemOf_eq hx'⟩
    · intro e he hk
      have := hkind e he
      rw [hk] at this
      exact this

/-- **C86** The first repetition of the file, and every one whose number was not used with that suffix before, repeats
what is written. -/
theorem C86_first_wins (D : Rules) (num : Elem → Item) (f : Suffix) (e : Elem) (before after : List (Suffix × Elem))
    (h : rulesReps D = before ++ (f, e) :: after)
    (hn : ∀ e', (f, e') ∈ before → (num e').number ≠ (num e).number) :
    ∀ e', (num e').number = (num e).number → repeated D num f e' = e := by
  intro e' he
  rw [repeated, h, List.find?_append]
  have : before.find? (fun r => decide (r.1 = f ∧ (num r.2).number = (num e').number)) = none := by
    rw [List.find?_eq_none]
    rintro ⟨g, b⟩ hb hp
    simp only [decide_eq_true_eq] at hp
    obtain ⟨rfl, hp⟩ := hp
    exact hn b hb (hp.trans he)
  rw [this, List.find?_cons]
  simp [he]

theorem nodup_itemOf {s : ProdState} {as : List (List Elem)} {rs : List (List Item)} (h : lookAlts s as = some rs)
    (hk : ∀ a ∈ as, ∀ e ∈ a, ∃ x, look s e = some x) : rs = as.map (List.map (itemOf s)) := by
  rw [lookAlts_itemOf hk] at h
  exact (Option.some.inj h).symm

/-- **C86** The messages, for every file: there is a numbering that gives tokens and rules the numbers of the vocabulary
and merges exactly the elements of `Merged`, such that one message is printed for every alternative of a rule with the same
symbols as an earlier one, and the message about blocks is printed iff some block has two alternatives of the same
symbols. -/
theorem C86_messages (h0 : 2 ≤ n0) (hf : sizeOf ast.toAst ≤ fuel) {s2 : SymState} {s3 : ProdState}
    (h : buildStates lc fuel ast (Grammar.new name) n0 r0 = .ok (s2, s3)) {D : Rules}
    (hD : readRules lc ast.children = some D) :
    ∃ num : Elem → Item,
      (∀ n a, s3.grammar.vocabulary.getTerminalIdByName n = some a → num (.tok n) = .t a) ∧
      (∀ n A, s3.grammar.vocabulary.getNonterminalIdByName n = some A → num (.ref n) = .nt A) ∧
      (∀ e e', IsSymbol D e → IsSymbol D e' → (num e = num e' ↔ Merged num e e')) ∧
      s3.out.count "产生式重复".toList + {w | ∃ v ∈ writtenAlternatives D, w = (v.1, v.2.map num)}.ncard =
        (writtenAlternatives D).length ∧
      ("重复产生式".toList ∈ s3.out ↔
        ∃ r ∈ D, ∃ alts ∈ altsGroups r.2, ¬ (alts.map (List.map num)).Nodup) := by
  rw [show "产生式重复".toList = altTwice by decide +kernel, show "重复产生式".toList = blockTwice by decide +kernel]
  obtain ⟨h1, h2, h3, h4, h5⟩ := altTwice_count h0 hf h hD
  have hB := build_ok h0 hf h
  have hi := hB.inv
  obtain ⟨D', hD', hr⟩ := hB.rules
  rw [hD] at hD'
  cases hD'
  have hi0 := runInv_init hB.sym
  have hS := elabRules_src D hi0 (cinv_init _ _) hr
  have hdef := (elabRules_inv D hi0 hr).2.2.1
  have hpart : ∀ e ∈ rulesParts D, ∃ x, look s3 e = some x := fun e he => (hS.has e he).2
  have hlook : ∀ e, IsSymbol D e → ∃ x, look s3 e = some x := by
    rintro e (he | ⟨r, hr', rfl⟩)
    · exact hpart e he
    · obtain ⟨A, hA⟩ := hdef r.1 r.2 hr'
      exact ⟨.nt A, by rw [look, hi.nt, hA]; rfl⟩
  have hparts : ∀ e, IsSymbol D e → ∀ y ∈ e.parts, ∃ z, look s3 y = some z := by
    rintro e (he | ⟨r, hr', rfl⟩) y hy
    · exact hpart y (rulesParts_trans D he hy)
    · rw [Elem.parts, List.mem_singleton] at hy
      subst hy
      exact hlook _ (.inr ⟨r, hr', rfl⟩)
  have hkids : ∀ r ∈ D, ∀ alts ∈ altsGroups r.2, ∀ a ∈ alts, ∀ e ∈ a, ∃ x, look s3 e = some x := by
    intro r hr' alts ha a h6 e he
    refine hpart e (rulesParts_trans D (List.mem_flatMap.2 ⟨r, hr', altsGroups_parts _ ha⟩) ?_)
    rw [Elem.parts]
    exact List.mem_cons_of_mem _ (mem_altsParts.2 ⟨a, h6, e, he, mem_parts_self e⟩)
  refine ⟨itemOf s3, fun n a hn => itemOf_eq (by rw [look, hn]; rfl), fun n A hn => itemOf_eq (by rw [look, hn]; rfl),
    ?_, ?_, ?_⟩
  · intro e e' he he'
    obtain ⟨x, hx⟩ := hlook e he
    obtain ⟨x', hx'⟩ := hlook e' he'
    rw [itemOf_eq hx, itemOf_eq hx']
    exact look_merged hi h1 (tok_inj hB.sym) e e' (hparts e he) (hparts e' he') hx hx'
  · rw [← h2, namedCount_card hi.nodup, named_image h0 hf h hD]
    have himg : prodOf (envOf s2) s3 '' {w | w ∈ writtenAlternatives D} =
        (fun w : Str × List Item => (⟨((envOf s2).nt w.1).getD 0, w.2⟩ : Production)) ''
          {w | ∃ v ∈ writtenAlternatives D, w = (v.1, v.2.map (itemOf s3))} := by
      ext p
      simp only [Set.mem_image, Set.mem_setOf_eq]
      constructor
      · rintro ⟨w, hw, rfl⟩
        obtain ⟨_, A, β, e1, e2, e3, e4⟩ := h3 w hw
        refine ⟨_, ⟨w, hw, rfl⟩, ?_⟩
        rw [prodOf, lookSeq_itemOf (lookSeq_mem e3)]
        rfl
      · rintro ⟨_, ⟨w, hw, rfl⟩, rfl⟩
        obtain ⟨_, A, β, e1, e2, e3, e4⟩ := h3 w hw
        refine ⟨w, hw, ?_⟩
        rw [prodOf, lookSeq_itemOf (lookSeq_mem e3)]
        rfl
    rw [himg, Set.ncard_image_of_injOn]
    rintro _ ⟨w, hw, rfl⟩ _ ⟨w', hw', rfl⟩ he
    obtain ⟨_, A, β, e1, e2, e3, e4⟩ := h3 w hw
    obtain ⟨_, A', β', e1', e2', e3', e4'⟩ := h3 w' hw'
    simp only [e1, e1', Option.getD_some, Production.mk.injEq] at he
    rw [he.1] at e1
    exact Prod.ext (hi.inj _ _ _ e1 e1') he.2
  · rw [h1.bad]
    constructor
    · rintro ⟨rs, X, h6, h7⟩
      rcases h5.src rs X h6 with h8 | ⟨alts, h8, h9, h10⟩
      · cases h8
      · obtain ⟨r, hr', ha⟩ := List.mem_flatMap.1 h8
        exact ⟨r, hr', alts, ha, by rw [← nodup_itemOf h10 (hkids r hr' alts ha)]; exact h7⟩
    · rintro ⟨r, hr', alts, ha, hn⟩
      obtain ⟨_, rs, X, h6, h7⟩ := h5.has alts (List.mem_flatMap.2 ⟨r, hr', ha⟩)
      exact ⟨rs, X, h7, by rw [nodup_itemOf h6 (hkids r hr' alts ha)]; exact hn⟩

/-- non-vacuity: in `r : A* u* ; s : A ; u : B ;` token `A` and rule `u` have number 2, and `u*` repeats `A` -/
example : ∃ g data, sizeOf ExTree.clash.toAst ≤ 5000 ∧ loadAst 5000 ExTree.clash = .ok (g, data) ∧
    readRules .old ExTree.clash.children = some ExTree.clashRules ∧
    ∀ num : Elem → Item, (∀ n a, g.vocabulary.getTerminalIdByName n = some a → num (.tok n) = .t a) →
      (∀ n A, g.vocabulary.getNonterminalIdByName n = some A → num (.ref n) = .nt A) →
      repeated ExTree.clashRules num .star (.ref "u".toList) = .tok "A".toList := by
  have h : (loadAst 5000 ExTree.clash).map (fun r => (r.1.vocabulary.getTerminalIdByName "A".toList,
      r.1.vocabulary.getNonterminalIdByName "u".toList)) = .ok (some 2, some 2) := by decide +kernel
  cases hb : loadAst 5000 ExTree.clash with
  | error e => rw [hb] at h; cases h
  | ok r =>
    obtain ⟨g, data⟩ := r
    rw [hb] at h
    have h' := Except.ok.inj h
    simp only [Prod.mk.injEq] at h'
    refine ⟨g, data, by decide +kernel, rfl, ExTree.clash_rules, fun num h1 h2 => ?_⟩
    exact C86_first_wins _ num .star (.tok "A".toList) [] [(.star, .ref "u".toList)] (by rfl) (by simp) _
      (by rw [h1 _ _ h'.1, h2 _ _ h'.2]; rfl)

end Syntaxis
