import Verif.Lemmas.Elab
import Verif.Lemmas.EbnfSem

/-! # Invariants of the production pass -/

namespace Syntaxis

theorem mem_insertProduction (g : Grammar) (p q : Production) :
    q ∈ (g.insertProduction p).1.productions ↔ q ∈ g.productions ∨ q = p := by
  unfold Grammar.insertProduction
  split
  · rename_i h
    constructor
    · exact .inl
    · rintro (h' | rfl)
      · exact h'
      · exact h
  · simp

theorem insertProduction_nodup (g : Grammar) (p : Production) (h : g.productions.Nodup) :
    (g.insertProduction p).1.productions.Nodup := by
  unfold Grammar.insertProduction
  split
  · exact h
  · rename_i hp
    simp only [List.nodup_append, h, true_and]
    refine ⟨by simp, ?_⟩
    intro a ha b hb
    simp at hb
    subst hb
    rintro rfl
    exact hp ha

theorem insertProduction_vocabulary (g : Grammar) (p : Production) :
    (g.insertProduction p).1.vocabulary = g.vocabulary := by
  unfold Grammar.insertProduction
  split <;> rfl

/-- the symbol is registered -/
def ItemOk (v : Vocabulary) : Item → Prop
  | .nt B => B ∈ v.nonterminals
  | .t a => a ∈ v.terminals

/-- invariant of the production pass; `N` are the nonterminals registered before it -/
structure RunInv (E : Env) (N : Finset Nat) (s : ProdState) : Prop where
  le : E.base ≤ s.nextRuleId
  tok : ∀ n, s.grammar.vocabulary.getTerminalIdByName n = E.tok n
  nt : ∀ n, s.grammar.vocabulary.getNonterminalIdByName n = E.nt n
  tokOk : ∀ n a, E.tok n = some a → a ∈ s.grammar.vocabulary.terminals
  ntOk : ∀ n A, E.nt n = some A → A ∈ N
  inj : ∀ n m A, E.nt n = some A → E.nt m = some A → n = m
  old : ∀ i ∈ N, i < E.base
  ids : ∀ i, i ∈ s.grammar.vocabulary.nonterminals ↔ i ∈ N ∨ (E.base ≤ i ∧ i < s.nextRuleId)
  named : ∀ i n, s.grammar.vocabulary.ntIdToName.get i = some n → i ∈ N
  closed : ∀ p ∈ s.grammar.productions, p.left ∈ s.grammar.vocabulary.nonterminals ∧
    ∀ x ∈ p.right, ItemOk s.grammar.vocabulary x
  nodup : s.grammar.productions.Nodup
  cache : ∀ f i X, (s.cache f).get i = some X → E.base ≤ X ∧ X < s.nextRuleId ∧
    ∃ y : Item, y.bare = i ∧ (f, y) ∈ s.uses ∧ ∀ β, (⟨X, β⟩ : Production) ∈ s.grammar.productions ↔
      β = (suffixRights f y X).1 ∨ β = (suffixRights f y X).2
  block : ∀ rs X, s.blockCache.get rs = some X → E.base ≤ X ∧ X < s.nextRuleId ∧
    ∀ β, (⟨X, β⟩ : Production) ∈ s.grammar.productions ↔ β ∈ rs
  alloc : ∀ i, i ∈ s.allocated ↔ E.base ≤ i ∧ i < s.nextRuleId
  allocNodup : s.allocated.Nodup

/-- what elaborating elements changes -/
structure Ext (s s' : ProdState) : Prop where
  le : s.nextRuleId ≤ s'.nextRuleId
  prods : ∀ X β, X < s.nextRuleId → ((⟨X, β⟩ : Production) ∈ s'.grammar.productions ↔
    (⟨X, β⟩ : Production) ∈ s.grammar.productions)
  uses : ∀ u ∈ s.uses, u ∈ s'.uses
  terminals : s'.grammar.vocabulary.terminals = s.grammar.vocabulary.terminals
  names : s'.grammar.vocabulary.ntIdToName = s.grammar.vocabulary.ntIdToName

theorem Ext.refl (s : ProdState) : Ext s s := ⟨Nat.le_refl _, fun _ _ _ => Iff.rfl, fun _ h => h, rfl, rfl⟩

theorem Ext.trans {s s' s'' : ProdState} (h : Ext s s') (h' : Ext s' s'') : Ext s s'' :=
  ⟨Nat.le_trans h.le h'.le, fun X β hX => (h'.prods X β (Nat.lt_of_lt_of_le hX h.le)).trans (h.prods X β hX),
    fun u hu => h'.uses u (h.uses u hu), h'.terminals.trans h.terminals, h'.names.trans h.names⟩

/-- no suffix is applied to a token and to a rule with the same number -/
def NoClash (u : List (Suffix × Item)) : Prop :=
  ∀ f x y, (f, x) ∈ u → (f, y) ∈ u → x.bare = y.bare → x = y

theorem NoClash.mono {s s' : ProdState} (h : Ext s s') (hc : NoClash s'.uses) : NoClash s.uses :=
  fun f x y hx hy => hc f x y (h.uses _ hx) (h.uses _ hy)

section
variable {E : Env} {N : Finset Nat}

theorem RunInv.fresh {s : ProdState} (h : RunInv E N s) (p : Production) (hp : p ∈ s.grammar.productions) :
    p.left < s.nextRuleId := by
  rcases (h.ids _).1 (h.closed p hp).1 with h1 | h1
  · exact Nat.lt_of_lt_of_le (h.old _ h1) h.le
  · exact h1.2

theorem RunInv.fresh_id {s : ProdState} (h : RunInv E N s) :
    s.nextRuleId ∉ s.grammar.vocabulary.nonterminals := by
  intro hn
  rcases (h.ids _).1 hn with h1 | h1
  · exact absurd (Nat.lt_of_lt_of_le (h.old _ h1) h.le) (Nat.lt_irrefl _)
  · exact absurd h1.2 (Nat.lt_irrefl _)

theorem RunInv.addUnnamed_eq {s : ProdState} (h : RunInv E N s) :
    (s.grammar.vocabulary.addUnnamedNonterminal s.nextRuleId).1 =
      { s.grammar.vocabulary with
        nonterminals := insert s.nextRuleId s.grammar.vocabulary.nonterminals } := by
  have h1 := h.fresh_id
  have h2 : s.grammar.vocabulary.ntIdToName.containsKey s.nextRuleId = false := by
    rw [HMap.containsKey_eq_false]
    cases hc : s.grammar.vocabulary.ntIdToName.get s.nextRuleId with
    | none => rfl
    | some n => exact absurd (Nat.lt_of_lt_of_le (h.old _ (h.named _ _ hc)) h.le) (Nat.lt_irrefl _)
  simp [Vocabulary.addUnnamedNonterminal, h1, h2]

/-- inserting the productions of a new nonterminal, one by one -/
theorem foldl_insertProd (X : Nat) (rs : List (List Item)) (s : ProdState) :
    let s' := rs.foldl (fun s right => s.insertOrPrint ⟨X, right⟩ (chars! "重复产生式")) s
    (∀ q, q ∈ s'.grammar.productions ↔ q ∈ s.grammar.productions ∨ ∃ β ∈ rs, q = ⟨X, β⟩) ∧
    (s.grammar.productions.Nodup → s'.grammar.productions.Nodup) ∧
    s'.grammar.vocabulary = s.grammar.vocabulary ∧
    s' = { s with grammar := s'.grammar, out := s'.out } := by
  induction rs generalizing s with
  | nil => simp
  | cons r rs ih =>
    obtain ⟨h1, h2, h3, h4⟩ := ih (s.insertOrPrint ⟨X, r⟩ (chars! "重复产生式"))
    simp only [List.foldl_cons]
    refine ⟨?_, ?_, ?_, ?_⟩
    · intro q
      rw [h1, ProdState.insertOrPrint, ProdState.insertProd, mem_insertProduction]
      simp only [List.mem_cons, exists_eq_or_imp]
      tauto
    · exact fun hn => h2 (insertProduction_nodup _ _ hn)
    · rw [h3]; exact insertProduction_vocabulary _ _
    · rw [h4]; rfl

/-- Allocating a new nonterminal: registered, with exactly the given productions. -/
theorem alloc_inv {s s' : ProdState} (h : RunInv E N s) (rs : List (List Item))
    (hrs : ∀ β ∈ rs, ∀ x ∈ β, ItemOk s.grammar.vocabulary x ∨ x = .nt s.nextRuleId)
    (hvoc : s'.grammar.vocabulary = (s.grammar.vocabulary.addUnnamedNonterminal s.nextRuleId).1)
    (hprod : ∀ q, q ∈ s'.grammar.productions ↔ q ∈ s.grammar.productions ∨ ∃ β ∈ rs, q = ⟨s.nextRuleId, β⟩)
    (hnd : s.grammar.productions.Nodup → s'.grammar.productions.Nodup)
    (hnext : s'.nextRuleId = s.nextRuleId + 1)
    (halloc : s'.allocated = s.nextRuleId :: s.allocated)
    (huses : ∀ u ∈ s.uses, u ∈ s'.uses)
    (hcache : ∀ f i X, (s'.cache f).get i = some X → (s.cache f).get i = some X ∨
      (X = s.nextRuleId ∧ ∃ y : Item, y.bare = i ∧ (f, y) ∈ s'.uses ∧
        ∀ β, β ∈ rs ↔ β = (suffixRights f y X).1 ∨ β = (suffixRights f y X).2))
    (hblock : ∀ rs' X, s'.blockCache.get rs' = some X → s.blockCache.get rs' = some X ∨
      (X = s.nextRuleId ∧ rs' = rs)) :
    RunInv E N s' ∧ Ext s s' ∧ (∀ β, (⟨s.nextRuleId, β⟩ : Production) ∈ s'.grammar.productions ↔ β ∈ rs) := by
  rw [h.addUnnamed_eq] at hvoc
  have hle := h.le
  have hnew : ∀ β, (⟨s.nextRuleId, β⟩ : Production) ∈ s'.grammar.productions ↔ β ∈ rs := by
    intro β
    rw [hprod]
    constructor
    · rintro (h1 | ⟨γ, h1, h2⟩)
      · exact absurd (h.fresh _ h1) (Nat.lt_irrefl _)
      · cases h2; exact h1
    · exact fun hb => .inr ⟨β, hb, rfl⟩
  have hold : ∀ X β, X < s.nextRuleId → ((⟨X, β⟩ : Production) ∈ s'.grammar.productions ↔
      (⟨X, β⟩ : Production) ∈ s.grammar.productions) := by
    intro X β hX
    rw [hprod]
    constructor
    · rintro (h1 | ⟨γ, _, h2⟩)
      · exact h1
      · cases h2; exact absurd hX (Nat.lt_irrefl _)
    · exact .inl
  have hok : ∀ x, ItemOk s.grammar.vocabulary x ∨ x = .nt s.nextRuleId → ItemOk s'.grammar.vocabulary x := by
    intro x hx
    rw [hvoc]
    rcases hx with hx | rfl
    · cases x with
      | nt B => exact Finset.mem_insert_of_mem hx
      | t a => exact hx
    · exact Finset.mem_insert_self _ _
  refine ⟨?_, ⟨by omega, hold, huses, by rw [hvoc], by rw [hvoc]⟩, hnew⟩
  constructor
  · omega
  · intro n; rw [hvoc]; exact h.tok n
  · intro n; rw [hvoc]; exact h.nt n
  · intro n a ha; rw [hvoc]; exact h.tokOk n a ha
  · exact h.ntOk
  · exact h.inj
  · exact h.old
  · intro i
    rw [hvoc]
    simp only [Finset.mem_insert, h.ids]
    constructor
    · rintro (rfl | h1 | h1)
      · exact .inr ⟨hle, by omega⟩
      · exact .inl h1
      · exact .inr ⟨h1.1, by omega⟩
    · rintro (h1 | h1)
      · exact .inr (.inl h1)
      · by_cases hi : i = s.nextRuleId
        · exact .inl hi
        · exact .inr (.inr ⟨h1.1, by omega⟩)
  · intro i n hi; rw [hvoc] at hi; exact h.named i n hi
  · intro p hp
    rcases (hprod p).1 hp with h1 | ⟨β, h1, rfl⟩
    · obtain ⟨h2, h3⟩ := h.closed p h1
      refine ⟨by rw [hvoc]; exact Finset.mem_insert_of_mem h2, fun x hx => hok x (.inl (h3 x hx))⟩
    · exact ⟨by rw [hvoc]; exact Finset.mem_insert_self _ _, fun x hx => hok x (hrs β h1 x hx)⟩
  · exact hnd h.nodup
  · intro f i X hX
    rcases hcache f i X hX with h1 | ⟨rfl, y, h1, h2, h3⟩
    · obtain ⟨a, b, y, c, d, e⟩ := h.cache f i X h1
      exact ⟨a, by omega, y, c, huses _ d, fun β => by rw [hold X β b]; exact e β⟩
    · exact ⟨hle, by omega, y, h1, h2, fun β => by rw [hnew]; exact h3 β⟩
  · intro rs' X hX
    rcases hblock rs' X hX with h1 | ⟨rfl, rfl⟩
    · obtain ⟨a, b, c⟩ := h.block rs' X h1
      exact ⟨a, by omega, fun β => by rw [hold X β b]; exact c β⟩
    · exact ⟨hle, by omega, hnew⟩
  · intro i
    rw [halloc, List.mem_cons, h.alloc]
    omega
  · rw [halloc, List.nodup_cons]
    refine ⟨fun hm => ?_, h.allocNodup⟩
    have := (h.alloc _).1 hm
    omega

theorem RunInv.ghost {s : ProdState} (h : RunInv E N s) (u : Suffix × Item) :
    RunInv E N { s with uses := u :: s.uses } := by
  refine ⟨h.le, h.tok, h.nt, h.tokOk, h.ntOk, h.inj, h.old, h.ids, h.named, h.closed, h.nodup, ?_, h.block,
    h.alloc, h.allocNodup⟩
  intro f i X hX
  obtain ⟨a, b, y, c, d, e⟩ := h.cache f i X (by cases f <;> exact hX)
  exact ⟨a, b, y, c, List.mem_cons_of_mem _ d, e⟩

theorem cache_setCache (s : ProdState) (f g : Suffix) (i x : Nat) :
    (s.setCache f i x).cache g = if f = g then (s.cache g).insert i x else s.cache g := by
  cases f <;> cases g <;> rfl

theorem setCache_fields (s : ProdState) (f : Suffix) (i x : Nat) :
    (s.setCache f i x).grammar = s.grammar ∧ (s.setCache f i x).nextRuleId = s.nextRuleId ∧
    (s.setCache f i x).uses = s.uses ∧ (s.setCache f i x).blockCache = s.blockCache ∧
    (s.setCache f i x).allocated = s.allocated := by
  cases f <;> exact ⟨rfl, rfl, rfl, rfl, rfl⟩

theorem applySuffix_inv (f : Suffix) (x : Item) {s : ProdState} (h : RunInv E N s)
    (hx : ItemOk s.grammar.vocabulary x) :
    let r := applySuffix f x s
    RunInv E N r.2 ∧ Ext s r.2 ∧ ∃ X y, r.1 = .nt X ∧ E.base ≤ X ∧ X < r.2.nextRuleId ∧ y.bare = x.bare ∧
      (f, x) ∈ r.2.uses ∧ (f, y) ∈ r.2.uses ∧
      ∀ β, (⟨X, β⟩ : Production) ∈ r.2.grammar.productions ↔
        β = (suffixRights f y X).1 ∨ β = (suffixRights f y X).2 := by
  have hg := h.ghost (f, x)
  have hextg : Ext s { s with uses := (f, x) :: s.uses } :=
    ⟨Nat.le_refl _, fun _ _ _ => Iff.rfl, fun u hu => List.mem_cons_of_mem _ hu, rfl, rfl⟩
  simp only [applySuffix]
  cases hc : (ProdState.cache { s with uses := (f, x) :: s.uses } f).get x.bare with
  | some X =>
    obtain ⟨a, b, y, c, d, e⟩ := hg.cache f x.bare X hc
    exact ⟨hg, hextg, X, y, rfl, a, b, c, List.mem_cons_self, d, e⟩
  | none =>
    simp only
    generalize hs1 : ({ s with uses := (f, x) :: s.uses } : ProdState) = s1 at hg hextg hc
    have hns : s.nextRuleId = s1.nextRuleId := by rw [← hs1]
    simp only [hns]
    have hx1 : ItemOk s1.grammar.vocabulary x := by rw [← hs1]; exact hx
    have hu1 : (f, x) ∈ s1.uses := by rw [← hs1]; exact List.mem_cons_self
    generalize hS : ({ (((s1.addUnnamed s1.nextRuleId).insertProd
      ⟨s1.nextRuleId, (suffixRights f x s1.nextRuleId).1⟩).insertProd
      ⟨s1.nextRuleId, (suffixRights f x s1.nextRuleId).2⟩).setCache f x.bare s1.nextRuleId with
      nextRuleId := ((((s1.addUnnamed s1.nextRuleId).insertProd
      ⟨s1.nextRuleId, (suffixRights f x s1.nextRuleId).1⟩).insertProd
      ⟨s1.nextRuleId, (suffixRights f x s1.nextRuleId).2⟩).setCache f x.bare s1.nextRuleId).nextRuleId + 1 } :
      ProdState) = S
    have hfield := setCache_fields (((s1.addUnnamed s1.nextRuleId).insertProd
      ⟨s1.nextRuleId, (suffixRights f x s1.nextRuleId).1⟩).insertProd
      ⟨s1.nextRuleId, (suffixRights f x s1.nextRuleId).2⟩) f x.bare s1.nextRuleId
    have hnx : S.nextRuleId = s1.nextRuleId + 1 := by rw [← hS]; simp only [hfield.2.1]; rfl
    have hus : S.uses = s1.uses := by rw [← hS]; simp only [hfield.2.2.1]; rfl
    have hal : S.allocated = s1.nextRuleId :: s1.allocated := by
      rw [← hS]; simp only [hfield.2.2.2.2]; rfl
    have hgr : S.grammar = (((s1.addUnnamed s1.nextRuleId).insertProd
      ⟨s1.nextRuleId, (suffixRights f x s1.nextRuleId).1⟩).insertProd
      ⟨s1.nextRuleId, (suffixRights f x s1.nextRuleId).2⟩).grammar := by rw [← hS]; simp only [hfield.1]
    obtain ⟨h1, h2, h3⟩ := alloc_inv (s' := S) hg
      [(suffixRights f x s1.nextRuleId).1, (suffixRights f x s1.nextRuleId).2]
      (by
        intro β hβ z hz
        cases f <;> simp [suffixRights] at hβ <;> rcases hβ with rfl | rfl <;> simp at hz <;>
          first
          | (rcases hz with rfl | rfl
             · exact .inl hx1
             · exact .inr rfl)
          | (subst hz; exact .inl hx1))
      (by rw [hgr]; simp only [ProdState.insertProd, insertProduction_vocabulary]; rfl)
      (by
        intro q
        rw [hgr]
        simp only [ProdState.insertProd, mem_insertProduction, List.mem_cons, List.not_mem_nil, or_false,
          exists_eq_or_imp, exists_eq_left, ProdState.addUnnamed]
        tauto)
      (by
        intro hn
        rw [hgr]
        exact insertProduction_nodup _ _ (insertProduction_nodup _ _ hn))
      hnx hal (by rw [hus]; exact fun _ h => h)
      (by
        intro g i X hX
        have : S.cache g = if f = g then (s1.cache g).insert x.bare s1.nextRuleId else s1.cache g := by
          rw [← hS]
          have := cache_setCache (((s1.addUnnamed s1.nextRuleId).insertProd
            ⟨s1.nextRuleId, (suffixRights f x s1.nextRuleId).1⟩).insertProd
            ⟨s1.nextRuleId, (suffixRights f x s1.nextRuleId).2⟩) f g x.bare s1.nextRuleId
          cases g <;> exact this
        rw [this] at hX
        by_cases hfg : f = g
        · subst hfg
          rw [if_pos rfl, HMap.get_insert] at hX
          by_cases hi : x.bare = i
          · rw [if_pos hi] at hX
            cases hX
            exact .inr ⟨rfl, x, hi, by rw [hus]; exact hu1, fun β => by simp⟩
          · rw [if_neg hi] at hX
            exact .inl hX
        · rw [if_neg hfg] at hX
          exact .inl hX)
      (by
        intro rs' X hX
        left
        have : S.blockCache = s1.blockCache := by rw [← hS]; simp only [hfield.2.2.2.1]; rfl
        rwa [this] at hX)
    have hlt : s1.nextRuleId < S.nextRuleId := by omega
    have hmu : (f, x) ∈ S.uses := by rw [hus]; exact hu1
    have hpr : ∀ β, (⟨s1.nextRuleId, β⟩ : Production) ∈ S.grammar.productions ↔
        β = (suffixRights f x s1.nextRuleId).1 ∨ β = (suffixRights f x s1.nextRuleId).2 := fun β => by
      rw [h3]
      simp
    subst hS
    exact ⟨h1, hextg.trans h2, s1.nextRuleId, x, rfl, hg.le, hlt, rfl, hmu, hmu, hpr⟩

theorem finishBlock_inv (rs : List (List Item)) {s : ProdState} (h : RunInv E N s)
    (hrs : ∀ β ∈ rs, ∀ x ∈ β, ItemOk s.grammar.vocabulary x) :
    let r := finishBlock rs s
    RunInv E N r.2 ∧ Ext s r.2 ∧ E.base ≤ r.1 ∧ r.1 < r.2.nextRuleId ∧
      ∀ β, (⟨r.1, β⟩ : Production) ∈ r.2.grammar.productions ↔ β ∈ rs := by
  simp only [finishBlock]
  cases hc : s.blockCache.get rs with
  | some X =>
    obtain ⟨a, b, c⟩ := h.block rs X hc
    exact ⟨h, Ext.refl s, a, b, c⟩
  | none =>
    simp only
    generalize hs1 : ({ s.addUnnamed s.nextRuleId with
      blockCache := (s.addUnnamed s.nextRuleId).blockCache.insert rs s.nextRuleId } : ProdState) = s1
    obtain ⟨f1, f2, f3, f4⟩ := foldl_insertProd s.nextRuleId rs s1
    generalize hS : rs.foldl (fun s_1 right => s_1.insertOrPrint ⟨s.nextRuleId, right⟩ (chars! "重复产生式")) s1 = S at f1 f2 f3 f4
    have hnx : S.nextRuleId = s.nextRuleId := by rw [f4, ← hs1]; rfl
    have hus : S.uses = s.uses := by rw [f4, ← hs1]; rfl
    have hca : ∀ g, S.cache g = s.cache g := by intro g; rw [f4, ← hs1]; cases g <;> rfl
    have hbl : S.blockCache = s.blockCache.insert rs s.nextRuleId := by rw [f4, ← hs1]; rfl
    obtain ⟨h1, h2, h3⟩ := alloc_inv (s' := { S with nextRuleId := S.nextRuleId + 1 }) h rs
      (fun β hβ x hx => .inl (hrs β hβ x hx))
      (by show S.grammar.vocabulary = _; rw [f3, ← hs1]; rfl)
      (by
        intro q
        show q ∈ S.grammar.productions ↔ _
        rw [f1, ← hs1]; rfl)
      (by intro hn; exact f2 (by rw [← hs1]; exact hn))
      (by show S.nextRuleId + 1 = _; rw [hnx])
      (by show S.allocated = _; rw [f4, ← hs1]; rfl)
      (by show ∀ u ∈ s.uses, u ∈ S.uses; rw [hus]; exact fun _ h => h)
      (by
        intro g i X hX
        left
        have : (S.cache g).get i = some X := by cases g <;> exact hX
        rwa [hca] at this)
      (by
        intro rs' X hX
        have hX : S.blockCache.get rs' = some X := hX
        rw [hbl, HMap.get_insert] at hX
        by_cases hr : rs = rs'
        · rw [if_pos hr] at hX; cases hX; exact .inr ⟨rfl, hr.symm⟩
        · rw [if_neg hr] at hX; exact .inl hX)
    exact ⟨h1, h2, h.le, by show s.nextRuleId < S.nextRuleId + 1; omega, h3⟩

theorem ItemOk.mono {s s' : ProdState} (h : RunInv E N s) (h' : RunInv E N s') (he : Ext s s') {x : Item}
    (hx : ItemOk s.grammar.vocabulary x) : ItemOk s'.grammar.vocabulary x := by
  cases x with
  | t a => rw [ItemOk, he.terminals]; exact hx
  | nt B =>
    rw [ItemOk, h'.ids]
    rcases (h.ids B).1 hx with h1 | h1
    · exact .inl h1
    · exact .inr ⟨h1.1, Nat.lt_of_lt_of_le h1.2 he.le⟩

mutual
/-- what elaborating an element does -/
theorem elabElem_inv (e : Elem) {s s' : ProdState} {x : Item} (h : RunInv E N s)
    (hr : elabElem e s = .ok (x, s')) :
    RunInv E N s' ∧ Ext s s' ∧ ItemOk s'.grammar.vocabulary x ∧
      (NoClash s'.uses → Rep E s'.nextRuleId s'.grammar.productions e x) := by
  cases e with
  | tok n =>
    rw [elabElem, bind_eq_ok] at hr
    obtain ⟨a, ha, hr⟩ := hr
    cases hr
    rw [unwrap_eq_ok, h.tok] at ha
    exact ⟨h, Ext.refl _, h.tokOk n a ha, fun _ => by rw [Rep]; exact ⟨a, ha, rfl⟩⟩
  | ref n =>
    rw [elabElem, bind_eq_ok] at hr
    obtain ⟨a, ha, hr⟩ := hr
    cases hr
    rw [unwrap_eq_ok, h.nt] at ha
    exact ⟨h, Ext.refl _, (h.ids a).2 (.inl (h.ntOk n a ha)), fun _ => by rw [Rep]; exact ⟨a, ha, rfl⟩⟩
  | group alts =>
    rw [elabElem, bind_eq_ok] at hr
    obtain ⟨⟨rs, s1⟩, ha, hr⟩ := hr
    obtain ⟨h1, h2, h3, h4⟩ := elabAlts_inv alts h ha
    obtain ⟨g1, g2, g3, g4, g5⟩ := finishBlock_inv rs h1 h3
    cases hr
    refine ⟨g1, h2.trans g2, (g1.ids _).2 (.inr ⟨g3, g4⟩), fun hc => ?_⟩
    rw [Rep]
    exact ⟨_, rs, rfl, g3, g4, RepAlts.mono g2.le (fun X β _ hX => g2.prods X β hX) alts rs
      (h4 (hc.mono g2)), g5⟩
  | rep f e =>
    rw [elabElem, bind_eq_ok] at hr
    obtain ⟨⟨y, s1⟩, ha, hr⟩ := hr
    obtain ⟨h1, h2, h3, h4⟩ := elabElem_inv e h ha
    obtain ⟨g1, g2, X, z, g3, g4, g5, g6, g7, g8, g9⟩ := applySuffix_inv f y h1 h3
    have hr : applySuffix f y s1 = (x, s') := Except.ok.inj hr
    rw [hr] at g1 g2 g3 g5 g7 g8 g9
    dsimp only at g1 g2 g3 g5 g7 g8 g9
    subst g3
    refine ⟨g1, h2.trans g2, (g1.ids _).2 (.inr ⟨g4, g5⟩), fun hc => ?_⟩
    have hyz : y = z := hc f y z g7 g8 g6.symm
    subst hyz
    rw [Rep]
    exact ⟨X, y, rfl, g4, g5, Rep.mono g2.le (fun X β _ hX => g2.prods X β hX) e y (h4 (hc.mono g2)), g9⟩
theorem elabSeq_inv (es : List Elem) {s s' : ProdState} {α : List Item} (h : RunInv E N s)
    (hr : elabSeq es s = .ok (α, s')) :
    RunInv E N s' ∧ Ext s s' ∧ (∀ x ∈ α, ItemOk s'.grammar.vocabulary x) ∧
      (NoClash s'.uses → RepSeq E s'.nextRuleId s'.grammar.productions es α) := by
  cases es with
  | nil => rw [elabSeq] at hr; cases hr; exact ⟨h, Ext.refl _, by simp, fun _ => by rw [RepSeq]⟩
  | cons e es =>
    rw [elabSeq, bind_eq_ok] at hr
    obtain ⟨⟨x, s1⟩, ha, hr⟩ := hr
    rw [bind_eq_ok] at hr
    obtain ⟨⟨α', s2⟩, hb, hr⟩ := hr
    cases hr
    obtain ⟨h1, h2, h3, h4⟩ := elabElem_inv e h ha
    obtain ⟨g1, g2, g3, g4⟩ := elabSeq_inv es h1 hb
    refine ⟨g1, h2.trans g2, ?_, fun hc => ?_⟩
    · intro z hz
      rcases List.mem_cons.1 hz with rfl | hz
      · exact ItemOk.mono h1 g1 g2 h3
      · exact g3 z hz
    · rw [RepSeq]
      exact ⟨x, α', rfl, Rep.mono g2.le (fun X β _ hX => g2.prods X β hX) e x (h4 (hc.mono g2)), g4 hc⟩
theorem elabAlts_inv (as : List (List Elem)) {s s' : ProdState} {rs : List (List Item)} (h : RunInv E N s)
    (hr : elabAlts as s = .ok (rs, s')) :
    RunInv E N s' ∧ Ext s s' ∧ (∀ β ∈ rs, ∀ x ∈ β, ItemOk s'.grammar.vocabulary x) ∧
      (NoClash s'.uses → RepAlts E s'.nextRuleId s'.grammar.productions as rs) := by
  cases as with
  | nil => rw [elabAlts] at hr; cases hr; exact ⟨h, Ext.refl _, by simp, fun _ => by rw [RepAlts]⟩
  | cons a as =>
    rw [elabAlts, bind_eq_ok] at hr
    obtain ⟨⟨β, s1⟩, ha, hr⟩ := hr
    rw [bind_eq_ok] at hr
    obtain ⟨⟨rs', s2⟩, hb, hr⟩ := hr
    cases hr
    obtain ⟨h1, h2, h3, h4⟩ := elabSeq_inv a h ha
    obtain ⟨g1, g2, g3, g4⟩ := elabAlts_inv as h1 hb
    refine ⟨g1, h2.trans g2, ?_, fun hc => ?_⟩
    · intro γ hγ z hz
      rcases List.mem_cons.1 hγ with rfl | hγ
      · exact ItemOk.mono h1 g1 g2 (h3 z hz)
      · exact g3 γ hγ z hz
    · rw [RepAlts]
      exact ⟨β, rs', rfl, RepSeq.mono g2.le (fun X β _ hX => g2.prods X β hX) a β (h4 (hc.mono g2)), g4 hc⟩
end

/-- what elaborating named rules changes: productions of anonymous rules stay -/
structure ExtN (E : Env) (s s' : ProdState) : Prop where
  le : s.nextRuleId ≤ s'.nextRuleId
  prods : ∀ X β, E.base ≤ X → X < s.nextRuleId → ((⟨X, β⟩ : Production) ∈ s'.grammar.productions ↔
    (⟨X, β⟩ : Production) ∈ s.grammar.productions)
  mono : ∀ p ∈ s.grammar.productions, p ∈ s'.grammar.productions
  uses : ∀ u ∈ s.uses, u ∈ s'.uses

theorem ExtN.refl (s : ProdState) : ExtN E s s :=
  ⟨Nat.le_refl _, fun _ _ _ _ => Iff.rfl, fun _ h => h, fun _ h => h⟩

theorem ExtN.trans {s s' s'' : ProdState} (h : ExtN E s s') (h' : ExtN E s' s'') : ExtN E s s'' :=
  ⟨Nat.le_trans h.le h'.le,
    fun X β hb hX => (h'.prods X β hb (Nat.lt_of_lt_of_le hX h.le)).trans (h.prods X β hb hX),
    fun p hp => h'.mono p (h.mono p hp), fun u hu => h'.uses u (h.uses u hu)⟩

theorem Ext.toN {s s' : ProdState} (hs : RunInv E N s) (h : Ext s s') : ExtN E s s' :=
  ⟨h.le, fun X β _ hX => h.prods X β hX, fun p hp => (h.prods p.left p.right (hs.fresh p hp)).2 hp, h.uses⟩

theorem insertNamed_inv {s : ProdState} (h : RunInv E N s) {A : Nat} (hA : A ∈ N) (β : List Item) (line : Str)
    (hβ : ∀ x ∈ β, ItemOk s.grammar.vocabulary x) :
    RunInv E N (s.insertOrPrint ⟨A, β⟩ line) ∧ ExtN E s (s.insertOrPrint ⟨A, β⟩ line) := by
  have hv : (s.insertOrPrint ⟨A, β⟩ line).grammar.vocabulary = s.grammar.vocabulary := insertProduction_vocabulary _ _
  have hp : ∀ q, q ∈ (s.insertOrPrint ⟨A, β⟩ line).grammar.productions ↔ q ∈ s.grammar.productions ∨ q = ⟨A, β⟩ :=
    mem_insertProduction _ _
  have hold : ∀ X γ, E.base ≤ X → ((⟨X, γ⟩ : Production) ∈ (s.insertOrPrint ⟨A, β⟩ line).grammar.productions ↔
      (⟨X, γ⟩ : Production) ∈ s.grammar.productions) := by
    intro X γ hX
    rw [hp]
    constructor
    · rintro (h1 | h1)
      · exact h1
      · cases h1
        exact absurd (h.old A hA) (by omega)
    · exact .inl
  refine ⟨⟨h.le, ?_, ?_, ?_, h.ntOk, h.inj, h.old, ?_, ?_, ?_, insertProduction_nodup _ _ h.nodup, ?_, ?_,
    h.alloc, h.allocNodup⟩,
    Nat.le_refl _, fun X γ hb _ => hold X γ hb, fun p h1 => (hp p).2 (.inl h1), fun _ h => h⟩
  · intro n; rw [hv]; exact h.tok n
  · intro n; rw [hv]; exact h.nt n
  · intro n a ha; rw [hv]; exact h.tokOk n a ha
  · intro i; rw [hv]; exact h.ids i
  · intro i n hi; rw [hv] at hi; exact h.named i n hi
  · intro p h1
    rw [hv]
    rcases (hp p).1 h1 with h1 | rfl
    · exact h.closed p h1
    · exact ⟨(h.ids A).2 (.inl hA), hβ⟩
  · intro f i X hX
    obtain ⟨a, b, y, c, d, e⟩ := h.cache f i X (by cases f <;> exact hX)
    exact ⟨a, b, y, c, d, fun γ => by rw [hold X γ a]; exact e γ⟩
  · intro rs X hX
    obtain ⟨a, b, c⟩ := h.block rs X hX
    exact ⟨a, b, fun γ => by rw [hold X γ a]; exact c γ⟩

theorem elabNamed_inv {A : Nat} (hA : A ∈ N) (as : List (List Elem)) {s s' : ProdState} (h : RunInv E N s)
    (hr : elabNamed A as s = .ok s') :
    RunInv E N s' ∧ ExtN E s s' ∧
      (∀ B γ, B < E.base → B ≠ A → (⟨B, γ⟩ : Production) ∈ s'.grammar.productions →
        (⟨B, γ⟩ : Production) ∈ s.grammar.productions) ∧
      (NoClash s'.uses →
        (∀ β, (⟨A, β⟩ : Production) ∈ s'.grammar.productions → (⟨A, β⟩ : Production) ∈ s.grammar.productions ∨
          ∃ alt ∈ as, RepSeq E s'.nextRuleId s'.grammar.productions alt β) ∧
        (∀ alt ∈ as, ∃ β, (⟨A, β⟩ : Production) ∈ s'.grammar.productions ∧
          RepSeq E s'.nextRuleId s'.grammar.productions alt β)) := by
  induction as generalizing s with
  | nil =>
    rw [elabNamed] at hr
    cases hr
    exact ⟨h, .refl _, fun _ _ _ _ h => h, fun _ => ⟨fun _ h => .inl h, by simp⟩⟩
  | cons a as ih =>
    rw [elabNamed, bind_eq_ok] at hr
    obtain ⟨⟨β, s1⟩, ha, hr⟩ := hr
    dsimp only at hr
    obtain ⟨h1, h2, h3, h4⟩ := elabSeq_inv a h ha
    obtain ⟨g1, g2⟩ := insertNamed_inv h1 hA β _ h3
    obtain ⟨k1, k2, k3, k4⟩ := ih g1 hr
    have hp : ∀ q, q ∈ (s1.insertOrPrint ⟨A, β⟩ (chars! "产生式重复")).grammar.productions ↔ q ∈ s1.grammar.productions ∨ q = ⟨A, β⟩ :=
      mem_insertProduction _ _
    have hbase : ∀ B γ, B < E.base → (⟨B, γ⟩ : Production) ∈ s1.grammar.productions →
        (⟨B, γ⟩ : Production) ∈ s.grammar.productions :=
      fun B γ hB hm => (h2.prods B γ (Nat.lt_of_lt_of_le hB h.le)).1 hm
    refine ⟨k1, ((h2.toN h).trans g2).trans k2, ?_, ?_⟩
    · intro B γ hB hne hm
      rcases (hp _).1 (k3 B γ hB hne hm) with h5 | h5
      · exact hbase B γ hB h5
      · cases h5; exact absurd rfl hne
    · intro hc
      obtain ⟨m1, m2⟩ := k4 hc
      have hrep : RepSeq E s'.nextRuleId s'.grammar.productions a β :=
        RepSeq.mono (g2.trans k2).le (fun X γ hb hX => (g2.trans k2).prods X γ hb hX) a β
          (h4 (fun f x y hx hy => hc f x y ((g2.trans k2).uses _ hx) ((g2.trans k2).uses _ hy)))
      constructor
      · intro γ hγ
        rcases m1 γ hγ with h5 | ⟨alt, h5, h6⟩
        · rcases (hp _).1 h5 with h5 | h5
          · exact .inl (hbase A γ (h.old A hA) h5)
          · cases h5
            exact .inr ⟨a, by simp, hrep⟩
        · exact .inr ⟨alt, by simp [h5], h6⟩
      · intro alt halt
        rcases List.mem_cons.1 halt with rfl | halt
        · exact ⟨β, k2.mono _ ((hp _).2 (.inr rfl)), hrep⟩
        · exact m2 alt halt

theorem elabRules_inv (rs : Rules) {s s' : ProdState} (h : RunInv E N s) (hr : elabRules rs s = .ok s') :
    RunInv E N s' ∧ ExtN E s s' ∧ (∀ n alts, (n, alts) ∈ rs → ∃ A, E.nt n = some A) ∧
      (NoClash s'.uses →
        (∀ A β, A < E.base → (⟨A, β⟩ : Production) ∈ s'.grammar.productions →
          (⟨A, β⟩ : Production) ∈ s.grammar.productions ∨
          ∃ n alts alt, E.nt n = some A ∧ (n, alts) ∈ rs ∧ alt ∈ alts ∧
            RepSeq E s'.nextRuleId s'.grammar.productions alt β) ∧
        (∀ n alts alt A, (n, alts) ∈ rs → alt ∈ alts → E.nt n = some A →
          ∃ β, (⟨A, β⟩ : Production) ∈ s'.grammar.productions ∧
            RepSeq E s'.nextRuleId s'.grammar.productions alt β)) := by
  induction rs generalizing s with
  | nil =>
    rw [elabRules] at hr
    cases hr
    exact ⟨h, .refl _, by simp, fun _ => ⟨fun _ _ _ h => .inl h, by simp⟩⟩
  | cons r rs ih =>
    obtain ⟨n, alts⟩ := r
    rw [elabRules, bind_eq_ok] at hr
    obtain ⟨A, hA, hr⟩ := hr
    rw [unwrap_eq_ok, h.nt] at hA
    rw [bind_eq_ok] at hr
    obtain ⟨s1, h1, hr⟩ := hr
    obtain ⟨a1, a2, a3, a4⟩ := elabNamed_inv (h.ntOk n A hA) alts h h1
    obtain ⟨b1, b2, b3, b4⟩ := ih a1 hr
    refine ⟨b1, a2.trans b2, ?_, fun hc => ?_⟩
    · intro m as hm
      rcases List.mem_cons.1 hm with hm | hm
      · cases hm; exact ⟨A, hA⟩
      · exact b3 m as hm
    · obtain ⟨c1, c2⟩ := a4 (fun f x y hx hy => hc f x y (b2.uses _ hx) (b2.uses _ hy))
      obtain ⟨d1, d2⟩ := b4 hc
      have lift : ∀ alt β, RepSeq E s1.nextRuleId s1.grammar.productions alt β →
          RepSeq E s'.nextRuleId s'.grammar.productions alt β :=
        fun alt β => RepSeq.mono b2.le (fun X γ hb hX => b2.prods X γ hb hX) alt β
      constructor
      · intro B β hB hm
        rcases d1 B β hB hm with h5 | ⟨m, as, alt, h5, h6, h7, h8⟩
        · by_cases hBA : B = A
          · subst hBA
            rcases c1 β h5 with h6 | ⟨alt, h6, h7⟩
            · exact .inl h6
            · exact .inr ⟨n, alts, alt, hA, by simp, h6, lift _ _ h7⟩
          · exact .inl (a3 B β hB hBA h5)
        · exact .inr ⟨m, as, alt, h5, by simp [h6], h7, h8⟩
      · intro m as alt B hm halt hB
        rcases List.mem_cons.1 hm with hm | hm
        · cases hm
          rw [hA] at hB
          cases hB
          obtain ⟨β, h5, h6⟩ := c2 alt halt
          exact ⟨β, b2.mono _ h5, lift _ _ h6⟩
        · exact d2 m as alt B hm halt hB

end
end Syntaxis
