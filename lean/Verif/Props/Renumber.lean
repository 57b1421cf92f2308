import Verif.Spec.Renumber
import Verif.Props.RuleOrder
import Verif.Props.ParserErrors

/-!
# C99: the numbers of the token types, and with them the order of the lexer rules, make no difference
-/

namespace Syntaxis
open Grammar

variable {τ : Nat → Nat} {P Q : List Production}

theorem Item.renum_inj (hτ : Function.Injective τ) : Function.Injective (Item.renum τ) := by
  intro x y h
  cases x <;> cases y <;> simp only [Item.renum, Item.nt.injEq, Item.t.injEq, reduceCtorEq] at h
  · rw [h]
  · rw [hτ h]

theorem Production.renum_inj (hτ : Function.Injective τ) : Function.Injective (Production.renum τ) := by
  intro p q h
  simp only [Production.renum, Production.mk.injEq] at h
  cases p; cases q
  simp only [Production.mk.injEq]
  exact ⟨h.1, List.map_injective_iff.2 (Item.renum_inj hτ) h.2⟩

theorem map_renum_append {α u v : List Item} (h : α.map (Item.renum τ) = u ++ v) :
    ∃ u0 v0, α = u0 ++ v0 ∧ u = u0.map (Item.renum τ) ∧ v = v0.map (Item.renum τ) := by
  obtain ⟨u0, v0, h1, h2, h3⟩ := List.map_eq_append_iff.1 h
  exact ⟨u0, v0, h1, h2.symm, h3.symm⟩

theorem map_renum_nt {α : List Item} {A : Nat} {v : List Item} (h : α.map (Item.renum τ) = .nt A :: v) :
    ∃ v0, α = .nt A :: v0 ∧ v = v0.map (Item.renum τ) := by
  cases α with
  | nil => cases h
  | cons x α =>
    simp only [List.map_cons, List.cons.injEq] at h
    cases x with
    | t a => simp [Item.renum] at h
    | nt B =>
      simp only [Item.renum, Item.nt.injEq] at h
      exact ⟨α, by rw [h.1], h.2.symm⟩

theorem map_renum_t {α : List Item} {a : Nat} {v : List Item} (h : α.map (Item.renum τ) = .t a :: v) :
    ∃ b v0, α = .t b :: v0 ∧ a = τ b ∧ v = v0.map (Item.renum τ) := by
  cases α with
  | nil => cases h
  | cons x α =>
    simp only [List.map_cons, List.cons.injEq] at h
    cases x with
    | nt B => simp [Item.renum] at h
    | t b =>
      simp only [Item.renum, Item.t.injEq] at h
      exact ⟨b, α, rfl, h.1.symm, h.2.symm⟩

/-- the productions are the same up to the numbers -/
def RenumOf (τ : Nat → Nat) (P Q : List Production) : Prop := ∀ p, p ∈ Q ↔ ∃ q ∈ P, p = q.renum τ

theorem Derives.renum (h : RenumOf τ P Q) {α β : List Item} (hd : Derives P α β) :
    Derives Q (α.map (Item.renum τ)) (β.map (Item.renum τ)) := by
  induction hd with
  | refl => exact Relation.ReflTransGen.refl
  | tail _ hs ih =>
    refine ih.tail ?_
    cases hs with
    | mk p hp u v =>
      have := Step.mk (p.renum τ) ((h _).2 ⟨p, hp, rfl⟩) (u.map (Item.renum τ)) (v.map (Item.renum τ))
      simpa [Production.renum, Item.renum] using this

theorem Derives.of_renum (h : RenumOf τ P Q) {α γ : List Item} (hd : Derives Q (α.map (Item.renum τ)) γ) :
    ∃ β, γ = β.map (Item.renum τ) ∧ Derives P α β := by
  induction hd with
  | refl => exact ⟨α, rfl, Relation.ReflTransGen.refl⟩
  | tail _ hs ih =>
    obtain ⟨β, rfl, hd⟩ := ih
    generalize hβ : β.map (Item.renum τ) = δ at hs
    cases hs with
    | mk p hp u v =>
      obtain ⟨q, hq, rfl⟩ := (h _).1 hp
      obtain ⟨u0, v0, rfl, rfl, h2⟩ := map_renum_append hβ
      obtain ⟨v1, rfl, rfl⟩ := map_renum_nt h2.symm
      exact ⟨u0 ++ (q.right ++ v1), by simp [Production.renum], hd.tail (Step.mk q hq u0 v1)⟩

theorem Nullable.renum_iff (h : RenumOf τ P Q) {α : List Item} : Nullable Q (α.map (Item.renum τ)) ↔ Nullable P α := by
  constructor
  · intro hn
    obtain ⟨β, e, hd⟩ := Derives.of_renum h hn
    rw [List.map_eq_nil_iff.1 e.symm] at hd
    exact hd
  · exact fun hn => Derives.renum h hn

theorem InFirst.renum_iff (h : RenumOf τ P Q) {α : List Item} {t : Nat} :
    InFirst Q (α.map (Item.renum τ)) t ↔ ∃ s, t = τ s ∧ InFirst P α s := by
  constructor
  · rintro ⟨β, hd⟩
    obtain ⟨γ, e, hd'⟩ := Derives.of_renum h hd
    obtain ⟨b, v0, rfl, rfl, rfl⟩ := map_renum_t e.symm
    exact ⟨b, rfl, v0, hd'⟩
  · rintro ⟨s, rfl, β, hd⟩
    exact ⟨β.map (Item.renum τ), by simpa [Item.renum] using Derives.renum h hd⟩

theorem InFollow.renum_iff (h : RenumOf τ P Q) (h1 : τ 1 = 1) {B t : Nat} :
    InFollow Q B t ↔ ∃ s, t = τ s ∧ InFollow P B s := by
  have nt1 : ∀ A, [Item.nt A] = [Item.nt A].map (Item.renum τ) := fun A => rfl
  constructor
  · rintro (⟨A, u, v, hd⟩ | ⟨rfl, u, hd⟩)
    · rw [nt1] at hd
      obtain ⟨γ, e, hd'⟩ := Derives.of_renum h hd
      obtain ⟨u0, v0, rfl, rfl, h2⟩ := map_renum_append e.symm
      obtain ⟨v1, rfl, h3⟩ := map_renum_nt h2.symm
      obtain ⟨b, v2, rfl, rfl, rfl⟩ := map_renum_t h3.symm
      exact ⟨b, rfl, .inl ⟨A, u0, v2, hd'⟩⟩
    · rw [nt1] at hd
      obtain ⟨γ, e, hd⟩ := Derives.of_renum h hd
      obtain ⟨u0, v0, rfl, rfl, h2⟩ := map_renum_append e.symm
      obtain ⟨v1, rfl, h3⟩ := map_renum_nt h2.symm
      rw [List.map_eq_nil_iff.1 h3.symm] at hd
      exact ⟨1, h1.symm, .inr ⟨rfl, u0, hd⟩⟩
  · rintro ⟨s, rfl, ⟨A, u, v, hd⟩ | ⟨rfl, u, hd⟩⟩
    · exact .inl ⟨A, u.map (Item.renum τ), v.map (Item.renum τ), by simpa [Item.renum] using Derives.renum h hd⟩
    · exact .inr ⟨h1, u.map (Item.renum τ), by simpa [Item.renum] using Derives.renum h hd⟩

theorem Predicts.renum_iff (h : RenumOf τ P Q) (h1 : τ 1 = 1) {p : Production} {t : Nat} :
    Predicts Q (p.renum τ) t ↔ ∃ s, t = τ s ∧ Predicts P p s := by
  simp only [Predicts, Production.renum, InFirst.renum_iff h, Nullable.renum_iff h, InFollow.renum_iff h h1]
  constructor
  · rintro (⟨s, e, hs⟩ | ⟨hn, s, e, hs⟩)
    · exact ⟨s, e, .inl hs⟩
    · exact ⟨s, e, .inr ⟨hn, hs⟩⟩
  · rintro ⟨s, e, hs | ⟨hn, hs⟩⟩
    · exact .inl ⟨s, e, hs⟩
    · exact .inr ⟨hn, s, e, hs⟩

/-- **C99** the sentences of the renumbered grammar are the renumbered sentences. -/
theorem C99_language {g g' : Grammar} (hg : Renumbered τ g g') (A : Nat) (w : List Nat) :
    Sentence g'.productions A w ↔ ∃ v, w = v.map τ ∧ Sentence g.productions A v := by
  have h : RenumOf τ g.productions g'.productions := hg.productions
  have nt1 : [Item.nt A] = [Item.nt A].map (Item.renum τ) := rfl
  constructor
  · intro hd
    simp only [Sentence] at hd
    rw [nt1] at hd
    obtain ⟨β, e, hd⟩ := Derives.of_renum h hd
    have : ∀ (β : List Item) (w : List Nat), w.map Item.t = β.map (Item.renum τ) → ∃ v : List Nat, w = v.map τ ∧ β = v.map Item.t := by
      intro β
      induction β with
      | nil => intro w e; exact ⟨[], by simpa using e, rfl⟩
      | cons x β ih =>
        intro w e
        cases w with
        | nil => simp at e
        | cons a w =>
          obtain ⟨b, v0, hx, rfl, e⟩ := map_renum_t e.symm
          cases hx
          obtain ⟨v, rfl, rfl⟩ := ih w e
          exact ⟨b :: v, rfl, rfl⟩
    obtain ⟨v, rfl, rfl⟩ := this β w e
    exact ⟨v, rfl, hd⟩
  · rintro ⟨v, rfl, hd⟩
    have := Derives.renum h hd
    simpa [Sentence, Item.renum, Function.comp_def] using this

/-- **C99** for all hash orders, a conflict is printed for the renumbered grammar iff one is printed for the grammar. -/
theorem C99_conflicts {g g' : Grammar} (hg : Renumbered τ g g') (hτ : Function.Injective τ) (h1 : τ 1 = 1)
    {o : IterOrder g} {o' : IterOrder g'} {so so' : SetOrder} {k k' : Nat} {ts ts' : TableState}
    (ht : runTable g o so k = .ok ts) (ht' : runTable g' o' so' k' = .ok ts') : ts'.conflicts = [] ↔ ts.conflicts = [] := by
  have h : RenumOf τ g.productions g'.productions := hg.productions
  rw [C16_conflict_iff_not_ll1 g o so k ts ht, C16_conflict_iff_not_ll1 g' o' so' k' ts' ht']
  constructor
  · intro hl p hp q hq e hne t ⟨h2, h3⟩
    exact hl (p.renum τ) ((h _).2 ⟨p, hp, rfl⟩) (q.renum τ) ((h _).2 ⟨q, hq, rfl⟩) e
      (fun e => hne (Production.renum_inj hτ e)) (τ t)
      ⟨(Predicts.renum_iff h h1).2 ⟨t, rfl, h2⟩, (Predicts.renum_iff h h1).2 ⟨t, rfl, h3⟩⟩
  · intro hl p' hp' q' hq' e hne t ⟨h2, h3⟩
    obtain ⟨p, hp, rfl⟩ := (h _).1 hp'
    obtain ⟨q, hq, rfl⟩ := (h _).1 hq'
    obtain ⟨s, rfl, h2'⟩ := (Predicts.renum_iff h h1).1 h2
    obtain ⟨s', e', h3'⟩ := (Predicts.renum_iff h h1).1 h3
    cases hτ e'
    exact hl p hp q hq e (fun e => hne (by rw [e])) s ⟨h2', h3'⟩

theorem renumList_append (l l' : List Ast) : Ast.renumList τ (l ++ l') = Ast.renumList τ l ++ Ast.renumList τ l' := by
  induction l with
  | nil => rfl
  | cons k l ih => simp only [List.cons_append, Ast.renumList, ih]

/-- the result of `parse_ast`, renumbered -/
def renumResult (τ : Nat → Nat) (x : RuleContext × Nat × MismatchLog) : RuleContext × Nat × MismatchLog :=
  (x.1.renum τ, x.2.1, x.2.2.renum τ)

theorem parseItems_renum (hτ : Function.Injective τ) {ps ps' : Parser} (htok : ps'.tokens = ps.tokens.map (Token.renum τ))
    (hnm : ∀ A, ps'.vocabulary.getNonterminalNameById A = ps.vocabulary.getNonterminalNameById A)
    {call call' : Nat → Nat → Res (RuleContext × Nat × MismatchLog)}
    (hc : ∀ c A, call' c A = (call c A).map (renumResult τ)) (α : List Item) (cs : List Ast) (c : Nat) (l : MismatchLog) :
    ps'.parseItems call' (α.map (Item.renum τ)) ⟨Ast.renumList τ cs, c, l.renum τ⟩ =
      (ps.parseItems call α ⟨cs, c, l⟩).map fun st => ⟨Ast.renumList τ st.children, st.cursor, st.log.renum τ⟩ := by
  induction α generalizing cs c l with
  | nil => rfl
  | cons x α ih =>
    cases x with
    | t a =>
      simp only [List.map_cons, Item.renum, Parser.parseItems, Parser.tokenAt, htok, List.getElem?_map]
      cases ps.tokens[c]? with
      | none => rfl
      | some tok =>
        simp only [Option.map_some, unwrap_some, bind_ok]
        rw [← ih]
        congr 2
        · rw [renumList_append]; rfl
        · simp only [Token.renum, ne_eq, hτ.eq_iff]
          split <;> simp [MismatchLog.renum]
    | nt A =>
      simp only [List.map_cons, Item.renum, Parser.parseItems, hc, hnm]
      cases call c A with
      | error e => rfl
      | ok x =>
        obtain ⟨r, c', l'⟩ := x
        simp only [Except.map, bind_ok, renumResult]
        have : MismatchLog.renum τ l ++ MismatchLog.renum τ l' = MismatchLog.renum τ (l ++ l') := by simp [MismatchLog.renum]
        rw [this]
        cases ps.vocabulary.getNonterminalNameById A with
        | none =>
          have := ih (cs ++ r.children) c' (l ++ l')
          rw [renumList_append] at this
          exact this
        | some n =>
          have := ih (cs ++ [r.toAst]) c' (l ++ l')
          rw [renumList_append] at this
          exact this

theorem parseAst_renum (hτ : Function.Injective τ) {ps ps' : Parser} (htok : ps'.tokens = ps.tokens.map (Token.renum τ))
    (hnm : ∀ A, ps'.vocabulary.getNonterminalNameById A = ps.vocabulary.getNonterminalNameById A)
    (htab : ∀ A t, ps'.table.get (A, τ t) = (ps.table.get (A, t)).map (Production.renum τ)) (fuel c A : Nat) :
    ps'.parseAst fuel c A = (ps.parseAst fuel c A).map (renumResult τ) := by
  induction fuel generalizing c A with
  | zero => rfl
  | succ fuel ih =>
    simp only [Parser.parseAst, Parser.tokenAt, htok, List.getElem?_map]
    cases ps.tokens[c]? with
    | none => rfl
    | some tok =>
      simp only [Option.map_some, unwrap_some, bind_ok, Token.renum, htab]
      cases ps.table.get (A, tok.tokenType) with
      | none => rfl
      | some p =>
        simp only [Option.map_some, unwrap_some, bind_ok, Production.renum]
        have := parseItems_renum hτ htok hnm ih p.right [] c []
        simp only [Ast.renumList, MismatchLog.renum, List.map_nil] at this
        rw [this]
        cases ps.parseItems (ps.parseAst fuel) p.right ⟨[], c, []⟩ with
        | error e => rfl
        | ok st =>
          simp only [Except.map, bind_ok, renumResult, RuleContext.renum, MismatchLog.renum,
            Vocabulary.getNonterminalNameWithDefault]
          have := hnm A
          simp only [Vocabulary.getNonterminalNameById] at this
          simp [this]

theorem table_renum {g g' : Grammar} (hg : Renumbered τ g g') (hτ : Function.Injective τ) (h1 : τ 1 = 1)
    {o : IterOrder g} {o' : IterOrder g'} {so so' : SetOrder} {k k' : Nat} {ts ts' : TableState}
    (ht : runTable g o so k = .ok ts) (ht' : runTable g' o' so' k' = .ok ts') (hc : ts.conflicts = []) (A t : Nat) :
    ts'.table.get (A, τ t) = (ts.table.get (A, t)).map (Production.renum τ) := by
  have h : RenumOf τ g.productions g'.productions := hg.productions
  have hc' := (C99_conflicts hg hτ h1 ht ht').2 hc
  cases e : ts.table.get (A, t) with
  | some p =>
    obtain ⟨p1, rfl, p3⟩ := tableSound_of ht _ _ _ e
    exact tableComplete_of ht' hc' (p.renum τ) ((h _).2 ⟨p, p1, rfl⟩) (τ t) ((Predicts.renum_iff h h1).2 ⟨t, rfl, p3⟩)
  | none =>
    cases e' : ts'.table.get (A, τ t) with
    | none => rfl
    | some p' =>
      obtain ⟨p1, rfl, p3⟩ := tableSound_of ht' _ _ _ e'
      obtain ⟨p, hp, rfl⟩ := (h _).1 p1
      obtain ⟨s, es, p3⟩ := (Predicts.renum_iff h h1).1 p3
      cases hτ es
      have := tableComplete_of ht hc p hp t p3
      have e : ts.table.get (p.left, t) = none := e
      rw [e] at this
      cases this

/-- **C99** without conflicts, the parser of the renumbered grammar does with the renumbered tokens exactly what the parser
of the grammar does with the tokens, to every depth of the recursion: the same tree with the same messages, renumbered, or a
panic. -/
theorem C99_parse {g g' : Grammar} (hg : Renumbered τ g g') (hτ : Function.Injective τ) (h1 : τ 1 = 1)
    {o : IterOrder g} {o' : IterOrder g'} {so so' : SetOrder} {k k' : Nat} {ts ts' : TableState}
    (ht : runTable g o so k = .ok ts) (ht' : runTable g' o' so' k' = .ok ts') (hc : ts.conflicts = [])
    (toks : List Token) (A fuel : Nat) :
    (parserOf g' ts' (toks.map (Token.renum τ))).parseRule A fuel =
      ((parserOf g ts toks).parseRule A fuel).map fun r => (r.1.renum τ, r.2.renum τ) := by
  simp only [Parser.parseRule]
  rw [parseAst_renum (ps := parserOf g ts toks) hτ rfl hg.names (table_renum hg hτ h1 ht ht' hc)]
  cases (parserOf g ts toks).parseAst fuel 0 A <;> rfl

/-! ## from the text -/

theorem lexes_same {ms ms' : List Matcher} (hs : ∀ m, m ∈ ms ↔ m ∈ ms') {s rem rem' : Str} {out out' : List (Nat × Str)}
    (h : Lexes ms s out rem) (h' : Lexes ms' s out' rem') : out.length = out'.length ∧ rem = rem' := by
  induction h generalizing out' with
  | stop rest hn =>
    generalize hr : rest = s at h'
    cases h' with
    | stop => subst hr; exact ⟨rfl, rfl⟩
    | step hw _ => subst hr; exact absurd ((noMatch_same hs).1 hn) hw.not_noMatch
  | @step u v rem i out hw _ ih =>
    generalize hr : u ++ v = s at h'
    cases h' with
    | stop _ hn => subst hr; exact absurd ((noMatch_same hs).2 hn) hw.not_noMatch
    | @step u' v' _ i' out' hw' hl' =>
      rw [hr] at hw
      have en := wins_same hs hw hw'
      have : v = v' := by
        rcases List.append_eq_append_iff.1 hr with ⟨a, ha, hb⟩ | ⟨a, ha, hb⟩
        · subst ha
          rw [byteLen_append] at en
          have : a = [] := byteLen_eq_zero.1 (by omega)
          subst this
          simpa using hb
        · subst ha
          rw [byteLen_append] at en
          have : a = [] := byteLen_eq_zero.1 (by omega)
          subst this
          simpa using hb.symm
      subst this
      obtain ⟨e1, e2⟩ := ih hl'
      exact ⟨by simp [e1], e2⟩

/-- the numbers of two orders of the same rules correspond -/
theorem C99_numbering (rs rs' : List (Matcher × Str)) (hp : rs.Perm rs') (hn : (ruleNames rs).Nodup) :
    ∃ τ : Nat → Nat, Function.Injective τ ∧ τ 1 = 1 ∧
      ∀ i < (ruleNames rs).length, (ruleNames rs')[τ i]? = (ruleNames rs)[i]? := by
  have hperm : (ruleNames rs).Perm (ruleNames rs') := .cons _ (.cons _ (hp.map _))
  have hn' := hperm.nodup_iff.1 hn
  have hl := hperm.length_eq
  let τ : Nat → Nat := fun i => if h : i < (ruleNames rs).length then (ruleNames rs').idxOf (ruleNames rs)[i] else i
  have hin : ∀ i (h : i < (ruleNames rs).length), τ i < (ruleNames rs').length := by
    intro i h
    simp only [τ, dif_pos h]
    exact List.idxOf_lt_length_iff.2 (hperm.mem_iff.1 (List.getElem_mem h))
  have hget : ∀ i (h : i < (ruleNames rs).length), (ruleNames rs')[τ i]? = some (ruleNames rs)[i] := by
    intro i h
    rw [List.getElem?_eq_getElem (hin i h)]
    simp only [τ, dif_pos h, List.getElem_idxOf]
  refine ⟨τ, ?_, ?_, fun i h => by rw [hget i h, List.getElem?_eq_getElem h]⟩
  · intro i j e
    by_cases hi : i < (ruleNames rs).length
    · by_cases hj : j < (ruleNames rs).length
      · have := hget i hi
        rw [e, hget j hj] at this
        exact ((List.Nodup.getElem_inj_iff hn).1 (Option.some.inj this)).symm
      · have := hin i hi
        rw [e] at this
        simp only [τ, dif_neg hj] at this
        omega
    · by_cases hj : j < (ruleNames rs).length
      · have := hin j hj
        rw [← e] at this
        simp only [τ, dif_neg hi] at this
        omega
      · simpa only [τ, dif_neg hi, dif_neg hj] using e
  · have h1 : 1 < (ruleNames rs).length := by simp [ruleNames]
    have h2 := hget 1 h1
    have h3 : (ruleNames rs')[1]? = some (ruleNames rs)[1] := rfl
    obtain ⟨a1, a2⟩ := List.getElem?_eq_some_iff.1 h2
    obtain ⟨b1, b2⟩ := List.getElem?_eq_some_iff.1 h3
    exact (List.Nodup.getElem_inj_iff hn').1 (a2.trans b2.symm)

/-- **C99** the order of the lexer rules makes no difference: if no two rules report the same match anywhere in the input,
and the grammar is renumbered with the rules, then both lexers print the same, the tokens of one are the renumbered tokens of
the other, and the parsers return the same up to the numbers. -/
theorem C99_text (rs rs' : List (Matcher × Str)) (hp : rs.Perm rs') (hm : ∀ r ∈ rs, r.1.Ok) (hn : (ruleNames rs).Nodup)
    (hτ : Function.Injective τ) (hi : ∀ i < (ruleNames rs).length, (ruleNames rs')[τ i]? = (ruleNames rs)[i]?)
    (input : Str)
    (hd : ∀ rest, rest <:+ input → ∀ r ∈ rs, ∀ r' ∈ rs, ∀ n, 0 < n → r.1 rest = some n → r'.1 rest = some n → r.2 = r'.2)
    {g g' : Grammar} (hg : Renumbered τ g g') {o : IterOrder g} {o' : IterOrder g'} {so so' : SetOrder} {k k' : Nat}
    {ts ts' : TableState} (ht : runTable g o so k = .ok ts) (ht' : runTable g' o' so' k' = .ok ts')
    (hc : ts.conflicts = []) (whiteSpace channel : Nat) :
    ∃ n toks printed l l', (∀ fuel, n ≤ fuel →
        Lexer.scanAll whiteSpace channel fuel (Lexer.new (rs.map Prod.fst) (ruleNames rs) input) = .ok (toks, printed, l) ∧
        Lexer.scanAll (τ whiteSpace) channel fuel (Lexer.new (rs'.map Prod.fst) (ruleNames rs') input) =
          .ok (toks.map (Token.renum τ), printed, l')) ∧
      ∀ fuel, (parserOf g' ts' (toks.map (Token.renum τ))).parse fuel =
        ((parserOf g ts toks).parse fuel).map fun r => (r.1.renum τ, r.2.renum τ) := by
  have hok : LexerOk (rs.map Prod.fst) (ruleNames rs) := by
    refine ⟨fun m hm' => ?_, by simp [ruleNames]⟩
    obtain ⟨r, hr, rfl⟩ := List.mem_map.1 hm'
    exact hm r hr
  have hok' : LexerOk (rs'.map Prod.fst) (ruleNames rs') := by
    refine ⟨fun m hm' => ?_, by simp [ruleNames]⟩
    obtain ⟨r, hr, rfl⟩ := List.mem_map.1 hm'
    exact hm r (hp.mem_iff.2 hr)
  have hperm : (ruleNames rs).Perm (ruleNames rs') := .cons _ (.cons _ (hp.map _))
  have hn' := hperm.nodup_iff.1 hn
  have hs : ∀ m, m ∈ rs.map Prod.fst ↔ m ∈ rs'.map Prod.fst := fun m => (hp.map Prod.fst).mem_iff
  have inj' : ∀ {i j : Nat} {s : Str}, (ruleNames rs')[i]? = some s → (ruleNames rs')[j]? = some s → i = j := by
    intro i j s h1 h2
    obtain ⟨a1, a2⟩ := List.getElem?_eq_some_iff.1 h1
    obtain ⟨b1, b2⟩ := List.getElem?_eq_some_iff.1 h2
    exact (List.Nodup.getElem_inj_iff hn').1 (a2.trans b2.symm)
  have hτ1 : τ 1 = 1 := by
    have := hi 1 (by simp [ruleNames])
    exact inj' (s := "_STOP".toList) (this.trans rfl) rfl
  obtain ⟨out, rem, toks, l, n, h1, h2, h3, h4⟩ := C32_scan_all hok (input := input) whiteSpace channel
  obtain ⟨out', rem', toks', l', n', h1', h2', h3', h4'⟩ := C32_scan_all hok' (input := input) (τ whiteSpace) channel
  obtain ⟨e1, rfl⟩ := lexes_same hs h1 h1'
  have hl : toks.length = toks'.length := by
    have a := congrArg List.length h3
    have b := congrArg List.length h3'
    simp only [List.length_map, List.length_append] at a b
    rw [a, b, e1]
  obtain ⟨hf, -⟩ := scans_same hok hok' hs h2 h2' hl
  have hnm := C97_names rs rs' hp hm hd toks toks' l l' h2 h2' hl
  have htoks : toks' = toks.map (Token.renum τ) := by
    clear h2 h2' h3 h3' h4 h4' hl
    induction hf with
    | nil => rfl
    | @cons t t' _ _ hx _ ih =>
      simp only [List.map_cons, List.cons.injEq, Prod.mk.injEq] at hnm ⊢
      refine ⟨?_, ih hnm.2⟩
      have hty : t'.tokenType = τ t.tokenType := by
        rcases hx.2 with ⟨e, rfl⟩ | ⟨rest, i, i', m, m', q1, q2, q3, q4, q5, q6, q7, q8, q9, q10⟩
        · rw [e, hτ1]
        · rw [q2, q3]
          refine inj' q10 ?_
          rw [hi _ (List.getElem?_eq_some_iff.1 q9).1, q9, hnm.1.1]
      have hpl := hx.1
      simp only [Token.place, Prod.mk.injEq] at hpl
      cases t; cases t'
      simp only [Token.renum, Token.mk.injEq] at *
      simp [hpl, hty, hnm]
  refine ⟨max n n', _, _, _, l', fun fuel hf => ⟨h4 fuel (by omega), ?_⟩, fun fuel =>
    C99_parse hg hτ hτ1 ht ht' hc _ 0 fuel⟩
  rw [h4' fuel (by omega), htoks]
  congr 2
  by_cases hch : channel = 0
  · rw [if_pos hch, if_pos hch, List.filter_map]
    congr 1
    apply List.filter_congr
    intro t _
    simp [Token.renum, hτ.eq_iff]
  · rw [if_neg hch, if_neg hch]; rfl

/-! ## examples -/

/-- `S → a b` with `a` = 3, `b` = 2 -/
def baGrammar : Grammar where
  name := []
  vocabulary := (Vocabulary.new.addNamedNonterminal 0 ['s']).1
  productions := [⟨0, [.t 3, .t 2]⟩]

/-- the only iteration order of it -/
def baOrder : IterOrder baGrammar where
  ids := [0]
  ids_mem := by
    intro i
    have : baGrammar.vocabulary.nonterminals = {0} := by decide
    rw [this]; simp
  ord := baGrammar.productions
  ord_perm := List.Perm.refl _
  ord_nodup := by decide

/-- exchanges 2 and 3 -/
def swap23 (i : Nat) : Nat := if i = 2 then 3 else if i = 3 then 2 else i

/-- non-vacuity: the rules `a`, `b` in the other order; on `ab` the parsers return renumbered trees -/
example : ∃ (rs rs' : List (Matcher × Str)) (ts ts' : TableState), rs.Perm rs' ∧ (∀ r ∈ rs, r.1.Ok) ∧ (ruleNames rs).Nodup ∧
    Function.Injective swap23 ∧ (∀ i < (ruleNames rs).length, (ruleNames rs')[swap23 i]? = (ruleNames rs)[i]?) ∧
    (∀ rest, ∀ r ∈ rs, ∀ r' ∈ rs, ∀ n, 0 < n → r.1 rest = some n → r'.1 rest = some n → r.2 = r'.2) ∧
    Renumbered swap23 abGrammar baGrammar ∧ runTable abGrammar abOrder incSetOrder 5 = .ok ts ∧
    runTable baGrammar baOrder incSetOrder 5 = .ok ts' ∧ ts.conflicts = [] ∧
    ∃ r, (parserOf abGrammar ts [tk 2, tk 3, tk 1]).parse 5 = .ok (r, []) := by
  let a : Matcher × Str := ((Regex.str ['a']).find, ['A'])
  let b : Matcher × Str := ((Regex.str ['b']).find, ['B'])
  have inv : ∀ i, swap23 (swap23 i) = i := by
    intro i
    simp only [swap23]
    split_ifs <;> omega
  have e : ((runTable abGrammar abOrder incSetOrder 5).bind fun ts => (runTable baGrammar baOrder incSetOrder 5).map fun _ =>
      (ts.conflicts, ((parserOf abGrammar ts [tk 2, tk 3, tk 1]).parse 5).toOption.map Prod.snd)) = .ok ([], some []) := by
    decide +kernel
  cases h1 : runTable abGrammar abOrder incSetOrder 5 with
  | error x => rw [h1] at e; cases e
  | ok ts =>
    cases h2 : runTable baGrammar baOrder incSetOrder 5 with
    | error x => rw [h1, h2] at e; cases e
    | ok ts' =>
      rw [h1, h2] at e
      have e := Except.ok.inj e
      simp only [Prod.mk.injEq, Option.map_eq_some_iff] at e
      obtain ⟨e1, ⟨r, l⟩, e2, e3⟩ := e
      simp only at e3
      subst e3
      have e4 : (parserOf abGrammar ts [tk 2, tk 3, tk 1]).parse 5 = .ok (r, []) := by
        cases h3 : (parserOf abGrammar ts [tk 2, tk 3, tk 1]).parse 5 with
        | error x => rw [h3] at e2; cases e2
        | ok y => rw [h3] at e2; simp only [Except.toOption, Option.some.injEq] at e2; rw [e2]
      refine ⟨[a, b], [b, a], ts, ts', .swap .., ?_, by decide +kernel, fun i j h => by rw [← inv i, h, inv j], ?_, ?_,
        ⟨?_, fun A => rfl⟩, rfl, rfl, e1, r, e4⟩
      · intro r hr
        simp only [List.mem_cons, List.not_mem_nil, or_false] at hr
        rcases hr with rfl | rfl <;> exact Regex.find_ok _
      · intro i h
        have h : i < 4 := h
        have : i = 0 ∨ i = 1 ∨ i = 2 ∨ i = 3 := by omega
        rcases this with rfl | rfl | rfl | rfl <;> rfl
      · intro rest r hr r' hr' n hn h h'
        simp only [List.mem_cons, List.not_mem_nil, or_false] at hr hr'
        have no : ∀ n, (Regex.str ['a']).find rest = some n → (Regex.str ['b']).find rest = some n → False := by
          intro n h h'
          cases rest with
          | nil => simp [Regex.find, Regex.str, Regex.run, Regex.lit] at h
          | cons c s =>
            simp [Regex.find, Regex.str, Regex.run, Regex.lit] at h h'
            split_ifs at h h' <;> simp_all
        rcases hr with rfl | rfl <;> rcases hr' with rfl | rfl
        · rfl
        · exact (no n h h').elim
        · exact (no n h' h).elim
        · rfl
      · intro p
        simp [baGrammar, abGrammar, Production.renum, Item.renum, swap23]

end Syntaxis
