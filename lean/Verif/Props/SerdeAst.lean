import Verif.Spec.JsonTree
import Verif.Spec.AstFull

/-! # C41, C42: loading syntax trees from JSON -/

namespace Syntaxis

theorem lookup_eq_some {kvs : List (Str × Json)} {k : Str} {v : Json} :
    kvs.lookup k = some v ↔ ∃ pre post, kvs = pre ++ (k, v) :: post ∧ ∀ e ∈ pre, e.1 ≠ k := by
  induction kvs with
  | nil => simp
  | cons e kvs ih =>
    obtain ⟨k', v'⟩ := e
    rw [List.lookup_cons]
    by_cases h : k = k'
    · subst h
      simp only [BEq.rfl, Option.some.injEq]
      constructor
      · rintro rfl; exact ⟨[], kvs, rfl, by simp⟩
      · rintro ⟨pre, post, he, hp⟩
        cases pre with
        | nil => simpa using (List.cons.inj he).1
        | cons x pre =>
          have := (List.cons.inj he).1
          exact absurd (by rw [← this]) (hp x (by simp))
    · have hb : (k == k') = false := by simpa using h
      simp only [hb]
      rw [ih]
      constructor
      · rintro ⟨pre, post, he, hp⟩
        refine ⟨(k', v') :: pre, post, by simp [he], ?_⟩
        intro e he
        rcases List.mem_cons.1 he with rfl | he
        · exact fun hx => h hx.symm
        · exact hp e he
      · rintro ⟨pre, post, he, hp⟩
        cases pre with
        | nil => exact absurd (congrArg Prod.fst (List.cons.inj he).1).symm h
        | cons x pre =>
          exact ⟨pre, post, (List.cons.inj he).2, fun e he => hp e (by simp [he])⟩

theorem Json.Has.index {j v : Json} {k : String} (h : j.Has k v) : j.index k.toList = v := by
  obtain ⟨kvs, pre, post, rfl, h⟩ := h
  simp only [Json.index, lookup_eq_some.2 ⟨pre, post, h⟩, Option.getD_some]

theorem Json.has_of_index {j v : Json} {k : String} (h : j.index k.toList = v) (hv : v ≠ .null) :
    j.Has k v := by
  cases j with
  | obj kvs =>
    simp only [Json.index] at h
    cases hl : kvs.lookup k.toList with
    | none => rw [hl] at h; exact absurd h.symm hv
    | some w =>
      rw [hl] at h
      subst h
      obtain ⟨pre, post, h⟩ := lookup_eq_some.1 hl
      exact ⟨kvs, pre, post, rfl, h⟩
  | _ => exact absurd h.symm hv

theorem Json.lacks_iff {j : Json} {k : String} : j.Lacks k ↔ (j.index k.toList).isNull = true := by
  constructor
  · intro h
    by_contra hn
    have := h _ (Json.has_of_index rfl (by rintro he; simp [he, Json.isNull] at hn))
    simp [this, Json.isNull] at hn
  · intro h v hv
    rw [hv.index] at h
    cases v <;> simp [Json.isNull] at h ⊢

theorem Json.has_posInt {j : Json} {k : String} {n : Nat} :
    j.Has k (.posInt n) ↔ (j.index k.toList).asU64 = some n := by
  constructor
  · intro h; rw [h.index]; rfl
  · intro h
    refine Json.has_of_index ?_ (by simp)
    cases hj : j.index k.toList <;> rw [hj] at h <;> simp [Json.asU64] at h ⊢
    exact h

theorem Json.has_str {j : Json} {k : String} {s : Str} :
    j.Has k (.str s) ↔ (j.index k.toList).asStr = some s := by
  constructor
  · intro h; rw [h.index]; rfl
  · intro h
    refine Json.has_of_index ?_ (by simp)
    cases hj : j.index k.toList <;> rw [hj] at h <;> simp [Json.asStr] at h ⊢
    exact h

theorem Json.has_size {j : Json} {k : String} {js : List Json} (h : j.Has k (.arr js)) {c : Json}
    (hc : c ∈ js) : sizeOf c < sizeOf j := by
  obtain ⟨kvs, pre, post, rfl, rfl, _⟩ := h
  have h1 := List.sizeOf_lt_of_mem hc
  have h2 := List.sizeOf_lt_of_mem (show (k.toList, Json.arr js) ∈ pre ++ (k.toList, Json.arr js) :: post by simp)
  simp only [Prod.mk.sizeOf_spec, Json.arr.sizeOf_spec, Json.obj.sizeOf_spec] at h2 ⊢
  omega

theorem DenotesToken.eq_new {j : Json} {t : Token} (h : DenotesToken j t) :
    t = Token.new t.tokenType t.tokenName t.text := by
  obtain ⟨a, b, c, d, e, f, g, i, k⟩ := t
  have := h.start; have := h.stop; have := h.channel; have := h.index; have := h.charStart
  have := h.charStop
  simp_all [Token.new]

namespace SerdeAst

theorem parseTerminal_iff {j : Json} (hc : j.Lacks "children") {t : Token} :
    parseTerminal j = some t ↔ DenotesToken j t := by
  unfold parseTerminal
  constructor
  · intro h
    cases h1 : (j.index "token_type".toList).asU64 with
    | none => simp only [h1, reduceCtorEq] at h
    | some ty =>
      cases h2 : (j.index "token_name".toList).asStr with
      | none => simp only [h1, h2, reduceCtorEq] at h
      | some nm =>
        simp only [h1, h2, Option.some.injEq] at h
        subst h
        refine ⟨hc, Json.has_posInt.2 h1, Json.has_str.2 h2, ?_, rfl, rfl, rfl, rfl, rfl, rfl⟩
        cases h3 : (j.index "text".toList).asStr with
        | none => exact .inr ⟨(fun ⟨s, hs⟩ => nomatch (h3.symm.trans (Json.has_str.1 hs))), rfl⟩
        | some s => exact .inl (Json.has_str.2 h3)
  · intro h
    have h1 := Json.has_posInt.1 h.type
    have h2 := Json.has_str.1 h.name
    simp only [h1, h2, Option.some.injEq]
    have h3 : (j.index "text".toList).asStr.getD "<no text>".toList = t.text := by
      rcases h.text with h3 | ⟨h3, h4⟩
      · rw [Json.has_str.1 h3]; rfl
      · cases h5 : (j.index "text".toList).asStr with
        | none => exact h4.symm
        | some s => exact absurd ⟨s, Json.has_str.2 h5⟩ h3
    rw [h3]
    exact h.eq_new.symm

theorem denotes_terminal_of_lacks {j : Json} (hc : j.Lacks "children") {a : Ast} :
    Denotes j a ↔ ∃ t, parseTerminal j = some t ∧ a = .terminal t := by
  constructor
  · intro h
    cases h with
    | terminal h => exact ⟨_, (parseTerminal_iff hc).2 h, rfl⟩
    | rule h1 => exact absurd (hc _ h1) (by simp)
  · rintro ⟨t, h, rfl⟩
    exact .terminal ((parseTerminal_iff hc).1 h)

theorem denotes_rule_of_not_lacks {j : Json} (hc : ¬ j.Lacks "children") {a : Ast} :
    Denotes j a ↔ ∃ r : RuleContext, a = r.toAst ∧ Denotes j r.toAst := by
  constructor
  · intro h
    cases h with
    | terminal h => exact absurd h.noChildren hc
    | rule h1 h2 h3 h4 => exact ⟨⟨_, _, _⟩, rfl, .rule h1 h2 h3 h4⟩
  · rintro ⟨r, rfl, h⟩; exact h

theorem denotesList_cons {j : Json} {js : List Json} {l : List Ast} :
    DenotesList (j :: js) l ↔ ∃ k ks, l = k :: ks ∧ Denotes j k ∧ DenotesList js ks := by
  constructor
  · intro h
    cases h with
    | cons h hs => exact ⟨_, _, rfl, h, hs⟩
  · rintro ⟨k, ks, rfl, h, hs⟩; exact .cons h hs

theorem parseChildren_spec {rule : Json → Res (Option RuleContext)} (js : List Json)
    (ih : ∀ j ∈ js, ∃ o, rule j = .ok o ∧ ∀ r, o = some r ↔ Denotes j r.toAst) :
    ∃ o, parseChildren rule js = .ok o ∧ ∀ ks, o = some ks ↔ DenotesList js ks := by
  induction js with
  | nil =>
    refine ⟨some [], rfl, fun ks => ⟨?_, ?_⟩⟩
    · rintro ⟨⟩; exact .nil
    · intro h; cases h; rfl
  | cons j js ihl =>
    obtain ⟨o, ho, hks⟩ := ihl fun j hj => ih j (by simp [hj])
    unfold parseChildren
    by_cases hc : j.Lacks "children"
    · rw [if_pos (Json.lacks_iff.1 hc)]
      cases hp : parseTerminal j with
      | none =>
        refine ⟨none, rfl, fun ks => ⟨by simp, fun h => ?_⟩⟩
        obtain ⟨k, ks, rfl, h, hs⟩ := denotesList_cons.1 h
        obtain ⟨t, ht, rfl⟩ := (denotes_terminal_of_lacks hc).1 h
        rw [hp] at ht; cases ht
      | some tok =>
        have hd : ∀ k, Denotes j k ↔ k = .terminal tok := fun k => by
          rw [denotes_terminal_of_lacks hc, hp]; simp
        simp only [ho, bind_ok]
        cases o with
        | none =>
          refine ⟨none, rfl, fun ks => ⟨by simp, fun h => ?_⟩⟩
          obtain ⟨k, ks, rfl, h, hs⟩ := denotesList_cons.1 h
          exact absurd ((hks ks).2 hs) (by simp)
        | some ks' =>
          refine ⟨_, rfl, fun ks => ?_⟩
          rw [denotesList_cons]
          simp only [Option.some.injEq, hd, ← hks]
          constructor
          · rintro rfl; exact ⟨_, _, rfl, rfl, rfl⟩
          · rintro ⟨k, ks, rfl, rfl, rfl⟩; rfl
    · rw [if_neg (fun h => hc (Json.lacks_iff.2 h))]
      obtain ⟨o', ho', hr⟩ := ih j (by simp)
      simp only [ho', bind_ok]
      cases o' with
      | none =>
        refine ⟨none, rfl, fun ks => ⟨by simp, fun h => ?_⟩⟩
        obtain ⟨k, ks, rfl, h, hs⟩ := denotesList_cons.1 h
        obtain ⟨r, rfl, h⟩ := (denotes_rule_of_not_lacks hc).1 h
        exact absurd ((hr r).2 h) (by simp)
      | some r =>
        have hd : ∀ k, Denotes j k ↔ k = r.toAst := fun k => by
          rw [denotes_rule_of_not_lacks hc]
          constructor
          · rintro ⟨r', rfl, h⟩
            cases (hr r').2 h; rfl
          · rintro rfl; exact ⟨r, rfl, (hr r).1 rfl⟩
        simp only [ho, bind_ok]
        cases o with
        | none =>
          refine ⟨none, rfl, fun ks => ⟨by simp, fun h => ?_⟩⟩
          obtain ⟨k, ks, rfl, h, hs⟩ := denotesList_cons.1 h
          exact absurd ((hks ks).2 hs) (by simp)
        | some ks' =>
          refine ⟨_, rfl, fun ks => ?_⟩
          rw [denotesList_cons]
          simp only [Option.some.injEq, hd, ← hks]
          constructor
          · rintro rfl; exact ⟨_, _, rfl, rfl, rfl⟩
          · rintro ⟨k, ks, rfl, rfl, rfl⟩; rfl

theorem denotes_rule_iff {j : Json} {r : RuleContext} :
    Denotes j r.toAst ↔ ∃ js, j.Has "children" (.arr js) ∧ j.Has "rule_index" (.posInt r.ruleIndex) ∧
      j.Has "rule_name" (.str r.ruleName) ∧ DenotesList js r.children := by
  constructor
  · intro h
    cases h with
    | rule h1 h2 h3 h4 => exact ⟨_, h1, h2, h3, h4⟩
  · rintro ⟨js, h1, h2, h3, h4⟩; exact .rule h1 h2 h3 h4

theorem parseRule_spec (fuel : Nat) : ∀ j : Json, sizeOf j ≤ fuel →
    ∃ o, parseRule fuel j = .ok o ∧ ∀ r, o = some r ↔ Denotes j r.toAst := by
  induction fuel with
  | zero =>
    intro j hj
    cases j <;> simp at hj
  | succ n ih =>
    intro j hj
    unfold parseRule
    cases hc : j.index "children".toList with
    | arr js =>
      have hc' := Json.has_of_index hc (by simp)
      simp only []
      cases h1 : (j.index "rule_index".toList).asU64 with
      | none =>
        refine ⟨none, rfl, fun r => ⟨by simp, fun h => ?_⟩⟩
        obtain ⟨js', _, h, _⟩ := denotes_rule_iff.1 h
        rw [Json.has_posInt, h1] at h; cases h
      | some i =>
        simp only []
        cases h2 : (j.index "rule_name".toList).asStr with
        | none =>
          refine ⟨none, rfl, fun r => ⟨by simp, fun h => ?_⟩⟩
          obtain ⟨js', _, _, h, _⟩ := denotes_rule_iff.1 h
          rw [Json.has_str, h2] at h; cases h
        | some nm =>
          obtain ⟨o, ho, hks⟩ := parseChildren_spec (rule := parseRule n) js fun c hcm => ih c (by
            have := Json.has_size hc' hcm
            omega)
          simp only [ho, bind_ok]
          cases o with
          | none =>
            refine ⟨none, rfl, fun r => ⟨by simp, fun h => ?_⟩⟩
            obtain ⟨js', h, _, _, hl⟩ := denotes_rule_iff.1 h
            rw [h.index] at hc
            cases hc
            exact absurd ((hks _).2 hl) (by simp)
          | some ks =>
            refine ⟨_, rfl, fun r => ?_⟩
            rw [denotes_rule_iff]
            simp only [Option.some.injEq]
            constructor
            · rintro rfl
              exact ⟨js, hc', Json.has_posInt.2 h1, Json.has_str.2 h2, (hks ks).1 rfl⟩
            · rintro ⟨js', h, hi, hn, hl⟩
              rw [h.index] at hc
              cases hc
              rw [Json.has_posInt, h1] at hi
              rw [Json.has_str, h2] at hn
              have := (hks _).2 hl
              obtain ⟨a, b, c⟩ := r
              simp_all
    | _ =>
      refine ⟨none, rfl, fun r => ⟨by simp, fun h => ?_⟩⟩
      obtain ⟨js', h, _⟩ := denotes_rule_iff.1 h
      rw [h.index] at hc
      cases hc

end SerdeAst

open SerdeAst

/-- **C41** Loading any JSON value terminates without panic, and returns a tree exactly when the value
describes one in the documented shape (and then that one); otherwise it returns the error. -/
theorem C41_accepts_exactly_schema (j : Json) : ∃ n, ∀ fuel ≥ n, ∃ o, fromJson fuel (some j) = .ok o ∧
    (∀ r, o = some r ↔ Denotes j r.toAst) ∧ (o = none ↔ ¬ ∃ r : RuleContext, Denotes j r.toAst) := by
  refine ⟨sizeOf j, fun fuel hf => ?_⟩
  obtain ⟨o, ho, h⟩ := parseRule_spec fuel j hf
  refine ⟨o, ho, h, ?_⟩
  cases o with
  | none => simp only [true_iff]; rintro ⟨r, hr⟩; exact absurd ((h r).2 hr) (by simp)
  | some r => simp only [reduceCtorEq, false_iff, not_not]; exact ⟨r, (h r).1 rfl⟩

/-- **C41** Text that is not JSON is an error, not a panic. -/
theorem C41_not_json (fuel : Nat) : fromJson fuel none = .ok none := rfl

/-- **C41** a JSON value describes at most one tree -/
theorem C41_unique (j : Json) (r r' : RuleContext) (h : Denotes j r.toAst) (h' : Denotes j r'.toAst) :
    r = r' := by
  obtain ⟨o, _, ho⟩ := parseRule_spec (sizeOf j) j le_rfl
  have h1 := (ho r).2 h
  have h2 := (ho r').2 h'
  exact Option.some.inj (h1.symm.trans h2)

mutual
/-- every token of the tree carries only type, name and text -/
def Ast.Plain : Ast → Prop
  | .terminal t => t = Token.new t.tokenType t.tokenName t.text
  | .error _ => True
  | .rule _ _ kids => Ast.PlainList kids
def Ast.PlainList : List Ast → Prop
  | [] => True
  | k :: ks => k.Plain ∧ Ast.PlainList ks
end

mutual
theorem denotes_toJson (a : Ast) (he : a.ErrorFree) (hp : a.Plain) : Denotes a.toJson a := by
  cases a with
  | terminal t =>
    rw [Ast.Plain] at hp
    refine .terminal ((parseTerminal_iff ?_).1 ?_)
    · rw [Json.lacks_iff]
      rfl
    · rw [Ast.toJson]
      exact congrArg some hp.symm
  | error t => simp [Ast.ErrorFree] at he
  | rule n i ks =>
    rw [Ast.ErrorFree] at he
    rw [Ast.Plain] at hp
    refine .rule (js := Ast.toJsonList ks) ?_ ?_ ?_ (denotesList_toJson ks he hp) <;>
      rw [Ast.toJson] <;> exact Json.has_of_index rfl (by simp)
theorem denotesList_toJson (ks : List Ast) (he : Ast.ErrorFreeList ks) (hp : Ast.PlainList ks) :
    DenotesList (Ast.toJsonList ks) ks := by
  cases ks with
  | nil => exact .nil
  | cons k ks =>
    rw [Ast.ErrorFreeList] at he
    rw [Ast.PlainList] at hp
    rw [Ast.toJsonList]
    exact .cons (denotes_toJson k he.1 hp.1) (denotesList_toJson ks he.2 hp.2)
end

/-- **C42** Writing a tree in the documented JSON shape and loading it returns the same tree. -/
theorem C42_round_trip (r : RuleContext) (he : r.toAst.ErrorFree) (hp : r.toAst.Plain) :
    ∃ n, ∀ fuel ≥ n, fromJson fuel (some r.toAst.toJson) = .ok (some r) := by
  refine ⟨sizeOf r.toAst.toJson, fun fuel hf => ?_⟩
  obtain ⟨o, ho, h⟩ := parseRule_spec fuel _ hf
  rw [fromJson, ho, (h r).2 (denotes_toJson _ he hp)]

mutual
theorem Denotes.shape {j : Json} {a : Ast} (h : Denotes j a) : a.ErrorFree ∧ a.Plain := by
  cases h with
  | terminal h =>
    refine ⟨by simp [Ast.ErrorFree], ?_⟩
    rw [Ast.Plain]
    exact h.eq_new
  | rule h1 h2 h3 h4 =>
    rw [Ast.ErrorFree, Ast.Plain]
    exact DenotesList.shape h4
theorem DenotesList.shape {js : List Json} {ks : List Ast} (h : DenotesList js ks) :
    Ast.ErrorFreeList ks ∧ Ast.PlainList ks := by
  cases h with
  | nil => simp [Ast.ErrorFreeList, Ast.PlainList]
  | cons h hs =>
    rw [Ast.ErrorFreeList, Ast.PlainList]
    exact ⟨⟨(Denotes.shape h).1, (DenotesList.shape hs).1⟩, (Denotes.shape h).2, (DenotesList.shape hs).2⟩
end

/-- **C42** (converse) The trees that can be loaded are exactly those of `C42_round_trip`: a loaded tree has
no error nodes, its tokens carry only type, name and text, and it is reproduced by writing it again. -/
theorem C42_loaded_trees (fuel : Nat) (j : Json) (hf : sizeOf j ≤ fuel) (r : RuleContext)
    (h : fromJson fuel (some j) = .ok (some r)) :
    r.toAst.ErrorFree ∧ r.toAst.Plain ∧ Denotes j r.toAst := by
  obtain ⟨o, ho, hd⟩ := parseRule_spec fuel j hf
  rw [fromJson, ho] at h
  have hd := (hd r).1 (Except.ok.inj h)
  exact ⟨hd.shape.1, hd.shape.2, hd⟩

/-- non-vacuity of `C42_round_trip` -/
example : let r : RuleContext := ⟨"a".toList, [.rule "b".toList 2 [], .terminal (.new 1 "T".toList "x".toList)], 0⟩
    r.toAst.ErrorFree ∧ r.toAst.Plain ∧ (fromJson 100 (some r.toAst.toJson)).map (·.map (·.toAst.leaves)) =
      .ok (some [.new 1 "T".toList "x".toList]) := by
  refine ⟨by simp [RuleContext.toAst, Ast.ErrorFree, Ast.ErrorFreeList],
    by simp [RuleContext.toAst, Ast.Plain, Ast.PlainList, Token.new], by decide +kernel⟩

/-- both outcomes of `C41_accepts_exactly_schema` occur: a missing `rule_name` three levels down is an error -/
example : (fromJson 100 (some (.obj [("children".toList, .arr [.obj [("children".toList, .arr []),
    ("rule_index".toList, .posInt 1)]]), ("rule_index".toList, .posInt 1), ("rule_name".toList, .str [])]))).map
      Option.isSome = .ok false := by decide +kernel

end Syntaxis
