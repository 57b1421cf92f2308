import Verif.Props.SerdeAst
import Verif.Props.Artefacts
import Verif.Lemmas.JsonWrite
import Verif.Spec.ShippedText

/-!
# C76: loading syntax trees from text
-/

namespace Syntaxis
open JsonSpec JsonText SerdeAst

/-- **C76** A text is read exactly when it is, up to white space around it, a JSON text with at most 127 brackets open
at a time, and then as the value it stands for. -/
theorem C76_reads_exactly (fin : Str → Bool) (s : Str) (v : Json) :
    readText fin s = some v ↔ ∃ a t b, Blank a ∧ Blank b ∧ s = a ++ t ++ b ∧ Text fin 127 v t :=
  readText_iff fin s v

/-- **C76** Loading any text terminates without panic.  It returns a tree exactly when the text is a JSON text of a
value that describes the tree, and otherwise the error. -/
theorem C76_loads_exactly (fin : Str → Bool) (s : Str) : ∃ n, ∀ fuel ≥ n, ∃ o, fromStr fin fuel s = .ok o ∧
    ∀ r, o = some r ↔
      ∃ a t b v, Blank a ∧ Blank b ∧ s = a ++ t ++ b ∧ Text fin 127 v t ∧ Denotes v r.toAst := by
  cases hr : readText fin s with
  | none =>
    refine ⟨0, fun fuel _ => ⟨none, by rw [fromStr, hr]; rfl, fun r => ⟨by simp, ?_⟩⟩⟩
    rintro ⟨a, t, b, v, ha, hb, e, ht, _⟩
    rw [(C76_reads_exactly fin s v).2 ⟨a, t, b, ha, hb, e, ht⟩] at hr
    cases hr
  | some v =>
    refine ⟨sizeOf v, fun fuel hf => ?_⟩
    obtain ⟨o, ho, h⟩ := parseRule_spec fuel v hf
    refine ⟨o, by rw [fromStr, hr]; exact ho, fun r => ?_⟩
    rw [h r]
    constructor
    · intro hd
      obtain ⟨a, t, b, ha, hb, e, ht⟩ := (C76_reads_exactly fin s v).1 hr
      exact ⟨a, t, b, v, ha, hb, e, ht, hd⟩
    · rintro ⟨a, t, b, w, ha, hb, e, ht, hd⟩
      rw [(C76_reads_exactly fin s w).2 ⟨a, t, b, ha, hb, e, ht⟩] at hr
      cases hr
      exact hd

/-! ## which trees can be loaded -/

mutual
/-- how many rules of the tree are nested -/
def Ast.levels : Ast → Nat
  | .terminal _ => 0
  | .error _ => 0
  | .rule _ _ kids => Ast.levelsList kids + 1
/-- the same for a list of children -/
def Ast.levelsList : List Ast → Nat
  | [] => 0
  | k :: ks => max k.levels (Ast.levelsList ks)
end

mutual
/-- the numbers of rules and tokens fit into 64 bits -/
def Ast.Fits : Ast → Prop
  | .terminal t => t.tokenType < 2 ^ 64
  | .error _ => True
  | .rule _ i kids => i < 2 ^ 64 ∧ Ast.FitsList kids
/-- the same for a list of children -/
def Ast.FitsList : List Ast → Prop
  | [] => True
  | k :: ks => k.Fits ∧ Ast.FitsList ks
end

theorem Elems.mem {P : Json → Str → Prop} {vs : List Json} {u : Str} (h : Elems P vs u) :
    ∀ v ∈ vs, ∃ t, P v t := by
  induction h with
  | last ha h hb => intro v hv; simp only [List.mem_singleton] at hv; subst hv; exact ⟨_, h⟩
  | cons ha h hb _ ih =>
    intro v hv
    rcases List.mem_cons.1 hv with rfl | hv
    · exact ⟨_, h⟩
    · exact ih v hv

theorem Members.mem {P : Json → Str → Prop} {kvs : List (Str × Json)} {u : Str} (h : Members P kvs u) :
    ∀ e ∈ kvs, ∃ t, P e.2 t := by
  induction h with
  | last h =>
    intro v hv
    simp only [List.mem_singleton] at hv
    subst hv
    cases h with
    | mk _ _ _ _ h _ => exact ⟨_, h⟩
  | cons h _ ih =>
    intro v hv
    rcases List.mem_cons.1 hv with rfl | hv
    · cases h with
      | mk _ _ _ _ h _ => exact ⟨_, h⟩
    · exact ih v hv

theorem mem_lastWins {kvs : List (Str × Json)} {e : Str × Json} (h : e ∈ lastWins kvs) : e ∈ kvs := by
  induction kvs with
  | nil => simp [lastWins] at h
  | cons kv kvs ih =>
    rw [lastWins] at h
    split at h
    · exact List.mem_cons_of_mem _ (ih h)
    · rcases List.mem_cons.1 h with rfl | h
      · simp
      · exact List.mem_cons_of_mem _ (ih h)

theorem Text.arr {fin : Str → Bool} {n : Nat} {vs : List Json} {t : Str} (h : Text fin n (.arr vs) t) :
    ∃ m, n = m + 1 ∧ ∀ v ∈ vs, ∃ t, Text fin m v t := by
  cases n with
  | zero => cases h
  | succ n =>
    refine ⟨n, rfl, ?_⟩
    rcases h with h | ⟨a, _, h, _⟩ | ⟨vs', u, hu, h, _⟩ | ⟨a, _, h, _⟩ | ⟨kvs, u, _, h, _⟩
    · cases h
    · cases h; simp
    · cases h; exact Elems.mem hu
    · cases h
    · cases h

theorem Text.obj {fin : Str → Bool} {n : Nat} {kvs : List (Str × Json)} {t : Str} (h : Text fin n (.obj kvs) t) :
    ∃ m, n = m + 1 ∧ ∀ e ∈ kvs, ∃ t, Text fin m e.2 t := by
  cases n with
  | zero => cases h
  | succ n =>
    refine ⟨n, rfl, ?_⟩
    rcases h with h | ⟨a, _, h, _⟩ | ⟨vs', u, hu, h, _⟩ | ⟨a, _, h, _⟩ | ⟨kvs', u, hu, h, _⟩
    · cases h
    · cases h
    · cases h
    · cases h; simp
    · cases h
      intro e he
      exact Members.mem hu e (mem_lastWins he)

theorem Text.posInt {fin : Str → Bool} {n i : Nat} {t : Str} (h : Text fin n (.posInt i) t) : i < 2 ^ 64 := by
  have key : ∀ {v : Json}, Scalar fin v t → v = .posInt i → i < 2 ^ 64 := by
    intro v h e
    cases h with
    | posInt h hr => cases e; exact hr
    | _ => cases e
  cases n with
  | zero => exact key h rfl
  | succ n =>
    rcases h with h | ⟨a, _, h, _⟩ | ⟨vs', u, hu, h, _⟩ | ⟨a, _, h, _⟩ | ⟨kvs', u, hu, h, _⟩
    · exact key h rfl
    all_goals cases h

theorem Text.has {fin : Str → Bool} {n : Nat} {j v : Json} {t : Str} {k : String} (h : Text fin n j t)
    (hk : j.Has k v) : ∃ m t, n = m + 1 ∧ Text fin m v t := by
  obtain ⟨kvs, pre, post, rfl, rfl, _⟩ := hk
  obtain ⟨m, rfl, hm⟩ := Text.obj h
  obtain ⟨t, ht⟩ := hm (k.toList, v) (by simp)
  exact ⟨m, t, rfl, ht⟩

mutual
theorem Denotes.limits {fin : Str → Bool} {n : Nat} {j : Json} {t : Str} {a : Ast} (h : Denotes j a)
    (ht : Text fin n j t) : 2 * a.levels ≤ n ∧ a.Fits := by
  cases h with
  | terminal h =>
    rw [Ast.levels, Ast.Fits]
    obtain ⟨_, _, _, hi⟩ := Text.has ht h.type
    exact ⟨Nat.zero_le _, Text.posInt hi⟩
  | rule h1 h2 h3 h4 =>
    rw [Ast.levels, Ast.Fits]
    obtain ⟨m, _, rfl, hc⟩ := Text.has ht h1
    obtain ⟨m, rfl, hks⟩ := Text.arr hc
    obtain ⟨_, _, _, hi⟩ := Text.has ht h2
    have := DenotesList.limits h4 hks
    exact ⟨by omega, Text.posInt hi, this.2⟩
theorem DenotesList.limits {fin : Str → Bool} {n : Nat} {js : List Json} {ks : List Ast} (h : DenotesList js ks)
    (ht : ∀ j ∈ js, ∃ t, Text fin n j t) : 2 * Ast.levelsList ks ≤ n ∧ Ast.FitsList ks := by
  cases h with
  | nil => rw [Ast.levelsList, Ast.FitsList]; exact ⟨Nat.zero_le _, trivial⟩
  | cons h hs =>
    rw [Ast.levelsList, Ast.FitsList]
    obtain ⟨_, hj⟩ := ht _ (List.mem_cons_self ..)
    have h1 := Denotes.limits h hj
    have h2 := DenotesList.limits hs fun j hj => ht j (by simp [hj])
    exact ⟨by omega, h1.2, h2.2⟩
end

mutual
theorem toJson_limits (a : Ast) (he : a.ErrorFree) (hf : a.Fits) :
    a.toJson.Writable ∧ a.toJson.nesting ≤ 2 * a.levels + 1 := by
  cases a with
  | terminal t =>
    rw [Ast.Fits] at hf
    rw [Ast.toJson, Ast.levels]
    refine ⟨?_, by simp [Json.nesting, Json.nestingMembers]⟩
    simp only [Json.Writable, Json.WritableMembers, List.map_cons, List.map_nil, hf, and_true]
    decide
  | error t => simp [Ast.ErrorFree] at he
  | rule n i ks =>
    rw [Ast.ErrorFree] at he
    rw [Ast.Fits] at hf
    have ih := toJsonList_limits ks he hf.2
    rw [Ast.toJson, Ast.levels]
    refine ⟨?_, ?_⟩
    · simp only [Json.Writable, Json.WritableMembers, List.map_cons, List.map_nil, hf.1, ih.1, and_true]
      decide
    · simp only [Json.nesting, Json.nestingMembers]
      omega
theorem toJsonList_limits (ks : List Ast) (he : Ast.ErrorFreeList ks) (hf : Ast.FitsList ks) :
    Json.WritableList (Ast.toJsonList ks) ∧ Json.nestingList (Ast.toJsonList ks) ≤ 2 * Ast.levelsList ks + 1 := by
  cases ks with
  | nil => simp [Ast.toJsonList, Json.WritableList, Json.nestingList]
  | cons k ks =>
    rw [Ast.ErrorFreeList] at he
    rw [Ast.FitsList] at hf
    have h1 := toJson_limits k he.1 hf.1
    have h2 := toJsonList_limits ks he.2 hf.2
    rw [Ast.toJsonList, Json.WritableList, Json.nestingList, Ast.levelsList]
    exact ⟨⟨h1.1, h2.1⟩, by omega⟩
end

/-- **C76** A tree without error nodes whose tokens carry only type, name and text, whose numbers fit into 64 bits and
with at most 63 nested rules is loaded from the text in which its documented shape is written (at any level of
indentation), with any white space around. -/
theorem C76_round_trip (fin : Str → Bool) (r : RuleContext) (he : r.toAst.ErrorFree) (hp : r.toAst.Plain)
    (hf : r.toAst.Fits) (hl : r.toAst.levels ≤ 63) (k : Nat) (a b : Str) (ha : Blank a) (hb : Blank b) :
    ∃ n, ∀ fuel ≥ n, fromStr fin fuel (a ++ write k r.toAst.toJson ++ b) = .ok (some r) := by
  obtain ⟨n, hn⟩ := C76_loads_exactly fin (a ++ write k r.toAst.toJson ++ b)
  refine ⟨n, fun fuel hfu => ?_⟩
  obtain ⟨o, ho, h⟩ := hn fuel hfu
  obtain ⟨h1, h2⟩ := toJson_limits _ he hf
  rw [ho, (h r).2 ⟨a, _, b, _, ha, hb, rfl, write_text 127 k _ h1 (by omega), denotes_toJson _ he hp⟩]

/-- **C76** A tree can be loaded from some text exactly under these conditions; in particular no text loads to a tree
with 64 nested rules, because of the recursion limit of the JSON reader. -/
theorem C76_loadable_trees (fin : Str → Bool) (r : RuleContext) :
    (∃ s n, ∀ fuel ≥ n, fromStr fin fuel s = .ok (some r)) ↔
      r.toAst.ErrorFree ∧ r.toAst.Plain ∧ r.toAst.Fits ∧ r.toAst.levels ≤ 63 := by
  constructor
  · rintro ⟨s, n, hs⟩
    obtain ⟨m, hm⟩ := C76_loads_exactly fin s
    obtain ⟨o, ho, h⟩ := hm (max n m) (le_max_right _ _)
    rw [hs _ (le_max_left _ _)] at ho
    cases ho
    obtain ⟨a, t, b, v, _, _, _, ht, hd⟩ := (h r).1 rfl
    have := Denotes.limits hd ht
    exact ⟨hd.shape.1, hd.shape.2, this.2, by omega⟩
  · rintro ⟨he, hp, hf, hl⟩
    obtain ⟨n, hn⟩ := C76_round_trip fin r he hp hf hl 0 [] [] (by simp [Blank]) (by simp [Blank])
    exact ⟨_, n, hn⟩

/-- a chain of nested rules -/
def nest : Nat → Ast
  | 0 => .terminal (.new 1 "T".toList "x".toList)
  | n + 1 => .rule "a".toList 0 [nest n]

theorem nest_spec (n : Nat) : (nest n).ErrorFree ∧ (nest n).Plain ∧ (nest n).Fits ∧ (nest n).levels = n := by
  induction n with
  | zero =>
    refine ⟨by simp [nest, Ast.ErrorFree], ?_, by simp [nest, Ast.Fits, Token.new], by simp [nest, Ast.levels]⟩
    rw [nest, Ast.Plain]; rfl
  | succ n ih =>
    simp only [nest, Ast.ErrorFree, Ast.ErrorFreeList, Ast.Plain, Ast.PlainList, Ast.Fits, Ast.FitsList, Ast.levels,
      Ast.levelsList, ih, and_true, true_and]
    omega

/-- both sides of `C76_loadable_trees` occur: 63 nested rules can be loaded and 64 cannot -/
example (fin : Str → Bool) :
    (∃ s n, ∀ fuel ≥ n, fromStr fin fuel s = .ok (some ⟨"a".toList, [nest 62], 0⟩)) ∧
    ¬ ∃ s n, ∀ fuel ≥ n, fromStr fin fuel s = .ok (some ⟨"a".toList, [nest 63], 0⟩) := by
  have h (k : Nat) : (RuleContext.toAst ⟨"a".toList, [nest k], 0⟩) = nest (k + 1) := rfl
  have h1 := nest_spec 63
  have h2 := nest_spec 64
  rw [C76_loadable_trees, C76_loadable_trees, h, h]
  refine ⟨⟨h1.1, h1.2.1, h1.2.2.1, h1.2.2.2.le⟩, ?_⟩
  rintro ⟨_, _, _, h3⟩
  have h4 : (nest (63 + 1)).levels = 64 := h2.2.2.2
  omega

/-- escapes, white space, a repeated key (the last one counts), numbers with fraction and exponent -/
example : (readText (fun _ => true)
      "\n{ \"a\\u0041\\n\" : [ ], \"b\":[-12, 3.5e+7,\ttrue,null ,\"\\ud83d\\ude00\"],\"b\" : 0 } ".toList).map (fun v =>
        match v with
        | .obj [(k, .arr []), (l, .posInt 0)] => decide (k = "aA\n".toList ∧ l = "b".toList)
        | _ => false) = some true := by decide +kernel

/-- texts that are not JSON -/
example : (["[1,]", "{\"a\":1,}", "[01]", "nul", "\"\\ud800\"", "[1] 2", "\"\n\"", "", "[1 2]", "-", "1.", "+1"].map fun s =>
    (readText (fun _ => true) s.toList).isNone) = List.replicate 12 true := by decide +kernel

/-! ## the file in the repository -/

theorem shippedChecked : sameStr (write 0 Shipped.json) Artefacts.syntaxis2Json = true := by decide +kernel

mutual
/-- `Json.Writable` with a nesting limit, as a program -/
def Json.within (n : Nat) : Json → Bool
  | .arr vs => decide (n ≠ 0) && Json.withinList (n - 1) vs
  | .obj kvs => decide (n ≠ 0) && Json.withinMembers (n - 1) kvs
  | .posInt i => decide (i < 2 ^ 64)
  | .null => true
  | .bool _ => true
  | .negInt _ => false
  | .float => false
  | .str _ => true
def Json.withinList (n : Nat) : List Json → Bool
  | [] => true
  | v :: vs => v.within n && Json.withinList n vs
def Json.withinMembers (n : Nat) : List (Str × Json) → Bool
  | [] => true
  | (k, v) :: kvs => decide (k ∉ kvs.map Prod.fst) && v.within n && Json.withinMembers n kvs
end

mutual
theorem Json.within_spec (n : Nat) (v : Json) (h : v.within n = true) : v.Writable ∧ v.nesting ≤ n := by
  match v, h with
  | .arr vs, h =>
    simp only [Json.within, Bool.and_eq_true, decide_eq_true_eq] at h
    have := Json.withinList_spec (n - 1) vs h.2
    rw [Json.Writable, Json.nesting]
    exact ⟨this.1, by omega⟩
  | .obj kvs, h =>
    simp only [Json.within, Bool.and_eq_true, decide_eq_true_eq] at h
    have := Json.withinMembers_spec (n - 1) kvs h.2
    rw [Json.Writable, Json.nesting]
    exact ⟨this.1, by omega⟩
  | .posInt i, h =>
    simp only [Json.within, decide_eq_true_eq] at h
    rw [Json.Writable, Json.nesting]
    exact ⟨h, by omega⟩
  | .null, _ => simp [Json.Writable, Json.nesting]
  | .bool _, _ => simp [Json.Writable, Json.nesting]
  | .str _, _ => simp [Json.Writable, Json.nesting]
theorem Json.withinList_spec (n : Nat) (vs : List Json) (h : Json.withinList n vs = true) :
    Json.WritableList vs ∧ Json.nestingList vs ≤ n := by
  match vs, h with
  | [], _ => simp [Json.WritableList, Json.nestingList]
  | v :: vs, h =>
    simp only [Json.withinList, Bool.and_eq_true] at h
    have h1 := Json.within_spec n v h.1
    have h2 := Json.withinList_spec n vs h.2
    rw [Json.WritableList, Json.nestingList]
    exact ⟨⟨h1.1, h2.1⟩, by omega⟩
theorem Json.withinMembers_spec (n : Nat) (kvs : List (Str × Json)) (h : Json.withinMembers n kvs = true) :
    Json.WritableMembers kvs ∧ Json.nestingMembers kvs ≤ n := by
  match kvs, h with
  | [], _ => simp [Json.WritableMembers, Json.nestingMembers]
  | (k, v) :: kvs, h =>
    simp only [Json.withinMembers, Bool.and_eq_true, decide_eq_true_eq] at h
    have h1 := Json.within_spec n v h.1.2
    have h2 := Json.withinMembers_spec n kvs h.2
    rw [Json.WritableMembers, Json.nestingMembers]
    exact ⟨⟨h.1.1, h1.1, h2.1⟩, by omega⟩
end

theorem shippedWithin : Shipped.json.within 127 = true := by decide +kernel

/-- **C76** The text of `syntaxis2.json`, character by character, is read as the value used in the theorems about the
shipped grammar (`Shipped.json`). -/
theorem C76_shipped_text (fin : Str → Bool) : readText fin Artefacts.syntaxis2Json = some Shipped.json := by
  have h := Json.within_spec 127 _ shippedWithin
  rw [C76_reads_exactly]
  refine ⟨[], Artefacts.syntaxis2Json, [], by simp [Blank], by simp [Blank], by rw [List.nil_append, List.append_nil],
    ?_⟩
  rw [← sameStr_eq shippedChecked]
  exact write_text 127 0 _ h.1 h.2

/-- **C76** The program, started with the text of `syntaxis2.json` and its own grammar text, writes the page of the
repository. -/
theorem C76_program (fin : Str → Bool) (digit : Char → Bool) (h : Main.Orders) : ∃ n, ∀ fuel ≥ n,
    Main.main h digit (readText fin Artefacts.syntaxis2Json) Main.input fuel =
      .ok ⟨[], [], none, [], Artefacts.parser2⟩ := by
  rw [C76_shipped_text]
  exact (C73_page digit h).2

end Syntaxis
