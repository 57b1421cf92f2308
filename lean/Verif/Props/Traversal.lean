import Verif.Model.Visitor
import Verif.Spec.Traversal

/-! # C39, C40: listeners and visitors -/

namespace Syntaxis

/-! ## C39 -/

theorem ofIndex_eq (i : Nat) : RuleKind.ofIndex i = RuleKind.declared i := by
  rcases i with _|_|_|_|_|_|_|_|_|i <;> rfl

/-- the listener that writes down every call -/
def recorder : Listener (List Event) where
  enterKind k c s := s ++ [.enterKind k c]
  exitKind k c s := s ++ [.exitKind k c]
  enterEveryRule c s := s ++ [.enterEvery c]
  exitEveryRule c s := s ++ [.exitEvery c]
  enterTerminal t s := s ++ [.enterTerminal t]
  exitTerminal t s := s ++ [.exitTerminal t]
  enterErrornode t s := s ++ [.enterError t]
  exitErrornode t s := s ++ [.exitError t]

theorem recorder_enter (c : RuleContext) (s : List Event) :
    recorder.enter c s = s ++ recorder.enter c [] := by
  unfold Listener.enter
  split <;> simp [recorder]

theorem recorder_exit (c : RuleContext) (s : List Event) :
    recorder.exit c s = s ++ recorder.exit c [] := by
  unfold Listener.exit
  split <;> simp [recorder]

mutual
theorem recorder_child (a : Ast) (s : List Event) :
    recorder.walkChild a s = s ++ recorder.walkChild a [] := by
  cases a with
  | terminal t => simp [Listener.walkChild, recorder]
  | error t => simp [Listener.walkChild, recorder]
  | rule n i kids =>
    simp only [Listener.walkChild]
    rw [recorder_exit, recorder_children, recorder_enter,
      recorder_exit _ (recorder.walkChildren _ _), recorder_children kids (recorder.enter _ _),
      recorder_enter _ (recorder.enterEveryRule _ [])]
    simp [recorder]
theorem recorder_children (ks : List Ast) (s : List Event) :
    recorder.walkChildren ks s = s ++ recorder.walkChildren ks [] := by
  cases ks with
  | nil => simp [Listener.walkChildren]
  | cons k ks =>
    simp only [Listener.walkChildren]
    rw [recorder_children ks, recorder_child k s, recorder_children ks (recorder.walkChild k [])]
    simp
end

theorem recorder_enter_call {σ : Type} (li : Listener σ) (c : RuleContext) (s : σ) :
    li.enter c s = (recorder.enter c []).foldl (fun s e => e.call li s) s := by
  unfold Listener.enter
  split <;> simp [recorder, Event.call]

theorem recorder_exit_call {σ : Type} (li : Listener σ) (c : RuleContext) (s : σ) :
    li.exit c s = (recorder.exit c []).foldl (fun s e => e.call li s) s := by
  unfold Listener.exit
  split <;> simp [recorder, Event.call]

mutual
theorem walkChild_call {σ : Type} (li : Listener σ) (a : Ast) (s : σ) :
    li.walkChild a s = (recorder.walkChild a []).foldl (fun s e => e.call li s) s := by
  cases a with
  | terminal t => simp [Listener.walkChild, recorder, Event.call]
  | error t => simp [Listener.walkChild, recorder, Event.call]
  | rule n i kids =>
    simp only [Listener.walkChild]
    rw [recorder_exit, recorder_children, recorder_enter, recorder_exit_call, walkChildren_call,
      recorder_enter_call]
    simp [recorder, Event.call]
theorem walkChildren_call {σ : Type} (li : Listener σ) (ks : List Ast) (s : σ) :
    li.walkChildren ks s = (recorder.walkChildren ks []).foldl (fun s e => e.call li s) s := by
  cases ks with
  | nil => simp [Listener.walkChildren]
  | cons k ks =>
    simp only [Listener.walkChildren]
    rw [recorder_children ks (recorder.walkChild k []), List.foldl_append, ← walkChild_call,
      ← walkChildren_call]
end

theorem walk_eq_child {σ : Type} (li : Listener σ) (r : RuleContext) (s : σ) :
    li.walk r s = li.walkChild r.toAst s := by
  simp [Listener.walk, RuleContext.toAst, Listener.walkChild]

/-- the calls `walk` makes are the same for every listener -/
theorem C39_same_calls_for_every_listener {σ : Type} (li : Listener σ) (r : RuleContext) (s : σ) :
    li.walk r s = (recorder.walk r []).foldl (fun s e => e.call li s) s := by
  simp only [walk_eq_child]; exact walkChild_call li _ s

theorem filterMap_enter {β : Type} (f : Event → Option β) (c : RuleContext)
    (h : ∀ k, f (.enterKind k c) = none) : (recorder.enter c []).filterMap f = [] := by
  unfold Listener.enter
  split <;> simp [recorder, h]

theorem filterMap_exit {β : Type} (f : Event → Option β) (c : RuleContext)
    (h : ∀ k, f (.exitKind k c) = none) : (recorder.exit c []).filterMap f = [] := by
  unfold Listener.exit
  split <;> simp [recorder, h]

theorem recorder_rule (n : Str) (i : Nat) (kids : List Ast) :
    recorder.walkChild (.rule n i kids) [] =
      .enterEvery ⟨n, kids, i⟩ :: recorder.enter ⟨n, kids, i⟩ [] ++ recorder.walkChildren kids [] ++
        recorder.exit ⟨n, kids, i⟩ [] ++ [.exitEvery ⟨n, kids, i⟩] := by
  simp only [Listener.walkChild]
  rw [recorder_exit, recorder_children, recorder_enter]
  simp [recorder]

mutual
theorem trace_pre (a : Ast) : (recorder.walkChild a []).filterMap Event.entered = a.pre := by
  cases a with
  | terminal t => simp [Listener.walkChild, recorder, Event.entered, Ast.pre]
  | error t => simp [Listener.walkChild, recorder, Event.entered, Ast.pre]
  | rule n i kids =>
    rw [recorder_rule]
    simp only [List.filterMap_append, List.filterMap_cons, filterMap_enter Event.entered _ (fun _ => rfl),
      filterMap_exit Event.entered _ (fun _ => rfl), tracel_pre kids, Event.entered, Ast.pre]
    simp
theorem tracel_pre (ks : List Ast) :
    (recorder.walkChildren ks []).filterMap Event.entered = Ast.preList ks := by
  cases ks with
  | nil => simp [Listener.walkChildren, Ast.preList]
  | cons k ks =>
    simp only [Listener.walkChildren]
    rw [recorder_children, List.filterMap_append, trace_pre, tracel_pre, Ast.preList]
end

mutual
theorem trace_post (a : Ast) : (recorder.walkChild a []).filterMap Event.left = a.post := by
  cases a with
  | terminal t => simp [Listener.walkChild, recorder, Event.left, Ast.post]
  | error t => simp [Listener.walkChild, recorder, Event.left, Ast.post]
  | rule n i kids =>
    rw [recorder_rule]
    simp only [List.filterMap_append, List.filterMap_cons, filterMap_enter Event.left _ (fun _ => rfl),
      filterMap_exit Event.left _ (fun _ => rfl), tracel_post kids, Event.left, Ast.post]
    simp
theorem tracel_post (ks : List Ast) :
    (recorder.walkChildren ks []).filterMap Event.left = Ast.postList ks := by
  cases ks with
  | nil => simp [Listener.walkChildren, Ast.postList]
  | cons k ks =>
    simp only [Listener.walkChildren]
    rw [recorder_children, List.filterMap_append, trace_post, tracel_post, Ast.postList]
end

mutual
theorem trace_leaf (a : Ast) : (recorder.walkChild a []).filterMap Event.leaf = a.leafNodes := by
  cases a with
  | terminal t => simp [Listener.walkChild, recorder, Event.leaf, Ast.leafNodes, List.filterMap_cons]
  | error t => simp [Listener.walkChild, recorder, Event.leaf, Ast.leafNodes, List.filterMap_cons]
  | rule n i kids =>
    rw [recorder_rule]
    simp only [List.filterMap_append, List.filterMap_cons, filterMap_enter Event.leaf _ (fun _ => rfl),
      filterMap_exit Event.leaf _ (fun _ => rfl), tracel_leaf kids, Event.leaf, Ast.leafNodes]
    simp
theorem tracel_leaf (ks : List Ast) :
    (recorder.walkChildren ks []).filterMap Event.leaf = Ast.leafNodesList ks := by
  cases ks with
  | nil => simp [Listener.walkChildren, Ast.leafNodesList]
  | cons k ks =>
    simp only [Listener.walkChildren]
    rw [recorder_children, List.filterMap_append, trace_leaf, tracel_leaf, Ast.leafNodesList]
end

mutual
theorem trace_nested (a : Ast) (st : List RuleContext) (rest : List Event)
    (hp : ∀ p ∈ st.head?, a ∈ p.children) (hst : st ≠ [] ∨ ∃ n i ks, a = .rule n i ks)
    (h : Nested st rest) : Nested st (recorder.walkChild a [] ++ rest) := by
  cases a with
  | terminal t =>
    cases st with
    | nil => simp at hst
    | cons p st =>
      simp only [Listener.walkChild, recorder, List.nil_append, List.cons_append]
      exact .terminal (hp p (by simp)) h
  | error t =>
    cases st with
    | nil => simp at hst
    | cons p st =>
      simp only [Listener.walkChild, recorder, List.nil_append, List.cons_append]
      exact .error (hp p (by simp)) h
  | rule n i kids =>
    rw [recorder_rule]
    have hx : Nested (⟨n, kids, i⟩ :: st)
        (recorder.exit ⟨n, kids, i⟩ [] ++ [.exitEvery ⟨n, kids, i⟩] ++ rest) := by
      unfold Listener.exit
      split
      · rename_i k hk
        exact .exitTyped (ofIndex_eq _ ▸ hk) h
      · rename_i hk
        exact .exitPlain (ofIndex_eq _ ▸ hk) h
    have hm := tracel_nested kids (⟨n, kids, i⟩ :: st) _ (fun k hk p hp => by
      simp at hp; subst hp; exact hk) (by simp) hx
    unfold Listener.enter
    split
    · rename_i k hk
      have := Nested.enterTyped (c := ⟨n, kids, i⟩) hp ((ofIndex_eq i).symm.trans hk) hm
      simpa [recorder] using this
    · rename_i hk
      have := Nested.enterPlain (c := ⟨n, kids, i⟩) hp ((ofIndex_eq i).symm.trans hk) hm
      simpa [recorder] using this
theorem tracel_nested (ks : List Ast) (st : List RuleContext) (rest : List Event)
    (hp : ∀ k ∈ ks, ∀ p ∈ st.head?, k ∈ p.children) (hst : st ≠ [])
    (h : Nested st rest) : Nested st (recorder.walkChildren ks [] ++ rest) := by
  cases ks with
  | nil => simpa [Listener.walkChildren] using h
  | cons k ks =>
    simp only [Listener.walkChildren]
    rw [recorder_children, List.append_assoc]
    exact trace_nested k st _ (hp k (by simp)) (.inl hst)
      (tracel_nested ks st rest (fun x hx => hp x (by simp [hx])) hst h)
end

/-- **C39** On every tree the calls of `walk` are properly nested, every rule node is entered exactly once
in document order and left once in closing order, and every leaf is entered (and left at once) in document
order. -/
theorem C39_walk_nested_in_order (r : RuleContext) :
    Nested [] (recorder.walk r []) ∧
    (recorder.walk r []).filterMap Event.entered = r.toAst.pre ∧
    (recorder.walk r []).filterMap Event.left = r.toAst.post ∧
    (recorder.walk r []).filterMap Event.leaf = r.toAst.leafNodes := by
  simp only [walk_eq_child]
  refine ⟨?_, trace_pre _, trace_post _, trace_leaf _⟩
  have := trace_nested r.toAst [] [] (by simp) (.inr ⟨_, _, _, rfl⟩) .nil
  simpa using this

/-- a nested sequence ending with nothing open enters as many rules as it leaves -/
example : (recorder.walk ⟨"rule_list".toList, [.rule "x".toList 9 [.terminal (.new 3 [] [])], .error (.new 4 [] [])], 0⟩
    []).length = 10 := by decide +kernel

/-! ## C40 -/

namespace Visitor
variable {σ V : Type}

/-- the three helper methods are not overridden in a way that touches the visitor's state or stops early
(the defaults are of this form, see `default_quiet`) -/
structure Quiet (vi : Visitor σ V) : Prop where
  defaultResult : ∃ d, ∀ s, vi.defaultResult s = .ok (d, s)
  aggregateResult : ∀ a b, ∃ v, ∀ s, vi.aggregateResult a b s = .ok (v, s)
  shouldVisitNextChild : ∀ c v s, vi.shouldVisitNextChild c v s = .ok (true, s)

theorem default_quiet : (Visitor.default : Visitor σ Unit).Quiet :=
  ⟨⟨_, fun _ => rfl⟩, fun _ b => ⟨b, fun _ => rfl⟩, fun _ _ _ => rfl⟩

/-- overrides that never call `visit_children` -/
def Opaque (vi : Visitor σ V) : Prop :=
  ∀ k f, vi.override k = some f → ∀ c th th', f c th = f c th'

/-- is the node handled by an overridden callback? -/
def overridden (vi : Visitor σ V) (c : RuleContext) : Bool :=
  ((RuleKind.declared c.ruleIndex).bind vi.override).isSome

/-- the callback the visitor has for this node, run without its children -/
def callOn (vi : Visitor σ V) : Ast → σ → Res σ
  | .terminal t, s => (vi.visitTerminal t s).map Prod.snd
  | .error t, s => (vi.visitErrornode t s).map Prod.snd
  | .rule n i kids, s =>
    match (RuleKind.declared i).bind vi.override with
    | some f => (f ⟨n, kids, i⟩ (fun _ => .error .panic) s).map Prod.snd
    | none => .ok s

theorem dispatch_override {vi : Visitor σ V} {c : RuleContext} {f : RuleContext → Visit σ V → Visit σ V}
    (h : (RuleKind.ofIndex c.ruleIndex).bind vi.override = some f) (th : Visit σ V) :
    vi.dispatch c th = f c th := by
  obtain ⟨k, hk, hf⟩ := Option.bind_eq_some_iff.1 h
  simp [dispatch, RuleContext.getRuleIndex, hk, hf]

theorem dispatch_default {vi : Visitor σ V} {c : RuleContext}
    (h : (RuleKind.ofIndex c.ruleIndex).bind vi.override = none) (th : Visit σ V) :
    vi.dispatch c th = th := by
  cases hk : RuleKind.ofIndex c.ruleIndex with
  | none => simp [dispatch, RuleContext.getRuleIndex, hk]
  | some k =>
    have : vi.override k = none := by simpa [hk] using h
    simp [dispatch, RuleContext.getRuleIndex, hk, this]

mutual
theorem child_frontier (vi : Visitor σ V) (hq : vi.Quiet) (ho : vi.Opaque) (a : Ast) (s : σ) :
    (vi.visitChild a s).map Prod.snd = (a.frontier vi.overridden).foldlM (fun s a => vi.callOn a s) s := by
  cases a with
  | terminal t => simp [visitChild, Ast.frontier, callOn]
  | error t => simp [visitChild, Ast.frontier, callOn]
  | rule n i kids =>
    have hloop : ((do
        let (result, s) ← vi.defaultResult s
        vi.visitLoop ⟨n, kids, i⟩ kids result s : Res (V × σ))).map Prod.snd =
        (Ast.frontierList vi.overridden kids).foldlM (fun s a => vi.callOn a s) s := by
      obtain ⟨d, hd⟩ := hq.defaultResult
      rw [hd]
      exact loop_frontier vi hq ho ⟨n, kids, i⟩ kids d s
    simp only [visitChild, Ast.frontier]
    cases hb : (RuleKind.ofIndex i).bind vi.override with
    | none =>
      rw [dispatch_default hb, hloop]
      simp [overridden, ← ofIndex_eq, hb]
    | some f =>
      rw [dispatch_override hb]
      simp only [overridden, ← ofIndex_eq, hb, Option.isSome_some, if_true, List.foldlM_cons, List.foldlM_nil, callOn]
      obtain ⟨k, hk, hf⟩ := Option.bind_eq_some_iff.1 hb
      rw [ho k f hf _ _ (fun _ => .error .panic)]
      simp
theorem loop_frontier (vi : Visitor σ V) (hq : vi.Quiet) (ho : vi.Opaque) (c : RuleContext) (ks : List Ast)
    (v : V) (s : σ) :
    (vi.visitLoop c ks v s).map Prod.snd =
      (Ast.frontierList vi.overridden ks).foldlM (fun s a => vi.callOn a s) s := by
  cases ks with
  | nil => simp [visitLoop, Ast.frontierList, Except.map]; rfl
  | cons k ks =>
    simp only [visitLoop, Ast.frontierList, hq.shouldVisitNextChild, List.foldlM_append]
    rw [← child_frontier vi hq ho k s]
    cases hc : vi.visitChild k s with
    | error e => simp [hc, Except.map, bind_error]
    | ok p =>
      obtain ⟨v', s'⟩ := p
      obtain ⟨w, hw⟩ := hq.aggregateResult v v'
      have := loop_frontier vi hq ho c ks w s'
      simp [hc, hw, Except.map] at this ⊢
      exact this
end

theorem visit_eq_child (vi : Visitor σ V) (r : RuleContext) : vi.visit r = vi.visitChild r.toAst := by
  simp only [visit, RuleContext.toAst, visitChild]
  rfl
end Visitor

/-- **C40** For every visitor that leaves the traversal helpers alone, and every set of overridden
callbacks that do not recurse: `visit` makes exactly the calls for the leaves and the topmost overridden
rule nodes, each once, from left to right (and stops at the first panic).  An overridden callback is the one
of the node's rule index and hides exactly its subtree. -/
theorem C40_override_hides_subtree {σ V : Type} (vi : Visitor σ V) (hq : vi.Quiet) (ho : vi.Opaque)
    (r : RuleContext) (s : σ) :
    (vi.visit r s).map Prod.snd =
      (r.toAst.frontier vi.overridden).foldlM (fun s a => vi.callOn a s) s := by
  rw [Visitor.visit_eq_child]
  exact Visitor.child_frontier vi hq ho r.toAst s

/-- the call made for a leaf -/
def Visitor.leafCall {σ V : Type} (vi : Visitor σ V) (s : σ) : Bool × Token → Res σ
  | (false, t) => (vi.visitTerminal t s).map Prod.snd
  | (true, t) => (vi.visitErrornode t s).map Prod.snd

mutual
theorem frontier_none {σ V : Type} (vi : Visitor σ V) (hn : ∀ k, vi.override k = none) (a : Ast) (s : σ) :
    (a.frontier vi.overridden).foldlM (fun s a => vi.callOn a s) s = a.leafNodes.foldlM vi.leafCall s := by
  cases a with
  | terminal t => simp [Ast.frontier, Ast.leafNodes, Visitor.callOn, Visitor.leafCall]
  | error t => simp [Ast.frontier, Ast.leafNodes, Visitor.callOn, Visitor.leafCall]
  | rule n i kids =>
    have : vi.overridden ⟨n, kids, i⟩ = false := by
      simp only [Visitor.overridden]
      cases RuleKind.declared i <;> simp [hn]
    simp [Ast.frontier, Ast.leafNodes, this, frontierList_none vi hn kids s]
theorem frontierList_none {σ V : Type} (vi : Visitor σ V) (hn : ∀ k, vi.override k = none) (ks : List Ast)
    (s : σ) :
    (Ast.frontierList vi.overridden ks).foldlM (fun s a => vi.callOn a s) s =
      (Ast.leafNodesList ks).foldlM vi.leafCall s := by
  cases ks with
  | nil => simp [Ast.frontierList, Ast.leafNodesList]
  | cons k ks =>
    simp only [Ast.frontierList, Ast.leafNodesList, List.foldlM_append, frontier_none vi hn k s]
    congr 1
    funext s'
    exact frontierList_none vi hn ks s'
end

/-- **C40** With no overridden rule callback, `visit` calls `visit_terminal` / `visit_errornode` exactly
once per leaf, from left to right. -/
theorem C40_leaves_once_in_order {σ V : Type} (vi : Visitor σ V) (hq : vi.Quiet)
    (hn : ∀ k, vi.override k = none) (r : RuleContext) (s : σ) :
    (vi.visit r s).map Prod.snd = r.toAst.leafNodes.foldlM vi.leafCall s := by
  rw [C40_override_hides_subtree vi hq (fun k f h => by simp [hn] at h), frontier_none vi hn]

/-- the visitor whose callbacks do `enter`, `visit_children`, `exit` -/
def mirror {σ : Type} (li : Listener σ) : Visitor σ Unit where
  override k := some fun c kids s => do
    let (v, s) ← kids (li.enterKind k c s)
    .ok (v, li.exitKind k c s)
  visitTerminal t s := .ok ((), li.exitTerminal t (li.enterTerminal t s))
  visitErrornode t s := .ok ((), li.exitErrornode t (li.enterErrornode t s))
  defaultResult s := .ok ((), s)
  aggregateResult _ b s := .ok (b, s)
  shouldVisitNextChild _ _ s := .ok (true, s)

mutual
theorem mirror_child {σ : Type} (li : Listener σ) (h1 : ∀ c s, li.enterEveryRule c s = s)
    (h2 : ∀ c s, li.exitEveryRule c s = s) (a : Ast) (s : σ) :
    (mirror li).visitChild a s = .ok ((), li.walkChild a s) := by
  cases a with
  | terminal t => simp [Visitor.visitChild, Listener.walkChild, mirror]
  | error t => simp [Visitor.visitChild, Listener.walkChild, mirror]
  | rule n i kids =>
    simp only [Visitor.visitChild, Listener.walkChild, h1, h2, Listener.enter, Listener.exit,
      RuleContext.getRuleIndex]
    cases hk : RuleKind.ofIndex i with
    | none =>
      rw [Visitor.dispatch_default (by simp [hk])]
      have := mirror_loop li h1 h2 ⟨n, kids, i⟩ kids s
      rw [show (mirror li).defaultResult s = .ok ((), s) from rfl, bind_ok, this]
    | some k =>
      rw [Visitor.dispatch_override (f := fun c kids s => do
        let (v, s) ← kids (li.enterKind k c s)
        .ok (v, li.exitKind k c s)) (by simp [hk, mirror])]
      have := mirror_loop li h1 h2 ⟨n, kids, i⟩ kids (li.enterKind k ⟨n, kids, i⟩ s)
      beta_reduce
      rw [show (mirror li).defaultResult (li.enterKind k ⟨n, kids, i⟩ s) =
        .ok ((), li.enterKind k ⟨n, kids, i⟩ s) from rfl, bind_ok, this, bind_ok]
theorem mirror_loop {σ : Type} (li : Listener σ) (h1 : ∀ c s, li.enterEveryRule c s = s)
    (h2 : ∀ c s, li.exitEveryRule c s = s) (c : RuleContext) (ks : List Ast) (s : σ) :
    (mirror li).visitLoop c ks () s = .ok ((), li.walkChildren ks s) := by
  cases ks with
  | nil => simp [Visitor.visitLoop, Listener.walkChildren]
  | cons k ks =>
    simp only [Visitor.visitLoop, Listener.walkChildren]
    rw [show (mirror li).shouldVisitNextChild c () s = .ok (true, s) from rfl, bind_ok]
    simp only [Bool.not_true, Bool.false_eq_true, if_false]
    rw [mirror_child li h1 h2 k s, bind_ok,
      show (mirror li).aggregateResult () () (li.walkChild k s) = .ok ((), li.walkChild k s) from rfl, bind_ok]
    exact mirror_loop li h1 h2 c ks (li.walkChild k s)
end

/-- **C40** (dispatch) Callbacks that recurse with `visit_children` are called for every rule node, the
one of the node's rule index, before and after the node's children: such a visitor behaves like a walk. -/
theorem C40_recursing_overrides_walk {σ : Type} (li : Listener σ) (h1 : ∀ c s, li.enterEveryRule c s = s)
    (h2 : ∀ c s, li.exitEveryRule c s = s) (r : RuleContext) (s : σ) :
    (mirror li).visit r s = .ok ((), li.walk r s) := by
  rw [Visitor.visit_eq_child, walk_eq_child]
  exact mirror_child li h1 h2 r.toAst s

/-- **C40** `should_visit_next_child` answering no ends the loop over the children at once: the result so
far is returned and no further callback is made. -/
theorem C40_stop {σ V : Type} (vi : Visitor σ V) (r : RuleContext) (s s1 s2 : σ) (d : V)
    (hd : vi.defaultResult s = .ok (d, s1)) (hs : vi.shouldVisitNextChild r d s1 = .ok (false, s2))
    (hne : r.children ≠ []) : vi.visitChildren r s = .ok (d, s2) := by
  obtain ⟨n, kids, i⟩ := r
  cases kids with
  | nil => simp at hne
  | cons k ks => simp [Visitor.visitChildren, hd, Visitor.visitLoop, hs]

theorem Visitor.loop_defaults {σ V : Type} (u : V) (o : RuleKind → Option (RuleContext → Visit σ V → Visit σ V))
    (t e : Token → Visit σ V) (c : RuleContext) (ks : List Ast) (v : V) (s : σ) :
    let vi : Visitor σ V := { defaults u with override := o, visitTerminal := t, visitErrornode := e }
    vi.visitLoop c ks v s = ks.foldlM (fun p k => vi.visitChild k p.2) (v, s) := by
  intro vi
  induction ks generalizing v s with
  | nil => simp only [visitLoop]; rfl
  | cons k ks ih =>
    simp only [visitLoop, List.foldlM_cons]
    rw [show vi.shouldVisitNextChild c v s = .ok (true, s) from rfl, bind_ok]
    simp only [Bool.not_true, Bool.false_eq_true, if_false]
    cases h : vi.visitChild k s with
    | error f => rfl
    | ok p =>
      obtain ⟨v', s'⟩ := p
      rw [bind_ok, bind_ok, show vi.aggregateResult v v' s' = .ok (v', s') from rfl, bind_ok]
      exact ih v' s'

/-- **C40** (results) With the default helpers, whatever callbacks are overridden, `visit_children` visits every
child from left to right and returns what the last of them returned, and `default_result()` if there is none. -/
theorem C40_result_of_last_child {σ V : Type} (u : V)
    (o : RuleKind → Option (RuleContext → Visit σ V → Visit σ V)) (t e : Token → Visit σ V) (c : RuleContext) (s : σ) :
    let vi : Visitor σ V := { Visitor.defaults u with override := o, visitTerminal := t, visitErrornode := e }
    vi.visitChildren c s = c.children.foldlM (fun p k => vi.visitChild k p.2) (u, s) :=
  Visitor.loop_defaults u o t e c c.children u s

/-- non-vacuity: the result of the last child, not of the first -/
example : (Visitor.visitChildren { Visitor.defaults (0 : Nat) with
    visitTerminal := fun t (s : Nat) => .ok (t.tokenType, s + 1) }
    ⟨[], [.terminal (.new 3 [] []), .rule [] 0 [.terminal (.new 5 [] []), .error (.new 6 [] [])],
      .terminal (.new 4 [] [])], 0⟩ 0) = .ok (4, 3) := by decide +kernel

/-- the shipped kind of visitor (`LexerRuleVisitor`, `SymbolVisitor`): overrides of two rules that do not
recurse, everything else default, counting calls -/
def countingVisitor : Visitor (List Str) Unit :=
  { Visitor.default with
    override := fun
      | .lexerRule => some fun c _ s => .ok ((), s ++ [c.ruleName])
      | .parserRule => some fun c _ s => .ok ((), s ++ [c.ruleName])
      | _ => none
    visitTerminal := fun t s => .ok ((), s ++ [t.tokenName]) }

/-- non-vacuity of `C40_override_hides_subtree`: both hypotheses hold and subtrees are hidden -/
example : countingVisitor.Quiet ∧ countingVisitor.Opaque ∧
    (countingVisitor.visit ⟨[], [.rule "a".toList 1 [.terminal (.new 3 "x".toList [])],
      .terminal (.new 3 "y".toList []), .rule "b".toList 3 [.rule "c".toList 7 []]], 0⟩ []).map Prod.snd =
      .ok ["a".toList, "y".toList, "c".toList] := by
  refine ⟨⟨⟨_, fun _ => rfl⟩, fun _ b => ⟨b, fun _ => rfl⟩, fun _ _ _ => rfl⟩, ?_, by decide +kernel⟩
  intro k f h c th th'
  cases k <;> simp [countingVisitor] at h <;> subst h <;> rfl

/-- non-vacuity of `C40_recursing_overrides_walk` -/
example : ∃ li : Listener (List RuleKind), (∀ c s, li.enterEveryRule c s = s) ∧ (∀ c s, li.exitEveryRule c s = s) ∧
    ((mirror li).visit ⟨[], [.rule [] 3 [.rule [] 8 []], .rule [] 7 []], 0⟩ []).map Prod.snd =
      .ok [.ruleList, .alternative, .regular, .lexerRule] :=
  ⟨⟨fun k _ s => s ++ [k], fun _ _ s => s, fun _ s => s, fun _ s => s, fun _ s => s, fun _ s => s,
    fun _ s => s, fun _ s => s⟩, fun _ _ => rfl, fun _ _ => rfl, by decide +kernel⟩

end Syntaxis
