import Verif.Props.Page
import Verif.Props.DrawnExact

/-! # C68: exactly which pages show their tree -/

namespace Syntaxis
open Html Drawer

/-- the text contains an end tag of the element: `</`, the name in any case, and white space, `/` or `>` -/
def Html.EndsIn (el s : Str) : Prop :=
  ∃ c, (c = '>' ∨ c = '/' ∨ Html.isSpace c) ∧ (endTag el ++ [c]) <:+: s.map lower

/-- what the reader does not cover -/
def Html.Covered (el s : Str) : Prop := (el = "title".toList → '&' ∉ s) ∧ (el = "script".toList → ¬ "<!--".toList <:+: s)

theorem Html.Covered.left {el a b : Str} (h : Covered el (a ++ b)) : Covered el a :=
  ⟨fun e h' => h.1 e (by simp [h']), fun e h' => h.2 e (h'.trans (List.prefix_append a b).isInfix)⟩

theorem lower_closer {c : Char} (h : lower c = '>' ∨ lower c = '/' ∨ Html.isSpace (lower c) = true) : lower c = c := by
  rw [lower] at h ⊢
  split
  · rename_i hc
    rw [if_pos hc] at h
    exfalso
    have h1 : 65 ≤ c.toNat := hc.1
    have h2 : c.toNat ≤ 90 := hc.2
    have : ∀ n, n < 91 → 65 ≤ n → ¬ (Char.ofNat (n + 32) = '>' ∨ Char.ofNat (n + 32) = '/' ∨
      Html.isSpace (Char.ofNat (n + 32)) = true) := by decide
    exact this _ (by omega) h1 h
  · rfl

theorem closer_lower {c : Char} (h : c = '>' ∨ c = '/' ∨ Html.isSpace c = true) : lower c = c := by
  have : ¬ ('A' ≤ c ∧ c ≤ 'Z') := by
    rintro ⟨h1, h2⟩
    have h1 : 65 ≤ c.toNat := h1
    have h2 : c.toNat ≤ 90 := h2
    rcases h with rfl | rfl | h
    · revert h1; decide
    · revert h1; decide
    · simp only [Html.isSpace, decide_eq_true_eq] at h
      rcases h with rfl | rfl | rfl | rfl <;> (revert h1; decide)
  exact lower_of_not_upper this

/-- an end tag is completed by the last character or was there before -/
theorem endsIn_snoc (el a : Str) (c : Char) : EndsIn el (a ++ [c]) ↔
    EndsIn el a ∨ ((c = '>' ∨ c = '/' ∨ Html.isSpace c) ∧
      (a.reverse.take (el.length + 2)).map lower = el.reverse ++ ['/', '<']) := by
  constructor
  · rintro ⟨d, hd, u, v, e⟩
    rw [List.map_append, List.map_cons, List.map_nil] at e
    rcases List.eq_nil_or_concat v with rfl | ⟨v, x, rfl⟩
    · rw [List.append_nil, ← List.append_assoc] at e
      obtain ⟨e1, e2⟩ := List.append_inj' e rfl
      obtain rfl : d = lower c := by simpa using e2
      have hc := lower_closer hd
      rw [hc] at hd
      refine .inr ⟨hd, ?_⟩
      rw [List.map_take, List.map_reverse, ← e1, List.reverse_append]
      have : el.length + 2 = (endTag el).reverse.length := by simp [endTag]
      rw [this, List.take_left]
      simp [endTag]
    · rw [List.concat_eq_append, ← List.append_assoc] at e
      exact .inl ⟨d, hd, u, v, (List.append_inj' e rfl).1⟩
  · rintro (⟨d, hd, h⟩ | ⟨hc, h⟩)
    · exact ⟨d, hd, h.trans (List.IsInfix.map lower (List.prefix_append a [c]).isInfix)⟩
    · refine ⟨c, hc, ?_⟩
      have h' := congrArg List.reverse h
      rw [← List.map_reverse] at h'
      have e : (a.reverse.take (el.length + 2)).reverse.map lower = endTag el := by rw [h']; simp [endTag]
      have hs : (a.reverse.take (el.length + 2)).reverse <:+ a := by
        have := List.reverse_suffix.2 (List.take_prefix (el.length + 2) a.reverse)
        rwa [List.reverse_reverse] at this
      obtain ⟨u, hu⟩ := hs
      refine ⟨u.map lower, [], ?_⟩
      rw [← e, ← closer_lower hc, List.append_nil, ← List.append_assoc, ← List.map_append, hu, closer_lower hc]
      rw [List.map_append, List.map_cons, List.map_nil, closer_lower hc]

theorem not_endsIn_nil (el : Str) : ¬ EndsIn el [] := by
  rintro ⟨c, -, h⟩
  have := h.length_le
  simp [endTag] at this

/-- one character inside an element -/
theorem step_raw {el acc : Str} {c : Char} (h : Covered el (acc.reverse ++ [c])) :
    step (.raw el acc) c = if (c = '>' ∨ c = '/' ∨ Html.isSpace c) ∧
        (acc.take (el.length + 2)).map lower = (el.reverse ++ ['/', '<']) then
      ([.text el (acc.drop (el.length + 2)).reverse] ++ (if c = '>' then [.stop el] else []),
        if c = '>' then .data else .tag (c :: (el.reverse ++ ['/'])))
    else ([], .raw el (c :: acc)) := by
  have h2 : ¬ (el = "title".toList ∧ c = '&') := by
    rintro ⟨h', rfl⟩
    exact h.1 h' (by simp)
  have h3 : ¬ (el = "script".toList ∧ c = '-' ∧ acc.take 3 = ['-', '!', '<']) := by
    rintro ⟨h', rfl, h''⟩
    apply h.2 h'
    obtain ⟨u, hu⟩ : ∃ u, acc = '-' :: '!' :: '<' :: u := ⟨acc.drop 3, by
      conv_lhs => rw [← List.take_append_drop 3 acc, h'']
      rfl⟩
    have : "<!--".toList = ['<', '!', '-', '-'] := by decide
    rw [this, hu]
    exact ⟨u.reverse, [], by simp⟩
  simp only [step]
  rw [if_neg h2, if_neg h3]

/-- text without an end tag stays inside the element -/
theorem raw_stays (el acc t : Str) (h : ¬ EndsIn el (acc.reverse ++ t)) (hc : Covered el (acc.reverse ++ t)) :
    Html.readFrom (.raw el acc) t = ([], .raw el (t.reverse ++ acc)) := by
  induction t generalizing acc with
  | nil => rfl
  | cons c t ih =>
    have e : acc.reverse ++ c :: t = (acc.reverse ++ [c]) ++ t := by simp
    rw [e] at h hc
    have h' : ¬ EndsIn el (acc.reverse ++ [c]) := fun ⟨d, hd, hi⟩ =>
      h ⟨d, hd, hi.trans (List.IsInfix.map lower (List.prefix_append _ t).isInfix)⟩
    rw [endsIn_snoc, List.reverse_reverse, not_or] at h'
    rw [Html.readFrom, step_raw hc.left, if_neg h'.2]
    simp only
    rw [ih (c :: acc) (by simpa using h) (by simpa using hc)]
    simp

/-- the first end tag ends the element, with less text than was written -/
theorem raw_ends (el acc t : Str) (h : EndsIn el (acc.reverse ++ t)) (h0 : ¬ EndsIn el acc.reverse)
    (hc : Covered el (acc.reverse ++ t)) :
    ∃ u ts m, Html.readFrom (.raw el acc) t = (.text el u :: ts, m) ∧ u.length < (acc.reverse ++ t).length := by
  induction t generalizing acc with
  | nil => exact absurd (by simpa using h) h0
  | cons c t ih =>
    have e : acc.reverse ++ c :: t = (acc.reverse ++ [c]) ++ t := by simp
    rw [e] at h hc ⊢
    by_cases h1 : (c = '>' ∨ c = '/' ∨ Html.isSpace c) ∧
        (acc.take (el.length + 2)).map lower = (el.reverse ++ ['/', '<'])
    · rw [Html.readFrom, step_raw hc.left, if_pos h1]
      exact ⟨_, _, _, rfl, by simp; omega⟩
    · have h' : ¬ EndsIn el (acc.reverse ++ [c]) := by
        rw [endsIn_snoc, List.reverse_reverse, not_or]
        exact ⟨h0, h1⟩
      obtain ⟨u, ts, m, h2, h3⟩ := ih (c :: acc) (by simpa using h) (by simpa using h') (by simpa using hc)
      refine ⟨u, ts, m, ?_, by simpa using h3⟩
      rw [Html.readFrom, step_raw hc.left, if_neg h1]
      simp only
      rw [h2]
      rfl

/-- the end tag of the template ends the element with all the text -/
theorem raw_end {el acc t : Str} (h : ¬ EndsIn el (acc.reverse ++ endTag el))
    (hc : Covered el (acc.reverse ++ endTag el ++ ['>'])) (hl : (endTag el).map lower = endTag el) :
    Html.readFrom (.raw el acc) ('<' :: '/' :: (el ++ '>' :: t)) =
      ((.text el acc.reverse :: .stop el :: (Html.readFrom .data t).1), (Html.readFrom .data t).2) := by
  have e : '<' :: '/' :: (el ++ '>' :: t) = endTag el ++ '>' :: t := by simp [endTag]
  have hlen : el.length + 2 = (endTag el).reverse.length := by simp [endTag]
  have hr : (endTag el).reverse = el.reverse ++ ['/', '<'] := by simp [endTag]
  rw [e, Html.read_append, raw_stays el acc _ h hc.left]
  simp only [Html.readFrom]
  rw [step_raw (by simpa using hc), if_pos ⟨.inl rfl, by
    rw [hlen, List.take_left, List.map_reverse, hl, hr]⟩, hlen, List.drop_left]
  simp

/-- a fixed end tag behind a text makes no other -/
theorem endsIn_template {el a : Str} (hp : ∀ c ∈ el, ¬ (c = '>' ∨ c = '/' ∨ Html.isSpace c)) (hl : el.getLast? ≠ some '<')
    (hne : el ≠ []) (h : ¬ EndsIn el a) : ¬ EndsIn el (a ++ endTag el) := by
  have h1 : ¬ EndsIn el (a ++ ['<']) := by
    rw [endsIn_snoc, not_or]
    exact ⟨h, fun h => absurd h.1 (by decide)⟩
  have h2 : ¬ EndsIn el (a ++ ['<'] ++ ['/']) := by
    rw [endsIn_snoc, not_or]
    refine ⟨h1, fun h => ?_⟩
    have := h.2
    rw [List.reverse_append] at this
    obtain ⟨p, x, rfl⟩ := List.eq_nil_or_concat el |>.resolve_left hne
    simp only [List.concat_eq_append, List.reverse_append, List.reverse_cons, List.reverse_nil, List.nil_append,
      List.cons_append, List.length_append, List.take_succ_cons, List.map_cons, List.cons.injEq] at this
    apply hl
    rw [List.concat_eq_append, List.getLast?_concat, ← this.1]
    decide
  have h3 : ∀ b, b <+: el → ¬ EndsIn el (a ++ ['<'] ++ ['/'] ++ b) := by
    intro b
    induction b using List.reverseRecOn with
    | nil => intro _; simpa using h2
    | append_singleton b c ih =>
      intro hb
      rw [← List.append_assoc, endsIn_snoc, not_or]
      exact ⟨ih ((List.prefix_append b [c]).trans hb), fun h => hp c (hb.subset (by simp)) h.1⟩
  have := h3 el (List.prefix_refl _)
  simpa [endTag] using this

/-! ### end tags in the script are those in the texts shown -/

theorem Lacks.behind {x : Char} {q : Str} {f : Char → Char} {a b : Str} (ha : ∀ c ∈ a, f c ≠ x)
    (hb : Lacks (x :: q) f b) : Lacks (x :: q) f (a ++ b) := by
  induction a with
  | nil => exact hb
  | cons c a ih =>
    intro h
    rw [List.cons_append, List.map_cons] at h
    rcases List.infix_cons_iff.1 h with h | h
    · obtain ⟨v, e⟩ := h
      rw [List.cons_append, List.cons.injEq] at e
      exact ha c (by simp) e.1.symm
    · exact ih (fun c hc => ha c (by simp [hc])) h

mutual
theorem shown_infix (a : Ast) (s : Str) (h : s ∈ a.shown) : escape s <:+: dumpChild a := by
  cases a with
  | terminal t =>
    rw [dumpChild]
    exact shown_leaf t s (by simpa [Ast.shown] using h)
  | error t =>
    rw [dumpChild]
    exact shown_leaf t s (by simpa [Ast.shown] using h)
  | rule n i kids =>
    have e := dumpChild_rule n i kids []
    rw [List.append_nil] at e
    rw [e]
    rw [Ast.shown, List.mem_cons] at h
    rcases h with rfl | h
    · exact ⟨"{ name:`".toList, _, by rw [List.append_assoc]⟩
    · refine (shown_infix_all kids s h).trans ⟨"{ name:`".toList ++ (escape n ++ '`' :: (",id: `".toList ++
        ((Nat.repr i).toList ++ '`' :: (", children:[".toList)))), (']' :: ',' :: '}' :: []), ?_⟩
      generalize "{ name:`".toList = x1
      generalize ",id: `".toList = x2
      generalize ", children:[".toList = x3
      simp
theorem shown_infix_all (ks : List Ast) (s : Str) (h : s ∈ Ast.shownAll ks) : escape s <:+: dumpChildren ks := by
  cases ks with
  | nil => simp [Ast.shownAll] at h
  | cons k ks =>
    rw [Ast.shownAll, List.mem_append] at h
    rw [dumpChildren, List.append_assoc]
    rcases h with h | h
    · exact (shown_infix k s h).trans (List.prefix_append _ _).isInfix
    · exact (shown_infix_all ks s h).trans ⟨dumpChild k ++ [','], [], by simp⟩
theorem shown_leaf (t : Token) (s : Str) (h : s = t.tokenName ∨ s = t.text) : escape s <:+: dumpLeaf t := by
  delta dumpLeaf
  generalize "{ name:`".toList = x1
  generalize "`, text: `".toList = x2
  generalize "`}".toList = x3
  rcases h with rfl | rfl
  · exact ⟨x1, x2 ++ escape t.text ++ x3, by simp⟩
  · exact ⟨x1 ++ escape t.tokenName ++ x2, x3, by simp⟩
end

theorem scriptText_pieces (r : RuleContext) :
    scriptText r = chars! "\n    const ast = " ++ (dump r ++ ';' :: Page.scriptRest) := by
  have e3 : "const ast = ".toList = chars! "const ast = " := by decide +kernel
  have e4 : ";".toList = [';'] := by decide
  delta scriptText script
  rw [e3, e4]
  generalize dump r = d
  generalize Page.scriptRest = t
  simp

/-- the script contains an end tag iff a text shown does -/
theorem script_endsIn (r : RuleContext) :
    EndsIn "script".toList (scriptText r) ↔ ∃ s ∈ r.toAst.shown, EndsIn "script".toList s := by
  constructor
  · rintro ⟨c, hc, h⟩
    by_contra hn
    push Not at hn
    have hcs : c ∈ ['>', '/', ' ', '\n', '\t', '\x0c'] := by
      rcases hc with rfl | rfl | hc
      · simp
      · simp
      · simp only [Html.isSpace, decide_eq_true_eq] at hc
        simp only [List.mem_cons]
        tauto
    have hq : ∀ x ∈ ['\\', '`', ',', '[', ']'], lower x ∉ '<' :: ("/script".toList ++ [c]) := by
      have : ∀ c ∈ ['>', '/', ' ', '\n', '\t', '\x0c'], ∀ x ∈ ['\\', '`', ',', '[', ']'],
          lower x ∉ '<' :: ("/script".toList ++ [c]) := by decide
      exact this c hcs
    have hsemi : lower ';' ∉ '<' :: ("/script".toList ++ [c]) := by
      have : ∀ c ∈ ['>', '/', ' ', '\n', '\t', '\x0c'], lower ';' ∉ '<' :: ("/script".toList ++ [c]) := by decide
      exact this c hcs
    have ep : endTag "script".toList ++ [c] = '<' :: ("/script".toList ++ [c]) := by
      rw [show endTag "script".toList = '<' :: "/script".toList from by decide]; rfl
    have hd : Lacks ('<' :: ("/script".toList ++ [c])) lower (dump r) :=
      lacks_child lower_lt hq r.toAst fun s hs hi => hn s hs ⟨c, hc, by rw [ep]; exact hi⟩
    have hr : Lacks ('<' :: ("/script".toList ++ [c])) lower Page.scriptRest := by
      intro hi
      refine lacks_of_check scriptRest_facts.1 (List.IsInfix.trans ?_ hi)
      rw [← ep]
      exact (List.prefix_append _ _).isInfix
    rw [ep, scriptText_pieces] at h
    exact Lacks.behind (by decide) (.glue hsemi hd hr) h
  · rintro ⟨s, hs, c, hc, h⟩
    refine ⟨c, hc, ?_⟩
    obtain ⟨u, v, e⟩ := h
    obtain ⟨a, b, rfl, e1, -⟩ := List.map_eq_append_iff.1 e.symm
    obtain ⟨a1, a2, rfl, -, e3⟩ := List.map_eq_append_iff.1 e1
    have hi : a2 <:+: escape ((a1 ++ a2) ++ b) := by
      refine escape_infix (fun x hx => ?_) ⟨a1, b, rfl⟩
      have hm : lower x ∈ endTag "script".toList ++ [c] := by rw [← e3]; exact List.mem_map_of_mem hx
      have hno : ∀ y ∈ ['\\', '`'], y ∉ endTag "script".toList ++ [c] := by
        intro y hy hm
        rw [List.mem_append, List.mem_singleton] at hm
        rcases hm with hm | rfl
        · exact absurd hm (by revert y; decide)
        · have : ∀ y ∈ ['\\', '`'], ¬ (y = '>' ∨ y = '/' ∨ Html.isSpace y = true) := by decide
          exact this _ hy hc
      constructor
      · rintro rfl
        exact hno _ (by decide) hm
      · rintro rfl
        exact hno _ (by decide) hm
    have h2 : a2 <:+: scriptText r := by
      rw [scriptText_pieces]
      refine (hi.trans (shown_infix r.toAst _ hs)).trans
        ⟨chars! "\n    const ast = ", ';' :: Page.scriptRest, ?_⟩
      show _ ++ dump r ++ _ = _
      rw [List.append_assoc]
    rw [← e3]
    exact h2.map lower

/-- nothing in the script is outside of what the reader covers -/
theorem script_covered (r : RuleContext) (h : ∀ s ∈ r.toAst.shown, ¬ "<!--".toList <:+: s) {t : Str} (ht : '-' ∉ t) :
    Covered "script".toList (scriptText r ++ t) := by
  refine ⟨fun h' => absurd h' (by decide), fun _ => ?_⟩
  have e2 : "<!--".toList = '<' :: "!--".toList := by decide
  have e3 : "<!--".toList = "<!-".toList ++ ['-'] := by decide
  have h1 : Lacks "<!--".toList id (scriptText r) := by
    rw [scriptText_pieces, e2]
    refine .behind (by decide) (.glue (by decide) ?_ ?_)
    · exact lacks_child (fun _ h => h) (by decide) r.toAst fun s hs => by
        have := h s hs
        rw [e2] at this
        rw [Lacks, show s.map (fun x => x) = s from List.map_id s]
        exact this
    · rw [← e2]
      exact lacks_of_check scriptRest_facts.2
  rw [e3] at h1
  have h2 : Lacks ("<!-".toList ++ ['-']) id (scriptText r ++ t) := Lacks.snoc h1 fun c hc => by
    rintro rfl
    exact ht hc
  rwa [← e3, Lacks, List.map_id] at h2

/-- a page whose script ends early -/
theorem broken_pieces {A N S S' B X Y E T C acc u : Str} {us : List Html.Tok} {m : Html.Mode}
    (h1 : (Html.readFrom .data A).2 = .raw T [])
    (h2 : Html.readFrom (.raw T []) N = ([], .raw T N.reverse))
    (h3 : ∀ t, Html.readFrom (.raw T N.reverse) ('<' :: '/' :: (T ++ '>' :: t)) =
      (.text T N :: .stop T :: (Html.readFrom .data t).1, (Html.readFrom .data t).2))
    (hS : S = '<' :: '/' :: (T ++ '>' :: S')) (h4 : (Html.readFrom .data S').2 = .data)
    (h5 : (Html.readFrom .data B).2 = .raw C acc) (h6 : Html.readFrom (.raw C acc) (X ++ Y) = (.text C u :: us, m)) :
    ∃ ts m', Html.readFrom .data (A ++ N ++ S ++ B ++ X ++ Y ++ E) =
      ((Html.readFrom .data A).1 ++ (.text T N :: .stop T :: ((Html.readFrom .data S').1 ++
        ((Html.readFrom .data B).1 ++ (.text C u :: us ++ ts)))), m') := by
  have e : A ++ N ++ S ++ B ++ X ++ Y ++ E =
      A ++ (N ++ ('<' :: '/' :: (T ++ '>' :: (S' ++ (B ++ ((X ++ Y) ++ E)))))) := by
    rw [hS]; simp
  rw [e, Html.read_append, h1, Html.read_append, h2, h3, Html.read_append, h4, Html.read_append, h5,
    Html.read_append, h6]
  exact ⟨(Html.readFrom m E).1, (Html.readFrom m E).2, by simp⟩

/-- **C68** exactly: for a name without `&` and texts without `<!--` (not covered by the reader of the specification), the
page is a document with one title, the name, and one script that declares `ast` as the literal written for the
tree, and this literal is the tree, if and only
if the name contains no end tag of a title and no name or text of the tree contains an end tag of a script, `${` or a
carriage return. -/
theorem C68_page_iff (name : Str) (r : RuleContext) (hn : '&' ∉ name)
    (hr : ∀ s ∈ r.toAst.shown, ¬ "<!--".toList <:+: s) :
    (∃ ts v, tokens (Page.render name r) = some ts ∧ texts "title".toList ts = [name] ∧
      texts "script".toList ts = ["\n    const ast = ".toList ++ dump r ++ ";".toList ++ Page.scriptRest] ∧
      JsReadsAs (dump r) v ∧ v.view = some r.toAst.toView) ↔
    ¬ EndsIn "title".toList name ∧ ∀ s ∈ r.toAst.shown, ¬ EndsIn "script".toList s ∧ Clean s := by
  obtain ⟨f1, t1, c1, f2, f3, t2, c2, f4, t3, c3, f5, f6, t4, c4⟩ := page_facts
  have hcov : ∀ t, '&' ∉ t → Covered "title".toList (name ++ t) := fun t ht =>
    ⟨fun _ h => by simp only [List.mem_append] at h; exact h.elim hn ht, fun h => absurd h (by decide)⟩
  by_cases hE : EndsIn "title".toList name
  · refine ⟨?_, fun h => absurd hE h.1⟩
    rintro ⟨ts, v, h1, h2, -⟩
    exfalso
    obtain ⟨u, ts', m, h3, h4⟩ := raw_ends "title".toList [] name (by simpa using hE) (not_endsIn_nil _)
      (by simpa using hcov [] (by simp))
    have e : Page.render name r =
        Page.head ++ (name ++ (Page.style ++ Page.body ++ script r ++ Page.scriptRest ++ Page.end_)) := by
      rw [Page.render]; simp only [List.append_assoc]
    rw [tokens, e, Html.read_append, f1, Html.read_append, h3] at h1
    generalize Html.readFrom m (Page.style ++ Page.body ++ script r ++ Page.scriptRest ++ Page.end_) = y at h1
    obtain ⟨y1, y2⟩ := y
    have h5 : ts = (Html.readFrom .data Page.head).1 ++ (.text "title".toList u :: ts' ++ y1) := by
      cases y2 <;> simp at h1
      simp [h1]
    rw [h5, texts_append, t1] at h2
    have : u = name := by
      simp only [texts, List.nil_append, List.cons_append, List.filterMap_cons, if_true, List.cons.injEq] at h2
      exact h2.1
    subst this
    simp at h4
  have hN1 : Html.readFrom (.raw "title".toList []) name = ([], .raw "title".toList name.reverse) := by
    have := raw_stays "title".toList [] name (by simpa using hE) (by simpa using hcov [] (by simp))
    simpa using this
  have hN2 : ∀ t, Html.readFrom (.raw "title".toList name.reverse) ('<' :: '/' :: ("title".toList ++ '>' :: t)) =
      (.text "title".toList name :: .stop "title".toList :: (Html.readFrom .data t).1, (Html.readFrom .data t).2) := by
    intro t
    have := raw_end (el := "title".toList) (acc := name.reverse) (t := t)
      (by rw [List.reverse_reverse]; exact endsIn_template (by decide) (by decide) (by decide) hE)
      (by rw [List.reverse_reverse, List.append_assoc]; exact hcov _ (by decide)) (by decide)
    rwa [List.reverse_reverse] at this
  have hcovS : Covered "script".toList (scriptText r) := by
    have := script_covered r hr (t := []) (by simp)
    rwa [List.append_nil] at this
  by_cases hS : EndsIn "script".toList (scriptText r)
  · have hS' := (script_endsIn r).1 hS
    refine ⟨?_, fun h => by obtain ⟨s, hs, hs'⟩ := hS'; exact absurd hs' (h.2 s hs).1⟩
    rintro ⟨ts, v, h1, -, h2, h2'⟩
    exfalso
    obtain ⟨u, ts', m, h3, h4⟩ := raw_ends "script".toList (chars! "    \n") (script r ++ Page.scriptRest) hS (by
        rintro ⟨c, -, h⟩
        have := h.length_le
        revert this
        rw [List.length_append, show (endTag "script".toList).length = 8 by decide]
        simp)
      hcovS
    obtain ⟨y1, h5⟩ : ∃ y1, ts = (Html.readFrom .data Page.head).1 ++ (.text "title".toList name ::
        .stop "title".toList :: ((Html.readFrom .data (Page.style.drop 8)).1 ++ ((Html.readFrom .data Page.body).1 ++
          (.text "script".toList u :: ts' ++ y1)))) := by
      obtain ⟨y1, y2, hy⟩ := broken_pieces f1 hN1 hN2 f2 f3 f4 h3 (E := Page.end_)
      rw [tokens, Page.render, hy] at h1
      refine ⟨y1, ?_⟩
      cases y2 <;> simp only [Option.some.injEq, reduceCtorEq] at h1
      exact h1.symm
    have hx : ∀ (n : Str) (X : List Html.Tok), texts "script".toList (.text "title".toList n :: .stop "title".toList :: X) =
        texts "script".toList X := by
      intro n X
      simp [texts]
    have hy : ∀ (n : Str) (X : List Html.Tok), texts "script".toList (.text "script".toList n :: X) =
        n :: texts "script".toList X := by
      intro n X
      simp [texts]
    rw [h5, texts_append, c1, List.nil_append, hx, texts_append, c2, texts_append, c3, List.cons_append, hy] at h2
    simp only [List.nil_append, List.cons.injEq] at h2
    rw [h2.1, ← scriptText_eq] at h4
    exact absurd h4 (Nat.lt_irrefl _)
  have hS' : ∀ s ∈ r.toAst.shown, ¬ EndsIn "script".toList s := fun s hs h => hS ((script_endsIn r).2 ⟨s, hs, h⟩)
  have hpage : Html.readFrom .data (Page.render name r) =
      ((Html.readFrom .data Page.head).1 ++ (.text "title".toList name :: .stop "title".toList ::
        ((Html.readFrom .data (Page.style.drop 8)).1 ++ ((Html.readFrom .data Page.body).1 ++
          (.text "script".toList (scriptText r) :: .stop "script".toList ::
            (Html.readFrom .data (Page.end_.drop 9)).1)))), .data) := by
    refine html_pieces f1 hN1 hN2 f2 f3 f4 ?_ (fun t => ?_) f5 f6
    · have := raw_stays "script".toList (chars! "    \n") (script r ++ Page.scriptRest) hS
        hcovS
      have e : ∀ t : Str, t.reverse ++ chars! "    \n" = (chars! "\n    " ++ t).reverse := by intro t; simp
      rw [this, e]
      rfl
    · have := raw_end (el := "script".toList) (acc := (scriptText r).reverse) (t := t)
        (by rw [List.reverse_reverse]; exact endsIn_template (by decide) (by decide) (by decide) hS)
        (by rw [List.reverse_reverse, List.append_assoc]; exact script_covered r hr (by decide)) (by decide)
      rwa [List.reverse_reverse] at this
  obtain ⟨g1, g2⟩ := texts_page (T := "title".toList) (C := "script".toList) (by decide) name (scriptText r)
    t1 t2 t3 t4 c1 c2 c3 c4
  have hiff := C49_drawn_iff r
  constructor
  · rintro ⟨ts, v, -, -, -, h3⟩
    exact ⟨hE, fun s hs => ⟨hS' s hs, hiff.1 ⟨v, h3⟩ s hs⟩⟩
  · rintro ⟨-, h⟩
    obtain ⟨v, h1⟩ := hiff.2 fun s hs => (h s hs).2
    exact ⟨_, v, by rw [tokens, hpage], g1, by rw [g2, scriptText_eq], h1⟩

/-- non-vacuity: a page that shows its tree, and one that does not -/
example : ('&' ∉ "a</titles>".toList ∧ ¬ EndsIn "title".toList "a</titles>".toList) ∧
    EndsIn "script".toList "b</sCript\n".toList ∧ ¬ EndsIn "script".toList "</script".toList := by
  refine ⟨⟨by decide, ?_⟩, ⟨'\n', by decide, ?_⟩, ?_⟩
  · rintro ⟨c, hc, h⟩
    have : ("a</titles>".toList.map lower).tails.all (fun t => !((endTag "title".toList).isPrefixOf t &&
        decide (t.getD 7 'x' = '>' ∨ t.getD 7 'x' = '/' ∨ Html.isSpace (t.getD 7 'x')))) = true := by decide +kernel
    obtain ⟨u, v, e⟩ := h
    have := List.all_eq_true.1 this ((endTag "title".toList ++ [c]) ++ v) (by
      rw [List.mem_tails]; exact ⟨u, by rw [← e]; simp⟩)
    simp [endTag, List.isPrefixOf] at this
    rcases hc with rfl | rfl | hc <;> simp_all
  · refine ⟨['b'], [], by decide +kernel⟩
  · rintro ⟨c, -, h⟩
    exact absurd h.length_le (by simp [endTag])

end Syntaxis
