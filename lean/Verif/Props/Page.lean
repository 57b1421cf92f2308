import Verif.Model.Page
import Verif.Spec.Html
import Verif.Props.Drawer

/-! # C68: the drawn page -/

namespace Syntaxis
open Html Drawer

theorem Html.read_append (m : Mode) (s t : Str) :
    Html.readFrom m (s ++ t) =
      ((Html.readFrom m s).1 ++ (Html.readFrom (Html.readFrom m s).2 t).1, (Html.readFrom (Html.readFrom m s).2 t).2) := by
  induction s generalizing m with
  | nil => simp [Html.readFrom]
  | cons c s ih => simp only [List.cons_append, Html.readFrom, ih]; simp

/-! ### texts without a pattern -/

/-- the pattern does not occur -/
def Lacks (p : Str) (f : Char → Char) (s : Str) : Prop := ¬ p <:+: s.map f

theorem infix_glue {p a b : Str} {c : Char} (hc : c ∉ p) (h : p <:+: a ++ c :: b) : p <:+: a ∨ p <:+: b := by
  obtain ⟨u, v, e⟩ := h
  rw [List.append_assoc] at e
  rcases List.append_eq_append_iff.1 e with ⟨w, h1, h2⟩ | ⟨w, h1, h2⟩
  · -- `u` ends inside `a`
    rcases List.append_eq_append_iff.1 h2 with ⟨x, h3, h4⟩ | ⟨x, h3, h4⟩
    · exact .inl ⟨u, x, by rw [h1, h3]; simp⟩
    · cases x with
      | nil => exact .inl ⟨u, [], by rw [h1, h3]; simp⟩
      | cons d x =>
        simp only [List.cons_append, List.cons.injEq] at h4
        exact absurd (by rw [h3, h4.1]; simp) hc
  · -- `u` reaches into the rest
    cases w with
    | nil =>
      rw [List.nil_append] at h2
      cases p with
      | nil => exact .inl ⟨[], a, by simp⟩
      | cons d p =>
        simp only [List.cons_append, List.cons.injEq] at h2
        exact absurd (by rw [h2.1]; simp) hc
    | cons d w =>
      simp only [List.cons_append, List.cons.injEq] at h2
      exact .inr ⟨w, v, by rw [h2.2]; simp⟩

theorem Lacks.glue {p : Str} {f : Char → Char} {a b : Str} {c : Char} (hc : f c ∉ p) (ha : Lacks p f a)
    (hb : Lacks p f b) : Lacks p f (a ++ c :: b) := by
  intro h
  rw [List.map_append, List.map_cons] at h
  rcases infix_glue hc h with h | h
  · exact ha h
  · exact hb h

theorem Lacks.left {p : Str} {f : Char → Char} {a b : Str} (h : Lacks p f (a ++ b)) : Lacks p f a := fun h' =>
  h (h'.trans ⟨[], b.map f, by simp⟩)

theorem Lacks.right {p : Str} {f : Char → Char} {a b : Str} (h : Lacks p f (a ++ b)) : Lacks p f b := fun h' =>
  h (h'.trans ⟨a.map f, [], by simp⟩)

/-- what is appended does not contain the last character of the pattern -/
theorem Lacks.snoc {p : Str} {x : Char} {f : Char → Char} {a b : Str} (ha : Lacks (p ++ [x]) f a)
    (hb : ∀ c ∈ b, f c ≠ x) : Lacks (p ++ [x]) f (a ++ b) := by
  induction b using List.reverseRecOn with
  | nil => simpa using ha
  | append_singleton b c ih =>
    rintro ⟨u, v, e⟩
    have ih := ih fun c hc => hb c (by simp [hc])
    rcases List.eq_nil_or_concat v with rfl | ⟨v, d, rfl⟩
    · simp only [List.append_nil, ← List.append_assoc, List.map_append, List.map_cons, List.map_nil] at e
      have := (List.append_inj' e rfl).2
      simp only [List.cons.injEq, and_true] at this
      exact hb c (by simp) this.symm
    · rw [List.concat_eq_append] at e
      simp only [← List.append_assoc, List.map_append, List.map_cons, List.map_nil] at e
      exact ih ⟨u, v, by simpa using (List.append_inj' e rfl).1⟩

/-- the pattern begins with a character that does not occur -/
theorem Lacks.of_head {x : Char} {p : Str} {f : Char → Char} {s : Str} (h : ∀ c ∈ s, f c ≠ x) : Lacks (x :: p) f s := by
  intro hi
  have : x ∈ s.map f := hi.subset (by simp)
  obtain ⟨c, hc, e⟩ := List.mem_map.1 this
  exact h c hc e

theorem Lacks.escape {p : Str} {f : Char → Char} (h1 : f '\\' ∉ p) (h2 : f '`' ∉ p) {s : Str} (h : Lacks p f s) :
    Lacks p f (escape s) := by
  rw [escape_eq]
  have : ∀ (s a : Str), Lacks p f (a ++ s) → Lacks p f (a ++ s.flatMap escChar) := by
    intro s
    induction s with
    | nil => intro a h; simpa using h
    | cons c s ih =>
      intro a h
      rw [List.flatMap_cons]
      by_cases hc : c = '\\' ∨ c = '`'
      · rw [escChar, if_pos hc]
        have hs : Lacks p f (s.flatMap escChar) := by
          simpa using ih [] (by simpa using (h.right : Lacks p f (c :: s)).right (a := [c]) (b := s))
        refine Lacks.glue h1 h.left ?_
        have : f c ∉ p := by rcases hc with rfl | rfl <;> assumption
        have hnil : Lacks p f [] := by
          intro hi
          rw [List.map_nil, List.infix_nil] at hi
          exact h (by rw [hi]; exact ⟨[], _, rfl⟩)
        simpa using Lacks.glue (a := []) this hnil hs
      · rw [escChar, if_neg hc]
        have := ih (a ++ [c]) (by simpa using h)
        simpa using this
  simpa using this s [] (by simpa using h)

theorem leaf_pieces (A B C x y : Str) :
    A ++ ['`'] ++ x ++ ('`' :: (B ++ ['`'])) ++ y ++ ('`' :: C) =
      A ++ '`' :: (x ++ '`' :: (B ++ '`' :: (y ++ '`' :: C))) := by simp

theorem rule_pieces (A B C D x y z : Str) :
    A ++ ['`'] ++ (x ++ '`' :: (B ++ ['`'] ++ (y ++ '`' :: (C ++ ['['] ++ (z ++ (']' :: D)))))) =
      A ++ '`' :: (x ++ '`' :: (B ++ '`' :: (y ++ '`' :: (C ++ '[' :: (z ++ ']' :: D))))) := by simp

section
variable {q : Str} {f : Char → Char} (hf : ∀ c, f c = '<' → c = '<')
  (hq : ∀ c ∈ ['\\', '`', ',', '[', ']'], f c ∉ '<' :: q)
include hf hq

theorem lacks_static {s : Str} (h : '<' ∉ s) : Lacks ('<' :: q) f s :=
  .of_head fun c hc he => h (hf c he ▸ hc)

theorem lacks_leaf_pieces {x1 x2 x3 u v : Str} (h1 : '<' ∉ x1) (h2 : '<' ∉ x2) (h3 : '<' ∉ x3)
    (hu : Lacks ('<' :: q) f u) (hv : Lacks ('<' :: q) f v) :
    Lacks ('<' :: q) f (x1 ++ ['`'] ++ escape u ++ ('`' :: (x2 ++ ['`'])) ++ escape v ++ ('`' :: x3)) := by
  rw [leaf_pieces]
  have hb := hq '`' (by simp)
  have he := hq '\\' (by simp)
  exact .glue hb (lacks_static hf hq h1) (.glue hb (hu.escape he hb) (.glue hb (lacks_static hf hq h2)
    (.glue hb (hv.escape he hb) (lacks_static hf hq h3))))

theorem lacks_leaf (t : Token) (ht1 : Lacks ('<' :: q) f t.tokenName) (ht2 : Lacks ('<' :: q) f t.text) :
    Lacks ('<' :: q) f (dumpLeaf t) := by
  have e1 : "{ name:`".toList = "{ name:".toList ++ ['`'] := by decide +kernel
  have e2 : "`, text: `".toList = '`' :: (", text: ".toList ++ ['`']) := by decide +kernel
  have e3 : "`}".toList = '`' :: "}".toList := by decide +kernel
  delta dumpLeaf
  rw [e1, e2, e3]
  exact lacks_leaf_pieces hf hq (by decide +kernel) (by decide +kernel) (by decide +kernel) ht1 ht2

theorem lacks_rule (n : Str) (i : Nat) (kids : List Ast) (hn : Lacks ('<' :: q) f n)
    (hk : Lacks ('<' :: q) f (dumpChildren kids)) : Lacks ('<' :: q) f (dumpChild (.rule n i kids)) := by
  have e := dumpChild_rule n i kids []
  have e1 : "{ name:`".toList = "{ name:".toList ++ ['`'] := by decide +kernel
  have e2 : ",id: `".toList = ",id: ".toList ++ ['`'] := by decide +kernel
  have e3 : ", children:[".toList = ", children:".toList ++ ['['] := by decide +kernel
  have h1 : '<' ∉ "{ name:".toList := by decide +kernel
  have h2 : '<' ∉ ",id: ".toList := by decide +kernel
  have h3 : '<' ∉ ", children:".toList := by decide +kernel
  rw [List.append_nil, e1, e2, e3] at e
  rw [e]
  revert h1 h2 h3
  generalize "{ name:".toList = x1
  generalize ",id: ".toList = x2
  generalize ", children:".toList = x3
  intro h1 h2 h3
  rw [rule_pieces]
  have hb := hq '`' (by simp)
  have he := hq '\\' (by simp)
  exact .glue hb (lacks_static hf hq h1) (.glue hb (hn.escape he hb) (.glue hb (lacks_static hf hq h2)
    (.glue hb (lacks_static hf hq fun h => absurd (repr_digit h) (by decide)) (.glue (hq '[' (by simp))
      (lacks_static hf hq h3) (.glue (hq ']' (by simp)) hk (lacks_static hf hq (by decide)))))))

mutual
theorem lacks_child (a : Ast) (h : ∀ s ∈ a.shown, Lacks ('<' :: q) f s) : Lacks ('<' :: q) f (dumpChild a) := by
  cases a with
  | terminal t => exact lacks_leaf hf hq t (h _ (by simp [Ast.shown])) (h _ (by simp [Ast.shown]))
  | error t => exact lacks_leaf hf hq t (h _ (by simp [Ast.shown])) (h _ (by simp [Ast.shown]))
  | rule n i kids =>
    exact lacks_rule hf hq n i kids (h _ (by simp [Ast.shown]))
      (lacks_children kids fun s hs => h s (by simp [Ast.shown, hs]))
theorem lacks_children (ks : List Ast) (h : ∀ s ∈ Ast.shownAll ks, Lacks ('<' :: q) f s) :
    Lacks ('<' :: q) f (dumpChildren ks) := by
  cases ks with
  | nil => exact .of_head (by simp [dumpChildren])
  | cons k ks =>
    rw [dumpChildren, List.append_assoc]
    exact .glue (hq ',' (by simp)) (lacks_child k fun s hs => h s (by simp [Ast.shownAll, hs]))
      (lacks_children ks fun s hs => h s (by simp [Ast.shownAll, hs]))
end
end

/-! ### the text of an element -/

/-- the end tag of the element, without its last character -/
def endTag (el : Str) : Str := '<' :: '/' :: el

/-- text that stays inside the element -/
def StaysIn (el : Str) (s : Str) : Prop :=
  Lacks (endTag el) lower s ∧ (el = "title".toList → '&' ∉ s) ∧ (el = "script".toList → ¬ "<!--".toList <:+: s)

theorem not_ended {el s : Str} (h : Lacks (endTag el) lower s) :
    (s.reverse.take (el.length + 2)).map lower ≠ el.reverse ++ ['/', '<'] := by
  intro e
  apply h
  have e' := congrArg List.reverse e
  rw [← List.map_reverse] at e'
  have hs : ((s.reverse.take (el.length + 2)).reverse) <:+: s := by
    have : s.reverse.take (el.length + 2) <+: s.reverse := List.take_prefix _ _
    have := (List.reverse_suffix.2 this)
    rw [List.reverse_reverse] at this
    exact this.isInfix
  have : endTag el = ((s.reverse.take (el.length + 2)).reverse).map lower := by
    rw [e']; simp [endTag]
  rw [this]
  exact hs.map _

theorem html_raw (el acc t : Str) (h : StaysIn el (acc.reverse ++ t)) :
    Html.readFrom (.raw el acc) t = ([], .raw el (t.reverse ++ acc)) := by
  induction t generalizing acc with
  | nil => rfl
  | cons c t ih =>
    have h1 : (acc.take (el.length + 2)).map lower ≠ el.reverse ++ ['/', '<'] := by
      have := not_ended (s := acc.reverse) h.1.left
      rwa [List.reverse_reverse] at this
    have h2 : ¬ (el = "title".toList ∧ c = '&') := by
      rintro ⟨h', rfl⟩
      exact h.2.1 h' (by simp)
    have h3 : ¬ (el = "script".toList ∧ c = '-' ∧ acc.take 3 = ['-', '!', '<']) := by
      rintro ⟨h', rfl, h''⟩
      apply h.2.2 h'
      obtain ⟨u, hu⟩ : ∃ u, acc = '-' :: '!' :: '<' :: u := ⟨acc.drop 3, by
        conv_lhs => rw [← List.take_append_drop 3 acc, h'']
        rfl⟩
      have : "<!--".toList = ['<', '!', '-', '-'] := by decide
      rw [this, hu]
      exact ⟨u.reverse, t, by simp⟩
    have hs : step (.raw el acc) c = ([], .raw el (c :: acc)) := by
      simp only [step]
      rw [if_neg (fun h => h1 h.2), if_neg h2, if_neg h3]
    rw [Html.readFrom, hs]
    simp only
    rw [ih (c :: acc) (by simpa using h)]
    simp

theorem lower_of_not_upper {c : Char} (h : ¬ ('A' ≤ c ∧ c ≤ 'Z')) : lower c = c := by rw [lower, if_neg h]

/-- the end tag ends the element -/
theorem html_end {el p : Str} {x : Char} (he : el = p ++ [x]) (hx : x ∉ '<' :: '/' :: p)
    (hl : ∀ c ∈ '<' :: '/' :: el, lower c = c) (ht : el = "title".toList → '&' ∉ el)
    (hsc : '-' ∉ el) (hx' : ¬ (x = '>' ∨ x = '/' ∨ Html.isSpace x)) (acc t : Str) (h : StaysIn el acc.reverse) :
    Html.readFrom (.raw el acc) ('<' :: '/' :: (el ++ '>' :: t)) =
      ((.text el acc.reverse :: .stop el :: (Html.readFrom .data t).1), (Html.readFrom .data t).2) := by
  have hs : StaysIn el (acc.reverse ++ ('<' :: '/' :: p)) := by
    refine ⟨?_, fun h' => ?_, fun h' => ?_⟩
    · have e : endTag el = ('<' :: '/' :: p) ++ [x] := by simp [endTag, he]
      rw [e]
      refine Lacks.snoc (e ▸ h.1) fun c hc => ?_
      rw [hl c (by
        rw [he]
        simp only [List.mem_cons, List.mem_append] at hc ⊢
        tauto)]
      rintro rfl
      exact hx hc
    · have := ht h'
      rw [he] at this
      simp only [List.mem_append, List.mem_cons, List.not_mem_nil, or_false, not_or] at this ⊢
      exact ⟨h.2.1 h', by decide, by decide, this.1⟩
    · have hc : "<!--".toList = "<!-".toList ++ ['-'] := by decide
      have := Lacks.snoc (p := "<!-".toList) (x := '-') (f := id) (a := acc.reverse) (b := '<' :: '/' :: p)
        (by rw [← hc, Lacks, List.map_id]; exact h.2.2 h') (fun c hc' => by
          rintro rfl
          simp only [List.mem_cons] at hc'
          rcases hc' with h | h | h
          · revert h; decide
          · revert h; decide
          · exact hsc (by rw [he]; simpa using .inl h))
      rw [Lacks, List.map_id, ← hc] at this
      exact this
  have e : '<' :: '/' :: (el ++ '>' :: t) = ('<' :: '/' :: p) ++ (x :: '>' :: t) := by rw [he]; simp
  have h1 : step (.raw el (('<' :: '/' :: p).reverse ++ acc)) x =
      ([], .raw el (x :: (('<' :: '/' :: p).reverse ++ acc))) := by
    simp only [step]
    rw [if_neg (fun h => hx' h.1), if_neg, if_neg]
    · rintro ⟨_, rfl, _⟩
      exact hsc (by rw [he]; simp)
    · rintro ⟨h', rfl⟩
      exact ht h' (by rw [he]; simp)
  have hrev : x :: (('<' :: '/' :: p).reverse ++ acc) = (el.reverse ++ ['/', '<']) ++ acc := by rw [he]; simp
  have hlen : el.length + 2 = (el.reverse ++ ['/', '<']).length := by simp
  have hlow : (el.reverse ++ ['/', '<']).map lower = el.reverse ++ ['/', '<'] := by
    refine (List.map_congr_left fun c hc => hl c ?_).trans (List.map_id _)
    simp only [List.mem_append, List.mem_reverse, List.mem_cons, List.not_mem_nil, or_false] at hc ⊢
    tauto
  have h2 : step (.raw el ((el.reverse ++ ['/', '<']) ++ acc)) '>' = ([.text el acc.reverse, .stop el], .data) := by
    simp only [step]
    rw [if_pos ⟨.inl trivial, by rw [hlen, List.take_left, hlow]⟩, hlen, List.drop_left]
    simp
  rw [e, Html.read_append, html_raw el acc _ hs]
  simp only [Html.readFrom]
  rw [h1]
  simp only
  rw [hrev, h2]
  simp

/-! ### the page -/

theorem lower_lt (c : Char) (h : lower c = '<') : c = '<' := by
  rw [lower] at h
  split at h
  · rename_i hc
    exfalso
    have h1 : 65 ≤ c.toNat := hc.1
    have h2 : c.toNat ≤ 90 := hc.2
    have : ∀ n, n < 91 → 65 ≤ n → Char.ofNat (n + 32) ≠ '<' := by decide
    exact this _ (by omega) h1 h
  · exact h

/-- decidable form of `Lacks` -/
theorem lacks_of_check {p : Str} {f : Char → Char} {s : Str} (h : (s.map f).tails.all (!p.isPrefixOf ·) = true) :
    Lacks p f s := by
  rintro ⟨a, b, e⟩
  rw [List.all_eq_true] at h
  have := h (p ++ b) (by rw [List.mem_tails]; exact ⟨a, by rw [← e]; simp⟩)
  rw [Bool.not_eq_true', ← Bool.not_eq_true, List.isPrefixOf_iff_prefix] at this
  exact this ⟨b, rfl⟩

theorem page_facts :
    (Html.readFrom .data Page.head).2 = .raw "title".toList [] ∧
    texts "title".toList (Html.readFrom .data Page.head).1 = [] ∧
    texts "script".toList (Html.readFrom .data Page.head).1 = [] ∧
    Page.style = '<' :: '/' :: ("title".toList ++ '>' :: Page.style.drop 8) ∧
    (Html.readFrom .data (Page.style.drop 8)).2 = .data ∧
    texts "title".toList (Html.readFrom .data (Page.style.drop 8)).1 = [] ∧
    texts "script".toList (Html.readFrom .data (Page.style.drop 8)).1 = [] ∧
    (Html.readFrom .data Page.body).2 = .raw "script".toList (chars! "    \n") ∧
    texts "title".toList (Html.readFrom .data Page.body).1 = [] ∧
    texts "script".toList (Html.readFrom .data Page.body).1 = [] ∧
    Page.end_ = '<' :: '/' :: ("script".toList ++ '>' :: Page.end_.drop 9) ∧
    (Html.readFrom .data (Page.end_.drop 9)).2 = .data ∧
    texts "title".toList (Html.readFrom .data (Page.end_.drop 9)).1 = [] ∧
    texts "script".toList (Html.readFrom .data (Page.end_.drop 9)).1 = [] := by decide +kernel

theorem scriptRest_facts :
    (Page.scriptRest.map lower).tails.all (!(endTag "script".toList).isPrefixOf ·) = true ∧
    (Page.scriptRest.map id).tails.all (!("<!--".toList).isPrefixOf ·) = true := by decide +kernel

/-- names that can be a title: no end tag, no references -/
def TitleSafe (s : Str) : Prop := ¬ "</title".toList <:+: s.map lower ∧ '&' ∉ s

theorem texts_append (el : Str) (a b : List Html.Tok) : texts el (a ++ b) = texts el a ++ texts el b := by
  simp [texts, List.filterMap_append]

/-- the text of the script of the page -/
def scriptText (r : RuleContext) : Str := chars! "\n    " ++ (script r ++ Page.scriptRest)

theorem script_stays (r : RuleContext) (h : ∀ s ∈ r.toAst.shown, ScriptSafe s) :
    StaysIn "script".toList (scriptText r) := by
  have e1 : "</script".toList = endTag "script".toList := by decide
  have e2 : "<!--".toList = '<' :: "!--".toList := by decide
  have e : scriptText r = chars! "\n    const ast =" ++ ' ' :: (dump r ++ ';' :: Page.scriptRest) := by
    have e3 : "const ast = ".toList = chars! "const ast = " := by decide +kernel
    have e4 : ";".toList = [';'] := by decide
    delta scriptText script
    rw [e3, e4]
    generalize dump r = d
    generalize Page.scriptRest = t
    simp
  rw [e]
  refine ⟨.glue (by decide) (.of_head (by decide)) (.glue (by decide) ?_ (lacks_of_check scriptRest_facts.1)),
    fun h' => absurd h' (by decide), fun _ => ?_⟩
  · exact lacks_child lower_lt (by decide) r.toAst fun s hs => by
      have := (h s hs).1
      rw [e1] at this
      exact this
  · have : Lacks "<!--".toList id (chars! "\n    const ast =" ++ ' ' :: (dump r ++ ';' :: Page.scriptRest)) := by
      refine .glue (by decide) (.of_head (by decide)) (.glue (by decide) ?_ (lacks_of_check scriptRest_facts.2))
      rw [e2]
      exact lacks_child (fun _ h => h) (by decide) r.toAst fun s hs => by
        have := (h s hs).2
        rw [e2] at this
        rw [Lacks, show s.map (fun x => x) = s from List.map_id s]
        exact this
    rwa [Lacks, List.map_id] at this

theorem html_pieces {A N S S' B X Y E E' T C Z acc : Str} (h1 : (Html.readFrom .data A).2 = .raw T [])
    (h2 : Html.readFrom (.raw T []) N = ([], .raw T N.reverse))
    (h3 : ∀ t, Html.readFrom (.raw T N.reverse) ('<' :: '/' :: (T ++ '>' :: t)) =
      (.text T N :: .stop T :: (Html.readFrom .data t).1, (Html.readFrom .data t).2))
    (hS : S = '<' :: '/' :: (T ++ '>' :: S')) (h4 : (Html.readFrom .data S').2 = .data)
    (h5 : (Html.readFrom .data B).2 = .raw C acc) (h6 : Html.readFrom (.raw C acc) (X ++ Y) = ([], .raw C Z.reverse))
    (h7 : ∀ t, Html.readFrom (.raw C Z.reverse) ('<' :: '/' :: (C ++ '>' :: t)) =
      (.text C Z :: .stop C :: (Html.readFrom .data t).1, (Html.readFrom .data t).2))
    (hE : E = '<' :: '/' :: (C ++ '>' :: E')) (h8 : (Html.readFrom .data E').2 = .data) :
    Html.readFrom .data (A ++ N ++ S ++ B ++ X ++ Y ++ E) =
      ((Html.readFrom .data A).1 ++ (.text T N :: .stop T :: ((Html.readFrom .data S').1 ++
        ((Html.readFrom .data B).1 ++ (.text C Z :: .stop C :: (Html.readFrom .data E').1)))), .data) := by
  have e : A ++ N ++ S ++ B ++ X ++ Y ++ E =
      A ++ (N ++ ('<' :: '/' :: (T ++ '>' :: (S' ++ (B ++ ((X ++ Y) ++ E)))))) := by
    rw [hS]; simp
  rw [e, Html.read_append, h1, Html.read_append, h2, h3, Html.read_append, h4, Html.read_append, h5,
    Html.read_append, h6, hE, h7, h8]
  simp

theorem read_page {name : Str} (hn : TitleSafe name) {r : RuleContext} (h : ∀ s ∈ r.toAst.shown, ScriptSafe s) :
    Html.readFrom .data (Page.render name r) =
      ((Html.readFrom .data Page.head).1 ++ (.text "title".toList name :: .stop "title".toList ::
        ((Html.readFrom .data (Page.style.drop 8)).1 ++ ((Html.readFrom .data Page.body).1 ++
          (.text "script".toList (scriptText r) :: .stop "script".toList ::
            (Html.readFrom .data (Page.end_.drop 9)).1)))), .data) := by
  obtain ⟨f1, -, -, f2, f3, -, -, f4, -, -, f5, f6, -⟩ := page_facts
  have hs := script_stays r h
  have ht : StaysIn "title".toList name := ⟨hn.1, fun _ => hn.2, fun h' => absurd h' (by decide)⟩
  refine html_pieces f1 ?_ (fun t => ?_) f2 f3 f4 ?_ (fun t => ?_) f5 f6
  · have := html_raw "title".toList [] name (by simpa using ht)
    simpa using this
  · have := html_end (el := "title".toList) (p := "titl".toList) (x := 'e') (by decide) (by decide) (by decide)
      (by decide) (by decide) (by decide) name.reverse t (by simpa using ht)
    rwa [List.reverse_reverse] at this
  · have := html_raw "script".toList (chars! "    \n") (script r ++ Page.scriptRest) hs
    have e : ∀ t : Str, t.reverse ++ chars! "    \n" = (chars! "\n    " ++ t).reverse := by intro t; simp
    rw [this, e]
    rfl
  · have := html_end (el := "script".toList) (p := "scrip".toList) (x := 't') (by decide) (by decide) (by decide)
      (by decide) (by decide) (by decide) (scriptText r).reverse t (by rw [List.reverse_reverse]; exact hs)
    rwa [List.reverse_reverse] at this

theorem texts_page {T C : Str} (ne : C ≠ T) (N Z : Str) {X1 X2 X3 X4 : List Html.Tok} (t1 : texts T X1 = [])
    (t2 : texts T X2 = []) (t3 : texts T X3 = []) (t4 : texts T X4 = []) (c1 : texts C X1 = [])
    (c2 : texts C X2 = []) (c3 : texts C X3 = []) (c4 : texts C X4 = []) :
    texts T (X1 ++ (.text T N :: .stop T :: (X2 ++ (X3 ++ (.text C Z :: .stop C :: X4))))) = [N] ∧
    texts C (X1 ++ (.text T N :: .stop T :: (X2 ++ (X3 ++ (.text C Z :: .stop C :: X4))))) = [Z] := by
  have hc : ∀ el t (ts : List Html.Tok), texts el (.text el t :: ts) = t :: texts el ts := by
    intro el t ts; simp [texts]
  have hc' : ∀ el el' t (ts : List Html.Tok), el' ≠ el → texts el (.text el' t :: ts) = texts el ts := by
    intro el el' t ts hne; simp [texts, hne]
  have hc'' : ∀ el n (ts : List Html.Tok), texts el (.stop n :: ts) = texts el ts := by
    intro el n ts; simp [texts]
  constructor
  · rw [texts_append, hc, hc'', texts_append, texts_append, hc' _ _ _ _ ne, hc'', t1, t2, t3, t4]
    rfl
  · rw [texts_append, hc' _ _ _ _ ne.symm, hc'', texts_append, texts_append, hc, hc'', c1, c2, c3, c4]
    rfl

theorem scriptText_eq (r : RuleContext) :
    scriptText r = "\n    const ast = ".toList ++ dump r ++ ";".toList ++ Page.scriptRest := by
  have e3 : "\n    const ast = ".toList = chars! "\n    " ++ "const ast = ".toList := by decide +kernel
  rw [e3]
  delta scriptText script
  generalize "const ast = ".toList = x
  generalize ";".toList = y
  generalize Page.scriptRest = z
  generalize dump r = d
  simp

/-- **C68** the drawn page is a document with one title, the given name, and one script, which begins with the
declaration of `ast` as a literal that is the tree; the rest of the script does not depend on the tree.  Missing
(false): names with `</title` or `&`, and trees with a name or text that contains `</script`, `<!--`, `${` or a
carriage return. -/
theorem C68_page_partial {name : Str} (hn : TitleSafe name) {r : RuleContext}
    (h : ∀ s ∈ r.toAst.shown, ScriptSafe s ∧ Clean s) :
    ∃ ts literal v, tokens (Page.render name r) = some ts ∧ texts "title".toList ts = [name] ∧
      texts "script".toList ts = ["\n    const ast = ".toList ++ literal ++ ";".toList ++ Page.scriptRest] ∧
      JsReadsAs literal v ∧ v.view = some r.toAst.toView := by
  obtain ⟨v, h1, h2⟩ := C49_drawn_tree_partial r fun s hs => (h s hs).2
  obtain ⟨-, f1, f2, -, -, f3, f4, -, f5, f6, -, -, f7, f8⟩ := page_facts
  have hr := read_page hn fun s hs => (h s hs).1
  obtain ⟨g1, g2⟩ := texts_page (T := "title".toList) (C := "script".toList) (by decide) name (scriptText r)
    f1 f3 f5 f7 f2 f4 f6 f8
  refine ⟨_, dump r, v, by rw [tokens, hr], g1, ?_, h1, h2⟩
  rw [g2, scriptText_eq]

theorem texts_prefix {el a : Str} {xs : List Str} (h : texts el (Html.readFrom .data a).1 = xs) (b : Str) :
    ∃ rest, texts el (Html.readFrom .data (a ++ b)).1 = xs ++ rest :=
  ⟨_, by rw [Html.read_append, texts_append, h]⟩

/-- **C68** is false of the code: a text `</script>` ends the script inside the literal. -/
theorem C68_script_end : ∃ rest, texts "script".toList (Html.readFrom .data (Page.render "parser".toList
      ⟨"r".toList, [.terminal (Token.new 2 "A".toList "</script>".toList)], 0⟩)).1 =
    "\n    const ast = { name:`r`,id: `0`, children:[{ name:`A`, text: `".toList :: rest := by
  have h : texts "script".toList (Html.readFrom .data (Page.head ++ "parser".toList ++ Page.style ++ Page.body ++
      script ⟨"r".toList, [.terminal (Token.new 2 "A".toList "</script>".toList)], 0⟩)).1 =
      ["\n    const ast = { name:`r`,id: `0`, children:[{ name:`A`, text: `".toList] := by decide +kernel
  have e : ∀ (name : Str) (r : RuleContext), Page.render name r =
      (Page.head ++ name ++ Page.style ++ Page.body ++ script r) ++ (Page.scriptRest ++ Page.end_) := by
    intro name r
    rw [Page.render]
    simp only [List.append_assoc]
  rw [e]
  exact texts_prefix h (Page.scriptRest ++ Page.end_)

/-- **C68** is false of the code: a name with `</title>` is not the title. -/
theorem C68_title_end (r : RuleContext) :
    ∃ rest, texts "title".toList (Html.readFrom .data (Page.render "a</title>b".toList r)).1 = "a".toList :: rest := by
  have h : texts "title".toList (Html.readFrom .data (Page.head ++ "a</title>b".toList)).1 = ["a".toList] := by
    decide +kernel
  obtain ⟨rest, hr⟩ := texts_prefix h (Page.style ++ Page.body ++ script r ++ Page.scriptRest ++ Page.end_)
  refine ⟨rest, ?_⟩
  rw [Page.render]
  simp only [← List.append_assoc] at hr ⊢
  exact hr

/-- non-vacuity: texts with `<`, quotes and an end tag of another element -/
example : TitleSafe "a < b".toList ∧ ∀ s ∈ (RuleContext.toAst ⟨"r".toList, [.terminal (Token.new 2 "A".toList
    "</title><script><!-".toList), .error (Token.new 3 "B".toList "`$".toList)], 0⟩).shown, ScriptSafe s ∧ Clean s := by
  have hs : ∀ s : Str, (s.map lower).tails.all (!("</script".toList).isPrefixOf ·) = true →
      (s.map id).tails.all (!("<!--".toList).isPrefixOf ·) = true →
      s.all (· ≠ '\r') = true → s.tails.all (!(['$', '{'] : Str).isPrefixOf ·) = true → ScriptSafe s ∧ Clean s := by
    intro s h1 h2 h3 h4
    refine ⟨⟨lacks_of_check h1, ?_⟩, ?_, ?_⟩
    · have := lacks_of_check h2
      rwa [Lacks, List.map_id] at this
    · intro h; simpa using List.all_eq_true.1 h3 _ h
    · have := lacks_of_check (f := id) (s := s) (by rw [List.map_id]; exact h4)
      rwa [Lacks, List.map_id] at this
  refine ⟨⟨lacks_of_check (by decide +kernel), by decide⟩, ?_⟩
  intro s hm
  have : s = "r".toList ∨ s = "A".toList ∨ s = "</title><script><!-".toList ∨ s = "B".toList ∨ s = "`$".toList := by
    simpa [RuleContext.toAst, Ast.shown, Ast.shownAll, Token.new] using hm
  rcases this with rfl | rfl | rfl | rfl | rfl <;>
    exact hs _ (by decide +kernel) (by decide +kernel) (by decide +kernel) (by decide +kernel)

end Syntaxis
