import Verif.Lemmas.Regex

/-! # Every regex of the v1 lexer reports its longest match -/

namespace Syntaxis
namespace Regex

/-- the reported match is the longest one -/
def Best (r : Regex) : Prop :=
  ∀ s n, r.find s = some n → ∀ u v, s = u ++ v → r.Lang u → byteLen u ≤ n

/-- all remainders, shortest first -/
def Sorted (r : Regex) : Prop := ∀ s, (r.run s).Pairwise (fun a b => byteLen a ≤ byteLen b)

/-- at most one prefix matches -/
def Uni (r : Regex) : Prop := ∀ u v u' v', u ++ v = u' ++ v' → r.Lang u → r.Lang u' → u = u'

theorem Sorted.best {r : Regex} (h : r.Sorted) : r.Best := by
  rintro s n hf u v rfl hu
  simp only [find, Option.map_eq_some_iff] at hf
  obtain ⟨t, ht, rfl⟩ := hf
  have hv : v ∈ r.run (u ++ v) := (mem_run r _ v).2 ⟨u, rfl, hu⟩
  have hs := h (u ++ v)
  generalize r.run (u ++ v) = l at ht hv hs
  cases l with
  | nil => simp at ht
  | cons a l =>
    simp only [List.head?_cons, Option.some.injEq] at ht
    subst ht
    have : byteLen a ≤ byteLen v := by
      rcases List.mem_cons.1 hv with rfl | hv
      · exact Nat.le_refl _
      · exact (List.pairwise_cons.1 hs).1 v hv
    simp only [byteLen_append]; omega

theorem Uni.best {r : Regex} (h : r.Uni) : r.Best := by
  rintro s n hf u v rfl hu
  obtain ⟨u', v', e, hu', rfl⟩ := find_some hf
  rw [h u v u' v' e hu hu']

theorem uni_cls (p : Char → Bool) : (cls p).Uni := by
  rintro u v u' v' e ⟨c, _, rfl⟩ ⟨d, _, rfl⟩
  simp only [List.singleton_append, List.cons.injEq] at e
  rw [e.1]

theorem sorted_cls (p : Char → Bool) : (cls p).Sorted := by
  intro s
  cases s with
  | nil => simp [run]
  | cons c s => simp only [run]; split <;> simp

theorem byteLen_le_of_run {r : Regex} {s t : Str} (h : t ∈ r.run s) : byteLen t ≤ byteLen s := by
  obtain ⟨u, rfl, _⟩ := (mem_run r s t).1 h
  simp

theorem sorted_iterate_cls (p : Char → Bool) (n : Nat) (s : Str) (hn : s.length ≤ n) :
    (iterate (run (cls p)) n s).Pairwise (fun a b => byteLen a ≤ byteLen b) := by
  induction n generalizing s with
  | zero => simp [iterate]
  | succ n ih =>
    simp only [iterate]
    cases s with
    | nil => simp [run]
    | cons c s =>
      simp only [run]
      split
      · simp only [List.flatMap_cons, List.flatMap_nil, List.append_nil]
        rw [if_pos (by simp)]
        rw [List.pairwise_append]
        refine ⟨ih s (by simp at hn; omega), by simp, ?_⟩
        intro a ha b hb
        obtain ⟨u, rfl, _⟩ := (mem_iterate (mem_run (cls p)) n s a (by simp at hn; omega)).1 ha
        simp only [List.mem_singleton] at hb
        subst hb
        have : byteLen (c :: (u ++ a)) = byteLen [c] + byteLen (u ++ a) := byteLen_append [c] _
        rw [this, byteLen_append]; omega
      · simp

theorem sorted_star_cls (p : Char → Bool) : (star (cls p)).Sorted :=
  fun s => sorted_iterate_cls p _ s (Nat.le_refl _)

/-- a class followed by a regex reporting matches longest first -/
theorem sorted_cls_seq (p : Char → Bool) {q : Regex} (h : q.Sorted) : (seq (cls p) q).Sorted := by
  intro s
  cases s with
  | nil => simp [run]
  | cons c s =>
    simp only [run]
    split
    · simpa using h s
    · simp

theorem sorted_seq_lit (c : Char) {r : Regex} (h : r.Sorted) : (seq r (lit c)).Sorted := by
  intro s
  have hs := h s
  simp only [run]
  generalize r.run s = l at hs
  induction l with
  | nil => simp
  | cons a l ih =>
    rw [List.pairwise_cons] at hs
    rw [List.flatMap_cons, List.pairwise_append]
    refine ⟨sorted_cls _ a, ih hs.2, ?_⟩
    intro x hx y hy
    obtain ⟨b, hb, hy⟩ := List.mem_flatMap.1 hy
    have hab := hs.1 b hb
    obtain ⟨_, rfl, d, hd, rfl⟩ := (mem_run _ _ _).1 hx
    obtain ⟨_, rfl, d', hd', rfl⟩ := (mem_run _ _ _).1 hy
    simp only [beq_iff_eq] at hd hd'
    subst hd hd'
    simpa [byteLen] using hab

/-- more fuel than characters changes nothing -/
theorem iterate_fuel (m : Str → List Str) (n k : Nat) (s : Str) (hn : s.length ≤ n) (hk : s.length ≤ k) :
    iterate m n s = iterate m k s := by
  induction n generalizing k s with
  | zero =>
    have : s = [] := List.length_eq_zero_iff.1 (Nat.le_zero.1 hn)
    subst this
    cases k with
    | zero => rfl
    | succ k => simp [iterate]
  | succ n ih =>
    cases k with
    | zero =>
      have : s = [] := List.length_eq_zero_iff.1 (Nat.le_zero.1 hk)
      subst this
      simp [iterate]
    | succ k =>
      simp only [iterate]
      congr 2
      funext s'
      split
      · exact ih k s' (by omega) (by omega)
      · rfl

/-! ## the regexes of the v1 lexer -/

/-- the body of `regularLiteral` -/
theorem sorted_iterate_regular (n : Nat) (s : Str) (hn : s.length ≤ n) :
    (iterate (run (alt (str ['\\', '/']) (cls fun c => c != '/'))) n s).Pairwise
      (fun a b => byteLen a ≤ byteLen b) := by
  induction n using Nat.strong_induction_on generalizing s with
  | _ n ih =>
  cases n with
  | zero => simp [iterate]
  | succ n =>
    have mono : ∀ (k : Nat) (s a : Str), s.length ≤ k →
        a ∈ iterate (run (alt (str ['\\', '/']) (cls fun c => c != '/'))) k s → byteLen a ≤ byteLen s := by
      intro k s a hk ha
      obtain ⟨u, rfl, _⟩ := (mem_iterate (mem_run _) k s a hk).1 ha
      simp
    have bl : ∀ (c : Char) (s : Str), byteLen s ≤ byteLen (c :: s) := by intro c s; simp [byteLen]
    simp only [iterate]
    match s, hn with
    | [], _ => simp [run, str, lit]
    | [c], hn =>
      by_cases h1 : c = '/'
      · subst h1; simp [run, str, lit]
      · have hrun : run (alt (str ['\\', '/']) (cls fun c => c != '/')) [c] = [[]] := by
          by_cases h2 : c = '\\' <;> simp [run, str, lit, h1, h2]
        simp only [hrun, List.flatMap_cons, List.flatMap_nil, List.append_nil]
        rw [if_pos (by simp), List.pairwise_append]
        refine ⟨ih n (by omega) _ (by simp), by simp, ?_⟩
        intro a ha b hb
        have := mono n _ a (by simp) ha
        simp only [List.mem_singleton] at hb
        subst hb
        exact Nat.le_trans this (bl _ _)
    | c :: d :: s, hn =>
      simp only [List.length_cons] at hn
      by_cases h1 : c = '/'
      · subst h1; simp [run, str, lit]
      · by_cases h2 : c = '\\' ∧ d = '/'
        · obtain ⟨rfl, rfl⟩ := h2
          have hrun : run (alt (str ['\\', '/']) (cls fun c => c != '/')) ('\\' :: '/' :: s) =
              [s, '/' :: s] := by simp [run, str, lit]
          simp only [hrun, List.flatMap_cons, List.flatMap_nil, List.append_nil]
          rw [if_pos (by simp; omega), if_pos (by simp)]
          have hst : iterate (run (alt (str ['\\', '/']) (cls fun c => c != '/'))) n ('/' :: s) =
              ['/' :: s] := by
            cases n with
            | zero => simp [iterate]
            | succ n => simp [iterate, run, str, lit]
          rw [hst, List.append_assoc, List.pairwise_append]
          refine ⟨ih n (by omega) s (by omega), ?_, ?_⟩
          · simp [byteLen]
          · intro a ha b hb
            have := mono n _ a (by omega) ha
            simp only [List.cons_append, List.nil_append, List.mem_cons, List.not_mem_nil, or_false] at hb
            rcases hb with rfl | rfl
            · exact Nat.le_trans this (bl _ _)
            · exact Nat.le_trans this (Nat.le_trans (bl _ _) (bl _ _))
        · have hrun : run (alt (str ['\\', '/']) (cls fun c => c != '/')) (c :: d :: s) = [d :: s] := by
            by_cases h3 : c = '\\'
            · have h4 : d ≠ '/' := fun h => h2 ⟨h3, h⟩
              simp [run, str, lit, h3, h4]
            · simp [run, str, lit, h1, h3]
          simp only [hrun, List.flatMap_cons, List.flatMap_nil, List.append_nil]
          rw [if_pos (by simp), List.pairwise_append]
          refine ⟨ih n (by omega) _ (by simp; omega), by simp, ?_⟩
          intro a ha b hb
          have := mono n _ a (by simp; omega) ha
          simp only [List.mem_singleton] at hb
          subst hb
          exact Nat.le_trans this (bl _ _)

/-- `b+` reports the matches of `b*` that iterate at least once -/
theorem sorted_plus {b : Regex} (hne : ¬ b.Lang []) (hstar : (star b).Sorted) : (plus b).Sorted := by
  intro s
  have hst := hstar s
  simp only [plus, run] at hst ⊢
  have hlen : ∀ s' ∈ run b s, s'.length < s.length := by
    intro s' hs'
    obtain ⟨u, rfl, hu⟩ := (mem_run _ _ _).1 hs'
    have : u ≠ [] := by rintro rfl; exact hne hu
    have := List.length_pos_iff.2 this
    simp; omega
  cases hn : s.length with
  | zero =>
    have : run b s = [] := by
      rw [List.eq_nil_iff_forall_not_mem]
      intro s' hs'
      have := hlen s' hs'
      omega
    rw [this]; simp
  | succ n =>
    rw [hn] at hst
    simp only [iterate] at hst
    have hp := (List.pairwise_append.1 hst).1
    have e : ∀ l : List Str, (∀ s' ∈ l, s'.length < s.length) →
        l.flatMap (fun s' => iterate (run b) s'.length s') =
        l.flatMap (fun s' => if s'.length < s.length then iterate (run b) n s' else []) := by
      intro l hl
      induction l with
      | nil => rfl
      | cons a l ih =>
        have ha := hl a (by simp)
        rw [List.flatMap_cons, List.flatMap_cons, if_pos ha, ih (fun x hx => hl x (by simp [hx])),
          iterate_fuel _ a.length n a (Nat.le_refl _) (by omega)]
    rw [← e _ hlen] at hp
    exact hp

theorem sorted_regularLiteral : V1.regularLiteral.Sorted := by
  refine sorted_cls_seq _ (sorted_seq_lit '/' (sorted_plus ?_ ?_))
  · rintro (⟨a, b, e, ⟨c, _, rfl⟩, _⟩ | ⟨c, _, e⟩) <;> simp at e
  · exact fun s => sorted_iterate_regular _ s (Nat.le_refl _)

/-- the three-way choice of `colon` -/
theorem sorted_colon : V1.colon.Sorted := by
  intro s
  match s with
  | [] => simp [V1.colon, alts, run, str, lit]
  | [a] =>
    simp only [V1.colon, alts, run, str, lit]
    by_cases h1 : a = ':' <;> by_cases h2 : a = '=' <;> by_cases h3 : a = '-' <;> simp_all
  | [a, b] =>
    simp only [V1.colon, alts, run, str, lit]
    by_cases h1 : a = ':' <;> by_cases h2 : a = '=' <;> by_cases h3 : a = '-' <;>
      by_cases k1 : b = ':' <;> by_cases k2 : b = '=' <;> by_cases k3 : b = '>' <;> simp_all [byteLen]
  | a :: b :: c :: s =>
    simp only [V1.colon, alts, run, str, lit]
    by_cases h1 : a = ':' <;> by_cases h2 : a = '=' <;> by_cases h3 : a = '-' <;>
      by_cases k1 : b = ':' <;> by_cases k2 : b = '=' <;> by_cases k3 : b = '>' <;>
      by_cases m1 : c = '=' <;> simp_all [byteLen] <;> omega

theorem lang_lit (c : Char) (u : Str) : (lit c).Lang u ↔ u = [c] := by
  simp only [lit, Lang, beq_iff_eq]
  constructor
  · rintro ⟨d, rfl, rfl⟩; rfl
  · rintro rfl; exact ⟨c, rfl, rfl⟩

theorem lang_str (w u : Str) : (str w).Lang u ↔ u = w := by
  induction w generalizing u with
  | nil => simp [str, Lang]
  | cons c w ih =>
    cases w with
    | nil => rw [str, lang_lit]
    | cons d w =>
      rw [str]
      · simp only [Lang, lang_lit, ih]
        constructor
        · rintro ⟨a, b, rfl, rfl, rfl⟩; rfl
        · rintro rfl; exact ⟨[c], d :: w, rfl, rfl, rfl⟩
      · simp

theorem uni_epsilon : V1.epsilon.Uni := by
  intro u v u' v' e h h'
  simp only [V1.epsilon, alts, Lang, lang_lit, lang_str] at h h'
  rcases h with rfl | rfl <;> rcases h' with rfl | rfl <;> first | rfl | simp at e

/-- words of `\\u\{(0x|0)?[a-f0-9]+\}` -/
theorem uni_unicode_escape {w w' : Str} {x y : Str} (hw : '}' ∉ w) (hw' : '}' ∉ w')
    (e : w ++ '}' :: x = w' ++ '}' :: y) : w = w' := by
  induction w generalizing w' with
  | nil =>
    cases w' with
    | nil => rfl
    | cons c w' =>
      simp only [List.nil_append, List.cons_append, List.cons.injEq] at e
      rw [e.1] at hw'; simp at hw'
  | cons c w ih =>
    cases w' with
    | nil =>
      simp only [List.nil_append, List.cons_append, List.cons.injEq] at e
      rw [← e.1] at hw; simp at hw
    | cons d w' =>
      simp only [List.cons_append, List.cons.injEq] at e
      obtain ⟨rfl, e⟩ := e
      rw [ih (fun h => hw (by simp [h])) (fun h => hw' (by simp [h])) e]

theorem mem_star_cls {p : Char → Bool} {u : Str} (h : (star (cls p)).Lang u) : ∀ c ∈ u, p c = true := by
  simp only [Lang] at h
  induction h with
  | nil => simp
  | cons hu _ ih =>
    obtain ⟨c, hc, rfl⟩ := hu
    intro d hd
    rcases List.mem_append.1 hd with hd | hd
    · simp only [List.mem_singleton] at hd; rw [hd]; exact hc
    · exact ih d hd

/-- the words of `stringEscape` -/
theorem stringEscape_words {u : Str} (h : V1.stringEscape.Lang u) :
    (∃ c, u = ['\\', c] ∧ c ≠ 'u') ∨ ∃ w, u = '\\' :: 'u' :: '{' :: (w ++ ['}']) ∧ '}' ∉ w := by
  simp only [V1.stringEscape, alts, Lang, lang_str, opt, plus, lang_lit] at h
  rcases h with rfl | rfl | rfl | rfl | rfl | rfl | rfl | rfl | rfl | h
  all_goals try exact Or.inl ⟨_, rfl, by decide⟩
  obtain ⟨_, _, rfl, rfl, o, _, rfl, ho, _, _, rfl, ⟨a, b, rfl, ⟨c, hc, rfl⟩, hb⟩, rfl⟩ := h
  refine Or.inr ⟨o ++ c :: b, by simp, ?_⟩
  have hb' := mem_star_cls (p := fun c => decide ('a' ≤ c ∧ c ≤ 'f') || isDigit09 c) hb
  intro hm
  rcases List.mem_append.1 hm with hm | hm
  · rcases ho with (rfl | rfl) | rfl <;> simp at hm
  · rcases List.mem_cons.1 hm with rfl | hm
    · exact absurd hc (by decide)
    · exact absurd (hb' _ hm) (by decide)

theorem uni_stringEscape : V1.stringEscape.Uni := by
  intro u v u' v' e h h'
  rcases stringEscape_words h with ⟨c, rfl, hc⟩ | ⟨w, rfl, hw⟩ <;>
    rcases stringEscape_words h' with ⟨c', rfl, hc'⟩ | ⟨w', rfl, hw'⟩
  · simp only [List.cons_append, List.nil_append, List.cons.injEq, true_and] at e
    rw [e.1]
  · simp only [List.cons_append, List.nil_append, List.cons.injEq, true_and] at e
    exact absurd e.1 hc
  · simp only [List.cons_append, List.nil_append, List.cons.injEq, true_and] at e
    exact absurd e.1.symm hc'
  · simp only [List.cons_append, List.cons.injEq, true_and, List.append_assoc, List.nil_append] at e
    rw [uni_unicode_escape hw hw' e]

/-- one item of a string literal -/
def stringItem (digit : Char → Bool) : Regex :=
  alts [cls (fun c => !(V1.stringExcluded c || digit c)), V1.stringEscape, cls digit]

variable {digit : Char → Bool}

theorem stringItem_words {u : Str} (h : (stringItem digit).Lang u) :
    (∃ c, u = [c] ∧ (V1.stringExcluded c = false ∨ digit c = true)) ∨ V1.stringEscape.Lang u := by
  simp only [stringItem, alts, Lang] at h
  rcases h with ⟨c, hc, rfl⟩ | h | ⟨c, hc, rfl⟩
  · refine Or.inl ⟨c, rfl, Or.inl ?_⟩
    simp only [Bool.not_eq_true', Bool.or_eq_false_iff] at hc
    exact hc.1
  · exact Or.inr h
  · exact Or.inl ⟨c, rfl, Or.inr hc⟩

theorem stringEscape_head {u : Str} (h : V1.stringEscape.Lang u) : ∃ w, u = '\\' :: w := by
  rcases stringEscape_words h with ⟨c, rfl, hc⟩ | ⟨w, rfl, hw⟩ <;> exact ⟨_, rfl⟩

theorem uni_stringItem (hb : digit '\\' = false) : (stringItem digit).Uni := by
  intro u v u' v' e h h'
  rcases stringItem_words h with ⟨c, rfl, hc⟩ | h <;> rcases stringItem_words h' with ⟨c', rfl, hc'⟩ | h'
  · simp only [List.cons_append, List.cons.injEq] at e
    rw [e.1]
  · obtain ⟨w, rfl⟩ := stringEscape_head h'
    simp only [List.cons_append, List.cons.injEq] at e
    rw [e.1] at hc
    rcases hc with hc | hc
    · exact absurd hc (by decide)
    · rw [hb] at hc; cases hc
  · obtain ⟨w, rfl⟩ := stringEscape_head h
    simp only [List.cons_append, List.cons.injEq] at e
    rw [← e.1] at hc'
    rcases hc' with hc | hc
    · exact absurd hc (by decide)
    · rw [hb] at hc; cases hc
  · exact uni_stringEscape u v u' v' e h h'

theorem stringItem_head (hq : digit '\'' = false) {u : Str} (h : (stringItem digit).Lang u) :
    ∃ c w, u = c :: w ∧ c ≠ '\'' := by
  rcases stringItem_words h with ⟨c, rfl, hc⟩ | h
  · refine ⟨c, [], rfl, ?_⟩
    rintro rfl
    rcases hc with hc | hc
    · exact absurd hc (by decide)
    · rw [hq] at hc; cases hc
  · obtain ⟨w, rfl⟩ := stringEscape_head h
    exact ⟨_, _, rfl, by decide⟩

theorem uni_items (hb : digit '\\' = false) (hq : digit '\'' = false) {w w' : Str} {x y : Str}
    (h : Star (stringItem digit).Lang w) (h' : Star (stringItem digit).Lang w')
    (e : w ++ '\'' :: x = w' ++ '\'' :: y) : w = w' := by
  induction h generalizing w' with
  | nil =>
    cases h' with
    | nil => rfl
    | cons hu _ =>
      obtain ⟨c, t, rfl, hc⟩ := stringItem_head hq hu
      simp only [List.nil_append, List.cons_append, List.cons.injEq] at e
      exact absurd e.1.symm hc
  | @cons u v hu hv ih =>
    cases h' with
    | nil =>
      obtain ⟨c, t, rfl, hc⟩ := stringItem_head hq hu
      simp only [List.nil_append, List.cons_append, List.cons.injEq] at e
      exact absurd e.1 hc
    | @cons u' v' hu' hv' =>
      rw [List.append_assoc, List.append_assoc] at e
      obtain rfl := uni_stringItem hb u _ u' _ e hu hu'
      rw [ih hv' (List.append_cancel_left e)]

theorem uni_stringLiteral (hb : digit '\\' = false) (hq : digit '\'' = false) :
    (V1.stringLiteral digit).Uni := by
  intro u v u' v' e h h'
  simp only [V1.stringLiteral, Lang, lang_lit] at h h'
  obtain ⟨_, _, rfl, rfl, w, _, rfl, hw, rfl⟩ := h
  obtain ⟨_, _, rfl, rfl, w', _, rfl, hw', rfl⟩ := h'
  simp only [List.append_assoc, List.cons_append, List.nil_append, List.cons.injEq, true_and] at e
  rw [uni_items hb hq hw hw' e]

/-- every regex of the v1 lexer reports its longest match -/
theorem v1_best (hb : digit '\\' = false) (hq : digit '\'' = false) :
    ∀ r ∈ V1.regexes digit, r.Best := by
  intro r hr
  simp only [V1.regexes, List.mem_cons, List.not_mem_nil, or_false] at hr
  rcases hr with rfl | rfl | rfl | rfl | rfl | rfl | rfl | rfl | rfl | rfl | rfl | rfl | rfl | rfl
  · exact (sorted_cls_seq _ (sorted_cls_seq _ (sorted_star_cls _))).best
  · exact (sorted_cls_seq _ (sorted_cls_seq _ (sorted_star_cls _))).best
  · exact sorted_colon.best
  · exact (uni_cls _).best
  · exact (uni_cls _).best
  · exact uni_epsilon.best
  · exact (uni_cls _).best
  · exact (uni_cls _).best
  · exact (uni_cls _).best
  · exact (uni_cls _).best
  · exact (uni_cls _).best
  · exact (uni_stringLiteral hb hq).best
  · exact sorted_regularLiteral.best
  · exact (sorted_cls_seq _ (sorted_star_cls _)).best

end Regex
end Syntaxis
