import Verif.Spec.TwoLexers
import Verif.Props.TokenNames

/-! # C89: the two lexers of grammar files agree on what both know -/

namespace Syntaxis
open Regex

variable {digit : Char → Bool} {input : Str}

theorem Regex.Best.find_eq {r r' : Regex} (h : r.Best) (h' : r'.Best) {s : Str}
    (hl : ∀ u v, s = u ++ v → (r.Lang u ↔ r'.Lang u)) : r.find s = r'.find s := by
  cases hf : r.find s with
  | none =>
    symm
    rw [find_none] at hf ⊢
    exact fun u v e hu => hf u v e ((hl u v e).2 hu)
  | some n =>
    obtain ⟨u, v, e, hu, rfl⟩ := find_some hf
    cases hf' : r'.find s with
    | none => exact absurd ((hl u v e).1 hu) (find_none.1 hf' u v e)
    | some n' =>
      obtain ⟨u', v', e', hu', rfl⟩ := find_some hf'
      have h1 := h _ _ hf u' v' e' ((hl u' v' e').2 hu')
      have h2 := h' _ _ hf' u v e ((hl u v e).1 hu)
      rw [Nat.le_antisymm h2 h1]

theorem old_string_best (hb : digit '\\' = false) (hq : digit '\'' = false) : (Old.stringLiteral digit).Best := by
  refine Uni.best fun u v u' v' e h h' => uni_stringLiteral hb hq u v u' v' e ?_ ?_
  · exact (v1_string_iff u).2 ((old_string_iff u).1 h)
  · exact (v1_string_iff u').2 ((old_string_iff u').1 h')

/-- rules of the same kind report the same match -/
theorem shared_find (hb : digit '\\' = false) (hq : digit '\'' = false) {rest : Str} (hff : '\x0c' ∉ rest) {j i : Nat}
    (h : (j + 2, i + 2) ∈ sharedKinds) : ∃ r r', (V1.regexes digit)[j]? = some r ∧ (Old.regexes digit)[i]? = some r' ∧
      r.find rest = r'.find rest := by
  have hs : (V1.stringLiteral digit).find rest = (Old.stringLiteral digit).find rest :=
    (uni_stringLiteral hb hq).best.find_eq (old_string_best hb hq) fun u _ _ =>
      (v1_string_iff u).trans (old_string_iff u).symm
  have hw : V1.whiteSpace.find rest = Old.ws.find rest := by
    refine Best.find_eq (sorted_cls_seq _ (sorted_star_cls _)).best (sorted_cls_seq _ (sorted_star_cls _)).best ?_
    intro u v e
    have hu : '\x0c' ∉ u := fun hm => hff (by rw [e]; exact List.mem_append_left _ hm)
    refine (plus_cls_iff (p := V1.isWhite)).trans (Iff.trans ?_ plus_cls_iff.symm)
    refine and_congr_right fun _ => forall₂_congr fun c hc => ?_
    have hne : c ≠ '\x0c' := fun h => hu (h ▸ hc)
    simp only [V1.isWhite, Bool.or_eq_true, beq_iff_eq]
    tauto
  have key : (j, i) ∈ sharedKinds.map fun p => (p.1 - 2, p.2 - 2) :=
    List.mem_map.2 ⟨_, h, by simp⟩
  simp only [sharedKinds, List.map_cons, List.map_nil, List.mem_cons, Prod.mk.injEq, List.not_mem_nil, or_false] at key
  rcases key with ⟨rfl, rfl⟩ | ⟨rfl, rfl⟩ | ⟨rfl, rfl⟩ | ⟨rfl, rfl⟩ | ⟨rfl, rfl⟩ | ⟨rfl, rfl⟩ | ⟨rfl, rfl⟩ |
    ⟨rfl, rfl⟩ | ⟨rfl, rfl⟩ | ⟨rfl, rfl⟩ | ⟨rfl, rfl⟩ | ⟨rfl, rfl⟩ | ⟨rfl, rfl⟩ | ⟨rfl, rfl⟩
  · exact ⟨_, _, rfl, rfl, rfl⟩
  · exact ⟨_, _, rfl, rfl, rfl⟩
  · exact ⟨_, _, rfl, rfl, rfl⟩
  · exact ⟨_, _, rfl, rfl, rfl⟩
  · exact ⟨_, _, rfl, rfl, rfl⟩
  · exact ⟨_, _, rfl, rfl, rfl⟩
  · exact ⟨_, _, rfl, rfl, rfl⟩
  · exact ⟨_, _, rfl, rfl, rfl⟩
  · exact ⟨_, _, rfl, rfl, rfl⟩
  · exact ⟨_, _, rfl, rfl, rfl⟩
  · exact ⟨_, _, rfl, rfl, rfl⟩
  · exact ⟨_, _, rfl, rfl, hs⟩
  · exact ⟨_, _, rfl, rfl, rfl⟩
  · exact ⟨_, _, rfl, rfl, hw⟩

theorem shared_of_v1 {j : Nat} {r : Regex} (h : (V1.regexes digit)[j]? = some r) : ∃ i, (j + 2, i + 2) ∈ sharedKinds := by
  match j, h with
  | 0, _ => exact ⟨5, by decide⟩
  | 1, _ => exact ⟨4, by decide⟩
  | 2, _ => exact ⟨6, by decide⟩
  | 3, _ => exact ⟨8, by decide⟩
  | 4, _ => exact ⟨7, by decide⟩
  | 5, _ => exact ⟨20, by decide⟩
  | 6, _ => exact ⟨9, by decide⟩
  | 7, _ => exact ⟨10, by decide⟩
  | 8, _ => exact ⟨11, by decide⟩
  | 9, _ => exact ⟨14, by decide⟩
  | 10, _ => exact ⟨15, by decide⟩
  | 11, _ => exact ⟨17, by decide⟩
  | 12, _ => exact ⟨19, by decide⟩
  | 13, _ => exact ⟨2, by decide⟩
  | j + 14, h => simp [V1.regexes] at h

theorem shared_of_old {i : Nat} {r : Regex} (h : (Old.regexes digit)[i]? = some r) :
    i + 2 ∈ firstOnly ∨ ∃ j, (j + 2, i + 2) ∈ sharedKinds := by
  match i, h with
  | 0, _ => exact .inl (by decide)
  | 1, _ => exact .inl (by decide)
  | 2, _ => exact .inr ⟨13, by decide⟩
  | 3, _ => exact .inl (by decide)
  | 4, _ => exact .inr ⟨1, by decide⟩
  | 5, _ => exact .inr ⟨0, by decide⟩
  | 6, _ => exact .inr ⟨2, by decide⟩
  | 7, _ => exact .inr ⟨4, by decide⟩
  | 8, _ => exact .inr ⟨3, by decide⟩
  | 9, _ => exact .inr ⟨6, by decide⟩
  | 10, _ => exact .inr ⟨7, by decide⟩
  | 11, _ => exact .inr ⟨8, by decide⟩
  | 12, _ => exact .inl (by decide)
  | 13, _ => exact .inl (by decide)
  | 14, _ => exact .inr ⟨9, by decide⟩
  | 15, _ => exact .inr ⟨10, by decide⟩
  | 16, _ => exact .inl (by decide)
  | 17, _ => exact .inr ⟨11, by decide⟩
  | 18, _ => exact .inl (by decide)
  | 19, _ => exact .inr ⟨12, by decide⟩
  | 20, _ => exact .inr ⟨5, by decide⟩
  | i + 21, h => simp [Old.regexes] at h

theorem wins_find {rs : List Regex} {rest : Str} {i n : Nat} (h : Wins (rs.map find) rest i n) :
    ∃ r u v, rs[i]? = some r ∧ r.find rest = some n ∧ rest = u ++ v ∧ n = byteLen u ∧ r.Lang u := by
  obtain ⟨_, ⟨m, hm, hmn⟩, _⟩ := h
  rw [List.getElem?_map, Option.map_eq_some_iff] at hm
  obtain ⟨r, hr, rfl⟩ := hm
  obtain ⟨u, v, e, hu, hl⟩ := find_some hmn
  exact ⟨r, u, v, hr, hmn, e, hl, hu⟩

theorem wins_le {rs : List Regex} {rest : Str} {i n j k : Nat} (h : Wins (rs.map find) rest i n) {r : Regex}
    (hr : rs[j]? = some r) (hk : r.find rest = some k) : k ≤ n ∧ (j < i → k < n) :=
  h.2.2 j r.find k (by rw [List.getElem?_map, hr]; rfl) hk

/-- a kind both lexers know wins in the v1 lexer if it wins in the first lexer -/
theorem wins_v1 (hb : digit '\\' = false) (hq : digit '\'' = false) {rest : Str} (hff : '\x0c' ∉ rest) {j i n : Nat}
    (hs : (j + 2, i + 2) ∈ sharedKinds) (h : Wins ((Old.regexes digit).map find) rest i n) :
    Wins ((V1.regexes digit).map find) rest j n := by
  obtain ⟨r, r', hr, hr', hfe⟩ := shared_find hb hq hff hs
  obtain ⟨r1, u, v, hr1, hf1, e, hn, hu1⟩ := wins_find h
  rw [hr'] at hr1
  cases hr1
  rw [← hfe] at hf1
  have hpos : 0 < n := h.1
  have hne : u ≠ [] := by rintro rfl; simp [hn] at hpos
  -- the language of the rule
  have lang : ∀ {q : Regex} {w : Str}, q.find rest = some (byteLen u) → q.Lang u := by
    intro q w hq'
    obtain ⟨u', v', e', hu', hl⟩ := find_some hq'
    obtain ⟨rfl, rfl⟩ := append_inj_byteLen (e.symm.trans e') hl
    exact hu'
  refine ⟨hpos, ⟨r.find, by rw [List.getElem?_map, hr]; rfl, hf1⟩, ?_⟩
  intro j' m k hj' hk
  rw [List.getElem?_map, Option.map_eq_some_iff] at hj'
  obtain ⟨q, hq', rfl⟩ := hj'
  obtain ⟨i', hs'⟩ := shared_of_v1 hq'
  obtain ⟨q1, q2, hq1, hq2, hfe'⟩ := shared_find hb hq hff hs'
  rw [hq'] at hq1
  cases hq1
  have hle := (wins_le h hq2 (hfe' ▸ hk)).1
  refine ⟨hle, fun hlt => lt_of_le_of_ne hle fun hkn => ?_⟩
  rw [hkn, hn] at hk
  rw [hn] at hf1
  have hL' := lang (w := u) hk
  have hL := lang (w := u) hf1
  obtain ⟨k1, hk1, hn1, _, hsh1⟩ := v1_kind_shape j' q hq'
  obtain ⟨k2, hk2, hn2, _, hsh2⟩ := v1_kind_shape j r hr
  by_cases he : u = ['e', 'p', 's', 'i', 'l', 'o', 'n']
  · -- `epsilon`: rule 0 wins over rule 5 in both lexers
    subst he
    have h0 : V1.ruleRef.Lang ['e', 'p', 's', 'i', 'l', 'o', 'n'] :=
      (ruleRef_iff _).2 ⟨'e', _, rfl, by decide, by simp, by decide⟩
    have hj : j = 5 := by
      rcases v1_first hr hL with ⟨h, _⟩ | ⟨h, hc, _⟩ | ⟨h, _⟩ | h
      · omega
      · exact absurd hc (by decide)
      · exact h
      · exact absurd h (by decide)
    subst hj
    have hi : i = 20 := by
      simp only [sharedKinds, List.mem_cons, Prod.mk.injEq, List.not_mem_nil, or_false] at hs
      omega
    subst hi
    cases hf0 : V1.ruleRef.find rest with
    | none => exact absurd h0 (find_none.1 hf0 _ _ e)
    | some k0 =>
      have h1 : (Old.regexes digit)[5]? = some V1.ruleRef := rfl
      have h2 := (wins_le h h1 hf0).2 (by omega)
      have h3 := v1_best hb hq V1.ruleRef (by simp [V1.regexes]) rest k0 hf0 _ _ e h0
      omega
  · obtain ⟨c1, w1, e1, h1⟩ := kindOfHead_eq (List.mem_of_getElem? hk1) ((hsh1 u).1 hL') he
    obtain ⟨c2, w2, e2, h2⟩ := kindOfHead_eq (List.mem_of_getElem? hk2) ((hsh2 u).1 hL) he
    rw [e1] at e2
    cases e2
    omega

/-- if the v1 lexer matches, the first lexer matches as much or more -/
theorem old_match (hb : digit '\\' = false) (hq : digit '\'' = false) {rest : Str} (hff : '\x0c' ∉ rest) {j n : Nat}
    (h : Wins ((V1.regexes digit).map find) rest j n) :
    ∃ i n', Wins ((Old.regexes digit).map find) rest i n' ∧ n ≤ n' := by
  obtain ⟨r, u, v, hr, hf, _⟩ := wins_find h
  obtain ⟨i, hs⟩ := shared_of_v1 hr
  obtain ⟨r1, r2, hr1, hr2, hfe⟩ := shared_find hb hq hff hs
  rw [hr] at hr1
  cases hr1
  rw [hfe] at hf
  have hpos : 0 < n := h.1
  rcases longest_cases rest ((Old.regexes digit).map find) with ⟨_, hno⟩ | ⟨i', n', _, hw⟩
  · have := hno i r2.find n (by rw [List.getElem?_map, hr2]; rfl) hf
    omega
  · exact ⟨i', n', hw, (wins_le hw hr2 hf).1⟩

/-- a kind of the first lexer only wins against a token of the v1 lexer only if that is `fragment` or begins with `/*` -/
theorem firstOnly_wins (hb : digit '\\' = false) (hq : digit '\'' = false) {rest : Str} (hff : '\x0c' ∉ rest)
    {j i n' : Nat} {u v : Str} (e : rest = u ++ v) (h : Wins ((V1.regexes digit).map find) rest j (byteLen u))
    (h' : Wins ((Old.regexes digit).map find) rest i n') (hi : i + 2 ∈ firstOnly) :
    u = ['f', 'r', 'a', 'g', 'm', 'e', 'n', 't'] ∨ ['/', '*'] <+: u := by
  obtain ⟨hne, hp, ⟨r, hr, hL⟩, hmax, _⟩ := wins_maxMunch (v1_best hb hq) e h
  obtain ⟨r1, w, x, hr1, _, e1, hn, hL1⟩ := wins_find h'
  obtain ⟨k, hk, hkn, _, hsh⟩ := v1_kind_shape j r hr
  have hshape := (hsh u).1 hL
  -- the first character
  have head : ∀ {c : Char} {y : Str}, rest = c :: y → ∃ u', u = c :: u' := by
    intro c y ey
    cases u with
    | nil => exact absurd rfl hne
    | cons d u' =>
      rw [e, List.cons_append, List.cons.injEq] at ey
      exact ⟨u', by rw [ey.1]⟩
  have regular : ∀ {y : Str}, rest = '/' :: y → IsRegularLiteral u := by
    intro y ey
    obtain ⟨u', rfl⟩ := head ey
    obtain ⟨c, w', e', h2⟩ := kindOfHead_eq (List.mem_of_getElem? hk) hshape (by simp)
    cases e'
    have h14 : k.number = 14 := h2.symm
    obtain rfl : j = 12 := by omega
    cases hr
    exact (regular_iff _).1 hL
  have nothing : ∀ {c : Char} {y : Str}, rest = c :: y → c ∈ ['.', '~', '#'] → False := by
    intro c y ey hc
    obtain ⟨u', rfl⟩ := head ey
    have h1 := v1_first hr hL
    simp only [List.mem_cons, List.not_mem_nil, or_false] at hc
    rcases hc with rfl | rfl | rfl <;> rcases h1 with ⟨_, h1, _⟩ | ⟨_, h1, _⟩ | ⟨_, h1⟩ | h1 <;>
      first
      | exact absurd h1 (by decide)
      | (rcases h1 with h1 | h1
         · exact absurd (List.cons.inj h1).1 (by decide)
         · exact absurd (List.cons.inj h1).1 (by decide))
  simp only [firstOnly, List.mem_cons, List.not_mem_nil, or_false] at hi
  rcases hi with h2 | h2 | h2 | h2 | h2 | h2 | h2
  · obtain rfl : i = 0 := by omega
    cases hr1
    obtain ⟨t, rfl, _⟩ := lineComment_head hL1
    obtain ⟨us, hus, rfl, hall⟩ := regular e1
    exfalso
    rw [e1] at e
    simp only [List.cons_append, List.cons.injEq, true_and] at e
    cases us with
    | nil => exact hus rfl
    | cons y us =>
      rcases hall y (by simp) with rfl | ⟨c, hc, rfl⟩
      · simp at e
      · simp only [List.flatten_cons, List.cons_append, List.nil_append, List.cons.injEq] at e
        exact hc e.1.symm
  · obtain rfl : i = 1 := by omega
    cases hr1
    obtain ⟨t, rfl⟩ := blockComment_head hL1
    obtain ⟨us, hus, rfl, hall⟩ := regular e1
    right
    rw [e1] at e
    simp only [List.cons_append, List.cons.injEq, true_and] at e
    cases us with
    | nil => exact absurd rfl hus
    | cons y us =>
      rcases hall y (by simp) with rfl | ⟨c, hc, rfl⟩
      · simp at e
      · simp only [List.flatten_cons, List.cons_append, List.nil_append, List.cons.injEq] at e
        rw [← e.1]
        exact ⟨us.flatten ++ ['/'], by simp⟩
  · obtain rfl : i = 3 := by omega
    cases hr1
    left
    rw [Old.fragment, lang_str] at hL1
    have hw : w = ['f', 'r', 'a', 'g', 'm', 'e', 'n', 't'] := by rw [hL1]; decide +kernel
    have h0 : V1.ruleRef.Lang w := by
      rw [hw]
      exact (ruleRef_iff _).2 ⟨'f', _, rfl, by decide, by simp, by decide⟩
    have hlen := hmax V1.ruleRef (by simp [V1.regexes]) w ⟨x, e1.symm⟩ h0
    obtain ⟨i2, n2, hw2, hle⟩ := old_match hb hq hff h
    obtain ⟨_, rfl⟩ := h'.unique hw2
    rw [hn] at hle
    have hlen2 := byteLen_prefix_le ⟨x, e1.symm⟩ hp hle
    have : w <+: u := List.prefix_of_prefix_length_le ⟨x, e1.symm⟩ hp hlen
    rw [← hw]
    exact (this.eq_of_length (Nat.le_antisymm hlen hlen2)).symm
  · obtain rfl : i = 12 := by omega
    cases hr1
    rw [lang_lit] at hL1
    subst hL1
    exact (nothing e1 (by simp)).elim
  · obtain rfl : i = 13 := by omega
    cases hr1
    rw [lang_lit] at hL1
    subst hL1
    exact (nothing e1 (by simp)).elim
  · obtain rfl : i = 16 := by omega
    cases hr1
    rw [lang_lit] at hL1
    subst hL1
    exact (nothing e1 (by simp)).elim
  · obtain rfl : i = 18 := by omega
    cases hr1
    rw [lang_str] at hL1
    subst hL1
    exact (nothing e1 (by simp)).elim

/-- both lexers at the same place: the same token, or both fail, or the first lexer has a token of its own -/
theorem both_scan (hb : digit '\\' = false) (hq : digit '\'' = false) {l l' : Lexer} {done rest : Str} {k : Nat}
    (h : At ((V1.regexes digit).map find) V1.tokenNames input l done rest k)
    (h' : At ((Old.regexes digit).map find) Old.tokenNames input l' done rest k) (hff : '\x0c' ∉ rest) :
    (∃ t t' l1 l1' u v, l.scan = .ok (some t, l1) ∧ l'.scanOld = .ok (some t', l1') ∧ t.Same t' ∧ rest = u ++ v ∧
      At ((V1.regexes digit).map find) V1.tokenNames input l1 (done ++ u) v (k + 1) ∧
      At ((Old.regexes digit).map find) Old.tokenNames input l1' (done ++ u) v (k + 1)) ∨
    (Fails Lexer.scanOld l' ∧ (rest ≠ [] → Fails Lexer.scan l) ∧
      (rest = [] → ∃ l1, l.scan = .ok (some (stopToken input k), l1))) ∨
    (∃ t' l1', l'.scanOld = .ok (some t', l1') ∧ t'.tokenType ∈ firstOnly ∧
      (Fails Lexer.scan l ∨ ∃ t l1, l.scan = .ok (some t, l1) ∧
        (t.text = ['f', 'r', 'a', 'g', 'm', 'e', 'n', 't'] ∨ ['/', '*'] <+: t.text))) := by
  rcases h'.scanToken (old_ok digit) with ⟨hno, hs'⟩ | ⟨i, u, v, name, l1', hw', e, hn', hs', ha'⟩
  · right; left
    refine ⟨hs', ?_⟩
    rcases h.scan (v1_ok digit) with ⟨rfl, hs⟩ | ⟨hr, _, hs⟩ | ⟨j, u, v, name, l1, hw, rfl, _⟩
    · exact ⟨fun h => absurd rfl h, fun _ => ⟨_, hs⟩⟩
    · exact ⟨fun _ => hs, fun h => absurd h hr⟩
    · obtain ⟨i, n', hw', _⟩ := old_match hb hq hff hw
      exact absurd hno hw'.not_noMatch
  · obtain ⟨r, w, x, hr, _⟩ := wins_find hw'
    have hne : rest ≠ [] := by
      rintro rfl
      have hu : u = [] := by
        cases u with
        | nil => rfl
        | cons c u => cases e
      subst hu
      exact absurd hw'.1 (by simp)
    rcases shared_of_old hr with hf | ⟨j, hj⟩
    · right; right
      refine ⟨_, _, hs', hf, ?_⟩
      rcases h.scan (v1_ok digit) with ⟨hr, _⟩ | ⟨_, _, hs⟩ | ⟨j, u2, v2, name2, l1, hw, e2, _, hs, _⟩
      · exact absurd hr hne
      · exact .inl hs
      · exact .inr ⟨_, _, hs, firstOnly_wins hb hq hff e2 hw hw' hf⟩
    · left
      have hw := wins_v1 hb hq hff hj hw'
      rcases h.scan (v1_ok digit) with ⟨hr, _⟩ | ⟨_, hno, _⟩ | ⟨j2, u2, v2, name2, l1, hw2, e2, _, hs, ha⟩
      · exact absurd hr hne
      · exact absurd hno hw.not_noMatch
      · obtain ⟨rfl, hl⟩ := hw.unique hw2
        obtain ⟨rfl, rfl⟩ := append_inj_byteLen (e.symm.trans e2) hl
        exact ⟨_, _, l1, l1', u, v, hs, hs', ⟨hj, rfl, rfl, rfl, rfl, rfl, rfl, rfl⟩, e, ha, ha'⟩

theorem not_ff {done rest : Str} (hff : '\x0c' ∉ input) (h : input = done ++ rest) : '\x0c' ∉ rest :=
  fun hm => hff (by rw [h]; exact List.mem_append_right _ hm)

theorem forall₂_snoc {α β : Type} {R : α → β → Prop} {as : List α} {bs : List β} {a : α} {b : β}
    (h : List.Forall₂ R as bs) (hab : R a b) : List.Forall₂ R (as ++ [a]) (bs ++ [b]) := by
  induction h with
  | nil => exact .cons hab .nil
  | cons h1 _ ih => exact .cons h1 ih

theorem shared_not_firstOnly {a b : Nat} (h : (a, b) ∈ sharedKinds) : b ∉ firstOnly ∧ a ≠ 1 := by
  simp only [sharedKinds, List.mem_cons, Prod.mk.injEq, List.not_mem_nil, or_false] at h
  simp only [firstOnly, List.mem_cons, List.not_mem_nil, or_false]
  omega

/-- **C89** A text without form feeds of which the first lexer makes tokens of the kinds both lexers know is made into
the same tokens by the v1 lexer. -/
theorem C89_first_to_v1 (hb : digit '\\' = false) (hq : digit '\'' = false) (hff : '\x0c' ∉ input) {toks' : List Token}
    {l' : Lexer} (h : Scans Lexer.scanOld (Old.lexer digit input) toks' l')
    (hk : ∀ t ∈ toks', t.tokenType ∉ firstOnly) :
    ∃ toks l, Scans Lexer.scan (V1.lexer digit input) toks l ∧ List.Forall₂ Token.Same toks toks' := by
  suffices hs : ∃ toks l done rest, Scans Lexer.scan (V1.lexer digit input) toks l ∧ List.Forall₂ Token.Same toks toks' ∧
      At ((V1.regexes digit).map find) V1.tokenNames input l done rest toks'.length ∧
      At ((Old.regexes digit).map find) Old.tokenNames input l' done rest toks'.length by
    obtain ⟨toks, l, _, _, h1, h2, _⟩ := hs
    exact ⟨toks, l, h1, h2⟩
  generalize hl0 : Old.lexer digit input = l0 at h
  induction h with
  | nil =>
    subst hl0
    exact ⟨[], _, [], input, .nil _, .nil, At.new, At.new⟩
  | @snoc l1 l2 toks' tok h1 h2 ih =>
    obtain ⟨toks, l, done, rest, hs, hsame, ha, ha'⟩ := ih fun t ht => hk t (List.mem_append_left _ ht)
    rcases both_scan hb hq ha ha' (not_ff hff ha.split) with ⟨t, t', l3, l3', u, v, h3, h4, h5, e, h6, h7⟩ | ⟨h3, _⟩ |
        ⟨t', l3', h3, h4, _⟩
    · rw [h2] at h4
      simp only [Except.ok.injEq, Prod.mk.injEq, Option.some.injEq] at h4
      obtain ⟨rfl, rfl⟩ := h4
      exact ⟨toks ++ [t], l3, done ++ u, v, .snoc hs h3, forall₂_snoc hsame h5, by simpa using h6, by simpa using h7⟩
    · rw [Fails, h2] at h3
      simp at h3
    · rw [h2] at h3
      simp only [Except.ok.injEq, Prod.mk.injEq, Option.some.injEq] at h3
      obtain ⟨rfl, rfl⟩ := h3
      exact absurd h4 (hk tok (by simp))

/-- **C89** Conversely the tokens the v1 lexer makes of a text without form feeds are made by the first lexer too, up to
the first word `fragment` and the first regular literal that begins with `/*`. -/
theorem C89_v1_to_first (hb : digit '\\' = false) (hq : digit '\'' = false) (hff : '\x0c' ∉ input) {toks : List Token}
    {l : Lexer} (h : Scans Lexer.scan (V1.lexer digit input) toks l)
    (hk : ∀ t ∈ toks, t.tokenType ≠ 1 ∧ t.text ≠ ['f', 'r', 'a', 'g', 'm', 'e', 'n', 't'] ∧ ¬ ['/', '*'] <+: t.text) :
    ∃ toks' l', Scans Lexer.scanOld (Old.lexer digit input) toks' l' ∧ List.Forall₂ Token.Same toks toks' := by
  suffices hs : ∃ toks' l' done rest, Scans Lexer.scanOld (Old.lexer digit input) toks' l' ∧
      List.Forall₂ Token.Same toks toks' ∧
      At ((V1.regexes digit).map find) V1.tokenNames input l done rest toks.length ∧
      At ((Old.regexes digit).map find) Old.tokenNames input l' done rest toks.length by
    obtain ⟨toks, l, _, _, h1, h2, _⟩ := hs
    exact ⟨toks, l, h1, h2⟩
  generalize hl0 : V1.lexer digit input = l0 at h
  induction h with
  | nil =>
    subst hl0
    exact ⟨[], _, [], input, .nil _, .nil, At.new, At.new⟩
  | @snoc l1 l2 toks tok h1 h2 ih =>
    obtain ⟨toks', l', done, rest, hs, hsame, ha, ha'⟩ := ih fun t ht => hk t (List.mem_append_left _ ht)
    have hlast := hk tok (by simp)
    rcases both_scan hb hq ha ha' (not_ff hff ha.split) with ⟨t, t', l3, l3', u, v, h3, h4, h5, e, h6, h7⟩ |
        ⟨_, h3, h4⟩ | ⟨t', l3', _, _, h3 | ⟨t, l4, h3, h4⟩⟩
    · rw [h2] at h3
      simp only [Except.ok.injEq, Prod.mk.injEq, Option.some.injEq] at h3
      obtain ⟨rfl, rfl⟩ := h3
      exact ⟨toks' ++ [t'], l3', done ++ u, v, .snoc hs h4, forall₂_snoc hsame h5, by simpa using h6, by simpa using h7⟩
    · exfalso
      by_cases hr : rest = []
      · obtain ⟨l3, h5⟩ := h4 hr
        rw [h2] at h5
        simp only [Except.ok.injEq, Prod.mk.injEq, Option.some.injEq] at h5
        exact hlast.1 (by rw [h5.1]; rfl)
      · have h5 := h3 hr
        rw [Fails, h2] at h5
        simp at h5
    · rw [Fails, h2] at h3
      simp at h3
    · rw [h2] at h3
      simp only [Except.ok.injEq, Prod.mk.injEq, Option.some.injEq] at h3
      obtain ⟨rfl, rfl⟩ := h3
      rcases h4 with h4 | h4
      · exact absurd h4 hlast.2.1
      · exact absurd h4 hlast.2.2

/-- **C89** After the same tokens the next scans of both lexers give the same token again, or both fail (the v1 lexer
with its end token first, if the text is used up), or the first lexer returns a comment, `fragment`, `.`, `~`, `#` or
`..`; in the last case the v1 lexer fails or returns `fragment` or a text that begins with `/*`. -/
theorem C89_next (hb : digit '\\' = false) (hq : digit '\'' = false) (hff : '\x0c' ∉ input) {toks toks' : List Token}
    {l l' : Lexer} (h : Scans Lexer.scan (V1.lexer digit input) toks l)
    (h' : Scans Lexer.scanOld (Old.lexer digit input) toks' l') (hsame : List.Forall₂ Token.Same toks toks') :
    (∃ t t' l1 l1', l.scan = .ok (some t, l1) ∧ l'.scanOld = .ok (some t', l1') ∧ t.Same t') ∨
    (Fails Lexer.scanOld l' ∧ (covered toks ≠ input → Fails Lexer.scan l) ∧
      (covered toks = input → ∃ t l1, l.scan = .ok (some t, l1) ∧ t.tokenType = 1)) ∨
    (∃ t' l1', l'.scanOld = .ok (some t', l1') ∧ t'.tokenType ∈ firstOnly ∧
      (Fails Lexer.scan l ∨ ∃ t l1, l.scan = .ok (some t, l1) ∧
        (t.text = ['f', 'r', 'a', 'g', 'm', 'e', 'n', 't'] ∨ ['/', '*'] <+: t.text))) := by
  obtain ⟨done', rest', ht', ha'⟩ := scansOld_cases (old_ok digit) h'
  rcases scans_cases (v1_ok digit) h with ⟨done, rest, ht, ha⟩ | ⟨body, _, rfl, _, _⟩
  · have hlen : toks.length = toks'.length := hsame.length_eq
    have htexts : toks.map Token.text = toks'.map Token.text := by
      have : List.Forall₂ (fun (t t' : Token) => t.text = t'.text) toks toks' := hsame.imp fun _ _ h => h.2.1
      clear h h' ht ht' ha ha' hsame hlen
      induction this with
      | nil => rfl
      | cons h1 _ ih => simp [h1, ih]
    have hd : done = done' := by rw [← ht.texts, ← ht'.texts, htexts]
    subst hd
    have hr : rest = rest' := List.append_cancel_left (ha.split.symm.trans ha'.split)
    subst hr
    rw [← hlen] at ha'
    have hcov : covered toks = done := ht.covered
    have hin : covered toks = input ↔ rest = [] := by
      rw [hcov, ha.split]
      simp
    rcases both_scan hb hq ha ha' (not_ff hff ha.split) with ⟨t, t', l3, l3', u, v, h3, h4, h5, _⟩ | ⟨h3, h4, h5⟩ | h3
    · exact .inl ⟨t, t', l3, l3', h3, h4, h5⟩
    · refine .inr (.inl ⟨h3, fun hc => h4 fun hr => hc (hin.2 hr), fun hc => ?_⟩)
      obtain ⟨l1, h6⟩ := h5 (hin.1 hc)
      exact ⟨_, l1, h6, rfl⟩
    · exact .inr (.inr h3)
  · exfalso
    obtain ⟨t', _, hs⟩ : ∃ t' ∈ toks', Token.Same (stopToken input body.length) t' := by
      have : stopToken input body.length ∈ body ++ [stopToken input body.length] := by simp
      generalize body ++ [stopToken input body.length] = ts at hsame this
      clear h'
      clear ht' ha'
      induction hsame with
      | nil => cases this
      | @cons a b as bs h1 _ ih =>
        rcases List.mem_cons.1 this with e | this
        · exact ⟨b, by simp, e ▸ h1⟩
        · obtain ⟨t', h2, h3⟩ := ih this
          exact ⟨t', List.mem_cons_of_mem _ h2, h3⟩
    exact (shared_not_firstOnly hs.1).2 rfl

/-- non-vacuity: the same three tokens, with the numbers 2, 4, 5 and 7, 8, 10 -/
example : ((V1.lexer isDigit09 "ab:;".toList).scanAll 15 0 20).map (fun r => r.1.map fun t => (t.tokenType, t.text)) =
      .ok [(2, "ab".toList), (4, ":".toList), (5, ";".toList), (1, "_STOP".toList)] ∧
    ((Old.lexer isDigit09 "ab:;".toList).scanAllOld 0 20).map (fun r => r.1.map fun t => (t.tokenType, t.text)) =
      .ok [(7, "ab".toList), (8, ":".toList), (10, ";".toList)] := by
  constructor <;> decide +kernel

end Syntaxis
