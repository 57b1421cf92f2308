import Verif.Model.RegexSyntax

/-! # C64: the pattern texts -/

namespace Syntaxis

namespace Pattern

/-- behind the beginning of the text an anchored pattern matches nowhere -/
theorem search_anchored (digit : Char → Bool) (t : Rx) (s : Str) : search digit [(true, t)] false s = none := by
  induction s with
  | nil => simp [search, matchHere]
  | cons c s ih => rw [search]; simp [matchHere, ih]

/-- an anchored pattern is matched at the beginning of the text only -/
theorem find_anchored (digit : Char → Bool) (t : Rx) :
    find digit [(true, t)] = (t.toRegex digit).find := by
  funext s
  rw [find, Regex.find]
  cases s with
  | nil => simp [search, matchHere]
  | cons c s =>
    rw [search, search_anchored]
    simp only [matchHere, Bool.not_true, Bool.and_false, Bool.false_eq_true, if_false, List.flatMap_cons,
      List.flatMap_nil, List.append_nil]
    cases ((t.toRegex digit).run (c :: s)).head? <;> rfl

end Pattern

namespace RegexSyntax

/-- `[a-z]`, `[A-Z]`, `[a-zA-Z0-9_]` -/
def lower : Rx := .cls false [.range 'a' 'z']
def upper : Rx := .cls false [.range 'A' 'Z']
def ident : Rx := .cls false [.range 'a' 'z', .range 'A' 'Z', .range '0' '9', .one '_']
/-- `[a-f0-9]`, `[^/]`, `[ \r\n\t\f]`, `[ \t\r\n]` -/
def hex : Rx := .cls false [.range 'a' 'f', .range '0' '9']
def notSlash : Rx := .cls true [.one '/']
def white : Rx := .cls false [.one ' ', .one '\r', .one '\n', .one '\t', .one '\x0c']
def oldWhite : Rx := .cls false [.one ' ', .one '\t', .one '\r', .one '\n']
/-- a text that stands for itself -/
def word (s : String) : Rx := .cat (s.toList.map fun c => .one (.one c))
/-- `\\\\|\\'|\\a|\\d|\\n|\\r|\\t|\\f|\\v|\\u\{(0x|0)?[a-f0-9]+\}` -/
def escapes : Rx :=
  .alts [word "\\\\", word "\\'", word "\\a", word "\\d", word "\\n", word "\\r", word "\\t", word "\\f",
    word "\\v", .cat [word "\\", word "u", word "{", .opt (.alt (word "0x") (word "0")),
      .plus hex, word "}"]]
/-- `[^\a\d\n\r\t\f\v\\']` -/
def plain : Rx :=
  .cls true [.one '\x07', .digit, .one '\n', .one '\r', .one '\t', .one '\x0c', .one '\x0b', .one '\\', .one '\'']

/-- the syntax trees of the patterns of the v1 lexer -/
def v1Trees : List Rx :=
  [.seq lower (.plus ident), .seq upper (.plus ident),
    .alts [word "::=", word ":=", word "->", word "=>", word ":", word "="],
    word ";", word "|", .alt (word "ε") (word "epsilon"), word "*", word "+", word "?", word "(", word ")",
    .seq (word "'") (.seq (.star (.alts [plain, escapes, .one .digit])) (word "'")),
    .seq (word "/") (.seq (.plus (.alt (word "\\/") notSlash)) (word "/")),
    .plus white]

theorem v1_compile : V1.patterns.map compile = v1Trees.map fun t => some [(true, t)] := by decide +kernel

/-- the syntax trees of the patterns of the first lexer -/
def oldTrees : List Rx :=
  [.cat [word "/", word "/", .lazyStar (.dot false), word "\n"],
    .cat [word "/", word "*", .lazyStar (.dot true), word "*", word "/"],
    .plus oldWhite, word "fragment",
    .seq upper (.plus ident), .seq lower (.plus ident),
    .alts [word "::=", word ":=", word "->", word "=>", word ":", word "="],
    word "|", word ";", word "*", word "+", word "?", word ".", word "~", word "(", word ")", word "#",
    .seq (word "'") (.seq (.star (.alts [escapes, .one .digit, plain])) (word "'")), word "..",
    .seq (word "/") (.seq (.plus (.alt (word "\\/") notSlash)) (word "/")),
    .alt (word "ε") (word "epsilon")]

theorem old_compile : Old.patterns.map compile = oldTrees.map fun t => some [(true, t)] := by decide +kernel

variable (digit : Char → Bool)

theorem run_assoc (a b c : Regex) (s : Str) :
    (Regex.seq (.seq a b) c).run s = (Regex.seq a (.seq b c)).run s := by
  simp [Regex.run, List.flatMap_assoc]

theorem lower_toRegex : lower.toRegex digit = .cls isLowerAZ := by
  simp only [lower, Rx.toRegex]; congr 1; funext c; simp [ClassItem.has, isLowerAZ]
theorem upper_toRegex : upper.toRegex digit = .cls isUpperAZ := by
  simp only [upper, Rx.toRegex]; congr 1; funext c; simp [ClassItem.has, isUpperAZ]
theorem ident_toRegex : ident.toRegex digit = .cls isIdent := by
  simp only [ident, Rx.toRegex]; congr 1; funext c
  simp [ClassItem.has, isIdent, isLowerAZ, isUpperAZ, isDigit09, Bool.or_assoc]
theorem plain_toRegex : plain.toRegex digit = .cls fun c => !(V1.stringExcluded c || digit c) := by
  simp only [plain, Rx.toRegex]; congr 1; funext c
  simp [ClassItem.has, V1.stringExcluded]
  grind
theorem word_toRegex (s : String) : (word s).toRegex digit = Regex.str s.toList := by
  unfold word
  induction s.toList with
  | nil => rfl
  | cons c l ih =>
    cases l with
    | nil => rfl
    | cons d l => exact congrArg (Regex.seq (Regex.lit c)) ih

theorem hex_toRegex : hex.toRegex digit =
    .cls fun c => decide ('a' ≤ c ∧ c ≤ 'f') || isDigit09 c := by
  simp only [hex, Rx.toRegex]; congr 1; funext c; simp [ClassItem.has, isDigit09]

theorem escapes_toRegex : (escapes.toRegex digit).run = V1.stringEscape.run := by
  funext s
  simp [escapes, V1.stringEscape, Rx.alts, Regex.alts, Rx.toRegex, word_toRegex, Rx.cat, Regex.run, Regex.str,
    List.flatMap_assoc, hex_toRegex, Regex.opt, Regex.plus]

theorem star_run {r q : Regex} (h : r.run = q.run) : (Regex.star r).run = (Regex.star q).run := by
  funext s; simp only [Regex.run, h]

theorem find_congr {r q : Regex} (h : r.run = q.run) : r.find = q.find := by
  funext s; simp only [Regex.find, h]

theorem regular_toRegex : (Rx.seq (word "/") (.seq (.plus (.alt (word "\\/") notSlash)) (word "/"))).toRegex
    digit = V1.regularLiteral := by
  have h : notSlash.toRegex digit = .cls fun c => c != '/' := by
    simp only [notSlash, Rx.toRegex]; congr 1; funext c; simp [ClassItem.has, bne]
  simp [V1.regularLiteral, Rx.toRegex, word_toRegex, h, Regex.str]

theorem v1_trees : v1Trees.map (fun t => (t.toRegex digit).find) = (V1.regexes digit).map Regex.find := by
  have hws : white.toRegex digit =
      .cls V1.isWhite := by
    simp only [white, Rx.toRegex]; congr 1; funext c; simp [ClassItem.has, V1.isWhite, Bool.or_assoc]
  have hstr : ((Rx.seq (word "'") (.seq (.star (.alts [plain, escapes, .one .digit])) (word "'"))).toRegex digit).find =
      (V1.stringLiteral digit).find := by
    apply find_congr
    have : ((Rx.alts [plain, escapes, .one .digit]).toRegex digit).run =
        (Regex.alts [.cls (fun c => !(V1.stringExcluded c || digit c)), V1.stringEscape, .cls digit]).run := by
      funext s
      simp only [Rx.alts, Rx.toRegex, Regex.alts, Regex.run, plain_toRegex, escapes_toRegex]
      rfl
    have h2 := star_run this
    funext s
    simp only [Rx.toRegex, V1.stringLiteral, word_toRegex]
    rw [Regex.run, Regex.run]
    congr 1
    funext s'
    rw [Regex.run, Regex.run, h2]
    rfl
  simp only [v1Trees, V1.regexes, List.map_cons, List.map_nil, hstr, regular_toRegex]
  simp [Rx.toRegex, lower_toRegex, upper_toRegex, ident_toRegex, word_toRegex, V1.ruleRef, V1.tokenRef, hws,
    Rx.alts, V1.colon, V1.epsilon, Regex.alts, Regex.str, V1.whiteSpace]

theorem old_trees : oldTrees.map (fun t => (t.toRegex digit).find) = (Old.regexes digit).map Regex.find := by
  have hws : oldWhite.toRegex digit = .cls fun c => c == ' ' || c == '\t' || c == '\r' || c == '\n' := by
    simp only [oldWhite, Rx.toRegex]; congr 1; funext c; simp [ClassItem.has, Bool.or_assoc]
  have hstr : ((Rx.seq (word "'") (.seq (.star (.alts [escapes, .one .digit, plain])) (word "'"))).toRegex digit).find =
      (Old.stringLiteral digit).find := by
    apply find_congr
    have : ((Rx.alts [escapes, .one .digit, plain]).toRegex digit).run =
        (Regex.alts [V1.stringEscape, .cls digit, .cls (fun c => !(V1.stringExcluded c || digit c))]).run := by
      funext s
      simp only [Rx.alts, Rx.toRegex, Regex.alts, Regex.run, plain_toRegex, escapes_toRegex]
      rfl
    have h2 := star_run this
    funext s
    simp only [Rx.toRegex, Old.stringLiteral, word_toRegex]
    rw [Regex.run, Regex.run]
    congr 1
    funext s'
    rw [Regex.run, Regex.run, h2]
    rfl
  have h1 : ((Rx.cat [word "/", word "/", .lazyStar (.dot false), word "\n"]).toRegex digit).find =
      Old.lineComment.find := by
    apply find_congr
    funext s
    simp [Rx.cat, Rx.toRegex, Old.lineComment, word_toRegex, Regex.run, Regex.str, List.flatMap_assoc]
  have h2 : ((Rx.cat [word "/", word "*", .lazyStar (.dot true), word "*", word "/"]).toRegex digit).find =
      Old.blockComment.find := by
    apply find_congr
    funext s
    simp [Rx.cat, Rx.toRegex, Old.blockComment, word_toRegex, Regex.run, Regex.str, List.flatMap_assoc]
  simp only [oldTrees, Old.regexes, List.map_cons, List.map_nil, hstr, regular_toRegex, h1, h2]
  simp [Rx.toRegex, lower_toRegex, upper_toRegex, ident_toRegex, word_toRegex, V1.ruleRef, V1.tokenRef, hws,
    Rx.alts, V1.colon, V1.epsilon, Regex.alts, Regex.str, Old.ws, Old.fragment]

/-- **C64** The patterns of the v1 lexer compile, and to matchers that behave like the regexes of the model. -/
theorem C64_v1_patterns :
    V1.patterns.map (fun s => (compile s).map (Pattern.find digit)) =
      (V1.regexes digit).map fun r => some r.find := by
  have h1 : V1.patterns.map (fun s => (compile s).map (Pattern.find digit)) =
      (V1.patterns.map compile).map (Option.map (Pattern.find digit)) := by rw [List.map_map]; rfl
  have h2 : (V1.regexes digit).map (fun r => some r.find) = ((V1.regexes digit).map Regex.find).map some := by
    rw [List.map_map]; rfl
  rw [h1, h2, v1_compile, ← v1_trees, List.map_map, List.map_map]
  refine List.map_congr_left fun t _ => ?_
  simp [Pattern.find_anchored]

/-- **C64** So do the patterns of the first lexer. -/
theorem C64_old_patterns :
    Old.patterns.map (fun s => (compile s).map (Pattern.find digit)) =
      (Old.regexes digit).map fun r => some r.find := by
  have h1 : Old.patterns.map (fun s => (compile s).map (Pattern.find digit)) =
      (Old.patterns.map compile).map (Option.map (Pattern.find digit)) := by rw [List.map_map]; rfl
  have h2 : (Old.regexes digit).map (fun r => some r.find) = ((Old.regexes digit).map Regex.find).map some := by
    rw [List.map_map]; rfl
  rw [h1, h2, old_compile, ← old_trees, List.map_map, List.map_map]
  refine List.map_congr_left fun t _ => ?_
  simp [Pattern.find_anchored]

/-! ### reading a text in front of a closing parenthesis -/

theorem peek_append {s : Str} (hs : s ≠ []) (c : Char) (t : Str) : peek c (s ++ t) = peek c s := by
  cases s with
  | nil => exact absurd rfl hs
  | cons _ _ => simp [peek]

theorem tail_append {s : Str} (hs : s ≠ []) (t : Str) : (s ++ t).tail = s.tail ++ t := by
  cases s with
  | nil => exact absurd rfl hs
  | cons _ _ => simp

theorem ne_nil_of_peek {s : Str} {c : Char} (h : peek c s = true) : s ≠ [] := by
  rintro rfl; simp [peek] at h

theorem peek_close {c : Char} (hc : c ≠ ')') (s t : Str) : peek c (s ++ ')' :: t) = peek c s := by
  cases s with
  | nil => simp [peek, hc.symm]
  | cons _ _ => simp [peek]

theorem hexBraced_append {s : Str} {x : ClassItem × Str} (h : hexBraced s = some x) (t : Str) :
    hexBraced (s ++ t) = some (x.1, x.2 ++ t) := by
  rw [hexBraced] at h
  match hd : s.dropWhile (· != '}'), h with
  | c :: u, h =>
    have hm : ∀ s : Str, ∀ c u, s.dropWhile (· != '}') = c :: u →
        (s ++ t).dropWhile (· != '}') = c :: (u ++ t) ∧ (s ++ t).takeWhile (· != '}') = s.takeWhile (· != '}') := by
      intro s
      induction s with
      | nil => intro c u h; simp at h
      | cons e s ih =>
        intro c u h
        by_cases he : e = '}'
        · subst he
          simp only [bne_self_eq_false, Bool.false_eq_true, not_false_eq_true, List.dropWhile_cons_of_neg,
            List.cons.injEq] at h
          obtain ⟨rfl, rfl⟩ := h
          simp
        · have h' : (e != '}') = true := by simpa using he
          simp only [List.dropWhile_cons, h', if_true] at h
          simp only [List.cons_append, List.dropWhile_cons, List.takeWhile_cons, h', if_true, (ih c u h).1, (ih c u h).2,
            and_self]
    rw [hexBraced, (hm s c u hd).1, (hm s c u hd).2]
    simp only [Option.map_eq_some_iff] at h ⊢
    obtain ⟨i, hi, rfl⟩ := h
    exact ⟨i, hi, rfl⟩

theorem hexFixed_append {n : Nat} {s : Str} {x : ClassItem × Str} (h : hexFixed n s = some x) (t : Str) :
    hexFixed n (s ++ t) = some (x.1, x.2 ++ t) := by
  rw [hexFixed] at h ⊢
  split_ifs at h with hn
  rw [if_neg (by simp; omega), List.take_append_of_le_length (by omega), List.drop_append_of_le_length (by omega)]
  simp only [Option.map_eq_some_iff] at h ⊢
  obtain ⟨i, hi, rfl⟩ := h
  exact ⟨i, hi, rfl⟩

theorem hexLength_pos {c : Char} {n : Nat} (h : hexLength c = some n) : 0 < n := by
  rw [hexLength] at h
  split_ifs at h <;> cases h <;> decide

theorem escaped_append {s : Str} {x : ClassItem × Str} (h : escaped s = some x) (t : Str) :
    escaped (s ++ t) = some (x.1, x.2 ++ t) := by
  cases s with
  | nil => simp [escaped] at h
  | cons e s =>
    simp only [escaped, List.cons_append] at h ⊢
    cases hl : hexLength e with
    | none =>
      simp only [hl] at h ⊢
      cases he : escape e with
      | none => simp [he] at h
      | some i => simp only [he, Option.map_some, Option.some.injEq] at h ⊢; subst h; rfl
    | some n =>
      simp only [hl] at h ⊢
      have hs : s ≠ [] := by
        rintro rfl
        have := hexLength_pos hl
        simp [peek, hexFixed, this] at h
      rw [peek_append hs, tail_append hs]
      split_ifs at h ⊢ with hp
      · exact hexBraced_append h t
      · exact hexFixed_append h t

theorem classPrim_append {s : Str} {x : ClassItem × Str} (h : classPrim s = some x) (t : Str) :
    classPrim (s ++ t) = some (x.1, x.2 ++ t) := by
  cases s with
  | nil => simp [classPrim] at h
  | cons c s =>
    rw [classPrim] at h
    rw [List.cons_append, classPrim]
    cases hk : classKind c with
    | close => simp [hk] at h
    | special => simp [hk] at h
    | back => simp only [hk] at h ⊢; exact escaped_append h t
    | plain => simp only [hk, Option.some.injEq] at h ⊢; subst h; rfl

theorem rangeTo_eq {i : ClassItem} {s : Str} {x : ClassItem × Str} : rangeTo i s = some x ↔
    ∃ a b, i = .one a ∧ classPrim s = some (.one b, x.2) ∧ a ≤ b ∧ x.1 = .range a b := by
  obtain ⟨x1, x2⟩ := x
  constructor
  · intro h
    unfold rangeTo at h
    split at h
    · rename_i a b s' hp
      split_ifs at h with hab
      cases h
      exact ⟨a, b, rfl, hp, hab, rfl⟩
    · cases h
  · rintro ⟨a, b, rfl, h, hab, rfl⟩
    simp [rangeTo, h, hab]

theorem classMember_append {s : Str} {x : ClassItem × Str} (h : classMember s = some x) (hx : x.2 ≠ []) (t : Str) :
    classMember (s ++ t) = some (x.1, x.2 ++ t) := by
  rw [classMember] at h ⊢
  cases hp : classPrim s with
  | none => simp [hp] at h
  | some y =>
    obtain ⟨i, u⟩ := y
    simp only [hp, classPrim_append hp] at h ⊢
    by_cases hu : u = []
    · subst hu
      simp [peek] at h
      subst h
      exact absurd rfl hx
    rw [peek_append hu, tail_append hu]
    by_cases hm : peek '-' u = true
    · have hu' : u.tail ≠ [] := by
        intro e
        rw [hm, e, if_pos (by rfl), rangeTo_eq] at h
        obtain ⟨a, b, -, h, -⟩ := h
        simp [classPrim] at h
      rw [peek_append hu']
      split_ifs at h ⊢ with h1
      · rw [rangeTo_eq] at h ⊢
        obtain ⟨a, b, rfl, h, hab, h'⟩ := h
        exact ⟨a, b, rfl, classPrim_append h t, hab, h'⟩
      · cases h; rfl
    · rw [Bool.not_eq_true] at hm
      simp only [hm, Bool.false_and, Bool.false_eq_true, if_false, Option.some.injEq] at h ⊢
      subst h; rfl

theorem classNext_append {s : Str} {x : Option ClassItem × Str} (h : classNext s = some x)
    (hx : x.1 = none ∨ x.2 ≠ []) (t : Str) : classNext (s ++ t) = some (x.1, x.2 ++ t) := by
  cases s with
  | nil => simp [classNext] at h
  | cons c s =>
    rw [classNext] at h
    rw [List.cons_append, classNext]
    split_ifs at h with h1 h2 h3
    · rw [if_pos h1]; cases h; rfl
    · rw [if_neg h1]
      cases h
      have hs : s ≠ [] := by simpa using hx
      rw [peek_append hs, if_pos h2]
    · rw [if_neg h1]
      rw [Option.map_eq_some_iff] at h
      obtain ⟨y, hy, rfl⟩ := h
      have hne : y.2 ≠ [] := by simpa using hx
      have hs : s ≠ [] := by
        rintro rfl
        rw [classMember] at hy
        cases hp : classPrim [c] with
        | none => simp [hp] at hy
        | some z =>
          have hz : z.2 = [] := by
            rw [classPrim] at hp
            split at hp
            · simp [escaped] at hp
            · cases hp; rfl
            · cases hp
            · cases hp
          simp [hp, hz, peek] at hy
          subst hy
          exact hne rfl
      rw [peek_append hs, peek_append hs, if_neg h2, if_neg h3, ← List.cons_append, classMember_append hy hne]
      rfl

theorem classItems_ne {n : Nat} {s : Str} {x : List ClassItem × Str} (h : classItems n s = some x) : s ≠ [] := by
  rintro rfl; cases n <;> simp [classItems, classNext] at h

theorem classItems_mono {n : Nat} {s : Str} {x : List ClassItem × Str} (h : classItems n s = some x) {m : Nat}
    (hm : n ≤ m) (t : Str) : classItems m (s ++ t) = some (x.1, x.2 ++ t) := by
  induction n generalizing s x m with
  | zero => simp [classItems] at h
  | succ n ih =>
    obtain ⟨m, rfl⟩ : ∃ k, m = k + 1 := ⟨m - 1, by omega⟩
    have hm : n ≤ m := by omega
    rw [classItems] at h ⊢
    match hn : classNext s with
    | none => simp [hn] at h
    | some (none, s') =>
      simp only [hn, Option.some.injEq] at h
      subst h
      rw [classNext_append hn (.inl rfl)]
    | some (some i, s') =>
      simp only [hn] at h
      cases hr : classItems n s' with
      | none => simp [hr] at h
      | some y =>
        simp only [hr, Option.map_some, Option.some.injEq] at h
        subst h
        rw [classNext_append hn (.inr (classItems_ne hr))]
        simp [ih hr hm]

theorem parseClass_append {s : Str} {x : Rx × Str} (h : parseClass s = some x) (t : Str) :
    parseClass (s ++ t) = some (x.1, x.2 ++ t) := by
  cases s with
  | nil => simp [parseClass, classItems, classNext] at h
  | cons c s =>
    rw [parseClass] at h
    rw [parseClass, peek_append (by simp)]
    have e : (if peek '^' (c :: s) = true then ((c :: s) ++ t).tail else (c :: s) ++ t) =
        (if peek '^' (c :: s) = true then (c :: s).tail else c :: s) ++ t := by
      split <;> simp
    simp only [e] at h ⊢
    generalize (if peek '^' (c :: s) = true then (c :: s).tail else c :: s) = u at h ⊢
    have hu : u ≠ [] := by
      rintro rfl
      simp [peek, classItems, classNext] at h
    rw [peek_append hu, peek_append hu]
    split at h
    · simp at h
    · rename_i hp
      rw [if_neg hp]
      have e2 : (if peek '-' u = true then (u ++ t).tail else u ++ t) = (if peek '-' u = true then u.tail else u) ++ t := by
        split
        · rw [tail_append hu]
        · rfl
      rw [e2]
      have hle : (if peek '-' u = true then u.tail else u).length ≤ u.length := by split <;> simp
      generalize (if peek '-' u = true then u.tail else u) = v at h hle ⊢
      cases hr : classItems (u.length + 1) v with
      | none => simp [hr] at h
      | some y =>
        simp only [hr, Option.some.injEq] at h
        subst h
        rw [classItems_mono hr (by simp) t]

theorem takeWhile_close {p : Char → Bool} (hp : p ')' = false) (s t : Str) :
    (s ++ ')' :: t).takeWhile p = s.takeWhile p ∧ (s ++ ')' :: t).dropWhile p = s.dropWhile p ++ ')' :: t := by
  induction s with
  | nil => simp [hp]
  | cons c s ih => cases hc : p c <;> simp [hc, ih]

theorem countNum_append (s t : Str) :
    countNum (s ++ ')' :: t) = (countNum s).map fun x => (x.1, x.2 ++ ')' :: t) := by
  obtain ⟨h1, h2⟩ := takeWhile_close (p := isCountDigit) (by decide) s t
  simp only [countNum, h1, h2]
  split_ifs <;> rfl

theorem countEnd_append (lo : Nat) (hi : Option Nat) (s t : Str) :
    countEnd lo hi (s ++ ')' :: t) = ((countEnd lo hi s).1, (countEnd lo hi s).2 ++ ')' :: t) := by
  rw [countEnd, countEnd, peek_close (by decide)]
  split
  · rename_i hp; rw [tail_append (ne_nil_of_peek hp)]
  · rfl

theorem countedOp_append (s t : Str) :
    countedOp (s ++ ')' :: t) = (countedOp s).map fun x => (x.1, x.2 ++ ')' :: t) := by
  rw [countedOp, countedOp, countNum_append]
  cases countNum s with
  | none => rfl
  | some x =>
    obtain ⟨lo, u⟩ := x
    simp only [Option.map_some]
    rw [peek_close (by decide), peek_close (by decide)]
    split
    · rename_i hp
      rw [tail_append (ne_nil_of_peek hp), countEnd_append]; rfl
    · split
      · rename_i hp
        rw [tail_append (ne_nil_of_peek hp), peek_close (by decide), countNum_append]
        split
        · rename_i hp2
          rw [tail_append (ne_nil_of_peek hp2), countEnd_append]; rfl
        · cases countNum u.tail with
          | none => rfl
          | some y =>
            obtain ⟨hi, v⟩ := y
            simp only [Option.map_some]
            rw [peek_close (by decide)]
            split
            · rename_i hp3
              rw [Bool.and_eq_true] at hp3
              rw [tail_append (ne_nil_of_peek hp3.1), countEnd_append]; rfl
            · rfl
      · rfl

theorem repeatOp_append (s t : Str) :
    repeatOp (s ++ ')' :: t) = (repeatOp s).map fun x => (x.1, x.2 ++ ')' :: t) := by
  cases s with
  | nil => simp [repeatOp]
  | cons c s =>
    rw [List.cons_append, repeatOp, repeatOp]
    have hcnt : (countedOp (s ++ ')' :: t)).getD (.other, s ++ ')' :: t) =
        (((countedOp s).getD (.other, s)).1, ((countedOp s).getD (.other, s)).2 ++ ')' :: t) := by
      rw [countedOp_append]; cases countedOp s <;> rfl
    simp only [peek_close (c := '?') (by decide), hcnt]
    by_cases hp : peek '?' s = true
    · simp only [hp, if_true, tail_append (ne_nil_of_peek hp)]
      split_ifs <;> rfl
    · have hp : peek '?' s = false := by simpa using hp
      simp only [hp, Bool.false_eq_true, if_false]
      split_ifs <;> rfl

theorem quantifier_append {r : Rx} {s : Str} {x : Rx × Str} (h : quantifier r s = some x) (t : Str) :
    quantifier r (s ++ ')' :: t) = some (x.1, x.2 ++ ')' :: t) := by
  rw [quantifier] at h ⊢
  rw [repeatOp_append]
  match hr : repeatOp s with
  | none => simp only [hr, Option.some.injEq] at h; subst h; rfl
  | some (.star, u) =>
    simp only [hr] at h; simp only [Option.map_some]
    split at h
    · simp at h
    · rename_i hn; simp only [Option.some.injEq] at h; subst h; rw [if_neg hn]
  | some (.lazyStar, u) =>
    simp only [hr] at h; simp only [Option.map_some]
    split at h
    · simp at h
    · rename_i hn; simp only [Option.some.injEq] at h; subst h; rw [if_neg hn]
  | some (.plus, u) =>
    simp only [hr] at h; simp only [Option.map_some]
    split at h
    · simp at h
    · rename_i hn; simp only [Option.some.injEq] at h; subst h; rw [if_neg hn]
  | some (.lazyPlus, u) =>
    simp only [hr] at h; simp only [Option.map_some]
    split at h
    · simp at h
    · rename_i hn; simp only [Option.some.injEq] at h; subst h; rw [if_neg hn]
  | some (.opt, u) => simp only [hr, Option.some.injEq] at h; subst h; rfl
  | some (.lazyOpt, u) => simp only [hr, Option.some.injEq] at h; subst h; rfl
  | some (.range lo hi g, u) =>
    simp only [hr] at h; simp only [Option.map_some]
    split at h
    · simp at h
    · rename_i hn; simp only [Option.some.injEq] at h; subst h; rw [if_neg hn]
  | some (.other, u) => simp [hr] at h

theorem single_append {da : Bool} {s : Str} {x : Rx × Str} (h : single da s = some x) (t : Str) :
    single da (s ++ t) = some (x.1, x.2 ++ t) := by
  cases s with
  | nil => simp [single] at h
  | cons c s =>
    rw [single] at h
    rw [List.cons_append, single]
    cases hk : atomKind c with
    | bracket => simp only [hk, singleOf] at h ⊢; exact parseClass_append h t
    | dot => simp only [hk, singleOf, Option.some.injEq] at h ⊢; subst h; rfl
    | plain => simp only [hk, singleOf, Option.some.injEq] at h ⊢; subst h; rfl
    | special => simp [hk, singleOf] at h
    | back =>
      simp only [hk, singleOf] at h ⊢
      cases he : escaped s with
      | none => simp [he] at h
      | some y =>
        simp only [he, Option.map_some, Option.some.injEq] at h
        subst h
        simp [escaped_append he]

theorem branchEnd_append (s t : Str) : branchEnd (s ++ ')' :: t) = branchEnd s := by
  cases s with
  | nil => simp [branchEnd, peek]
  | cons c s => simp [branchEnd, peek]

theorem groupStart_append {s u : Str} (h : groupStart s = some u) (t : Str) :
    groupStart (s ++ ')' :: t) = some (u ++ ')' :: t) := by
  rw [groupStart] at h ⊢
  rw [peek_close (by decide)]
  split at h
  · rename_i hp
    rw [if_pos hp, tail_append (ne_nil_of_peek hp), peek_close (by decide)]
    split at h
    · rename_i hq
      rw [if_pos hq, tail_append (ne_nil_of_peek hq)]
      cases h
      rfl
    · cases h
  · rename_i hp
    rw [if_neg hp]
    cases h
    rfl

theorem groupStart_length {s u : Str} (h : groupStart s = some u) : u.length ≤ s.length := by
  rw [groupStart] at h
  split_ifs at h <;> cases h <;> simp
  omega

/-- reading `s` does not change when a closing parenthesis follows -/
theorem parse_append (da : Bool) (n : Nat) :
    (∀ s x, parseAlts da n s = some x → ∀ m, n ≤ m → ∀ t,
      parseAlts da m (s ++ ')' :: t) = some (x.1, x.2 ++ ')' :: t)) ∧
    (∀ s x, parseConcat da n s = some x → ∀ m, n ≤ m → ∀ t,
      parseConcat da m (s ++ ')' :: t) = some (x.1, x.2 ++ ')' :: t)) ∧
    (∀ s x, parseAtom da n s = some x → ∀ m, n ≤ m → ∀ t,
      parseAtom da m (s ++ ')' :: t) = some (x.1, x.2 ++ ')' :: t)) := by
  induction n with
  | zero =>
    refine ⟨fun s x h => ?_, fun s x h => ?_, fun s x h => ?_⟩
    · simp [parseAlts] at h
    · simp [parseConcat] at h
    · simp [parseAtom] at h
  | succ n ih =>
    obtain ⟨ihA, ihC, ihT⟩ := ih
    refine ⟨fun s x h m hm t => ?_, fun s x h m hm t => ?_, fun s x h m hm t => ?_⟩
    · obtain ⟨m, rfl⟩ : ∃ k, m = k + 1 := ⟨m - 1, by omega⟩
      have hm : n ≤ m := by omega
      rw [parseAlts] at h ⊢
      cases hc : parseConcat da n s with
      | none => simp [hc] at h
      | some y =>
        simp only [hc] at h
        simp only [ihC s y hc m hm t, peek_close (c := '|') (by decide)]
        split at h
        · rename_i hp
          rw [if_pos hp, tail_append (ne_nil_of_peek hp)]
          cases ha : parseAlts da n y.2.tail with
          | none => simp [ha] at h
          | some z =>
            simp only [ha, Option.some.injEq] at h
            subst h
            simp [ihA _ z ha m hm t]
        · rename_i hp; rw [if_neg hp]; simp only [Option.some.injEq] at h; subst h; rfl
    · obtain ⟨m, rfl⟩ : ∃ k, m = k + 1 := ⟨m - 1, by omega⟩
      have hm : n ≤ m := by omega
      rw [parseConcat] at h ⊢
      rw [branchEnd_append]
      split at h
      · rename_i hp; rw [if_pos hp]; simp only [Option.some.injEq] at h; subst h; rfl
      · rename_i hp
        rw [if_neg hp]
        cases ha : parseAtom da n s with
        | none => simp [ha] at h
        | some y =>
          simp only [ha] at h
          simp only [ihT s y ha m hm t]
          cases hq : quantifier y.1 y.2 with
          | none => simp [hq] at h
          | some z =>
            simp only [hq] at h
            simp only [quantifier_append hq t]
            cases hc : parseConcat da n z.2 with
            | none => simp [hc] at h
            | some w =>
              simp only [hc, Option.some.injEq] at h
              subst h
              simp [ihC _ w hc m hm t]
    · obtain ⟨m, rfl⟩ : ∃ k, m = k + 1 := ⟨m - 1, by omega⟩
      have hm : n ≤ m := by omega
      rw [parseAtom] at h ⊢
      rw [peek_close (by decide)]
      split at h
      · rename_i hp
        rw [if_pos hp, tail_append (ne_nil_of_peek hp)]
        cases hg : groupStart s.tail with
        | none => simp [hg] at h
        | some g =>
        simp only [hg] at h
        simp only [groupStart_append hg]
        cases ha : parseAlts da n g with
        | none => simp [ha] at h
        | some y =>
          simp only [ha] at h
          simp only [ihA _ y ha m hm t]
          split at h
          · rename_i hc
            simp only [Option.some.injEq] at h
            subst h
            rw [peek_append (ne_nil_of_peek hc), if_pos hc, tail_append (ne_nil_of_peek hc)]
          · simp at h
      · rename_i hp
        rw [if_neg hp]
        exact single_append h _

/-- a regex in parentheses behind `^` compiles to that regex, anchored -/
theorem compile_wrapped {r : Str} {x : Rx} (h : parse r = some x) :
    compile ("^(".toList ++ r ++ ")".toList) = some [(true, x)] := by
  have hq : peek '?' r = false := by
    cases r with
    | nil => rfl
    | cons c r =>
      by_contra hq
      have hc : c = '?' := by simpa [peek] using hq
      subst hc
      rw [parse, fuelFor, parseAlts, parseConcat] at h
      simp [branchEnd, peek, parseAtom, single, singleOf, atomKind, isMeta] at h
  rw [parse] at h
  split at h
  · rename_i rs hp
    simp only [Option.some.injEq] at h
    subst h
    have ha := (parse_append false _).1 _ _ hp
    have e : "^(".toList ++ r ++ ")".toList = '^' :: '(' :: (r ++ [')']) := by simp
    rw [e, compile, if_neg, parseBranches]
    · have p1 : peek '^' ('^' :: '(' :: (r ++ [')'])) = true := by simp [peek]
      have p2 : peek '(' ('(' :: (r ++ [')'])) = true := by simp [peek]
      have p3 : branchEnd ('(' :: (r ++ [')'])) = false := by simp [branchEnd, peek]
      have p4 : peek '?' (r ++ [')']) = false := by rw [peek_close (by decide), hq]
      have hf : fuelFor ('(' :: (r ++ [')'])) = (3 * r.length + 3) + 6 := by
        simp [fuelFor]; omega
      have := ha (3 * r.length + 3 + 4) (by rw [fuelFor]; omega) []
      simp only [p1, if_true, List.tail_cons, hf]
      have p5 : groupStart (r ++ [')']) = some (r ++ [')']) := by rw [groupStart, p4]; rfl
      simp only [parseConcat, p3, parseAtom, p2, if_true, List.tail_cons, p5, this]
      simp [quantifier, repeatOp, peek, branchEnd, Rx.cat]
    · intro h5
      cases r with
      | nil => simp at h5
      | cons c r =>
        simp only [List.cons_append, List.take_succ_cons, List.cons.injEq] at h5
        simp [peek, h5.2.2.1] at hq
  · simp at h

/-! ### the fuel suffices -/

theorem escaped_length {s : Str} {x : ClassItem × Str} (h : escaped s = some x) : x.2.length < s.length := by
  cases s with
  | nil => simp [escaped] at h
  | cons e s =>
    simp only [escaped] at h
    cases hl : hexLength e with
    | none =>
      simp only [hl] at h
      cases he : escape e with
      | none => simp [he] at h
      | some i => simp only [he, Option.map_some, Option.some.injEq] at h; subst h; simp
    | some n =>
      simp only [hl] at h
      split_ifs at h with hp
      · rw [hexBraced] at h
        have hd := (List.dropWhile_suffix (l := s.tail) (· != '}')).length_le
        match he : s.tail.dropWhile (· != '}'), h with
        | c :: u, h =>
          rw [he] at hd
          rw [Option.map_eq_some_iff] at h
          obtain ⟨i, -, rfl⟩ := h
          simp at hd ⊢
          omega
      · rw [hexFixed] at h
        split_ifs at h
        rw [Option.map_eq_some_iff] at h
        obtain ⟨i, -, rfl⟩ := h
        simp
        omega

theorem classPrim_length {s : Str} {x : ClassItem × Str} (h : classPrim s = some x) : x.2.length < s.length := by
  cases s with
  | nil => simp [classPrim] at h
  | cons c s =>
    rw [classPrim] at h
    split at h
    · have := escaped_length h; simp; omega
    · cases h; simp
    · cases h
    · cases h

theorem classNext_length {s : Str} {x : Option ClassItem × Str} (h : classNext s = some x) :
    x.2.length < s.length := by
  cases s with
  | nil => simp [classNext] at h
  | cons c s =>
    rw [classNext] at h
    split_ifs at h with h1 h2 h3
    · cases h; simp
    · cases h; simp
    · rw [Option.map_eq_some_iff] at h
      obtain ⟨y, hy, rfl⟩ := h
      rw [classMember] at hy
      cases hp : classPrim (c :: s) with
      | none => simp [hp] at hy
      | some z =>
        have hz := classPrim_length hp
        simp only [hp] at hy
        split_ifs at hy with hm
        · rw [rangeTo_eq] at hy
          obtain ⟨a, b, -, hb, -, -⟩ := hy
          have := classPrim_length hb
          simp at this hz ⊢
          omega
        · cases hy; exact hz

theorem classItems_length {n : Nat} {s : Str} {x : List ClassItem × Str} (h : classItems n s = some x) :
    x.2.length < s.length := by
  induction n generalizing s x with
  | zero => simp [classItems] at h
  | succ n ih =>
    rw [classItems] at h
    match hn : classNext s with
    | none => simp [hn] at h
    | some (none, s') =>
      have := classNext_length hn
      simp only [hn, Option.some.injEq] at h
      subst h; exact this
    | some (some i, s') =>
      have h1 := classNext_length hn
      simp only [hn] at h
      cases hr : classItems n s' with
      | none => simp [hr] at h
      | some y =>
        have h2 := ih hr
        simp only [hr, Option.map_some, Option.some.injEq] at h
        subst h; simp at h1 ⊢; omega

theorem parseClass_length {s : Str} {x : Rx × Str} (h : parseClass s = some x) : x.2.length < s.length := by
  rw [parseClass] at h
  have hu : (if peek '^' s = true then s.tail else s).length ≤ s.length := by split <;> simp
  generalize (if peek '^' s = true then s.tail else s) = u at h hu
  split at h
  · simp at h
  · have key : ∀ v : Str, v.length ≤ u.length → ∀ f : List ClassItem → Rx,
        (match classItems (u.length + 1) v with | some (is, s) => some (f is, s) | none => none) = some x →
        x.2.length < s.length := by
      intro v hv f h
      cases hr : classItems (u.length + 1) v with
      | none => simp [hr] at h
      | some y =>
        have := classItems_length hr
        simp only [hr, Option.some.injEq] at h
        subst h; simp; omega
    refine key _ ?_ _ h
    split <;> simp

theorem single_length {da : Bool} {s : Str} {x : Rx × Str} (h : single da s = some x) : x.2.length < s.length := by
  cases s with
  | nil => simp [single] at h
  | cons c s =>
    rw [single] at h
    cases hk : atomKind c with
    | bracket => simp only [hk, singleOf] at h; have := parseClass_length h; simp; omega
    | dot => simp only [hk, singleOf, Option.some.injEq] at h; subst h; simp
    | plain => simp only [hk, singleOf, Option.some.injEq] at h; subst h; simp
    | special => simp [hk, singleOf] at h
    | back =>
      simp only [hk, singleOf] at h
      cases he : escaped s with
      | none => simp [he] at h
      | some y =>
        have := escaped_length he
        simp only [he, Option.map_some, Option.some.injEq] at h
        subst h; simp; omega

theorem countNum_length {s : Str} {x : Nat × Str} (h : countNum s = some x) : x.2.length ≤ s.length := by
  simp only [countNum] at h
  split_ifs at h
  cases h
  exact (List.dropWhile_suffix _).length_le

theorem countEnd_length (lo : Nat) (hi : Option Nat) (s : Str) : (countEnd lo hi s).2.length ≤ s.length := by
  rw [countEnd]; split <;> simp

theorem countedOp_length {s : Str} {x : Repeat × Str} (h : countedOp s = some x) : x.2.length ≤ s.length := by
  rw [countedOp] at h
  cases h1 : countNum s with
  | none => simp [h1] at h
  | some y =>
    obtain ⟨lo, u⟩ := y
    have l1 := countNum_length h1
    simp only [h1] at h l1
    split_ifs at h
    · cases h
      exact (countEnd_length _ _ _).trans (by simp; omega)
    · cases h
      exact (countEnd_length _ _ _).trans (by simp; omega)
    · cases h2 : countNum u.tail with
      | none => simp [h2] at h
      | some z =>
        obtain ⟨hi, v⟩ := z
        have l2 := countNum_length h2
        simp only [h2] at h l2
        split_ifs at h
        cases h
        simp at l2
        exact (countEnd_length _ _ _).trans (by simp; omega)

theorem repeatOp_length {s : Str} {x : Repeat × Str} (h : repeatOp s = some x) : x.2.length < s.length := by
  cases s with
  | nil => simp [repeatOp] at h
  | cons c s =>
    have hcnt : ((countedOp s).getD (.other, s)).2.length ≤ s.length := by
      cases hc : countedOp s with
      | none => simp
      | some y => exact countedOp_length hc
    rw [repeatOp] at h
    split_ifs at h <;> (simp only [Option.some.injEq] at h; subst h; simp)
    all_goals omega

theorem quantifier_length {r : Rx} {s : Str} {x : Rx × Str} (h : quantifier r s = some x) :
    x.2.length ≤ s.length := by
  rw [quantifier] at h
  match hr : repeatOp s with
  | none => simp only [hr, Option.some.injEq] at h; subst h; simp
  | some (o, u) =>
    have := repeatOp_length hr
    cases o <;> simp only [hr] at h <;> try split_ifs at h
    all_goals first
      | (simp only [Option.some.injEq] at h; subst h; simp at this ⊢; omega)
      | simp at h

/-- what is read with some fuel is read with any fuel above a bound in the length of the text -/
theorem parse_fuel (da : Bool) (n : Nat) :
    (∀ s x, parseAlts da n s = some x → x.2.length ≤ s.length ∧ ∀ m, 3 * s.length + 3 ≤ m → parseAlts da m s = some x) ∧
    (∀ s x, parseConcat da n s = some x → x.2.length ≤ s.length ∧
      ∀ m, 3 * s.length + 2 ≤ m → parseConcat da m s = some x) ∧
    (∀ s x, parseAtom da n s = some x → x.2.length < s.length ∧ ∀ m, 3 * s.length + 1 ≤ m → parseAtom da m s = some x) := by
  induction n with
  | zero =>
    refine ⟨fun s x h => ?_, fun s x h => ?_, fun s x h => ?_⟩
    · simp [parseAlts] at h
    · simp [parseConcat] at h
    · simp [parseAtom] at h
  | succ n ih =>
    obtain ⟨ihA, ihC, ihT⟩ := ih
    refine ⟨fun s x h => ?_, fun s x h => ?_, fun s x h => ?_⟩
    · rw [parseAlts] at h
      cases hc : parseConcat da n s with
      | none => simp [hc] at h
      | some y =>
        obtain ⟨l1, f1⟩ := ihC s y hc
        simp only [hc] at h
        split at h
        · rename_i hp
          have hne := ne_nil_of_peek hp
          have ht : y.2.tail.length + 1 = y.2.length := by
            cases hy : y.2 with
            | nil => exact absurd hy hne
            | cons _ _ => simp
          cases ha : parseAlts da n y.2.tail with
          | none => simp [ha] at h
          | some z =>
            obtain ⟨l2, f2⟩ := ihA _ z ha
            simp only [ha, Option.some.injEq] at h
            subst h
            refine ⟨by simp; omega, fun m hm => ?_⟩
            obtain ⟨m, rfl⟩ : ∃ k, m = k + 1 := ⟨m - 1, by omega⟩
            rw [parseAlts]
            simp only [f1 m (by omega), hp, if_true, f2 m (by omega)]
        · rename_i hp
          simp only [Option.some.injEq] at h
          subst h
          refine ⟨l1, fun m hm => ?_⟩
          obtain ⟨m, rfl⟩ : ∃ k, m = k + 1 := ⟨m - 1, by omega⟩
          rw [parseAlts]
          simp only [f1 m (by omega)]
          rw [if_neg hp]
    · rw [parseConcat] at h
      split at h
      · rename_i hp
        simp only [Option.some.injEq] at h
        subst h
        refine ⟨Nat.le_refl _, fun m hm => ?_⟩
        obtain ⟨m, rfl⟩ : ∃ k, m = k + 1 := ⟨m - 1, by omega⟩
        rw [parseConcat, if_pos hp]
      · rename_i hp
        cases ha : parseAtom da n s with
        | none => simp [ha] at h
        | some y =>
          obtain ⟨l1, f1⟩ := ihT s y ha
          simp only [ha] at h
          cases hq : quantifier y.1 y.2 with
          | none => simp [hq] at h
          | some z =>
            have l2 := quantifier_length hq
            simp only [hq] at h
            cases hc : parseConcat da n z.2 with
            | none => simp [hc] at h
            | some w =>
              obtain ⟨l3, f3⟩ := ihC _ w hc
              simp only [hc, Option.some.injEq] at h
              subst h
              refine ⟨by simp; omega, fun m hm => ?_⟩
              obtain ⟨m, rfl⟩ : ∃ k, m = k + 1 := ⟨m - 1, by omega⟩
              rw [parseConcat, if_neg hp]
              simp only [f1 m (by omega), hq, f3 m (by omega)]
    · rw [parseAtom] at h
      split at h
      · rename_i hp
        have hne := ne_nil_of_peek hp
        have ht : s.tail.length + 1 = s.length := by
          cases s with
          | nil => exact absurd rfl hne
          | cons _ _ => simp
        cases hg : groupStart s.tail with
        | none => simp [hg] at h
        | some g =>
        have hgl := groupStart_length hg
        simp only [hg] at h
        cases ha : parseAlts da n g with
        | none => simp [ha] at h
        | some y =>
          obtain ⟨l1, f1⟩ := ihA _ y ha
          simp only [ha] at h
          split at h
          · rename_i hc
            simp only [Option.some.injEq] at h
            subst h
            refine ⟨by simp; omega, fun m hm => ?_⟩
            obtain ⟨m, rfl⟩ : ∃ k, m = k + 1 := ⟨m - 1, by omega⟩
            rw [parseAtom, if_pos hp]
            simp only [hg, f1 m (by omega), hc, if_true]
          · simp at h
      · rename_i hp
        refine ⟨single_length h, fun m hm => ?_⟩
        obtain ⟨m, rfl⟩ : ∃ k, m = k + 1 := ⟨m - 1, by omega⟩
        rw [parseAtom, if_neg hp, h]

/-- **C64** the bound of the model on the recursion does not matter: a text that is read with any bound is read -/
theorem C64_fuel (n : Nat) (s : Str) (rs : List Rx) (h : parseAlts false n s = some (rs, [])) :
    parse s = some (.alts rs) := by
  rw [parse, ((parse_fuel false n).1 s _ h).2 (fuelFor s) (Nat.le_refl _)]

end RegexSyntax
end Syntaxis
