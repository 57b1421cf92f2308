import Verif.Model.Template
import Verif.Model.Source
import Verif.Spec.RustText
import Verif.Props.Shipped

/-!
# C66: the source of the generated lexer

The rendered template, readFrom as Rust reads it, contains exactly the regexes, names and constants of the lexer
data, provided no regex contains `"####` or a carriage return.
-/

namespace Syntaxis

open Rust

/-! ### reading pieces -/

theorem read_append (m : Mode) (a b : Str) :
    readFrom m (a ++ b) = ((readFrom m a).1 ++ (readFrom (readFrom m a).2 b).1, (readFrom (readFrom m a).2 b).2) := by
  induction a generalizing m with
  | nil => simp [readFrom]
  | cons c a ih => simp [readFrom, ih]

theorem read_word {x w : Str} (h : ∀ c ∈ w, isWord c = true) : readFrom (.code x) w = ([], .code (x ++ w)) := by
  induction w generalizing x with
  | nil => simp [readFrom]
  | cons c w ih =>
    have hc : isWord c = true := h c (by simp)
    simp [readFrom, step, hc, ih (fun d hd => h d (by simp [hd]))]

/-- a word ends where another character follows -/
theorem read_flush {w : Str} {c : Char} {s : Str} (hc : isWord c = false) (h1 : c ≠ '"') (h2 : c ≠ '#') :
    readFrom (.code w) (c :: s) = (flush w ++ (readFrom (.code []) (c :: s)).1, (readFrom (.code []) (c :: s)).2) := by
  simp [readFrom, step, hc, h1, h2, flush]

theorem read_comment {w : Str} (h : ∀ c ∈ w, c ≠ '\n') : readFrom .comment w = ([], .comment) := by
  induction w with
  | nil => rfl
  | cons c w ih =>
    have hc : c ≠ '\n' := h c (by simp)
    simp [readFrom, step, hc, ih (fun d hd => h d (by simp [hd]))]

theorem read_str {x w : Str} (h : ∀ c ∈ w, c ≠ '"' ∧ c ≠ '\\') : readFrom (.str x) w = ([], .str (x ++ w)) := by
  induction w generalizing x with
  | nil => simp [readFrom]
  | cons c w ih =>
    have hc := h c (by simp)
    simp [readFrom, step, hc, ih (fun d hd => h d (by simp [hd]))]

/-- the end of a raw string with `n` hashes -/
def rawStop (n : Nat) : Str := '"' :: List.replicate n '#'

/-- in a raw string whose content so far is `s` -/
def InRaw (n : Nat) (s : Str) (m : Mode) : Prop :=
  m = .raw n s ∨ ∃ s' k, s = s' ++ rawStop k ∧ k < n ∧ m = .rawEnd n s' k

theorem replicate_snoc (k : Nat) : List.replicate (k + 1) '#' = List.replicate k '#' ++ ['#'] :=
  List.replicate_succ'

theorem rawStop_snoc (k : Nat) : rawStop (k + 1) = rawStop k ++ ['#'] := by
  simp only [rawStop, replicate_snoc, List.cons_append]

/-- as long as the end mark has not occurred the reader collects the content -/
theorem read_raw {n : Nat} (hn : 0 < n) {s : Str} (hcr : '\r' ∉ s) (h : ¬ rawStop n <:+: s) :
    (readFrom (.raw n []) s).1 = [] ∧ InRaw n s (readFrom (.raw n []) s).2 := by
  induction s using List.reverseRecOn with
  | nil => exact ⟨rfl, Or.inl rfl⟩
  | append_singleton s c ih =>
    simp only [List.mem_append, List.mem_singleton, not_or] at hcr
    obtain ⟨h1, h2⟩ := ih hcr.1 (fun hi => h (hi.trans (List.infix_append' [] s [c])))
    have hcr' : c ≠ '\r' := fun e => hcr.2 e.symm
    rw [read_append, h1]
    rcases h2 with h2 | ⟨s', k, rfl, hk, h2⟩
    · rw [h2]
      by_cases hq : c = '"'
      · subst hq
        simp only [readFrom, step, if_pos, if_neg (Nat.ne_of_gt hn), List.append_nil]
        exact ⟨trivial, Or.inr ⟨s, 0, rfl, hn, rfl⟩⟩
      · simp only [readFrom, step, if_neg hq, if_neg hcr', List.append_nil]
        exact ⟨trivial, Or.inl rfl⟩
    · rw [h2]
      by_cases hh : c = '#'
      · subst hh
        by_cases hkn : k + 1 = n
        · exact absurd ⟨s', [], by rw [← hkn, rawStop_snoc]; simp⟩ h
        · simp only [readFrom, step, if_pos, if_neg hkn, List.append_nil]
          exact ⟨trivial, Or.inr ⟨s', k + 1, by rw [rawStop_snoc]; simp, by omega, rfl⟩⟩
      · by_cases hq : c = '"'
        · subst hq
          simp only [readFrom, step, if_neg hh, if_pos, List.append_nil]
          exact ⟨trivial, Or.inr ⟨s' ++ rawStop k, 0, rfl, hn, rfl⟩⟩
        · simp only [readFrom, step, if_neg hh, if_neg hq, if_neg hcr', List.append_nil]
          exact ⟨trivial, Or.inl (by simp [rawStop])⟩

theorem read_hashes {n j : Nat} {s : Str} (k : Nat) (h : j + k = n) (hj : 0 < j) :
    readFrom (.rawEnd n s k) (List.replicate j '#') = ([.lit s], .code []) := by
  induction j generalizing k with
  | zero => omega
  | succ j ih =>
    simp only [List.replicate_succ, readFrom, step, if_pos]
    by_cases hk : k + 1 = n
    · have : j = 0 := by omega
      subst this
      simp [hk, readFrom]
    · simp only [if_neg hk, List.nil_append]
      rw [ih (k + 1) (by omega) (by omega)]

/-- a raw string literal with an unproblematic content is readFrom as its content -/
theorem read_raw_stop {n : Nat} (hn : 0 < n) {s : Str} (hcr : '\r' ∉ s) (h : ¬ rawStop n <:+: s) :
    readFrom (.raw n []) (s ++ rawStop n) = ([.lit s], .code []) := by
  obtain ⟨h1, h2⟩ := read_raw hn hcr h
  rw [read_append, h1]
  have h3 : readFrom (.rawEnd n s 0) (List.replicate n '#') = ([.lit s], .code []) := read_hashes 0 (by omega) hn
  rcases h2 with h2 | ⟨s', k, rfl, hk, h2⟩
  · simp only [h2, rawStop, readFrom, step, if_pos, if_neg (Nat.ne_of_gt hn), h3]
    rfl
  · have h4 : step (.rawEnd n s' k) '"' = ([], .rawEnd n (s' ++ rawStop k) 0) := by
      simp [step, rawStop]
    rw [h2, rawStop, readFrom, h4]
    simp only [h3]
    rfl

/-- a content with the end mark is not readFrom back -/
theorem read_raw_broken {n : Nat} (hn : 0 < n) {s t : Str} (hcr : '\r' ∉ s) (h : rawStop n <:+: s) :
    ∃ a b, s = a ++ rawStop n ++ b ∧
      readFrom (.raw n []) (s ++ t) = (.lit a :: (readFrom (.code []) (b ++ t)).1, (readFrom (.code []) (b ++ t)).2) := by
  induction s using List.reverseRecOn generalizing t with
  | nil => simp [rawStop] at h
  | append_singleton s c ih =>
    simp only [List.mem_append, List.mem_singleton, not_or] at hcr
    by_cases hs : rawStop n <:+: s
    · obtain ⟨a, b, e, hr⟩ := ih (t := c :: t) hcr.1 hs
      refine ⟨a, b ++ [c], by rw [e]; simp, ?_⟩
      simpa using hr
    · obtain ⟨x, y, e⟩ := h
      have hy : y = [] := by
        rcases List.eq_nil_or_concat y with rfl | ⟨y', d, rfl⟩
        · rfl
        · exfalso
          rw [List.concat_eq_append, ← List.append_assoc] at e
          exact hs ⟨x, y', (List.append_inj' e rfl).1⟩
      subst hy
      rw [List.append_nil] at e
      have hx : ¬ rawStop n <:+: x := by
        intro hi
        obtain ⟨m, rfl⟩ : ∃ m, n = m + 1 := ⟨n - 1, by omega⟩
        rw [rawStop_snoc m, ← List.append_assoc] at e
        exact hs (hi.trans ⟨[], rawStop m, by simpa using (List.append_inj' e rfl).1⟩)
      have hcrx : '\r' ∉ x := by
        intro hm
        have : '\r' ∈ s ++ [c] := by rw [← e]; simp [hm]
        simp only [List.mem_append, List.mem_singleton] at this
        rcases this with h | h
        · exact hcr.1 h
        · exact hcr.2 h
      refine ⟨x, [], by rw [e]; simp, ?_⟩
      rw [← e, List.append_assoc, ← List.append_assoc x, read_append, read_raw_stop hn hcrx hx]
      simp

/-! ### the constants -/

theorem declaration_none {t : Tok} {ts : List Tok} (h : t ≠ .word "const".toList) : declaration (t :: ts) = none := by
  unfold declaration
  split
  · rename_i k x c t' e n s ts' heq
    simp only [List.cons.injEq] at heq
    rw [if_neg]
    rintro ⟨rfl, _⟩
    exact h heq.1
  · rfl

theorem constants_skip {a b : List Tok} (h : .word "const".toList ∉ a) : constants (a ++ b) = constants b := by
  induction a with
  | nil => rfl
  | cons t a ih =>
    simp only [List.mem_cons, not_or] at h
    rw [List.cons_append, constants, declaration_none (fun e => h.1 e.symm), ih h.2]
    rfl

/-- the tokens of a declaration up to the semicolon -/
def declToks (x n : Str) : List Tok :=
  [.word "const".toList, .word x, .punct ':', .word "usize".toList, .punct '=', .word n]

theorem declaration_some {ts : List Tok} {x n : Str} :
    declaration ts = some (x, n) ↔ declToks x n ++ [.punct ';'] <+: ts := by
  constructor
  · intro h
    unfold declaration at h
    split at h
    · rename_i k x' c t e n' s r
      split at h
      · rename_i hc
        obtain ⟨rfl, rfl, rfl, rfl, rfl⟩ := hc
        simp only [Option.some.injEq, Prod.mk.injEq] at h
        obtain ⟨rfl, rfl⟩ := h
        exact ⟨r, rfl⟩
      · cases h
    · cases h
  · rintro ⟨r, rfl⟩
    simp [declToks, declaration]

theorem prefix_semi {x n : Str} {p b : List Tok} (h : declToks x n ++ [.punct ';'] <+: p ++ .punct ';' :: b) :
    declToks x n ++ [.punct ';'] <+: p ++ [.punct ';'] := by
  by_cases hp : 6 ≤ p.length
  · refine List.prefix_of_prefix_length_le h ⟨b, by simp⟩ ?_
    simp [declToks]; omega
  · exfalso
    obtain ⟨r, hr⟩ := h
    have h1 : (p ++ .punct ';' :: b)[p.length]? = some (.punct ';') := by simp
    rw [← hr] at h1
    have : p.length = 0 ∨ p.length = 1 ∨ p.length = 2 ∨ p.length = 3 ∨ p.length = 4 ∨ p.length = 5 := by omega
    rcases this with e | e | e | e | e | e <;> rw [e] at h1 <;> simp [declToks] at h1

theorem declaration_semi (p b : List Tok) :
    declaration (p ++ .punct ';' :: b) = declaration (p ++ [.punct ';']) := by
  apply Option.ext
  rintro ⟨x, n⟩
  rw [declaration_some, declaration_some]
  exact ⟨prefix_semi, fun h => h.trans ⟨b, by simp⟩⟩

theorem constants_semi (a b : List Tok) :
    constants (a ++ .punct ';' :: b) = constants (a ++ [.punct ';']) ++ constants b := by
  induction a with
  | nil => simp [constants, declaration]
  | cons t a ih =>
    have := declaration_semi (t :: a) b
    simp only [List.cons_append] at this
    simp only [List.cons_append, constants, this, ih, List.append_assoc]

theorem constants_nil {a : List Tok} (h : .word "const".toList ∉ a) : constants a = [] := by
  simpa [constants] using constants_skip (b := []) h

theorem literals_append (a b : List Tok) : literals (a ++ b) = literals a ++ literals b := by
  simp [literals]

/-! ### the rendered text -/

section render
open Template

/-- what is read in code -/
abbrev code (s : Str) : List Tok := (readFrom (.code []) s).1

/-- the tokens of a constant -/
def constToks (d : LexerRuleData) : List Tok :=
  .word "pub".toList :: (declToks d.tokenName (Vocabulary.natToString d.tokenType) ++ [.punct ';'])

/-- the tokens of a regex -/
def regexToks (d : LexerRuleData) : List Tok :=
  [.word "Regex".toList, .punct ':', .punct ':', .word "new".toList, .punct '(', .lit d.regex, .punct ')',
    .punct '.', .word "unwrap".toList, .punct '(', .punct ')', .punct ',']

/-- the tokens of a name -/
def nameToks (d : LexerRuleData) : List Tok := [.lit d.tokenName, .punct ',']

/-- a nonempty word -/
def IsWord (w : Str) : Prop := w ≠ [] ∧ ∀ c ∈ w, isWord c = true

theorem isWord_plain {c : Char} (h : isWord c = true) : c ≠ '"' ∧ c ≠ '\\' ∧ c ≠ '\n' ∧ c ≠ '\r' := by
  refine ⟨?_, ?_, ?_, ?_⟩ <;> rintro rfl <;> revert h <;> decide

theorem flush_word {w : Str} (h : w ≠ []) : flush w = [.word w] := by simp [flush, h]

theorem natToString_word (n : Nat) : IsWord (Vocabulary.natToString n) := by
  constructor
  · intro h
    have := Nat.length_toDigits_pos (b := 10) (n := n)
    rw [Vocabulary.natToString] at h
    rw [h] at this
    simp at this
  · intro c hc
    have : c.isDigit = true := Nat.isDigit_of_mem_toDigits (b := 10) (by omega) (by omega) hc
    simp [isWord, Char.isAlphanum, this]

theorem read_const {d : LexerRuleData} (hd : IsWord d.tokenName) :
    readFrom (.code []) (constLine d) = (constToks d, .code []) := by
  have e1 : readFrom (.code []) constA = ([.word "pub".toList, .word "const".toList], .code []) := by decide +kernel
  have e2 : readFrom (.code []) constB = ([.punct ':', .word "usize".toList, .punct '='], .code []) := by
    decide +kernel
  have e3 : readFrom (.code []) constC = ([.punct ';'], .code []) := by decide +kernel
  obtain ⟨b, hb⟩ : ∃ b, constB = ':' :: b := ⟨_, rfl⟩
  obtain ⟨c, hc⟩ : ∃ c, constC = ';' :: c := ⟨_, rfl⟩
  have e4 : ∀ w, readFrom (.code w) constB = (flush w ++ [.punct ':', .word "usize".toList, .punct '='], .code []) := by
    intro w
    rw [hb, read_flush (by decide) (by decide) (by decide), ← hb, e2]
  have e5 : ∀ w, readFrom (.code w) constC = (flush w ++ [.punct ';'], .code []) := by
    intro w
    rw [hc, read_flush (by decide) (by decide) (by decide), ← hc, e3]
  have hn := natToString_word d.tokenType
  simp only [constLine, List.append_assoc]
  rw [read_append, e1, read_append, read_word hd.2, read_append, e4, read_append, read_word hn.2, e5]
  simp [flush_word hd.1, flush_word hn.1, constToks, declToks]

theorem read_nameItem {d : LexerRuleData} (hd : IsWord d.tokenName) :
    readFrom (.code []) (nameItem d) = (nameToks d, .code []) := by
  have e1 : readFrom (.code []) nameA = ([], .str []) := by decide +kernel
  have e2 : ∀ s, readFrom (.str s) nameB = ([.lit s, .punct ','], .code []) := by
    intro s
    have : nameB = ['"', ',', ' '] := by decide +kernel
    rw [this]
    simp [readFrom, step, isWord, codeStep, isSpace, flush]
  simp only [nameItem, List.append_assoc]
  rw [read_append, e1, read_append, read_str (fun c hc => ⟨(isWord_plain (hd.2 c hc)).1,
    (isWord_plain (hd.2 c hc)).2.1⟩), e2]
  rfl

/-- the regex can be written as a raw string with four hashes -/
def RawOk (r : Str) : Prop := '\r' ∉ r ∧ ¬ rawStop 4 <:+: r

theorem read_regex {d : LexerRuleData} (hd : IsWord d.tokenName) (hr : RawOk d.regex) :
    readFrom .comment (regexLine d) = (regexToks d, .comment) := by
  have e1 : readFrom .comment regexA = ([.word "Regex".toList, .punct ':', .punct ':', .word "new".toList,
    .punct '('], .raw 4 []) := by decide +kernel
  obtain ⟨b, hb, e2⟩ : ∃ b, regexB = rawStop 4 ++ b ∧ readFrom (.code []) b = ([.punct ')', .punct '.',
      .word "unwrap".toList, .punct '(', .punct ')', .punct ','], .comment) :=
    ⟨regexB.drop 5, by decide +kernel, by decide +kernel⟩
  simp only [regexLine, List.append_assoc]
  rw [read_append, e1, hb, List.append_assoc, ← List.append_assoc d.regex, read_append,
    read_raw_stop (by omega) hr.1 hr.2, read_append, e2,
    read_comment (fun c hc => (isWord_plain (hd.2 c hc)).2.2.1)]
  simp [regexToks]

theorem read_flatMap {m : Mode} {f : LexerRuleData → Str} {g : LexerRuleData → List Tok}
    {data : List LexerRuleData} (h : ∀ d ∈ data, readFrom m (f d) = (g d, m)) :
    readFrom m (data.flatMap f) = (data.flatMap g, m) := by
  induction data with
  | nil => rfl
  | cons d data ih =>
    simp only [List.flatMap_cons]
    rw [read_append, h d (by simp), ih (fun d' hd' => h d' (by simp [hd']))]

/-- the name of the lexer followed by `Lexer` and more -/
theorem read_named {name chunk r : Str} {d : Char} (hn : ∀ c ∈ name, isWord c = true)
    (he : chunk = "Lexer".toList ++ d :: r) (hd : isWord d = false ∧ d ≠ '"' ∧ d ≠ '#')
    (hm : (readFrom (.code []) (d :: r)).2 = .code []) :
    readFrom (.code []) (name ++ chunk) =
      (.word (name ++ "Lexer".toList) :: code (d :: r), .code []) := by
  have hl : ∀ c ∈ "Lexer".toList, isWord c = true := by decide
  rw [he, read_append, read_word hn, read_append, read_word hl, read_flush hd.1 hd.2.1 hd.2.2, hm]
  have : flush (name ++ "Lexer".toList) = [.word (name ++ "Lexer".toList)] := flush_word (by simp)
  simp only [List.nil_append, this, List.singleton_append]

/-- the tokens of the rendered source -/
def renderToks (name : Str) (data : List LexerRuleData) : List Tok :=
  code header ++ (.word (name ++ "Lexer".toList) :: code (structBody.drop 5)) ++
    (.word (name ++ "Lexer".toList) :: code (implHead.drop 5)) ++ data.flatMap constToks ++
    code newHead ++ data.flatMap regexToks ++ code namesHead ++ data.flatMap nameToks ++
    code newTail ++ (.word (name ++ "Lexer".toList) :: code (newEnd.drop 5)) ++
    (.word (name ++ "Lexer".toList) :: code (scanBody1.drop 5)) ++ code scanBody2 ++ code scanBody3 ++
    code scanBody4 ++ code scanBody5 ++
    (.word (name ++ "Lexer".toList) :: code (scanEnd.drop 5))

theorem read_nl {m : Mode} (hm : m = .code [] ∨ m = .comment) (s : Str) :
    readFrom m ('\n' :: s) = readFrom (.code []) s := by
  rcases hm with rfl | rfl
  · simp [readFrom, step, isWord, codeStep, isSpace, flush]
  · simp [readFrom, step]

theorem normalise_id {s : Str} (h : '\r' ∉ s) : normalise s = s := by
  induction s with
  | nil => rfl
  | cons c s ih =>
    simp only [List.mem_cons, not_or] at h
    unfold normalise
    split
    · rename_i heq; cases heq
    · rename_i heq
      simp only [List.cons.injEq] at heq
      exact absurd heq.1.symm h.1
    · rename_i heq
      simp only [List.cons.injEq] at heq
      obtain ⟨rfl, rfl⟩ := heq
      rw [ih h.2]

/-- the data can be rendered: names are words, regexes can be raw strings -/
def DataOk (data : List LexerRuleData) : Prop := ∀ d ∈ data, IsWord d.tokenName ∧ RawOk d.regex

/-- no carriage return -/
abbrev NoCr (s : Str) : Prop := '\r' ∉ s

set_option synthInstance.maxSize 2000 in
set_option synthInstance.maxHeartbeats 400000 in
theorem static_facts :
    ((readFrom (.code []) header).2 = .code [] ∧ (readFrom (.code []) newHead).2 = .code [] ∧
    (readFrom (.code []) namesHead).2 = .code [] ∧ (readFrom (.code []) newTail).2 = .code [] ∧
    (readFrom (.code []) scanBody2).2 = .code [] ∧ (readFrom (.code []) scanBody3).2 = .code [] ∧
    (readFrom (.code []) scanBody4).2 = .code [] ∧ (readFrom (.code []) scanBody5).2 = .code []) ∧
    ((structBody = "Lexer".toList ++ ' ' :: structBody.drop 6 ∧
        (readFrom (.code []) (structBody.drop 5)).2 = .code []) ∧
      (implHead = "Lexer".toList ++ ' ' :: implHead.drop 6 ∧ (readFrom (.code []) (implHead.drop 5)).2 = .code []) ∧
      (newEnd = "Lexer".toList ++ ' ' :: newEnd.drop 6 ∧ (readFrom (.code []) (newEnd.drop 5)).2 = .code []) ∧
      (scanBody1 = "Lexer".toList ++ ' ' :: scanBody1.drop 6 ∧
        (readFrom (.code []) (scanBody1.drop 5)).2 = .code []) ∧
      (scanEnd = "Lexer".toList ++ ':' :: scanEnd.drop 6 ∧ (readFrom (.code []) (scanEnd.drop 5)).2 = .code [])) ∧
    (literals (code header) = [] ∧ literals (code (structBody.drop 5)) = [] ∧
    literals (code (implHead.drop 5)) = [] ∧ literals (code newHead) = [] ∧
    literals (code namesHead) = ["_START".toList, "_STOP".toList] ∧ literals (code newTail) = [] ∧
    literals (code (newEnd.drop 5)) = [] ∧
    literals (code (scanBody1.drop 5)) ++ literals (code scanBody2) ++ literals (code scanBody3) ++
      literals (code scanBody4) ++ literals (code scanBody5) = ["_STOP".toList, "_STOP".toList, "\n".toList] ∧
    literals (code (scanEnd.drop 5)) = ["{}".toList]) ∧
    (.word "const".toList ∉ code header ++ code (structBody.drop 5) ∧
    constants (code (implHead.drop 5)) = [("_START".toList, "0".toList), ("_STOP".toList, "1".toList)] ∧
    (code (implHead.drop 5)).getLast? = some (.punct ';') ∧
    .word "const".toList ∉ code newHead ++ code namesHead ++ code newTail ++ code (newEnd.drop 5) ++
      code (scanBody1.drop 5) ++ code scanBody2 ++ code scanBody3 ++ code scanBody4 ++ code scanBody5 ++
      code (scanEnd.drop 5)) ∧
    ((NoCr header ∧ NoCr structBody ∧ NoCr implHead ∧ NoCr newHead ∧ NoCr namesHead ∧ NoCr newTail ∧
    NoCr newEnd) ∧ NoCr scanBody1 ∧ NoCr scanBody2 ∧ NoCr scanBody3 ∧ NoCr scanBody4 ∧ NoCr scanBody5 ∧
    NoCr scanEnd) ∧
    namesHead = '\n' :: namesHead.drop 1 ∧
    (code (scanEnd.drop 5)).take 3 = [.punct ':', .punct ':', .word "WHITE_SPACE".toList] := by decide +kernel

/-- a static piece that continues the name of the lexer -/
def Continues (chunk : Str) : Prop :=
  (∃ d r, chunk = "Lexer".toList ++ d :: r ∧ (isWord d = false ∧ d ≠ '"' ∧ d ≠ '#')) ∧
    (readFrom (.code []) (chunk.drop 5)).2 = .code []

theorem static_continues : Continues structBody ∧ Continues implHead ∧ Continues newEnd ∧ Continues scanBody1 ∧
    Continues scanEnd := by
  obtain ⟨_, ⟨h1, h2, h3, h4, h5⟩, _⟩ := static_facts
  exact ⟨⟨⟨_, _, h1.1, by decide⟩, h1.2⟩, ⟨⟨_, _, h2.1, by decide⟩, h2.2⟩, ⟨⟨_, _, h3.1, by decide⟩, h3.2⟩,
    ⟨⟨_, _, h4.1, by decide⟩, h4.2⟩, ⟨⟨_, _, h5.1, by decide⟩, h5.2⟩⟩

theorem Continues.read {name chunk : Str} (hn : ∀ c ∈ name, isWord c = true) (h : Continues chunk) (rest : Str) :
    readFrom (.code []) (name ++ (chunk ++ rest)) =
      ((.word (name ++ "Lexer".toList) :: code (chunk.drop 5)) ++ (readFrom (.code []) rest).1,
        (readFrom (.code []) rest).2) := by
  obtain ⟨⟨d, r, he, hd'⟩, hm⟩ := h
  have hdrop : chunk.drop 5 = d :: r := by rw [he]; rfl
  rw [hdrop] at hm ⊢
  rw [← List.append_assoc, read_append, read_named hn he hd' hm]

theorem read_static {chunk : Str} (h : (readFrom (.code []) chunk).2 = .code []) (rest : Str) :
    readFrom (.code []) (chunk ++ rest) = (code chunk ++ (readFrom (.code []) rest).1, (readFrom (.code []) rest).2) := by
  rw [read_append, h]

theorem read_loop {m : Mode} {f : LexerRuleData → Str} {g : LexerRuleData → List Tok}
    {data : List LexerRuleData} (h : ∀ d ∈ data, readFrom m (f d) = (g d, m)) (rest : Str) :
    readFrom m (data.flatMap f ++ rest) = (data.flatMap g ++ (readFrom m rest).1, (readFrom m rest).2) := by
  rw [read_append, read_flatMap h]

theorem read_regexes {data : List LexerRuleData} (hd : DataOk data) {chunk : Str} (hc : ∃ s, chunk = '\n' :: s)
    (hm : (readFrom (.code []) chunk).2 = .code []) (rest : Str) :
    readFrom (.code []) (data.flatMap regexLine ++ (chunk ++ rest)) =
      (data.flatMap regexToks ++ (code chunk ++ (readFrom (.code []) rest).1), (readFrom (.code []) rest).2) := by
  obtain ⟨s', rfl⟩ := hc
  have hs : ∃ s, data.flatMap regexLine ++ ('\n' :: s' ++ rest) = '\n' :: s := by
    cases data with
    | nil => exact ⟨_, rfl⟩
    | cons d data => exact ⟨_, rfl⟩
  obtain ⟨s, hs⟩ := hs
  have e1 : readFrom (.code []) (data.flatMap regexLine ++ ('\n' :: s' ++ rest)) =
      readFrom .comment (data.flatMap regexLine ++ ('\n' :: s' ++ rest)) := by
    rw [hs, read_nl (Or.inl rfl), read_nl (Or.inr rfl)]
  have e2 : readFrom .comment ('\n' :: s' ++ rest) = readFrom (.code []) ('\n' :: s' ++ rest) := by
    rw [List.cons_append, read_nl (Or.inl rfl), read_nl (Or.inr rfl)]
  rw [e1, read_loop (fun d hd' => read_regex (hd d hd').1 (hd d hd').2), e2, read_static hm]

theorem read_pieces {name : Str} {data : List LexerRuleData} (hn : ∀ c ∈ name, isWord c = true)
    (hd : DataOk data) {a b c d e f g h i2 i3 i4 i5 j : Str}
    (ha : (readFrom (.code []) a).2 = .code []) (hb : Continues b) (hc : Continues c)
    (hdd : (readFrom (.code []) d).2 = .code []) (he : (readFrom (.code []) e).2 = .code [])
    (he' : ∃ s, e = '\n' :: s) (hf : (readFrom (.code []) f).2 = .code []) (hg : Continues g)
    (hh : Continues h) (h2 : (readFrom (.code []) i2).2 = .code []) (h3 : (readFrom (.code []) i3).2 = .code [])
    (h4 : (readFrom (.code []) i4).2 = .code []) (h5 : (readFrom (.code []) i5).2 = .code []) (hj : Continues j) :
    readFrom (.code []) (a ++ name ++ b ++ name ++ c ++ data.flatMap constLine ++ d ++
      data.flatMap regexLine ++ e ++ data.flatMap nameItem ++ f ++ name ++ g ++ name ++ h ++ i2 ++ i3 ++
      i4 ++ i5 ++ name ++ j) =
    (code a ++ (.word (name ++ "Lexer".toList) :: code (b.drop 5)) ++
      (.word (name ++ "Lexer".toList) :: code (c.drop 5)) ++ data.flatMap constToks ++
      code d ++ data.flatMap regexToks ++ code e ++ data.flatMap nameToks ++
      code f ++ (.word (name ++ "Lexer".toList) :: code (g.drop 5)) ++
      (.word (name ++ "Lexer".toList) :: code (h.drop 5)) ++ code i2 ++ code i3 ++
      code i4 ++ code i5 ++ (.word (name ++ "Lexer".toList) :: code (j.drop 5)), .code []) := by
  simp only [List.append_assoc]
  have hj' := hj.read hn []
  simp only [List.append_nil, readFrom] at hj'
  rw [read_static ha, hb.read hn, hc.read hn, read_loop (fun d hd' => read_const (hd d hd').1), read_static hdd,
    read_regexes hd he' he, read_loop (fun d hd' => read_nameItem (hd d hd').1), read_static hf, hg.read hn,
    hh.read hn, read_static h2, read_static h3, read_static h4, read_static h5, hj']

theorem read_render {name : Str} {data : List LexerRuleData} (hn : ∀ c ∈ name, isWord c = true)
    (hd : DataOk data) : readFrom (.code []) (render name data) = (renderToks name data, .code []) := by
  obtain ⟨⟨m0, m1, m2, m3, m4, m5, m6, m7⟩, _, _, _, _, hnl, _⟩ := static_facts
  obtain ⟨k1, k2, k3, k4, k5⟩ := static_continues
  exact read_pieces hn hd m0 k1 k2 m1 m2 ⟨_, hnl⟩ m3 k3 k4 m4 m5 m6 m7 k5

/-! ### what the static pieces contain -/

theorem NoCr.append {a b : Str} (ha : NoCr a) (hb : NoCr b) : NoCr (a ++ b) := by
  simp only [NoCr, List.mem_append, not_or]
  exact ⟨ha, hb⟩

theorem NoCr.flatMap {f : LexerRuleData → Str} {data : List LexerRuleData} (h : ∀ d ∈ data, NoCr (f d)) :
    NoCr (data.flatMap f) := by
  simp only [NoCr, List.mem_flatMap, not_exists, not_and]
  exact h

theorem loop_cr : NoCr constA ∧ NoCr constB ∧ NoCr constC ∧ NoCr regexA ∧ NoCr regexB ∧ NoCr nameA ∧ NoCr nameB := by
  decide +kernel

theorem word_cr {w : Str} (h : ∀ c ∈ w, isWord c = true) : '\r' ∉ w :=
  fun hm => (isWord_plain (h _ hm)).2.2.2 rfl

theorem regexLine_cr {d : LexerRuleData} (hd : IsWord d.tokenName) (hr : NoCr d.regex) : NoCr (regexLine d) := by
  obtain ⟨_, _, _, h4, h5, _, _⟩ := loop_cr
  exact ((h4.append hr).append h5).append (word_cr hd.2)

theorem render_cr {name : Str} {data : List LexerRuleData} (hn : ∀ c ∈ name, isWord c = true)
    (hd : DataOk data) : NoCr (render name data) := by
  obtain ⟨⟨h1, h2, h3, h4, h5, h6, h7⟩, h8, h9, h10, h11, h12, h13⟩ := static_facts.2.2.2.2.1
  obtain ⟨k1, k2, k3, _, _, k6, k7⟩ := loop_cr
  have hnm : NoCr name := word_cr hn
  have hc : NoCr (data.flatMap constLine) := NoCr.flatMap fun d hd' =>
    (((k1.append (word_cr (hd d hd').1.2)).append k2).append (word_cr (natToString_word d.tokenType).2)).append k3
  have hr : NoCr (data.flatMap regexLine) := NoCr.flatMap fun d hd' => regexLine_cr (hd d hd').1 (hd d hd').2.1
  have hm : NoCr (data.flatMap nameItem) := NoCr.flatMap fun d hd' =>
    (k6.append (word_cr (hd d hd').1.2)).append k7
  exact ((((((((((((((((((((h1.append hnm).append h2).append hnm).append h3).append hc).append h4).append hr).append
    h5).append hm).append h6).append hnm).append h7).append hnm).append h8).append h9).append h10).append
    h11).append h12).append hnm).append h13)

theorem literals_consts (data : List LexerRuleData) : literals (data.flatMap constToks) = [] := by
  induction data with
  | nil => rfl
  | cons d data ih => rw [List.flatMap_cons, literals_append, ih]; rfl

theorem literals_regexes (data : List LexerRuleData) : literals (data.flatMap regexToks) = data.map (·.regex) := by
  induction data with
  | nil => rfl
  | cons d data ih => rw [List.flatMap_cons, literals_append, ih]; rfl

theorem literals_names (data : List LexerRuleData) : literals (data.flatMap nameToks) = data.map (·.tokenName) := by
  induction data with
  | nil => rfl
  | cons d data ih => rw [List.flatMap_cons, literals_append, ih]; rfl

theorem literals_word (w : Str) (ts : List Tok) : literals (.word w :: ts) = literals ts := rfl

theorem constants_consts (data : List LexerRuleData) (rest : List Tok) :
    constants (data.flatMap constToks ++ rest) =
      data.map (fun d => (d.tokenName, Vocabulary.natToString d.tokenType)) ++ constants rest := by
  induction data with
  | nil => rfl
  | cons d data ih =>
    rw [List.flatMap_cons, List.append_assoc, constToks, List.cons_append, List.append_assoc, List.singleton_append,
      ← List.cons_append, constants_semi, ih, List.map_cons]
    have : constants (.word "pub".toList :: declToks d.tokenName (Vocabulary.natToString d.tokenType) ++
        [.punct ';']) = [(d.tokenName, Vocabulary.natToString d.tokenType)] := by
      simp [declToks, constants, declaration]
    rw [this]
    rfl

theorem tokens_render {name : Str} {data : List LexerRuleData} (hn : ∀ c ∈ name, isWord c = true)
    (hd : DataOk data) : tokens (render name data) = some (renderToks name data) := by
  rw [tokens, normalise_id (render_cr hn hd), read_render hn hd]
  simp [flush]

/-- **C66** the rendered source is lexically correct Rust; its string literals are the regexes of the lexer
data, the token names behind the two reserved ones, and four fixed ones; its constants are the token types.
Missing (false): regexes containing `"####` or a carriage return. -/
theorem C66_source_partial {name : Str} {data : List LexerRuleData} (hn : ∀ c ∈ name, isWord c = true)
    (hd : DataOk data) : ∃ ts, tokens (render name data) = some ts ∧
      literals ts = data.map (·.regex) ++ "_START".toList :: "_STOP".toList :: data.map (·.tokenName) ++
        ["_STOP".toList, "_STOP".toList, "\n".toList, "{}".toList] ∧
      constants ts = ("_START".toList, "0".toList) :: ("_STOP".toList, "1".toList) ::
        data.map (fun d => (d.tokenName, Vocabulary.natToString d.tokenType)) ∧
      mentions "WHITE_SPACE".toList ts := by
  refine ⟨renderToks name data, ?_, ?_, ?_, ?_⟩
  · rw [tokens, normalise_id (render_cr hn hd), read_render hn hd]
    simp [flush]
  · obtain ⟨l1, l2, l3, l4, l5, l6, l7, l8, l9⟩ := static_facts.2.2.1
    unfold renderToks
    simp only [literals_append, literals_word, l1, l2, l3, l4, l5, l6, l7, l9, literals_consts, literals_regexes,
      literals_names, List.nil_append, List.append_assoc]
    simp only [← List.append_assoc, l8]
    simp
  · obtain ⟨c1, c2, c3, c4⟩ := static_facts.2.2.2.1
    have hL : (Tok.word "const".toList) ≠ .word (name ++ "Lexer".toList) := by
      intro e
      simp only [Tok.word.injEq] at e
      have := congrArg List.getLast? e
      simp at this
    obtain ⟨q, hq⟩ : ∃ q, code (implHead.drop 5) = q ++ [.punct ';'] :=
      ⟨_, (List.dropLast_append_getLast? _ c3).symm⟩
    have hrt : .word "const".toList ∉ data.flatMap regexToks := by
      simp [regexToks]
    have hnt : .word "const".toList ∉ data.flatMap nameToks := by
      simp [nameToks]
    unfold renderToks
    generalize code header = x1 at *
    generalize code (structBody.drop 5) = x2 at *
    generalize code (implHead.drop 5) = x3 at *
    generalize code newHead = x4 at *
    generalize code namesHead = x5 at *
    generalize code newTail = x6 at *
    generalize code (newEnd.drop 5) = x7 at *
    generalize code (scanBody1.drop 5) = x8 at *
    generalize code scanBody2 = y2 at *
    generalize code scanBody3 = y3 at *
    generalize code scanBody4 = y4 at *
    generalize code scanBody5 = y5 at *
    generalize code (scanEnd.drop 5) = x9 at *
    generalize data.flatMap regexToks = z1 at *
    generalize data.flatMap nameToks = z2 at *
    subst hq
    simp only [List.mem_append, not_or] at c1 c4
    have e : x1 ++ (.word (name ++ "Lexer".toList) :: x2) ++
        (.word (name ++ "Lexer".toList) :: (q ++ [.punct ';'])) ++ data.flatMap constToks ++ x4 ++ z1 ++ x5 ++ z2 ++
        x6 ++ (.word (name ++ "Lexer".toList) :: x7) ++ (.word (name ++ "Lexer".toList) :: x8) ++ y2 ++ y3 ++
        y4 ++ y5 ++ (.word (name ++ "Lexer".toList) :: x9) =
      (x1 ++ (.word (name ++ "Lexer".toList) :: x2) ++ [.word (name ++ "Lexer".toList)]) ++ (q ++ .punct ';' ::
        (data.flatMap constToks ++ (x4 ++ z1 ++ x5 ++ z2 ++
        x6 ++ (.word (name ++ "Lexer".toList) :: x7) ++ (.word (name ++ "Lexer".toList) :: x8) ++ y2 ++ y3 ++
        y4 ++ y5 ++ (.word (name ++ "Lexer".toList) :: x9)))) := by
      simp
    rw [e, constants_skip, constants_semi, constants_consts, c2, constants_nil]
    · simp
    · simp only [List.mem_append, List.mem_cons, not_or]
      tauto
    · simp only [List.mem_append, List.mem_cons, not_or]
      exact ⟨⟨c1.1, hL, c1.2⟩, hL, by simp⟩
  · obtain ⟨r, hr⟩ : ∃ r, code (scanEnd.drop 5) =
        .punct ':' :: .punct ':' :: .word "WHITE_SPACE".toList :: r :=
      ⟨(code (scanEnd.drop 5)).drop 3, by
        conv_lhs => rw [← List.take_append_drop 3 (code (scanEnd.drop 5)), static_facts.2.2.2.2.2.2]
        rfl⟩
    unfold renderToks
    rw [hr]
    exact ⟨_, r, name ++ "Lexer".toList, rfl, ⟨name, rfl⟩⟩

theorem vector_facts :
    (∃ a, code newHead = a ++ [.word "let".toList, .word "regex_list".toList, .punct '=', .word "vec".toList,
      .punct '!', .punct '[']) ∧
    code namesHead = [.punct ']', .punct ';', .word "let".toList, .word "token_names".toList, .punct '=',
      .word "vec".toList, .punct '!', .punct '[', .lit "_START".toList, .punct ',', .lit "_STOP".toList, .punct ','] ∧
    code newTail = [.punct ']', .punct ';'] := by
  refine ⟨⟨(code newHead).take 13, ?_⟩, ?_, ?_⟩ <;> decide +kernel

/-- **C66** (shape) the regexes and the token names are the elements of the two vectors the lexer is made of. -/
theorem C66_vectors_partial {name : Str} {data : List LexerRuleData} (hn : ∀ c ∈ name, isWord c = true)
    (hd : DataOk data) : ∃ a b, tokens (render name data) = some (a ++
      (vector "regex_list".toList (data.map fun d => regexNew d.regex) ++
        vector "token_names".toList (("_START".toList :: "_STOP".toList :: data.map (·.tokenName)).map fun n => [.lit n])) ++
      b) := by
  obtain ⟨⟨a, h1⟩, h2, h3⟩ := vector_facts
  have e1 : data.flatMap regexToks = (data.map fun d => regexNew d.regex).flatMap (fun i => i ++ [.punct ',']) := by
    rw [List.flatMap_map]
    rfl
  have e2 : data.flatMap nameToks = ((data.map (·.tokenName)).map fun n => [Tok.lit n]).flatMap
      (fun i => i ++ [.punct ',']) := by
    rw [List.flatMap_map, List.flatMap_map]
    rfl
  rw [tokens_render hn hd]
  refine ⟨code header ++ (.word (name ++ "Lexer".toList) :: code (structBody.drop 5)) ++
    (.word (name ++ "Lexer".toList) :: code (implHead.drop 5)) ++ data.flatMap constToks ++ a,
    (.word (name ++ "Lexer".toList) :: code (newEnd.drop 5)) ++
    (.word (name ++ "Lexer".toList) :: code (scanBody1.drop 5)) ++ code scanBody2 ++ code scanBody3 ++
    code scanBody4 ++ code scanBody5 ++ (.word (name ++ "Lexer".toList) :: code (scanEnd.drop 5)), ?_⟩
  unfold renderToks vector
  rw [h1, h2, h3, e1, e2, List.map_cons, List.map_cons, List.flatMap_cons, List.flatMap_cons]
  simp only [List.append_assoc, List.cons_append, List.nil_append]

/-- **C66** a regex comes back from its line exactly if it does not contain `"####`. -/
theorem C66_regex_iff {d : LexerRuleData} (hd : IsWord d.tokenName) (hcr : '\r' ∉ d.regex) :
    (∃ ts, tokens (regexLine d) = some ts ∧ literals ts = [d.regex]) ↔ ¬ "\"####".toList <:+: d.regex := by
  have hstop : "\"####".toList = rawStop 4 := by decide
  have hno : '\r' ∉ regexLine d := regexLine_cr hd hcr
  have hnl : readFrom (.code []) (regexLine d) = readFrom .comment (regexLine d) := by
    obtain ⟨s, hs⟩ : ∃ s, regexLine d = '\n' :: s := ⟨_, rfl⟩
    rw [hs, read_nl (Or.inl rfl), read_nl (Or.inr rfl)]
  rw [hstop]
  constructor
  · rintro ⟨ts, h1, h2⟩ hi
    have e1 : readFrom .comment regexA = ([.word "Regex".toList, .punct ':', .punct ':', .word "new".toList,
      .punct '('], .raw 4 []) := by decide +kernel
    obtain ⟨a, b, e, hr⟩ := read_raw_broken (n := 4) (t := regexB ++ d.tokenName) (by omega) hcr hi
    rw [tokens, normalise_id hno, hnl, regexLine, List.append_assoc, List.append_assoc, read_append, e1, hr] at h1
    have hl : ∃ ts', ts = [.word "Regex".toList, .punct ':', .punct ':', .word "new".toList, .punct '('] ++
        .lit a :: ts' := by
      revert h1
      generalize readFrom (.code []) (b ++ (regexB ++ d.tokenName)) = x
      obtain ⟨x, m⟩ := x
      cases m <;> intro h1 <;> simp only [Option.some.injEq, reduceCtorEq] at h1
      · exact ⟨_, by rw [← h1]; simp; rfl⟩
      · exact ⟨_, by rw [← h1]⟩
    obtain ⟨ts', rfl⟩ := hl
    have h3 : literals ([.word "Regex".toList, .punct ':', .punct ':', .word "new".toList, .punct '('] ++
        .lit a :: ts') = a :: literals ts' := rfl
    rw [h3] at h2
    simp only [List.cons.injEq] at h2
    have := congrArg List.length e
    rw [← h2.1] at this
    simp [rawStop] at this
  · intro hi
    refine ⟨regexToks d, ?_, rfl⟩
    rw [tokens, normalise_id hno, hnl, read_regex hd ⟨hcr, hi⟩]

/-- **C66** is false of the code, hashes: the rule `/"####/` is not read back. -/
theorem C66_hashes : ¬ ∃ ts, tokens (regexLine ⟨2, "ABC".toList, "^(\"####)".toList⟩) = some ts ∧
    literals ts = ["^(\"####)".toList] := by
  rw [C66_regex_iff (d := ⟨2, "ABC".toList, "^(\"####)".toList⟩) ⟨by decide, by decide⟩ (by decide), not_not]
  exact ⟨"^(".toList, ")".toList, by decide⟩

/-- **C66** is false of the code, line ends: a carriage return in a regex is a lexical error, and before a
line feed it disappears. -/
theorem C66_carriage_return :
    tokens (regexLine ⟨2, "ABC".toList, "^(a\rb)".toList⟩) = none ∧
    (tokens (regexLine ⟨2, "ABC".toList, "^(a\r\nb)".toList⟩)).map literals = some ["^(a\nb)".toList] := by
  decide +kernel

/-- **C66** is false of the code, white space: for lexer data without a rule `WHITE_SPACE` the source mentions
a constant `…Lexer::WHITE_SPACE` it does not declare. -/
theorem C66_white_space {name : Str} {data : List LexerRuleData} (hn : ∀ c ∈ name, isWord c = true)
    (hd : DataOk data) (hw : ∀ d ∈ data, d.tokenName ≠ "WHITE_SPACE".toList) :
    ∃ ts, tokens (render name data) = some ts ∧ mentions "WHITE_SPACE".toList ts ∧
      ∀ n, ("WHITE_SPACE".toList, n) ∉ constants ts := by
  obtain ⟨ts, h1, _, h3, h4⟩ := C66_source_partial hn hd
  refine ⟨ts, h1, h4, fun n hm => ?_⟩
  rw [h3] at hm
  simp only [List.mem_cons, Prod.mk.injEq, List.mem_map] at hm
  rcases hm with ⟨h, _⟩ | ⟨h, _⟩ | ⟨d, hd', h, _⟩
  · revert h; decide
  · revert h; decide
  · exact hw d hd' h

/-- decidable form of `DataOk` -/
theorem dataOk_of_check {data : List LexerRuleData}
    (h : data.all (fun d => d.tokenName != [] && d.tokenName.all isWord && !d.regex.elem '\r' &&
      (d.regex.tails.all fun t => !(rawStop 4).isPrefixOf t)) = true) : DataOk data := by
  intro d hd
  have := List.all_eq_true.1 h d hd
  simp only [Bool.and_eq_true, bne_iff_ne, ne_eq, List.all_eq_true, Bool.not_eq_true', List.elem_eq_mem,
    decide_eq_false_iff_not] at this
  obtain ⟨⟨⟨h1, h2⟩, h3⟩, h4⟩ := this
  refine ⟨⟨h1, h2⟩, h3, ?_⟩
  rintro ⟨a, b, e⟩
  have := h4 (rawStop 4 ++ b) (by
    rw [List.mem_tails]
    exact ⟨a, by rw [← e]; simp⟩)
  rw [← Bool.not_eq_true, List.isPrefixOf_iff_prefix] at this
  exact this ⟨b, rfl⟩

theorem Shipped.dataOk : DataOk Shipped.data := dataOk_of_check (by decide +kernel)

/-- **C66** for the shipped grammar: the source generated from it contains the patterns and the names of
`v1/syntaxis_lexer.rs` in their order. -/
theorem C66_shipped (fuel : Nat) (hf : sizeOf Shipped.ast.toAst ≤ fuel) :
    ∃ g d ts, loadAst fuel Shipped.ast = .ok (g, d) ∧ tokens (render "Syntaxis".toList d) = some ts ∧
      literals ts = V1.patterns ++ V1.tokenNames ++ ["_STOP".toList, "_STOP".toList, "\n".toList, "{}".toList] := by
  obtain ⟨s2, s3, h, h1, h2, _⟩ := Shipped.built fuel hf
  obtain ⟨ts, h3, h4, _⟩ := C66_source_partial (name := "Syntaxis".toList) (by decide) Shipped.dataOk
  refine ⟨Shipped.grammar, Shipped.data, ts, by simp only [loadAst, buildGrammar, h, bind_ok, h1, h2], h3, ?_⟩
  have e1 : Shipped.data.map (·.regex) = Shipped.regexes := by decide +kernel
  have e2 : "_START".toList :: "_STOP".toList :: Shipped.data.map (·.tokenName) = V1.tokenNames := by decide +kernel
  rw [h4, e1, e2, Shipped.C56_same_patterns]

theorem v1_pieces {A B C D E : Str} (h : NoCr A ∧ NoCr B ∧ NoCr C ∧ NoCr D ∧ NoCr E)
    (hm : (readFrom (.code []) A).2 = .code [] ∧ (readFrom (.code []) B).2 = .code [] ∧
      (readFrom (.code []) C).2 = .code [] ∧ (readFrom (.code []) D).2 = .code [] ∧ (readFrom (.code []) E).2 = .code []) :
    tokens (A ++ B ++ C ++ D ++ E) = some (code A ++ code B ++ code C ++ code D ++ code E) := by
  obtain ⟨h1, h2, h3, h4, h5⟩ := h
  obtain ⟨m1, m2, m3, m4, m5⟩ := hm
  rw [tokens, normalise_id ((((h1.append h2).append h3).append h4).append h5)]
  simp only [read_append, m1, m2, m3, m4, m5, flush, if_pos, List.append_nil]

/-- the tokens of the source of the v1 lexer -/
def v1Toks : List Tok :=
  code Source.v1Lexer1 ++ code Source.v1Lexer2 ++ code Source.v1Lexer3 ++ code Source.v1Lexer4 ++ code Source.v1Lexer5

theorem v1_tokens : tokens Source.v1Lexer = some v1Toks := by
  refine v1_pieces ?_ ?_
  · decide +kernel
  · decide +kernel

/-- the attribute of the generated source -/
def allowDeadCode : List Tok :=
  [.punct '#', .punct '[', .word "allow".toList, .punct '(', .word "dead_code".toList, .punct ')', .punct ']']

/-- `crate::runtime::lexer::` -/
def lexerPath : List Tok :=
  [.word "crate".toList, .punct ':', .punct ':', .word "runtime".toList, .punct ':', .punct ':', .word "lexer".toList,
    .punct ':', .punct ':']

theorem v1_compare : renderToks "Syntaxis".toList Shipped.data =
      v1Toks.take 7 ++ (.word "syntaxis".toList :: (v1Toks.drop 8).take 72) ++ allowDeadCode ++
        (v1Toks.drop 80).take 415 ++ (.word "Error".toList :: v1Toks.drop 505) ∧
    v1Toks = v1Toks.take 7 ++ (.word "crate".toList :: (v1Toks.drop 8).take 72) ++ (v1Toks.drop 80).take 415 ++
      (lexerPath ++ (.word "Error".toList :: v1Toks.drop 505)) := by decide +kernel

/-- **C69** the source generated for the shipped grammar is, token by token, `v1/syntaxis_lexer.rs`, except that it
names the crate `syntaxis` instead of `crate`, has an attribute `#[allow(dead_code)]`, and writes `Error` for
`crate::runtime::lexer::Error`. -/
theorem C69_generated_is_v1 (fuel : Nat) (hf : sizeOf Shipped.ast.toAst ≤ fuel) :
    ∃ g d a b c e, loadAst fuel Shipped.ast = .ok (g, d) ∧
      tokens (render "Syntaxis".toList d) = some (a ++ (.word "syntaxis".toList :: b) ++ allowDeadCode ++
        c ++ (.word "Error".toList :: e)) ∧
      tokens Source.v1Lexer = some (a ++ (.word "crate".toList :: b) ++ c ++
        (lexerPath ++ (.word "Error".toList :: e))) := by
  obtain ⟨s2, s3, h, h1, h2, _⟩ := Shipped.built fuel hf
  obtain ⟨k1, k2⟩ := v1_compare
  have e := tokens_render (name := "Syntaxis".toList) (by decide) Shipped.dataOk
  exact ⟨Shipped.grammar, Shipped.data, _, _, _, _, by simp only [loadAst, buildGrammar, h, bind_ok, h1, h2],
    e.trans (congrArg some k1), v1_tokens.trans (congrArg some k2)⟩

end render

/-- non-vacuity: a token whose regex contains quotes and hashes -/
example : DataOk [⟨2, "AB".toList, "^(\"###\"#)".toList⟩] := dataOk_of_check (by decide +kernel)

end Syntaxis
