import Verif.Spec.GrammarText
import Verif.Spec.Tree

/-! # The concrete syntax of grammar files is unambiguous -/

namespace Syntaxis

/-- the type of the first token -/
def headType (r : List Token) : Option Nat := r.head?.map Token.tokenType

/-- the token behind an element does not belong to a suffix -/
def EndElem (r : List Token) : Prop := headType r ≠ some 8 ∧ headType r ≠ some 9 ∧ headType r ≠ some 10
/-- the token behind an alternative -/
def EndAlt (r : List Token) : Prop := headType r = some 5 ∨ headType r = some 6 ∨ headType r = some 12
/-- the token behind a block -/
def EndBlock (r : List Token) : Prop := headType r = some 5 ∨ headType r = some 12

theorem EndAlt.endElem {r : List Token} (h : EndAlt r) : EndElem r := by
  rcases h with h | h | h <;> simp [EndElem, h]
theorem EndBlock.endAlt {r : List Token} (h : EndBlock r) : EndAlt r := by
  rcases h with h | h <;> simp [EndAlt, h]

theorem headType_cons (t : Token) (r : List Token) : headType (t :: r) = some t.tokenType := rfl

/-- the first token of an atom -/
theorem WAtom.head {e : Elem} {ts : List Token} (h : WAtom e ts) :
    ∃ t us, ts = t :: us ∧ (t.tokenType = 3 ∨ t.tokenType = 13 ∨ t.tokenType = 2 ∨ t.tokenType = 11) := by
  cases h with
  | token h => exact ⟨_, _, rfl, by simp [h]⟩
  | literal h => exact ⟨_, _, rfl, by simp [h]⟩
  | rule h => exact ⟨_, _, rfl, by simp [h]⟩
  | group hl hr h => exact ⟨_, _, rfl, by simp [hl]⟩

theorem WElem.head {e : Elem} {ts : List Token} (h : WElem e ts) :
    ∃ t us, ts = t :: us ∧ (t.tokenType = 3 ∨ t.tokenType = 13 ∨ t.tokenType = 2 ∨ t.tokenType = 11) := by
  cases h with
  | plain h => exact h.head
  | suffix h hs =>
    obtain ⟨t, us, rfl, ht⟩ := h.head
    exact ⟨_, _, rfl, ht⟩

theorem WSeq.head {es : List Elem} {ts : List Token} (h : WSeq es ts) :
    ∃ t us, ts = t :: us ∧ (t.tokenType = 3 ∨ t.tokenType = 13 ∨ t.tokenType = 2 ∨ t.tokenType = 11) := by
  cases h with
  | one h => exact h.head
  | cons h hs =>
    obtain ⟨t, us, rfl, ht⟩ := h.head
    exact ⟨_, _, rfl, ht⟩

theorem WSuffix.det {f f' : Suffix} {us us' r r' : List Token} (h : WSuffix f us) (h' : WSuffix f' us')
    (he : us ++ r = us' ++ r') (hr : EndElem r) (hr' : EndElem r') : f = f' ∧ us = us' := by
  have inj : ∀ f f' : Suffix, f.token = f'.token → f = f' := by
    intro f f'; cases f <;> cases f' <;> simp [Suffix.token]
  cases h with
  | plain h =>
    cases h' with
    | plain h' =>
      simp only [List.cons_append, List.nil_append, List.cons.injEq] at he
      exact ⟨inj _ _ (by rw [← h, ← h', he.1]), by rw [he.1]⟩
    | lazy h' hq =>
      simp only [List.cons_append, List.nil_append, List.cons.injEq] at he
      rw [he.2] at hr
      exact absurd (by rw [headType_cons, hq]) hr.2.2
  | lazy h hq =>
    cases h' with
    | plain h' =>
      simp only [List.cons_append, List.nil_append, List.cons.injEq] at he
      rw [← he.2] at hr'
      exact absurd (by rw [headType_cons, hq]) hr'.2.2
    | lazy h' hq' =>
      simp only [List.cons_append, List.nil_append, List.cons.injEq] at he
      exact ⟨inj _ _ (by rw [← h, ← h', he.1]), by rw [he.1, he.2.1]⟩

theorem WSuffix.not_end {f : Suffix} {us r : List Token} (h : WSuffix f us) : ¬ EndElem (us ++ r) := by
  intro hr
  have key : ∀ t : Token, t.tokenType = f.token → ∀ l, ¬ EndElem (t :: l) := by
    intro t ht l hl
    simp only [EndElem, headType_cons, ht] at hl
    cases f <;> simp [Suffix.token] at hl
  cases h with
  | plain h => exact key _ h _ hr
  | lazy h hq => exact key _ h _ hr

theorem endElem_of_elem {e : Elem} {ts r : List Token} (h : WElem e ts) : EndElem (ts ++ r) := by
  obtain ⟨t, us, rfl, ht⟩ := h.head
  rcases ht with ht | ht | ht | ht <;> simp [EndElem, headType, ht]

theorem endElem_of_seq {es : List Elem} {ts r : List Token} (h : WSeq es ts) : EndElem (ts ++ r) := by
  obtain ⟨t, us, rfl, ht⟩ := h.head
  rcases ht with ht | ht | ht | ht <;> simp [EndElem, headType, ht]

theorem not_endAlt_of_seq {es : List Elem} {ts r : List Token} (h : WSeq es ts) : ¬ EndAlt (ts ++ r) := by
  obtain ⟨t, us, rfl, ht⟩ := h.head
  rcases ht with ht | ht | ht | ht <;> simp [EndAlt, headType, ht]

mutual
theorem WAtom.det {e e' : Elem} {ts ts' r r' : List Token} : WAtom e ts → WAtom e' ts' →
    ts ++ r = ts' ++ r' → e = e' ∧ ts = ts'
  | .token h, h', he => by
    cases h' with
    | token h' => simp only [List.cons_append, List.nil_append, List.cons.injEq] at he; simp [he.1]
    | literal h' => simp only [List.cons_append, List.nil_append, List.cons.injEq] at he; simp [he.1]
    | rule h' => simp only [List.cons_append, List.nil_append, List.cons.injEq] at he; rw [he.1, h'] at h; cases h
    | group hl hr h' =>
      simp only [List.cons_append, List.nil_append, List.cons.injEq] at he; rw [he.1, hl] at h; cases h
  | .literal h, h', he => by
    cases h' with
    | token h' => simp only [List.cons_append, List.nil_append, List.cons.injEq] at he; simp [he.1]
    | literal h' => simp only [List.cons_append, List.nil_append, List.cons.injEq] at he; simp [he.1]
    | rule h' => simp only [List.cons_append, List.nil_append, List.cons.injEq] at he; rw [he.1, h'] at h; cases h
    | group hl hr h' =>
      simp only [List.cons_append, List.nil_append, List.cons.injEq] at he; rw [he.1, hl] at h; cases h
  | .rule h, h', he => by
    cases h' with
    | token h' => simp only [List.cons_append, List.nil_append, List.cons.injEq] at he; rw [he.1, h'] at h; cases h
    | literal h' => simp only [List.cons_append, List.nil_append, List.cons.injEq] at he; rw [he.1, h'] at h; cases h
    | rule h' => simp only [List.cons_append, List.nil_append, List.cons.injEq] at he; simp [he.1]
    | group hl hr h' =>
      simp only [List.cons_append, List.nil_append, List.cons.injEq] at he; rw [he.1, hl] at h; cases h
  | .group (r := r0) hl hr h, h', he => by
    cases h' with
    | token h' => simp only [List.cons_append, List.nil_append, List.cons.injEq] at he; rw [he.1, h'] at hl; cases hl
    | literal h' => simp only [List.cons_append, List.nil_append, List.cons.injEq] at he; rw [he.1, h'] at hl; cases hl
    | rule h' => simp only [List.cons_append, List.nil_append, List.cons.injEq] at he; rw [he.1, h'] at hl; cases hl
    | group hl' hr' h' =>
      simp only [List.cons_append, List.cons.injEq, List.append_assoc, List.nil_append] at he
      obtain ⟨rfl, he⟩ := he
      obtain ⟨rfl, rfl⟩ := WBlock.det h h' he (by simp [EndBlock, headType, hr]) (by simp [EndBlock, headType, hr'])
      simp only [List.append_cancel_left_eq, List.cons.injEq] at he
      simp [he.1]
theorem WElem.det {e e' : Elem} {ts ts' r r' : List Token} : WElem e ts → WElem e' ts' →
    ts ++ r = ts' ++ r' → EndElem r → EndElem r' → e = e' ∧ ts = ts'
  | .plain h, h', he, hr, hr' => by
    cases h' with
    | plain h' => exact WAtom.det h h' he
    | suffix h' hs =>
      rw [List.append_assoc] at he
      obtain ⟨rfl, rfl⟩ := WAtom.det h h' he
      rw [List.append_cancel_left_eq] at he
      rw [he] at hr
      exact absurd hr hs.not_end
  | .suffix h hs, h', he, hr, hr' => by
    rw [List.append_assoc] at he
    cases h' with
    | plain h' =>
      obtain ⟨rfl, rfl⟩ := WAtom.det h h' he
      rw [List.append_cancel_left_eq] at he
      rw [← he] at hr'
      exact absurd hr' hs.not_end
    | suffix h' hs' =>
      rw [List.append_assoc] at he
      obtain ⟨rfl, rfl⟩ := WAtom.det h h' he
      rw [List.append_cancel_left_eq] at he
      obtain ⟨rfl, rfl⟩ := hs.det hs' he hr hr'
      exact ⟨rfl, rfl⟩
theorem WSeq.det {es es' : List Elem} {ts ts' r r' : List Token} : WSeq es ts → WSeq es' ts' →
    ts ++ r = ts' ++ r' → EndAlt r → EndAlt r' → es = es' ∧ ts = ts'
  | .one h, h', he, hr, hr' => by
    cases h' with
    | one h' =>
      obtain ⟨rfl, rfl⟩ := WElem.det h h' he hr.endElem hr'.endElem
      exact ⟨rfl, rfl⟩
    | cons h' hs =>
      rw [List.append_assoc] at he
      obtain ⟨rfl, rfl⟩ := WElem.det h h' he hr.endElem (endElem_of_seq hs)
      rw [List.append_cancel_left_eq] at he
      rw [he] at hr
      exact absurd hr (not_endAlt_of_seq hs)
  | .cons h hs, h', he, hr, hr' => by
    rw [List.append_assoc] at he
    cases h' with
    | one h' =>
      obtain ⟨rfl, rfl⟩ := WElem.det h h' he (endElem_of_seq hs) hr'.endElem
      rw [List.append_cancel_left_eq] at he
      rw [← he] at hr'
      exact absurd hr' (not_endAlt_of_seq hs)
    | cons h' hs' =>
      rw [List.append_assoc] at he
      obtain ⟨rfl, rfl⟩ := WElem.det h h' he (endElem_of_seq hs) (endElem_of_seq hs')
      rw [List.append_cancel_left_eq] at he
      obtain ⟨rfl, rfl⟩ := WSeq.det hs hs' he hr hr'
      exact ⟨rfl, rfl⟩
theorem WAlt.det {a a' : List Elem} {ts ts' r r' : List Token} : WAlt a ts → WAlt a' ts' →
    ts ++ r = ts' ++ r' → EndAlt r → EndAlt r' → a = a' ∧ ts = ts'
  | .epsilon h, h', he, hr, hr' => by
    cases h' with
    | epsilon h' => simp only [List.cons_append, List.nil_append, List.cons.injEq] at he; simp [he.1]
    | seq h' =>
      obtain ⟨t, us, rfl, ht⟩ := h'.head
      simp only [List.cons_append, List.nil_append, List.cons.injEq] at he
      rw [← he.1, h] at ht
      simp at ht
  | .seq h, h', he, hr, hr' => by
    cases h' with
    | epsilon h' =>
      obtain ⟨t, us, rfl, ht⟩ := h.head
      simp only [List.cons_append, List.nil_append, List.cons.injEq] at he
      rw [he.1, h'] at ht
      simp at ht
    | seq h' => exact WSeq.det h h' he hr hr'
theorem WBlock.det {as as' : List (List Elem)} {ts ts' r r' : List Token} : WBlock as ts → WBlock as' ts' →
    ts ++ r = ts' ++ r' → EndBlock r → EndBlock r' → as = as' ∧ ts = ts'
  | .one h, h', he, hr, hr' => by
    cases h' with
    | one h' =>
      obtain ⟨rfl, rfl⟩ := WAlt.det h h' he hr.endAlt hr'.endAlt
      exact ⟨rfl, rfl⟩
    | cons h' ho hs =>
      rw [List.append_assoc] at he
      obtain ⟨rfl, rfl⟩ := WAlt.det h h' he hr.endAlt (by simp [EndAlt, headType, ho])
      rw [List.append_cancel_left_eq] at he
      rw [he] at hr
      simp [EndBlock, headType, ho] at hr
  | .cons h ho hs, h', he, hr, hr' => by
    rw [List.append_assoc] at he
    cases h' with
    | one h' =>
      obtain ⟨rfl, rfl⟩ := WAlt.det h h' he (by simp [EndAlt, headType, ho]) hr'.endAlt
      rw [List.append_cancel_left_eq] at he
      rw [← he] at hr'
      simp [EndBlock, headType, ho] at hr'
    | cons h' ho' hs' =>
      rw [List.append_assoc] at he
      obtain ⟨rfl, rfl⟩ := WAlt.det h h' he (by simp [EndAlt, headType, ho]) (by simp [EndAlt, headType, ho'])
      rw [List.append_cancel_left_eq] at he
      simp only [List.cons_append, List.cons.injEq] at he
      obtain ⟨rfl, he⟩ := he
      obtain ⟨rfl, rfl⟩ := WBlock.det hs hs' he hr hr'
      exact ⟨rfl, rfl⟩
end

/-- a sequence of tokens is a grammar file in at most one way -/
theorem WFile.det {D D' : Rules} {L L' : List (Str × Str)} {ts : List Token} (h : WFile D L ts)
    (h' : WFile D' L' ts) : D = D' ∧ L = L' := by
  induction h generalizing D' L' with
  | nil => cases h'; exact ⟨rfl, rfl⟩
  | @parserRule n c s alts ts us D L hn hc hb hs h ih =>
    generalize he : n :: c :: (ts ++ s :: us) = ts' at h'
    cases h' with
    | nil => cases he
    | parserRule hn' hc' hb' hs' h' =>
      simp only [List.cons.injEq] at he
      obtain ⟨rfl, rfl, he⟩ := he
      obtain ⟨rfl, rfl⟩ := hb.det hb' he (by simp [EndBlock, headType, hs]) (by simp [EndBlock, headType, hs'])
      simp only [List.append_cancel_left_eq, List.cons.injEq] at he
      obtain ⟨rfl, rfl⟩ := he
      obtain ⟨rfl, rfl⟩ := ih h'
      exact ⟨rfl, rfl⟩
    | lexerRule hn' hc' hr' hs' h' =>
      simp only [List.cons.injEq] at he
      rw [he.1, hn'] at hn
      cases hn
  | @lexerRule n c r s us D L hn hc hr hs h ih =>
    generalize he : n :: c :: r :: s :: us = ts' at h'
    cases h' with
    | nil => cases he
    | parserRule hn' hc' hb' hs' h' =>
      simp only [List.cons.injEq] at he
      rw [he.1, hn'] at hn
      cases hn
    | lexerRule hn' hc' hr' hs' h' =>
      simp only [List.cons.injEq] at he
      obtain ⟨rfl, rfl, rfl, rfl, rfl⟩ := he
      obtain ⟨rfl, rfl⟩ := ih h'
      exact ⟨rfl, rfl⟩

end Syntaxis
