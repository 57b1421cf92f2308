import Verif.Model.Viewer
import Verif.Props.PageView

/-!
# C93, C94: using the drawn page
-/

namespace Syntaxis
namespace Viewer
open Outline PageView

variable {S : Type} [LinearOrder S]

/-- the events after which the tree is drawn anew: a click on a node of the outline, the button, and the two sliders -/
def Redraws (ast : View) : Event → Prop
  | .outlineLabel p => ∃ v, NodeAt ast p v
  | .switch | .slider _ | .slider2 _ => True
  | _ => False

/-- the events that neither begin nor end a drag -/
def Keeps (ast : View) : Event → Prop
  | .press _ b _ _ => b ≠ 0
  | .release b => b ≠ 0
  | .reset => False
  | e => ¬ Redraws ast e

/-- the main button of the pointer is held down (and nothing has ended the drag) -/
def Held (ast : View) (es : List Event) : Prop :=
  ∃ before label x y after, es = before ++ .press label 0 x y :: after ∧ ∀ e ∈ after, Keeps ast e

/-- the last position of the pointer -/
def lastPosition (start : Int × Int) (es : List Event) : Int × Int :=
  es.foldl (fun q e => match e with | .move x y => (x, y) | _ => q) start

/-- the text of a `transform` for a shift by `x` and `y` and the zoom `z` -/
def Transform (num : Numbers S) (text : Str) (x y : Int) (z : S) : Prop :=
  text = chars! "translateX(" ++ (toString x).toList ++ chars! "px) translateY(" ++ (toString y).toList ++
    chars! "px) scale(" ++ num.text z ++ chars! ")"

theorem intText_eq (n : Int) : intText n = (toString n).toList := by
  cases n with
  | ofNat n =>
    show (if Int.ofNat n < 0 then _ else Nat.toDigits 10 n) = (Nat.repr n).toList
    rw [if_neg (by simp), Nat.repr, String.toList_ofList]
  | negSucc n =>
    show (if Int.negSucc n < 0 then '-' :: Nat.toDigits 10 (n + 1) else _) = ("-" ++ Nat.repr (n + 1)).toList
    rw [if_pos (by omega), String.toList_append, Nat.repr]
    simp only [String.toList_ofList]
    rfl

theorem dataAt_iff {ast : View} {p : Path} {v : View} : dataAt ast p = some v ↔ NodeAt ast p v := by
  induction p generalizing v with
  | nil =>
    constructor
    · intro h
      cases h
      exact .root
    · intro h
      cases h
      rfl
  | cons i p ih =>
    rw [dataAt, Option.bind_eq_some_iff]
    constructor
    · rintro ⟨w, h1, h2⟩
      cases w with
      | leaf n t => simp [kids] at h2
      | node n j ks => exact .child (ih.1 h1) h2
    · intro h
      cases h with
      | child h hj => exact ⟨_, ih.2 h, hj⟩

theorem run_append (num : Numbers S) (lay : Layouts) (ast : View) (es es' : List Event) :
    run num lay ast (es ++ es') = es'.foldl (step num lay ast) (run num lay ast es) := List.foldl_append

/-- induction along a session -/
theorem session {num : Numbers S} {lay : Layouts} {ast : View} {P : List Event → State S → Prop}
    (h0 : P [] (load num lay ast)) (h1 : ∀ es s e, P es s → P (es ++ [e]) (step num lay ast s e)) (es : List Event) :
    P es (run num lay ast es) := by
  induction es using List.reverseRecOn with
  | nil => exact h0
  | append_singleton es e ih =>
    rw [run_append]
    exact h1 _ _ _ ih

/-- **C93** However the wheel is turned, the zoom stays between the two limits. -/
theorem C93_zoom (num : Numbers S) (lay : Layouts) (ast : View) (h1 : num.min ≤ num.one) (h2 : num.one ≤ num.max)
    (es : List Event) : num.min ≤ (run num lay ast es).scale ∧ (run num lay ast es).scale ≤ num.max := by
  refine session (P := fun _ s => num.min ≤ s.scale ∧ s.scale ≤ num.max) ⟨h1, h2⟩ ?_ es
  intro _ s e hs
  cases e with
  | circle p => exact hs
  | outlineLabel p =>
    simp only [step]
    split
    · exact ⟨h1, h2⟩
    · exact hs
  | press l b x y =>
    simp only [step, pointerdown]
    cases l <;> split <;> exact hs
  | release b =>
    simp only [step, pointerup]
    split <;> exact hs
  | move x y =>
    simp only [step, pointermove]
    split <;> exact hs
  | wheel d =>
    simp only [step, wheel]
    generalize (if d > 0 then num.shrink s.scale else num.grow s.scale) = z
    have h3 := h1.trans h2
    by_cases h4 : z > num.max
    · simp only [if_pos h4]
      exact ⟨h3, le_refl _⟩
    · simp only [if_neg h4]
      by_cases h5 : z < num.min
      · simp only [if_pos h5]
        exact ⟨le_refl _, h3⟩
      · simp only [if_neg h5]
        exact ⟨not_lt.1 h5, not_lt.1 h4⟩
  | reset => exact ⟨h1, h2⟩
  | switch =>
    simp only [step, switch]
    split <;> exact ⟨h1, h2⟩
  | slider v => exact ⟨h1, h2⟩
  | slider2 v => exact ⟨h1, h2⟩

/-- **C93** A turn of the wheel makes the tree smaller or larger by one step, up to the limits, and changes nothing else
but the text of the `transform`. -/
theorem C93_wheel (num : Numbers S) (lay : Layouts) (ast : View) (h1 : num.min ≤ num.max) (es : List Event) (d : Int) :
    let s := run num lay ast es
    let t := run num lay ast (es ++ [.wheel d])
    t = { s with scale := t.scale, transform := t.transform } ∧
    t.scale = max num.min (min num.max (if d > 0 then num.shrink s.scale else num.grow s.scale)) := by
  intro s t
  have ht : t = wheel num d s := run_append _ _ _ _ _
  refine ⟨by rw [ht]; rfl, ?_⟩
  rw [ht]
  simp only [wheel]
  generalize (if d > 0 then num.shrink s.scale else num.grow s.scale) = z
  by_cases h2 : z > num.max
  · simp only [if_pos h2]
    rw [min_eq_left h2.le, max_eq_right h1]
  · simp only [if_neg h2]
    rw [min_eq_right (not_lt.1 h2)]
    by_cases h3 : z < num.min
    · simp only [if_pos h3]
      rw [max_eq_left h3.le]
    · simp only [if_neg h3]
      rw [max_eq_right (not_lt.1 h3)]

/-- **C93** The page always shows the shift and the zoom that the script has noted (at the start no `transform` is set,
and nothing is shifted or zoomed). -/
theorem C93_shown (num : Numbers S) (hone : num.text num.one = chars! "1") (lay : Layouts) (ast : View) (es : List Event) :
    let s := run num lay ast es
    Transform num s.transform s.x s.y s.scale ∨ (s.transform = [] ∧ s.x = 0 ∧ s.y = 0 ∧ s.scale = num.one) := by
  have h0 : Transform num (chars! "translateX(0px) translateY(0px) scale(1)") 0 0 num.one := by
    rw [Transform, hone]
    decide +kernel
  have hi : ∀ n : Int, intText n = (toString n).toList := intText_eq
  refine session (P := fun _ (s : State S) => Transform num s.transform s.x s.y s.scale ∨
    (s.transform = [] ∧ s.x = 0 ∧ s.y = 0 ∧ s.scale = num.one)) (.inr ⟨rfl, rfl, rfl, rfl⟩) ?_ es
  intro _ s e hs
  cases e with
  | circle p => exact hs
  | outlineLabel p =>
    simp only [step]
    split
    · exact .inl h0
    · exact hs
  | press l b x y =>
    simp only [step, pointerdown]
    cases l <;> split <;> exact hs
  | release b =>
    simp only [step, pointerup]
    split <;> exact hs
  | move x y =>
    simp only [step, pointermove]
    split
    · left
      simp only [Transform, transformText, hi]
    · exact hs
  | wheel d =>
    left
    simp only [step, wheel, Transform, transformText, hi]
  | reset => exact .inl h0
  | switch =>
    simp only [step, switch]
    split <;> exact .inl h0
  | slider v => exact .inl h0
  | slider2 v => exact .inl h0

theorem keeps_step {num : Numbers S} {lay : Layouts} {ast : View} {s : State S} {e : Event} (h : Keeps ast e)
    (hs : s.isPointerdown = true) :
    (step num lay ast s e).isPointerdown = true ∧
      (step num lay ast s e).last = lastPosition s.last [e] ∧
      (step num lay ast s e).x - (step num lay ast s e).last.1 = s.x - s.last.1 ∧
      (step num lay ast s e).y - (step num lay ast s e).last.2 = s.y - s.last.2 := by
  cases e with
  | circle p => exact ⟨hs, rfl, rfl, rfl⟩
  | outlineLabel p =>
    have : dataAt ast p = none := by
      cases hd : dataAt ast p with
      | none => rfl
      | some v => exact absurd ⟨v, dataAt_iff.1 hd⟩ h
    unfold step
    dsimp only
    rw [this]
    exact ⟨hs, rfl, rfl, rfl⟩
  | press l b x y =>
    have hb : b ≠ 0 := h
    unfold step pointerdown
    dsimp only
    rw [if_neg hb]
    cases l <;> exact ⟨hs, rfl, rfl, rfl⟩
  | release b =>
    have hb : b ≠ 0 := h
    unfold step pointerup
    dsimp only
    rw [if_neg hb]
    exact ⟨hs, rfl, rfl, rfl⟩
  | move x y =>
    unfold step pointermove
    dsimp only
    rw [if_pos hs]
    refine ⟨hs, rfl, ?_, ?_⟩ <;> dsimp only <;> omega
  | wheel d => exact ⟨hs, rfl, rfl, rfl⟩
  | reset => exact h.elim
  | switch => exact absurd trivial h
  | slider v => exact absurd trivial h
  | slider2 v => exact absurd trivial h

theorem keeps_steps {num : Numbers S} {lay : Layouts} {ast : View} :
    ∀ (es : List Event) (s : State S), (∀ e ∈ es, Keeps ast e) → s.isPointerdown = true →
      let t := es.foldl (step num lay ast) s
      t.isPointerdown = true ∧ t.last = lastPosition s.last es ∧ t.x - t.last.1 = s.x - s.last.1 ∧
        t.y - t.last.2 = s.y - s.last.2 := by
  intro es
  induction es with
  | nil => intro s _ hs; exact ⟨hs, rfl, rfl, rfl⟩
  | cons e es ih =>
    intro s h hs
    obtain ⟨a1, a2, a3, a4⟩ := keeps_step (num := num) (lay := lay) (h e (by simp)) hs
    obtain ⟨b1, b2, b3, b4⟩ := ih (step num lay ast s e) (fun e' he' => h e' (by simp [he'])) a1
    refine ⟨b1, ?_, b3.trans a3, b4.trans a4⟩
    rw [List.foldl_cons, b2, a2]
    rfl

/-- **C93** Dragging: from the moment the main button is pressed the tree follows the pointer, whatever else happens
meanwhile that does not end the drag. -/
theorem C93_drag (num : Numbers S) (lay : Layouts) (ast : View) (es : List Event) (label : Option Path) (x y : Int)
    (drag : List Event) (h : ∀ e ∈ drag, Keeps ast e) :
    let s := run num lay ast es
    let t := run num lay ast (es ++ .press label 0 x y :: drag)
    t.x = s.x + ((lastPosition (x, y) drag).1 - x) ∧ t.y = s.y + ((lastPosition (x, y) drag).2 - y) := by
  intro s t
  have ht : t = drag.foldl (step num lay ast) (step num lay ast s (.press label 0 x y)) := run_append _ _ _ _ _
  have h0 : (step num lay ast s (.press label 0 x y)).isPointerdown = true ∧
      (step num lay ast s (.press label 0 x y)).last = (x, y) ∧ (step num lay ast s (.press label 0 x y)).x = s.x ∧
      (step num lay ast s (.press label 0 x y)).y = s.y := by
    unfold step pointerdown
    dsimp only
    rw [if_pos rfl]
    cases label <;> exact ⟨rfl, rfl, rfl, rfl⟩
  obtain ⟨h1, h2, h3, h4⟩ := h0
  obtain ⟨-, k2, k3, k4⟩ := keeps_steps (num := num) (lay := lay) drag _ h h1
  rw [← ht] at k2 k3 k4
  rw [k2, h2, h3] at k3
  rw [k2, h2, h4] at k4
  dsimp only at k3 k4
  constructor <;> omega

theorem held_of_down (num : Numbers S) (lay : Layouts) (ast : View) (es : List Event) :
    (run num lay ast es).isPointerdown = true → Held ast es := by
  refine session (P := fun es (s : State S) => s.isPointerdown = true → Held ast es) (fun h => by cases h) ?_ es
  intro es s e ih h
  have keep : Keeps ast e → s.isPointerdown = true → Held ast (es ++ [e]) := by
    intro hk hs
    obtain ⟨b, l, x, y, a, rfl, ha⟩ := ih hs
    refine ⟨b, l, x, y, a ++ [e], by simp, ?_⟩
    intro e' he'
    rcases List.mem_append.1 he' with h1 | h1
    · exact ha e' h1
    · cases List.mem_singleton.1 h1
      exact hk
  cases e with
  | circle p => exact keep (fun h => h) h
  | outlineLabel p =>
    simp only [step] at h
    cases hd : dataAt ast p with
    | none =>
      rw [hd] at h
      refine keep (fun ⟨v, hv⟩ => ?_) h
      rw [dataAt_iff.2 hv] at hd
      cases hd
    | some d =>
      rw [hd] at h
      cases h
  | press l b x y =>
    by_cases hb : b = 0
    · subst hb
      exact ⟨es, l, x, y, [], rfl, by simp⟩
    · simp only [step, pointerdown, if_neg hb] at h
      refine keep hb ?_
      cases l <;> exact h
  | release b =>
    simp only [step, pointerup] at h
    by_cases hb : b = 0
    · rw [if_pos hb] at h
      cases h
    · rw [if_neg hb] at h
      exact keep hb h
  | move x y =>
    refine keep (fun h => h) ?_
    simp only [step, pointermove] at h
    split at h <;> assumption
  | wheel d => exact keep (fun h => h) h
  | reset => cases h
  | switch =>
    simp only [step, switch] at h
    split at h <;> cases h
  | slider v => cases h
  | slider2 v => cases h

/-- **C93** Without the main button held down, moving the pointer changes nothing. -/
theorem C93_hover (num : Numbers S) (lay : Layouts) (ast : View) (es : List Event) (h : ¬ Held ast es) (x y : Int) :
    run num lay ast (es ++ [.move x y]) = run num lay ast es := by
  rw [run_append, List.foldl_cons, List.foldl_nil]
  simp only [step, pointermove]
  rw [if_neg]
  intro hd
  exact h (held_of_down num lay ast es hd)

/-- **C93** The button `reset`, and every event that draws the tree anew, brings the tree back to where it was at the
start, and ends a drag; `reset` changes nothing else. -/
theorem C93_reset (num : Numbers S) (hone : num.text num.one = chars! "1") (lay : Layouts) (ast : View) (es : List Event)
    (e : Event) (he : e = .reset ∨ Redraws ast e) :
    let s := run num lay ast es
    let t := run num lay ast (es ++ [e])
    t.x = 0 ∧ t.y = 0 ∧ t.scale = num.one ∧ Transform num t.transform 0 0 num.one ∧
    (∀ x y, run num lay ast (es ++ [e, .move x y]) = t) ∧
    (e = .reset → t.tree = s.tree ∧ t.outline = s.outline ∧ t.button = s.button ∧ t.current = s.current) := by
  have h0 : Transform num (chars! "translateX(0px) translateY(0px) scale(1)") 0 0 num.one := by
    rw [Transform, hone]
    decide +kernel
  intro s t
  have ht : t = step num lay ast s e := run_append _ _ _ _ _
  have hm : ∀ x y, run num lay ast (es ++ [e, .move x y]) = pointermove num x y t := by
    intro x y
    rw [run_append, ht]
    rfl
  have key : ∃ s' : State S, step num lay ast s e = reset num s' ∧ (e = .reset → s' = s) := by
    rcases he with rfl | he
    · exact ⟨s, rfl, fun _ => rfl⟩
    · cases e with
      | outlineLabel p =>
        obtain ⟨v, hv⟩ := he
        simp only [step, dataAt_iff.2 hv]
        exact ⟨_, rfl, fun h => by cases h⟩
      | switch =>
        simp only [step, switch]
        split <;> exact ⟨_, rfl, fun h => by cases h⟩
      | slider v => exact ⟨_, rfl, fun h => by cases h⟩
      | slider2 v => exact ⟨_, rfl, fun h => by cases h⟩
      | circle p => exact he.elim
      | press l b x y => exact he.elim
      | release b => exact he.elim
      | move x y => exact he.elim
      | wheel d => exact he.elim
      | reset => exact he.elim
  obtain ⟨s', h1, h2⟩ := key
  rw [ht] at hm ⊢
  rw [h1] at hm ⊢
  refine ⟨rfl, rfl, rfl, h0, ?_, ?_⟩
  · intro x y
    rw [hm]
    rfl
  · intro h
    rw [h2 h]
    exact ⟨rfl, rfl, rfl, rfl⟩

/-! ### C94 -/

/-- the node whose label an event presses -/
def pressed : Event → Option Path
  | .press l _ _ _ => l
  | _ => none

/-- the node whose circle an event clicks -/
def circled : Event → Option Path
  | .circle p => some p
  | _ => none

/-- the presses on labels of the tree since it has been drawn last -/
def PressesSince (ast : View) (es : List Event) (ps : List Path) : Prop :=
  ∃ before after, es = before ++ after ∧ (before = [] ∨ ∃ b e, before = b ++ [e] ∧ Redraws ast e) ∧
    (∀ e ∈ after, ¬ Redraws ast e) ∧
    ps = after.filterMap pressed

/-- the node chosen last in the outline, the whole tree at the start -/
def Chosen (ast : View) (es : List Event) (v : View) : Prop :=
  (v = ast ∧ ∀ p w, NodeAt ast p w → .outlineLabel p ∉ es) ∨
  ∃ before p after, es = before ++ .outlineLabel p :: after ∧ NodeAt ast p v ∧
    ∀ q w, NodeAt ast q w → .outlineLabel q ∉ after

/-- the last value of a slider, the one it has in the page at the start -/
def lastValue (f : Event → Option Nat) (start : Nat) (es : List Event) : Nat := (es.filterMap f).getLast?.getD start

def sliderOf : Event → Option Nat
  | .slider v => some v
  | _ => none

def slider2Of : Event → Option Nat
  | .slider2 v => some v
  | _ => none

theorem redraw_step (num : Numbers S) (lay : Layouts) {ast : View} {e : Event} (h : Redraws ast e) (s : State S) :
    ∃ kind current w h' b, step num lay ast s e =
      render num lay { s with kind := kind, current := current, astWidth := w, astHeight := h', button := b } := by
  cases e with
  | outlineLabel p =>
    obtain ⟨v, hv⟩ := h
    simp only [step, dataAt_iff.2 hv]
    exact ⟨_, _, _, _, _, rfl⟩
  | switch =>
    simp only [step, switch]
    split <;> exact ⟨_, _, _, _, _, rfl⟩
  | slider v => exact ⟨_, _, _, _, _, rfl⟩
  | slider2 v => exact ⟨_, _, _, _, _, rfl⟩
  | circle p => exact h.elim
  | press l b x y => exact h.elim
  | release b => exact h.elim
  | move x y => exact h.elim
  | wheel d => exact h.elim
  | reset => exact h.elim

theorem other_step (num : Numbers S) (lay : Layouts) {ast : View} {e : Event} (h : ¬ Redraws ast e) (s : State S) :
    (step num lay ast s e).kind = s.kind ∧ (step num lay ast s e).current = s.current ∧
    (step num lay ast s e).astWidth = s.astWidth ∧ (step num lay ast s e).astHeight = s.astHeight ∧
    (step num lay ast s e).button = s.button ∧
    (step num lay ast s e).tree = (pressed e).toList.foldl (Drawn.press lay) s.tree := by
  cases e with
  | outlineLabel p =>
    have : dataAt ast p = none := by
      cases hd : dataAt ast p with
      | none => rfl
      | some v => exact absurd ⟨v, dataAt_iff.1 hd⟩ h
    unfold step
    dsimp only
    rw [this]
    exact ⟨rfl, rfl, rfl, rfl, rfl, rfl⟩
  | switch => exact absurd trivial h
  | slider v => exact absurd trivial h
  | slider2 v => exact absurd trivial h
  | circle p => exact ⟨rfl, rfl, rfl, rfl, rfl, rfl⟩
  | press l b x y =>
    simp only [step, pointerdown]
    cases l <;> split <;> exact ⟨rfl, rfl, rfl, rfl, rfl, rfl⟩
  | release b =>
    simp only [step, pointerup]
    split <;> exact ⟨rfl, rfl, rfl, rfl, rfl, rfl⟩
  | move x y =>
    simp only [step, pointermove]
    split <;> exact ⟨rfl, rfl, rfl, rfl, rfl, rfl⟩
  | wheel d => exact ⟨rfl, rfl, rfl, rfl, rfl, rfl⟩
  | reset => exact ⟨rfl, rfl, rfl, rfl, rfl, rfl⟩

theorem in_sync (num : Numbers S) (lay : Layouts) (ast : View) (es : List Event) :
    let s := run num lay ast es
    s.tree.kind = s.kind ∧ s.tree.data = s.current ∧ s.tree.dx = s.astWidth ∧ s.tree.dy = s.astHeight := by
  refine session (P := fun _ (s : State S) => s.tree.kind = s.kind ∧ s.tree.data = s.current ∧ s.tree.dx = s.astWidth ∧
    s.tree.dy = s.astHeight) ⟨rfl, rfl, rfl, rfl⟩ ?_ es
  intro _ s e hs
  by_cases h : Redraws ast e
  · obtain ⟨k, c, w, h', b, e1⟩ := redraw_step num lay h s
    rw [e1]
    exact ⟨rfl, rfl, rfl, rfl⟩
  · obtain ⟨h1, h2, h3, h4, -, h5⟩ := other_step num lay h s
    rw [h1, h2, h3, h4, h5]
    cases pressed e <;> exact hs

/-- **C94** Which layout is used, and what the button says: the button has been pressed an even number of times, the
tree is drawn as a tree and the button offers the cluster, or an odd number of times, and it is the other way round. -/
theorem C94_button (num : Numbers S) (lay : Layouts) (ast : View) (es : List Event) :
    let s := run num lay ast es
    (s.tree.kind = .tree ∧ chars! "(use cluster)" <:+ s.button ∧ Even (es.countP fun e => e matches .switch)) ∨
    (s.tree.kind = .cluster ∧ chars! "(use tree)" <:+ s.button ∧ ¬ Even (es.countP fun e => e matches .switch)) := by
  intro s
  rw [(in_sync num lay ast es).1]
  refine session (P := fun es (s : State S) =>
    (s.kind = .tree ∧ chars! "(use cluster)" <:+ s.button ∧ Even (es.countP fun e => e matches .switch)) ∨
    (s.kind = .cluster ∧ chars! "(use tree)" <:+ s.button ∧ ¬ Even (es.countP fun e => e matches .switch)))
    (.inl ⟨rfl, by show _ <:+ useCluster0; decide +kernel, by simp⟩) ?_ es
  clear s es
  intro es s e hs
  have same : (step num lay ast s e).kind = s.kind → (step num lay ast s e).button = s.button →
      (es ++ [e]).countP (fun e => e matches .switch) = es.countP (fun e => e matches .switch) → _ :=
    fun h1 h2 h3 => by
      have := hs
      rw [← h1, ← h2, ← h3] at this
      exact this
  by_cases h : Redraws ast e
  · cases e with
    | outlineLabel p =>
      obtain ⟨v, hv⟩ := h
      refine same ?_ ?_ ?_
      · simp only [step, dataAt_iff.2 hv]; rfl
      · simp only [step, dataAt_iff.2 hv]; rfl
      · simp
    | switch =>
      have hc : (es ++ [Event.switch]).countP (fun e => e matches .switch) =
        es.countP (fun e => e matches .switch) + 1 := by simp
      rw [hc, Nat.even_add_one, not_not]
      rcases hs with ⟨-, h2, h3⟩ | ⟨-, h2, h3⟩
      · right
        have : offersCluster s.button = true := List.isSuffixOf_iff_suffix.2 h2
        simp only [step, switch, this, if_true]
        exact ⟨rfl, by show _ <:+ useTree; decide +kernel, h3⟩
      · left
        have : ¬ offersCluster s.button = true := by
          intro h
          have h := List.isSuffixOf_iff_suffix.1 h
          rcases List.suffix_or_suffix_of_suffix h h2 with h | h <;> revert h <;> decide +kernel
        simp only [step, switch, if_neg this]
        exact ⟨rfl, by show _ <:+ useCluster; decide +kernel, h3⟩
    | slider v => exact same rfl rfl (by simp)
    | slider2 v => exact same rfl rfl (by simp)
    | circle p => exact h.elim
    | press l b x y => exact h.elim
    | release b => exact h.elim
    | move x y => exact h.elim
    | wheel d => exact h.elim
    | reset => exact h.elim
  · obtain ⟨h1, -, -, -, h5, -⟩ := other_step num lay h s
    refine same h1 h5 ?_
    cases e <;> first | exact absurd trivial h | simp

/-- **C94** The tree that is drawn is the part below the node chosen last in the outline. -/
theorem C94_chosen (num : Numbers S) (lay : Layouts) (ast : View) (es : List Event) :
    Chosen ast es (run num lay ast es).tree.data := by
  rw [(in_sync num lay ast es).2.1]
  refine session (P := fun es (s : State S) => Chosen ast es s.current) (.inl ⟨rfl, by simp⟩) ?_ es
  clear es
  intro es s e hs
  have same : (step num lay ast s e).current = s.current → (∀ p w, NodeAt ast p w → e ≠ .outlineLabel p) →
      Chosen ast (es ++ [e]) (step num lay ast s e).current := by
    intro h1 h2
    rw [h1]
    rcases hs with ⟨h, hn⟩ | ⟨b, p, a, rfl, hp, ha⟩
    · refine .inl ⟨h, fun p w hw hm => ?_⟩
      rcases List.mem_append.1 hm with hm | hm
      · exact hn p w hw hm
      · exact h2 p w hw (List.mem_singleton.1 hm).symm
    · refine .inr ⟨b, p, a ++ [e], by simp, hp, fun q w hw hm => ?_⟩
      rcases List.mem_append.1 hm with hm | hm
      · exact ha q w hw hm
      · exact h2 q w hw (List.mem_singleton.1 hm).symm
  by_cases h : Redraws ast e
  · cases e with
    | outlineLabel p =>
      obtain ⟨v, hv⟩ := h
      refine .inr ⟨es, p, [], rfl, ?_, by simp⟩
      simp only [step, dataAt_iff.2 hv]
      exact hv
    | switch =>
      refine same ?_ (fun _ _ _ h => by cases h)
      simp only [step, switch]
      split <;> rfl
    | slider v => exact same rfl (fun _ _ _ h => by cases h)
    | slider2 v => exact same rfl (fun _ _ _ h => by cases h)
    | circle p => exact h.elim
    | press l b x y => exact h.elim
    | release b => exact h.elim
    | move x y => exact h.elim
    | wheel d => exact h.elim
    | reset => exact h.elim
  · refine same (other_step num lay h s).2.1 ?_
    rintro p w hw rfl
    exact h ⟨w, hw⟩

/-- **C94** The distances of the tree that is drawn are those the sliders have been set to last. -/
theorem C94_sliders (num : Numbers S) (lay : Layouts) (ast : View) (es : List Event) :
    (run num lay ast es).tree.dx = lastValue sliderOf 128 es ∧ (run num lay ast es).tree.dy = lastValue slider2Of 96 es := by
  rw [(in_sync num lay ast es).2.2.1, (in_sync num lay ast es).2.2.2]
  refine session (P := fun es (s : State S) => s.astWidth = lastValue sliderOf 128 es ∧
    s.astHeight = lastValue slider2Of 96 es) ⟨rfl, rfl⟩ ?_ es
  clear es
  intro es s e hs
  have key : (step num lay ast s e).astWidth = (sliderOf e).getD s.astWidth ∧
      (step num lay ast s e).astHeight = (slider2Of e).getD s.astHeight := by
    by_cases h : Redraws ast e
    · cases e with
      | outlineLabel p =>
        obtain ⟨v, hv⟩ := h
        simp only [step, dataAt_iff.2 hv]
        exact ⟨rfl, rfl⟩
      | switch =>
        simp only [step, switch]
        split <;> exact ⟨rfl, rfl⟩
      | slider v => exact ⟨rfl, rfl⟩
      | slider2 v => exact ⟨rfl, rfl⟩
      | circle p => exact h.elim
      | press l b x y => exact h.elim
      | release b => exact h.elim
      | move x y => exact h.elim
      | wheel d => exact h.elim
      | reset => exact h.elim
    · obtain ⟨-, -, h1, h2, -⟩ := other_step num lay h s
      rw [h1, h2]
      cases e <;> first | exact absurd trivial h | exact ⟨rfl, rfl⟩
  have last : ∀ (f : Event → Option Nat) (d : Nat), lastValue f d (es ++ [e]) = (f e).getD (lastValue f d es) := by
    intro f d
    rw [lastValue, List.filterMap_append]
    cases he : f e with
    | none => simp [he, lastValue]
    | some v => simp [he]
  rw [key.1, key.2, last, last, hs.1, hs.2]
  exact ⟨rfl, rfl⟩

/-- **C94** What is drawn: the tree for the current choice, layout and distances, folded by the presses on labels since
it has been drawn last, and the outline, folded by all clicks on circles: so that C92 and C91 describe what is seen. -/
theorem C94_drawn (num : Numbers S) (lay : Layouts) (ast : View) (es : List Event) :
    let s := run num lay ast es
    (∃ presses, PressesSince ast es presses ∧ s.tree.svg =
      presses.foldl (pressLabel (lay s.tree.kind s.tree.dx s.tree.dy) s.tree.data)
        (Outline.tree (lay s.tree.kind s.tree.dx s.tree.dy) s.tree.data)) ∧
    s.outline = (es.filterMap circled).foldl (clickCircle ast) (Outline.outline ast) := by
  intro s
  constructor
  · refine session (P := fun es (s : State S) => ∃ presses, PressesSince ast es presses ∧ s.tree.svg =
      presses.foldl (pressLabel (lay s.tree.kind s.tree.dx s.tree.dy) s.tree.data)
        (Outline.tree (lay s.tree.kind s.tree.dx s.tree.dy) s.tree.data))
      ⟨[], ⟨[], [], rfl, .inl rfl, by simp, rfl⟩, rfl⟩ ?_ es
    clear s es
    rintro es s e ⟨ps, ⟨b, a, rfl, hb, ha, rfl⟩, hs⟩
    by_cases h : Redraws ast e
    · refine ⟨[], ⟨b ++ a ++ [e], [], by simp, .inr ⟨_, _, rfl, h⟩, by simp, rfl⟩, ?_⟩
      obtain ⟨k, c, w, h', b, e1⟩ := redraw_step num lay h s
      rw [e1]
      rfl
    · refine ⟨(a ++ [e]).filterMap pressed, ⟨b, a ++ [e], by simp, hb, ?_, rfl⟩, ?_⟩
      · intro e' he'
        rcases List.mem_append.1 he' with h1 | h1
        · exact ha e' h1
        · cases List.mem_singleton.1 h1
          exact h
      · obtain ⟨-, -, -, -, -, h1⟩ := other_step num lay h s
        rw [h1, List.filterMap_append, List.foldl_append]
        cases hp : pressed e with
        | none => simpa [hp] using hs
        | some p =>
          rw [List.filterMap_cons, hp]
          show pressLabel _ _ s.tree.svg p = _
          rw [hs]
          rfl
  · refine session (P := fun es (s : State S) =>
      s.outline = (es.filterMap circled).foldl (clickCircle ast) (Outline.outline ast)) rfl ?_ es
    clear s es
    intro es s e hs
    rw [List.filterMap_append, List.foldl_append, ← hs]
    by_cases h : Redraws ast e
    · obtain ⟨k, c, w, h', b, e1⟩ := redraw_step num lay h s
      rw [e1]
      cases e <;> first | exact h.elim | rfl
    · cases e with
      | outlineLabel p =>
        have : dataAt ast p = none := by
          cases hd : dataAt ast p with
          | none => rfl
          | some v => exact absurd ⟨v, dataAt_iff.1 hd⟩ h
        simp only [step, this]
        rfl
      | switch => exact absurd trivial h
      | slider v => exact absurd trivial h
      | slider2 v => exact absurd trivial h
      | circle p => rfl
      | press l b x y =>
        simp only [step, pointerdown]
        cases l <;> split <;> rfl
      | release b =>
        simp only [step, pointerup]
        split <;> rfl
      | move x y =>
        simp only [step, pointermove]
        split <;> rfl
      | wheel d => rfl
      | reset => rfl

/-- numbers in hundredths: the limits and the start of the page -/
def hundredths : Numbers Nat :=
  { min := 5, max := 400, one := 100, grow := fun s => s * 11 / 10, shrink := fun s => s * 10 / 11
    text := fun s => if s = 100 then chars! "1" else Vocabulary.natToString s }

example : hundredths.min ≤ hundredths.one ∧ hundredths.one ≤ hundredths.max ∧
    hundredths.text hundredths.one = chars! "1" := by decide +kernel

/-- zooming in far, dragging, folding, and then choosing a part of the tree -/
def visit : List Event :=
  List.replicate 20 (.wheel (-1)) ++ [.press (some [0]) 0 10 10, .move 30 5, .wheel 3, .move 15 (-30), .circle [0]]

example : let s := run hundredths (fun _ _ _ => plain) shownTree visit
    s.scale = 363 ∧ s.x = 5 ∧ s.y = -40 ∧ s.transform = chars! "translateX(5px) translateY(-40px) scale(363)" ∧
    s.tree.svg.elements.map (·.node) = [[], [0], [1]].reverse ∧ s.outline.elements.map (·.node) = [[], [0], [1]] := by
  decide +kernel

example : Held shownTree visit :=
  ⟨List.replicate 20 (.wheel (-1)), some [0], 10, 10, [.move 30 5, .wheel 3, .move 15 (-30), .circle [0]], rfl, by
    simp [Keeps, Redraws]⟩

example : let s := run hundredths (fun _ _ _ => plain) shownTree (visit ++ [.outlineLabel [0], .switch, .slider 200])
    s.scale = 100 ∧ s.x = 0 ∧ s.tree.kind = .cluster ∧ s.tree.dx = 200 ∧ s.tree.dy = 96 ∧ s.button = useTree ∧
    s.tree.svg.elements.map (·.label) = [chars! "y", chars! "x", chars! "a"] := by
  decide +kernel

end Viewer
end Syntaxis
