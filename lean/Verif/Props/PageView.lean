import Verif.Lemmas.Outline
import Mathlib.Data.List.Range
import Mathlib.Tactic.Linarith

/-!
# C91, C92: the outline and the tree on the drawn page
-/

namespace Syntaxis
namespace Outline
open PageView

/-- The `svg` shows the nodes of `root` that are `visible`: one element each with the label and tool tip of the node at
its place, and a line from every node to its parent. -/
structure Shows (root : View) (visible : Path → Prop) (label tip : View → Str) (place : Path → Int × Int) (s : Svg) :
    Prop where
  shown : ∀ p v, NodeAt root p v → ((∃ e ∈ s.elements, e.node = p) ↔ visible p)
  once : (s.elements.map (·.node)).Nodup
  element : ∀ e ∈ s.elements, ∃ v, NodeAt root e.node v ∧ e.label = label v ∧ e.tip = tip v ∧ (e.x, e.y) = place e.node
  linked : ∀ p v, NodeAt root p v → ((∃ l ∈ s.links, l.target = p) ↔ visible p ∧ p ≠ [])
  linkOnce : (s.links.map (·.target)).Nodup
  link : ∀ l ∈ s.links, ∃ a ∈ s.elements, ∃ b ∈ s.elements, ∃ i, b.node = i :: a.node ∧ l.target = b.node ∧
    (l.fromX, l.fromY) = (a.x, a.y) ∧ (l.toX, l.toY) = (b.x, b.y)

/-- what a join needs to know about the elements that are there -/
structure Sane (root : View) (label tip : View → Str) (s : Svg) : Prop where
  ids : (s.elements.map fun e => idOf root e.node).Nodup
  element : ∀ e ∈ s.elements, ∃ v, NodeAt root e.node v ∧ e.label = label v ∧ e.tip = tip v
  linkIds : (s.links.map fun l => idOf root l.target).Nodup
  link : ∀ l ∈ s.links, ∃ v, NodeAt root l.target v

theorem Shows.sane {root visible label tip place s} (h : Shows root visible label tip place s) : Sane root label tip s := by
  have hl : ∀ l ∈ s.links, ∃ v, NodeAt root l.target v := by
    intro l hl
    obtain ⟨a, -, b, hb, i, -, e, -⟩ := h.link l hl
    obtain ⟨v, hv, -⟩ := h.element b hb
    exact ⟨v, by rw [e]; exact hv⟩
  refine ⟨?_, fun e he => ?_, ?_, hl⟩
  · have := h.once
    rw [List.Nodup, List.pairwise_map] at this ⊢
    refine this.imp_of_mem fun {a b} ha hb hab e => ?_
    obtain ⟨v, hv, -⟩ := h.element a ha
    obtain ⟨w, hw, -⟩ := h.element b hb
    exact hab (idOf_inj hv hw e)
  · obtain ⟨v, h1, h2, h3, -⟩ := h.element e he
    exact ⟨v, h1, h2, h3⟩
  · have := h.linkOnce
    rw [List.Nodup, List.pairwise_map] at this ⊢
    refine this.imp_of_mem fun {a b} ha hb hab e => ?_
    obtain ⟨v, hv⟩ := hl a ha
    obtain ⟨w, hw⟩ := hl b hb
    exact hab (idOf_inj hv hw e)

theorem redraw_shows {root : View} {label tip : View → Str} {s : Svg} (h : Sane root label tip s)
    {visible : Path → Prop} (place : Path → Int × Int) {nodes : List (Path × View)} (box : Int × Int × Int × Int)
    (hn : (nodes.map (·.1)).Nodup) (hv : ∀ p v, (p, v) ∈ nodes ↔ NodeAt root p v ∧ visible p)
    (hup : ∀ i p, visible (i :: p) → visible p) :
    Shows root visible label tip place (redraw root label tip place nodes box s) := by
  have keys : ∀ l : List (Path × View), l.Sublist nodes → (l.map fun d => idOf root d.1).Nodup := by
    intro l hl
    have := (hl.map (·.1)).nodup hn
    rw [List.Nodup, List.pairwise_map] at this ⊢
    refine this.imp_of_mem fun {a b} ha hb hab e => ?_
    exact hab (idOf_inj ((hv _ _).1 (hl.subset ha)).1 ((hv _ _).1 (hl.subset hb)).1 e)
  have k1 := keys nodes (List.Sublist.refl _)
  have k2 := keys _ (List.filter_sublist (p := fun d : Path × View => !d.1.isEmpty) (l := nodes))
  have el : ∀ e ∈ (redraw root label tip place nodes box s).elements, ∃ v, (e.node, v) ∈ nodes ∧ e.label = label v ∧
      e.tip = tip v ∧ (e.x, e.y) = place e.node := by
    intro e' he
    rcases (mem_join k1).1 he with ⟨e, hem, ⟨p, v⟩, hd, hk, rfl⟩ | ⟨⟨p, v⟩, hd, -, rfl⟩
    · obtain ⟨w, h1, h2, h3⟩ := h.element e hem
      have hp := ((hv _ _).1 hd).1
      have e1 : p = e.node := idOf_inj hp h1 hk
      subst e1
      cases nodeAt_unique hp h1
      exact ⟨v, hd, h2, h3, rfl⟩
    · exact ⟨v, hd, rfl, rfl, rfl⟩
  have ex : ∀ p v, (p, v) ∈ nodes → ∃ e ∈ (redraw root label tip place nodes box s).elements, e.node = p := by
    intro p v hp
    by_cases hk : ∃ e ∈ s.elements, idOf root e.node = idOf root p
    · obtain ⟨e, he, hk⟩ := hk
      exact ⟨_, (mem_join k1).2 (.inl ⟨e, he, (p, v), hp, hk.symm, rfl⟩), rfl⟩
    · exact ⟨_, (mem_join k1).2 (.inr ⟨(p, v), hp, fun e he hk' => hk ⟨e, he, hk'⟩, rfl⟩), rfl⟩
  have lk : ∀ l ∈ (redraw root label tip place nodes box s).links, ∃ v, (l.target, v) ∈ nodes ∧ l.target ≠ [] ∧
      (l.fromX, l.fromY) = place l.target.tail ∧ (l.toX, l.toY) = place l.target := by
    intro l hl
    have : ∃ d ∈ nodes.filter (fun d => !d.1.isEmpty), l = { target := d.1, fromX := (place d.1.tail).1, fromY := (place d.1.tail).2, toX := (place d.1).1, toY := (place d.1).2 } := by
      rcases (mem_join k2).1 hl with ⟨-, -, d, hd, -, rfl⟩ | ⟨d, hd, -, rfl⟩
      · exact ⟨d, hd, rfl⟩
      · exact ⟨d, hd, rfl⟩
    obtain ⟨d, hd, rfl⟩ := this
    obtain ⟨hd, hne⟩ := List.mem_filter.1 hd
    exact ⟨d.2, hd, by simpa using hne, rfl, rfl⟩
  have lx : ∀ p v, (p, v) ∈ nodes → p ≠ [] → ∃ l ∈ (redraw root label tip place nodes box s).links, l.target = p := by
    intro p v hp hne
    have hp : (p, v) ∈ nodes.filter (fun d => !d.1.isEmpty) := List.mem_filter.2 ⟨hp, by simpa using hne⟩
    by_cases hk : ∃ l ∈ s.links, idOf root l.target = idOf root p
    · obtain ⟨l, he, hk⟩ := hk
      exact ⟨_, (mem_join k2).2 (.inl ⟨l, he, (p, v), hp, hk.symm, rfl⟩), rfl⟩
    · exact ⟨_, (mem_join k2).2 (.inr ⟨(p, v), hp, fun e he hk' => hk ⟨e, he, hk'⟩, rfl⟩), rfl⟩
  have nd : ∀ {α : Type} (l : List α) (f : α → Path), (l.map fun a => idOf root (f a)).Nodup → (l.map f).Nodup := by
    intro α l f hl
    refine List.Nodup.of_map (idOf root) ?_
    rwa [List.map_map]
  refine ⟨fun p v hp => ⟨?_, fun h1 => ex p v ((hv _ _).2 ⟨hp, h1⟩)⟩, ?_, fun e he => ?_, fun p v hp => ⟨?_, ?_⟩, ?_, ?_⟩
  · rintro ⟨e, he, rfl⟩
    obtain ⟨w, hw, -⟩ := el e he
    exact ((hv _ _).1 hw).2
  · exact nd _ _ (join_nodup k1 h.ids (fun _ => rfl) (fun _ _ => rfl))
  · obtain ⟨v, h1, h2⟩ := el e he
    exact ⟨v, ((hv _ _).1 h1).1, h2⟩
  · rintro ⟨l, hl, rfl⟩
    obtain ⟨w, hw, hne, -⟩ := lk l hl
    exact ⟨((hv _ _).1 hw).2, hne⟩
  · rintro ⟨h1, hne⟩
    exact lx p v ((hv _ _).2 ⟨hp, h1⟩) hne
  · exact nd _ _ (join_nodup k2 h.linkIds (fun _ => rfl) (fun _ _ => rfl))
  · intro l hl
    obtain ⟨w, hw, hne, h1, h2⟩ := lk l hl
    obtain ⟨hw, hw'⟩ := (hv _ _).1 hw
    rw [h1, h2]
    generalize l.target = q at *
    cases hw with
    | root => exact absurd rfl hne
    | @child p n i ks j _ hp hj =>
      have hvp := hup j p hw'
      obtain ⟨a, ha, ea⟩ := ex p _ ((hv _ _).2 ⟨hp, hvp⟩)
      obtain ⟨b, hb, eb⟩ := ex (j :: p) w ((hv _ _).2 ⟨hp.child hj, hw'⟩)
      obtain ⟨-, -, -, -, pa⟩ := el a ha
      obtain ⟨-, -, -, -, pb⟩ := el b hb
      exact ⟨a, ha, b, hb, j, by rw [ea, eb], eb.symm, by rw [pa, ea]; rfl, by rw [pb, eb]⟩

theorem mem_desc_iff (root : View) (folded : Path → Bool) (p : Path) (v : View) :
    (p, v) ∈ descendants root folded ↔ NodeAt root p v ∧ ∀ a, Above a p → folded a = false := by
  rw [mem_descendants, vis_iff]

theorem above_up {folded : Path → Bool} (i : Nat) (p : Path) (h : ∀ a, Above a (i :: p) → folded a = false) :
    ∀ a, Above a p → folded a = false := fun a ⟨s, _, e⟩ => h a ⟨i :: s, by simp, by rw [e]; rfl⟩

theorem sane_empty (root : View) (label tip : View → Str) (folded box) :
    Sane root label tip { folded, elements := [], links := [], box } := ⟨by simp, by simp, by simp, by simp⟩

theorem toggles {σ : Type} (f : σ → Path → σ) (folded : σ → Path → Bool)
    (h : ∀ s p, folded (f s p) = toggle (folded s) p) (s : σ) (cs : List Path) (a : Path) (h0 : folded s a = false) :
    folded (cs.foldl f s) a = false ↔ Even (cs.count a) := by
  have key : ∀ (cs : List Path) (s : σ), folded (cs.foldl f s) a = (folded s a != decide (¬ Even (cs.count a))) := by
    intro cs
    induction cs with
    | nil => intro s; simp
    | cons c cs ih =>
      intro s
      rw [List.foldl_cons, ih, h, toggle]
      by_cases e : a = c
      · subst e
        rw [if_pos rfl, List.count_cons_self]
        cases folded s a <;> by_cases hE : Even (cs.count a) <;> simp [hE, Nat.even_add_one]
      · rw [if_neg e, List.count_cons_of_ne (fun h => e h.symm)]
  rw [key, h0]
  simp

/-! ### C91 -/

theorem updateOutline_shows {root : View} {s : Svg} (h : Sane root name (fun _ => []) s) :
    Shows root (fun p => ∀ a, Above a p → s.folded a = false) name (fun _ => []) (outlinePlace root s.folded)
      (updateOutline root s) :=
  redraw_shows h _ _ (descendants_nodup _ _) (mem_desc_iff _ _) above_up

theorem outline_fresh (root : View) (cs : List Path) :
    ∃ s, Sane root name (fun _ => []) s ∧ cs.foldl (clickCircle root) (outline root) = updateOutline root s := by
  induction cs using List.reverseRecOn with
  | nil => exact ⟨_, sane_empty _ _ _ _ _, rfl⟩
  | append_singleton cs c ih =>
    obtain ⟨s, hs, e⟩ := ih
    rw [List.foldl_concat, e]
    have := (updateOutline_shows hs).sane
    exact ⟨{ updateOutline root s with folded := toggle (updateOutline root s).folded c }, ⟨this.1, this.2, this.3, this.4⟩, rfl⟩

theorem perm_nodes {root : View} {folded : Path → Bool} {label tip place s}
    (h : Shows root (fun p => ∀ a, Above a p → folded a = false) label tip place s) :
    (s.elements.map (·.node)).Perm ((before folded [] root).map (·.1)) := by
  rw [List.perm_ext_iff_of_nodup h.once (before_nodup _ _ _)]
  intro p
  simp only [List.mem_map, Prod.exists, exists_and_right, exists_eq_right]
  constructor
  · rintro ⟨e, he, rfl⟩
    obtain ⟨v, hv, -⟩ := h.element e he
    exact ⟨v, (mem_before _ _ _ _ _).2 (vis_iff.2 ⟨hv, (h.shown _ _ hv).1 ⟨e, he, rfl⟩⟩)⟩
  · rintro ⟨v, hv⟩
    obtain ⟨h1, h2⟩ := vis_iff.1 ((mem_before _ _ _ _ _).1 hv)
    exact (h.shown _ _ h1).2 h2

theorem idxOf_range {l : List Path} (h : l.Nodup) : l.map (fun p => l.idxOf p) = List.range l.length := by
  apply List.ext_getElem
  · simp
  · intro n h1 h2
    simp [h.idxOf_getElem]

/-- **C91** Whatever nodes of the outline are folded and unfolded: exactly the nodes all of whose ancestors have been
clicked an even number of times are shown, once each, with their names and a line to the parent; they are indented by
their depth, and every one has a row of its own; the rows follow each other without gaps in document order, inside the
visible part of the drawing. -/
theorem C91_outline (root : View) (clicks : List Path) :
    let s := clicks.foldl (clickCircle root) (outline root)
    (∃ rows : Path → Int, Shows root (Open clicks) nameOf (fun _ => []) (fun p => (25 * p.length, rows p)) s) ∧
    (s.elements.map (·.y)).Perm ((List.range s.elements.length).map fun n : Nat => 25 * (n : Int)) ∧
    (∀ e ∈ s.elements, ∀ e' ∈ s.elements, e.y < e'.y ↔ DocBefore e.node e'.node) ∧
    (∀ e ∈ s.elements, s.box.2.1 ≤ 2 * e.y - 25 ∧ 2 * e.y + 25 ≤ s.box.2.1 + s.box.2.2.2) := by
  intro s
  obtain ⟨s0, hs0, e⟩ := outline_fresh root clicks
  have hsh := updateOutline_shows hs0
  have hfold : s0.folded = s.folded := by
    show _ = (clicks.foldl (clickCircle root) (outline root)).folded
    rw [e]; rfl
  have hE : ∀ a, s.folded a = false ↔ Even (clicks.count a) := fun a =>
    toggles (clickCircle root) (·.folded) (fun _ _ => rfl) (outline root) clicks a rfl
  rw [← e] at hsh
  change Shows root _ _ _ _ s at hsh
  rw [hfold] at hsh
  have hp := perm_nodes hsh
  have hy : ∀ e ∈ s.elements, e.y = 25 * (((before s.folded [] root).map (·.1)).idxOf e.node : Int) ∧ e.x = 25 * e.node.length := by
    intro e he
    obtain ⟨v, -, -, -, h⟩ := hsh.element e he
    simp only [outlinePlace, Prod.mk.injEq, nodeSize] at h
    constructor <;> omega
  have hmem : ∀ e ∈ s.elements, e.node ∈ (before s.folded [] root).map (·.1) := fun e he =>
    hp.subset (List.mem_map.2 ⟨e, he, rfl⟩)
  have hlen : s.elements.length = (before s.folded [] root).length := by simpa using hp.length_eq
  have hdl : (descendants root s.folded).length = s.elements.length := by
    have : ((descendants root s.folded).map (·.1)).Perm ((before s.folded [] root).map (·.1)) := by
      rw [List.perm_ext_iff_of_nodup (descendants_nodup _ _) (before_nodup _ _ _)]
      intro p
      simp only [List.mem_map, Prod.exists, exists_and_right, exists_eq_right]
      simp only [mem_descendants, mem_before]
    have := this.length_eq
    simp at this
    omega
  refine ⟨⟨fun p => 25 * (((before s.folded [] root).map (·.1)).idxOf p : Int), ?_⟩, ?_, ?_, ?_⟩
  · have ho : (fun p => ∀ a, Above a p → s.folded a = false) = Open clicks := by
      funext p
      simp only [Open, hE]
    rw [ho] at hsh
    refine ⟨hsh.shown, hsh.once, fun e he => ?_, hsh.linked, hsh.linkOnce, hsh.link⟩
    obtain ⟨v, h1, h2, h3, -⟩ := hsh.element e he
    obtain ⟨h4, h5⟩ := hy e he
    exact ⟨v, h1, by rw [h2]; cases v <;> rfl, h3, by rw [h4, h5]⟩
  · have h1 : s.elements.map (·.y) = (s.elements.map (·.node)).map
        fun p => 25 * (((before s.folded [] root).map (·.1)).idxOf p : Int) := by
      rw [List.map_map]
      exact List.map_congr_left fun e he => (hy e he).1
    rw [h1, hlen]
    refine (hp.map _).trans ?_
    have := congrArg (List.map fun n : Nat => 25 * (n : Int)) (idxOf_range (before_nodup s.folded [] root))
    rw [List.map_map, List.length_map] at this
    exact List.Perm.of_eq this
  · intro a ha b hb
    rw [(hy a ha).1, (hy b hb).1]
    have hs := before_sorted s.folded [] root
    have ma := hmem a ha
    have mb := hmem b hb
    generalize (before s.folded [] root).map (·.1) = l at hs ma mb
    have lt : ∀ p q, p ∈ l → q ∈ l → l.idxOf p < l.idxOf q → DocBefore p q := by
      intro p q hp hq h
      have := List.pairwise_iff_getElem.1 hs (l.idxOf p) (l.idxOf q) (List.idxOf_lt_length_iff.2 hp) (List.idxOf_lt_length_iff.2 hq) h
      simpa using this
    constructor
    · intro h
      exact lt _ _ ma mb (by omega)
    · intro h
      by_contra hn
      rcases Nat.lt_or_ge (l.idxOf b.node) (l.idxOf a.node) with h1 | h1
      · exact lt_asymm (show b.node.reverse < a.node.reverse from lt _ _ mb ma h1) h
      · have h2 : l.idxOf a.node = l.idxOf b.node := by omega
        have h3 := (List.idxOf_inj ma).1 h2
        rw [h3] at h
        exact lt_irrefl _ (show b.node.reverse < b.node.reverse from h)
  · intro e' he'
    have hb : s.box = (-nodeSize, -3 * nodeSize, 2 * outlineWidth root, 2 * (((descendants root s.folded).length + 1) * nodeSize)) := by
      rw [← hfold]
      show (clicks.foldl (clickCircle root) (outline root)).box = _
      rw [e]; rfl
    rw [hb, hdl, (hy e' he').1]
    have h1 := List.idxOf_lt_length_iff.2 (hmem e' he')
    rw [List.length_map, ← hlen] at h1
    simp only [nodeSize]
    constructor <;> omega

/-- the length of a string as JavaScript counts it -/
def utf16Length (s : Str) : Nat := s.length + s.countP fun c => decide (0x10000 ≤ c.toNat)

theorem utf16_sum (s : Str) : (s.map fun c => if c.toNat < 0x10000 then 1 else 2).sum = (utf16Length s : Int) := by
  induction s with
  | nil => rfl
  | cons c s ih =>
    rw [List.map_cons, List.sum_cons, ih, utf16Length, utf16Length, List.countP_cons, List.length_cons]
    by_cases h : c.toNat < 0x10000
    · rw [if_pos h, if_neg (by simpa using h)]
      omega
    · rw [if_neg h, if_pos (by simpa using h)]
      omega

/-- **C91** The width of the outline: room for the indentation and 13 units for each character of the name of every
node, folded or not, and not more than that, but at least 255. -/
theorem C91_width (root : View) (clicks : List Path) :
    let w := (clicks.foldl (clickCircle root) (outline root)).box.2.2.1
    let need := fun (p : Path) (v : View) => 25 * (p.length : Int) + 13 * utf16Length (nameOf v) + 6
    2 * 255 ≤ w ∧ (∀ p v, NodeAt root p v → 2 * need p v ≤ w) ∧
      (w = 2 * 255 ∨ ∃ p v, NodeAt root p v ∧ w = 2 * need p v) := by
  intro w need
  have hw : w = 2 * outlineWidth root := by
    obtain ⟨s0, -, e⟩ := outline_fresh root clicks
    show (clicks.foldl (clickCircle root) (outline root)).box.2.2.1 = _
    rw [e]; rfl
  have hn : ∀ d : Path × View, d.1.length * nodeSize +
      ((name d.2).map fun c => if c.toNat < 0x10000 then 1 else 2).sum * 13 + 6 = need d.1 d.2 := by
    rintro ⟨p, v⟩
    rw [utf16_sum]
    have : name v = nameOf v := by cases v <;> rfl
    simp only [nodeSize, need, this]
    omega
  have key : ∀ (l : List (Path × View)) (w0 : Int),
      let r := l.foldl (fun width d =>
        let tmp := d.1.length * nodeSize + ((name d.2).map fun c => if c.toNat < 0x10000 then 1 else 2).sum * 13 + 6
        if tmp > width then tmp else width) w0
      w0 ≤ r ∧ (∀ d ∈ l, need d.1 d.2 ≤ r) ∧ (r = w0 ∨ ∃ d ∈ l, r = need d.1 d.2) := by
    intro l
    induction l with
    | nil => intro w0; simp
    | cons d l ih =>
      intro w0
      rw [List.foldl_cons]
      dsimp only
      rw [hn]
      obtain ⟨h1, h2, h3⟩ := ih (if need d.1 d.2 > w0 then need d.1 d.2 else w0)
      have h4 : w0 ≤ (if need d.1 d.2 > w0 then need d.1 d.2 else w0) ∧
          need d.1 d.2 ≤ (if need d.1 d.2 > w0 then need d.1 d.2 else w0) := by
        split <;> constructor <;> omega
      refine ⟨h4.1.trans h1, ?_, ?_⟩
      · intro d' hd'
        rcases List.mem_cons.1 hd' with rfl | hd'
        · exact h4.2.trans h1
        · exact h2 d' hd'
      · rcases h3 with h3 | ⟨d', hd', h3⟩
        · by_cases h5 : need d.1 d.2 > w0
          · exact .inr ⟨d, by simp, by rw [h3, if_pos h5]⟩
          · exact .inl (by rw [h3, if_neg h5])
        · exact .inr ⟨d', by simp [hd'], h3⟩
  have hk := key (descendants root fun _ => false) 255
  change 255 ≤ outlineWidth root ∧ (∀ d ∈ descendants root fun _ => false, need d.1 d.2 ≤ outlineWidth root) ∧
    (outlineWidth root = 255 ∨ ∃ d ∈ descendants root fun _ => false, outlineWidth root = need d.1 d.2) at hk
  obtain ⟨h1, h2, h3⟩ := hk
  have hm : ∀ p v, (p, v) ∈ descendants root (fun _ => false) ↔ NodeAt root p v := fun p v => by
    rw [mem_descendants, vis_all]
  rw [hw]
  refine ⟨by omega, fun p v hv => ?_, ?_⟩
  · have := h2 (p, v) ((hm p v).2 hv)
    dsimp only at this
    omega
  · rcases h3 with h3 | ⟨⟨p, v⟩, hd, h3⟩
    · exact .inl (by rw [h3])
    · exact .inr ⟨p, v, (hm p v).1 hd, by rw [h3]⟩

/-! ### C92 -/

theorem updateTree_shows (lay : Layout) {root : View} {s : Svg} (h : Sane root treeLabel treeTip s) :
    Shows root (fun p => ∀ a, Above a p → s.folded a = false) treeLabel treeTip (lay root s.folded)
      (updateTree lay root s) :=
  redraw_shows h _ _ (by rw [List.map_reverse, List.nodup_reverse]; exact descendants_nodup _ _)
    (fun p v => by rw [List.mem_reverse]; exact mem_desc_iff _ _ _ _) above_up

theorem tree_fresh (lay : Layout) (root : View) (ps : List Path) :
    ∃ s, Sane root treeLabel treeTip s ∧ ps.foldl (pressLabel lay root) (tree lay root) = updateTree lay root s := by
  induction ps using List.reverseRecOn with
  | nil => exact ⟨_, sane_empty _ _ _ _ _, rfl⟩
  | append_singleton ps c ih =>
    obtain ⟨s, hs, e⟩ := ih
    rw [List.foldl_concat, e]
    have := (updateTree_shows lay hs).sane
    exact ⟨{ updateTree lay root s with folded := toggle (updateTree lay root s).folded c }, ⟨this.1, this.2, this.3, this.4⟩, rfl⟩

theorem extent_bounds (place : Path → Int × Int) (nodes : List (Path × View)) :
    ∀ d ∈ nodes, (extent place nodes).1 ≤ (place d.1).1 ∧ (place d.1).1 ≤ (extent place nodes).2.1 ∧
      (extent place nodes).2.2.1 ≤ (place d.1).2 ∧ (place d.1).2 ≤ (extent place nodes).2.2.2 := by
  have key : ∀ (nodes : List (Path × View)) (e : Int × Int × Int × Int),
      let r := nodes.foldl (fun (l, r, t, b) (d : Path × View) =>
        let (x, y) := place d.1
        (if x < l then x else l, if x > r then x else r, if y < t then y else t, if y > b then y else b)) e
      (r.1 ≤ e.1 ∧ e.2.1 ≤ r.2.1 ∧ r.2.2.1 ≤ e.2.2.1 ∧ e.2.2.2 ≤ r.2.2.2) ∧
      ∀ d ∈ nodes, r.1 ≤ (place d.1).1 ∧ (place d.1).1 ≤ r.2.1 ∧ r.2.2.1 ≤ (place d.1).2 ∧ (place d.1).2 ≤ r.2.2.2 := by
    intro nodes
    induction nodes with
    | nil => intro e; simp
    | cons d nodes ih =>
      intro e
      rw [List.foldl_cons]
      obtain ⟨h1, h2⟩ := ih (
        (if (place d.1).1 < e.1 then (place d.1).1 else e.1, if (place d.1).1 > e.2.1 then (place d.1).1 else e.2.1,
         if (place d.1).2 < e.2.2.1 then (place d.1).2 else e.2.2.1,
         if (place d.1).2 > e.2.2.2 then (place d.1).2 else e.2.2.2))
      refine ⟨?_, ?_⟩
      · obtain ⟨a1, a2, a3, a4⟩ := h1
        dsimp only at a1 a2 a3 a4
        refine ⟨a1.trans ?_, le_trans ?_ a2, a3.trans ?_, le_trans ?_ a4⟩ <;> split <;> omega
      · intro d' hd'
        rcases List.mem_cons.1 hd' with rfl | hd'
        · obtain ⟨a1, a2, a3, a4⟩ := h1
          dsimp only at a1 a2 a3 a4
          refine ⟨a1.trans ?_, le_trans ?_ a2, a3.trans ?_, le_trans ?_ a4⟩ <;> split <;> omega
        · exact h2 d' hd'
  exact (key nodes _).2

/-- **C92** Whatever nodes of the tree are folded and unfolded, and whatever the layout: exactly the nodes all of whose
ancestors have been pressed an even number of times are shown, once each, at the place the layout gives them and with a
line to the parent, and the drawing is large enough for all of them with the margins.  What is missing for the property: a rule
without children has no label, see `C92_empty_rule`; all other nodes have the label and the tool tip they should have. -/
theorem C92_tree_partial (lay : Layout) (root : View) (presses : List Path) :
    let s := presses.foldl (pressLabel lay root) (tree lay root)
    (∃ label tip place, Shows root (Open presses) label tip place s ∧ place = lay root s.folded ∧
      ∀ v, (∀ n i, v ≠ .node n i []) → label v = labelOf v ∧ tip v = tipOf v) ∧
    (∀ a, s.folded a = false ↔ Even (presses.count a)) ∧
    ∀ e ∈ s.elements, s.box.1 ≤ 2 * (e.x - 40) ∧ 2 * (e.x + 120) ≤ s.box.1 + s.box.2.2.1 ∧
      s.box.2.1 ≤ 2 * (e.y - 40) ∧ 2 * (e.y + 10) ≤ s.box.2.1 + s.box.2.2.2 := by
  intro s
  obtain ⟨s0, hs0, e⟩ := tree_fresh lay root presses
  have hsh := updateTree_shows lay hs0
  have hfold : s0.folded = s.folded := by
    show _ = (presses.foldl (pressLabel lay root) (tree lay root)).folded
    rw [e]; rfl
  have hE : ∀ a, s.folded a = false ↔ Even (presses.count a) := fun a =>
    toggles (pressLabel lay root) (·.folded) (fun _ _ => rfl) (tree lay root) presses a rfl
  rw [← e] at hsh
  change Shows root _ _ _ _ s at hsh
  rw [hfold] at hsh
  have ho : (fun p => ∀ a, Above a p → s.folded a = false) = Open presses := by
    funext p
    simp only [Open, hE]
  refine ⟨⟨treeLabel, treeTip, _, ho ▸ hsh, rfl, ?_⟩, hE, ?_⟩
  · intro v hv
    cases v with
    | leaf n t => exact ⟨rfl, rfl⟩
    | node n i ks =>
      cases ks with
      | nil => exact absurd rfl (hv n i)
      | cons k ks => exact ⟨rfl, by simp [treeTip, hasKids, kids, dataId, tipOf, Nat.repr]⟩
  · intro x hx
    have hb : s.box = treeBox (lay root s.folded) (before s.folded [] root) := by
      rw [← hfold]
      show (presses.foldl (pressLabel lay root) (tree lay root)).box = _
      rw [e]; rfl
    have hm := (perm_nodes hsh).subset (List.mem_map.2 ⟨x, hx, rfl⟩)
    obtain ⟨d, hd, hd'⟩ := List.mem_map.1 hm
    obtain ⟨b1, b2, b3, b4⟩ := extent_bounds (lay root s.folded) _ d hd
    obtain ⟨v, -, -, -, hx'⟩ := hsh.element x hx
    rw [← hd'] at hx'
    have e1 : x.x = (lay root s.folded d.1).1 := congrArg Prod.fst hx'
    have e2 : x.y = (lay root s.folded d.1).2 := congrArg Prod.snd hx'
    rw [hb, e1, e2]
    simp only [treeBox]
    generalize extent (lay root s.folded) (before s.folded [] root) = E at *
    obtain ⟨l, r, t, b⟩ := E
    dsimp only at *
    omega

/-- **C92** is false of the code: a rule without children (one that matched the empty word) is drawn without any label,
whatever its name; the name is the tool tip instead of the number. -/
theorem C92_empty_rule (lay : Layout) (root : View) (presses : List Path) (n : Str) (i : Nat) :
    ∀ e ∈ (presses.foldl (pressLabel lay root) (tree lay root)).elements, NodeAt root e.node (.node n i []) →
      e.label = [] ∧ e.tip = n := by
  intro x hx hn
  obtain ⟨s0, hs0, e⟩ := tree_fresh lay root presses
  rw [e] at hx
  obtain ⟨v, hv, hl, ht, -⟩ := (updateTree_shows lay hs0).element x hx
  cases nodeAt_unique hv hn
  exact ⟨hl, ht⟩

/-- a rule with a child without children: the second rule has matched the empty word -/
def shownTree : View :=
  .node (chars! "s") 1 [.node (chars! "a") 2 [.leaf (chars! "X") (chars! "x"), .leaf (chars! "Y") (chars! "y")],
    .node (chars! "b") 3 []]

example : (outline shownTree).elements.map (fun e => (e.node, e.label, e.y)) =
    [([], chars! "s", 0), ([0], chars! "a", 25), ([1], chars! "b", 100), ([0, 0], chars! "X", 50),
      ([1, 0], chars! "Y", 75)] := by decide +kernel

example : ([[0]].foldl (clickCircle shownTree) (outline shownTree)).elements.map (fun e => (e.node, e.label, e.y)) =
    [([], chars! "s", 0), ([0], chars! "a", 25), ([1], chars! "b", 50)] := by decide +kernel

/-- folding the root over a folded child, and unfolding it again: the child is still folded -/
example : ([[0], [], []].foldl (clickCircle shownTree) (outline shownTree)).elements.map (·.node) = [[], [0], [1]] ∧
    ([[0], [], []].foldl (clickCircle shownTree) (outline shownTree)).links.map (fun l => (l.target, l.fromY, l.toY)) =
      [([0], 0, 25), ([1], 0, 50)] := by decide +kernel

example : DocBefore [1, 0] [1] ∧ ¬ DocBefore [1] [0, 0] ∧ Open [[0], [0], [1]] [0, 0] ∧ ¬ Open [[0]] [1, 0] := by
  refine ⟨by unfold DocBefore; decide, by unfold DocBefore; decide, ?_, fun h => ?_⟩
  · rintro a ⟨s, hs, e⟩
    rcases s with - | ⟨x, s⟩
    · exact absurd rfl hs
    · simp only [List.cons_append, List.cons.injEq] at e
      rcases s with - | ⟨y, s⟩
      · rw [List.nil_append] at e
        rw [← e.2]
        decide
      · simp only [List.cons_append, List.cons.injEq] at e
        have e' := List.append_eq_nil_iff.1 e.2.2.symm
        rw [e'.2]
        decide
  · have := h [0] ⟨[1], by simp, rfl⟩
    revert this
    decide

/-- a layout: the place tells the path -/
def plain : Layout := fun _ _ p => (10 * (p.headD 0 : Int), 100 * (p.length : Int))

example : (tree plain shownTree).elements.map (fun e => (e.node, e.label, e.tip, e.x, e.y)) =
    [([1, 0], chars! "y", chars! "Y", 10, 200), ([0, 0], chars! "x", chars! "X", 0, 200), ([1], [], chars! "b", 10, 100),
      ([0], chars! "a", chars! "2", 0, 100), ([], chars! "s", chars! "1", 0, 0)] ∧
    (tree plain shownTree).box = (-80, -80, 340, 500) := by decide +kernel

end Outline
end Syntaxis
