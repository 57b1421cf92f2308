import Verif.Spec.Js

/-!
# The script of `templates/gui/ast.html`: the two views of the tree

The data of the script is a `View` (`Spec/Js`): the objects `{name, text}` and `{name, id, children}` of the literal that
the drawer writes (C49, C68).  A node object of `d3.hierarchy(data)` is identified by its path: the positions of the
children on the way from the root, the last one first.  Of a node object the script uses `data`, `depth` (the length of
the path), `id`, `children`, `_children` and the coordinates; `children` is `_children` or `null`, so that one flag per
node describes it.

`d3` (version 7, loaded by line 103) is not part of the repository; its documented behaviour is modelled:
`hierarchy` (nodes without children have no `children`), `descendants` (breadth first), `eachBefore` (pre-order), `links`
(one per node with a parent) and the data join with a key.  A transition is modelled by its end.  Coordinates are
integers: a unit in which all of them are whole is assumed.
-/

namespace Syntaxis
namespace Outline

/-- a node object of the hierarchy (`ast.html:161,291`) -/
abbrev Path := List Nat

/-- `data.name` (`ast.html:172,227,361,370`) -/
def name : View → Str
  | .leaf n _ => n
  | .node n _ _ => n

/-- `d.data.text`, as written by `.text(…)` (nothing for `undefined`) (`ast.html:370`) -/
def dataText : View → Str
  | .leaf _ t => t
  | .node _ _ _ => []

/-- `d.data.id`, as written by `.text(…)` (nothing for `undefined`) (`ast.html:361`) -/
def dataId : View → Str
  | .leaf _ _ => []
  | .node _ i _ => (Nat.repr i).toList

/-- `d3.hierarchy`: the children of a node (`ast.html:161,291`) -/
def kids : View → List View
  | .leaf _ _ => []
  | .node _ _ ks => ks

/-- `d._children`, as a condition: `hierarchy` sets `children` on nodes with at least one child only
(`ast.html:165,218,298,361,370`) -/
def hasKids (v : View) : Bool := !(kids v).isEmpty

/-- the nodes one level below these: `node.children` of each.  Used by `ast.html:163,197,296,321`. -/
def nextLevel (folded : Path → Bool) (l : List (Path × View)) : List (Path × View) :=
  l.flatMap fun d => if folded d.1 then [] else (kids d.2).mapIdx fun i k => (i :: d.1, k)

/-- `node.descendants()`: level by level; the first argument bounds the number of levels
(`ast.html:163,197,296,321`) -/
def levels (folded : Path → Bool) : Nat → List (Path × View) → List (Path × View)
  | 0, _ => []
  | n + 1, l => if l.isEmpty then [] else l ++ levels folded n (nextLevel folded l)

mutual
/-- the number of levels.  Bounds `levels` (`ast.html:163`). -/
def height : View → Nat
  | .leaf _ _ => 1
  | .node _ _ ks => heightAll ks + 1
/-- the most levels below these nodes.  Bounds `levels` (`ast.html:163`). -/
def heightAll : List View → Nat
  | [] => 0
  | k :: ks => max (height k) (heightAll ks)
end

/-- `root.descendants()` (`ast.html:163,197,296,321`) -/
def descendants (root : View) (folded : Path → Bool) : List (Path × View) := levels folded (height root) [([], root)]

mutual
/-- `eachBefore`: the node, and then its children from left to right (`ast.html:192,331`) -/
def before (folded : Path → Bool) (p : Path) : View → List (Path × View)
  | .leaf n t => [(p, .leaf n t)]
  | .node n i ks => (p, .node n i ks) :: if folded p then [] else beforeAll folded p 0 ks
/-- `eachBefore` on the children of a node, from the `i`-th on.  `ast.html:192,331` -/
def beforeAll (folded : Path → Bool) (p : Path) : Nat → List View → List (Path × View)
  | _, [] => []
  | i, k :: ks => before folded (i :: p) k ++ beforeAll folded p (i + 1) ks
end

/-- `ast.html:163-164,296-297`: `root.descendants().forEach((d, i) => { d.id = i; … })`, when all nodes are open -/
def idOf (root : View) (p : Path) : Nat := ((descendants root fun _ => false).map (·.1)).idxOf p

/-- a `g` element of a view (`ast.html:207-246,349-391`): the node bound to it, its label, its tool tip and its place -/
structure Element where
  node : Path
  label : Str
  tip : Str
  x : Int
  y : Int
  deriving DecidableEq

/-- a `path` element of a view (`ast.html:248-269,393-412`): the node it leads to, and its ends -/
structure Link where
  target : Path
  fromX : Int
  fromY : Int
  toX : Int
  toY : Int
  deriving DecidableEq

/-- `selectAll(…).data(nodes, d => d.id)`, `enter().append`, `merge`, `exit().remove()`: elements whose key is among those
of the data are bound to the datum with this key and get new coordinates (`move`), the others are removed, and data
without an element get a new one (`enter`) (`ast.html:207-246,350-390`) -/
def join {δ ε : Type} (key : δ → Nat) (keyOf : ε → Nat) (enter : δ → ε) (move : δ → ε → ε) (data : List δ)
    (dom : List ε) : List ε :=
  dom.filterMap (fun e => (data.find? fun d => key d == keyOf e).map fun d => move d e) ++
    (data.filter fun d => !(dom.map keyOf).contains (key d)).map enter

/-- what one of the two `svg`s holds (`ast.html:176-186,302-316`) -/
structure Svg where
  folded : Path → Bool
  elements : List Element
  links : List Link
  /-- `viewBox`: left, top, width, height, in half units -/
  box : Int × Int × Int × Int

/-- `update` (`ast.html:189-270,318-413`) given the coordinates `place` and the labels; `nodes` is `root.descendants()`
(`reverse()` in line 321 does not matter for a join, but is done) -/
def redraw (root : View) (label tip : View → Str) (place : Path → Int × Int) (nodes : List (Path × View))
    (box : Int × Int × Int × Int) (s : Svg) : Svg :=
  let key := fun d : Path × View => idOf root d.1
  let enter := fun d : Path × View =>
    { node := d.1, label := label d.2, tip := tip d.2, x := (place d.1).1, y := (place d.1).2 : Element }
  let move := fun (d : Path × View) (e : Element) => { e with node := d.1, x := (place d.1).1, y := (place d.1).2 }
  let line := fun d : Path × View =>
    { target := d.1, fromX := (place d.1.tail).1, fromY := (place d.1.tail).2,
      toX := (place d.1).1, toY := (place d.1).2 : Link }
  { s with
    elements := join key (fun e => idOf root e.node) enter move nodes s.elements
    links := join key (fun l => idOf root l.target) line (fun d _ => line d) (nodes.filter fun d => !d.1.isEmpty) s.links
    box }

/-! ## the outline on the left: `indentTree` -/

/-- `ast.html:157`: `nodeSize` -/
def nodeSize : Int := 25

/-- `ast.html:158-174`: the width computed at the start (`minWidth` is 255); `length` counts UTF-16 code units -/
def outlineWidth (root : View) : Int :=
  (descendants root fun _ => false).foldl (fun width d =>
    let tmp := d.1.length * nodeSize + ((name d.2).map fun c => if c.toNat < 0x10000 then 1 else 2).sum * 13 + 6
    if tmp > width then tmp else width) 255

/-- `ast.html:192-194` and the attributes `cx`: indentation by depth, one row per node in pre-order -/
def outlinePlace (root : View) (folded : Path → Bool) (p : Path) : Int × Int :=
  (p.length * nodeSize, ((before folded [] root).map (·.1)).idxOf p * nodeSize)

/-- `ast.html:189-270`, `update` of `indentTree` -/
def updateOutline (root : View) (s : Svg) : Svg :=
  let nodes := descendants root s.folded
  redraw root name (fun _ => []) (outlinePlace root s.folded) nodes
    (-nodeSize, -3 * nodeSize, 2 * outlineWidth root, 2 * ((nodes.length + 1) * nodeSize)) s

/-- `ast.html:157-274`, `indentTree` -/
def outline (root : View) : Svg :=
  updateOutline root
    { folded := fun _ => false, elements := [], links := []
      box := (-nodeSize, -3 * nodeSize, 2 * outlineWidth root, 4 * nodeSize) }

/-- `d.children = d.children ? null : d._children` (`ast.html:220,372`) -/
def toggle (folded : Path → Bool) (p : Path) : Path → Bool := fun q => if q = p then !folded q else folded q

/-- `ast.html:219-222`: a click on the circle of a node -/
def clickCircle (root : View) (s : Svg) (p : Path) : Svg := updateOutline root { s with folded := toggle s.folded p }

/-! ## the tree: `collapsibleTree` -/

/-- A layout of `d3` (`d3.tree` or `d3.cluster` with a node size): it gives coordinates to the nodes that are open
(`ast.html:293,325`) -/
abbrev Layout := View → (Path → Bool) → Path → Int × Int

/-- `ast.html:327-336`: the outermost coordinates in the four directions: least and greatest `x`, least and greatest
`y` -/
def extent (place : Path → Int × Int) (nodes : List (Path × View)) : Int × Int × Int × Int :=
  nodes.foldl (fun (l, r, t, b) d =>
    let (x, y) := place d.1
    (if x < l then x else l, if x > r then x else r, if y < t then y else t, if y > b then y else b))
    ((place []).1, (place []).1, (place []).2, (place []).2)

/-- `ast.html:339-346` with the margins of line 288 -/
def treeBox (place : Path → Int × Int) (nodes : List (Path × View)) : Int × Int × Int × Int :=
  let (left, right, top, bottom) := extent place nodes
  (2 * (-40 + left), 2 * (top - 40), 2 * (right - left + 40 + 120), 2 * (bottom - top + 40 + 10))

/-- `ast.html:370`: the label -/
def treeLabel (v : View) : Str := if hasKids v then name v else dataText v

/-- `ast.html:361`: the tool tip -/
def treeTip (v : View) : Str := if hasKids v then dataId v else name v

/-- `ast.html:318-413`, `update` of `collapsibleTree` -/
def updateTree (lay : Layout) (root : View) (s : Svg) : Svg :=
  let place := lay root s.folded
  redraw root treeLabel treeTip place (descendants root s.folded).reverse (treeBox place (before s.folded [] root)) s

/-- `ast.html:276-418`, `collapsibleTree` -/
def tree (lay : Layout) (root : View) : Svg :=
  updateTree lay root { folded := fun _ => false, elements := [], links := [], box := (0, 0, 0, 0) }

/-- `ast.html:371-374`: pressing the pointer on the label of a node -/
def pressLabel (lay : Layout) (root : View) (s : Svg) (p : Path) : Svg :=
  updateTree lay root { s with folded := toggle s.folded p }

end Outline
end Syntaxis
