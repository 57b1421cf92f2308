import Verif.Model.Outline
import Verif.Model.Vocabulary

/-!
# The script of `templates/gui/ast.html`: zooming, dragging and the controls

The state is `config` (`ast.html:106-116`), the two `svg`s, the text of the button and the style of the container.
Numbers: positions of the pointer are integers; the factor of the zoom is a value of some ordered type with the
multiplications by 1.1 and 1/1.1 as arbitrary functions, so that nothing depends on rounding.  Not modelled: the size of
the container (`setSize`), `setPointerCapture`, `preventDefault`, and that the elements that are clicked have to be on the
screen.
-/

namespace Syntaxis
namespace Viewer
open Outline

/-- the numbers used for the zoom (`ast.html:104,109,428-435`) -/
structure Numbers (S : Type) where
  /-- `minScale` -/
  min : S
  /-- `maxScale` -/
  max : S
  /-- 1.0 -/
  one : S
  /-- `scale * 1.1` -/
  grow : S → S
  /-- `scale * (1 / 1.1)` -/
  shrink : S → S
  /-- how a number is written by `${…}` -/
  text : S → Str

/-- `d3.tree` or `d3.cluster` (`ast.html:107,129,134`) -/
inductive Kind where
  | tree | cluster
  deriving DecidableEq

/-- what a call of `collapsibleTree` has put on the page: its arguments, which the handlers refer to, and the `svg`
(`ast.html:276-418`) -/
structure Drawn where
  data : View
  kind : Kind
  dx : Nat
  dy : Nat
  svg : Svg

/-- `config`, and what is on the page (`ast.html:106-116`) -/
structure State (S : Type) where
  kind : Kind
  current : View
  scale : S
  isPointerdown : Bool
  last : Int × Int
  x : Int
  y : Int
  astWidth : Nat
  astHeight : Nat
  /-- the inner text of the button `switch` -/
  button : Str
  /-- `style.transform` of the container -/
  transform : Str
  outline : Svg
  tree : Drawn

/-- what happens on the page (`ast.html:126,140,144,219,229,371,427,446,455,463`) -/
inductive Event where
  /-- a click on the circle of a node in the outline -/
  | circle (p : Path)
  /-- a click on the label of a node in the outline -/
  | outlineLabel (p : Path)
  /-- a button of the pointer is pressed, on the label of a node of the tree or beside all labels -/
  | press (label : Option Path) (button : Nat) (x y : Int)
  | release (button : Nat)
  | move (x y : Int)
  | wheel (deltaY : Int)
  | reset
  | switch
  | slider (value : Nat)
  | slider2 (value : Nat)

variable {S : Type}

/-- `{n}` of an integer (`ast.html:438,471`) -/
def intText (n : Int) : Str :=
  if n < 0 then '-' :: Vocabulary.natToString n.natAbs else Vocabulary.natToString n.natAbs

/-- `ast.html:438,471`: the template literal -/
def transformText (num : Numbers S) (x y : Int) (scale : S) : Str :=
  chars! "translateX(" ++ intText x ++ chars! "px) translateY(" ++ intText y ++ chars! "px) scale(" ++
    num.text scale ++ chars! ")"

/-- the text of the button in `ast.html:87`, and the texts set in lines 130 and 135 -/
def useCluster0 : Str := chars! "转换为cluster (use cluster)"
/-- `ast.html:130`: the text of the button that leads back to the tree -/
def useTree : Str := chars! "转换为 tree (use tree)"
/-- `ast.html:135`: the text of the button that leads to the cluster -/
def useCluster : Str := chars! "转换为 cluster (use cluster)"

/-- `e.target.innerHTML.endsWith('(use cluster)')` (`ast.html:128`) -/
def offersCluster (s : Str) : Bool := (chars! "(use cluster)").isSuffixOf s

/-- `ast.html:489-497`, `reset` -/
def reset (num : Numbers S) (s : State S) : State S :=
  { s with
    scale := num.one, isPointerdown := false, last := (0, 0), x := 0, y := 0
    transform := chars! "translateX(0px) translateY(0px) scale(1)" }

/-- the layouts of `d3` (`ast.html:107,129`) -/
abbrev Layouts := Kind → Nat → Nat → Layout

/-- `collapsibleTree(data, { tree, dx, dy })` (`ast.html:276-418,500`) -/
def draw (lay : Layouts) (data : View) (kind : Kind) (dx dy : Nat) : Drawn :=
  { data, kind, dx, dy, svg := Outline.tree (lay kind dx dy) data }

/-- `ast.html:371-374`: the handler of `pointerdown` on a label -/
def Drawn.press (lay : Layouts) (t : Drawn) (p : Path) : Drawn :=
  { t with svg := pressLabel (lay t.kind t.dx t.dy) t.data t.svg p }

/-- `ast.html:499-505`, `render` -/
def render (num : Numbers S) (lay : Layouts) (s : State S) : State S :=
  reset num { s with tree := draw lay s.current s.kind s.astWidth s.astHeight }

/-- the data of a node, `d.data` (`ast.html:230`) -/
def dataAt : View → Path → Option View
  | v, [] => some v
  | v, i :: p => (dataAt v p).bind fun w => (kids w)[i]?

variable [LinearOrder S]

/-- `ast.html:427-443`: the wheel -/
def wheel (num : Numbers S) (deltaY : Int) (s : State S) : State S :=
  let scale := if deltaY > 0 then num.shrink s.scale else num.grow s.scale
  let scale := if scale > num.max then num.max else if scale < num.min then num.min else scale
  { s with scale, transform := transformText num s.x s.y scale }

/-- `ast.html:446-453`: `pointerdown` -/
def pointerdown (button : Nat) (x y : Int) (s : State S) : State S :=
  if button = 0 then { s with isPointerdown := true, last := (x, y) } else s

/-- `ast.html:455-461`: `pointerup` -/
def pointerup (button : Nat) (s : State S) : State S :=
  if button = 0 then { s with isPointerdown := false } else s

/-- `ast.html:463-477`: `pointermove` -/
def pointermove (num : Numbers S) (x y : Int) (s : State S) : State S :=
  if s.isPointerdown then
    let x' := s.x + (x - s.last.1)
    let y' := s.y + (y - s.last.2)
    { s with last := (x, y), x := x', y := y', transform := transformText num x' y' s.scale }
  else s

/-- `ast.html:126-138`: the button `switch` -/
def switch (num : Numbers S) (lay : Layouts) (s : State S) : State S :=
  if offersCluster s.button then render num lay { s with kind := .cluster, button := useTree }
  else render num lay { s with kind := .tree, button := useCluster }

/-- the handlers (`ast.html:125-147,219-232,371-374,427-477`) -/
def step (num : Numbers S) (lay : Layouts) (ast : View) (s : State S) : Event → State S
  | .circle p => { s with outline := clickCircle ast s.outline p }
  | .outlineLabel p =>
    match dataAt ast p with
    | some d => render num lay { s with current := d }
    | none => s
  | .press label button x y =>
    pointerdown button x y
      (match label with
        | some p => { s with tree := s.tree.press lay p }
        | none => s)
  | .release button => pointerup button s
  | .move x y => pointermove num x y s
  | .wheel deltaY => wheel num deltaY s
  | .reset => reset num s
  | .switch => switch num lay s
  | .slider value => render num lay { s with astWidth := value }
  | .slider2 value => render num lay { s with astHeight := value }

/-- `ast.html:104-123`: the page as it is loaded -/
def load (num : Numbers S) (lay : Layouts) (ast : View) : State S :=
  { kind := .tree, current := ast, scale := num.one, isPointerdown := false, last := (0, 0), x := 0, y := 0
    astWidth := 128, astHeight := 96, button := useCluster0, transform := []
    outline := Outline.outline ast, tree := draw lay ast .tree 128 96 }

/-- a session (`ast.html:118-147`) -/
def run (num : Numbers S) (lay : Layouts) (ast : View) (es : List Event) : State S :=
  es.foldl (step num lay ast) (load num lay ast)

end Viewer
end Syntaxis
