import Verif.Model.Flow
import Mathlib.Algebra.Order.Floor.Defs
import Mathlib.Data.Rat.Floor
import Mathlib.Data.List.Dedup

/-! # Model: the data handed to the panels of the dashboards

`src/wax/flax/visualization/bokeh_viz.py`, `src/wax/flax/visualization/interactive_dashboard.py`, `src/wax/flax/visualization/jupyter_viz.py`, `src/wax/flax/visualization/data_flow_visualizer.py`.

Simplifications: drawing, colours other than their index, titles and tooltips are left out; numbers are rationals; random draws
are a parameter. -/

namespace Verif.Model.Panels
open Verif.Model.Flow
open Verif.Model.Events (dictSet)

/-! ## Bokeh -/

/-- src/wax/flax/visualization/bokeh_viz.py:301-313: the rows of the data source of a heatmap: `np.meshgrid(arange(w), arange(h))` and the data, all
flattened in row-major order.  `data` is a list of `h` rows of `w` values. -/
def heatmap {V : Type} (w : Nat) (data : List (List V)) : List (Nat × Nat × V) :=
  let x := (List.range data.length).flatMap fun _ => List.range w
  let y := (List.range data.length).flatMap fun r => List.replicate w r
  x.zip (y.zip data.flatten)

/-- A recorded value as the panels see it (src/wax/flax/visualization/bokeh_viz.py:431, 469): a Python `int`, `float` or `bool`, or anything else (JAX and
NumPy arrays, including those of dimension zero, dictionaries, ...). -/
inductive Val where
  | num (v : Rat)
  | other
deriving DecidableEq

/-- Used for src/wax/flax/visualization/bokeh_viz.py:429-432. -/
def Val.number : Val → Option Rat
  | .num v => some v
  | .other => none

/-- src/wax/flax/visualization/bokeh_viz.py:429-432: one turn of the loop that groups by module (a `defaultdict(list)`). -/
def groupStep (g : List (String × List (Nat × Rat))) (p : Point Val) : List (String × List (Nat × Rat)) :=
  match p.value.number with
  | some v => dictSet g p.moduleName ((g.lookup p.moduleName).getD [] ++ [(p.step, v)])
  | none => g

/-- src/wax/flax/visualization/bokeh_viz.py:416-445 `_create_time_series_panel`: the lines: module, points and index of the colour among `nColors`. -/
def timeSeries (nColors : Nat) (t : Tracker Val) : List (String × List (Nat × Rat) × Nat) :=
  let g := (t.recent 200).foldl groupStep []
  g.mapIdx fun i q => (q.1, q.2, i % nColors)

/-- `numpy.histogram` of finite values with equal bins: the outer edges (half a unit around a single value).
Used for src/wax/flax/visualization/bokeh_viz.py:452-484. -/
def outerEdges (vals : List Rat) : Rat × Rat :=
  match vals with
  | [] => (0, 1)
  | v :: vs =>
    let lo := vs.foldl min v
    let hi := vs.foldl max v
    if lo = hi then (lo - 1 / 2, hi + 1 / 2) else (lo, hi)

/-- `numpy.linspace(lo, hi, bins + 1)`. Used for src/wax/flax/visualization/bokeh_viz.py:452-484. -/
def edge (bins : Nat) (lo hi : Rat) (i : Nat) : Rat := lo + (i : Rat) * ((hi - lo) / (bins : Rat))

/-- The bin of a value: `int((v - lo) / (hi - lo) * bins)`, the last edge belonging to the last bin.
Used for src/wax/flax/visualization/bokeh_viz.py:452-484. -/
def binOf (bins : Nat) (lo hi v : Rat) : Nat :=
  let i := ⌊(v - lo) / (hi - lo) * (bins : Rat)⌋.toNat
  if i = bins then i - 1 else i

/-- src/wax/flax/visualization/bokeh_viz.py:452-484 `_create_distribution_panel`: the bars (left, right, height), none without values. -/
def distribution (t : Tracker Val) : List (Rat × Rat × Nat) :=
  let vals := (t.recent 500).filterMap fun p => p.value.number
  if vals = [] then []
  else
    let (lo, hi) := outerEdges vals
    (List.range 30).map fun i =>
      (edge 30 lo hi i, edge 30 lo hi (i + 1), vals.countP fun v => decide (binOf 30 lo hi v = i))

/-- src/wax/flax/visualization/bokeh_viz.py:499-526 `_create_performance_panel`: the points; `draws` are the values of
`np.random.exponential(2.0, ...)`. -/
def performance {V : Type} (draws : Nat → Rat) (t : Tracker V) : List (Nat × Rat) :=
  let first := max 1 (t.stepCount - 50)
  (List.range (t.stepCount + 1 - first)).map fun i => (first + i, draws i + 1)

/-- src/wax/flax/visualization/bokeh_viz.py:542-564 `_create_correlation_panel`: the cells (row-major): the two modules and the value; `draws i j` are the
values of `np.random.rand(4, 4)`. -/
def correlation {V : Type} (draws : Nat → Nat → Rat) (_ : Tracker V) : List (String × String × Rat) :=
  let modules := ["input", "ewma", "buffer", "output"]
  let m : Nat → Nat → Rat := fun i j => if i = j then 1 else (draws i j + draws j i) / 2
  (List.range 4).flatMap fun y => (List.range 4).map fun x => (modules.getD x "", modules.getD y "", m y x)

/-! ## Text plot -/

/-- src/wax/flax/visualization/data_flow_visualizer.py:321-356 `_create_text_plot`: number of active modules, total steps, number of recent points and the
points listed (`none` when nothing is recorded).  The texts themselves are left out. -/
def textPlot {V : Type} (t : Tracker V) : Option (Nat × Nat × Nat × List (Point V)) :=
  let recent := t.recent 20
  if recent = [] then none
  else some ((recent.map (·.moduleName)).dedup.length, t.stepCount, recent.length, lastSlice recent 10)

/-! ## JSON values sent to the browser -/

/-- A Python value, as distinguished by src/wax/flax/visualization/interactive_dashboard.py:418-442.  An array has its shape, the name of its type and its
elements in row-major order. -/
inductive PyVal where
  | array (shape : List Nat) (dtype : String) (flat : List Rat)
  | num (v : Rat)
  | str (s : String)
  | bool (b : Bool)
  | dict (items : List (String × PyVal))
  | seq (items : List PyVal)
  | other (type text : String)

/-- Used for src/wax/flax/visualization/interactive_dashboard.py:420-431. -/
inductive Json where
  | num (v : Rat)
  | str (s : String)
  | bool (b : Bool)
  | list (items : List Json)
  | obj (items : List (String × Json))

/-- `ndarray.tolist()`: nested lists by the shape, row-major.
Used for src/wax/flax/visualization/interactive_dashboard.py:420-431. -/
def toList : List Nat → List Rat → Json
  | [], flat => .num (flat.headD 0)
  | n :: dims, flat => .list ((List.range n).map fun i => toList dims ((flat.drop (i * dims.prod)).take dims.prod))

/-- src/wax/flax/visualization/interactive_dashboard.py:420-431. -/
def serializeArray (shape : List Nat) (dtype : String) (flat : List Rat) : Json :=
  if flat.length ≤ 10 then toList shape flat
  else .obj [("type", .str "array"), ("shape", .list (shape.map fun n => .num (n : Rat))), ("dtype", .str dtype),
    ("min", .num (flat.tail.foldl min (flat.headD 0))), ("max", .num (flat.tail.foldl max (flat.headD 0))),
    ("mean", .num (flat.sum / (flat.length : Rat)))]

mutual
/-- src/wax/flax/visualization/interactive_dashboard.py:418-442 `_serialize_value`. -/
def serialize : PyVal → Json
  | .array shape dtype flat => serializeArray shape dtype flat
  | .num v => .num v
  | .str s => .str s
  | .bool b => .bool b
  | .dict items => .obj (serializeItems items)
  | .seq items =>
    if items.length ≤ 10 then .list (serializeList items)
    else .obj [("type", .str "sequence"), ("length", .num (items.length : Rat))]
  | .other type text => .obj [("type", .str type), ("str", .str text)]
/-- Used for src/wax/flax/visualization/interactive_dashboard.py:418-442. -/
def serializeItems : List (String × PyVal) → List (String × Json)
  | [] => []
  | (k, v) :: l => (k, serialize v) :: serializeItems l
/-- Used for src/wax/flax/visualization/interactive_dashboard.py:418-442. -/
def serializeList : List PyVal → List Json
  | [] => []
  | v :: l => serialize v :: serializeList l
end

/-! ## Parameter controls -/

/-- src/wax/flax/visualization/jupyter_viz.py:396-404: the controls (a dictionary from names to widgets, here their numbers) and all the widgets ever
created, with their current values. -/
structure Controls (V : Type) where
  widgets : List V
  controls : List (String × Nat)

/-- src/wax/flax/visualization/jupyter_viz.py:421-470, one parameter: `mk` is the value of the widget created for a configuration, `none` for an unknown
type. -/
def Controls.add {Cfg V : Type} (mk : Cfg → Option V) (c : Controls V) (p : String × Cfg) : Controls V :=
  match mk p.2 with
  | none => c
  | some v => ⟨c.widgets ++ [v], dictSet c.controls p.1 c.widgets.length⟩

/-- src/wax/flax/visualization/jupyter_viz.py:406-472 `create_parameter_panel`. -/
def Controls.panel {Cfg V : Type} (mk : Cfg → Option V) (c : Controls V) (ps : List (String × Cfg)) : Controls V :=
  ps.foldl (Controls.add mk) c

/-- src/wax/flax/visualization/jupyter_viz.py:474-476 `get_parameters`. -/
def Controls.parameters {V : Type} (c : Controls V) : List (String × Option V) :=
  c.controls.map fun p => (p.1, c.widgets[p.2]?)

/-- The user moves the widget number `i`. Used for src/wax/flax/visualization/jupyter_viz.py:406-488. -/
def Controls.move {V : Type} (c : Controls V) (i : Nat) (v : V) : Controls V := { c with widgets := c.widgets.set i v }

/-- What can happen to the controls: the program creates a panel, the program registers a callback, the user gives a value to the
widget number `i` (counted from the first one ever created).
Used for src/wax/flax/visualization/jupyter_viz.py:406-488. -/
inductive ControlEvent (Cfg V : Type) where
  | panel (ps : List (String × Cfg))
  | callback
  | move (i : Nat) (v : V)

/-- A session: the controls, the number of callbacks registered, and all calls of callbacks: its number, the parameters it is
given and whether a warning was issued because it raised. Used for src/wax/flax/visualization/jupyter_viz.py:406-488. -/
structure ControlSession (V : Type) where
  controls : Controls V
  callbacks : Nat
  calls : List (Nat × List (String × Option V) × Bool)

/-- src/wax/flax/visualization/jupyter_viz.py:482-488 `_on_parameter_change`; `raises k ps` tells whether callback `k` raises when given `ps`. -/
def Controls.notify {V : Type} (c : Controls V) (callbacks : Nat) (raises : Nat → List (String × Option V) → Bool) :
    List (Nat × List (String × Option V) × Bool) :=
  (List.range callbacks).map fun k => (k, c.parameters, raises k c.parameters)

/-- src/wax/flax/visualization/jupyter_viz.py:406-488: one event.  A widget notifies when its value changes (line 466, `observe` of the trait `value`). -/
def ControlSession.step {Cfg V : Type} [DecidableEq V] (mk : Cfg → Option V) (raises : Nat → List (String × Option V) → Bool)
    (s : ControlSession V) : ControlEvent Cfg V → ControlSession V
  | .panel ps => { s with controls := s.controls.panel mk ps }
  | .callback => { s with callbacks := s.callbacks + 1 }
  | .move i v =>
    match s.controls.widgets[i]? with
    | none => s
    | some old =>
      if old = v then s
      else { s with
        controls := s.controls.move i v
        calls := s.calls ++ (s.controls.move i v).notify s.callbacks raises }

/-- See src/wax/flax/visualization/jupyter_viz.py:406-488. -/
def ControlSession.run {Cfg V : Type} [DecidableEq V] (mk : Cfg → Option V) (raises : Nat → List (String × Option V) → Bool)
    (evs : List (ControlEvent Cfg V)) : ControlSession V :=
  evs.foldl (ControlSession.step mk raises) ⟨⟨[], []⟩, 0, []⟩

/-- The configurations and values a widget can have. Used for src/wax/flax/visualization/jupyter_viz.py:421-459. -/
inductive WidgetValue where
  | float (v : Rat)
  | int (v : Int)
  | bool (v : Bool)
  | text (s : String)
deriving DecidableEq

/-- The entries of a configuration the value of the widget depends on: `type`, `value` and `options`.
Used for src/wax/flax/visualization/jupyter_viz.py:421-459. -/
structure WidgetConfig where
  type : Option String := none
  value : Option WidgetValue := none
  options : Option (List WidgetValue) := none

/-- src/wax/flax/visualization/jupyter_viz.py:421-459: the initial value of the widget of a configuration, for values within the bounds of the sliders.
An empty list of options is left out. -/
def widgetValue (c : WidgetConfig) : Option WidgetValue :=
  match c.type.getD "float" with
  | "float" => some (c.value.getD (.float (1 / 2)))
  | "int" => some (c.value.getD (.int 10))
  | "bool" => some (c.value.getD (.bool false))
  | "dropdown" => some (c.value.getD ((c.options.getD [.text "Option 1"]).headD (.text "")))
  | _ => none

end Verif.Model.Panels
