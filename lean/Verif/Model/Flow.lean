import Verif.Model.Debug
import Verif.Model.Events
import Mathlib.Algebra.Order.Field.Rat

/-!
# Data flow tracker, flow animation, monitoring dashboard and live plots

`src/wax/flax/visualization/data_flow_visualizer.py`, `src/wax/flax/visualization/interactive_dashboard.py`, `src/wax/flax/visualization/bokeh_viz.py`, `src/wax/flax/visualization/jupyter_viz.py`.

Simplifications: wall-clock times are inputs of the operations (what `time.time()` returns); drawing is not modelled, only the
data handed to the plotting library; one thread; values are opaque; thresholds and readings are rationals.
-/

namespace Verif.Model.Flow
open Verif.Model.Debug (dequePush)
open Verif.Model.Events (dictSet)

/-- Python `l[-n:]` for an integer `n` (`n = 0` is the whole list, `n < 0` drops the first `-n` elements).
Used for src/wax/flax/visualization/data_flow_visualizer.py:159-161. -/
def lastSlice {α : Type} (l : List α) (n : Int) : List α :=
  if 0 < n then l.drop (l.length - n.toNat) else l.drop (-n).toNat

/-- `collections.deque(maxlen=m).extend`. Used for src/wax/flax/visualization/data_flow_visualizer.py:639-662. -/
def dequeExtend {α : Type} (m : Nat) (d : List α) (xs : List α) : List α := xs.foldl (dequePush m) d

/-! ## Tracker -/

/-- src/wax/flax/visualization/data_flow_visualizer.py:70-91 (the shape is a function of the value; metadata left out). -/
structure Point (V : Type) where
  timestamp : Rat
  step : Nat
  moduleName : String
  dataType : String
  value : V
deriving DecidableEq

/-- src/wax/flax/visualization/data_flow_visualizer.py:94-112. `moduleData` is the default dictionary in insertion order. -/
structure Tracker (V : Type) where
  maxHistory : Nat
  trackInputs : Bool := true
  trackOutputs : Bool := true
  trackStates : Bool := true
  trackGradients : Bool := false
  history : List (Point V)
  moduleData : List (String × List (Point V))
  stepCount : Nat
  startTime : Rat

variable {V : Type}

/-- src/wax/flax/visualization/data_flow_visualizer.py:103-112. -/
def Tracker.new (maxHistory : Nat) (inputs outputs states gradients : Bool) (now : Rat) : Tracker V :=
  ⟨maxHistory, inputs, outputs, states, gradients, [], [], 0, now⟩

/-- src/wax/flax/visualization/data_flow_visualizer.py:113-135. The `track_*` flags are not consulted. -/
def Tracker.record (t : Tracker V) (m ty : String) (v : V) (now : Rat) : Tracker V :=
  let p : Point V := ⟨now - t.startTime, t.stepCount, m, ty, v⟩
  { t with
    history := dequePush t.maxHistory t.history p
    moduleData := dictSet t.moduleData m (dequePush t.maxHistory ((t.moduleData.lookup m).getD []) p) }

/-- src/wax/flax/visualization/data_flow_visualizer.py:138-140. -/
def Tracker.step (t : Tracker V) : Tracker V := { t with stepCount := t.stepCount + 1 }

/-- src/wax/flax/visualization/data_flow_visualizer.py:142-157: the answer; `data_type` empty or `None` means no filter. -/
def Tracker.moduleHistory (t : Tracker V) (m : String) (ty : Option String) : List (Point V) :=
  let h := (t.moduleData.lookup m).getD []
  match ty with
  | none => h
  | some ty => if ty = "" then h else h.filter (fun p => p.dataType = ty)

/-- src/wax/flax/visualization/data_flow_visualizer.py:152: looking a module up in the default dictionary creates its entry. -/
def Tracker.afterQuery (t : Tracker V) (m : String) : Tracker V :=
  match t.moduleData.lookup m with
  | some _ => t
  | none => { t with moduleData := t.moduleData ++ [(m, [])] }

/-- src/wax/flax/visualization/data_flow_visualizer.py:159-161. -/
def Tracker.recent (t : Tracker V) (n : Int) : List (Point V) := lastSlice t.history n

/-- src/wax/flax/visualization/data_flow_visualizer.py:163-168. -/
def Tracker.clear (t : Tracker V) (now : Rat) : Tracker V :=
  { t with history := [], moduleData := [], stepCount := 0, startTime := now }

/-- Calls on a tracker. Used for src/wax/flax/visualization/data_flow_visualizer.py:94-167. -/
inductive Op (V : Type)
  | record (m ty : String) (v : V) (now : Rat)
  | step
  | query (m : String)
  | clear (now : Rat)

/-- See src/wax/flax/visualization/data_flow_visualizer.py:94-167. -/
def Tracker.apply (t : Tracker V) : Op V → Tracker V
  | .record m ty v now => t.record m ty v now
  | .step => t.step
  | .query m => t.afterQuery m
  | .clear now => t.clear now

/-- See src/wax/flax/visualization/data_flow_visualizer.py:94-167. -/
def Tracker.session (t : Tracker V) (ops : List (Op V)) : Tracker V := ops.foldl Tracker.apply t

/-! ## Flow animation -/

/-- src/wax/flax/visualization/data_flow_visualizer.py:641-643: `max(dp.step for dp in history, default=0)`. -/
def maxStep (h : List (Point V)) : Nat := h.foldl (fun a p => max a p.step) 0

/-- src/wax/flax/visualization/data_flow_visualizer.py:639-662: one frame. `plot` is `visualizer.update_plot`, which sees the history in place at that
moment and may raise. The result is what happened and the tracker afterwards. `int((frame / frames) * max_step)` is computed
exactly. -/
def animate {E : Type} (plot : List (Point V) → Except E Unit) (frames frame : Nat) (t : Tracker V) :
    Except E Unit × Tracker V :=
  let currentStep := frame * maxStep t.history / frames
  let filtered := t.history.filter (fun p => p.step ≤ currentStep)
  let original := t.history
  let t1 := { t with history := dequeExtend t.maxHistory [] filtered }
  match plot t1.history with
  | .error e => (.error e, t1)
  | .ok () => (.ok (), { t1 with history := dequeExtend t.maxHistory [] original })

/-- src/wax/flax/visualization/data_flow_visualizer.py:664-670: the frames are drawn in turn; an exception ends the rendering. -/
def animateAll {E : Type} (plot : List (Point V) → Except E Unit) (frames : Nat) :
    List Nat → Tracker V → Except E Unit × Tracker V
  | [], t => (.ok (), t)
  | f :: fs, t =>
    match animate plot frames f t with
    | (.error e, t') => (.error e, t')
    | (.ok (), t') => animateAll plot frames fs t'

/-- src/wax/flax/visualization/data_flow_visualizer.py:177, 392-396 with `max_points = 200`: the points drawn in a frame. -/
def drawn (maxPoints : Int) (h : List (Point V)) : List (Point V) := lastSlice h maxPoints

/-- src/wax/flax/visualization/data_flow_visualizer.py:469-490: the flow rates drawn, `(time, rate)`, over windows of ten points. -/
def flowRates (h : List (Point V)) : List (Rat × Rat) :=
  if 1 < h.length then
    (List.range' 10 (h.length - 10)).filterMap (fun i =>
      let w := (h.drop (i - 10)).take 10
      match w.head?, w.getLast? with
      | some a, some b =>
        let span := b.timestamp - a.timestamp
        if 0 < span then some (b.timestamp, (w.length : Rat) / span) else none
      | _, _ => none)
  else []

/-! ## Dashboard -/

/-- src/wax/flax/visualization/interactive_dashboard.py:74-104. -/
structure DashConfig where
  maxDataPoints : Nat := 1000
  enableAlerts : Bool := true
  perfThreshold : Rat := 100
  memThreshold : Rat := 1000

/-- src/wax/flax/visualization/interactive_dashboard.py:386-392, 403-409. -/
structure Alert where
  timestamp : Rat
  kind : String
  pipeline : String
  reading : Rat
deriving DecidableEq

/-- src/wax/flax/visualization/interactive_dashboard.py:107-125: what is registered, the trackers, the metrics and the alerts. -/
structure Dash (V : Type) where
  calls : List (String × Nat)
  trackers : List (String × Tracker V)
  metrics : List (String × List Rat)
  alerts : List Alert

/-- The metadata keys the dashboard reads. Used for src/wax/flax/visualization/interactive_dashboard.py:370-417. -/
structure Meta where
  execTime : Option Rat := none
  memory : Option Rat := none

/-- Used for src/wax/flax/visualization/interactive_dashboard.py:289-325. -/
def Dash.new : Dash V := ⟨[], [], [], []⟩

/-- src/wax/flax/visualization/interactive_dashboard.py:289-325. -/
def Dash.register (cfg : DashConfig) (d : Dash V) (pid : String) (now : Rat) : Dash V :=
  { d with
    calls := dictSet d.calls pid 0
    trackers := dictSet d.trackers pid (Tracker.new cfg.maxDataPoints true true true false now) }

/-- src/wax/flax/visualization/interactive_dashboard.py:114-116: append to a metric, a default dictionary of deques of length 1000. -/
def pushMetric (ms : List (String × List Rat)) (k : String) (x : Rat) : List (String × List Rat) :=
  dictSet ms k (dequePush 1000 ((ms.lookup k).getD []) x)

/-- src/wax/flax/visualization/interactive_dashboard.py:377-397 and 399-414: one reading. -/
def Dash.reading (cfg : DashConfig) (d : Dash V) (pid suffix kind : String) (threshold : Rat) (x : Option Rat) (now : Rat) : Dash V :=
  match x with
  | none => d
  | some x =>
    { d with
      metrics := pushMetric d.metrics (pid ++ suffix) x
      alerts := if cfg.enableAlerts && decide (threshold < x) then dequePush 100 d.alerts ⟨now, kind, pid, x⟩ else d.alerts }

/-- src/wax/flax/visualization/interactive_dashboard.py:370-417. -/
def Dash.updateMetrics (cfg : DashConfig) (d : Dash V) (pid : String) (md : Meta) (now : Rat) : Dash V :=
  let d := Dash.reading cfg d pid "_execution_time" "performance" cfg.perfThreshold md.execTime now
  let d := Dash.reading cfg d pid "_memory_usage" "memory" cfg.memThreshold md.memory now
  { d with metrics := pushMetric d.metrics "global_throughput" now }

/-- src/wax/flax/visualization/interactive_dashboard.py:327-360 (the broadcast to connected browsers is left out). -/
def Dash.record (cfg : DashConfig) (d : Dash V) (pid m ty : String) (v : V) (md : Meta) (now : Rat) : Dash V :=
  match d.trackers.lookup pid with
  | none => d
  | some t => Dash.updateMetrics cfg { d with trackers := dictSet d.trackers pid (t.record m ty v now) } pid md now

/-- src/wax/flax/visualization/interactive_dashboard.py:362-368. -/
def Dash.step (d : Dash V) (pid : String) : Dash V :=
  let d := match d.trackers.lookup pid with
    | none => d
    | some t => { d with trackers := dictSet d.trackers pid t.step }
  match d.calls.lookup pid with
  | none => d
  | some n => { d with calls := dictSet d.calls pid (n + 1) }

/-- src/wax/flax/visualization/interactive_dashboard.py:178-205: `GET /api/pipeline/<id>/data`; `none` is 404. -/
def Dash.data (d : Dash V) (pid : String) : Option (List (Point V) × Nat) :=
  (d.trackers.lookup pid).map (fun t => (t.recent 100, t.stepCount))

/-- src/wax/flax/visualization/interactive_dashboard.py:233-252: `GET /api/performance`: values, current and average of each non-empty metric. -/
def Dash.performance (d : Dash V) : List (String × List Rat × Rat × Rat) :=
  d.metrics.filterMap (fun kv =>
    if kv.2.isEmpty then none
    else
      let r := lastSlice kv.2 50
      some (kv.1, r, r.getLast?.getD 0, r.sum / r.length))

/-- See src/wax/flax/visualization/interactive_dashboard.py:370-417. -/
inductive DashOp (V : Type)
  | register (pid : String) (now : Rat)
  | record (pid m ty : String) (v : V) (md : Meta) (now : Rat)
  | step (pid : String)

/-- See src/wax/flax/visualization/interactive_dashboard.py:370-417. -/
def Dash.apply (cfg : DashConfig) (d : Dash V) : DashOp V → Dash V
  | .register pid now => Dash.register cfg d pid now
  | .record pid m ty v md now => Dash.record cfg d pid m ty v md now
  | .step pid => Dash.step d pid

/-- See src/wax/flax/visualization/data_flow_visualizer.py:103-112. -/
def Dash.session (cfg : DashConfig) (ops : List (DashOp V)) : Dash V := ops.foldl (Dash.apply cfg) Dash.new

/-! ## Live plots -/

/-- src/wax/flax/visualization/bokeh_viz.py:239-267 and 213-237: the data sources of a streaming plot, by stream name. `add` is `add_line_stream`,
`update` is `update_stream`. -/
def bokehUpdate (maxPoints : Int) (src : List (String × List Rat × List Rat)) (name : String) (x y : Rat) :
    List (String × List Rat × List Rat) :=
  match src.lookup name with
  | none => src
  | some (xs, ys) =>
    let nx := xs ++ [x]
    let ny := ys ++ [y]
    if maxPoints < nx.length then dictSet src name (lastSlice nx maxPoints, lastSlice ny maxPoints)
    else dictSet src name (nx, ny)

/-- Used for src/wax/flax/visualization/jupyter_viz.py:357-391. -/
def bokehAdd (src : List (String × List Rat × List Rat)) (name : String) : List (String × List Rat × List Rat) :=
  dictSet src name ([], [])

/-- Used for src/wax/flax/visualization/jupyter_viz.py:357-391. -/
inductive BokehOp
  | add (name : String)
  | update (name : String) (x y : Rat)

/-- See src/wax/flax/visualization/jupyter_viz.py:357-391. -/
def bokehApply (maxPoints : Int) (src : List (String × List Rat × List Rat)) : BokehOp → List (String × List Rat × List Rat)
  | .add n => bokehAdd src n
  | .update n x y => bokehUpdate maxPoints src n x y

/-- See src/wax/flax/visualization/jupyter_viz.py:357-391. -/
def bokehSession (maxPoints : Int) (ops : List BokehOp) : List (String × List Rat × List Rat) :=
  ops.foldl (bokehApply maxPoints) []

/-- src/wax/flax/visualization/jupyter_viz.py:286-296, 342-363: the traces of each figure in order (`name`, `x`, `y`), and the buffers by figure and
stream name (`f"{id(fig)}_{stream_name}"`: figures are identified by their `id`, and are kept alive by the visualizer). -/
structure Jup where
  traces : Nat → List (String × List Rat × List Rat)
  data : Nat → String → List Rat
  times : Nat → String → List Rat

/-- Used for src/wax/flax/visualization/data_flow_visualizer.py:103-112. -/
def Jup.new : Jup := ⟨fun _ => [], fun _ _ => [], fun _ _ => []⟩

/-- src/wax/flax/visualization/jupyter_viz.py:333-355. -/
def Jup.add (j : Jup) (fig : Nat) (name : String) : Jup :=
  { j with traces := fun f => if f = fig then j.traces f ++ [(name, [], [])] else j.traces f }

/-- src/wax/flax/visualization/jupyter_viz.py:373-378, 389-391: the first trace with the name gets the data. -/
def setFirst (name : String) (xy : List Rat × List Rat) : List (String × List Rat × List Rat) → List (String × List Rat × List Rat)
  | [] => []
  | t :: ts => if t.1 = name then (name, xy) :: ts else t :: setFirst name xy ts

/-- src/wax/flax/visualization/jupyter_viz.py:357-391. -/
def Jup.update (maxPoints : Nat) (j : Jup) (fig : Nat) (name : String) (value time : Rat) : Jup :=
  if (j.traces fig).any (fun t => t.1 = name) then
    let d := dequePush maxPoints (j.data fig name) value
    let ts := dequePush maxPoints (j.times fig name) time
    { traces := fun f => if f = fig then setFirst name (ts, d) (j.traces f) else j.traces f
      data := fun f n => if f = fig ∧ n = name then d else j.data f n
      times := fun f n => if f = fig ∧ n = name then ts else j.times f n }
  else j

/-- Used for src/wax/flax/visualization/jupyter_viz.py:357-391. -/
inductive JupOp
  | add (fig : Nat) (name : String)
  | update (fig : Nat) (name : String) (value time : Rat)

/-- See src/wax/flax/visualization/jupyter_viz.py:357-391. -/
def Jup.apply (maxPoints : Nat) (j : Jup) : JupOp → Jup
  | .add f n => j.add f n
  | .update f n v t => Jup.update maxPoints j f n v t

/-- See src/wax/flax/visualization/jupyter_viz.py:357-391. -/
def Jup.session (maxPoints : Nat) (ops : List JupOp) : Jup := ops.foldl (Jup.apply maxPoints) Jup.new

/-- Python `s.replace(pat, "")` for a non-empty pattern: remove the occurrences from left to right.
Used for src/wax/flax/visualization/jupyter_viz.py:527-535, 572-584. -/
def removeAll (pat : List Char) : List Char → List Char
  | [] => []
  | c :: cs => if pat ≠ [] ∧ pat <+: c :: cs then removeAll pat ((c :: cs).drop pat.length) else c :: removeAll pat cs
termination_by l => l.length
decreasing_by
  all_goals simp_wf
  all_goals
    rename_i h
    have : 0 < pat.length := List.length_pos_iff.2 h.1
    omega

/-- src/wax/flax/visualization/jupyter_viz.py:527-535, 572-584: the data given to the trace of a stage, `none` when it is not updated. The trace is named
`f"{stage} Data"` and the module looked up is that name with `" Data"` removed. -/
def stageTrace {V : Type} (stage : String) (recent : List (Point V)) : Option (List (Nat × V)) :=
  let m := String.ofList (removeAll " Data".toList (stage ++ " Data").toList)
  let mine := (recent.filter (fun p => p.moduleName = m)).map (fun p => (p.step, p.value))
  if mine = [] then none else some mine

end Verif.Model.Flow
