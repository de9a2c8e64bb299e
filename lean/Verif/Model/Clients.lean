import Verif.Model.Flow
import Verif.Model.Viz

/-! # Model: browsers of the dashboard, and results kept by users of the nested graph

* src/wax/flax/visualization/interactive_dashboard.py (WebSocket events)
* src/wax/flax/visualization/nested_graph_viz.py (the dictionary that an analyser returns)

`I` are the session identifiers of browsers (`request.sid`).  `socketio.emit` outside a handler reaches every connected session;
`emit` inside a handler reaches the session that sent the event (Flask-SocketIO). -/

namespace Verif.Model.Clients
open Verif.Model.Flow

variable {I V : Type} [DecidableEq I]

/-- The messages a browser gets. Used for src/wax/flax/visualization/interactive_dashboard.py:381-397, 404-414. -/
inductive Msg (V : Type)
  | status
  | subscribed (pid : String)
  | notFound (pid : String)
  | alert (a : Alert)
  | update (pid module dataType : String) (value : V) (timestamp : Rat) (step : Nat)

/-- What happens to a dashboard. Used for src/wax/flax/visualization/interactive_dashboard.py:260-281. -/
inductive Op (I V : Type)
  | connect (i : I)
  | disconnect (i : I)
  | subscribe (i : I) (pid : String)
  | register (pid : String) (now : Rat)
  | record (pid module dataType : String) (value : V) (md : Meta) (now : Rat)
  | step (pid : String)

/-- src/wax/flax/visualization/interactive_dashboard.py:107-125: the dashboard and its `connected_clients`. -/
structure Server (I V : Type) where
  dash : Dash V
  clients : List I

/-- See src/wax/flax/visualization/interactive_dashboard.py:107-125. -/
def Server.new : Server I V := ⟨Dash.new, []⟩

/-- `socketio.emit`: to every connected session. Used for src/wax/flax/visualization/interactive_dashboard.py:260-281. -/
def broadcast (clients : List I) (m : Msg V) : List (I × Msg V) := clients.map fun i => (i, m)

/-- src/wax/flax/visualization/interactive_dashboard.py:381-397, 404-414: the alert raised by one reading, if any. -/
def alertOf (cfg : DashConfig) (pid kind : String) (threshold : Rat) (x : Option Rat) (now : Rat) : List (Msg V) :=
  match x with
  | none => []
  | some x => if cfg.enableAlerts && decide (threshold < x) then [.alert ⟨now, kind, pid, x⟩] else []

/-- src/wax/flax/visualization/interactive_dashboard.py:343-360: the messages broadcast for one datum of a registered pipeline whose tracker has counted
`stepCount` steps: the alerts (lines 389-393, 413-414), then the datum. -/
def recordMsgs (cfg : DashConfig) (pid m ty : String) (v : V) (md : Meta) (now : Rat) (stepCount : Nat) : List (Msg V) :=
  alertOf cfg pid "performance" cfg.perfThreshold md.execTime now ++ alertOf cfg pid "memory" cfg.memThreshold md.memory now ++
  [.update pid m ty v now stepCount]

/-- src/wax/flax/visualization/interactive_dashboard.py:260-281 (browsers), 289-368 (pipelines): the new state, and the messages delivered, in order. -/
def Server.op (cfg : DashConfig) (s : Server I V) : Op I V → Server I V × List (I × Msg V)
  | .connect i => ({ s with clients := if i ∈ s.clients then s.clients else s.clients ++ [i] }, [(i, .status)])
  | .disconnect i => ({ s with clients := s.clients.filter (fun j => j ≠ i) }, [])
  | .subscribe i pid => (s, [(i, if (s.dash.calls.lookup pid).isSome then .subscribed pid else .notFound pid)])
  | .register pid now => ({ s with dash := Dash.register cfg s.dash pid now }, [])
  | .record pid m ty v md now =>
    ({ s with dash := Dash.record cfg s.dash pid m ty v md now },
      match s.dash.trackers.lookup pid with
      | none => []
      | some t => (recordMsgs cfg pid m ty v md now t.stepCount).flatMap (broadcast s.clients))
  | .step pid => ({ s with dash := Dash.step s.dash pid }, [])

/-- A history of operations: the final state, and the messages delivered at each operation.
See src/wax/flax/visualization/interactive_dashboard.py:260-281. -/
def Server.run (cfg : DashConfig) (s : Server I V) : List (Op I V) → Server I V × List (List (I × Msg V))
  | [] => (s, [])
  | o :: os => ((Server.run cfg (s.op cfg o).1 os).1, (s.op cfg o).2 :: (Server.run cfg (s.op cfg o).1 os).2)

/-! ## Dictionaries returned by analysers -/

open Verif.Model.Viz

/-- The dictionary of each analyser that was created (src/wax/flax/visualization/nested_graph_viz.py:151-154). -/
abbrev Memory := List (List (Key × Hier))

/-- src/wax/flax/visualization/nested_graph_viz.py:151-154: a new analyser has an empty dictionary of its own; its index stands for the object. -/
def newAnalyser (m : Memory) : Memory × Nat := (m ++ [[]], m.length)

/-- src/wax/flax/visualization/nested_graph_viz.py:156-186: the analyser empties its dictionary, fills it again and returns *it*, so the result is the
reference `a`; the other part is the levels. -/
def analyseWith (auto : Bool) (minNodes fuel : Nat) (m : Memory) (a : Nat) (g : Graph) : Option (Memory × Nat × List (Key × Nat)) :=
  (analyzeNested auto minNodes fuel g).map fun r => (m.set a r.1, a, r.2)

/-- src/wax/flax/visualization/nested_graph_viz.py:982-1010 `get_hierarchy_summary`: the numbers, and the dictionary itself. -/
structure Summary where
  numbers : Nat × Nat × List (String × Nat) × List (Nat × Nat)
  hierarchy : Nat

/-- src/wax/flax/visualization/nested_graph_viz.py:982-1010. -/
def summaryWith (auto : Bool) (minNodes fuel : Nat) (m : Memory) (a : Nat) (g : Graph) : Option (Memory × Summary) :=
  (analyseWith auto minNodes fuel m a g).map fun r => (r.1, ⟨summary (r.1.getD r.2.1 []) r.2.2, r.2.1⟩)

end Verif.Model.Clients
