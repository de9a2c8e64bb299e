import Verif.Model.Reports

/-! # Model: several threads using one debugger, profiler or memory tracker

src/wax/flax/debug/debugger.py, src/wax/flax/debug/profiler.py, src/wax/flax/debug/memory_tracker.py: `step`, `record_metrics` and `take_snapshot` first read `enabled`,
*without* the lock, and then do their work under the lock; `reset`, `clear_history`, `add_hook` and the reports do all their work under
the lock; `enable` and `disable` assign the flag without it.  The lock (`threading.RLock`) makes what happens under it one step;
reading and assigning one attribute are single steps.  The values read from the clock and the operating system are arguments of the
calls. -/

namespace Verif.Model.Threads
open Verif.Model.Debug Verif.Model.Reports

/-- How a method uses the flag and the lock. Used for src/wax/flax/debug/debugger.py:274-309. -/
inductive Kind where
  | guarded
  | enable
  | disable
  | locked
deriving DecidableEq

/-- An object shared by threads: its flag, and what its methods do when nothing else runs.
Used for src/wax/flax/debug/debugger.py:274-309. -/
structure Obj (T Op : Type) where
  enabled : T → Bool
  setEnabled : T → Bool → T
  apply : T → Op → T
  kind : Op → Kind

variable {T Op : Type}

/-- A thread: the call that has read the flag and is waiting for the lock, and the calls still to make.
Used for src/wax/flax/debug/debugger.py:268-274, 226-241, 370-378, 380-386. -/
structure Thread (Op : Type) where
  pending : Option Op
  todo : List Op

/-- The object and the threads, numbered. See src/wax/flax/debug/debugger.py:268-274, 226-241, 370-378, 380-386. -/
structure World (T Op : Type) where
  obj : T
  threads : Nat → Thread Op

/-- What follows the test of the flag in a guarded method: the work of the method, whatever the flag is by now, and the flag is left
as it is (src/wax/flax/debug/debugger.py:274-309, src/wax/flax/debug/profiler.py:220-264, src/wax/flax/debug/memory_tracker.py:217-314). -/
def work (o : Obj T Op) (t : T) (op : Op) : T := o.setEnabled (o.apply (o.setEnabled t true) op) (o.enabled t)

/-- One step of a thread: finishing the pending call, or beginning the next one: src/wax/flax/debug/debugger.py:268-274, 226-241, 370-378, 380-386;
src/wax/flax/debug/profiler.py:216-220, 453-473; src/wax/flax/debug/memory_tracker.py:210-217, 617-637. -/
def Thread.next (o : Obj T Op) (t : T) (th : Thread Op) : T × Thread Op :=
  match th.pending, th.todo with
  | some op, todo => (work o t op, ⟨none, todo⟩)
  | none, [] => (t, th)
  | none, op :: todo =>
    match o.kind op with
    | .guarded => (t, ⟨if o.enabled t then some op else none, todo⟩)
    | .enable => (o.setEnabled t true, ⟨none, todo⟩)
    | .disable => (o.setEnabled t false, ⟨none, todo⟩)
    | .locked => (o.apply t op, ⟨none, todo⟩)

/-- Thread `i` makes a step. Used for src/wax/flax/debug/debugger.py:226-309, 370-386. -/
def World.step (o : Obj T Op) (w : World T Op) (i : Nat) : World T Op :=
  let r := (w.threads i).next o w.obj
  ⟨r.1, fun j => if j = i then r.2 else w.threads j⟩

/-- The threads make steps in the order of the schedule. See src/wax/flax/debug/debugger.py:226-309, 370-386. -/
def World.run (o : Obj T Op) (w : World T Op) (schedule : List Nat) : World T Op := schedule.foldl (World.step o) w

/-- The beginning. See src/wax/flax/debug/debugger.py:268-274, 226-241, 370-378, 380-386. -/
def World.start (t : T) (programs : Nat → List Op) : World T Op := ⟨t, fun i => ⟨none, programs i⟩⟩

/-! ## The three objects -/

variable {K : Type} [Field K] [LinearOrder K]

/-- src/wax/flax/debug/profiler.py:208-264, 453-473. -/
def profiler (cfg : Cfg K) : Obj (Prof K) (POp K) where
  enabled p := p.enabled
  setEnabled p b := { p with enabled := b }
  apply := Prof.apply cfg
  kind
    | .record _ => .guarded
    | .reset => .locked
    | .enable => .enable
    | .disable => .disable

/-- src/wax/flax/debug/memory_tracker.py:210-314, 617-637. -/
def tracker (interval : Nat) (threshold : K) (maxSnapshots : Nat) : Obj (Model.Debug.Tracker K) (TOp K) where
  enabled t := t.enabled
  setEnabled t b := { t with enabled := b }
  apply := trackerApply interval threshold maxSnapshots
  kind
    | .take .. => .guarded
    | .reset => .locked
    | .enable => .enable
    | .disable => .disable

/-- src/wax/flax/debug/debugger.py:226-309, 370-386. -/
def debugger {C St In Out H : Type} (cfg : Config St H) : Obj (Debugger C St In Out H) (Model.Debug.Op C St In Out) where
  enabled d := d.enabled
  setEnabled d b := { d with enabled := b }
  apply := Debugger.apply cfg
  kind
    | .step .. => .guarded
    | .enable => .enable
    | .disable => .disable
    | .clear => .locked
    | .addHook .. => .locked
    | .removeHook .. => .locked

/-! ## The memory report: src/wax/flax/debug/memory_tracker.py:558-615 -/

/-- The lines of the report about leaks, as far as they depend on the leaks.
Used for src/wax/flax/debug/memory_tracker.py:558-613. -/
inductive Line (K : Type) where
  | noLeaks
  | total (n : Nat)
  | critical (n : Nat)
  | high (n : Nat)
  | detail (l : Leak K)

/-- src/wax/flax/debug/memory_tracker.py:558-613: `none` is the report "Memory Report Error"; `summary` comes from `get_memory_summary`, under the lock
(line 560), `leaks` is `self.detected_leaks` read afterwards, without it (line 602). -/
def reportLines (summary : Option (MemSummary K)) (leaks : List (Leak K)) : Option (List (Line K)) :=
  summary.map fun s =>
    if 0 < s.leaks then
      [.total s.leaks, .critical s.critical, .high s.high] ++
        ((leaks.filter fun l => severity l.total == .critical).take 3).map .detail
    else [.noLeaks]

/-- The report while nothing else runs. See src/wax/flax/debug/memory_tracker.py:558-613. -/
def report (t : Model.Debug.Tracker K) : Option (List (Line K)) := reportLines (memSummary t) t.leaks

/-- The report while other threads make the calls `between` after the summary was made.
See src/wax/flax/debug/memory_tracker.py:558-613. -/
def reportDuring (interval : Nat) (threshold : K) (maxSnapshots : Nat) (t : Model.Debug.Tracker K) (between : List (TOp K)) :
    Option (List (Line K)) :=
  reportLines (memSummary t) (between.foldl (trackerApply interval threshold maxSnapshots) t).leaks

end Verif.Model.Threads
