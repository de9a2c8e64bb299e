import Verif.Base.Mealy
import Mathlib.Algebra.Order.Field.Basic
import Mathlib.Algebra.BigOperators.Group.List.Basic

/-!
# Debugger, profiler and memory tracker

`src/wax/flax/debug/debugger.py`, `src/wax/flax/debug/profiler.py`, `src/wax/flax/debug/memory_tracker.py`.

Simplifications: wall-clock times, process memory and sizes are inputs of the operations (what `time.time()` and `psutil`
return); an interactive breakpoint is always continued (the user never quits); debug conditions of different hooks do not share
state; copies of JAX arrays are values; one thread (the locks are not modelled).
-/

namespace Verif.Model.Debug

/-- `collections.deque(maxlen=m).append`. Used for src/wax/flax/debug/debugger.py:99-129. -/
def dequePush {α : Type} (m : Nat) (d : List α) (x : α) : List α :=
  (d ++ [x]).drop ((d ++ [x]).length - m)

/-! ## Debugger -/

/-- src/wax/flax/debug/debugger.py:55-66 and the arguments of `DebugHook.trigger` (98-129); also the arguments of a debugger step.
The timestamp, the metadata and the stack trace are left out. -/
structure Event (St In Out : Type) where
  step : Nat
  moduleName : String
  state : St
  input : In
  output : Out

/-- src/wax/flax/debug/debugger.py:69-96. A condition may keep private state `C` (closures such as `state_change_detector`); its answer is `none`
when it raises. -/
structure Hook (C St In Out : Type) where
  condition : Option (C → Event St In Out → Option Bool × C)
  cstate : C
  maxEvents : Nat
  events : List (Event St In Out)
  enabled : Bool
  hitCount : Nat

variable {C St In Out H : Type}

/-- src/wax/flax/debug/debugger.py:88-97: the answer and the hook with the new private state of its condition. -/
def Hook.check (h : Hook C St In Out) (e : Event St In Out) : Bool × Hook C St In Out :=
  if h.enabled then
    match h.condition with
    | none => (false, h)
    | some f =>
      let r := f h.cstate e
      (r.1.getD false, { h with cstate := r.2 })
  else (false, h)

/-- src/wax/flax/debug/debugger.py:99-129 (logging, alerting and breaking have no effect on the data). -/
def Hook.trigger (h : Hook C St In Out) (e : Event St In Out) : Hook C St In Out :=
  { h with hitCount := h.hitCount + 1, events := dequePush h.maxEvents h.events e }

/-- src/wax/flax/debug/debugger.py:199-229. `hooks` is the dictionary in insertion order; `execTimes` is `performance_data["execution_time"]`,
`execSteps` is `performance_data["step"]`. -/
structure Debugger (C St In Out H : Type) where
  hooks : List (String × Hook C St In Out)
  stateHistory : List H
  execTimes : List Nat
  execSteps : List Nat
  currentStep : Nat
  enabled : Bool

/-- Parameters of the constructor, src/wax/flax/debug/debugger.py:202-211; `snap` is `_safe_copy_state` (src/wax/flax/debug/debugger.py:297-312). -/
structure Config (St H : Type) where
  trackState : Bool
  trackPerf : Bool
  maxHistory : Nat
  snap : St → H

/-- src/wax/flax/debug/debugger.py:298-309, the body of the loop over the hooks. -/
def Hook.onStep (h : Hook C St In Out) (e : Event St In Out) : Hook C St In Out :=
  let r := h.check e
  if r.1 then r.2.trigger e else r.2

/-- src/wax/flax/debug/debugger.py:268-309 `StreamingDebugger.step`. -/
def Debugger.step (cfg : Config St H) (d : Debugger C St In Out H) (name : String) (state : St) (input : In) (output : Out)
    (time : Option Nat) : Debugger C St In Out H :=
  if d.enabled then
    let n := d.currentStep + 1
    let e : Event St In Out := ⟨n, name, state, input, output⟩
    { d with
      currentStep := n
      stateHistory := if cfg.trackState then dequePush cfg.maxHistory d.stateHistory (cfg.snap state) else d.stateHistory
      execTimes := if cfg.trackPerf then d.execTimes ++ time.toList else d.execTimes
      execSteps := if cfg.trackPerf && time.isSome then d.execSteps ++ [n] else d.execSteps
      hooks := d.hooks.map fun p => (p.1, p.2.onStep e) }
  else d

/-- src/wax/flax/debug/debugger.py:370-378 `clear_history`. -/
def Debugger.clear (d : Debugger C St In Out H) : Debugger C St In Out H :=
  { d with stateHistory := [], execTimes := [], execSteps := [],
           hooks := d.hooks.map fun p => (p.1, { p.2 with events := [], hitCount := 0 }) }

/-- src/wax/flax/debug/debugger.py:226-230 `add_hook`: assignment into the dictionary. -/
def Debugger.addHook (d : Debugger C St In Out H) (name : String) (h : Hook C St In Out) : Debugger C St In Out H :=
  { d with hooks := if d.hooks.any (·.1 == name) then d.hooks.map (fun p => if p.1 == name then (p.1, h) else p)
                    else d.hooks ++ [(name, h)] }

/-- src/wax/flax/debug/debugger.py:232-236 `remove_hook`. -/
def Debugger.removeHook (d : Debugger C St In Out H) (name : String) : Debugger C St In Out H :=
  { d with hooks := d.hooks.filter fun p => !(p.1 == name) }

/-- The operations a user can perform on a debugger between two inspections.
See src/wax/flax/debug/debugger.py:226-309, 370-386. -/
inductive Op (C St In Out : Type) where
  | step (name : String) (state : St) (input : In) (output : Out) (time : Option Nat)
  | enable
  | disable
  | clear
  | addHook (name : String) (h : Hook C St In Out)
  | removeHook (name : String)

/-- See src/wax/flax/debug/debugger.py:226-309, 370-386. -/
def Debugger.apply (cfg : Config St H) (d : Debugger C St In Out H) : Op C St In Out → Debugger C St In Out H
  | .step name s i o t => d.step cfg name s i o t
  | .enable => { d with enabled := true }
  | .disable => { d with enabled := false }
  | .clear => d.clear
  | .addHook name h => d.addHook name h
  | .removeHook name => d.removeHook name

/-- src/wax/flax/debug/debugger.py:445-478 `debug_apply`: the result of the call and the debugger afterwards. A result is a pair (output, new
state) or any other value (`split` is the test `isinstance(result, tuple) and len(result) == 2`); the exception of the wrapped
function propagates before the debugger sees anything. `time` is the measured duration (`none` without timing). -/
def debugApply {P R E V : Type} (cfg : Config V H) (name : String) (split : V → Option (V × V))
    (apply : P → V → R → In → Except E V) (d : Debugger C V In V H) (p : P) (s : V) (rng : R) (x : In) (time : Option Nat) :
    Except E V × Debugger C V In V H :=
  match apply p s rng x with
  | .error e => (.error e, d)
  | .ok r =>
    match split r with
    | some (out, s') => (.ok r, d.step cfg name s' x out time)
    | none => (.ok r, d.step cfg name s x r time)

/-- src/wax/flax/debug/debugger.py:501-507 `step_interval` (Python's `%` by zero raises). -/
def stepInterval (interval : Nat) (e : Event St In Out) : Option Bool :=
  if interval = 0 then none else some (e.step % interval == 0)

/-- src/wax/flax/debug/debugger.py:510-541 `state_change_detector` on scalar states: the private state is `last_value`; `get` is `state[field]` if
present. -/
def stateChange {K : Type} [Field K] [LinearOrder K] (get : St → Option K) (tol : K) (last : Option K) (e : Event St In Out) :
    Option Bool × Option K :=
  match get e.state with
  | none => (some false, last)
  | some cur =>
    match last with
    | none => (some false, some cur)
    | some l => if tol < |cur - l| then (some true, some cur) else (some false, some l)

/-! ## Profiler -/

/-- src/wax/flax/debug/profiler.py:52-72, the fields used below; times and memory in an ordered field `K`. -/
structure Metric (K : Type) where
  step : Nat
  moduleName : String
  time : K
  memory : K
  delta : K

/-- src/wax/flax/debug/profiler.py:143-160: metrics deque, `module_stats`, bottlenecks. -/
structure Profiler (K : Type) where
  metrics : List (Metric K)
  moduleStats : List (String × K)
  bottlenecks : List (Metric K)
  stepCount : Nat
  enabled : Bool
  lastMemory : K

variable {K : Type} [Field K] [LinearOrder K]

/-- src/wax/flax/debug/profiler.py:208-264 `record_metrics`; `mem` is the resident memory read at that moment. `moduleStats` lists the pairs
(module, time) in order instead of one list per module. -/
def Profiler.record (maxHistory : Nat) (thresholdMs : K) (p : Profiler K) (name : String) (time mem : K) : Profiler K :=
  if p.enabled then
    let m : Metric K := ⟨p.stepCount + 1, name, time, mem, mem - p.lastMemory⟩
    { p with
      stepCount := p.stepCount + 1
      lastMemory := mem
      metrics := dequePush maxHistory p.metrics m
      moduleStats := p.moduleStats ++ [(name, time)]
      bottlenecks := if thresholdMs < time * 1000 then p.bottlenecks ++ [m] else p.bottlenecks }
  else p

/-- See src/wax/flax/debug/profiler.py:143-160. -/
def Profiler.init : Profiler K := ⟨[], [], [], 0, true, 0⟩

/-- src/wax/flax/debug/profiler.py:312-341 `detect_memory_leaks`: the growth that is reported, if any. -/
def Profiler.detectLeak (threshold : K) (p : Profiler K) : Option K :=
  if p.metrics.length < 10 then none
  else
    let recent := (p.metrics.drop (p.metrics.length - 10)).map (·.memory)
    match recent.head?, recent.getLast? with
    | some a, some b => if threshold < b - a then some (b - a) else none
    | _, _ => none

/-- src/wax/flax/debug/profiler.py:543-566 `profile_apply`: `time` is the duration measured by the context manager, `mem1`, `mem2` the memory read
by the two recordings. The context manager records also when the function raises (src/wax/flax/debug/profiler.py:479-487). -/
def profileApply {P S R In' E V : Type} (maxHistory : Nat) (thresholdMs : K) (name : String)
    (apply : P → S → R → In' → Except E V) (pr : Profiler K) (p : P) (s : S) (rng : R) (x : In') (time mem1 mem2 : K) :
    Except E V × Profiler K :=
  match apply p s rng x with
  | .error e => (.error e, pr.record maxHistory thresholdMs name time mem2)
  | .ok r => (.ok r, (pr.record maxHistory thresholdMs name 0 mem1).record maxHistory thresholdMs name time mem2)

/-- src/wax/flax/debug/profiler.py:393, statistics.mean of the recorded execution times. -/
def Profiler.meanTime (p : Profiler K) : K := (p.metrics.map (·.time)).sum / (p.metrics.length : K)

/-! ## Memory tracker -/

/-- src/wax/flax/debug/memory_tracker.py:51-83, the fields used below. -/
structure Snapshot (K : Type) where
  step : Nat
  moduleName : String
  memory : K
  delta : K

/-- src/wax/flax/debug/memory_tracker.py:87-98, the fields used below. -/
structure Leak (K : Type) where
  rate : K
  total : K
  firstStep : Nat
  lastStep : Nat

/-- src/wax/flax/debug/memory_tracker.py:113-140. -/
structure Tracker (K : Type) where
  snapshots : List (Snapshot K)
  leaks : List (Leak K)
  stepCount : Nat
  enabled : Bool
  last : Option (Snapshot K)

/-- See src/wax/flax/debug/memory_tracker.py:113-140. -/
def Tracker.init : Tracker K := ⟨[], [], 0, true, none⟩

/-- src/wax/flax/debug/memory_tracker.py:395-403: numerator and denominator of the regression slope of the values against 0, 1, 2, .... -/
def slopeNum (ys : List K) : K :=
  let n : K := (ys.length : K)
  let xm := ((List.range ys.length).map fun (i : Nat) => (i : K)).sum / n
  let ym := ys.sum / n
  ((List.range ys.length).map fun (i : Nat) => ((i : K) - xm) * (ys.getD i 0 - ym)).sum

/-- Used for src/wax/flax/debug/memory_tracker.py:381-421. -/
def slopeDen (ys : List K) : K :=
  let n : K := (ys.length : K)
  let xm := ((List.range ys.length).map fun (i : Nat) => (i : K)).sum / n
  ((List.range ys.length).map fun (i : Nat) => ((i : K) - xm) ^ 2).sum

/-- src/wax/flax/debug/memory_tracker.py:381-421 `_check_for_leaks`, the check of the process memory (the number of tracked arrays is always 0:
src/wax/flax/debug/memory_tracker.py:155-209 never installs the tracking function). -/
def checkLeaks (interval : Nat) (threshold : K) (snaps : List (Snapshot K)) : Option (Leak K) :=
  if snaps.length < 5 then none
  else
    let recent := snaps.drop (snaps.length - 10)
    let ys := recent.map (·.memory)
    if 0 < slopeDen ys then
      let rate := slopeNum ys / slopeDen ys * (interval : K)
      if threshold / 100 < rate then
        match recent.head?, recent.getLast? with
        | some a, some b =>
          if threshold < b.memory - a.memory then some ⟨rate, b.memory - a.memory, a.step, b.step⟩ else none
        | _, _ => none
      else none
    else none

/-- src/wax/flax/debug/memory_tracker.py:210-314 `take_snapshot`: what is returned and the new tracker. `mem` is the process memory read. A zero
interval raises `ZeroDivisionError` in Python; theorems assume it is positive. -/
def Tracker.take (interval : Nat) (threshold : K) (maxSnapshots : Nat) (t : Tracker K) (name : String) (mem : K) (force : Bool) :
    Option (Snapshot K) × Tracker K :=
  if t.enabled then
    let n := t.stepCount + 1
    if !force && n % interval != 0 then (none, { t with stepCount := n })
    else
      let s : Snapshot K := ⟨n, name, mem, (t.last.map fun l => mem - l.memory).getD 0⟩
      let snaps := dequePush maxSnapshots t.snapshots s
      (some s, { t with stepCount := n, snapshots := snaps, last := some s,
                        leaks := t.leaks ++ (checkLeaks interval threshold snaps).toList })
  else (none, t)

/-- src/wax/flax/debug/memory_tracker.py:679-698 `memory_apply`: one snapshot before and one after the call; nothing after an exception. -/
def memoryApply {P S R In' E V : Type} (interval : Nat) (threshold : K) (maxSnapshots : Nat) (name : String)
    (apply : P → S → R → In' → Except E V) (t : Tracker K) (p : P) (s : S) (rng : R) (x : In') (mem1 mem2 : K) :
    Except E V × Tracker K :=
  let t1 := (t.take interval threshold maxSnapshots name mem1 false).2
  match apply p s rng x with
  | .error e => (.error e, t1)
  | .ok r => (.ok r, (t1.take interval threshold maxSnapshots name mem2 false).2)

/-! ### Memory of a state -/

/-- A pytree with the byte counts of its leaves (src/wax/flax/debug/memory_tracker.py:354-380 `_calculate_tree_memory`). -/
inductive MTree where
  | leaf (bytes : Nat)
  | node (children : List (String × MTree))

/-- src/wax/flax/debug/memory_tracker.py:357-381, in bytes. -/
def MTree.bytes : MTree → Nat
  | .leaf b => b
  | .node cs => go cs
where
  go : List (String × MTree) → Nat
    | [] => 0
    | (_, t) :: cs => t.bytes + go cs

/-- src/wax/flax/debug/memory_tracker.py:320-355 `_analyze_state_memory` of a dictionary state whose "state" entry, if any, is a dictionary:
(state variables, parameters, buffers), in bytes. `isBuffer` is the test `"buffer" in key.lower()`. -/
def analyzeState (isBuffer : String → Bool) (st : List (String × MTree)) : Nat × Nat × Nat :=
  let params := ((st.lookup "params").map MTree.bytes).getD 0
  let stateV := ((st.lookup "state").map MTree.bytes).getD 0
  let buffers := match st.lookup "state" with
    | some (.node cs) => ((cs.filter fun c => isBuffer c.1).map fun c => c.2.bytes).sum
    | _ => 0
  let others := ((st.filter fun c => !(c.1 == "params" || c.1 == "state")).map fun c => c.2.bytes).sum
  (stateV + others, params, buffers)

end Verif.Model.Debug
