import Verif.Model.Debug
import Verif.Model.Events

/-!
# Reports of the profiler, memory tracker and debugger

`src/wax/flax/debug/profiler.py` (recordings with their sizes, statistics, recommendations, results, reset),
`src/wax/flax/debug/memory_tracker.py` (severity, summaries, reset), `src/wax/flax/debug/debugger.py` (summary, export, ready-made conditions, copies of states).

Simplifications: numbers are elements of an ordered field (so `0.1` is exactly 1/10), `root` stands for the square root in
`statistics.stdev`; wall-clock times and process memory are inputs; texts of messages are replaced by constructors; one thread.
-/

namespace Verif.Model.Reports
open Verif.Model.Debug
open Verif.Model.Events (dictSet)

variable {K : Type} [Field K] [LinearOrder K]

/-! ## Statistics of the Python library -/

/-- `max(xs)` of a non-empty list, as Python computes it (0 on the empty list, where Python raises).
Used for src/wax/flax/debug/profiler.py:343-406. -/
def pyMax : List K → K
  | [] => 0
  | x :: xs => xs.foldl (fun m y => if m < y then y else m) x

/-- `min(xs)` of a non-empty list. Used for src/wax/flax/debug/profiler.py:411-433. -/
def pyMin : List K → K
  | [] => 0
  | x :: xs => xs.foldl (fun m y => if y < m then y else m) x

/-- `statistics.mean`; `sum(xs) / len(xs)`. Used for src/wax/flax/debug/profiler.py:109-111, 420, 428. -/
def pyMean (xs : List K) : K := xs.sum / (xs.length : K)

/-- `statistics.median`: the middle of the sorted data, or the mean of the two middle values.
Used for src/wax/flax/debug/profiler.py:411-433. -/
def pyMedian (xs : List K) : K :=
  let s := xs.mergeSort (fun a b => decide (a ≤ b))
  if s.length % 2 = 1 then s.getD (s.length / 2) 0
  else (s.getD (s.length / 2 - 1) 0 + s.getD (s.length / 2) 0) / 2

/-- `statistics.stdev` guarded by `len(xs) > 1` (src/wax/flax/debug/profiler.py:109-111, 420, 428). -/
def pyStdev (root : K → K) (xs : List K) : K :=
  if 1 < xs.length then
    root ((xs.map fun x => (x - pyMean xs) * (x - pyMean xs)).sum / ((xs.length : K) - 1))
  else 0

/-! ## Sizes of data -/

/-- What `_calculate_data_size` distinguishes. `npArray` is a numpy array: it is not an instance of `jnp.ndarray`.
Used for src/wax/flax/debug/profiler.py:266-284. -/
inductive Data where
  | none
  | jaxArray (nbytes : Nat)
  | npArray (nbytes : Nat)
  | seq (items : List Data)
  | dict (items : List (String × Data))
  | num
  | str (utf8Length : Nat)
  | other

/-- src/wax/flax/debug/profiler.py:266-284 `_calculate_data_size`. -/
def Data.size : Data → Nat
  | .none => 0
  | .jaxArray n => n
  | .npArray _ => 0
  | .seq l => goSeq l
  | .dict d => goDict d
  | .num => 8
  | .str n => n
  | .other => 0
where
  goSeq : List Data → Nat
    | [] => 0
    | x :: xs => x.size + goSeq xs
  goDict : List (String × Data) → Nat
    | [] => 0
    | (_, x) :: xs => x.size + goDict xs

/-! ## Profiler with all the fields used by the reports -/

/-- src/wax/flax/debug/profiler.py:50-69 (timestamps, CPU and thread counts left out). -/
structure PMetric (K : Type) where
  step : Nat
  moduleName : String
  time : K
  memory : K
  delta : K
  jit : Bool
  inputSize : Nat
  outputSize : Nat

/-- Parameters of the constructor, src/wax/flax/debug/profiler.py:128-142. -/
structure Cfg (K : Type) where
  trackMemory : Bool
  bottleneckMs : K
  maxHistory : Nat

/-- src/wax/flax/debug/profiler.py:143-168. `bottlenecks` is `none` until the attribute `_bottlenecks` is created (src/wax/flax/debug/profiler.py:297-299). -/
structure Prof (K : Type) where
  metrics : List (PMetric K)
  moduleStats : List (String × List K)
  bottlenecks : Option (List (PMetric K))
  stepCount : Nat
  enabled : Bool
  lastMemory : K

/-- See src/wax/flax/debug/profiler.py:143-168. -/
def Prof.init : Prof K := ⟨[], [], none, 0, true, 0⟩

/-- The arguments of one `record_metrics` and the resident memory at that moment.
Used for src/wax/flax/debug/profiler.py:208-264. -/
structure Reading (K : Type) where
  moduleName : String
  time : K
  memory : K
  input : Data
  output : Data
  jit : Bool

/-- src/wax/flax/debug/profiler.py:208-264 `record_metrics`, 286-302 `_record_bottleneck`. -/
def Prof.record (cfg : Cfg K) (p : Prof K) (r : Reading K) : Prof K :=
  if p.enabled then
    let m : PMetric K :=
      { step := p.stepCount + 1
        moduleName := r.moduleName
        time := r.time
        memory := if cfg.trackMemory then r.memory else 0
        delta := if cfg.trackMemory then r.memory - p.lastMemory else 0
        jit := r.jit
        inputSize := r.input.size
        outputSize := r.output.size }
    { p with
      stepCount := p.stepCount + 1
      lastMemory := if cfg.trackMemory then r.memory else p.lastMemory
      metrics := dequePush cfg.maxHistory p.metrics m
      moduleStats := dictSet p.moduleStats r.moduleName ((p.moduleStats.lookup r.moduleName).getD [] ++ [r.time])
      bottlenecks := if cfg.bottleneckMs < r.time * 1000 then some (p.bottlenecks.getD [] ++ [m]) else p.bottlenecks }
  else p

/-- src/wax/flax/debug/profiler.py:453-464 `reset`. -/
def Prof.reset (p : Prof K) : Prof K :=
  { p with metrics := [], moduleStats := [], stepCount := 0, lastMemory := 0, bottlenecks := p.bottlenecks.map fun _ => [] }

/-- The operations on a profiler. Used for src/wax/flax/debug/profiler.py:208-264, 453-472. -/
inductive POp (K : Type) where
  | record (r : Reading K)
  | reset
  | enable
  | disable

/-- src/wax/flax/debug/profiler.py:208-264, 453-472. -/
def Prof.apply (cfg : Cfg K) (p : Prof K) : POp K → Prof K
  | .record r => p.record cfg r
  | .reset => p.reset
  | .enable => { p with enabled := true }
  | .disable => { p with enabled := false }

/-- The recommendations of src/wax/flax/debug/profiler.py:343-406. -/
inductive Advice where
  | timeVariance
  | memory
  | jit
  | largeInputs
  | moduleVariance (name : String)
deriving DecidableEq

/-- src/wax/flax/debug/profiler.py:343-406 `generate_optimization_recommendations`. -/
def Prof.advice (root : K → K) (p : Prof K) : List Advice :=
  if p.metrics = [] then []
  else
    let times := p.metrics.map (·.time)
    let deltas := (p.metrics.map (·.delta)).filter fun d => decide (0 < d)
    let jits := (p.metrics.filter fun m => m.jit).length
    let large := (p.metrics.filter fun m => decide (1024 * 1024 < m.inputSize)).length
    (if pyMean times * 3 < pyMax times then [.timeVariance] else []) ++
    (if deltas ≠ [] ∧ 100 < deltas.sum then [.memory] else []) ++
    (if (p.metrics.length : K) * (1 / 10) < (jits : K) then [.jit] else []) ++
    (if (p.metrics.length : K) * (1 / 2) < (large : K) then [.largeInputs] else []) ++
    (p.moduleStats.filterMap fun q =>
      if 1 < q.2.length ∧ pyMean q.2 * (1 / 2) < pyStdev root q.2 then some (.moduleVariance q.1) else none)

/-- src/wax/flax/debug/profiler.py:72-84. `bottlenecks` of the Python object is the profiler's own list (`getattr(self, "_bottlenecks", [])`):
`shared` says whether it is that list or a fresh empty one. -/
structure Result (K : Type) where
  duration : K
  totalSteps : Nat
  metrics : List (PMetric K)
  shared : Bool
  advice : List Advice

/-- src/wax/flax/debug/profiler.py:408-451 `finalize`; `now` is the time since the session started. The dictionaries `execution_stats` and
`memory_stats` are `Result.stats` below. -/
def Prof.finalize (root : K → K) (p : Prof K) (duration : K) : Result K :=
  ⟨duration, p.stepCount, p.metrics, p.bottlenecks.isSome, p.advice root⟩

/-- What reading `result.bottlenecks` gives when the profiler is in state `p`.
Used for src/wax/flax/debug/profiler.py:85-121. -/
def Result.bottlenecks (r : Result K) (p : Prof K) : List (PMetric K) := if r.shared then p.bottlenecks.getD [] else []

/-- src/wax/flax/debug/profiler.py:416-430: mean, median, std_dev, min, max. -/
structure Stats (K : Type) where
  mean : K
  median : K
  stdDev : K
  min : K
  max : K

/-- src/wax/flax/debug/profiler.py:411-433. -/
def statsOf (root : K → K) (xs : List K) : Stats K := ⟨pyMean xs, pyMedian xs, pyStdev root xs, pyMin xs, pyMax xs⟩

/-- The dictionary of src/wax/flax/debug/profiler.py:93-121. -/
structure Summary (K : Type) where
  duration : K
  totalSteps : Nat
  throughput : K
  totalTime : K
  avgMs : K
  medianMs : K
  maxMs : K
  minMs : K
  stdMs : K
  peakMb : K
  avgMb : K
  allocated : K
  efficiency : K
  bottlenecks : Nat
  jits : Nat
  advice : Nat

/-- src/wax/flax/debug/profiler.py:85-121 `ProfileResult.get_summary`; `none` is the dictionary with the key "error". -/
def Result.summary (root : K → K) (r : Result K) (p : Prof K) : Option (Summary K) :=
  if r.metrics = [] then none
  else
    let times := r.metrics.map (·.time)
    let mem := r.metrics.map (·.memory)
    some {
      duration := r.duration
      totalSteps := r.totalSteps
      throughput := if 0 < r.duration then (r.totalSteps : K) / r.duration else 0
      totalTime := times.sum
      avgMs := pyMean times * 1000
      medianMs := pyMedian times * 1000
      maxMs := pyMax times * 1000
      minMs := pyMin times * 1000
      stdMs := pyStdev root times * 1000
      peakMb := pyMax mem
      avgMb := pyMean mem
      allocated := ((r.metrics.map (·.delta)).filter fun d => decide (0 < d)).sum
      efficiency := if 0 < pyMax mem then pyMin mem / pyMax mem else 1
      bottlenecks := (r.bottlenecks p).length
      jits := (r.metrics.filter fun m => m.jit).length
      advice := r.advice.length }

/-- The dictionary of src/wax/flax/debug/profiler.py:318-328. -/
structure ModuleSummary (K : Type) where
  invocations : Nat
  totalMs : K
  avgMs : K
  maxMs : K
  minMs : K
  avgMb : K
  peakMb : K
  jits : Nat

/-- src/wax/flax/debug/profiler.py:301-325 `get_module_summary`. -/
def Prof.moduleSummary (p : Prof K) (name : String) : Option (ModuleSummary K) :=
  let ms := p.metrics.filter fun m => m.moduleName == name
  if ms = [] then none
  else
    let times := ms.map (·.time)
    let mem := ms.map (·.memory)
    some ⟨ms.length, times.sum * 1000, pyMean times * 1000, pyMax times * 1000, pyMin times * 1000, pyMean mem, pyMax mem,
      (ms.filter fun m => m.jit).length⟩

/-- src/wax/flax/debug/profiler.py:574-622 `create_performance_report`: it indexes `summary['session']` at once, so the error dictionary raises
`KeyError`; otherwise the numbers that appear in the text. -/
def performanceReport (root : K → K) (r : Result K) (p : Prof K) : Except Unit (Summary K × List Advice) :=
  match r.summary root p with
  | none => .error ()
  | some s => .ok (s, r.advice)

/-- src/wax/flax/debug/profiler.py:543-566 `profile_apply` on this profiler: the recording made inside the `with` block (duration 0, sizes of the
first argument and of the result if detailed) and the one made on leaving it (no sizes). -/
def profiledReadings (detailed : Bool) (name : String) (input output : Data) (time mem1 mem2 : K) : List (Reading K) :=
  [⟨name, 0, mem1, if detailed then input else .none, if detailed then output else .none, false⟩,
   ⟨name, time, mem2, .none, .none, false⟩]

/-! ## Memory tracker -/

/-- Used for src/wax/flax/debug/memory_tracker.py:443-452. -/
inductive Severity where
  | low
  | medium
  | high
  | critical
deriving DecidableEq

/-- src/wax/flax/debug/memory_tracker.py:443-452. -/
def severity (total : K) : Severity :=
  if 100 < total then .critical else if 50 < total then .high else if 20 < total then .medium else .low

/-- src/wax/flax/debug/memory_tracker.py:487-529, the numbers about the process memory and the leaks. -/
structure MemSummary (K : Type) where
  snapshots : Nat
  steps : Nat
  current : K
  peak : K
  min : K
  avg : K
  growth : K
  leaks : Nat
  critical : Nat
  high : Nat

/-- src/wax/flax/debug/memory_tracker.py:487-529 `get_memory_summary`. -/
def memSummary (t : Tracker K) : Option (MemSummary K) :=
  match t.snapshots.head?, t.snapshots.getLast? with
  | some first, some latest =>
    let mem := t.snapshots.map (·.memory)
    some {
      snapshots := t.snapshots.length
      steps := t.stepCount
      current := latest.memory
      peak := pyMax mem
      min := pyMin mem
      avg := pyMean mem
      growth := latest.memory - first.memory
      leaks := t.leaks.length
      critical := (t.leaks.filter fun l => severity l.total == .critical).length
      high := (t.leaks.filter fun l => severity l.total == .high).length }
  | _, _ => none

/-- src/wax/flax/debug/memory_tracker.py:531-556, the "memory_usage" part. -/
structure ModuleMem (K : Type) where
  snapshots : Nat
  current : K
  peak : K
  avg : K
  growth : K

/-- src/wax/flax/debug/memory_tracker.py:531-556 `get_module_memory_analysis`. -/
def moduleMem (t : Tracker K) (name : String) : Option (ModuleMem K) :=
  let ms := t.snapshots.filter fun s => s.moduleName == name
  match ms.head?, ms.getLast? with
  | some first, some latest =>
    let mem := ms.map (·.memory)
    some ⟨ms.length, latest.memory, pyMax mem, pyMean mem, latest.memory - first.memory⟩
  | _, _ => none

/-- src/wax/flax/debug/memory_tracker.py:617-629 `reset`. -/
def trackerReset (t : Tracker K) : Tracker K := { t with snapshots := [], leaks := [], stepCount := 0, last := none }

/-- The operations on a memory tracker. Used for src/wax/flax/debug/memory_tracker.py:210-314, 617-637. -/
inductive TOp (K : Type) where
  | take (name : String) (mem : K) (force : Bool)
  | reset
  | enable
  | disable

/-- src/wax/flax/debug/memory_tracker.py:210-314, 617-637. -/
def trackerApply (interval : Nat) (threshold : K) (maxSnapshots : Nat) (t : Tracker K) : TOp K → Tracker K
  | .take name mem force => (t.take interval threshold maxSnapshots name mem force).2
  | .reset => trackerReset t
  | .enable => { t with enabled := true }
  | .disable => { t with enabled := false }

/-! ## Debugger -/

/-- src/wax/flax/debug/debugger.py:341-348: hit count, enabled, number of stored events of one hook. -/
structure HookStats where
  hits : Nat
  enabled : Bool
  events : Nat
deriving DecidableEq

/-- src/wax/flax/debug/debugger.py:350-358. -/
structure PerfStats (K : Type) where
  steps : Nat
  avgMs : K
  maxMs : K
  minMs : K

/-- src/wax/flax/debug/debugger.py:360-368 (the session duration and `global_events`, which nothing ever fills, are left out). -/
structure DebugSummary (K : Type) where
  steps : Nat
  hooks : List (String × HookStats)
  performance : Option (PerfStats K)
  historyLength : Nat

variable {C St In Out H : Type}

/-- src/wax/flax/debug/debugger.py:339-368 `get_summary`; `unit` converts the recorded durations (integers of the model of `step`) into seconds. -/
def debugSummary (unit : Nat → K) (d : Debugger C St In Out H) : DebugSummary K :=
  let times := d.execTimes.map unit
  { steps := d.currentStep
    hooks := d.hooks.map fun p => (p.1, ⟨p.2.hitCount, p.2.enabled, p.2.events.length⟩)
    performance := if d.execTimes = [] then none
      else some ⟨times.length, pyMean times * 1000, pyMax times * 1000, pyMin times * 1000⟩
    historyLength := d.stateHistory.length }

/-- src/wax/flax/debug/debugger.py:388-409 `export_events`: the summary, the steps of the stored events of every hook and the raw timings. -/
def exportEvents (unit : Nat → K) (d : Debugger C St In Out H) (format : String) :
    Except String (DebugSummary K × List (String × List Nat) × List Nat × List Nat) :=
  if format = "dict" then
    .ok (debugSummary unit d, d.hooks.map (fun p => (p.1, p.2.events.map (·.step))), d.execTimes, d.execSteps)
  else .error ("Unsupported export format: " ++ format)

/-- An input of a debug condition: a number, a dictionary of numbers, or something `float` does not accept.
Used for src/wax/flax/debug/debugger.py:489-498. -/
inductive Val (K : Type) where
  | num (x : K)
  | dict (d : List (String × K))
  | bad

/-- src/wax/flax/debug/debugger.py:489-498 `value_threshold`, under `DebugHook.check_condition` (src/wax/flax/debug/debugger.py:88-97: an exception counts as
False). `field = none` stands for `None` and for the empty string. -/
def valueThreshold (threshold : K) (field : Option String) (x : Val K) : Bool :=
  match field, x with
  | some f, .dict d => decide (threshold < (d.lookup f).getD 0)
  | _, .num v => decide (threshold < v)
  | _, _ => false

/-- src/wax/flax/debug/debugger.py:250-260 and 268-309 with a performance monitor: per step, the durations recorded so far and whether the monitor
is triggered. `time = none` is a step without a duration. -/
def monitorStep (trackPerf : Bool) (thresholdMs : K) (times : List K) (time : Option K) : Bool × List K :=
  let times' := if trackPerf then times ++ time.toList else times
  ((match times'.getLast? with | none => false | some t => decide (thresholdMs < t * 1000)), times')

/-- The answers of the monitor along a session. See src/wax/flax/debug/debugger.py:250-260 and 268-309. -/
def monitorRun (trackPerf : Bool) (thresholdMs : K) : List K → List (Option K) → List Bool
  | _, [] => []
  | times, t :: ts =>
    let r := monitorStep trackPerf thresholdMs times t
    r.1 :: monitorRun trackPerf thresholdMs r.2 ts

end Verif.Model.Reports
