import Verif.Model.Reports

/-! # Model: profiled steps, src/wax/flax/debug/profiler.py 170-206, 474-566

Steps inside `with profiler.start_step(name)` and calls through `profile_streaming`, with exceptions and JIT compilations explicit. -/

namespace Verif.Model.Profiled
open Verif.Model.Reports

variable {K : Type} [Field K] [LinearOrder K]

/-- What the body of a `with profiler.start_step(name) as ctx` block can do.
Used for src/wax/flax/debug/profiler.py:170-202. -/
inductive BodyAct (K : Type) where
  /-- `ctx.profiler.record_metrics(...)` -/
  | record (r : Reading K)
  /-- `ctx.set_jit_compilation(b)` -/
  | mark (b : Bool)
  /-- a function made with `jax.jit` is compiled -/
  | compile

/-- One action: the profiler and the attribute `jit_compilation` of the context.  A compilation changes nothing:
src/wax/flax/debug/profiler.py:170-202 `_setup_jit_tracking` defines `tracked_jit` but installs it nowhere. -/
def act (cfg : Cfg K) (s : Prof K × Bool) : BodyAct K → Prof K × Bool
  | .record r => (s.1.record cfg r, s.2)
  | .mark b => (s.1, b)
  | .compile => s

/-- src/wax/flax/debug/profiler.py:474-495: the block. `acts` are the actions of the body up to its end or to the exception that ends it: `__exit__` records
in both cases (and does not swallow the exception). -/
def block (cfg : Cfg K) (name : String) (acts : List (BodyAct K)) (time mem : K) (p : Prof K) : Prof K :=
  let s := acts.foldl (act cfg) (p, false)
  s.1.record cfg ⟨name, time, mem, .none, .none, s.2⟩

/-- One call of the `apply` of a function wrapped with `profile_streaming`: its first argument, its result (`none`: it raised), the
number of compilations it caused, its duration and the resident memory at the two recordings.
Used for src/wax/flax/debug/profiler.py:543-562. -/
structure PCall (K : Type) where
  input : Data
  output : Option Data
  compilations : Nat
  time : K
  mem1 : K
  mem2 : K

/-- src/wax/flax/debug/profiler.py:543-562: what the body of the wrapper does. -/
def PCall.acts (detailed : Bool) (name : String) (c : PCall K) : List (BodyAct K) :=
  List.replicate c.compilations .compile ++
  match c.output with
  | none => []
  | some o => [.record ⟨name, 0, c.mem1, if detailed then c.input else .none, if detailed then o else .none, false⟩]

/-- src/wax/flax/debug/profiler.py:543-566 `profile_apply`. -/
def PCall.run (cfg : Cfg K) (detailed : Bool) (name : String) (p : Prof K) (c : PCall K) : Prof K :=
  block cfg name (c.acts detailed name) c.time c.mem2 p

/-- A session of calls through `profile_streaming` on a new profiler. See src/wax/flax/debug/profiler.py:543-566. -/
def session (cfg : Cfg K) (detailed : Bool) (name : String) (calls : List (PCall K)) : Prof K :=
  calls.foldl (PCall.run cfg detailed name) Prof.init

end Verif.Model.Profiled
