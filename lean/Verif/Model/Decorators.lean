/-! # Model: stacking the debugging decorators (src/wax/flax/debug/{debugger,profiler,memory_tracker}.py)

What each tool records is reduced to entries of one common log (tool, module name, kind of recording), in the order in which
the recordings are made; the data recorded is the subject of `Model/Debug` and `Model/Reports`.  A session at an interactive
breakpoint is not quit (see `Model/Breakpoint`).  All tools are enabled. -/

namespace Verif.Model.Decorators

/-- The three decorators. Used for src/wax/flax/debug/debugger.py:438. -/
inductive Tool where
  | debug | profile | memory
  deriving DecidableEq

/-- The recordings: a debugger step; the profiler's record with duration 0 inside the call and the timed one at its end; the
tracker's snapshots before and after the call. Used for src/wax/flax/debug/memory_tracker.py:680-682. -/
inductive Kind where
  | step | zero | timed | before | after
  deriving DecidableEq

/-- One recording. Used for src/wax/flax/debug/memory_tracker.py:680-682. -/
structure Entry where
  tool : Tool
  name : String
  kind : Kind
  deriving DecidableEq

/-- The object a decorator is applied to: its `__name__`, whether it has `init` and `scan`, and its `apply` with the recordings
it makes.  `A` stands for the arguments of a call, `V` for its value, `E` for exceptions.
Used for src/wax/flax/core/streaming_transforms.py:344-465. -/
structure Obj (A V E : Type) where
  name : Option String
  init : Bool
  scan : Bool
  apply : A → Except E V × List Entry

variable {A V E : Type}

/-- `streaming_transform_with_state(fn)` (src/wax/flax/core/streaming_transforms.py:344-465) or `flax_transform_with_state(module)`: instances
without `__name__`; the former has `scan`. -/
def transform (scan : Bool) (f : A → Except E V) : Obj A V E := ⟨none, true, scan, fun a => (f a, [])⟩

/-- src/wax/flax/debug/debugger.py:438, src/wax/flax/debug/profiler.py:532, src/wax/flax/debug/memory_tracker.py:669: the name of a wrapper around an object without a name. -/
def Tool.fallback : Tool → String
  | .debug => "debug_wrapped"
  | .profile => "profile_wrapped"
  | .memory => "memory_wrapped"

/-- src/wax/flax/debug/memory_tracker.py:680-682: recorded before the call. -/
def Tool.pre (t : Tool) (name : String) : List Entry :=
  match t with
  | .memory => [⟨.memory, name, .before⟩]
  | _ => []

/-- src/wax/flax/debug/debugger.py:463-471, src/wax/flax/debug/profiler.py:551-559 and 488-495, src/wax/flax/debug/memory_tracker.py:687-693: recorded after a call that returned. -/
def Tool.post (t : Tool) (name : String) : List Entry :=
  match t with
  | .debug => [⟨.debug, name, .step⟩]
  | .profile => [⟨.profile, name, .zero⟩, ⟨.profile, name, .timed⟩]
  | .memory => [⟨.memory, name, .after⟩]

/-- src/wax/flax/debug/profiler.py:488-495: the exit of the context records even when the call raises; the others record nothing. -/
def Tool.fail (t : Tool) (name : String) : List Entry :=
  match t with
  | .profile => [⟨.profile, name, .timed⟩]
  | _ => []

/-- src/wax/flax/debug/debugger.py:432, src/wax/flax/debug/profiler.py:526, src/wax/flax/debug/memory_tracker.py:663: `module_name or fn.__name__` (AttributeError without a name). -/
def moduleName (given : Option String) (name : Option String) : Except Unit String :=
  match given with
  | some g => if g = "" then (match name with | some n => .ok n | none => .error ()) else .ok g
  | none => match name with | some n => .ok n | none => .error ()

/-- The wrapped call. Used for src/wax/flax/debug/debugger.py:412-484. -/
def wrapApply (t : Tool) (name : String) (apply : A → Except E V × List Entry) (a : A) : Except E V × List Entry :=
  let r := apply a
  (r.1, t.pre name ++ r.2 ++ (match r.1 with | .ok _ => t.post name | .error _ => t.fail name))

/-- src/wax/flax/debug/debugger.py:412-484, src/wax/flax/debug/profiler.py:502-569, src/wax/flax/debug/memory_tracker.py:640-705: the decorator: `init` is copied, `apply` is wrapped,
nothing else is kept. -/
def decorate (t : Tool) (given : Option String) (o : Obj A V E) : Except Unit (Obj A V E) :=
  (moduleName given o.name).map fun name =>
    ⟨some (o.name.getD t.fallback), o.init, false, wrapApply t name o.apply⟩

/-- A stack of decorators, the outermost first, as written above the function.
See src/wax/flax/debug/debugger.py:412-484. -/
def stack : List (Tool × Option String) → Obj A V E → Except Unit (Obj A V E)
  | [], o => .ok o
  | (t, given) :: ds, o => (stack ds o).bind (decorate t given)

end Verif.Model.Decorators
