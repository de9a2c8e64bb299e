import Verif.Model.Unroll

/-! # Model: event-driven computation and streaming patterns

src/wax/modules/update_on_event.py, src/wax/flax/core/streaming_transforms.py, src/wax/flax/core/transform.py.
Inner modules are deterministic streaming machines; their parameters are fixed.  Event predicates are total functions. -/

namespace Verif.Model.Events
open Verif.Model.Unroll
variable {P S R I O V : Type}

/-- src/wax/modules/update_on_event.py:72-121 Haiku `UpdateOnEvent`.  The input of a step is the event flag and the inner
input.  `fill` is `jnp.full(shape, initial_output_value)` of an output.  The module is always run; state and output are kept
only on an event.  (`prev_state_dict` is the whole inner state; an inner module without state has `S = Unit`.) The cache is
`none` until the first call creates it. -/
def updateOnEvent (m : Mealy S I O) (fill : O → O) : Mealy (S × Option O) (Bool × I) O where
  init := (m.init, none)
  step := fun st x =>
    let prevState := st.1
    let (output, nextState) := m.step prevState x.2
    let prevOutput := st.2.getD (fill output)
    let (output, nextState) := if x.1 then (output, nextState) else (prevOutput, prevState)
    (output, (nextState, some output))

/-- src/wax/flax/core/streaming_transforms.py:468-528 Flax `ConditionalComputation`: the inner state always advances, only the
output is cached.  `event = none` is "no event function". -/
def conditionalComputation (m : Mealy S I O) (fill : O → O) (event : Option (I → Bool)) : Mealy (S × Option O) I O where
  init := (m.init, none)
  step := fun st x =>
    let (newOutput, nextState) := m.step st.1 x
    let cached := st.2.getD (fill newOutput)
    match event with
    | none => (newOutput, (nextState, some newOutput))
    | some event =>
      let selected := if event x then newOutput else cached
      (selected, (nextState, some selected))

/-- src/wax/flax/core/streaming_transforms.py:134-183 `ConditionalStateUpdate`, created in the `setup` of an enclosing
module (the only way it can be used, `Model/Lifecycle`): `arg0` is the first argument, returned when the condition fails;
`reset_on_condition` does nothing. -/
def conditionalStateUpdate (m : Mealy S I O) (cond : I → Bool) (_resetOnCondition : Bool) (arg0 : I → O) : Mealy S I O where
  init := m.init
  step := fun s x => if cond x then m.step s x else (arg0 x, s)

/-- src/wax/flax/core/streaming_transforms.py:671-674: parameters and state of the scan.  When they are missing and a key is
given, `rng or PRNGKey(0)` takes the truth value of an array of two elements, which raises. -/
def scanInit (f : Transformed P S R I O) (key0 : R) (rng : Option R) (params : Option P) (state : Option S)
    (xs : List I) : Except Unit (P × S) :=
  match params, state with
  | some p, some s => .ok (p, s)
  | _, _ =>
    match xs with
    | [] => .error ()
    | x :: _ =>
      match rng with
      | some _ => .error ()
      | none => .ok (f.init (some key0) x)

/-- src/wax/flax/core/streaming_transforms.py:687-705 `scan_body`: the reset happens after the output. -/
def scanBody (f : Transformed P S R I O) (resetOn : Option (I → Bool)) (preserve : Bool) (p : P) (s0 : S)
    (rng : Option R) (c : S) (x : I) : S × O :=
  let r := f.apply p c rng x
  let newState := match resetOn with
    | none => r.2
    | some reset => if preserve then (if reset x then s0 else r.2) else r.2
  (newState, r.1)

/-- src/wax/flax/core/streaming_transforms.py:678-709 `streaming_scan(...).scan_apply`. -/
def scanApply (f : Transformed P S R I O) (key0 : R) (resetOn : Option (I → Bool)) (preserve : Bool)
    (params : Option P) (state : Option S) (rng : Option R) (xs : List I) : Except Unit (List O × S) := do
  let (p, s) ← scanInit f key0 rng params state xs
  let r := laxScan (scanBody f resetOn preserve p s rng) s xs
  .ok (r.2, r.1)

/-- src/wax/flax/core/streaming_transforms.py:412-438 `StreamingTransform.scan`: the same key for every step. -/
def transformScan (f : Transformed P S R I O) (p : P) (s : S) (rng : Option R) (xs : List I) : List O × S :=
  let r := laxScan (fun c x => let r := f.apply p c rng x; (r.2, r.1)) s xs
  (r.2, r.1)

/-- src/wax/flax/core/streaming_transforms.py:216-227 `get_next_state`. Python dictionaries are association lists in
insertion order with distinct keys. -/
def nextState (transitions : List (String × List (String × (I → Bool)))) (current : String) (x : I) : String :=
  match transitions.lookup current with
  | none => current
  | some trs =>
    match trs.find? (fun tr => tr.2 x) with
    | some tr => tr.1
    | none => current

/-- src/wax/flax/core/streaming_transforms.py:229-246 `StreamingStateMachine.__call__`: runs the current state's module
(KeyError if it is not declared: the machine stops, `none`), then moves.  The state of each module is kept by name. -/
def stateMachineStep (states : List (String × Mealy S I O))
    (transitions : List (String × List (String × (I → Bool)))) (st : String × (String → S)) (x : I) :
    Option ((O × String) × (String × (String → S))) :=
  match states.lookup st.1 with
  | none => none
  | some m =>
    let r := m.step (st.2 st.1) x
    let next := nextState transitions st.1 x
    some ((r.1, next), (next, fun n => if n = st.1 then r.2 else st.2 n))

/-- Fresh module states. Used for src/wax/flax/core/streaming_transforms.py:229-246. -/
def smInit (states : List (String × Mealy S I O)) (dflt : S) (n : String) : S :=
  match states.lookup n with
  | some m => m.init
  | none => dflt

/-- The machine fed one input after another; `none` once a call has raised.
See src/wax/flax/core/streaming_transforms.py:229-246. -/
def stateMachineRun (states : List (String × Mealy S I O))
    (transitions : List (String × List (String × (I → Bool)))) (st : String × (String → S)) :
    List I → Option (List (O × String) × (String × (String → S)))
  | [] => some ([], st)
  | x :: xs =>
    match stateMachineStep states transitions st x with
    | none => none
    | some (o, st') =>
      match stateMachineRun states transitions st' xs with
      | none => none
      | some (os, st'') => some (o :: os, st'')

/-- Python `d.update(e)` on dictionaries. Used for src/wax/flax/core/streaming_transforms.py:114-118. -/
def dictSet (d : List (String × V)) (k : String) (v : V) : List (String × V) :=
  match d with
  | [] => [(k, v)]
  | (k', v') :: d => if k' = k then (k, v) :: d else (k', v') :: dictSet d k v

/-- Used for src/wax/flax/core/streaming_transforms.py:107-126. -/
def dictUpdate (d e : List (String × V)) : List (String × V) := e.foldl (fun d kv => dictSet d kv.1 kv.2) d

/-- src/wax/flax/core/streaming_transforms.py:114-118: one dependency, if already computed. -/
def addDep (computed mi : List (String × V)) (d : String) : List (String × V) :=
  match computed.lookup d with
  | some v => dictSet mi d v
  | none => mi

/-- src/wax/flax/core/streaming_transforms.py:107-126 `_get_module_inputs`. -/
def moduleInputs (deps : List (String × List String)) (name : String) (inputs computed : List (String × V)) :
    List (String × V) :=
  let mi := match deps.lookup name with
    | none => []
    | some ds => ds.foldl (addDep computed) []
  dictUpdate mi inputs

/-- src/wax/flax/core/streaming_transforms.py:91-105 `execute_in_order` (stateless view of the modules: within one call each
module is a function of its keyword inputs): modules run in declaration order. -/
def executeInOrder (deps : List (String × List String)) (inputs : List (String × V)) :
    List (String × (List (String × V) → V)) → List (String × V) → List (String × V)
  | [], outputs => outputs
  | (name, m) :: rest, outputs =>
    executeInOrder deps inputs rest (dictSet outputs name (m (moduleInputs deps name inputs outputs)))

/-- src/wax/flax/core/transform.py:98-100 `combine_variables`: `{"params": params, **state}`. -/
def combineVariables (params : V) (state : List (String × V)) : List (String × V) :=
  dictUpdate [("params", params)] state

/-- src/wax/flax/core/transform.py:103-107 `split_variables`; also the splitting in `init_fn`, 65-67. -/
def splitVariables (empty : V) (vars : List (String × V)) : V × List (String × V) :=
  ((vars.lookup "params").getD empty, vars.filter fun kv => kv.1 != "params")

/-- src/wax/flax/core/transform.py:69-95 `apply_fn`: `run` is `module.apply(..., mutable=True)` on the variables; the
returned parameters are dropped. -/
def flaxApply (run : List (String × V) → O × List (String × V)) (params : V) (state : List (String × V)) :
    O × List (String × V) :=
  let r := run (combineVariables params state)
  (r.1, r.2.filter fun kv => kv.1 != "params")

end Verif.Model.Events
