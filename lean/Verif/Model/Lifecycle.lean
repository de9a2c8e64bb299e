import Verif.Model.Events

/-!
# How a Flax module of this library is constructed, attached and set up

The rules of `flax.linen.Module` (flax 0.12.4; part of the trusted base, DESIGN.md §4) that decide whether a class can be used:

* `dataclasses` keeps a hand-written `__init__`, which then receives exactly the keywords it declares;
* the base `__init__` calls `__post_init__`: without a parent it returns at once; for a module created inside another
  module's `setup` it is deferred until the attribute assignment; otherwise (inside a compact method, or with an explicit
  scope) it reads every dataclass field and freezes the instance;
* `module.init`, `module.apply`, `module.bind` and the adoption of a module passed from outside as a field clone the module,
  `cls(**fields, parent=..., [name=...])`;
* inside `setup`, assigning an attribute that is a dataclass field raises; before `__post_init__` completes assignments are
  free; after it they raise.

Values are `Option W`, Python's `None` being `none`.
-/

namespace Verif.Model.Lifecycle

/-- The errors raised on the way. Used for src/wax/flax/core/streaming_transforms.py:78-89, 145-158, 197-213. -/
inductive Err
  /-- an unexpected or missing argument of `__init__` -/
  | typeError
  /-- a field or attribute read before it is set -/
  | attributeError
  /-- flax `SetAttributeInModuleSetupError` -/
  | fieldSetInSetup
  /-- flax `SetAttributeFrozenModuleError` -/
  | frozen
  deriving DecidableEq, Repr

/-- What a class statement declares: its dataclass fields (without `parent` and `name`) with their defaults, the parameters of
a hand-written `__init__` with their defaults (`none`: the generated one), and the attributes its `setup` assigns, in order,
given the values of the fields. Used for src/wax/flax/core/streaming_transforms.py:78-89, 145-158, 197-213. -/
structure ModuleClass (W : Type) where
  fields : List (String × Option (Option W))
  customInit : Option (List (String × Option (Option W)))
  setup : (String → Option (Option W)) → List String

/-- Where an instance comes to life. Used for src/wax/flax/core/streaming_transforms.py:78-89, 145-158, 197-213. -/
inductive Place
  /-- no enclosing module -/
  | top
  /-- a compact method of another module, or a clone with an explicit scope -/
  | scope
  /-- the `setup` of another module -/
  | inSetup
  deriving DecidableEq, Repr

/-- The attributes of an instance. Used for src/wax/flax/core/streaming_transforms.py:78-89, 145-158, 197-213. -/
abbrev Attrs (W : Type) := List (String × Option W)

/-- The value bound to one parameter. See src/wax/flax/core/streaming_transforms.py:78-89, 145-158, 197-213. -/
def bindOne {W : Type} (args : Attrs W) (p : String × Option (Option W)) : Except Err (String × Option W) :=
  match args.lookup p.1, p.2 with
  | some v, _ => .ok (p.1, v)
  | none, some d => .ok (p.1, d)
  | none, none => .error .typeError

/-- Python's check of keyword arguments against parameters with defaults: unknown keywords and missing required parameters
raise `TypeError`; the result gives every parameter its value.
Used for src/wax/flax/core/streaming_transforms.py:78-89, 145-158, 197-213. -/
def bindArgs {W : Type} (ps : List (String × Option (Option W))) (args : Attrs W) : Except Err (Attrs W) :=
  if args.any (fun a => !(ps.map Prod.fst).contains a.1) then .error .typeError
  else
    ps.mapM (bindOne args)

/-- `flax.linen.Module.__post_init__`: `true` when it completes (the instance is then frozen), `false` when it is deferred.
Used for src/wax/flax/core/streaming_transforms.py:78-89, 145-158, 197-213. -/
def postInit {W : Type} (c : ModuleClass W) (place : Place) (attrs : Attrs W) : Except Err Bool :=
  match place with
  | .top => .ok false
  | .inSetup => .ok false
  | .scope => if c.fields.all (fun f => (attrs.lookup f.1).isSome) then .ok true else .error .attributeError

/-- The class-level defaults of the fields, which are readable before `__init__` assigns anything.
Used for src/wax/flax/core/streaming_transforms.py:78-89, 145-158, 197-213. -/
def classDefaults {W : Type} (c : ModuleClass W) : Attrs W :=
  c.fields.filterMap fun f => f.2.map fun d => (f.1, d)

/-- `cls(**args)` with the extra flax keywords `extra` (`parent`, `name`).  A generated `__init__` accepts them; a
hand-written one (here: `super().__init__()`, then each field assigned from the parameter of the same name,
src/wax/flax/core/streaming_transforms.py:78-89, 145-158, 197-213) only if it declares them. -/
def construct {W : Type} (c : ModuleClass W) (place : Place) (extra : List String) (args : Attrs W) : Except Err (Attrs W) :=
  match c.customInit with
  | none => do
    let attrs ← bindArgs c.fields args
    let _ ← postInit c place attrs
    .ok attrs
  | some ps => do
    if extra.any (fun k => !(ps.map Prod.fst).contains k) then .error .typeError
    else
      let attrs ← bindArgs ps args
      let done ← postInit c place (classDefaults c)
      if done && !attrs.isEmpty then .error .frozen else .ok attrs

/-- `getattr(self, f.name)`. See src/wax/flax/core/streaming_transforms.py:78-89, 145-158, 197-213. -/
def readField {W : Type} (attrs : Attrs W) (f : String × Option (Option W)) : Except Err (String × Option W) :=
  match attrs.lookup f.1 with
  | some v => .ok (f.1, v)
  | none => .error .attributeError

/-- The keyword arguments of a clone: the value of every field.
See src/wax/flax/core/streaming_transforms.py:78-89, 145-158, 197-213. -/
def fieldValues {W : Type} (c : ModuleClass W) (attrs : Attrs W) : Except Err (Attrs W) :=
  c.fields.mapM (readField attrs)

/-- `setup` under flax's rule: assigning a dataclass field raises.  The result is the list of attributes it sets.
See src/wax/flax/core/streaming_transforms.py:78-89, 145-158, 197-213. -/
def runSetup {W : Type} (c : ModuleClass W) (attrs : Attrs W) : Except Err (List String) :=
  let assigned := c.setup fun f => attrs.lookup f
  if assigned.any (fun a => (c.fields.map Prod.fst).contains a) then .error .fieldSetInSetup else .ok assigned

/-- `m = cls(**args)` at top level, then `m.init(...)`, `m.apply(...)` or `m.bind(...)`.
Used for src/wax/flax/modules/func_optimizer.py:40-103. -/
def useTop {W : Type} (c : ModuleClass W) (args : Attrs W) : Except Err (List String) := do
  let m ← construct c .top [] args
  let kw ← fieldValues c m
  let clone ← construct c .scope ["parent"] kw
  runSetup c clone

/-- `cls(**args)` created at top level and handed to another module as a field: the other module clones it and attaches the
clone; then a method is called. See src/wax/flax/core/streaming_transforms.py:78-89, 145-158, 197-213. -/
def useField {W : Type} (c : ModuleClass W) (args : Attrs W) : Except Err (List String) := do
  let m ← construct c .top [] args
  let kw ← fieldValues c m
  let clone ← construct c .top ["parent", "name"] kw
  let _ ← postInit c .scope clone
  runSetup c clone

/-- `cls(**args)` inside a compact method of another module, then a method is called.
Used for src/wax/flax/core/streaming_transforms.py:263-270. -/
def useCompact {W : Type} (c : ModuleClass W) (args : Attrs W) : Except Err (List String) := do
  let m ← construct c .scope [] args
  runSetup c m

/-- `self.x = cls(**args)` inside the `setup` of another module, then a method is called.
Used for src/wax/flax/modules/func_optimizer.py:40-103. -/
def useSetup {W : Type} (c : ModuleClass W) (args : Attrs W) : Except Err (List String) := do
  let m ← construct c .inSetup [] args
  let _ ← postInit c .scope m
  runSetup c m

/-! ## The classes -/

/-- `self.x is None` on a field that has a value. Used for src/wax/flax/modules/online_optimizer.py:46-69. -/
def isNoneValue {W : Type} : Option (Option W) → Bool
  | some none => true
  | _ => false

/-- src/wax/flax/core/streaming_transforms.py:68-94 `HierarchicalState`; `names` are the names of its modules. -/
def hierarchicalState {W : Type} (names : List String) : ModuleClass W where
  fields := [("modules", none), ("dependencies", none)]
  customInit := some [("modules", none), ("dependencies", some none)]
  setup := fun _ => names.map fun n => "module_" ++ n

/-- src/wax/flax/core/streaming_transforms.py:134-162 `ConditionalStateUpdate`; `false` is the default of
`reset_on_condition`. -/
def conditionalStateUpdateClass {W : Type} (false' : W) : ModuleClass W where
  fields := [("module", none), ("condition_fn", none), ("reset_on_condition", none)]
  customInit := some [("module", none), ("condition_fn", none), ("reset_on_condition", some (some false'))]
  setup := fun _ => ["wrapped_module"]

/-- src/wax/flax/core/streaming_transforms.py:186-221 `StreamingStateMachine`; `names` are the names of its states. -/
def streamingStateMachine {W : Type} (names : List String) : ModuleClass W where
  fields := [("states", none), ("transitions", none), ("initial_state", none)]
  customInit := some [("states", none), ("transitions", none), ("initial_state", none)]
  setup := fun _ => (names.map fun n => "state_" ++ n) ++ ["current_state"]

/-- src/wax/flax/modules/online_optimizer.py:46-69 Flax `OnlineOptimizer` (with a valid `opt`): the default predicate is
assigned to the field itself. -/
def onlineOptimizerClass {W : Type} : ModuleClass W where
  fields := [("model", none), ("opt", none), ("project_params", some none), ("regularize_loss", some none),
    ("params_predicate", some none)]
  customInit := none
  setup := fun get => (if isNoneValue (get "params_predicate") then ["params_predicate"] else []) ++ ["optimizer"]

/-- src/wax/flax/modules/update_params.py:31-40 Flax `UpdateParams`. -/
def updateParamsClass {W : Type} : ModuleClass W where
  fields := [("fun", none), ("predicate", some none)]
  customInit := none
  setup := fun get => if isNoneValue (get "predicate") then ["predicate"] else []

/-- src/wax/flax/modules/func_optimizer.py:35-57 Flax `FuncOptimizer` (with a valid `opt`). -/
def funcOptimizerClass {W : Type} (false' : W) : ModuleClass W where
  fields := [("fun", none), ("opt", none), ("has_aux", some (some false')), ("params_predicate", some none)]
  customInit := none
  setup := fun _ => ["update_params", "optimizer", "fill_nan_inf"]

/-- src/wax/flax/modules/func_optimizer.py:40-103: a call of `FuncOptimizer` sets it up and, when the function has an `init`
method (a Flax module), calls `self.update_params.partition_params`, whose `UpdateParams` was created in `setup` with the
predicate of the optimiser; a plain function never touches it.  `hasInit` is `hasattr(self.fun, "init")`. -/
def funcOptimizerCall {W : Type} (false' : W) (hasInit : Bool) (args : Attrs W) : Except Err Unit := do
  let _ ← useTop (funcOptimizerClass false') args
  if hasInit then
    let m ← construct (funcOptimizerClass false') .top [] args
    let f := (m.lookup "fun").join
    let p := (m.lookup "params_predicate").join
    let _ ← useSetup updateParamsClass [("fun", f), ("predicate", p)]
    .ok ()
  else .ok ()

/-- src/wax/flax/core/advanced_state_patterns.py:37-77 `HierarchicalStateMachine`; `names` are the names of its states. -/
def hierarchicalStateMachineClass {W : Type} (sequential : W) (names : List String) : ModuleClass W where
  fields := [("state_modules", none), ("dependencies", some none), ("coordination_strategy", some (some sequential))]
  customInit := none
  setup := fun _ => (names.map fun n => "state_" ++ n) ++ ["coordination_state", "state_name_list"]

/-- src/wax/flax/core/advanced_state_patterns.py:421-434 `CompositeStateManager`. -/
def compositeStateManagerClass {W : Type} (pipeline : W) (names : List String) : ModuleClass W where
  fields := [("state_patterns", none), ("composition_strategy", some (some pipeline))]
  customInit := none
  setup := fun _ => names.map fun n => "pattern_" ++ n

/-! ## Decorators and unbound instances -/

variable {W I O S F : Type}

/-- src/wax/flax/core/streaming_transforms.py:263-270 a call (`init` or `apply`) of a function decorated with
`hierarchical_composition(**modules)`: the wrapper runs inside the compact `__call__` of `StreamingModule`
(375-378); it creates a `HierarchicalState` there, then calls it. -/
def hierarchicalCompositionCall (names : List String) (modules : W) (body : List (String × W) → Except Err O)
    (kwargs : List (String × W)) : Except Err O := do
  let _ ← useCompact (hierarchicalState names) [("modules", some modules)]
  body kwargs

/-- src/wax/flax/core/streaming_transforms.py:275-299 the same for `conditional_update`. -/
def conditionalUpdateCall (false' module conditionFn reset : W) (body : I → Except Err O) (x : I) : Except Err O := do
  let _ ← useCompact (conditionalStateUpdateClass false')
    [("module", some module), ("condition_fn", some conditionFn), ("reset_on_condition", some reset)]
  body x

/-- src/wax/flax/core/streaming_transforms.py:304-339 the same for `state_machine`. -/
def stateMachineCall (names : List String) (states transitions initial : W) (body : I → Except Err O) (x : I) : Except Err O := do
  let _ ← useCompact (streamingStateMachine names)
    [("states", some states), ("transitions", some transitions), ("initial_state", some initial)]
  body x

/-- The attributes an instance has without being attached: its fields.  (An unattached instance never runs `setup`.).
Used for src/wax/flax/core/streaming_transforms.py:168-183. -/
def unboundGet (attrs : Attrs W) (a : String) : Except Err (Option W) :=
  match attrs.lookup a with
  | some v => .ok v
  | none => .error .attributeError

/-- src/wax/flax/core/streaming_transforms.py:168-183 `ConditionalStateUpdate.__call__` on an unattached instance:
`self.wrapped_module` is only set by `setup`.  `call w x` calls the Python value `w`; `args0` is `args[0] if args else 0.0`. -/
def conditionalUnboundCall (attrs : Attrs W) (cond : I → Bool) (call : Option W → I → Except Err O) (args0 : I → O) (x : I) :
    Except Err O :=
  if cond x then do
    let m ← unboundGet attrs "wrapped_module"
    call m x
  else .ok (args0 x)

/-- src/wax/flax/core/streaming_transforms.py:236-238 `StreamingStateMachine.__call__` on an unattached instance:
`self.current_state` is only set by `setup`. -/
def stateMachineUnboundCall (attrs : Attrs W) (run : Option W → I → Except Err O) (x : I) : Except Err O := do
  let cur ← unboundGet attrs "current_state"
  run cur x

end Verif.Model.Lifecycle
