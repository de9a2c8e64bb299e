import Verif.Base.Fl
import Verif.Base.Mealy
import Verif.Model.Events

/-!
# Parameters, partition/merge and online optimisers

`src/wax/modules/{update_params,optax_optimizer,func_optimizer,online_optimizer,online_supervised_learner}.py` and their Flax
counterparts.  Simplifications: a parameter leaf is a single number (arrays are treated entry by entry); the gradient is an
arbitrary given function (automatic differentiation is not modelled); an optax transformation is an arbitrary pair of an
initial state and an update function; random keys are not modelled.
-/

namespace Verif.Model.Optim
open Verif.Model.Events

/-! ## Haiku parameter dictionaries: module name → parameter name → value -/

variable {V : Type}

/-- A Haiku parameter structure (module name, then parameter name); Python dictionaries are association lists.
Used for src/wax/modules/update_params.py:49 and 80. -/
abbrev HkDict (V : Type) := List (String × List (String × V))

/-- `structure[m][n]`. See src/wax/modules/update_params.py:49 and 80. -/
def get2 (d : HkDict V) (m n : String) : Option V := (d.lookup m).bind fun ps => ps.lookup n

/-- `haiku.data_structures.traverse`: all leaves (Haiku sorts them; the order has no effect on the resulting mappings).
Used for src/wax/modules/update_params.py:49 and 80. -/
def traverse (d : HkDict V) : List (String × String × V) :=
  d.flatMap fun mp => mp.2.map fun nv => (mp.1, nv.1, nv.2)

/-- `out[module_name][name] = value` on a `defaultdict(dict)`. Used for src/wax/modules/update_params.py:49 and 80. -/
def set2 (d : HkDict V) (m n : String) (v : V) : HkDict V :=
  dictSet d m (dictSet ((d.lookup m).getD []) n v)

/-- `haiku.data_structures.partition(predicate, params)`, used at src/wax/modules/update_params.py:49 and 80, src/wax/modules/online_optimizer.py:112. -/
def partition (pred : String → String → V → Bool) (d : HkDict V) : HkDict V × HkDict V :=
  (((traverse d).filter fun l => pred l.1 l.2.1 l.2.2).foldl (fun o l => set2 o l.1 l.2.1 l.2.2) [],
   ((traverse d).filter fun l => !pred l.1 l.2.1 l.2.2).foldl (fun o l => set2 o l.1 l.2.1 l.2.2) [])

/-- `haiku.data_structures.merge(a, b)`, used at src/wax/modules/update_params.py:59, src/wax/modules/online_optimizer.py:125 and 145. -/
def merge (a b : HkDict V) : HkDict V :=
  (traverse a ++ traverse b).foldl (fun o l => set2 o l.1 l.2.1 l.2.2) []

/-- `jax.tree_util.tree_map(f, tree)`, with the leaf's address made available to `f`.
Used for src/wax/modules/online_optimizer.py:101-158. -/
def mapTree {W : Type} (f : String → String → V → W) (d : HkDict V) : HkDict W :=
  d.map fun mp => (mp.1, mp.2.map fun nv => (nv.1, f mp.1 nv.1 nv.2))

/-- `optax.apply_updates(params, updates)`: `p + u` leaf by leaf (`updates` has the structure of `params`).
Used for src/wax/modules/optax_optimizer.py:30-35. -/
def applyUpdates (add : V → V → V) (params updates : HkDict V) : HkDict V :=
  mapTree (fun m n p => match get2 updates m n with
    | some u => add p u
    | none => p) params

/-- An optax `GradientTransformation`: initial state and `update(grads, state)`.
Used for src/wax/modules/optax_optimizer.py:30-35. -/
structure Transformation (O V : Type) where
  init : HkDict V → O
  update : HkDict V → O → HkDict V × O

variable {O : Type}

/-- src/wax/modules/optax_optimizer.py:30-35 `OptaxOptimizer.__call__` (on an existing optimiser state). -/
def optaxStep (add : V → V → V) (opt : Transformation O V) (params grads : HkDict V) (s : O) : HkDict V × O :=
  let (updates, s') := opt.update grads s
  (applyUpdates add params updates, s')

/-! ## Replacing non-finite gradients -/

variable {K : Type} [Field K] [LinearOrder K]

/-- `jnp.nan_to_num(x)` (src/wax/modules/online_optimizer.py:137): NaN becomes 0, the infinities become plus or minus the largest finite
float `big`. -/
def nanToNum (big : K) : Fl K → Fl K
  | .nan => .fin 0
  | .pinf => .fin big
  | .ninf => .fin (-big)
  | .fin k => .fin k

/-- `FillNanInf` with its default fill value 0 (src/wax/modules/func_optimizer.py:70-71; src/wax/modules/fill_nan_inf.py). -/
def fillNanInf : Fl K → Fl K
  | .fin k => .fin k
  | _ => .fin 0

/-! ## OnlineOptimizer (Haiku) -/

/-- src/wax/modules/online_optimizer.py:32-35 `ParamsState`, the `step` state (118) and the optimiser's `opt_state`. -/
structure OState (S O V : Type) where
  trainable : HkDict V
  nonTrainable : HkDict V
  mstate : S
  opt : O
  step : Nat

/-- src/wax/modules/online_optimizer.py:38-62 `OptInfo` with `return_params=True`. -/
structure OInfo (L I V : Type) where
  loss : L
  info : I
  params : HkDict V

variable {S X L I : Type}

/-- Everything an `OnlineOptimizer` is given (src/wax/modules/online_optimizer.py:68-100). `model params state x` is
`self.model.apply(params, state, None, x)`; `regularize loss trainable` is `loss + regularize_loss(trainable)` (the identity
when absent); `grad trainable nonTrainable state x` is the gradient part of `jax.value_and_grad(_loss)`. -/
structure OConfig (S O X L I V : Type) where
  model : HkDict V → S → X → (L × I) × S
  regularize : L → HkDict V → L
  grad : HkDict V → HkDict V → S → X → HkDict V
  opt : Transformation O V
  project : HkDict V → HkDict V
  pred : String → String → V → Bool

/-- src/wax/modules/online_optimizer.py:106-118: the state created by `init`: the model's initial parameters, partitioned; `step` is 0; the
optimiser state is initialised on the trainable parameters (src/wax/modules/optax_optimizer.py:31). -/
def onlineInit (c : OConfig S O X L I V) (params0 : HkDict V) (s0 : S) : OState S O V :=
  let tn := partition c.pred params0
  { trainable := tn.1, nonTrainable := tn.2, mstate := s0, opt := c.opt.init tn.1, step := 0 }

/-- src/wax/modules/online_optimizer.py:101-158 `OnlineOptimizer.__call__`. -/
def onlineStep (big : K) (c : OConfig S O X L I (Fl K)) (st : OState S O (Fl K)) (x : X) :
    OInfo L I (Fl K) × OState S O (Fl K) :=
  let params := merge st.trainable st.nonTrainable
  let r := c.model params st.mstate x
  let loss := c.regularize r.1.1 st.trainable
  let grads := c.grad st.trainable st.nonTrainable st.mstate x
  let filled := mapTree (fun _ _ g => nanToNum big g) grads
  let u := optaxStep Fl.add c.opt st.trainable filled st.opt
  let updated := c.project u.1
  ({ loss := loss, info := r.1.2, params := merge updated st.nonTrainable },
   { trainable := updated, nonTrainable := st.nonTrainable, mstate := r.2, opt := u.2, step := st.step + 1 })

/-- The module after initialisation. See src/wax/modules/online_optimizer.py:101-158. -/
def onlineOptimizer (big : K) (c : OConfig S O X L I (Fl K)) (params0 : HkDict (Fl K)) (s0 : S) :
    Mealy (OState S O (Fl K)) X (OInfo L I (Fl K)) where
  init := onlineInit c params0 s0
  step := onlineStep big c

/-! ## FuncOptimizer and OnlineSupervisedLearner (Haiku) -/

/-- State of `FuncOptimizer` (`trainable_params`), of its inner `UpdateParams` (non-trainable parameters and state of the
function) and of the optimiser. Used for src/wax/modules/func_optimizer.py:60-66. -/
structure FState (S O V : Type) where
  trainable : HkDict V
  nonTrainable : HkDict V
  mstate : S
  opt : O

/-- What a `FuncOptimizer` is given (src/wax/modules/func_optimizer.py:43-58). `func params state x` is the transformed function, `fill` is
`FillNanInf` or the identity according to `grads_fill_nan_inf`. -/
structure FConfig (S O X R V : Type) where
  func : HkDict V → S → X → R × S
  grad : HkDict V → HkDict V → S → X → HkDict V
  opt : Transformation O V
  pred : String → String → V → Bool
  fill : Bool

variable {R : Type}

/-- src/wax/modules/func_optimizer.py:60-66, src/wax/modules/update_params.py:45-59, 72-83: initial state. -/
def funcInit (c : FConfig S O X R V) (params0 : HkDict V) (s0 : S) : FState S O V :=
  let tn := partition c.pred params0
  { trainable := tn.1, nonTrainable := tn.2, mstate := s0, opt := c.opt.init tn.1 }

/-- src/wax/modules/func_optimizer.py:60-77 with src/wax/modules/update_params.py:61-66. -/
def funcStep (c : FConfig S O X R (Fl K)) (st : FState S O (Fl K)) (x : X) :
    (R × HkDict (Fl K)) × FState S O (Fl K) :=
  let params := merge st.trainable st.nonTrainable
  let r := c.func params st.mstate x
  let grads := c.grad st.trainable st.nonTrainable st.mstate x
  let grads := if c.fill then mapTree (fun _ _ g => fillNanInf g) grads else grads
  let u := optaxStep Fl.add c.opt st.trainable grads st.opt
  ((r.1, u.1), { trainable := u.1, nonTrainable := st.nonTrainable, mstate := r.2, opt := u.2 })

/-- See src/wax/modules/func_optimizer.py:60-77. -/
def funcOptimizer (c : FConfig S O X R (Fl K)) (params0 : HkDict (Fl K)) (s0 : S) :
    Mealy (FState S O (Fl K)) X (R × HkDict (Fl K)) where
  init := funcInit c params0 s0
  step := funcStep c

/-- src/wax/modules/online_supervised_learner.py:64-82: the learner is a `FuncOptimizer` on `(x, y) ↦ (loss(y, model(x)), model(x))` with
every parameter trainable; it returns the prediction, the loss and the updated parameters. -/
def learnerConfig {A B P : Type} (model : HkDict V → S → A → P × S) (loss : B → P → L)
    (grad : HkDict V → HkDict V → S → A × B → HkDict V) (opt : Transformation O V) (fill : Bool) :
    FConfig S O (A × B) (L × P) V where
  func params s xy := let r := model params s xy.1; ((loss xy.2 r.1, r.1), r.2)
  grad := grad
  opt := opt
  pred _ _ _ := true
  fill := fill

/-- src/wax/modules/online_supervised_learner.py:64-82: outputs `(y_pred, (loss, params))`. -/
def learner {A B P : Type} (model : HkDict (Fl K) → S → A → P × S) (loss : B → P → L)
    (grad : HkDict (Fl K) → HkDict (Fl K) → S → A × B → HkDict (Fl K)) (opt : Transformation O (Fl K)) (fill : Bool)
    (params0 : HkDict (Fl K)) (s0 : S) : Mealy (FState S O (Fl K)) (A × B) (P × L × HkDict (Fl K)) where
  init := funcInit (learnerConfig model loss grad opt fill) params0 s0
  step st xy :=
    let r := funcStep (learnerConfig model loss grad opt fill) st xy
    ((r.1.1.2, r.1.1.1, r.1.2), r.2)

/-! ## Flax: nested dictionaries -/

/-- Names are lists of characters; a nested dictionary is the list of its leaves, each with the path of keys leading to it
(empty sub-dictionaries carry no leaf and are dropped by `flatten_dict`).
Used for src/wax/flax/modules/update_params.py:89, 96, 107-108. -/
abbrev Name := List Char

/-- Used for src/wax/flax/modules/update_params.py:94-108. -/
abbrev Nested (V : Type) := List (List Name × V)

/-- `flatten_dict(params, sep="/")` turns the path into one key, the keys joined with "/"; `key.split("/")` and
`unflatten_dict(sep="/")` split it again (src/wax/flax/modules/update_params.py:89, 96, 107-108). -/
def resplit (path : List Name) : List Name := (List.intercalate ['/'] path).splitOn '/'

/-- src/wax/flax/modules/update_params.py:94-108 and src/wax/flax/modules/online_optimizer.py:127-142 `partition_params`: the predicate gets
the first and the last component of the key. -/
def nestedPartition (pred : Name → Name → V → Bool) (d : Nested V) : Nested V × Nested V :=
  let d' := d.map fun pv => (resplit pv.1, pv.2)
  (d'.filter fun pv => pred (pv.1.headD []) (pv.1.getLastD []) pv.2,
   d'.filter fun pv => !pred (pv.1.headD []) (pv.1.getLastD []) pv.2)

/-- `result = {}; result.update(non_trainable); result.update(trainable)` on nested dictionaries: a top-level key of
`trainable` replaces the whole sub-dictionary (src/wax/flax/modules/update_params.py:133-136, src/wax/flax/modules/online_optimizer.py:149-151
and 187-189). -/
def shallowMerge (trainable nonTrainable : Nested V) : Nested V :=
  (nonTrainable.filter fun pv => !(trainable.any fun q => q.1.head? == pv.1.head?)) ++ trainable

/-- src/wax/flax/modules/update_params.py:112-139 `merge_params` on dictionaries. -/
def mergeParams (trainable nonTrainable : Nested V) : Nested V :=
  if trainable.isEmpty && nonTrainable.isEmpty then []
  else if trainable.isEmpty then nonTrainable
  else if nonTrainable.isEmpty then trainable
  else shallowMerge trainable nonTrainable

/-- What the Flax `OnlineOptimizer` is given; the model returns `(loss, aux)` and its state is only read
(src/wax/flax/modules/online_optimizer.py:95-114, 147-171). -/
structure NConfig (S O X L A V : Type) where
  model : Nested V → S → X → L × A
  grad : Nested V → Nested V → S → X → Nested V
  optInit : Nested V → O
  optUpdate : Nested V → O → Nested V → Nested V × O
  project : Nested V → Nested V
  pred : Name → Name → V → Bool

/-- `model_vars` (parameters and the other collections) and the optimiser state (created on the first call).
Used for src/wax/flax/modules/online_optimizer.py:71-197. -/
structure NState (S O V : Type) where
  params : Nested V
  mstate : S
  opt : Option O

variable {A : Type}

/-- src/wax/flax/modules/online_optimizer.py:71-197 `__call__`. -/
def flaxOnlineStep (big : K) (c : NConfig S O X L A (Fl K)) (st : NState S O (Fl K)) (x : X) :
    (L × A × Nested (Fl K) × Nested (Fl K)) × NState S O (Fl K) :=
  let tn := nestedPartition c.pred st.params
  let merged := shallowMerge tn.1 tn.2
  let r := c.model merged st.mstate x
  let grads := (c.grad tn.1 tn.2 st.mstate x).map fun pv => (pv.1, nanToNum big pv.2)
  let o := st.opt.getD (c.optInit tn.1)
  let u := c.optUpdate grads o tn.1
  let updated := c.project u.1
  let params := shallowMerge updated tn.2
  ((r.1, r.2, grads, params), { params := params, mstate := st.mstate, opt := some u.2 })

/-- See src/wax/flax/modules/online_optimizer.py:71-197. -/
def flaxOnline (big : K) (c : NConfig S O X L A (Fl K)) (params0 : Nested (Fl K)) (s0 : S) :
    Mealy (NState S O (Fl K)) X (L × A × Nested (Fl K) × Nested (Fl K)) where
  init := { params := params0, mstate := s0, opt := none }
  step := flaxOnlineStep big c

/-- What the Flax `FuncOptimizer` is given (src/wax/flax/modules/func_optimizer.py:35-56). `init` is the wrapped object's `init`
method on the call arguments, if it has one (77, 107: only Flax modules have one); `apply variables x` is
`self.fun.apply(variables, x)` for a module, and `self.fun(x)` (which ignores the variables) for a plain function. -/
structure FlaxFunc (O X R V : Type) where
  init : Option (X → Nested V)
  apply : Nested V → X → R
  grad : Nested V → Option (Nested V) → X → Nested V
  optInit : Nested V → O
  optUpdate : Nested V → O → Nested V → Nested V × O
  pred : Name → Name → V → Bool

/-- Collections "trainable_params" and "non_trainable_params" (absent until registered), and the optimiser state.
Used for src/wax/flax/modules/func_optimizer.py:75-92. -/
structure FlaxFuncState (O V : Type) where
  trainable : Nested V
  nonTrainable : Option (Nested V)
  opt : Option O

/-- src/wax/flax/modules/func_optimizer.py:75-92: initialise when there is no trainable parameter. -/
def flaxFuncPrepare (c : FlaxFunc O X R V) (st : FlaxFuncState O V) (x : X) : FlaxFuncState O V :=
  if st.trainable.isEmpty then
    match c.init with
    | some init =>
      let tn := nestedPartition c.pred (init x)
      { st with trainable := tn.1, nonTrainable := some (st.nonTrainable.getD tn.2) }
    | none => { st with trainable := [] }
  else st

/-- src/wax/flax/modules/func_optimizer.py:98-104: the variables the function is evaluated on. -/
def flaxFuncMerged (st : FlaxFuncState O V) (params : Nested V) : Nested V :=
  match st.nonTrainable with
  | some nt => mergeParams params nt
  | none => params

/-- src/wax/flax/modules/func_optimizer.py:58-150 `__call__`: result of the function, gradients, whether an update was made. -/
def flaxFuncStep (c : FlaxFunc O X R (Fl K)) (st : FlaxFuncState O (Fl K)) (x : X) :
    (R × Nested (Fl K) × Option O) × FlaxFuncState O (Fl K) :=
  let st := flaxFuncPrepare c st x
  if st.trainable.isEmpty then
    ((c.apply (flaxFuncMerged st []) x, [], none), st)
  else
    let r := c.apply (flaxFuncMerged st st.trainable) x
    let grads := (c.grad st.trainable st.nonTrainable x).map fun pv => (pv.1, fillNanInf pv.2)
    let u := c.optUpdate grads (st.opt.getD (c.optInit st.trainable)) st.trainable
    ((r, grads, some u.2), { st with trainable := u.1, opt := some u.2 })

/-- Used for src/wax/flax/modules/online_supervised_learner.py:60-81. -/
def flaxFunc (c : FlaxFunc O X R (Fl K)) : Mealy (FlaxFuncState O (Fl K)) X (R × Nested (Fl K) × Option O) where
  init := { trainable := [], nonTrainable := none, opt := none }
  step := flaxFuncStep c

/-- src/wax/flax/modules/online_supervised_learner.py:37-58: the learner hands `FuncOptimizer` a plain Python function
(`model_loss_fn`), which has no `init`: `model x` is `self.model(x)`. -/
def flaxLearnerConfig {A B P : Type} (model : A → P) (loss : P → B → L) (c : FlaxFunc O (A × B) (L × P) (Fl K)) :
    FlaxFunc O (A × B) (L × P) (Fl K) :=
  { c with init := none, apply := fun _ xy => (loss (model xy.1) xy.2, model xy.1) }

/-- src/wax/flax/modules/online_supervised_learner.py:60-81: `(predictions, {loss, grads, opt_info})`. -/
def flaxLearner {A B P : Type} (model : A → P) (loss : P → B → L) (c : FlaxFunc O (A × B) (L × P) (Fl K)) :
    Mealy (FlaxFuncState O (Fl K)) (A × B) (P × L × Nested (Fl K) × Option O) where
  init := (flaxFunc (flaxLearnerConfig model loss c)).init
  step st xy :=
    let r := (flaxFunc (flaxLearnerConfig model loss c)).step st xy
    ((r.1.1.2, r.1.1.1, r.1.2.1, r.1.2.2), r.2)

end Verif.Model.Optim
