import Verif.Model.Optim

/-!
# Which functions the online optimisers accept

The models of `Model/Optim` start from a configuration that has been accepted.  Here is the check the code makes on the way:
`src/wax/modules/{update_params,func_optimizer}.py` (Haiku) and `src/wax/flax/modules/{online_optimizer,func_optimizer}.py`.
Trusted rules of the libraries: `hk.transform(f).init` raises `ValueError` when `f` creates Haiku state; calling `None` raises
`TypeError`; `flax.Module.apply` without `mutable` raises `ModifyScopeVariableError` when the module writes a variable;
`jax.value_and_grad` raises `TypeError` when the loss is a tuple; `hk.get_state` in `apply` falls back on its initialiser when
the state passed has no such entry.
-/

namespace Verif.Model.Training
open Verif.Model.Optim

/-- Used for src/wax/modules/update_params.py:67-83. -/
inductive TrainErr
  /-- `hk.transform` used on a function with state -/
  | valueError
  /-- `None` called, or a loss that is not a scalar -/
  | typeError
  /-- a variable written in an immutable collection -/
  | modifyScope
  deriving DecidableEq, Repr

variable {K : Type} [Field K] [LinearOrder K] {S O X L A R V : Type}

/-! ## Haiku -/

/-- `partition(predicate, params)` when the predicate may be `None`: it is only called on leaves.
Used for src/wax/modules/func_optimizer.py:60-66. -/
def partitionOpt (pred : Option (String → String → V → Bool)) (d : HkDict V) : Except TrainErr (HkDict V × HkDict V) :=
  match pred with
  | some p => .ok (partition p d)
  | none => if (traverse d).isEmpty then .ok (partition (fun _ _ _ => true) d) else .error .typeError

/-- src/wax/modules/update_params.py:67-83 `get_init_params`: `hk.transform` (not `transform_with_state`) of the function; `None` means
that every parameter is trainable. -/
def getInitParams (pred : Option (String → String → V → Bool)) (params0 : HkDict V) (state0 : HkDict R) :
    Except TrainErr (HkDict V) :=
  if !state0.isEmpty then .error .valueError
  else match pred with
    | some p => .ok (partition p params0).1
    | none => .ok params0

/-- src/wax/modules/func_optimizer.py:60-66 with src/wax/modules/update_params.py:45-59: what `init` of a `FuncOptimizer` does before the first
evaluation: `get_init_params`, then the partition made by `UpdateParams`. `params0`, `state0` are the function's initial
parameters and Haiku state. -/
def funcOptimizerInit (optInit : HkDict V → O) (pred : Option (String → String → V → Bool)) (params0 : HkDict V)
    (state0 : HkDict R) : Except TrainErr (FState (HkDict R) O V) := do
  let trainable ← getInitParams pred params0 state0
  let tn ← partitionOpt pred params0
  .ok { trainable := trainable, nonTrainable := tn.2, mstate := state0, opt := optInit trainable }

/-- src/wax/modules/online_optimizer.py:106-118: what `init` of an `OnlineOptimizer` does; its model is a pair from
`hk.transform_with_state`, so any state is accepted. -/
def onlineOptimizerInit (optInit : HkDict V → O) (pred : Option (String → String → V → Bool)) (params0 : HkDict V)
    (state0 : HkDict R) : Except TrainErr (OState (HkDict R) O V) := do
  let tn ← partitionOpt pred params0
  .ok { trainable := tn.1, nonTrainable := tn.2, mstate := state0, opt := optInit tn.1, step := 0 }

/-! ## Flax OnlineOptimizer -/

/-- What a loss function returns. Used for src/wax/flax/modules/online_optimizer.py:93-114. -/
inductive Returned (L A : Type)
  | scalar (loss : L)
  | pair (loss : L) (aux : A)

/-- The model given to the Flax `OnlineOptimizer`: a Flax module (an object with `init` and `apply`; `writes = none` when the
call writes no variable) or a plain function (run with `hk.transform_with_state`, its calls return the new state).
Used for src/wax/flax/modules/online_optimizer.py:93-114. -/
inductive TrainedModel (S X L A V : Type)
  | flaxModule (call : Nested V → S → X → Returned L A × Option S)
  | plain (call : Nested V → S → X → Returned L A × S)

/-- The auxiliary output: nothing, the model's own, or (for a plain function) the Haiku state.
Used for src/wax/flax/modules/online_optimizer.py:93-114. -/
inductive Aux (S A : Type)
  | nothing
  | own (a : A)
  | state (s : S)
  deriving DecidableEq

/-- src/wax/flax/modules/online_optimizer.py:93-114 (`model_fn`) and 153-162 (splitting its result into loss and aux).  A plain function
receives its state wrapped under the key "state" (121), where its modules do not find their entries: they start again from
`fresh`.  Its result is the pair (returned value, new state), so a returned pair becomes the loss. -/
def modelLoss (m : TrainedModel S X L A V) (fresh : S) (params : Nested V) (s : S) (x : X) : Except TrainErr (L × Aux S A) :=
  match m with
  | .flaxModule call =>
    match call params s x with
    | (_, some _) => .error .modifyScope
    | (.scalar l, none) => .ok (l, .nothing)
    | (.pair l a, none) => .ok (l, .own a)
  | .plain call =>
    match call params fresh x with
    | (.scalar l, s') => .ok (l, .state s')
    | (.pair _ _, _) => .error .typeError

/-- One call of the Flax `OnlineOptimizer` on a model that may be refused: the evaluation, then the step of `Model/Optim`.
See src/wax/flax/modules/online_optimizer.py:93-114. -/
def flaxTrainStep (big : K) (c : NConfig S O X L (Aux S A) (Fl K)) (m : TrainedModel S X L A (Fl K)) (fresh : S)
    (st : NState S O (Fl K)) (x : X) :
    Except TrainErr ((L × Aux S A × Nested (Fl K) × Nested (Fl K)) × NState S O (Fl K)) := do
  let tn := nestedPartition c.pred st.params
  let r ← modelLoss m fresh (shallowMerge tn.1 tn.2) st.mstate x
  .ok (flaxOnlineStep big { c with model := fun _ _ _ => r } st x)

/-- Calls one after the other, stopping at the first error. See src/wax/flax/modules/online_optimizer.py:93-114. -/
def flaxTrainRun (big : K) (c : NConfig S O X L (Aux S A) (Fl K)) (m : TrainedModel S X L A (Fl K)) (fresh : S)
    (st : NState S O (Fl K)) : List X → Except TrainErr (List (L × Aux S A × Nested (Fl K) × Nested (Fl K)) × NState S O (Fl K))
  | [] => .ok ([], st)
  | x :: xs => do
    let r ← flaxTrainStep big c m fresh st x
    let rest ← flaxTrainRun big c m fresh r.2 xs
    .ok (r.1 :: rest.1, rest.2)

end Verif.Model.Training
