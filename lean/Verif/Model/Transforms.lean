import Verif.Model.Events
import Verif.Model.Windows

/-! # Model: streaming decorators of the Flax port

src/wax/flax/core/streaming_transforms.py (`StreamingOptimizer`, `StreamingScan`, the decorators),
src/wax/flax/core/state_utils.py, src/wax/flax/core/advanced_state_patterns.py:489-577 and
src/wax/flax/modules/compressed_buffer.py:467-543 (the decorators), src/wax/modules/vmap.py, src/wax/flax/modules/vmap.py. -/

namespace Verif.Model.Transforms
open Verif.Model Verif.Model.Unroll Verif.Model.Events
variable {S S' I O V X Y A T C K M B F : Type}

/-! ## StreamingOptimizer -/

/-- An optax `GradientTransformation` on one number: `init(params)` and `update(grads, state, params)`.
Used for src/wax/flax/core/streaming_transforms.py:715-787. -/
structure ScalarOpt (O K : Type) where
  init : K → O
  update : K → O → K → K × O

/-- src/wax/flax/core/streaming_transforms.py:752-753: the target is the second positional argument, or the only one.
Positional arguments are a non-empty list (first argument, others); without positional arguments `args[0]` raises. -/
def optTarget (args : X × List X) : X := match args.2 with
  | t :: _ => t
  | [] => args.1

/-- src/wax/flax/core/streaming_transforms.py:715-787 `StreamingOptimizer.__call__` and 825-834 `optimized_fn`, with fresh variables
`scale = 1.0` and `opt_state = optimizer.init(scale)`.  `model` is the decorated function as a streaming machine (output and
auxiliary output), `grad` is `jax.grad`, `mul` is `model_output * scale`.  The output is `loss_info` and `params_info`. -/
def streamingOptimizer [One K] [Add K] (grad : (K → K) → K → K) (opt : ScalarOpt O K) (loss : Y → X → K) (mul : Y → K → Y)
    (model : Mealy M (X × List X) (Y × A)) : Mealy (M × K × O) (X × List X) ((K × Y × A) × (K × K)) where
  init := (model.init, 1, opt.init 1)
  step := fun st args =>
    let (out, model') := model.step st.1 args
    let target := optTarget args
    let scale := st.2.1
    let scaleLoss := fun p => loss (mul out.1 p) target
    let lossVal := scaleLoss scale
    let grads := grad scaleLoss scale
    let (updates, opt') := opt.update grads st.2.2 scale
    let newScale := scale + updates
    (((lossVal, out.1, out.2), (newScale, grads)), (model', newScale, opt'))

/-- optax `sgd(lr)` without momentum: the update is `-lr * grads`, no state.
See src/wax/flax/core/streaming_transforms.py:715-787. -/
def plainSgd [Ring K] (lr : K) : ScalarOpt Unit K := ⟨fun _ => (), fun g _ _ => (-(lr * g), ())⟩

/-! ## apply_with_state -/

/-- A Flax module called on a dictionary of variable collections: an exception (a missing parameter, say) or its output and the
collections it wrote. Used for src/wax/flax/core/state_utils.py:24-58. -/
abbrev Call (V I O : Type) := List (String × V) → I → Except Unit (O × List (String × V))

/-- Flax `module.apply(variables, x, mutable=[...])`: writing to a collection that is not mutable raises; only the mutable
collections are returned. Used for src/wax/flax/core/state_utils.py:24-58. -/
def moduleApply (call : Call V I O) (vars : List (String × V)) (mutable : List String) (x : I) :
    Except Unit (O × List (String × V)) :=
  match call vars x with
  | .error e => .error e
  | .ok (o, writes) =>
    if writes.all fun kv => mutable.contains kv.1 then
      .ok (o, (dictUpdate vars writes).filter fun kv => mutable.contains kv.1)
    else .error ()

/-- src/wax/flax/core/state_utils.py:24-58 `apply_with_state`. -/
def applyWithState (call : Call V I O) (vars : List (String × V)) (x : I) : Except Unit (O × List (String × V)) :=
  let mutable := (if (vars.lookup "state").isSome then ["state"] else []) ++
    (if (vars.lookup "cache").isSome then ["cache"] else [])
  if mutable = [] then
    match moduleApply call vars [] x with
    | .error e => .error e
    | .ok (o, _) => .ok (o, vars)
  else moduleApply call vars mutable x

/-- Calling `apply_with_state` again and again, each time with the variables returned by the previous call.
See src/wax/flax/core/state_utils.py:24-58. -/
def applyChain (call : Call V I O) (vars : List (String × V)) : List I → Except Unit (List O × List (String × V))
  | [] => .ok ([], vars)
  | x :: xs =>
    match applyWithState call vars x with
    | .error e => .error e
    | .ok (o, vars') =>
      match applyChain call vars' xs with
      | .error e => .error e
      | .ok (os, vars'') => .ok (o :: os, vars'')

/-- The same with the parameters put back by the caller: `variables = {**variables, **new_variables}`.
See src/wax/flax/core/state_utils.py:24-58. -/
def applyChainMerged (call : Call V I O) (vars : List (String × V)) : List I → Except Unit (List O × List (String × V))
  | [] => .ok ([], vars)
  | x :: xs =>
    match applyWithState call vars x with
    | .error e => .error e
    | .ok (o, new) =>
      match applyChainMerged call (dictUpdate vars new) xs with
      | .error e => .error e
      | .ok (os, vars'') => .ok (o :: os, vars'')

/-! ## The StreamingScan module -/

/-- What `reset_fn(x)` is inside `lax.scan`: absent, a Python boolean, or an array computed from the traced input.
Used for src/wax/flax/core/streaming_transforms.py:587-628. -/
inductive Reset (I : Type) where
  | absent
  | const (b : Bool)
  | traced (f : I → Bool)

/-- src/wax/flax/core/streaming_transforms.py:587-628 `StreamingScan.__call__`: `fn` is a pure function (creating Flax modules inside
`lax.scan` raises).  A traced reset flag is used in a Python `if`: TracerBoolConversionError.  The carry is never computed
from the data. -/
def streamingScanModule (fn : I → O) (reset : Reset I) (preserve : Bool) (initial : Option C) (zero : C) (xs : List I) :
    Except Unit (List O × C) :=
  let initial := initial.getD zero
  let body (shouldReset : Bool) (carry : C) (x : I) : C × O :=
    let carry := if shouldReset && preserve then initial else carry
    (carry, fn x)
  match reset with
  | .traced _ => .error ()
  | .absent => let r := laxScan (body false) initial xs; .ok (r.2, r.1)
  | .const b => let r := laxScan (body b) initial xs; .ok (r.2, r.1)

/-! ## Decorators -/

/-- The decorators that feed a stateful context to the decorated function: src/wax/flax/modules/compressed_buffer.py:481-495
(`streaming_compressed_memory`), 523-541 (`streaming_hierarchical_memory`), src/wax/flax/core/advanced_state_patterns.py:506-515
(`streaming_state_machine`), 530-544 (`streaming_attention_state`), 563-575 (`streaming_compose_states`): `arg` extracts the
context's input (the first argument, or all of them), the function receives the context's output and all the arguments. -/
def withContext (ctx : Mealy S X B) (arg : I → X) (fn : Mealy S' (B × I) O) : Mealy (S × S') I O where
  init := (ctx.init, fn.init)
  step := fun st x =>
    let (b, s) := ctx.step st.1 (arg x)
    let (o, s') := fn.step st.2 (b, x)
    (o, (s, s'))

/-- src/wax/flax/modules/compressed_buffer.py:481-495 with `compression="none"` (184-186, 205-206: a `Buffer`). -/
def compressedMemoryNone {α : Type} (maxlen : Nat) (fill : α) (fn : Mealy S' (List α × α) O) : Mealy (CircState α × S') α O :=
  withContext ⟨(circBuffer maxlen fill).init, fun s x =>
    let r := (circBuffer maxlen fill).step s x; (r.1.1, r.2)⟩ id fn

/-- src/wax/flax/core/streaming_transforms.py:252-272 `hierarchical_composition(**modules)`: the body of the wrapper, once the
`HierarchicalState` is constructed (in the pinned version the construction raises, `Model/Lifecycle`): the decorated function
`fn` is never called, positional arguments are dropped. -/
def hierarchicalComposition (modules : List (String × (List (String × V) → V))) (_fn : F) (_args : List V)
    (kwargs : List (String × V)) : List (String × V) :=
  executeInOrder [] kwargs modules []

/-- src/wax/flax/core/streaming_transforms.py:304-341 `state_machine`: the body of the wrapper, once the machine is constructed
(it raises, `Model/Lifecycle`): the decorated function is never called. -/
def stateMachineDecorated (states : List (String × Mealy S I O))
    (transitions : List (String × List (String × (I → Bool)))) (initial : String) (dflt : S) (_fn : F) (xs : List I) :
    Option (List (O × String) × (String × (String → S))) :=
  stateMachineRun states transitions (initial, smInit states dflt) xs

/-- src/wax/flax/core/streaming_transforms.py:275-301 `conditional_update` on a function without Flax modules (the wrapper's
`__call__` is not compact: creating a module inside raises), once the `ConditionalStateUpdate` is constructed (it raises,
`Model/Lifecycle`). -/
def conditionalUpdate (fn : I → O) (cond : I → Bool) (reset : Bool) (arg0 : I → O) : Mealy Unit I O :=
  conditionalStateUpdate ⟨(), fun _ x => (fn x, ())⟩ cond reset arg0

/-! ## Batches -/

/-- `x.mean(axis=0)` of a non-empty batch. Used for src/wax/flax/modules/vmap.py:38-89. -/
def meanList [Field K] (xs : List K) : K := xs.sum / (xs.length : K)

/-- src/wax/flax/modules/vmap.py:38-89 `VMap` (stateless `jax.vmap`) followed by `add_batch` (mean over the first axis) if
`take_mean`; one leaf of the output, given as its value per batch element.  An empty batch gives NaN (0/0) in the code and
is excluded here. -/
def flaxVMap [Field K] (fn : X → K) (takeMean : Bool) (batch : List X) : Except Unit (K ⊕ List K) :=
  if batch = [] then .error ()
  else
    let result := batch.map fn
    .ok (if takeMean then .inl (meanList result) else .inr result)

/-- src/wax/modules/vmap.py:42-56 Haiku `add_batch(fun)` on a deterministic module: `vmap_lift_with_state`, then the mean over the
batch.  (`split_rng=True` succeeds when a key is available; the keys play no role for a deterministic module.) -/
def addBatch [Field K] (m : Mealy S X K) (n : Nat) : Mealy (Fin n → S) (Fin n → X) K where
  init := (vmapLift m n).init
  step := fun s x =>
    let r := (vmapLift m n).step s x
    (meanList (List.ofFn r.1), r.2)

end Verif.Model.Transforms
