import Verif.Base.Mealy

/-! # Model: unrolling transformed functions (src/wax/unroll.py, src/wax/flax/core/unroll.py, src/wax/transform.py,
src/wax/stateful.py)

A transformed function is a pair of pure functions.  Inputs of one step (args and kwargs) are one value of type `I`; the
sequence given to an unroll is the list of its steps (all leaves have the same length).  Exceptions inside the user function
are not modelled. -/

namespace Verif.Model.Unroll

/-- `TransformedWithState` / `FlaxTransformed`: `init(rng, x)` and `apply(params, state, rng, x)`.
Used for src/wax/unroll.py:65-69. -/
structure Transformed (P S R I O : Type) where
  init : Option R → I → P × S
  apply : P → S → Option R → I → O × S

variable {P S R I O C X Y : Type}

/-- `jax.lax.scan(f, init, xs)`. Used for src/wax/unroll.py:71-93. -/
def laxScan (f : C → X → C × Y) (init : C) : List X → C × List Y
  | [] => (init, [])
  | x :: xs =>
    let r := f init x
    let rest := laxScan f r.1 xs
    (rest.1, r.2 :: rest.2)

/-- src/wax/unroll.py:260-271: the loop of `static_scan`; `ys` is `None` until the first step. -/
def staticLoop (f : C → X → C × Y) (carry : C) (ys : Option (List Y)) : List X → C × Option (List Y)
  | [] => (carry, ys)
  | x :: xs =>
    let r := f carry x
    staticLoop f r.1 (some (ys.getD [] ++ [r.2])) xs

/-- src/wax/unroll.py:247-275 `static_scan` (with `iter_first_axis`, 234-244); with no step `ys` is None and `map(stack, None)`
raises TypeError. -/
def staticScan (f : C → X → C × Y) (init : C) (xs : List X) : Except Unit (C × List Y) :=
  match staticLoop f init none xs with
  | (_, none) => .error ()
  | (c, some ys) => .ok (c, ys)

/-- src/wax/unroll.py:65-69 `init_fn`: initialisation on the first element (`x[0]` of an empty sequence raises). -/
def unrollInit (f : Transformed P S R I O) (rng : Option R) (xs : List I) : Except Unit (P × S) :=
  match xs with
  | [] => .error ()
  | x :: _ => .ok (f.init rng x)

/-- src/wax/unroll.py:72-80 `scan_f`: the key is split at each step, the first half is kept. -/
def scanF (f : Transformed P S R I O) (split : R → R × R) (params : P) (c : S × Option R) (x : I) :
    (S × Option R) × O :=
  let (rng, sub) := match c.2 with
    | some r => (some (split r).1, some (split r).2)
    | none => (none, none)
  let r := f.apply params c.1 sub x
  ((r.2, rng), r.1)

/-- src/wax/unroll.py:71-93 `apply_fn`. -/
def unrollApply (f : Transformed P S R I O) (split : R → R × R) (skipFirst dynamic : Bool) (params : P) (state : S)
    (rng : Option R) (xs : List I) : Except Unit (List O × S) :=
  let xs := if skipFirst then xs.drop 1 else xs
  if dynamic then
    let r := laxScan (scanF f split params) (state, rng) xs
    .ok (r.2, r.1.1)
  else
    match staticScan (scanF f split params) (state, rng) xs with
    | .error e => .error e
    | .ok r => .ok (r.2, r.1.1)

/-- src/wax/unroll.py:98-138 `unroll` (and the deprecated `dynamic_unroll`, `static_unroll`, 158-231): initialisation always
runs; given parameters and state replace its results. -/
def unroll (f : Transformed P S R I O) (split : R → R × R) (skipFirst dynamic : Bool) (rng : Option R)
    (params : Option P) (state : Option S) (xs : List I) : Except Unit (List O × S) := do
  let (p0, s0) ← unrollInit f rng xs
  unrollApply f split skipFirst dynamic (params.getD p0) (state.getD s0) rng xs

/-- src/wax/unroll.py:313-374 `dynamic_unroll_fori_loop`: NaN-filled output of length `T`, step `i` writes entry `i`, and every
step receives the same key. `nanLike` is the filled template.  The first step's `x[0]` raises on an empty sequence. -/
def foriUnroll (f : Transformed P S R I O) (nanLike : O → O) (skipFirst : Bool) (params : Option P) (state : Option S)
    (rng : Option R) (xs : List I) : Except Unit (List O × S) := do
  let (p0, s0) ← unrollInit f rng xs
  let p := params.getD p0
  let s := state.getD s0
  let xs := if skipFirst then xs.drop 1 else xs
  match xs with
  | [] => .error ()
  | x0 :: _ =>
    let template := nanLike (f.apply p s rng x0).1
    let seq := List.replicate xs.length template
    let r := xs.zipIdx.foldl (fun (st : S × List O) (xi : I × Nat) =>
      let r := f.apply p st.1 rng xi.1
      (r.2, st.2.set xi.2 r.1)) (s, seq)
    .ok (r.2, r.1)

/-- src/wax/unroll.py:377-391 `data_unroll` on the observations of a generator (one leaf). -/
def dataUnroll (obs : List X) : Except Unit (List X) :=
  match obs.foldl (fun (acc : Option (List X)) x => some (acc.getD [] ++ [x])) none with
  | none => .error ()
  | some l => .ok l

/-- src/wax/unroll.py:401-431: the loop of `gym_static_unroll`; `keys k` is the `k`-th key of the key sequence. -/
def gymLoop (f : Transformed P S R I O) (keys : Nat → R) (p : P) (s : S) (k : Nat) (ys : Option (List O)) :
    List I → S × Option (List O)
  | [] => (s, ys)
  | x :: xs =>
    let r := f.apply p s (some (keys k)) x
    gymLoop f keys p r.2 (k + 1) (some (ys.getD [] ++ [r.1])) xs

/-- src/wax/unroll.py:401-435 `gym_static_unroll`: with `skip_first=False` the first output is computed and the output lists
are created, but nothing is appended to them. -/
def gymStaticUnroll (f : Transformed P S R I O) (keys : Nat → R) (params : Option P) (state : Option S)
    (skipFirst : Bool) (data : List I) : Except Unit (List O × S) :=
  match data with
  | [] => .error ()
  | x :: xs =>
    let (p0, s0) := f.init (some (keys 0)) x
    let p := params.getD p0
    let s := state.getD s0
    let r := if skipFirst then gymLoop f keys p s 1 none xs
      else
        let r := f.apply p s (some (keys 1)) x
        gymLoop f keys p r.2 2 (some []) xs
    match r with
    | (_, none) => .error ()
    -- `jnp.stack` of an empty list raises ValueError
    | (_, some []) => .error ()
    | (s, some ys) => .ok (ys, s)

/-- src/wax/flax/core/transform.py:55-93: a Flax module (without parameters depending on data, deterministic) as a transformed
pair.  `module.init` runs the module once and returns the mutated variables. -/
def flaxTransformed (m : Mealy S I O) : Transformed Unit S R I O where
  init := fun _ x => ((), (m.step m.init x).2)
  apply := fun _ s _ x => m.step s x

/-- A Haiku module as a transformed pair: `init` returns the initial values of the state. See src/wax/unroll.py:65-69. -/
def haikuTransformed (m : Mealy S I O) : Transformed Unit S R I O where
  init := fun _ _ => ((), m.init)
  apply := fun _ s _ x => m.step s x

/-- src/wax/flax/core/unroll.py:154-172 `flax_unroll`: `init` runs only if parameters or state are missing. -/
def flaxUnroll (f : Transformed P S R I O) (split : R → R × R) (skipFirst dynamic : Bool) (rng : Option R)
    (params : Option P) (state : Option S) (xs : List I) : Except Unit (List O × S) :=
  match params, state with
  | some p, some s => unrollApply f split skipFirst dynamic p s rng xs
  | _, _ => do
    let (p0, s0) ← unrollInit f rng xs
    unrollApply f split skipFirst dynamic (params.getD p0) (state.getD s0) rng xs

/-- src/wax/stateful.py:77-106 `unroll_lift_with_state` (split_rng=False): a module whose call on a sequence scans the inner
module from the stored state and stores the final one. -/
def unrollLift (m : Mealy S I O) (skipFirst : Bool) : Mealy S (List I) (List O) where
  init := m.init
  step := fun s xs =>
    let xs := if skipFirst then xs.drop 1 else xs
    let r := laxScan (fun s x => ((m.step s x).2, (m.step s x).1)) s xs
    (r.2, r.1)

/-- src/wax/stateful.py:26-74 `vmap_lift_with_state` (split_rng=False) and src/wax/modules/vmap.py:35-36 `VMap`, on a batch of
`n` inputs: the inner module's step on each batch index. -/
def vmapLift (m : Mealy S I O) (n : Nat) : Mealy (Fin n → S) (Fin n → I) (Fin n → O) where
  init := fun _ => m.init
  step := fun s x => (fun b => (m.step (s b) (x b)).1, fun b => (m.step (s b) (x b)).2)

/-- src/wax/stateful.py:22-24, 77-79: the argument check. -/
def liftArgs (splitRng initRng : Bool) : Except Unit Unit :=
  if splitRng && !initRng then .error () else .ok ()

/-- src/wax/transform.py:44-47, 72-75 `scan_f`: carry (params, state, key), the key is never split. -/
def batchScanF (f : Transformed P S R I O) (c : P × S × Option R) (x : I) : (P × S × Option R) × O :=
  let r := f.apply c.1 c.2.1 c.2.2 x
  ((c.1, r.2, c.2.2), r.1)

/-- src/wax/transform.py:49-52, 77-80 `init`. -/
def batchInit (f : Transformed P S R I O) (key : Option R) (xs : List I) : Except Unit (P × S × Option R) :=
  match xs with
  | [] => .error ()
  | x :: _ => .ok ((f.init key x).1, (f.init key x).2, key)

/-- src/wax/transform.py:54-62 `transform_batch_with_state.apply`: the key argument is not used. -/
def batchApply (f : Transformed P S R I O) (skipFirst : Bool) (state : P × S × Option R) (_key : Option R)
    (xs : List I) : List O × (P × S × Option R) :=
  let xs := if skipFirst then xs.drop 1 else xs
  let r := laxScan (batchScanF f) state xs
  (r.2, r.1)

/-- src/wax/transform.py:82-90 `transform_batch_with_state_static.apply`: the key argument replaces the state's. -/
def batchApplyStatic (f : Transformed P S R I O) (skipFirst : Bool) (state : P × S × Option R) (key : Option R)
    (xs : List I) : Except Unit (List O × (P × S × Option R)) :=
  let xs := if skipFirst then xs.drop 1 else xs
  match staticScan (batchScanF f) (state.1, state.2.1, key) xs with
  | .error e => .error e
  | .ok r => .ok (r.2, r.1)

end Verif.Model.Unroll
