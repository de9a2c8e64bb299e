/-! # Model: random keys in the lifted transforms (src/wax/stateful.py)

`hk.next_rng_key()` draws the next key of the key sequence of the enclosing transform and raises ValueError when no key was
given; `hk.maybe_next_rng_key()` returns None then.  `hk.lift_with_state` runs the initialiser only while the enclosing
transform is being initialised.  The inner function may raise (`Except`), for instance because it asks for a key. -/

namespace Verif.Model.Lifts

/-- `hk.transform_with_state(fun)` (src/wax/stateful.py:27, 82): `init(rng, x)` and `apply(params, state, rng, x)`, which may raise. -/
structure Inner (P S R I O : Type) where
  init : Option R → I → Except Unit (P × S)
  apply : P → S → Option R → I → Except Unit (O × S)

variable {P S R I O : Type}

/-- `hk.next_rng_key()`: the drawn key and what remains of the sequence (`next k` is the remaining sequence and the key).
Used for src/wax/stateful.py:30, 48-52. -/
def nextKey (next : R → R × R) : Option R → Except Unit (R × Option R)
  | none => .error ()
  | some k => .ok ((next k).2, some (next k).1)

/-- `hk.maybe_next_rng_key()`. Used for src/wax/stateful.py:91-95. -/
def maybeNextKey (next : R → R × R) : Option R → Option R × Option R
  | none => (none, none)
  | some k => (some (next k).2, some (next k).1)

/-- `jax.vmap` of a function of three mapped arguments (equal lengths). Used for src/wax/stateful.py:26-45, 61-69. -/
def vmap3 {A B C D : Type} (f : A → B → C → Except Unit D) : List A → List B → List C → Except Unit (List D)
  | a :: as, b :: bs, c :: cs => do
    let d ← f a b c
    let ds ← vmap3 f as bs cs
    .ok (d :: ds)
  | _, _, _ => .ok []

/-- src/wax/stateful.py:22-24, 78-79: the arguments are checked when the lift is built. -/
def buildLift {A : Type} (splitRng initRng : Bool) (apply : A) : Except Unit A :=
  if splitRng && !initRng then .error () else .ok apply

/-- src/wax/stateful.py:30, 48-52: the key for the initialisation: drawn if `init_rng` (here the transform is being initialised). -/
def initKey (next : R → R × R) (initRng : Bool) (key : Option R) : Except Unit (Option R × Option R) :=
  if initRng then (nextKey next key).map fun r => (some r.1, r.2) else .ok (none, key)

/-- src/wax/stateful.py:26-45, 61-69: the apply part: no key without `split_rng`; otherwise one drawn key, split into one per batch
element. -/
def vmapApply (f : Inner P S R I O) (next : R → R × R) (splitN : R → Nat → List R) (splitRng : Bool) (key : Option R)
    (ps : List (P × S)) (xs : List I) : Except Unit (List (O × S) × Option R) :=
  if splitRng then do
    let (k, key) ← nextKey next key
    let out ← vmap3 (fun (p : P × S) (r : R) (x : I) => f.apply p.1 p.2 (some r) x) ps (splitN k xs.length) xs
    .ok (out, key)
  else do
    let out ← vmap3 (fun (p : P × S) (_ : I) (x : I) => f.apply p.1 p.2 none x) ps xs xs
    .ok (out, key)

/-- src/wax/stateful.py:32-39, 54-62: the initialiser of the batch: one key for all elements, or one each. -/
def vmapInner (f : Inner P S R I O) (splitN : R → Nat → List R) (splitRng : Bool) (rng : Option R) (xs : List I) :
    Except Unit (List (P × S)) :=
  match splitRng, rng with
  | true, some k => vmap3 (fun (r : R) (_ : I) (x : I) => f.init (some r) x) (splitN k xs.length) xs xs
  | true, none => vmap3 (fun (_ : I) (_ : I) (x : I) => f.init none x) xs xs xs
  | false, r => vmap3 (fun (_ : I) (_ : I) (x : I) => f.init r x) xs xs xs

/-- src/wax/stateful.py:22-74 `vmap_lift_with_state(fun, split_rng, init_rng)` called inside a transform being initialised with the
keys `key`: initialises, then applies once; the stored values are the initial ones. -/
def vmapLiftInit (f : Inner P S R I O) (next : R → R × R) (splitN : R → Nat → List R) (splitRng initRng : Bool)
    (key : Option R) (xs : List I) : Except Unit (List (P × S)) := do
  buildLift splitRng initRng ()
  let (rng, key) ← initKey next initRng key
  let ps ← vmapInner f splitN splitRng rng xs
  let _ ← vmapApply f next splitN splitRng key ps xs
  .ok ps

/-- src/wax/stateful.py:22-74 the same called inside `apply`, with the stored parameters and states. -/
def vmapLiftApply (f : Inner P S R I O) (next : R → R × R) (splitN : R → Nat → List R) (splitRng initRng : Bool)
    (key : Option R) (ps : List (P × S)) (xs : List I) : Except Unit (List (O × S)) := do
  buildLift splitRng initRng ()
  (vmapApply f next splitN splitRng key ps xs).map (·.1)

/-- src/wax/stateful.py:91-95 `scan_f` under `hk.scan`, which threads the key sequence through the steps. -/
def unrollSteps (f : Inner P S R I O) (next : R → R × R) (splitRng : Bool) (p : P) :
    S → Option R → List I → Except Unit (List O × S)
  | s, _, [] => .ok ([], s)
  | s, key, x :: xs => do
    let r := if splitRng then maybeNextKey next key else (none, key)
    let (o, s) ← f.apply p s r.1 x
    let (os, s) ← unrollSteps f next splitRng p s r.2 xs
    .ok (o :: os, s)

/-- src/wax/stateful.py:97-101: `skip_first`. -/
def skip (skipFirst : Bool) (xs : List I) : List I := if skipFirst then xs.drop 1 else xs

/-- src/wax/stateful.py:77-106 `unroll_lift_with_state(fn, skip_first, split_rng, init_rng)` called inside a transform being
initialised: initialises on the first entry (`x[0]` of an empty sequence raises), then scans once. -/
def unrollLiftInit (f : Inner P S R I O) (next : R → R × R) (skipFirst splitRng initRng : Bool) (key : Option R)
    (xs : List I) : Except Unit (P × S) :=
  match xs with
  | [] => .error ()
  | x :: _ => do
    buildLift splitRng initRng ()
    let (rng, key) ← initKey next initRng key
    let (p, s) ← f.init rng x
    let _ ← unrollSteps f next splitRng p s key (skip skipFirst xs)
    .ok (p, s)

/-- src/wax/stateful.py:77-106 the same called inside `apply`, with the stored parameters and state. -/
def unrollLiftApply (f : Inner P S R I O) (next : R → R × R) (skipFirst splitRng initRng : Bool) (key : Option R)
    (p : P) (s : S) (xs : List I) : Except Unit (List O × S) :=
  match xs with
  | [] => .error ()
  | _ :: _ => do
    buildLift splitRng initRng ()
    unrollSteps f next splitRng p s key (skip skipFirst xs)

end Verif.Model.Lifts
