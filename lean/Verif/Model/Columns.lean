import Verif.Model.Unroll

/-!
# Unrolling over nested data given column by column

`Model/Unroll` feeds an unroll a list of steps.  The code receives a nested structure of arrays, one per leaf, and cuts it
along the first axis.  Here a structure is the list of its leaves (the tree definition does not change along the way); a leaf is
a JAX or a NumPy array.  Every error is `()`.
-/

namespace Verif.Model.Columns
open Verif.Model.Unroll

variable {P S R C X Y : Type}

/-- Reading past the end: NumPy raises, JAX clamps the index. Used for src/wax/unroll.py:234-244. -/
inductive ArrayKind
  | jax
  | numpy
  deriving DecidableEq

/-- One leaf: its entries along the first axis. Used for src/wax/unroll.py:234-244. -/
structure Column (X : Type) where
  kind : ArrayKind
  data : List X

/-- `x[t]` of a leaf, for `t ≥ 0`. See src/wax/unroll.py:234-244. -/
def colGet (c : Column X) (t : Nat) : Except Unit X :=
  match c.data[t]? with
  | some v => .ok v
  | none =>
    match c.kind with
    | .numpy => .error ()
    | .jax =>
      match c.data.getLast? with
      | some v => .ok v
      | none => .error ()

/-- One step: entry `t` of every leaf. Used for src/wax/unroll.py:234-244. -/
def rowAt (cols : List (Column X)) (t : Nat) : Except Unit (List X) := cols.mapM fun c => colGet c t

/-- src/wax/unroll.py:234-244 `iter_first_axis`: as many steps as the first leaf has entries; no leaf raises IndexError. -/
def iterRows (cols : List (Column X)) : Except Unit (List (List X)) :=
  match cols with
  | [] => .error ()
  | c :: _ => (List.range c.data.length).mapM (rowAt cols)

/-- src/wax/unroll.py:268-271: the step's leaves are appended to the output lists, `zip` stopping at the shorter. -/
def appendEach : List (List Y) → List Y → List (List Y)
  | [], _ => []
  | ys, [] => ys
  | c :: cs, y :: ys => (c ++ [y]) :: appendEach cs ys

/-- src/wax/unroll.py:247-271: the loop of `static_scan`; the output lists are created at the first step; the number of
leaves of the last output is kept for the final `tree_unflatten`. -/
def staticLoopCols (f : C → List X → C × List Y) (carry : C) (ys : Option (List (List Y))) (last : Nat) :
    List (List X) → C × Option (List (List Y)) × Nat
  | [] => (carry, ys, last)
  | x :: xs =>
    let r := f carry x
    let ys := ys.getD (r.2.map fun _ => [])
    staticLoopCols f r.1 (some (appendEach ys r.2)) r.2.length xs

/-- src/wax/unroll.py:247-275 `static_scan` on a structure. -/
def staticScanCols (f : C → List X → C × List Y) (init : C) (cols : List (Column X)) : Except Unit (C × List (List Y)) := do
  let rows ← iterRows cols
  match staticLoopCols f init none 0 rows with
  | (_, none, _) => .error ()
  | (c, some ys, last) => if ys.length = last then .ok (c, ys) else .error ()

/-- src/wax/unroll.py:247, 258-259: `xs=None` becomes a list of `length` times None, a structure without leaves. -/
def staticScanArg (f : C → List X → C × List Y) (init : C) (xs : Option (List (Column X))) (_length : Nat) :
    Except Unit (C × List (List Y)) :=
  staticScanCols f init (xs.getD [])

/-- The outputs of `k` leaves each, stacked leaf by leaf. Used for src/wax/unroll.py:84-91. -/
def toColumns (k : Nat) (outs : List (List Y)) : List (List Y) :=
  (List.range k).map fun (j : Nat) => outs.filterMap fun o => o[j]?

/-- `jax.lax.scan(f, init, xs)` on a structure (src/wax/unroll.py:84-91), `f` returning `k` leaves: leaves of different
lengths, or no leaf at all, raise. -/
def laxScanCols (k : Nat) (f : C → List X → C × List Y) (init : C) (cols : List (Column X)) : Except Unit (C × List (List Y)) :=
  match cols with
  | [] => .error ()
  | c :: _ =>
    if cols.all (fun d => d.data.length == c.data.length) then do
      let rows ← iterRows cols
      let r := laxScan f init rows
      .ok (r.1, toColumns k r.2)
    else .error ()

/-- `tree_map(lambda x: x[1:], xs)` (src/wax/unroll.py:84-85). -/
def dropFirst (cols : List (Column X)) : List (Column X) := cols.map fun c => { c with data := c.data.drop 1 }

/-- src/wax/unroll.py:87-91: the scan chosen by `dynamic`. -/
def scanCols (k : Nat) (dynamic : Bool) (f : C → List X → C × List Y) (init : C) (cols : List (Column X)) :
    Except Unit (C × List (List Y)) :=
  if dynamic then laxScanCols k f init cols else staticScanCols f init cols

/-- src/wax/unroll.py:71-93 `apply_fn` on a structure. -/
def unrollApplyCols (k : Nat) (f : Transformed P S R (List X) (List Y)) (split : R → R × R) (skipFirst dynamic : Bool)
    (params : P) (state : S) (rng : Option R) (cols : List (Column X)) : Except Unit (List (List Y) × S) :=
  (scanCols k dynamic (scanF f split params) (state, rng) (if skipFirst then dropFirst cols else cols)).map
    fun r => (r.2, r.1.1)

/-- src/wax/unroll.py:65-69 `init_fn` on a structure. -/
def unrollInitCols (f : Transformed P S R (List X) (List Y)) (rng : Option R) (cols : List (Column X)) : Except Unit (P × S) := do
  let x0 ← rowAt cols 0
  .ok (f.init rng x0)

/-- src/wax/unroll.py:98-138 `unroll` on a structure. -/
def unrollCols (k : Nat) (f : Transformed P S R (List X) (List Y)) (split : R → R × R) (skipFirst dynamic : Bool)
    (rng : Option R) (params : Option P) (state : Option S) (cols : List (Column X)) : Except Unit (List (List Y) × S) := do
  let (p0, s0) ← unrollInitCols f rng cols
  unrollApplyCols k f split skipFirst dynamic (params.getD p0) (state.getD s0) rng cols

/-- What `unroll` may be given (src/wax/unroll.py:98-99, src/wax/flax/core/unroll.py:120): a function or pair, or a pair already
produced by `unroll_transform_with_state` with its own options. -/
inductive UnrollArg (P S R X Y : Type)
  | fn (f : Transformed P S R (List X) (List Y))
  | unrolled (f : Transformed P S R (List X) (List Y)) (skipFirst dynamic : Bool)

/-- src/wax/unroll.py:124-125: an already unrolled pair is taken as it is. -/
def unrollOf (k : Nat) (a : UnrollArg P S R X Y) (split : R → R × R) (skipFirst dynamic : Bool)
    (rng : Option R) (params : Option P) (state : Option S) (cols : List (Column X)) : Except Unit (List (List Y) × S) :=
  match a with
  | .fn f => unrollCols k f split skipFirst dynamic rng params state cols
  | .unrolled f skip dyn => unrollCols k f split skip dyn rng params state cols

end Verif.Model.Columns
