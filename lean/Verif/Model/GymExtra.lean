import Verif.Model.Gym
import Verif.Model.Encode
import Verif.Base.Fl

/-! # Model: the callbacks argument, the progress bar and the outputs of Record; dataset schemas; test helpers -/

namespace Verif.Model.GymExtra
open Verif.Model.Gym
variable {W Obs Act Rw Info : Type}

/-! ## The `callbacks` argument of `Agent.unroll` -/

/-- What can be in the list given as `callbacks`: a `Callback` object (not iterable) or its tuple of four functions.
Used for src/wax/gym/callbacks/callbacks.py:136-143. -/
inductive CbArg (W Obs Act Rw Info : Type) where
  | object (c : Callback W Obs Act Rw Info)
  | tuple (c : Callback W Obs Act Rw Info)

/-- src/wax/gym/callbacks/callbacks.py:136-143 `normalize_callback`, used by `add_callbacks` (not by `gym_unroll`). -/
def normalizeCallback : CbArg W Obs Act Rw Info → Callback W Obs Act Rw Info
  | .object c => c
  | .tuple c => c

/-- src/wax/gym/callbacks/callbacks.py:112-117 `unpack_callbacks`: `zip(*cbs)` iterates over each callback, TypeError on a `Callback` object.
(All tuples have four entries.) -/
def unpackCallbacks : List (CbArg W Obs Act Rw Info) → Except Unit (List (Callback W Obs Act Rw Info))
  | [] => .ok []
  | .object _ :: _ => .error ()
  | .tuple c :: l => match unpackCallbacks l with
    | .ok cs => .ok (c :: cs)
    | .error e => .error e

/-- src/wax/gym/agent.py:37-65 `Agent.unroll`, src/wax/gym/gym_unroll.py:45-52 with src/wax/gym/callbacks/callbacks.py:120-133: without a `callbacks` argument the active callbacks
are used (they are tuples), otherwise the given ones only. -/
def agentUnroll (sys : Sys W Obs Act Rw Info) (active : List (Callback W Obs Act Rw Info))
    (callbacks : Option (List (CbArg W Obs Act Rw Info))) (obs : Option Obs) (fuel : Nat) (w : W) :
    Except Unit (Option (GymState Obs Act Rw Info × W)) :=
  match callbacks with
  | none => .ok (gymUnroll sys active obs fuel w)
  | some l => match unpackCallbacks l with
    | .error e => .error e
    | .ok cbs => .ok (gymUnroll sys cbs obs fuel w)

/-! ## ProgressBar -/

/-- A `tqdm` bar: the count it shows and whether it was closed. Used for src/wax/gym/callbacks/progressbar.py:18-39. -/
structure Bar where
  n : Nat
  closed : Bool
deriving DecidableEq, Repr

/-- `tqdm.update()`: a closed bar is disabled and ignores updates (tqdm: `close` sets `disable`, `update` returns at once when it is set).
Used for src/wax/gym/callbacks/progressbar.py:18-39. -/
def Bar.update (b : Bar) : Bar := if b.closed then b else { b with n := b.n + 1 }

/-- src/wax/gym/callbacks/progressbar.py:18-39: the private state is `_pbar`; it is created by the first `on_train_start` and kept. -/
def progressBar : Callback (W × Option Bar) Obs Act Rw Info where
  onStart := some fun w _ => (w.1, some (w.2.getD ⟨0, false⟩))
  onAct := none
  onStep := some fun w _ => (false, (w.1, w.2.map Bar.update))
  onEnd := some fun w => (w.1, w.2.map fun b => { b with closed := true })

/-! ## Record.get_outputs -/

/-- src/wax/gym/callbacks/record.py:86-97: flattened outputs appended leaf by leaf; the structure and the number of leaves are those of the
first record (`zip(..., strict=False)`: other leaves are dropped). -/
def recordPush {D L : Type} (st : Option (D × List (List L))) (out : D × List L) : Option (D × List (List L)) :=
  let s := st.getD (out.1, out.2.map fun _ => [])
  some (s.1, List.zipWith (fun seq x => seq ++ [x]) s.2 out.2 ++ s.2.drop out.2.length)

/-- src/wax/gym/callbacks/record.py:101-122 `get_outputs`: `stack` is `np.stack` / `pd.concat` / `xr.concat`; `list(map(_stack, None))` raises when
nothing was recorded. -/
def recordOutputs {D L A : Type} (stack : List L → Except Unit A) : Option (D × List (List L)) → Except Unit (D × List A)
  | none => .error ()
  | some (d, seqs) => match seqs.mapM stack with
    | .ok l => .ok (d, l)
    | .error e => .error e

/-! ## Dataset schema -/

/-- src/wax/stream.py:475-477: the check of one variable: encode, decode, compare. -/
def checkVar {V : Type} [DecidableEq V] (types : V → Option (Encoder V)) (kv : String × V) : Except EncErr Unit :=
  match types kv.2 with
  | none => .ok ()
  | some e => match e.encode kv.2 with
    | .error x => .error x
    | .ok c => match e.decode c with
      | .error x => .error x
      | .ok v => if v = kv.2 then .ok () else .error .value

/-- src/wax/stream.py:447-483 `get_dataset_schema` / `get_encoders`: `types v` is the encoder built for an array whose dtype is registered
(`encoder(np_var)`), `none` for other dtypes.  `np_data` is the dictionary of the data variables updated with the coordinates (xarray
forbids common names). -/
def datasetSchema {V : Type} [DecidableEq V] (types : V → Option (Encoder V)) (check : Bool) (vars coords : List (String × V)) :
    Except EncErr (List (String × Encoder V)) :=
  let npData := vars ++ coords
  let encoders := npData.filterMap fun kv => (types kv.2).map fun e => (kv.1, e)
  if check then
    match npData.mapM (checkVar types) with
    | .error x => .error x
    | .ok _ => .ok encoders
  else .ok encoders

/-! ## assert_tree_all_close -/

section Close
variable {K : Type} [Field K] [LinearOrder K]

/-- A leaf: a Python number, or a one-dimensional array. `exact` says whether the dtype is int32 or uint32.  (Arrays with
more dimensions are not modelled.). Used for src/wax/testing.py:38-50. -/
inductive Leaf (K : Type) where
  | number (type : String) (v : Fl K)
  | array (type dtype : String) (exact : Bool) (v : List (Fl K))

/-- NumPy broadcasting of two one-dimensional arrays; ValueError (here `none`) when both lengths differ and none is 1.
Used for src/wax/testing.py:38-50. -/
def broadcast {A B : Type} (xs : List A) (ys : List B) : Option (List (A × B)) :=
  if xs.length = ys.length then some (xs.zip ys)
  else match xs, ys with
    | [x], ys => some (ys.map fun y => (x, y))
    | xs, [y] => some (xs.map fun x => (x, y))
    | _, _ => none

/-- `numpy.isclose(a, b)` with the default tolerances: `|a - b| <= 1e-8 + 1e-5 |b|` on numbers, equality on infinities, False on NaN.
Used for src/wax/testing.py:38-50. -/
def isClose : Fl K → Fl K → Bool
  | .fin a, .fin b => decide (|a - b| ≤ 1 / 10 ^ 8 + 1 / 10 ^ 5 * |b|)
  | .pinf, .pinf => true
  | .ninf, .ninf => true
  | _, _ => false

/-- src/wax/testing.py:38-50: one pair of leaves. (`isinstance(x, jnp.ndarray)` tests the list, so it is always `onp.allclose`.) -/
def leafClose : Leaf K → Leaf K → Bool
  | .number t v, .number t' v' => t == t' && Fl.feq v v'
  | .array t d e v, .array t' d' _ v' => t == t' && d == d' &&
      match broadcast v v' with
      | none => false
      | some ps => ps.all fun p => if e then Fl.feq p.1 p.2 else isClose p.1 p.2
  | _, _ => false

/-- src/wax/testing.py:26-50 `assert_tree_all_close`: whether it passes.  `name x` is `str(treedef).replace("wax.", "")`, `name'` also
removes "_test". -/
def treeClose {D : Type} (name name' : D → String) (checkTreedef : Bool) (x y : D × List (Leaf K)) : Bool :=
  (!checkTreedef || name x.1 == name' y.1) && decide (x.2.length = y.2.length) &&
    (x.2.zip y.2).all fun p => leafClose p.1 p.2

end Close

/-- src/wax/utils.py:23-32 `get_unique_dtype`: the common dtype of the leaves, AssertionError otherwise (also without leaves). -/
def uniqueDtype {T : Type} [DecidableEq T] (dtypes : List T) : Except Unit T :=
  match dtypes.dedup with
  | [t] => .ok t
  | _ => .error ()

end Verif.Model.GymExtra
