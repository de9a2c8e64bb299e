import Verif.Model.Stream
import Verif.Model.Unroll

/-! # Model: from an in-memory dataset to the unrolled module (src/wax/stream.py, src/wax/accessors.py)

A dataset has time coordinates (the `datetime64` ones) and variables.  A variable is the list of its rows along its first
axis, each row flattened (a single entry for one-dimensional variables; one row with one entry for scalars).  The
conversion float64→float32 of `prepare` is not modelled (numbers are never rounded). -/

namespace Verif.Model.Pipeline
open Model.Stream Model.Unroll
variable {T A P S R O : Type} [LinearOrder T]

/-- A data variable: dimensions, rows along the first axis, the missing value of its (encoded) dtype
(`DTYPE_INIT_VALUES`, src/wax/stream.py:57-75), and the number of axes that encoding has added. -/
structure Var (A : Type) where
  dims : List String
  rows : List (List A)
  init : A
  extra : Nat := 0
deriving Repr

/-- An encoder of the entries of a row (src/wax/encode.py:158-199): string labels become codes, dates become two integers (one more
axis). -/
structure Enc (A : Type) where
  row : List A → List A
  extra : Nat := 0

/-- An `xr.Dataset`: the time coordinates found by `get_dataset_time_coords` (src/wax/stream.py:168-171; a set, here in its iteration
order) with their values, and the data variables. -/
structure Dataset (T A : Type) where
  times : List (String × List T)
  vars : List (String × Var A)

/-- The settings of a `Stream` (src/wax/stream.py:430-445) that matter here: `local_time`, and for each time dimension its embedding
(`freqs`), `ffills` and `buffer_maxlen`. -/
structure Config (T : Type) where
  localTime : String
  embed : String → T → T
  ffill : String → Bool
  maxlen : String → Option Nat

/-- The settings of one stream of *indices*: the missing index is `DTYPE_INIT_VALUES[int64]` (src/wax/stream.py:59-75, 590-616). -/
def Config.index (c : Config T) (n : String) : SecCfg T Int := ⟨c.embed n, c.ffill n, c.maxlen n, missingIndex⟩

/-- What a variable contributes to the record of one step: one row, or a buffer of rows.
Used for src/wax/stream.py:351-366. -/
inductive Cell (A : Type) where
  | row (r : List A)
  | buffer (rs : List (List A))
deriving DecidableEq, Repr

/-- src/wax/stream.py:125-138 `get_time_dataset`, 174-197 `split_dataset_from_time_dims` and 555-575: the dataset of positions of each
time coordinate, merged if there are several; with a single one the positions themselves, without `merge`.  One record per
local step: the positions to read in each time dimension (`unroll_stream` transposes the records and
`get_dataset_index_from_stream_index`, 141-160, relabels them; see C60). -/
def traceTimes (c : Config T) (times : List (String × List T)) :
    Except Unit (List (List (String × Out T Int))) :=
  match times with
  | [] => .error ()
  | [(n, ts)] => do
    let ln ← getLocalTime c.localTime [n]
    if ln = n then .ok (ts.mapIdx fun i t => [(n, Out.single ⟨some t, (i : Int)⟩)]) else .error ()
  | _ => merge c.localTime c.index (times.map fun nt => (nt.1, traceDataset (nt.2.map fun t => (t, ()))))

/-- How a variable is indexed. Used for src/wax/stream.py:200-234. -/
inductive VarIndex where
  | time (n : String)
  | scalar
  | array
deriving DecidableEq, Repr

/-- src/wax/stream.py:200-234 `get_dataset_index`: a variable with a time dimension must have it first; other variables are scalars or arrays (arrays of
dimension 1 only in this model).  A scalar date cannot be encoded (`map` over a 0-dimensional array raises). -/
def varIndex (timeNames : List String) (v : Var A) : Except Unit VarIndex :=
  if v.dims.any (fun d => timeNames.contains d) then
    match v.dims with
    | [] => .error ()
    | d :: _ => if timeNames.contains d then .ok (.time d) else .error ()
  else if v.dims = [] then (if v.extra = 0 then .ok .scalar else .error ())
  else .ok .array

/-- src/wax/stream.py:351-366 `access_data` for one index and rows with several entries: the missing value fills the whole row. -/
def accessRow (init : A) (rows : List (List A)) (i : Int) : List A :=
  if i < 0 then (jnpIndex rows i).map fun _ => init else jnpIndex rows i

/-- src/wax/stream.py:351-366 `access_data` for the index of a stream at one step. For buffered matrices see `accessBuffered2`;
buffered arrays of dimension 3 or more are treated like matrices. -/
def accessVar [Inhabited A] (v : Var A) (o : Out T Int) : Except Unit (Cell A) :=
  match o with
  | .single o => .ok (.row (accessRow v.init v.rows o.value))
  | .stacked os =>
    if v.dims.length + v.extra = 1 then .ok (.buffer (os.map fun o => accessRow v.init v.rows o.value))
    else
      match accessBuffered2 v.init (v.rows.headD []).length v.rows (os.map fun o => o.value) with
      | .error e => .error e
      | .ok rs => .ok (.buffer rs)

/-- src/wax/encode.py:232-241 `encode_dataset` on one variable (src/wax/stream.py:508): the rows are encoded if the variable has an encoder. -/
def encodeVar (enc : String → Option (Enc A)) (name : String) (v : Var A) : Var A :=
  match enc name with
  | none => v
  | some e => { v with rows := v.rows.map e.row, extra := e.extra }

/-- src/wax/stream.py:369-378 `tree_access_data` on one variable at step `k`. -/
def cellAt [Inhabited A] (timeNames : List String) (enc : String → Option (Enc A)) (irec : List (String × Out T Int))
    (k : Nat) (name : String) (var : Var A) : Except Unit (Cell A) := do
  let v := encodeVar enc name var
  match ← varIndex timeNames v with
  | .time n =>
    match irec.lookup n with
    | none => .error ()
    | some o => accessVar v o
  | .scalar => .ok (.row (accessRow v.init v.rows (constIndexScalar k)))
  | .array => .ok (.row (((constIndexArray v.rows.length k).map (accessRow v.init v.rows)).flatten))

/-- src/wax/stream.py:369-378 `tree_access_data`: the record of step `k`. -/
def recordAt [Inhabited A] (ds : Dataset T A) (enc : String → Option (Enc A)) (irec : List (String × Out T Int))
    (k : Nat) : Except Unit (List (String × Cell A)) :=
  ds.vars.mapM fun nv => do
    let c ← cellAt (ds.times.map (·.1)) enc irec k nv.1 nv.2
    .ok (nv.1, c)

/-- All the records: what the module sees, step by step. Used for src/wax/accessors.py:64-73. -/
def records [Inhabited A] (c : Config T) (enc : String → Option (Enc A)) (ds : Dataset T A) :
    Except Unit (List (List (String × Cell A))) := do
  let irecs ← traceTimes c ds.times
  irecs.zipIdx.mapM fun ik => recordAt ds enc ik.1 ik.2

/-- src/wax/stream.py:526-531: `transform_dataset`: the module on the record of a step. -/
def transformDataset (f : Transformed P S R (List (String × Cell A)) O) (recs : List (List (String × Cell A))) :
    Transformed P S R Nat O where
  init := fun rng k => f.init rng (recs.getD k [])
  apply := fun p s rng k => f.apply p s rng (recs.getD k [])

/-- src/wax/accessors.py:64-73 (and 121-136, 187-214, 276-291): `Stream.prepare` (src/wax/stream.py:485-531), then `init` and `apply` of the
unrolled transform on the range of the steps, with the given parameters and state if any. -/
def streamApply [Inhabited A] (c : Config T) (enc : String → Option (Enc A)) (ds : Dataset T A)
    (f : Transformed P S R (List (String × Cell A)) O) (split : R → R × R) (skipFirst : Bool) (rng : Option R)
    (params : Option P) (state : Option S) : Except Unit (List O × S) := do
  let recs ← records c enc ds
  unroll (transformDataset f recs) split skipFirst true rng params state (List.range recs.length)

end Verif.Model.Pipeline
