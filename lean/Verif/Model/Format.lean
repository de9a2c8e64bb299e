import Verif.Model.Pipeline
import Verif.Model.EWMA
import Mathlib.Data.List.Infix

/-! # Model: formatting outputs (src/wax/format.py) and the xarray/pandas accessors (src/wax/accessors.py)

Formatting never looks at the values of an array: an array is its shape and an opaque payload.  Labels (index and column
entries) have an arbitrary type `L`. -/

namespace Verif.Model.Format
variable {α β L : Type}

/-- Python exceptions that the accessors distinguish (only `ValueError` is caught). Used for src/wax/format.py:28-39. -/
inductive Err where
  | value
  | index
  | key
  | type
  | other
deriving DecidableEq, Repr

/-- The containers of a JAX pytree. Dictionaries are flattened in the order of their keys.
Used for src/wax/format.py:80, 133, 163. -/
inductive Kind where
  | tuple
  | list
  | none
  | dict (keys : List String)
deriving DecidableEq, Repr

/-- A nested data structure. Used for src/wax/format.py:80, 133, 163. -/
inductive PyTree (α : Type) where
  | leaf (a : α)
  | node (kind : Kind) (children : List (PyTree α))

/-- What `str(treedef)` shows. Used for src/wax/format.py:80, 133, 163. -/
inductive Tok where
  | leaf
  | node (kind : Kind) (arity : Nat)
deriving DecidableEq, Repr

mutual
/-- `tree_flatten(...)[0]`. Used for src/wax/format.py:78-89, 131-146, 161-170. -/
def PyTree.leaves : PyTree α → List α
  | .leaf a => [a]
  | .node _ cs => leavesList cs
/-- Used for src/wax/format.py:78-89, 131-146, 161-170. -/
def leavesList : List (PyTree α) → List α
  | [] => []
  | c :: cs => c.leaves ++ leavesList cs
end

mutual
/-- `str(treedef)` (src/wax/format.py:80, 133, 163), as a list of tokens. -/
def PyTree.treedef : PyTree α → List Tok
  | .leaf _ => [.leaf]
  | .node k cs => .node k cs.length :: treedefList cs
/-- Used for src/wax/format.py:80, 133, 163. -/
def treedefList : List (PyTree α) → List Tok
  | [] => []
  | c :: cs => c.treedef ++ treedefList cs
end

mutual
/-- `tree_unflatten(treedef, vals)` with the treedef of the first argument; also returns the values left over.
Used for src/wax/format.py:78-89, 131-146, 161-170. -/
def PyTree.rebuild : PyTree α → List β → Option (PyTree β × List β)
  | .leaf _, [] => Option.none
  | .leaf _, b :: bs => some (.leaf b, bs)
  | .node k cs, bs =>
    match rebuildList cs bs with
    | Option.none => Option.none
    | some (ds, rest) => some (.node k ds, rest)
/-- Used for src/wax/format.py:78-89, 131-146, 161-170. -/
def rebuildList : List (PyTree α) → List β → Option (List (PyTree β) × List β)
  | [], bs => some ([], bs)
  | c :: cs, bs =>
    match c.rebuild bs with
    | Option.none => Option.none
    | some (d, rest) =>
      match rebuildList cs rest with
      | Option.none => Option.none
      | some (ds, rest) => some (d :: ds, rest)
end

mutual
/-- `tree_map`. Used for src/wax/format.py:60-63. -/
def PyTree.map (f : α → β) : PyTree α → PyTree β
  | .leaf a => .leaf (f a)
  | .node k cs => .node k (mapList f cs)
/-- Used for src/wax/format.py:60-63. -/
def mapList (f : α → β) : List (PyTree α) → List (PyTree β)
  | [] => []
  | c :: cs => c.map f :: mapList f cs
end

/-- A numpy array: shape and payload. Used for src/wax/format.py:28-39. -/
structure Arr (α : Type) where
  shape : List Nat
  data : α
deriving DecidableEq, Repr

/-- A leaf of `format_dims`: a string, or a numpy array of strings (tuples and lists of strings are *containers*).
Used for src/wax/format.py:28-39. -/
inductive DimLeaf where
  | str (s : String)
  | arr (l : List String)
deriving DecidableEq, Repr

/-- A labelled array: `xr.DataArray`. Used for src/wax/format.py:28-39. -/
structure DataArray (α L : Type) where
  arr : Arr α
  dims : List String
  coords : List (String × List L)
deriving DecidableEq, Repr

/-- The coordinates of the reference dataset (`schema.coords`), one-dimensional ones named after their dimension.
Used for src/wax/format.py:28-39. -/
abbrev Coords (L : Type) := List (String × List L)

/-- A dimension name inside a tuple or list (anything else is not a valid dimension for us; xarray would accept other
hashable objects, which match no coordinate). See src/wax/format.py:28-39. -/
def dimName : PyTree DimLeaf → Option String
  | .leaf (.str s) => some s
  | _ => Option.none

/-- The object passed as `dims` to `_to_dataarray`: what `xr.DataArray` makes of it (a string is one dimension; otherwise
`tuple(dims)`, which for a dictionary are its keys), and the test `ref_dim in dims` (for a string: substring).
Used for src/wax/format.py:28-39. -/
def dimsOf : PyTree DimLeaf → Except Err (List String × (String → Bool))
  | .leaf (.str s) => .ok ([s], fun d => decide (d.toList <:+: s.toList))
  | .leaf (.arr l) => .ok (l, fun d => l.contains d)
  | .node .none _ => .error .type
  | .node (.dict keys) _ => .ok (keys, fun d => keys.contains d)
  | .node _ cs =>
    match cs.mapM dimName with
    | some l => .ok (l, fun d => l.contains d)
    | Option.none => .error .type

/-- src/wax/format.py:28-39 `_to_dataarray`: `xr.DataArray` raises ValueError if the number of dimensions differs, if a coordinate is
not along one of the dimensions, or if a size differs. -/
def toDataArray (coords : Coords L) (a : Arr α) (dims : PyTree DimLeaf) : Except Err (DataArray α L) := do
  let (ds, test) ← dimsOf dims
  let cs := coords.filter fun c => test c.1
  if ds.length ≠ a.shape.length then .error .value
  else if cs.all (fun c => (ds.zip a.shape).any fun p => p.1 == c.1 && p.2 == c.2.length) then .ok ⟨a, ds, cs⟩
  else .error .value

/-- src/wax/format.py:78-89, 131-146, 161-170: one conversion per leaf. With the same structure each leaf gets its own dims, otherwise
all get the whole `format_dims`. -/
def formatWith {X : Type} (conv : Arr α → PyTree DimLeaf → Except Err X) (data : PyTree (Arr α))
    (dims : PyTree DimLeaf) : Except Err (PyTree X) := do
  let vals ← if data.treedef = dims.treedef then
      (data.leaves.zip dims.leaves).mapM fun p => conv p.1 (.leaf p.2)
    else data.leaves.mapM fun a => conv a dims
  match data.rebuild vals with
  | some (t, _) => .ok t
  | Option.none => .error .value

/-- src/wax/format.py:66-89 `format_dataarray`. -/
def formatDataarray (coords : Coords L) (data : PyTree (Arr α)) (dims : PyTree DimLeaf) :
    Except Err (PyTree (DataArray α L)) :=
  formatWith (toDataArray coords) data dims

/-- What pandas gives back: a series along dimensions, or a frame with row and column dimensions. The labels along a dimension
are those of its coordinate, the default range if it has none. Used for src/wax/format.py:42-51. -/
inductive Pandas (α L : Type) where
  | series (index : List (String × Option (List L))) (arr : Arr α)
  | frame (index columns : List (String × Option (List L))) (arr : Arr α)
deriving DecidableEq, Repr

/-- The dimensions of a labelled array with their labels. Used for src/wax/format.py:42-51. -/
def DataArray.axes (d : DataArray α L) : List (String × Option (List L)) := d.dims.map fun n => (n, d.coords.lookup n)

/-- src/wax/format.py:42-51 `_to_dataframe`: (0-dimensional arrays have no index: ValueError). -/
def toDataframe (coords : Coords L) (nlevels : Nat) (a : Arr α) (dims : PyTree DimLeaf) : Except Err (Pandas α L) := do
  let d ← toDataArray coords a dims
  match d.axes with
  | [] => .error .value
  | [i] => .ok (.series [i] a)
  | [i, j] => .ok (.frame [i] [j] a)
  | l => .ok (.frame (l.take nlevels) (l.drop nlevels) a)

/-- src/wax/format.py:54-57 `_to_series`. -/
def toSeries (coords : Coords L) (a : Arr α) (dims : PyTree DimLeaf) : Except Err (Pandas α L) := do
  let d ← toDataArray coords a dims
  match d.axes with
  | [] => .error .value
  | l => .ok (.series l a)

/-- src/wax/format.py:60-63 `_get_dims_from_data`: `dim_0`, `dim_1`, ... -/
def dimsFromData (a : Arr α) : PyTree DimLeaf :=
  .node .tuple ((List.range a.shape.length).map fun (i : Nat) => .leaf (.str s!"dim_{i}"))

/-- The truth value of `format_dims`: None, empty containers and empty strings are false (numpy arrays reach this test only
with another structure than the data). Used for src/wax/format.py:111-146. -/
def truthy : PyTree DimLeaf → Bool
  | .leaf (.str s) => s ≠ ""
  | .leaf (.arr _) => true
  | .node .none _ => false
  | .node _ cs => !cs.isEmpty

/-- src/wax/format.py:111-146 `format_dataframe`. -/
def formatDataframe (coords : Coords L) (nlevels : Nat) (data : PyTree (Arr α)) (dims : PyTree DimLeaf) :
    Except Err (PyTree (Pandas α L)) :=
  if data.treedef = dims.treedef ∨ truthy dims = true then formatWith (toDataframe coords nlevels) data dims
  else
    match data.leaves with
    | [] => .error .index
    | a :: _ =>
      match data.leaves.mapM fun b => toDataframe coords nlevels b (dimsFromData a) with
      | .error e => .error e
      | .ok vals =>
        match data.rebuild vals with
        | some (t, _) => .ok t
        | Option.none => .error .value

/-- src/wax/format.py:149-170 `format_series`. -/
def formatSeries (coords : Coords L) (data : PyTree (Arr α)) (dims : PyTree DimLeaf) :
    Except Err (PyTree (Pandas α L)) :=
  formatWith (toSeries coords) data dims

/-- src/wax/accessors.py:81, 147, 231, 302: `format_dims = (format_dims[0],)`. -/
def reducedDims : PyTree DimLeaf → Except Err (PyTree DimLeaf)
  | .leaf (.str s) => match s.toList with
    | [] => .error .index
    | c :: _ => .ok (.node .tuple [.leaf (.str (String.ofList [c]))])
  | .leaf (.arr l) => match l with
    | [] => .error .index
    | s :: _ => .ok (.node .tuple [.leaf (.str s)])
  | .node .none _ => .error .type
  | .node (.dict _) _ => .error .key
  | .node _ cs => match cs with
    | [] => .error .index
    | c :: _ => .ok (.node .tuple [c])

/-- src/wax/accessors.py:77-82, 143-148, 222-237, 298-303: the first attempt, and the second one with reduced dims after a
ValueError. -/
def formatOrReduce {X : Type} (fmt : PyTree DimLeaf → Except Err X) (dims : PyTree DimLeaf) : Except Err X :=
  match fmt dims with
  | .error .value =>
    match reducedDims dims with
    | .error e => .error e
    | .ok dims => fmt dims
  | r => r

/-- A tuple of dimension names, as in `dataarray.dims`. Used for src/wax/format.py:193-201. -/
def dimsTuple (l : List String) : PyTree DimLeaf := .node .tuple (l.map fun s => .leaf (.str s))

/-- src/wax/format.py:173-201 `auto_format_with_shape`: the first variable of the dataset (name, dims, shape) one of whose leading
shapes is the shape of the data. -/
def autoDims (vars : List (List String × List Nat)) (shape : List Nat) : Option (List String) :=
  match vars with
  | [] => Option.none
  | (dims, sh) :: rest =>
    match (List.range (sh.length + 1)).find? fun i => sh.take i == shape with
    | some i => some (dims.take i)
    | Option.none => autoDims rest shape

/-- src/wax/format.py:193-201: what `auto_format_with_shape` returns with `output_format="dataarray"`; the data itself if there is no
such variable, or if the data is a scalar. -/
def autoFormat (coords : Coords L) (vars : List (List String × List Nat)) (a : Arr α) :
    Except Err (Arr α ⊕ DataArray α L) :=
  match autoDims vars a.shape with
  | Option.none => .ok (.inl a)
  | some [] => .ok (.inl a)
  | some ds =>
    match formatDataarray coords (.leaf a) (dimsTuple ds) with
    | .ok (.leaf d) => .ok (.inr d)
    | .ok (.node _ _) => .error .value
    | .error e => .error e

/-- src/wax/format.py:204-215 `tree_auto_format_with_shape`: every array of a nested structure on its own. -/
def treeAutoFormat (coords : Coords L) (vars : List (List String × List Nat)) (t : PyTree (Arr α)) :
    Except Err (PyTree (Arr α ⊕ DataArray α L)) :=
  match t.leaves.mapM (autoFormat coords vars) with
  | .error e => .error e
  | .ok vals =>
    match t.rebuild vals with
    | some (t, _) => .ok t
    | Option.none => .error .value

/-! ## Accessors -/

open Model.Unroll Model.Pipeline Model.Stream
variable {T A P S R O X : Type} [LinearOrder T]

/-- `jax.lax.scan` stacks the leaves of the outputs: `sig` describes the structure of the module's output, the shape of each
leaf and how to read it; a leaf of shape `sh` becomes an array of shape `(steps,) + sh`.
Used for src/wax/accessors.py:64-87. -/
def stackTree (sig : PyTree (List Nat × (O → X))) (outs : List O) : PyTree (Arr (List X)) :=
  sig.map fun l => ⟨outs.length :: l.1, outs.map l.2⟩

/-- src/wax/accessors.py:125-127, 204-206, 281-283 `module_dataset`: the module on the variable `"dataarray"`. -/
def moduleDataset (f : Transformed P S R (List A) O) : Transformed P S R (List (String × Cell A)) O where
  init := fun rng rec => f.init rng (row rec)
  apply := fun p s rng rec => f.apply p s rng (row rec)
where
  row (rec : List (String × Cell A)) : List A :=
    match rec.lookup "dataarray" with
    | some (.row r) => r
    | _ => []

/-- src/wax/accessors.py:64-87 (and 121-153, 187-242, 276-307) with `format_outputs=True`: run, stack, format (with the second attempt),
and return the state. -/
def accessorApply [Inhabited A] {Y : Type} (c : Config T) (enc : String → Option (Enc A)) (ds : Dataset T A)
    (f : Transformed P S R (List (String × Cell A)) O) (split : R → R × R) (skipFirst : Bool) (rng : Option R)
    (params : Option P) (state : Option S) (sig : PyTree (List Nat × (O → X)))
    (fmt : PyTree (Arr (List X)) → PyTree DimLeaf → Except Err Y) (dims : PyTree DimLeaf) : Except Err (Y × S) :=
  match streamApply c enc ds f split skipFirst rng params state with
  | .error _ => .error .other
  | .ok (outs, s) =>
    match formatOrReduce (fmt (stackTree sig outs)) dims with
    | .error e => .error e
    | .ok y => .ok (y, s)

/-- A data frame without multi-index whose index holds dates: names of the two axes (pandas names, or `dim_0`, `dim_1`),
labels and rows. Used for src/wax/accessors.py:196-201. -/
structure Frame (T L A : Type) where
  rowDim : String
  colDim : String
  index : List T
  columns : List L
  rows : List (List A)

/-- src/wax/accessors.py:196-201: `xr.DataArray(dataframe)` as a dataset. -/
def Frame.dataset (df : Frame T L A) (nan : A) : Dataset T A :=
  ⟨[(df.rowDim, df.index)], [("dataarray", ⟨[df.rowDim, df.colDim], df.rows, nan, 0⟩)]⟩

/-- The coordinates of that dataset. Used for src/wax/accessors.py:165-242. -/
def Frame.coords (df : Frame T L A) : Coords (T ⊕ L) :=
  [(df.rowDim, df.index.map .inl), (df.colDim, df.columns.map .inr)]

/-- src/wax/accessors.py:165-242 `StreamDataFrame.apply` (simple index and columns): default dims are those of the frame. -/
def dataframeApply [Inhabited A] (c : Config T) (enc : String → Option (Enc A)) (nan : A) (df : Frame T L A)
    (f : Transformed P S R (List A) O) (split : R → R × R) (skipFirst : Bool) (rng : Option R)
    (params : Option P) (state : Option S) (sig : PyTree (List Nat × (O → X))) (dims : Option (PyTree DimLeaf)) :
    Except Err (PyTree (Pandas (List X) (T ⊕ L)) × S) :=
  accessorApply c enc (df.dataset nan) (moduleDataset f) split skipFirst rng params state sig
    (formatDataframe df.coords 1) (dims.getD (dimsTuple [df.rowDim, df.colDim]))

/-- A series indexed by dates. Used for src/wax/accessors.py:254-307. -/
structure Ser (T A : Type) where
  dim : String
  index : List T
  values : List A

/-- src/wax/accessors.py:254-307 `StreamSeries.apply`. -/
def seriesApply [Inhabited A] (c : Config T) (enc : String → Option (Enc A)) (nan : A) (sr : Ser T A)
    (f : Transformed P S R (List A) O) (split : R → R × R) (skipFirst : Bool) (rng : Option R)
    (params : Option P) (state : Option S) (sig : PyTree (List Nat × (O → X))) (dims : Option (PyTree DimLeaf)) :
    Except Err (PyTree (Pandas (List X) T) × S) :=
  accessorApply c enc ⟨[(sr.dim, sr.index)], [("dataarray", ⟨[sr.dim], sr.values.map fun a => [a], nan, 0⟩)]⟩
    (moduleDataset f) split skipFirst rng params state sig
    (formatSeries [(sr.dim, sr.index)]) (dims.getD (dimsTuple [sr.dim]))

/-- src/wax/accessors.py:99-153 `StreamDataArray.apply` on a two-dimensional array with a time dimension first (described like a
frame). -/
def dataarrayApply [Inhabited A] (c : Config T) (enc : String → Option (Enc A)) (nan : A) (df : Frame T L A)
    (f : Transformed P S R (List A) O) (split : R → R × R) (skipFirst : Bool) (rng : Option R)
    (params : Option P) (state : Option S) (sig : PyTree (List Nat × (O → X))) (dims : Option (PyTree DimLeaf)) :
    Except Err (PyTree (DataArray (List X) (T ⊕ L)) × S) :=
  accessorApply c enc (df.dataset nan) (moduleDataset f) split skipFirst rng params state sig
    (formatDataarray df.coords) (dims.getD (dimsTuple [df.rowDim, df.colDim]))

/-- src/wax/accessors.py:42-87 `StreamDataset.apply`: default dims are the empty tuple. (`format_dataset`, src/wax/format.py:92-108, wraps a
dictionary of labelled arrays in a Dataset; not modelled.) -/
def datasetApply [Inhabited A] (c : Config T) (enc : String → Option (Enc A)) (ds : Dataset T A) (coords : Coords L)
    (f : Transformed P S R (List (String × Cell A)) O) (split : R → R × R) (skipFirst : Bool) (rng : Option R)
    (params : Option P) (state : Option S) (sig : PyTree (List Nat × (O → X))) (dims : Option (PyTree DimLeaf)) :
    Except Err (PyTree (DataArray (List X) L) × S) :=
  accessorApply c enc ds f split skipFirst rng params state sig
    (formatDataarray coords) (dims.getD (.node .tuple []))

/-- A module that treats the `n` entries of a row separately (elementwise numpy operations on states of the shape of the
input, e.g. src/wax/modules/ewma.py:126-131, 148-153, 188-193). -/
def rowMachine {I : Type} (m : Mealy S I O) (n : Nat) : Mealy (List S) (List I) (List O) where
  init := List.replicate n m.init
  step := fun ss xs => (List.zipWith (fun s x => (m.step s x).1) ss xs, List.zipWith (fun s x => (m.step s x).2) ss xs)

/-- The value of EWMA without `return_info`. Used for src/wax/accessors.py:310-335. -/
def ewmaValue {K : Type} [Field K] [LinearOrder K] (cfg : EWMACfg K) : Mealy (EWMAState K) (Fl K) (Fl K) where
  init := (ewma cfg).init
  step := fun s x => (((ewma cfg).step s x).1.value, ((ewma cfg).step s x).2)

/-- src/wax/accessors.py:310-335: `df.wax.ewm(com, alpha, ...).mean()`: `EWMA(com, alpha, ...)` applied through the accessor
(`com`, `alpha` are checked by EWMA: AssertionError). -/
def ewmMeanFrame {K : Type} [Field K] [LinearOrder K] [Inhabited K] (c : Config T) (com alpha : Option K) (cfg : EWMACfg K)
    (df : Frame T L (Fl K)) (split : R → R × R) :
    Except Err (PyTree (Pandas (List (List (Fl K))) (T ⊕ L)) × List (EWMAState K)) :=
  match ewmaCom com alpha with
  | .error _ => .error .other
  | .ok com =>
    letI : Inhabited (Fl K) := ⟨Fl.nan⟩
    dataframeApply c (fun _ => Option.none) Fl.nan df
      (haikuTransformed (rowMachine (ewmaValue { cfg with com := com }) df.columns.length)) split false Option.none
      Option.none Option.none (.leaf ([df.columns.length], id)) Option.none

/-- src/wax/accessors.py:310-335 on a series. -/
def ewmMeanSeries {K : Type} [Field K] [LinearOrder K] [Inhabited K] (c : Config T) (com alpha : Option K) (cfg : EWMACfg K)
    (sr : Ser T (Fl K)) (split : R → R × R) :
    Except Err (PyTree (Pandas (List (Fl K)) T) × List (EWMAState K)) :=
  match ewmaCom com alpha with
  | .error _ => .error .other
  | .ok com =>
    letI : Inhabited (Fl K) := ⟨Fl.nan⟩
    seriesApply c (fun _ => Option.none) Fl.nan sr
      (haikuTransformed (rowMachine (ewmaValue { cfg with com := com }) 1)) split false Option.none
      Option.none Option.none (.leaf ([], fun r : List (Fl K) => r.headD Fl.nan)) Option.none

end Verif.Model.Format
