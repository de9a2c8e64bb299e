import Verif.Model.Windows

/-! # Model: masked operations

An array is its shape and its entries in row-major order. -/

namespace Verif.Model

/-- An n-dimensional array, row-major. Used for src/wax/modules/apply_mask.py:47-62. -/
structure NdArr (α : Type) where
  shape : List Nat
  data : List α
deriving DecidableEq, Repr

/-- The number of entries is the product of the dimensions. See src/wax/modules/apply_mask.py:47-62. -/
def NdArr.WF {α : Type} (a : NdArr α) : Prop := a.data.length = a.shape.prod

/-- Python exceptions raised by the mask modules. Used for src/wax/modules/apply_mask.py:47-62. -/
inductive MaskErr where
  | axisNotImplemented -- ValueError, apply_mask.py:56-58
  | shapeMismatch      -- ValueError, apply_mask.py:61
  | indexError         -- `x.shape[1]` / `x.shape[0]` on an array with too few dimensions
deriving DecidableEq, Repr

/-- src/wax/modules/apply_mask.py:47-62 `apply_mask` on one leaf.
`mask.reshape(-1,1)` repeated along axis 1 gives each mask entry `x.shape[1]` times;
`mask.reshape(1,-1)` repeated along axis 0 gives the whole mask `x.shape[0]` times. -/
def applyMask {α : Type} (axis : Option Int) (maskValue : α) (mask : NdArr Bool) (x : NdArr α) :
    Except MaskErr (NdArr α) := do
  let m ← (match axis with
    | none => .ok mask
    | some a =>
      if a = 0 then
        match x.shape[1]? with
        | some c => .ok ⟨[mask.data.length, c], mask.data.flatMap fun b => List.replicate c b⟩
        | none => .error .indexError
      else if a = 1 then
        match x.shape[0]? with
        | some r => .ok ⟨[r, mask.data.length], (List.replicate r mask.data).flatten⟩
        | none => .error .indexError
      else .error .axisNotImplemented : Except MaskErr (NdArr Bool))
  if x.shape ≠ m.shape then .error .shapeMismatch
  else .ok ⟨x.shape, List.zipWith (fun b v => if b then v else maskValue) m.data x.data⟩

section Numeric
variable {K : Type} [Field K] [LinearOrder K]

/-- `jnp.nan_to_num(x)` with default arguments: NaN to 0, the infinities to the largest finite floats
`±big`. Used for src/wax/modules/mask_mean.py:45-48. -/
def nanToNumDefault (big : K) : Fl K → Fl K :=
  Fl.nanToNum (Fl.fin 0) (Fl.fin big) (Fl.fin (-big))

/-- One line of masked data: pairs (mask, value).  A reduction with `axis=None` sees the whole array as
one line; with `axis=k` it sees each line along `k` separately. Used for src/wax/modules/mask_mean.py:45-48. -/
abbrev Line (K : Type) := List (Bool × Fl K)

/-- src/wax/modules/mask_mean.py:45-48: mask then fill NaN. -/
def maskFill (big : K) (l : Line K) : List (Fl K) :=
  l.map fun e => nanToNumDefault big (if e.1 then e.2 else Fl.fin 0)

/-- `mask.sum()`. Used for src/wax/modules/mask_mean.py:43-52. -/
def maskCount (l : Line K) : Nat := (l.map fun e => if e.1 then 1 else 0).sum

/-- src/wax/modules/mask_mean.py:43-52 `mask_mean` on one line. -/
def maskMean (big : K) (l : Line K) : Fl K :=
  (maskFill big l).sum / Fl.fin (maskCount l : K)

/-- src/wax/flax/modules/mask_mean.py:48-67 `mask_mean_fn` on one line. -/
def flaxMaskMean (big : K) (l : Line K) : Fl K :=
  let count := if maskCount l = 0 then 1 else maskCount l
  let mean := (maskFill big l).sum / Fl.fin (count : K)
  if maskCount l = 0 then Fl.nan else mean

/-- `jnp.sqrt` given the square root of non-negative numbers. Used for src/wax/modules/mask_std.py:63-65. -/
def Fl.sqrt (root : K → K) : Fl K → Fl K
  | .fin a => if a < 0 then .nan else .fin (root a)
  | .pinf => .pinf
  | _ => .nan

/-- src/wax/modules/mask_std.py:46-66: variance computed on one line whose mean is `mean`. -/
def maskVarWith (big : K) (assumeCentered : Bool) (mean : Fl K) (l : Line K) : Fl K :=
  let diff := (List.zip (l.map (·.1)) (maskFill big l)).map fun e =>
    let d := if assumeCentered then e.2 else e.2 - mean
    if e.1 then d else Fl.fin 0
  (diff.map fun d => d * d).sum / Fl.fin (maskCount l : K)

/-- src/wax/modules/mask_std.py:63-65: from the variance to the standard deviation;
`eps = finfo.resolution ** 2`. -/
def stdOfVar (root : K → K) (eps : K) (var : Fl K) : Fl K :=
  if Fl.lt (Fl.fin 0) var then Fl.sqrt root (Fl.fin eps + var) else Fl.fin 0

/-- src/wax/modules/mask_std.py:46-66 `mask_std` on one line (`axis=None`, or `axis=0` per column). -/
def maskStd (root : K → K) (eps big : K) (assumeCentered : Bool) (l : Line K) : Fl K :=
  stdOfVar root eps (maskVarWith big assumeCentered (maskMean big l) l)

/-- src/wax/modules/mask_std.py:46-66 with `axis=1` on an `n × n` array given by rows: `mean` has
shape `(n,)` and `x - mean` broadcasts along the last axis, so column `j` (not row `j`) is centred with
the mean of row `j`.  (For `rows ≠ cols` the subtraction raises or, for one row, broadcasts.) -/
def maskStdAxis1 (root : K → K) (eps big : K) (rows : List (Line K)) : List (Fl K) :=
  let means := rows.map (maskMean big)
  rows.map fun l =>
    let diff := (List.zip (l.map (·.1)) (List.zipWith (fun v m => v - m) (maskFill big l) means)).map
      fun e => if e.1 then e.2 else Fl.fin 0
    stdOfVar root eps ((diff.map fun d => d * d).sum / Fl.fin (maskCount l : K))

/-- src/wax/flax/modules/mask_std.py:50-91 `mask_std_fn` on one line: the difference uses the raw `x`
(before NaN filling), an empty mask gives NaN. -/
def flaxMaskStd (root : K → K) (eps big : K) (assumeCentered : Bool) (l : Line K) : Fl K :=
  let count := if maskCount l = 0 then 1 else maskCount l
  let mean := (maskFill big l).sum / Fl.fin (count : K)
  let diff := if assumeCentered then maskFill big l
    else l.map fun e => if e.1 then e.2 - mean else Fl.fin 0
  let var := (diff.map fun d => d * d).sum / Fl.fin (count : K)
  if maskCount l = 0 then Fl.nan else stdOfVar root eps var

/-- src/wax/modules/mask_normalize.py:46-49 `normalize` on one line. -/
def maskNormalize (root : K → K) (eps big : K) (assumeCentered : Bool) (l : Line K) : List (Fl K) :=
  let std := maskStd root eps big assumeCentered l
  fillNanInf (Fl.fin 0) (l.map fun e => e.2 / std)

end Numeric
end Verif.Model
