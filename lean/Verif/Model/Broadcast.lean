import Verif.Model.Masks

/-! # Model: masked operations on arrays of any rank, with NumPy broadcasting

An array is its shape and its entry at each index (a list of positions, first axis first).  This file models what
`Model/Masks.lean` leaves out: the `axis` argument of MaskMean, MaskStd and MaskNormalize, the shapes they accept
and the broadcasting they rely on. -/

namespace Verif.Model.Broadcast
open Verif.Model

/-- An array of any rank. Used for src/wax/modules/apply_mask.py:47-62. -/
structure Nd (α : Type) where
  shape : List Nat
  at_ : List Nat → α

/-- What the masked modules raise. Used for src/wax/modules/apply_mask.py:47-62. -/
inductive NdErr where
  | shapeMismatch -- ValueError of ApplyMask, src/wax/modules/apply_mask.py:60-61
  | badAxis       -- ValueError, src/wax/flax/modules/apply_mask.py:45-46
  | axisError     -- the reduction is asked for an axis the array does not have
  | broadcast     -- incompatible shapes for broadcasting
deriving DecidableEq, Repr

/-- NumPy broadcasting of one dimension: equal, or one of the two is 1. Used for src/wax/modules/mask_mean.py:43-53. -/
def bcDim (a b : Nat) : Option Nat :=
  if a = b then some a else if a = 1 then some b else if b = 1 then some a else none

/-- Shapes are aligned on the right: the shorter one is completed with 1s on the left.
Used for src/wax/modules/mask_mean.py:43-53. -/
def padLeft (n : Nat) (s : List Nat) : List Nat := List.replicate (n - s.length) 1 ++ s

/-- NumPy broadcasting of two shapes. Used for src/wax/modules/mask_mean.py:43-53. -/
def bcShape (a b : List Nat) : Option (List Nat) :=
  let n := max a.length b.length
  (List.zip (padLeft n a) (padLeft n b)).mapM fun p => bcDim p.1 p.2

/-- The entry of an array of shape `s` seen at index `i` of the broadcast result: leading axes are dropped, and
axes of length 1 are read at 0. Used for src/wax/modules/mask_mean.py:43-53. -/
def bcIndex (s : List Nat) (i : List Nat) : List Nat :=
  List.zipWith (fun d j => if d = 1 then 0 else j) s (i.drop (i.length - s.length))

/-- A binary elementwise operation. Used for src/wax/modules/mask_mean.py:43-53. -/
def map2 {α β γ : Type} (f : α → β → γ) (a : Nd α) (b : Nd β) : Except NdErr (Nd γ) :=
  match bcShape a.shape b.shape with
  | none => .error .broadcast
  | some s => .ok ⟨s, fun i => f (a.at_ (bcIndex a.shape i)) (b.at_ (bcIndex b.shape i))⟩

/-- A unary elementwise operation. Used for src/wax/modules/mask_mean.py:43-53. -/
def Nd.map {α β : Type} (f : α → β) (a : Nd α) : Nd β := ⟨a.shape, fun i => f (a.at_ i)⟩

/-- All the indices of a shape, in row-major order. See src/wax/modules/mask_mean.py:43-53. -/
def allIx : List Nat → List (List Nat)
  | [] => [[]]
  | d :: s => (List.range d).flatMap fun i => (allIx s).map (i :: ·)

/-- The position of axis `k` (negative axes count from the end), if the array has it.
Used for src/wax/modules/mask_mean.py:43-53. -/
def axisPos (rank : Nat) (k : Int) : Option Nat :=
  if 0 ≤ k ∧ k < rank then some k.toNat
  else if k < 0 ∧ -(rank : Int) ≤ k then some (k + rank).toNat
  else none

/-- A reduction (`a.sum(axis)`): over everything for `axis=None`, along one axis otherwise.
Used for src/wax/modules/mask_mean.py:43-53. -/
def reduce {α β : Type} (f : List α → β) (axis : Option Int) (a : Nd α) : Except NdErr (Nd β) :=
  match axis with
  | none => .ok ⟨[], fun _ => f ((allIx a.shape).map a.at_)⟩
  | some k =>
    match axisPos a.shape.length k with
    | none => .error .axisError
    | some p => .ok ⟨a.shape.eraseIdx p, fun i =>
        f ((List.range (a.shape.getD p 0)).map fun j => a.at_ (i.insertIdx p j))⟩

section
variable {K : Type} [Field K] [LinearOrder K]

/-- `mask.sum(axis)`. Used for src/wax/modules/mask_mean.py:43-53. -/
def count (l : List Bool) : Nat := (l.map fun b => if b then 1 else 0).sum

/-- src/wax/modules/apply_mask.py:47-62 `ApplyMask()` (`axis=None`): the shapes must be equal. -/
def applyMaskNd (v : Fl K) (mask : Nd Bool) (x : Nd (Fl K)) : Except NdErr (Nd (Fl K)) :=
  if x.shape ≠ mask.shape then .error .shapeMismatch
  else .ok ⟨x.shape, fun i => if mask.at_ i then x.at_ i else v⟩

/-- src/wax/modules/mask_mean.py:43-53 `mask_mean` with any `axis`. -/
def maskMeanNd (big : K) (axis : Option Int) (mask : Nd Bool) (x : Nd (Fl K)) :
    Except NdErr (Nd (Fl K)) := do
  let x ← applyMaskNd (Fl.fin 0) mask x
  let x := x.map (nanToNumDefault big)
  let c ← reduce count axis mask
  let s ← reduce List.sum axis x
  map2 (fun a (n : Nat) => a / Fl.fin (n : K)) s c

/-- src/wax/modules/mask_std.py:46-67 `mask_std` with any `axis`. -/
def maskStdNd (root : K → K) (eps big : K) (assumeCentered : Bool) (axis : Option Int) (mask : Nd Bool)
    (x : Nd (Fl K)) : Except NdErr (Nd (Fl K)) := do
  let x ← applyMaskNd (Fl.fin 0) mask x
  let x := x.map (nanToNumDefault big)
  let c ← reduce count axis mask
  let s ← reduce List.sum axis x
  let mean ← map2 (fun a (n : Nat) => a / Fl.fin (n : K)) s c
  let diff ← if assumeCentered then .ok x else map2 (fun a m => a - m) x mean
  let diff ← applyMaskNd (Fl.fin 0) mask diff
  let ss ← reduce List.sum axis (diff.map fun d => d * d)
  let var ← map2 (fun a (n : Nat) => a / Fl.fin (n : K)) ss c
  .ok (var.map (stdOfVar root eps))

/-- src/wax/modules/mask_normalize.py:47-50 `normalize` with any `axis`: `FillNanInf()(x / x_std)`. -/
def maskNormalizeNd (root : K → K) (eps big : K) (assumeCentered : Bool) (axis : Option Int)
    (mask : Nd Bool) (x : Nd (Fl K)) : Except NdErr (Nd (Fl K)) := do
  let std ← maskStdNd root eps big assumeCentered axis mask x
  let q ← map2 (fun a s => a / s) x std
  .ok (q.map (Fl.nanToNum (Fl.fin 0) (Fl.fin 0) (Fl.fin 0)))

/-- src/wax/flax/modules/apply_mask.py:54-67: the mask after the axis-specific broadcasting, for data of rank
`rank`: `mask[..., None]` appends an axis of length 1, `mask[None, :]` prepends one. -/
def flaxBroadcastMask (axis : Option Int) (rank : Nat) (mask : Nd Bool) : Nd Bool :=
  let appendAxes (m : Nd Bool) : Nd Bool :=
    ⟨m.shape ++ List.replicate (rank - m.shape.length) 1, fun i => m.at_ (i.take m.shape.length)⟩
  if axis = some 0 then appendAxes mask
  else if axis = some 1 then
    appendAxes (if mask.shape.length = 1 ∧ 1 < rank then ⟨1 :: mask.shape, fun i => mask.at_ i.tail⟩
      else mask)
  else mask

/-- src/wax/flax/modules/apply_mask.py:45 `self.axis is not None and self.axis > 1`. -/
def axisTooLarge : Option Int → Bool
  | some a => decide (1 < a)
  | none => false

/-- src/wax/flax/modules/apply_mask.py:32-75 `ApplyMask.__call__`: no check that the mask fits, only
broadcasting. -/
def flaxApplyMask (axis : Option Int) (v : Fl K) (mask : Nd Bool) (x : Nd (Fl K)) :
    Except NdErr (Nd (Fl K)) :=
  if axisTooLarge axis then .error .badAxis
  else map2 (fun b a => if b then a else v) (flaxBroadcastMask axis x.shape.length mask) x

/-- src/wax/flax/modules/mask_mean.py:48-67 `mask_mean_fn` with any `axis`. -/
def flaxMaskMeanNd (big : K) (axis : Option Int) (mask : Nd Bool) (x : Nd (Fl K)) :
    Except NdErr (Nd (Fl K)) := do
  let xm ← flaxApplyMask axis (Fl.fin 0) mask x
  let xm := xm.map (nanToNumDefault big)
  let c0 ← reduce count axis mask
  let c := c0.map fun n => if n = 0 then 1 else n
  let s ← reduce List.sum axis xm
  let mean ← map2 (fun a (n : Nat) => a / Fl.fin (n : K)) s c
  map2 (fun n m => if n = 0 then Fl.nan else m) c0 mean

/-- src/wax/flax/modules/mask_std.py:69-76: the mean made ready for the subtraction: `mean[None, ...]` for
`axis=0`, `mean[..., None]` for `axis=1`, unchanged otherwise or when `x` has a single axis. -/
def flaxExpandMean (axis : Option Int) (rank : Nat) (m : Nd (Fl K)) : Nd (Fl K) :=
  if 1 < rank then
    if axis = some 0 then ⟨1 :: m.shape, fun i => m.at_ i.tail⟩
    else if axis = some 1 then ⟨m.shape ++ [1], fun i => m.at_ i.dropLast⟩
    else m
  else m

/-- src/wax/flax/modules/mask_std.py:49-91 `mask_std_fn` with any `axis`. -/
def flaxMaskStdNd (root : K → K) (eps big : K) (assumeCentered : Bool) (axis : Option Int) (mask : Nd Bool)
    (x : Nd (Fl K)) : Except NdErr (Nd (Fl K)) := do
  let xm ← flaxApplyMask axis (Fl.fin 0) mask x
  let xm := xm.map (nanToNumDefault big)
  let c0 ← reduce count axis mask
  let c := c0.map fun n => if n = 0 then 1 else n
  let diff ← if assumeCentered then .ok xm else do
    let s ← reduce List.sum axis xm
    let mean ← map2 (fun a (n : Nat) => a / Fl.fin (n : K)) s c
    let d ← map2 (fun a m => a - m) x (flaxExpandMean axis x.shape.length mean)
    flaxApplyMask axis (Fl.fin 0) mask d
  let ss ← reduce List.sum axis (diff.map fun d => d * d)
  let var ← map2 (fun a (n : Nat) => a / Fl.fin (n : K)) ss c
  map2 (fun n s => if n = 0 then Fl.nan else s) c0 (var.map (stdOfVar root eps))

/-- src/wax/flax/modules/mask_normalize.py:52-63 `normalize_fn` with any `axis`. -/
def flaxMaskNormalizeNd (root : K → K) (eps big : K) (assumeCentered : Bool) (axis : Option Int)
    (mask : Nd Bool) (x : Nd (Fl K)) : Except NdErr (Nd (Fl K)) := do
  let std ← flaxMaskStdNd root eps big assumeCentered axis mask x
  let q ← map2 (fun a s => a / s) x std
  .ok (q.map (Fl.nanToNum (Fl.fin 0) (Fl.fin 0) (Fl.fin 0)))

end
end Verif.Model.Broadcast
