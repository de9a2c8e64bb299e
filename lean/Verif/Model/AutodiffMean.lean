import Verif.Model.Autodiff

/-! # Model: the gradient of RollingMean

Reverse-mode differentiation of the unrolled module, as in `Model/Autodiff`: the cotangent of `sum` is copied to every row, that of
`where` goes to the selected operand, that of `.at[-1].set(x)` to `x` for the last row and to the buffer for the others. -/

namespace Verif.Model.Autodiff
variable {K : Type} [Field K] [LinearOrder K]

/-- src/wax/modules/rolling_mean.py:39-41 (src/wax/flax/modules/rolling_mean.py:50-58 is the same): the cotangents of the rows of the buffer, from
the cotangent `g` of the mean.  `count` is an integer and is not differentiated. -/
def meanPull (minPeriods : Nat) (b : List (Fl K)) (g : Fl K) : List (Fl K) :=
  let count := (b.map fun v => if v.isNan then 0 else 1).sum
  let cQuot := if minPeriods ≤ count then g else Fl.fin 0
  let cSum := cQuot / Fl.fin (count : K)
  b.map fun v => if v.isNan then Fl.fin 0 else cSum

/-- src/wax/modules/buffer.py:41-46 `buffer_fn.apply`: the cotangents of the old buffer and of `x`, from those of the new buffer. -/
def bufferPull (cts : List (Fl K)) : List (Fl K) × Fl K :=
  let rolled := cts.set (cts.length - 1) (Fl.fin 0)
  (rolled.drop (rolled.length - 1) ++ rolled.take (rolled.length - 1), look cts (cts.length - 1))

/-- src/wax/unroll.py:71-93 with src/wax/modules/rolling_mean.py:37-42: the cotangents of the initial buffer and of the inputs, from the cotangents
`gs` of the outputs (the final state is not used by the loss). -/
def rollingMeanGradFrom (horizon minPeriods : Nat) : BufState (Fl K) → List (Fl K) → List (Fl K) → List (Fl K) × List (Fl K)
  | s, x :: xs, g :: gs =>
    let b := bufferApply horizon x s
    let r := rollingMeanGradFrom horizon minPeriods b.2 xs gs
    let p := bufferPull (List.zipWith (· + ·) (meanPull minPeriods b.1 g) r.1)
    (p.1, p.2 :: r.2)
  | s, _, _ => (s.buffer.map fun _ => Fl.fin 0, [])

/-- `jax.grad` through the unrolled Haiku RollingMean, from a fresh state: src/wax/modules/rolling_mean.py:37-42. -/
def rollingMeanGrad (horizon minPeriods : Nat) (xs gs : List (Fl K)) : List (Fl K) :=
  (rollingMeanGradFrom horizon minPeriods (bufferInit horizon Fl.nan) xs gs).2

/-! ## Flax -/

/-- src/wax/flax/modules/buffer.py:91-92 `updated_buffer[indices]`: the cotangent of a gather is added row by row, at the gathered positions, to an array
of zeros. -/
def gatherPull (maxlen : Nat) (indices : List Nat) (cts : List (Fl K)) : List (Fl K) :=
  (List.zip indices cts).foldl (fun acc p => acc.set p.1 (look acc p.1 + p.2)) (List.replicate maxlen (Fl.fin 0))

/-- src/wax/flax/modules/buffer.py:76-92 `Buffer.__call__`: the cotangents of the old buffer and of the input, from those of the ordered buffer and of the
stored buffer (the integer state is not differentiated). -/
def circPull (maxlen : Nat) (writeIdx : Int) (ctOrdered ctStored : List (Fl K)) : List (Fl K) × Fl K :=
  let writePos := (writeIdx % (maxlen : Int)).toNat
  let start := i32 (writeIdx + 1) % (maxlen : Int)
  let indices := (List.range maxlen).map fun (i : Nat) => ((i32 ((i : Int) + start)) % (maxlen : Int)).toNat
  let ctUpdated := List.zipWith (· + ·) (gatherPull maxlen indices ctOrdered) ctStored
  (ctUpdated.set writePos (Fl.fin 0), look ctUpdated writePos)

/-- src/wax/flax/modules/rolling_mean.py:37-60 unrolled: the cotangents of the initial buffer (in physical order) and of the inputs. -/
def flaxRollingMeanGradFrom (horizon minPeriods : Nat) : CircState (Fl K) → List (Fl K) → List (Fl K) → List (Fl K) × List (Fl K)
  | s, x :: xs, g :: gs =>
    let b := circStep horizon s x
    let r := flaxRollingMeanGradFrom horizon minPeriods b.2 xs gs
    let p := circPull horizon s.writeIdx (meanPull minPeriods b.1.1 g) r.1
    (p.1, p.2 :: r.2)
  | s, _, _ => (s.buffer.map fun _ => Fl.fin 0, [])

/-- `jax.grad` through the unrolled Flax RollingMean, from fresh variables: src/wax/flax/modules/rolling_mean.py:37-60. -/
def flaxRollingMeanGrad (horizon minPeriods : Nat) (xs gs : List (Fl K)) : List (Fl K) :=
  (flaxRollingMeanGradFrom horizon minPeriods (circBuffer horizon Fl.nan).init xs gs).2

end Verif.Model.Autodiff
