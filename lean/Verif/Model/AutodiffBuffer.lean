import Verif.Model.AutodiffEvents

/-! # Model: gradients through Buffer, Lag, Diff and Ffill -/

namespace Verif.Model.Autodiff
variable {K C : Type} [Field K] [LinearOrder K]

/-- `jax.grad` through an unrolled module that reads the rows of its Haiku Buffer: `read b g` are the cotangents of the rows `b`, from the cotangent `g` of what is
read.  The result: the cotangents of the initial buffer and of the inputs.  src/wax/unroll.py:71-93 with src/wax/modules/buffer.py:41-46. -/
def bufferGradFrom (maxlen : Nat) (read : List (Fl K) → C → List (Fl K)) : BufState (Fl K) → List (Fl K) → List C → List (Fl K) × List (Fl K)
  | s, x :: xs, g :: gs =>
    let b := bufferApply maxlen x s
    let r := bufferGradFrom maxlen read b.2 xs gs
    let p := bufferPull (List.zipWith (· + ·) (read b.1 g) r.1)
    (p.1, p.2 :: r.2)
  | s, _, _ => (s.buffer.map fun _ => Fl.fin 0, [])

/-- The same for the circular buffer of Flax: src/wax/flax/modules/buffer.py:76-99. -/
def flaxBufferGradFrom (maxlen : Nat) (read : List (Fl K) → C → List (Fl K)) : CircState (Fl K) → List (Fl K) → List C → List (Fl K) × List (Fl K)
  | s, x :: xs, g :: gs =>
    let b := circStep maxlen s x
    let r := flaxBufferGradFrom maxlen read b.2 xs gs
    let p := circPull maxlen s.writeIdx (read b.1.1 g) r.1
    (p.1, p.2 :: r.2)
  | s, _, _ => (s.buffer.map fun _ => Fl.fin 0, [])

/-- The cotangent of `buffer[i]`, a row of zeros but at `i`.  Used for src/wax/modules/lag.py:33, src/wax/modules/diff.py:40. -/
def rowPull (i : Nat) (b : List (Fl K)) (g : Fl K) : List (Fl K) := (b.map fun _ => Fl.fin 0).set i g

/-- src/wax/modules/lag.py:33 (src/wax/flax/modules/lag.py:62): `buffer[0]`. -/
def lagPull (b : List (Fl K)) (g : Fl K) : List (Fl K) := rowPull 0 b g

/-- src/wax/modules/diff.py:40 (src/wax/flax/modules/diff.py:55): `buffer[-1] - buffer[0]`. -/
def diffPull (b : List (Fl K)) (g : Fl K) : List (Fl K) := List.zipWith (· + ·) (rowPull (b.length - 1) b g) (rowPull 0 b (-g))

/-- `jax.grad` through the unrolled Buffer that returns all its rows, from a fresh state: src/wax/modules/buffer.py:54-101. -/
def bufferGrad (maxlen : Nat) (fill : Fl K) (xs : List (Fl K)) (gs : List (List (Fl K))) : List (Fl K) :=
  (bufferGradFrom maxlen (fun _ g => g) (bufferInit maxlen fill) xs gs).2

/-- `jax.grad` through the unrolled Lag, from a fresh state: src/wax/modules/lag.py:31-33. -/
def lagGrad (k : Nat) (fill : Fl K) (xs gs : List (Fl K)) : List (Fl K) := (bufferGradFrom (k + 1) lagPull (bufferInit (k + 1) fill) xs gs).2

/-- `jax.grad` through the unrolled Diff, from a fresh state: src/wax/modules/diff.py:33-41. -/
def diffGrad (xs gs : List (Fl K)) : List (Fl K) := (bufferGradFrom 2 diffPull (bufferInit 2 Fl.nan) xs gs).2

/-- Through the Flax Buffer: src/wax/flax/modules/buffer.py:49-106. -/
def flaxBufferGrad (maxlen : Nat) (fill : Fl K) (xs : List (Fl K)) (gs : List (List (Fl K))) : List (Fl K) :=
  (flaxBufferGradFrom maxlen (fun _ g => g) (circBuffer maxlen fill).init xs gs).2

/-- Through the Flax Lag: src/wax/flax/modules/lag.py:42-62. -/
def flaxLagGrad (k : Nat) (fill : Fl K) (xs gs : List (Fl K)) : List (Fl K) := (flaxBufferGradFrom (k + 1) lagPull (circBuffer (k + 1) fill).init xs gs).2

/-- Through the Flax Diff: src/wax/flax/modules/diff.py:36-57. -/
def flaxDiffGrad (xs gs : List (Fl K)) : List (Fl K) := (flaxBufferGradFrom 2 diffPull (circBuffer 2 Fl.nan).init xs gs).2

/-- `jax.grad` through the unrolled Ffill (`jnp.where(jnp.isnan(x), valid_value, x)`, returned and stored): the cotangents of the state and of the inputs.
src/wax/modules/ffill.py:27-37 (src/wax/flax/modules/ffill.py:39-53 is the same). -/
def ffillGradFrom : List (Fl K) → List (Fl K) → Fl K × List (Fl K)
  | x :: xs, g :: gs =>
    let r := ffillGradFrom xs gs
    let ct := g + r.1
    (if x.isNan then ct else Fl.fin 0, (if x.isNan then Fl.fin 0 else ct) :: r.2)
  | _, _ => (Fl.fin 0, [])

/-- `jax.grad` through the unrolled Ffill from a fresh state: src/wax/modules/ffill.py:20-37. -/
def ffillGrad (xs gs : List (Fl K)) : List (Fl K) := (ffillGradFrom xs gs).2

/-! ## As modules of `Model/AutodiffEvents` -/

/-- The Haiku Lag: src/wax/modules/lag.py:31-33, src/wax/modules/buffer.py:41-46 (the step of `lagGrad`). -/
def lagPulled (k : Nat) (fill : Fl K) : Pulled (BufState (Fl K)) (Fl K) (Option (Fl K)) (List (Fl K)) (Fl K) (Fl K) where
  m := lag k fill
  pull s x g c := bufferPull (List.zipWith (· + ·) (lagPull (bufferApply (k + 1) x s).1 g) c)
  zeroS := List.replicate (k + 1) (Fl.fin 0)
  addS := List.zipWith (· + ·)
  zeroI := Fl.fin 0
  zeroO := Fl.fin 0
  addO := (· + ·)

/-- The Haiku Diff: src/wax/modules/diff.py:33-41, src/wax/modules/buffer.py:41-46 (the step of `diffGrad`). -/
def diffPulled : Pulled (BufState (Fl K)) (Fl K) (Option (Fl K)) (List (Fl K)) (Fl K) (Fl K) where
  m := diff
  pull s x g c := bufferPull (List.zipWith (· + ·) (diffPull (bufferApply 2 x s).1 g) c)
  zeroS := List.replicate 2 (Fl.fin 0)
  addS := List.zipWith (· + ·)
  zeroI := Fl.fin 0
  zeroO := Fl.fin 0
  addO := (· + ·)

/-- Ffill: src/wax/modules/ffill.py:27-37 (the step of `ffillGradFrom`). -/
def ffillPulled : Pulled (Fl K) (Fl K) (Fl K) (Fl K) (Fl K) (Fl K) where
  m := ffill
  pull _ x g c := let ct := g + c; (if x.isNan then ct else Fl.fin 0, if x.isNan then Fl.fin 0 else ct)
  zeroS := Fl.fin 0
  addS := (· + ·)
  zeroI := Fl.fin 0
  zeroO := Fl.fin 0
  addO := (· + ·)

end Verif.Model.Autodiff
