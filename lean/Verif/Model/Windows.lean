import Verif.Base.Fl
import Verif.Base.Mealy

/-!
# Model: buffers, lags, differences, forward fill, rolling mean, counter, change detection

All modules are modelled as streaming machines (see `Verif.Base.Mealy`).
-/

namespace Verif.Model

/-! ## Haiku Buffer -/

/-- src/wax/modules/buffer.py:23-26 `BufferState`. -/
structure BufState (α : Type) where
  buffer : List α
  lenBuffer : Nat
  iStart : Nat
deriving DecidableEq, Repr

/-- src/wax/modules/buffer.py:35-39 `buffer_fn.init`. -/
def bufferInit {α : Type} (maxlen : Nat) (fill : α) : BufState α :=
  { buffer := List.replicate maxlen fill, lenBuffer := 0, iStart := maxlen }

/-- src/wax/modules/buffer.py:41-49 `buffer_fn.apply`.  `jnp.roll(buffer, -1, axis=0)` moves the
first row to the end; `.at[-1].set(x)` overwrites the last row (and is dropped on an empty array). -/
def bufferApply {α : Type} (maxlen : Nat) (x : α) (s : BufState α) : List α × BufState α :=
  let rolled := s.buffer.drop 1 ++ s.buffer.take 1
  let buffer := rolled.set (rolled.length - 1) x
  let lenBuffer := min (s.lenBuffer + 1) maxlen
  let iStart := maxlen - lenBuffer
  (buffer, ⟨buffer, lenBuffer, iStart⟩)

/-- src/wax/modules/buffer.py:54-101 `Buffer`, with `return_state=True`: the output is the pair
(buffer, state); with `return_state=False` only the first component is returned. -/
def buffer {α : Type} (maxlen : Nat) (fill : α) : Mealy (BufState α) α (List α × BufState α) where
  init := bufferInit maxlen fill
  step s x :=
    let r := bufferApply maxlen x s
    ((r.1, r.2), r.2)

/-! ## Flax Buffer -/

/-- int32 arithmetic: wrap an integer into `[-2^31, 2^31)`. Used for src/wax/flax/modules/buffer.py:58-99. -/
def i32 (x : Int) : Int := Int.bmod x (2 ^ 32)

/-- src/wax/flax/modules/buffer.py:60-72: state of the circular buffer; `write_idx` is an int32. -/
structure CircState (α : Type) where
  buffer : List α
  lenBuffer : Int
  writeIdx : Int
deriving DecidableEq, Repr

/-- src/wax/flax/modules/buffer.py:58-99 `Buffer.__call__`.  `%` on jnp integers has the sign of the
divisor (here `maxlen > 0`), i.e. `Int.emod`.  The output is (ordered buffer, len, write_idx). -/
def circStep {α : Type} (maxlen : Nat) (s : CircState α) (x : α) :
    (List α × Int × Int) × CircState α :=
  let writePos := (s.writeIdx % (maxlen : Int)).toNat
  let updated := s.buffer.set writePos x
  let len' := min (i32 (s.lenBuffer + 1)) (maxlen : Int)
  let idx' := i32 (s.writeIdx + 1)
  let start := idx' % (maxlen : Int)
  let ordered := (List.range maxlen).filterMap fun (i : Nat) =>
    updated[((i32 ((i : Int) + start)) % (maxlen : Int)).toNat]?
  ((ordered, len', idx'), ⟨updated, len', idx'⟩)

/-- src/wax/flax/modules/buffer.py:32-99: the fresh variables and the call. -/
def circBuffer {α : Type} (maxlen : Nat) (fill : α) :
    Mealy (CircState α) α (List α × Int × Int) where
  init := ⟨List.replicate maxlen fill, 0, 0⟩
  step := circStep maxlen

/-! ## Lag -/

/-- src/wax/modules/lag.py:22-33 `Lag`: a buffer of size `lag + 1`, first row returned
(`return_state=False`).  `none` would be an out-of-range read. -/
def lag {α : Type} (k : Nat) (fill : α) : Mealy (BufState α) α (Option α) where
  init := (buffer (k + 1) fill).init
  step s x :=
    let r := (buffer (k + 1) fill).step s x
    (r.1.1[0]?, r.2)

/-- src/wax/flax/modules/lag.py:25-62 `Lag`: same on the circular buffer. -/
def flaxLag {α : Type} (k : Nat) (fill : α) : Mealy (CircState α) α (Option α) where
  init := (circBuffer (k + 1) fill).init
  step s x :=
    let r := (circBuffer (k + 1) fill).step s x
    (r.1.1[0]?, r.2)

/-- src/wax/modules/lag.py:31-33 with `return_state=True`: `super().__call__` returns the pair
`(buffer, state)`, so `buffer[0]` is the whole buffer, not the lagged value. -/
def lagReturnState {α : Type} (k : Nat) (fill : α) : Mealy (BufState α) α (List α) where
  init := (buffer (k + 1) fill).init
  step s x :=
    let r := (buffer (k + 1) fill).step s x
    (r.1.1, r.2)

section Numeric
variable {K : Type} [Field K] [LinearOrder K]

/-! ## Diff -/

/-- src/wax/modules/diff.py:24-42 `Diff` (`periods = 1` is asserted): last minus first of a buffer of
size 2.  The reads are always in range; `none` would be an out-of-range read. -/
def diff : Mealy (BufState (Fl K)) (Fl K) (Option (Fl K)) where
  init := (buffer 2 Fl.nan).init
  step s x :=
    let r := (buffer 2 Fl.nan).step s x
    ((do some ((← r.1.1.getLast?) - (← r.1.1[0]?))), r.2)

/-- src/wax/flax/modules/diff.py:24-57 `Diff` on the circular buffer. -/
def flaxDiff : Mealy (CircState (Fl K)) (Fl K) (Option (Fl K)) where
  init := (circBuffer 2 Fl.nan).init
  step s x :=
    let r := (circBuffer 2 Fl.nan).step s x
    ((do some ((← r.1.1.getLast?) - (← r.1.1[0]?))), r.2)

/-! ## Ffill -/

/-- src/wax/modules/ffill.py:20-37 `Ffill` (src/wax/flax/modules/ffill.py:20-53 is the same). -/
def ffill : Mealy (Fl K) (Fl K) (Fl K) where
  init := Fl.nan
  step valid x :=
    let valid' := if x.isNan then valid else x
    (valid', valid')

/-! ## PctChange -/

/-- src/wax/modules/pct_change.py:54-61: the value computed from the current and previous values. -/
def pctValue (fillnaZero : Bool) (x prev : Fl K) : Fl K :=
  let pct := x / prev - 1
  if fillnaZero && (x.isNan && !prev.isNan) then 0 else pct

/-- src/wax/modules/pct_change.py:24-61 `PctChange` with `fill_method` in {"ffill", "pad"}
(`periods = 1` is asserted): `Lag(1)(Ffill()(x))`. -/
def pctChange (fillnaZero : Bool) :
    Mealy (Fl K × BufState (Fl K)) (Fl K) (Option (Fl K)) where
  init := (ffill.init, (lag 1 Fl.nan).init)
  step s x :=
    let f := ffill.step s.1 x
    let l := (lag 1 Fl.nan).step s.2 f.1
    (l.1.map (pctValue fillnaZero x), (f.2, l.2))

/-- src/wax/flax/modules/pct_change.py:43-69 `PctChange`; `pad` says whether `fill_method` is
"ffill"/"pad".  With another fill method the raw value is lagged (the Haiku version calls
`Lag(self.periods)()` without argument there, which raises TypeError). -/
def flaxPctChange (pad fillnaZero : Bool) :
    Mealy (Fl K × CircState (Fl K)) (Fl K) (Option (Fl K)) where
  init := (ffill.init, (flaxLag 1 Fl.nan).init)
  step s x :=
    if pad then
      let f := ffill.step s.1 x
      let l := (flaxLag 1 Fl.nan).step s.2 f.1
      (l.1.map (pctValue fillnaZero x), (f.2, l.2))
    else
      let l := (flaxLag 1 Fl.nan).step s.2 x
      (l.1.map (pctValue fillnaZero x), (s.1, l.2))

/-! ## RollingMean -/

/-- src/wax/modules/rolling_mean.py:39-41: mean of the non-NaN rows of the buffer
(src/wax/flax/modules/rolling_mean.py:52-58 is the same). -/
def windowMean (minPeriods : Nat) (b : List (Fl K)) : Fl K :=
  let sum := (b.map fun v => if v.isNan then (0 : Fl K) else v).sum
  let count := (b.map fun v => if v.isNan then 0 else 1).sum
  if minPeriods ≤ count then sum / Fl.fin (count : K) else Fl.nan

/-- src/wax/modules/rolling_mean.py:22-42 `RollingMean`. -/
def rollingMean (horizon minPeriods : Nat) : Mealy (BufState (Fl K)) (Fl K) (Fl K) where
  init := (buffer horizon Fl.nan).init
  step s x :=
    let r := (buffer horizon Fl.nan).step s x
    (windowMean minPeriods r.1.1, r.2)

/-- src/wax/flax/modules/rolling_mean.py:22-60 `RollingMean`. -/
def flaxRollingMean (horizon minPeriods : Nat) : Mealy (CircState (Fl K)) (Fl K) (Fl K) where
  init := (circBuffer horizon Fl.nan).init
  step s x :=
    let r := (circBuffer horizon Fl.nan).step s x
    (windowMean minPeriods r.1.1, r.2)

/-! ## FillNanInf -/

/-- src/wax/modules/fill_nan_inf.py:37-43 `FillNanInf.__call__` on one array
(src/wax/flax/modules/fill_nan_inf.py:32-48 is the same). -/
def fillNanInf (fill : Fl K) (xs : List (Fl K)) : List (Fl K) :=
  xs.map (Fl.nanToNum fill fill fill)

end Numeric

/-! ## Counter -/

/-- src/wax/modules/counter.py:19-24 `Counter` (src/wax/flax/modules/counter.py is the same): a uint32
incremented at each call.  The call has no argument. -/
def counter : Mealy (BitVec 32) Unit (BitVec 32) where
  init := 0#32
  step c _ := (c + 1#32, c + 1#32)

/-! ## HasChanged -/

/-- The dtype classes of `DTYPE_INIT_VALUES`, src/wax/stream.py:59-75. -/
inductive DType where
  | float | int | uint | bool
deriving DecidableEq, Repr

/-- An array element. Used for src/wax/stream.py:59-75. -/
inductive Scalar (K : Type) where
  | f (x : Fl K)
  | i (x : Int)
  | u (x : Nat)
  | b (x : Bool)
deriving DecidableEq, Repr

/-- src/wax/stream.py:59-75 `DTYPE_INIT_VALUES`. -/
def initValue {K : Type} : DType → Scalar K
  | .float => .f .nan
  | .int => .i (-99999)
  | .uint => .u 0
  | .bool => .b false

/-- dtype of an element. See src/wax/stream.py:59-75. -/
def Scalar.dtype {K : Type} : Scalar K → DType
  | .f _ => .float
  | .i _ => .int
  | .u _ => .uint
  | .b _ => .bool

/-- `jnp.not_equal` on two elements of one dtype (IEEE on floats). Used for src/wax/modules/has_changed.py:22-33. -/
def Scalar.ne {K : Type} [Field K] [LinearOrder K] : Scalar K → Scalar K → Bool
  | .f x, .f y => !Fl.feq x y
  | .i x, .i y => x != y
  | .u x, .u y => x != y
  | .b x, .b y => x != y
  | _, _ => true

/-- src/wax/modules/has_changed.py:22-33 `HasChanged` (src/wax/flax/modules/has_changed.py is the
same).  The state is `none` until the first call, when it is created with
`jnp.full_like(input, DTYPE_INIT_VALUES[dtype])`.  Arrays are flattened; all calls have the shape of the
first one (JAX raises otherwise). -/
def hasChanged {K : Type} [Field K] [LinearOrder K] (d : DType) :
    Mealy (Option (List (Scalar K))) (List (Scalar K)) Bool where
  init := none
  step prev x :=
    let p := prev.getD (List.replicate x.length (initValue d))
    ((List.zipWith Scalar.ne x p).any id, some x)

end Verif.Model
