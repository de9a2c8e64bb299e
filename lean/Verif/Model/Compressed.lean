import Verif.Model.Windows
import Mathlib.Algebra.Order.Floor.Ring

/-! # Model: compressed and hierarchical buffers (src/wax/flax/modules/compressed_buffer.py)

The modules branch in Python on their counters, so they are run outside `jit`; counters are Python integers (unbounded). -/

namespace Verif.Model.Compressed
variable {K V S O : Type}

/-! ## downsample -/

/-- src/wax/flax/modules/compressed_buffer.py:147-148: the size of the reduced buffer. -/
def compressedMaxlen (maxlen factor : Nat) : Nat := max 1 (maxlen / factor)

/-- src/wax/flax/modules/compressed_buffer.py:140-152 and 237-252 `_downsample_update`: store when `counter % factor == 0`, otherwise return the raw
circular array (physical order).  `factor = 0` is a ZeroDivisionError in `setup` and is excluded by the theorems. -/
def downsample (maxlen factor : Nat) (fill : V) : Mealy (CircState V × Nat) V (List V) where
  init := ((circBuffer (compressedMaxlen maxlen factor) fill).init, 0)
  step := fun st x =>
    if st.2 % factor = 0 then
      let r := (circBuffer (compressedMaxlen maxlen factor) fill).step st.1 x
      (r.1.1, (r.2, st.2 + 1))
    else (st.1.buffer, (st.1, st.2 + 1))

/-! ## quantile -/

/-- jnp indexing by an integer: negative indices count from the end, out-of-range ones are clamped.
Used for src/wax/flax/modules/compressed_buffer.py:216-231. -/
def jnpGet [Zero K] (l : List K) (i : Int) : K :=
  let i := if i < 0 then i + l.length else i
  l.getD (min (max i 0) (l.length - 1)).toNat 0

/-- src/wax/flax/modules/compressed_buffer.py:216-231: linear interpolation in the sorted valid values (`p` is a fraction). -/
def quantile [Field K] [LinearOrder K] [FloorRing K] (sorted : List K) (p : K) : K :=
  let idx := p * ((sorted.length : K) - 1)
  let lower := jnpGet sorted ⌊idx⌋
  let upper := jnpGet sorted ⌈idx⌉
  lower + (idx - (⌊idx⌋ : Int)) * (upper - lower)

/-- src/wax/flax/modules/compressed_buffer.py:203-235 `_quantile_update`: `none` in the window is a NaN (infinities are not modelled, and the
arithmetic is exact).  Every tenth call the estimates are recomputed from the valid values of the window, if any. -/
def quantileCompress [Field K] [LinearOrder K] [FloorRing K] (maxlen : Nat) (percentiles : List K) (fill : Option K) :
    Mealy (CircState (Option K) × List (Option K) × Nat) (Option K) (List (Option K)) where
  init := ((circBuffer (min maxlen 1000) fill).init, List.replicate percentiles.length fill, 0)
  step := fun st x =>
    let r := (circBuffer (min maxlen 1000) fill).step st.1 x
    let est :=
      if st.2.2 % 10 = 0 then
        let valid := r.1.1.filterMap id
        if valid = [] then st.2.1
        else percentiles.map fun p => some (quantile (valid.mergeSort fun a b => decide (a ≤ b)) p)
      else st.2.1
    (est, (r.2, est, st.2.2 + 1))

/-! ## sketching -/

/-- src/wax/flax/modules/compressed_buffer.py:176-182, 266-274: the hash parameters; `hash_params[i]` beyond the table is clamped to its last row. -/
def hashParams : List (Int × Int) := [(31, 17), (37, 23), (41, 29), (43, 31)]

/-- Used for src/wax/flax/modules/compressed_buffer.py:262-268. -/
def hashParam (numHashes i : Nat) : Int × Int := (hashParams.take numHashes).getD (min i (min numHashes 4 - 1)) (0, 0)

/-- src/wax/flax/modules/compressed_buffer.py:262-268: the bucket of an item for hash `i`; int32 arithmetic. -/
def bucket (numHashes numBuckets i : Nat) (xInt : Int) : Nat :=
  let ab := hashParam numHashes i
  ((i32 (i32 (ab.1 * xInt) + ab.2)) % (numBuckets : Int)).toNat

/-- float32 addition of 1 to a counter: 2^24 + 1 is rounded back to 2^24.
Used for src/wax/flax/modules/compressed_buffer.py:266-269. -/
def f32succ (c : Nat) : Nat := if c < 2 ^ 24 then c + 1 else c

/-- src/wax/flax/modules/compressed_buffer.py:266-269: the update of every row. -/
def sketchUpdate (numHashes numBuckets : Nat) (sketch : List (List Nat)) (xInt : Int) : List (List Nat) :=
  (List.range numHashes).foldl (fun sk i => sk.modify i fun row => row.modify (bucket numHashes numBuckets i xInt) f32succ)
    sketch

/-- src/wax/flax/modules/compressed_buffer.py:281: `jnp.min(sketch, axis=0)`. -/
def sketchMin (numBuckets : Nat) (sketch : List (List Nat)) : List Nat :=
  (List.range numBuckets).map fun b => match sketch with
    | [] => 0
    | row :: rows => rows.foldl (fun m r => min m (r.getD b 0)) (row.getD b 0)

/-- src/wax/flax/modules/compressed_buffer.py:154-175, 254-274 `_sketching_update`; `toInt` is `int32(x * 1000)`. -/
def sketching (numHashes numBuckets : Nat) (toInt : V → Int) : Mealy (List (List Nat)) V (List Nat) where
  init := List.replicate numHashes (List.replicate numBuckets 0)
  step := fun sk x =>
    let sk := sketchUpdate numHashes numBuckets sk (toInt x)
    (sketchMin numBuckets sk, sk)

/-! ## ewma -/

/-- src/wax/flax/modules/compressed_buffer.py:105-117, 188-201 `_ewma_update`: the inner EWMA module `m`, its last output and a counter.
`none` is the initial Python scalar 0.0. -/
def ewmaCompress (m : Mealy S V O) : Mealy (S × Option O × Nat) V O where
  init := (m.init, none, 0)
  step := fun st x =>
    let r := m.step st.1 x
    (r.1, (r.2, some r.1, st.2.2 + 1))

/-! ## strategies and memory reports -/

/-- Used for src/wax/flax/modules/compressed_buffer.py:102-103. -/
inductive Strategy where
  | ewma | quantile | downsample | sketching | none
deriving DecidableEq

/-- src/wax/flax/modules/compressed_buffer.py:102-103: unknown names raise. -/
def strategyOf (s : String) : Except Unit Strategy :=
  if s = "ewma" then .ok .ewma else if s = "quantile" then .ok .quantile
  else if s = "downsample" then .ok .downsample else if s = "sketching" then .ok .sketching
  else if s = "none" then .ok .none else .error ()

/-- src/wax/flax/modules/compressed_buffer.py:281-333 `get_memory_usage`: named parts and total, in bytes. -/
def memoryUsage (maxlen nPercentiles factor numHashes numBuckets : Nat) : Strategy → List Nat × Nat
  | .ewma => ([8, 4], 12)
  | .quantile => ([min maxlen 1000 * 8, nPercentiles * 8], min maxlen 1000 * 8 + nPercentiles * 8 + 4)
  | .downsample => ([maxlen / factor * 8, 4], maxlen / factor * 8 + 4)
  | .sketching => ([numHashes * numBuckets * 8, numHashes * 2 * 4], numHashes * numBuckets * 8 + numHashes * 2 * 4)
  | .none => ([maxlen * 8], maxlen * 8)

/-- src/wax/flax/modules/compressed_buffer.py:425-447: bytes of one level of the hierarchical buffer. -/
def levelUsage (maxlen : Nat) : Strategy → Nat
  | .ewma => 12
  | .quantile => min maxlen 1000 * 8 + 5 * 8 + 4
  | .downsample => maxlen / 2 * 8 + 4
  | _ => maxlen * 8

/-- src/wax/flax/modules/compressed_buffer.py:426-462 `get_total_memory_usage`: recent, medium, long, total and the compression ratio as numerator and
denominator of a true division. -/
def totalUsage (recent medium long : Nat) (mc lc : Strategy) : Nat × Nat × Nat × Nat × Nat × Nat :=
  let r := recent * 8
  let m := levelUsage medium mc
  let l := levelUsage long lc
  let total := r + m + l
  if 0 < total then (r, m, l, total, (recent + medium + long) * 8, total) else (r, m, l, total, 1, 1)

/-! ## HierarchicalBuffer -/

/-- src/wax/flax/modules/compressed_buffer.py:404-426: a level called every `period` steps.  Between calls, the stored output if the level keeps one
(`keeps`, only the "ewma" strategy has `compressed_state`), otherwise the scalar 0.0 (`zero`). -/
def level (period : Nat) (keeps : Bool) (zero : O) (m : Mealy S V O) : Mealy (S × Option O × Nat) V O where
  init := (m.init, none, 0)
  step := fun st x =>
    if st.2.2 % period = 0 then
      let r := m.step st.1 x
      (r.1, (r.2, some r.1, st.2.2 + 1))
    else (if keeps then st.2.1.getD zero else zero, (st.1, st.2.1, st.2.2 + 1))

/-- src/wax/flax/modules/compressed_buffer.py:390-424 `HierarchicalBuffer.__call__`: recent window, medium level every 5 steps, long every 50. -/
def hierarchical {S' : Type} (recentMaxlen : Nat) (fill : V) (mk lk : Bool) (zero : O) (mm : Mealy S V O) (ml : Mealy S' V O) :
    Mealy (CircState V × (S × Option O × Nat) × (S' × Option O × Nat)) V (List V × O × O × V) where
  init := ((circBuffer recentMaxlen fill).init, (level 5 mk zero mm).init, (level 50 lk zero ml).init)
  step := fun st x =>
    let r := (circBuffer recentMaxlen fill).step st.1 x
    let md := (level 5 mk zero mm).step st.2.1 x
    let lg := (level 50 lk zero ml).step st.2.2 x
    ((r.1.1, md.1, lg.1, x), (r.2, md.2, lg.2))

end Verif.Model.Compressed
