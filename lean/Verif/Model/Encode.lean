import Mathlib.Order.Basic
import Mathlib.Data.List.Sort
import Mathlib.Data.List.Dedup
import Mathlib.Data.Finset.Card

/-! # Model: encoding of integers, dates and labels (src/wax/encode.py) -/

namespace Verif.Model

/-- What may be passed to `encode_int64` (src/wax/encode.py:30): an accepted integer (Python `int`, NumPy `int32`, `uint32` or `int64`, or a 0-d integer array,
unwrapped by `item()`), some other scalar (a float, or a NumPy integer of another width), or an array with a non-empty shape. -/
inductive Seed where
  | int (n : Int)
  | otherScalar
  | shaped
deriving DecidableEq

/-- Exceptions raised by the encoders. Used for src/wax/encode.py:30-63. -/
inductive EncErr where
  | typeError
  | overflow
  | value
  | assertion
deriving DecidableEq, Repr

/-- src/wax/encode.py:30-63: the arithmetic of `encode_int64` once the seed is an int64: arithmetic shift, mask, and
conversion to uint32. -/
def encodeBits (s : BitVec 64) : BitVec 32 × BitVec 32 :=
  (((s.sshiftRight 32) &&& 0xFFFFFFFF#64).setWidth 32, (s &&& 0xFFFFFFFF#64).setWidth 32)

/-- src/wax/encode.py:30-63 `encode_int64`.  `onp.int64(seed)` raises OverflowError outside the int64 range. -/
def encodeInt64 : Seed → Except EncErr (BitVec 32 × BitVec 32)
  | .shaped => .error .typeError
  | .otherScalar => .error .typeError
  | .int n =>
    if -(2 ^ 63) ≤ n ∧ n < 2 ^ 63 then .ok (encodeBits (BitVec.ofInt 64 n)) else .error .overflow

/-- src/wax/encode.py:66-77 `decode_int64`: both halves converted to int64, the high one shifted, added with int64
wrap-around. -/
def decodeInt64 (c : BitVec 32 × BitVec 32) : Int :=
  ((c.1.setWidth 64 <<< 32) + c.2.setWidth 64).toInt

/-- src/wax/encode.py:100-108 `encode_datetime64`/`decode_datetime64` (and `encode_timestamp`, 80-87) on a time given as its int64 count of nanoseconds.  Other time units: `toNs`. -/
def encodeDatetime64 (ns : BitVec 64) : BitVec 32 × BitVec 32 := encodeBits ns

/-- See `encodeDatetime64`. See src/wax/encode.py:66-77. -/
def decodeDatetime64 (c : BitVec 32 × BitVec 32) : BitVec 64 := BitVec.ofInt 64 (decodeInt64 c)

/-- One day in nanoseconds (src/wax/encode.py:154, 225). -/
def dayNs : Int := 24 * 60 * 60 * 1000000000

/-- int64 wrap-around of NumPy products. Used for src/wax/encode.py:130-157. -/
def wrap64 (x : Int) : Int := Int.bmod x (2 ^ 64)

/-- src/wax/encode.py:130-157 `floor_datetime` on an int64 count of nanoseconds. -/
def floorDatetime (freq : String) (t : Int) : Except EncErr Int :=
  if freq = "d" then .ok (wrap64 (t / dayNs * dayNs)) else .error .assertion

/-- NaT: the smallest int64.  src/wax/encode.py:100-108. -/
def natInt : Int := -(2 ^ 63)

/-- `astype("<M8[ns]").astype(int64)` (src/wax/encode.py:103, 153) of a time that is `n` units of `k` nanoseconds: NaT is kept, and NumPy's int64 product wraps without error. -/
def toNs (k n : Int) : Int := if n = natInt then natInt else wrap64 (n * k)

/-- src/wax/encode.py:100-103 `encode_datetime64` of a date in another unit. -/
def encodeDatetime64Unit (k n : Int) : Except EncErr (BitVec 32 × BitVec 32) := encodeInt64 (.int (toNs k n))

/-- src/wax/encode.py:130-157 `floor_datetime` of a date in another unit. -/
def floorDatetimeUnit (freq : String) (k n : Int) : Except EncErr Int := floorDatetime freq (toNs k n)

/-- src/wax/encode.py:90-93 `encode_datetime` of a `datetime.datetime` without time zone, `us` microseconds after the epoch: `onp.datetime64(date)` has the unit of
microseconds. -/
def encodeDatetime (us : Int) : Except EncErr (BitVec 32 × BitVec 32) := encodeDatetime64Unit 1000 us

/-- src/wax/encode.py:96-97 `decode_datetime`: `pd.to_datetime` on nanoseconds (`none`: NaT), `to_pydatetime` drops the nanoseconds below the microsecond. -/
def decodeDatetime (c : BitVec 32 × BitVec 32) : Option Int :=
  if decodeInt64 c = natInt then none else some (decodeInt64 c / 1000)

/-- src/wax/encode.py:201-212 `less` on codes (uint32 comparisons). -/
def less (t1 t2 : BitVec 32 × BitVec 32) : Bool :=
  if t1.1.toNat < t2.1.toNat then true
  else if t1.1.toNat > t2.1.toNat then false
  else if t1.2.toNat < t2.2.toNat then true
  else false

/-- src/wax/encode.py:215-229 `floor_jax_datekey`. -/
def floorJaxDatekey (c : BitVec 32 × BitVec 32) : Except EncErr (BitVec 32 × BitVec 32) :=
  let date := decodeInt64 c
  encodeInt64 (.int (wrap64 (date / dayNs * dayNs)))

/-- A NumPy array: its shape and its entries in C order. Used for src/wax/encode.py:177-180. -/
structure LabelArr (α : Type) where
  shape : List Nat
  flat : List α
deriving DecidableEq

/-- A well-formed array has as many entries as its shape says. See src/wax/encode.py:177-180. -/
def LabelArr.WF {α : Type} (a : LabelArr α) : Prop := a.flat.length = a.shape.prod

/-- src/wax/encode.py:192-193 `encode` of `datetime64_encoder`, on dates in units of `k` nanoseconds: one code per entry.  Iterating over a 0-d array is a TypeError,
`onp.stack` of nothing a ValueError, and `encode_int64` refuses a row of a table. -/
def datetimesEncode (k : Int) (v : LabelArr Int) : Except EncErr (List (BitVec 32 × BitVec 32)) :=
  match v.shape with
  | [] => .error .typeError
  | 0 :: _ => .error .value
  | [_] => v.flat.mapM (encodeDatetime64Unit k)
  | _ => .error .typeError

/-- src/wax/encode.py:195-196 `decode` of `datetime64_encoder`, in nanoseconds. -/
def datetimesDecode (codes : List (BitVec 32 × BitVec 32)) : Except EncErr (LabelArr Int) :=
  if codes = [] then .error .value else .ok ⟨[codes.length], codes.map decodeInt64⟩

section Labels
variable {α : Type} [LinearOrder α]

/-- `LabelEncoder().fit(values).classes_` (src/wax/encode.py:175): the sorted distinct labels. -/
def classes (values : List α) : List α := values.dedup.insertionSort (· ≤ ·)

/-- `LabelEncoder.transform` (src/wax/encode.py:180): index among the classes, ValueError on an unseen label. -/
def leTransform (cs : List α) (v : List α) : Except EncErr (List Nat) :=
  v.mapM fun x => if x ∈ cs then .ok (cs.idxOf x) else .error .value

/-- `LabelEncoder.inverse_transform` (src/wax/encode.py:183): ValueError on a code out of range. -/
def leInverse (cs : List α) (codes : List Nat) : Except EncErr (List α) :=
  codes.mapM fun k => match cs[k]? with
    | some x => .ok x
    | none => .error .value

/-- src/wax/encode.py:177-180, `encode` of `string_encoder(values)`: flattened codes. -/
def stringEncode (values : LabelArr α) (v : LabelArr α) : Except EncErr (List Nat) :=
  if 1 < values.shape.length then leTransform (classes values.flat) v.flat
  else if v.shape.length = 1 then leTransform (classes values.flat) v.flat
  else .error .value

/-- src/wax/encode.py:182-186, `decode` of `string_encoder(values)`: reshaped to the shape of `values` when it has more
than one dimension (ValueError if the number of codes differs). -/
def stringDecode (values : LabelArr α) (codes : List Nat) : Except EncErr (LabelArr α) := do
  let v ← leInverse (classes values.flat) codes
  if 1 < values.shape.length then
    if v.length = values.shape.prod then .ok ⟨values.shape, v⟩ else .error .value
  else .ok ⟨[v.length], v⟩

end Labels

/-- An `Encoder` pair (src/wax/encode.py:111-113) on values of type `V`. -/
structure Encoder (V : Type) where
  encode : V → Except EncErr V
  decode : V → Except EncErr V

/-- src/wax/encode.py:232-241 `encode_dataset`; dictionaries are association lists in insertion order. -/
def encodeDataset {V : Type} (encoders : List (String × Encoder V)) (ds : List (String × V)) :
    Except EncErr (List (String × V)) :=
  ds.mapM fun dv => match encoders.lookup dv.1 with
    | some e => (e.encode dv.2).map fun v => (dv.1, v)
    | none => .ok dv

/-- src/wax/encode.py:244-253 `decode_dataset`. -/
def decodeDataset {V : Type} (encoders : List (String × Encoder V)) (ds : List (String × V)) :
    Except EncErr (List (String × V)) :=
  ds.mapM fun dv => match encoders.lookup dv.1 with
    | some e => (e.decode dv.2).map fun v => (dv.1, v)
    | none => .ok dv

end Verif.Model
