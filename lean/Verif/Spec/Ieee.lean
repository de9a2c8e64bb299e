import Verif.Base.Fl
import Mathlib.Data.Int.Log
import Mathlib.Data.Rat.Floor

/-! # Specification: the binary floating point formats of IEEE 754 -/

namespace Verif.Spec

/-- The nearest integer, the even one of two equally near. -/
def nearestEven (x : ℚ) : ℤ :=
  if x - ⌊x⌋ < 1 / 2 then ⌊x⌋
  else if 1 / 2 < x - ⌊x⌋ then ⌊x⌋ + 1
  else if ⌊x⌋ % 2 = 0 then ⌊x⌋ else ⌊x⌋ + 1

/-- A binary format: `prec` significant bits, exponents from `emin` (below, numbers are subnormal) to `emax`. -/
structure Format where
  prec : Nat
  emin : Int
  emax : Int

/-- An ordinary format: at least one bit, and 1 is a normal number. -/
structure Format.Ok (f : Format) : Prop where
  prec : 1 ≤ f.prec
  emin : f.emin ≤ 0
  emax : 0 ≤ f.emax

/-- The exponent of the last bit of the floats around `x`. -/
def Format.quantum (f : Format) (x : ℚ) : Int := max f.emin (Int.log 2 |x|) - f.prec + 1

/-- Rounding to nearest, ties to even, with an unbounded range of large exponents. -/
def Format.nearest (f : Format) (x : ℚ) : ℚ := nearestEven (x / 2 ^ f.quantum x) * 2 ^ f.quantum x

/-- Rounding to nearest, ties to even; too large a result overflows to an infinity. -/
def Format.round (f : Format) (x : ℚ) : Fl ℚ :=
  if f.nearest x ≥ 2 ^ (f.emax + 1) then .pinf
  else if f.nearest x ≤ -2 ^ (f.emax + 1) then .ninf
  else .fin (f.nearest x)

/-- The largest finite number. -/
def Format.largest (f : Format) : ℚ := (2 ^ f.prec - 1) * 2 ^ (f.emax - f.prec + 1)

/-- float32. -/
def float32 : Format := ⟨24, -126, 127⟩
/-- float64. -/
def float64 : Format := ⟨53, -1022, 1023⟩
/-- float16. -/
def float16 : Format := ⟨11, -14, 15⟩
/-- bfloat16. -/
def bfloat16 : Format := ⟨8, -126, 127⟩

end Verif.Spec
