import Verif.Base.Fl

/-! # Specification: floating point rounding

What is assumed of the rounding of a floating point format, in the usual way of numerical analysis: `u` is the unit roundoff
(`2^-24` for float32), `τ` the smallest normal number (`2^-126`), `Ω` the largest finite one. -/

namespace Verif.Spec
variable {K : Type} [Field K] [LinearOrder K]

/-- Rounding gives a number or an infinity, is monotone and leaves 0 and 1 alone. -/
structure IsMonotoneRounding (R : K → Fl K) : Prop where
  number : ∀ x, R x ≠ .nan
  mono : ∀ x y, x ≤ y → Fl.lt (R y) (R x) = false
  zero : R 0 = .fin 0
  one : R 1 = .fin 1

/-- Moreover a number that does not overflow is rounded to a number at a relative distance of at most `u` (with `τ` in place of
smaller numbers, which are rounded to a fixed grid). -/
structure IsRounding (R : K → Fl K) (u τ Ω : K) : Prop extends IsMonotoneRounding R where
  near : ∀ x, |x| ≤ Ω → ∃ y, R x = .fin y ∧ |y - x| ≤ u * max |x| τ

/-- Moreover rounded numbers are left alone, and there is none between `1 - u` and 1. -/
structure IsFloat (R : K → Fl K) (u τ Ω : K) : Prop extends IsRounding R u τ Ω where
  idem : ∀ x y, R x = .fin y → R y = .fin y
  gap : ∀ x y, R x = .fin y → y < 1 → y ≤ 1 - u

/-- A sum computed by rounded additions in any order and association (sequential, pairwise, by lanes padded with zeros, ...). -/
inductive FloatSum (plus : Fl K → Fl K → Fl K) : List (Fl K) → Fl K → Prop
  | zero : FloatSum plus [] (.fin 0)
  | leaf (x : Fl K) : FloatSum plus [x] x
  | node {l r : List (Fl K)} {a b : Fl K} : FloatSum plus l a → FloatSum plus r b → FloatSum plus (l ++ r) (plus a b)
  | reorder {l l' : List (Fl K)} {a : Fl K} : l.Perm l' → FloatSum plus l a → FloatSum plus l' a

end Verif.Spec
