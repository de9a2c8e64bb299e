import Mathlib.Algebra.Order.Field.Basic
import Mathlib.Algebra.BigOperators.Group.List.Basic
import Mathlib.Tactic.Ring
import Mathlib.Tactic.Linarith

/-!
# Numbers with NaN and infinities

The arrays of wax-ml hold IEEE floats.  `Fl K` keeps the float *classes* (NaN, -inf, finite, +inf)
exactly and replaces the finite floats by an arbitrary linearly ordered field `K`.

Simplifications (trusted base): no rounding, no overflow of finite values, a single zero
(treated as `+0` when it is a divisor).
-/

set_option linter.unusedSectionVars false
set_option linter.unnecessarySeqFocus false

namespace Verif

/-- A float: NaN, an infinity, or a finite number of the field `K`. -/
inductive Fl (K : Type) where
  | nan : Fl K
  | ninf : Fl K
  | fin (k : K) : Fl K
  | pinf : Fl K
deriving DecidableEq, Repr

namespace Fl

variable {K : Type}

/-- `jnp.isnan`. -/
def isNan : Fl K → Bool
  | nan => true
  | _ => false

/-- `jnp.isfinite`. -/
def isFin : Fl K → Bool
  | fin _ => true
  | _ => false

@[simp] theorem isNan_nan : (nan : Fl K).isNan = true := rfl
@[simp] theorem isNan_fin (k : K) : (fin k).isNan = false := rfl
@[simp] theorem isNan_pinf : (pinf : Fl K).isNan = false := rfl
@[simp] theorem isNan_ninf : (ninf : Fl K).isNan = false := rfl
@[simp] theorem isFin_nan : (nan : Fl K).isFin = false := rfl
@[simp] theorem isFin_fin (k : K) : (fin k).isFin = true := rfl
@[simp] theorem isFin_pinf : (pinf : Fl K).isFin = false := rfl
@[simp] theorem isFin_ninf : (ninf : Fl K).isFin = false := rfl

theorem isNan_iff (x : Fl K) : x.isNan = true ↔ x = nan := by cases x <;> simp
theorem isNan_false_iff (x : Fl K) : x.isNan = false ↔ x ≠ nan := by cases x <;> simp
theorem isFin_iff (x : Fl K) : x.isFin = true ↔ ∃ k, x = fin k := by cases x <;> simp

section Arith
variable [Field K] [LinearOrder K]

/-- Unary minus. -/
def neg : Fl K → Fl K
  | nan => nan
  | ninf => pinf
  | fin a => fin (-a)
  | pinf => ninf

/-- IEEE addition on the float classes. -/
def add : Fl K → Fl K → Fl K
  | nan, _ => nan
  | _, nan => nan
  | fin a, fin b => fin (a + b)
  | fin _, pinf => pinf
  | fin _, ninf => ninf
  | pinf, fin _ => pinf
  | ninf, fin _ => ninf
  | pinf, pinf => pinf
  | ninf, ninf => ninf
  | pinf, ninf => nan
  | ninf, pinf => nan

/-- An infinity carrying the sign of a (finite) factor; `inf * 0 = nan`. -/
def infSign (k : K) : Fl K := if k = 0 then nan else if 0 < k then pinf else ninf

/-- IEEE multiplication on the float classes. -/
def mul : Fl K → Fl K → Fl K
  | nan, _ => nan
  | _, nan => nan
  | fin a, fin b => fin (a * b)
  | fin a, pinf => infSign a
  | fin a, ninf => neg (infSign a)
  | pinf, fin b => infSign b
  | ninf, fin b => neg (infSign b)
  | pinf, pinf => pinf
  | ninf, ninf => pinf
  | pinf, ninf => ninf
  | ninf, pinf => ninf

/-- IEEE division on the float classes; a zero divisor is `+0`, so `a/0` is NaN for `a = 0`
and an infinity of the sign of `a` otherwise. -/
def div : Fl K → Fl K → Fl K
  | nan, _ => nan
  | _, nan => nan
  | fin a, fin b => if b = 0 then infSign a else fin (a / b)
  | fin _, pinf => fin 0
  | fin _, ninf => fin 0
  | pinf, fin b => if b < 0 then ninf else pinf
  | ninf, fin b => if b < 0 then pinf else ninf
  | pinf, pinf => nan
  | ninf, ninf => nan
  | pinf, ninf => nan
  | ninf, pinf => nan

instance : Neg (Fl K) := ⟨neg⟩
instance : Add (Fl K) := ⟨add⟩
instance : Sub (Fl K) := ⟨fun a b => add a (neg b)⟩
instance : Mul (Fl K) := ⟨mul⟩
instance : Div (Fl K) := ⟨div⟩
instance : Zero (Fl K) := ⟨fin 0⟩
instance : One (Fl K) := ⟨fin 1⟩

/-- IEEE `<`: false as soon as one side is NaN. -/
def lt : Fl K → Fl K → Bool
  | fin a, fin b => decide (a < b)
  | fin _, pinf => true
  | ninf, fin _ => true
  | ninf, pinf => true
  | _, _ => false

/-- IEEE `==`: NaN differs from everything, itself included. -/
def feq : Fl K → Fl K → Bool
  | fin a, fin b => decide (a = b)
  | pinf, pinf => true
  | ninf, ninf => true
  | _, _ => false

/-- `jnp.maximum`: NaN if either argument is NaN. -/
def maximum (a b : Fl K) : Fl K :=
  if a.isNan || b.isNan then nan else if lt a b then b else a

/-- `jnp.minimum`: NaN if either argument is NaN. -/
def minimum (a b : Fl K) : Fl K :=
  if a.isNan || b.isNan then nan else if lt b a then b else a

/-- `jnp.nan_to_num(x, nan=n, posinf=p, neginf=m)`. -/
def nanToNum (n p m : Fl K) : Fl K → Fl K
  | nan => n
  | pinf => p
  | ninf => m
  | fin a => fin a

@[simp] theorem zero_def : (0 : Fl K) = fin 0 := rfl
@[simp] theorem one_def : (1 : Fl K) = fin 1 := rfl
@[simp] theorem neg_fin (a : K) : -(fin a) = fin (-a) := rfl
@[simp] theorem neg_nan : -(nan : Fl K) = nan := rfl
@[simp] theorem fin_add (a b : K) : fin a + fin b = fin (a + b) := rfl
@[simp] theorem fin_sub (a b : K) : fin a - fin b = fin (a - b) := by
  show fin (a + -b) = _; rw [sub_eq_add_neg]
@[simp] theorem fin_mul (a b : K) : fin a * fin b = fin (a * b) := rfl
theorem fin_div (a b : K) : fin a / fin b = if b = 0 then infSign a else fin (a / b) := rfl
@[simp] theorem fin_div_of_ne (a : K) {b : K} (h : b ≠ 0) : fin a / fin b = fin (a / b) := by
  rw [fin_div, if_neg h]
theorem zero_div_zero : (fin 0 : Fl K) / fin 0 = nan := by simp [fin_div, infSign]

@[simp] theorem nan_add (x : Fl K) : nan + x = nan := by cases x <;> rfl
@[simp] theorem add_nan (x : Fl K) : x + nan = nan := by cases x <;> rfl
@[simp] theorem nan_sub (x : Fl K) : nan - x = nan := by cases x <;> rfl
@[simp] theorem sub_nan (x : Fl K) : x - nan = nan := by cases x <;> rfl
@[simp] theorem nan_mul (x : Fl K) : nan * x = nan := by cases x <;> rfl
@[simp] theorem mul_nan (x : Fl K) : x * nan = nan := by cases x <;> rfl
@[simp] theorem nan_div (x : Fl K) : nan / x = nan := by cases x <;> rfl
@[simp] theorem div_nan (x : Fl K) : x / nan = nan := by cases x <;> rfl

@[simp] theorem lt_nan_left (x : Fl K) : lt nan x = false := by cases x <;> rfl
@[simp] theorem lt_nan_right (x : Fl K) : lt x nan = false := by cases x <;> rfl
@[simp] theorem lt_fin (a b : K) : lt (fin a) (fin b) = decide (a < b) := rfl
@[simp] theorem feq_nan_left (x : Fl K) : feq nan x = false := by cases x <;> rfl
@[simp] theorem feq_nan_right (x : Fl K) : feq x nan = false := by cases x <;> rfl
@[simp] theorem feq_fin (a b : K) : feq (fin a) (fin b) = decide (a = b) := rfl

theorem feq_iff (x y : Fl K) : feq x y = true ↔ x = y ∧ x ≠ nan := by
  cases x <;> cases y <;> simp [feq]

@[simp] theorem nanToNum_nan (n p m : Fl K) : nanToNum n p m nan = n := rfl
@[simp] theorem nanToNum_fin (n p m : Fl K) (a : K) : nanToNum n p m (fin a) = fin a := rfl

theorem add_comm' (x y : Fl K) : x + y = y + x := by
  cases x <;> cases y <;> simp only [HAdd.hAdd, Add.add, add] <;> congr 1
  exact add_comm _ _

theorem mul_comm' (x y : Fl K) : x * y = y * x := by
  cases x <;> cases y <;> simp only [HMul.hMul, Mul.mul, mul] <;> congr 1
  exact mul_comm _ _

theorem fin_zero_add (x : Fl K) : fin 0 + x = x := by
  cases x with
  | fin a => simp
  | _ => rfl

@[simp] theorem sum_map_fin (l : List K) : (l.map fin).sum = fin l.sum := by
  induction l with
  | nil => rfl
  | cons a l ih => simp [ih]

end Arith
end Fl
end Verif
