import Verif.Spec.Ieee
import Verif.Spec.Rounding
import Mathlib.Tactic.Positivity
import Mathlib.Tactic.NormNum
import Mathlib.Tactic.Zify

/-! # The IEEE 754 formats are roundings -/

set_option linter.unusedVariables false

namespace Verif.Props
open Spec

theorem nearestEven_near (x : ℚ) : |(nearestEven x : ℚ) - x| ≤ 1 / 2 := by
  have h1 := Int.floor_le x
  have h2 := Int.lt_floor_add_one x
  unfold nearestEven
  split_ifs with a b c
  · rw [abs_le]; constructor <;> linarith
  · push_cast; rw [abs_le]; constructor <;> linarith
  · rw [abs_le]; constructor <;> linarith
  · push_cast; rw [abs_le]; constructor <;> linarith

theorem nearestEven_floor (x : ℚ) : ⌊x⌋ ≤ nearestEven x ∧ nearestEven x ≤ ⌊x⌋ + 1 := by
  unfold nearestEven
  split_ifs <;> constructor <;> omega

theorem nearestEven_int (n : ℤ) : nearestEven n = n := by
  unfold nearestEven
  rw [Int.floor_intCast, sub_self, if_pos (by norm_num)]

theorem nearestEven_mono {x y : ℚ} (h : x ≤ y) : nearestEven x ≤ nearestEven y := by
  have hf := Int.floor_mono h
  rcases hf.lt_or_eq with hlt | heq
  · have a := (nearestEven_floor x).2
    have b := (nearestEven_floor y).1
    omega
  · unfold nearestEven
    rw [← heq]
    split_ifs <;> first | omega | (exfalso; linarith)

theorem nearestEven_le {x : ℚ} {n : ℤ} (h : x ≤ n) : nearestEven x ≤ n := by
  have := nearestEven_mono h; rwa [nearestEven_int] at this

theorem le_nearestEven {x : ℚ} {n : ℤ} (h : (n : ℚ) ≤ x) : n ≤ nearestEven x := by
  have := nearestEven_mono h; rwa [nearestEven_int] at this

variable (f : Format)

theorem two_zpow_pos (n : ℤ) : (0 : ℚ) < 2 ^ n := zpow_pos (by norm_num) n

theorem quantum_pos (x : ℚ) : (0 : ℚ) < 2 ^ f.quantum x := two_zpow_pos _

theorem nearest_le {x b : ℚ} {n : ℤ} (hb : b = n * 2 ^ f.quantum x) (h : x ≤ b) : f.nearest x ≤ b := by
  have hq := quantum_pos f x
  rw [hb] at h ⊢
  unfold Format.nearest
  refine mul_le_mul_of_nonneg_right ?_ hq.le
  exact_mod_cast nearestEven_le (by rw [div_le_iff₀ hq]; exact h)

theorem le_nearest {x b : ℚ} {n : ℤ} (hb : b = n * 2 ^ f.quantum x) (h : b ≤ x) : b ≤ f.nearest x := by
  have hq := quantum_pos f x
  rw [hb] at h ⊢
  unfold Format.nearest
  refine mul_le_mul_of_nonneg_right ?_ hq.le
  exact_mod_cast le_nearestEven (by rw [le_div_iff₀ hq]; exact h)

theorem pow_multiple (a b : ℤ) (h : a ≤ b) : ∃ n : ℤ, (2 : ℚ) ^ b = n * 2 ^ a := by
  refine ⟨2 ^ (b - a).toNat, ?_⟩
  have : b = ((b - a).toNat : ℤ) + a := by omega
  conv_lhs => rw [this, zpow_add₀ (by norm_num), zpow_natCast]
  push_cast; rfl

theorem nearest_zero : f.nearest 0 = 0 := by
  simp [Format.nearest, show nearestEven 0 = 0 from by simpa using nearestEven_int 0]

theorem nearest_nonneg {x : ℚ} (h : 0 ≤ x) : 0 ≤ f.nearest x := le_nearest f (n := 0) (by simp) h
theorem nearest_nonpos {x : ℚ} (h : x ≤ 0) : f.nearest x ≤ 0 := nearest_le f (n := 0) (by simp) h

theorem lt_pow_log {x : ℚ} (hx : x ≠ 0) : |x| < 2 ^ (Int.log 2 |x| + 1) := by
  have := Int.lt_zpow_succ_log_self (b := 2) (by norm_num) |x|
  exact_mod_cast this

theorem pow_log_le {x : ℚ} (hx : x ≠ 0) : (2 : ℚ) ^ Int.log 2 |x| ≤ |x| := by
  have := Int.zpow_log_le_self (b := 2) (by norm_num) (abs_pos.mpr hx)
  exact_mod_cast this

/-- Between two numbers with different quanta there is a power of two. -/
theorem between {x y : ℚ} (hx : x ≠ 0) (hq : f.quantum x < f.quantum y) (hp : 1 ≤ f.prec) (hy : y ≠ 0) :
    |x| ≤ 2 ^ Int.log 2 |y| ∧ (2 : ℚ) ^ Int.log 2 |y| ≤ |y| ∧
      (∃ n : ℤ, (2 : ℚ) ^ Int.log 2 |y| = n * 2 ^ f.quantum x) ∧ ∃ n : ℤ, (2 : ℚ) ^ Int.log 2 |y| = n * 2 ^ f.quantum y := by
  unfold Format.quantum at hq
  have h1 : Int.log 2 |x| < Int.log 2 |y| := by
    rcases le_total (Int.log 2 |y|) (Int.log 2 |x|) with h | h
    · have := max_le_max_left f.emin h; omega
    · rcases h.lt_or_eq with h | h
      · exact h
      · rw [h] at hq; omega
  have h2 : f.emin ≤ Int.log 2 |y| := by
    by_contra hc
    have e1 := max_eq_left (by omega : Int.log 2 |y| ≤ f.emin)
    have e2 := max_eq_left (by omega : Int.log 2 |x| ≤ f.emin)
    rw [e1, e2] at hq; omega
  refine ⟨?_, pow_log_le hy, pow_multiple _ _ ?_, pow_multiple _ _ ?_⟩
  · exact (lt_pow_log hx).le.trans (zpow_le_zpow_right₀ (by norm_num) (by omega))
  · unfold Format.quantum; omega
  · unfold Format.quantum; omega

theorem nearest_mono (hp : 1 ≤ f.prec) {x y : ℚ} (h : x ≤ y) : f.nearest x ≤ f.nearest y := by
  by_cases hx : x ≤ 0
  · by_cases hy : 0 ≤ y
    · exact (nearest_nonpos f hx).trans (nearest_nonneg f hy)
    · have hy' : y < 0 := not_le.mp hy
      have hx' : x < 0 := lt_of_le_of_lt h hy'
      have hl : Int.log 2 |y| ≤ Int.log 2 |x| := Int.log_mono_right (abs_pos.mpr hy'.ne) (by rw [abs_of_neg hx', abs_of_neg hy']; linarith)
      have hq : f.quantum y ≤ f.quantum x := by unfold Format.quantum; have := max_le_max_left f.emin hl; omega
      rcases hq.lt_or_eq with hq | hq
      · obtain ⟨b1, b2, ⟨n, bn⟩, m, bm⟩ := between f hy'.ne hq hp hx'.ne
        rw [abs_of_neg hy'] at b1
        rw [abs_of_neg hx'] at b2
        rw [abs_of_neg hx'] at b1 bn bm
        refine (nearest_le f (n := -m) (b := -2 ^ Int.log 2 (-x)) (by rw [bm]; push_cast; ring) (by linarith)).trans
          (le_nearest f (n := -n) (by rw [bn]; push_cast; ring) (by linarith))
      · unfold Format.nearest
        rw [hq]
        have hqp := quantum_pos f x
        refine mul_le_mul_of_nonneg_right ?_ hqp.le
        exact_mod_cast nearestEven_mono (div_le_div_of_nonneg_right h hqp.le)
  · have hx' : 0 < x := not_le.mp hx
    have hy' : 0 < y := lt_of_lt_of_le hx' h
    have hl : Int.log 2 |x| ≤ Int.log 2 |y| := Int.log_mono_right (abs_pos.mpr hx'.ne') (by rw [abs_of_pos hx', abs_of_pos hy']; exact h)
    have hq : f.quantum x ≤ f.quantum y := by unfold Format.quantum; have := max_le_max_left f.emin hl; omega
    rcases hq.lt_or_eq with hq | hq
    · obtain ⟨b1, b2, ⟨n, bn⟩, m, bm⟩ := between f hx'.ne' hq hp hy'.ne'
      rw [abs_of_pos hx'] at b1
      exact (nearest_le f bn b1).trans (le_nearest f bm (b2.trans (abs_of_pos hy').le))
    · unfold Format.nearest
      rw [← hq]
      have hqp := quantum_pos f x
      refine mul_le_mul_of_nonneg_right ?_ hqp.le
      exact_mod_cast nearestEven_mono (div_le_div_of_nonneg_right h hqp.le)

theorem nearest_near (x : ℚ) : |f.nearest x - x| ≤ (1 / 2 ^ f.prec) * max |x| (2 ^ f.emin) := by
  have hq := quantum_pos f x
  have h1 : |f.nearest x - x| ≤ 1 / 2 * 2 ^ f.quantum x := by
    have : f.nearest x - x = (nearestEven (x / 2 ^ f.quantum x) - x / 2 ^ f.quantum x) * 2 ^ f.quantum x := by
      rw [sub_mul, div_mul_cancel₀ _ hq.ne']; rfl
    rw [this, abs_mul, abs_of_pos hq]
    exact mul_le_mul_of_nonneg_right (nearestEven_near _) hq.le
  have h2 : (1 / 2 : ℚ) * 2 ^ f.quantum x = 1 / 2 ^ f.prec * 2 ^ max f.emin (Int.log 2 |x|) := by
    unfold Format.quantum
    rw [zpow_add₀ (by norm_num), zpow_sub₀ (by norm_num), zpow_natCast, zpow_one]
    field_simp
  rw [h2] at h1
  by_cases hx : x = 0
  · subst hx; rw [nearest_zero]; simp
  refine h1.trans (mul_le_mul_of_nonneg_left ?_ (by positivity))
  rcases le_total f.emin (Int.log 2 |x|) with h | h
  · rw [max_eq_right h]; exact (pow_log_le hx).trans (le_max_left _ _)
  · rw [max_eq_left h]; exact le_max_right _ _

theorem largest_lt (f : Format) : f.largest < 2 ^ (f.emax + 1) := by
  unfold Format.largest
  have : (2 : ℚ) ^ (f.emax + 1) = 2 ^ f.prec * 2 ^ (f.emax - f.prec + 1) := by
    rw [← zpow_natCast, ← zpow_add₀ (by norm_num)]; congr 1; ring
  rw [this]
  have h := two_zpow_pos (f.emax - f.prec + 1)
  linarith

theorem largest_multiple (f : Format) (hf : f.Ok) (x : ℚ) (hx : |x| ≤ f.largest) : ∃ n : ℤ, f.largest = n * 2 ^ f.quantum x := by
  have hq : f.quantum x ≤ f.emax - f.prec + 1 := by
    unfold Format.quantum
    have : Int.log 2 |x| ≤ f.emax := by
      by_cases h0 : x = 0
      · subst h0; simpa using hf.emax
      · have := (Int.lt_zpow_iff_log_lt (b := 2) (by norm_num) (abs_pos.mpr h0) (x := f.emax + 1)).mp
          (by exact_mod_cast lt_of_le_of_lt hx (largest_lt f))
        omega
    have h2 := hf.emin; have h3 := hf.emax
    have := max_le (by omega : f.emin ≤ f.emax) this
    omega
  obtain ⟨n, hn⟩ := pow_multiple _ _ hq
  refine ⟨(2 ^ f.prec - 1) * n, ?_⟩
  unfold Format.largest
  rw [hn]; push_cast; ring

theorem round_of_le (hf : f.Ok) {x : ℚ} (hx : |x| ≤ f.largest) : f.round x = .fin (f.nearest x) := by
  obtain ⟨n, hn⟩ := largest_multiple f hf x hx
  obtain ⟨x1, x2⟩ := abs_le.mp hx
  have h1 := nearest_le f hn x2
  have h2 := le_nearest f (n := -n) (b := -f.largest) (by rw [hn]; push_cast; ring) x1
  have := largest_lt f
  unfold Format.round
  rw [if_neg (by linarith), if_neg (by linarith)]

theorem one_le_largest (hf : f.Ok) : 1 ≤ f.largest := by
  unfold Format.largest
  have h1 : (2 : ℚ) ^ f.prec = 2 * 2 ^ (f.prec - 1) := by
    rw [← pow_succ']; congr 1; have := hf.prec; omega
  have h2 : (1 : ℚ) ≤ 2 ^ (f.prec - 1) := one_le_pow₀ (by norm_num)
  have h3 : (2 : ℚ) ^ (-((f.prec - 1 : ℕ) : ℤ)) ≤ 2 ^ (f.emax - f.prec + 1) :=
    zpow_le_zpow_right₀ (by norm_num) (by have := hf.prec; have := hf.emax; omega)
  have h4 : (2 : ℚ) ^ (f.prec - 1) * 2 ^ (-((f.prec - 1 : ℕ) : ℤ)) = 1 := by
    rw [zpow_neg, zpow_natCast]; exact mul_inv_cancel₀ (by positivity)
  calc (1 : ℚ) = 2 ^ (f.prec - 1) * 2 ^ (-((f.prec - 1 : ℕ) : ℤ)) := h4.symm
    _ ≤ (2 ^ f.prec - 1) * 2 ^ (f.emax - f.prec + 1) := mul_le_mul (by linarith) h3 (two_zpow_pos _).le (by linarith)

theorem nearest_one (hf : f.Ok) : f.nearest 1 = 1 := by
  have h1 := hf.prec
  have h2 := hf.emin
  have : f.quantum 1 ≤ 0 := by
    unfold Format.quantum
    rw [abs_one, Int.log_one_right, max_eq_right h2]; omega
  obtain ⟨n, hn⟩ := pow_multiple _ _ this
  rw [zpow_zero] at hn
  exact le_antisymm (nearest_le f hn (le_refl _)) (le_nearest f hn (le_refl _))

theorem round_monotone (hf : f.Ok) : IsMonotoneRounding f.round where
  number x := by unfold Format.round; split_ifs <;> simp
  mono x y h := by
    have hm := nearest_mono f hf.prec h
    have hp := two_zpow_pos (f.emax + 1)
    unfold Format.round
    split_ifs <;> simp [Fl.lt] <;> first | exact hm | (exfalso; linarith) | skip
  zero := by
    have := round_of_le f hf (x := 0) (by simpa using (by linarith [one_le_largest f hf] : 0 ≤ f.largest))
    rw [this, nearest_zero]
  one := by
    have := round_of_le f hf (x := 1) (by simpa using one_le_largest f hf)
    rw [this, nearest_one f hf]

/-- **C178**: round-to-nearest, ties-to-even arithmetic in any IEEE 754 binary format meets the assumptions of the rounding theorems,
with unit roundoff `2^-prec`, smallest normal number `2^emin` and the largest finite number of the format. -/
theorem C178_ieee (hf : f.Ok) : IsRounding f.round (1 / 2 ^ f.prec) (2 ^ f.emin) f.largest where
  toIsMonotoneRounding := round_monotone f hf
  near x hx := ⟨_, round_of_le f hf hx, nearest_near f x⟩

theorem float32_ok : float32.Ok := ⟨by decide, by decide, by decide⟩
theorem float64_ok : float64.Ok := ⟨by decide, by decide, by decide⟩

/-- What float32 computes: 1/3, a tie, a subnormal number, an overflow. -/
example : float32.round (1 / 3) = .fin (11184811 / 33554432) ∧ float32.round 16777217 = .fin 16777216 ∧
    float32.round 16777219 = .fin 16777220 ∧ float32.round (1 / 2 ^ 150) = .fin 0 ∧ float32.round (3 / 2 ^ 150) = .fin (1 / 2 ^ 148) ∧
    float32.round (2 ^ 128) = .pinf ∧ float32.round (2 ^ 128 - 1) = .pinf ∧ float32.round float32.largest = .fin (2 ^ 128 - 2 ^ 104) := by
  decide +kernel

end Verif.Props
