import Verif.Props.RoundedEWMA
import Verif.Props.Ieee

/-! # Rounding errors of the EWMA with missing values, and in float32 -/

set_option linter.unusedSectionVars false
set_option linter.unusedSimpArgs false
set_option linter.unusedVariables false

namespace Verif.Props
open Model Spec Lemmas
open Model.Rounded (rnd)
variable {K : Type} [Field K] [LinearOrder K] [IsStrictOrderedRing K]
variable {R : K → Fl K} {u τ Ω : K}

/-- How the computed weight approximates the exact one when missing values make it decay. -/
def WtNan (c : EWMACfg K) (u w w' : K) : Prop :=
  if c.adjust.truthy then al c * w ≤ 1 ∧ 0 ≤ w' ∧ |w' - w| ≤ 8 * u * (1 + c.com) ^ 2
  else w ≤ 1 ∧ 0 ≤ w' ∧ |w' - w| ≤ 6 * u * (1 + c.com)

/-- One computed decay of a weight. -/
theorem decay_near (h : IsRounding R u τ Ω) (c : EWMACfg K) (hc : 0 ≤ c.com) (hu0 : 0 ≤ u) (f : K) (f0 : 0 ≤ f) (f1 : f ≤ 1)
    (df : |f - (1 - al c)| ≤ 4 * u) (w w' D M : K) (hw0 : 0 ≤ w) (hw0' : 0 ≤ w') (hM : w' ≤ M) (hMt : τ ≤ M) (hMO : M ≤ Ω)
    (hd : |w' - w| ≤ D) :
    ∃ p, Rounded.mul R (.fin w') (.fin f) = .fin p ∧ 0 ≤ p ∧ |p - w * (1 - al c)| ≤ (1 - al c) * D + 5 * (u * M) := by
  have ha1 := al_le_one c hc
  have hwf0 : 0 ≤ w' * f := by positivity
  have hwf : w' * f ≤ M := by nlinarith
  obtain ⟨p, hp, ep⟩ := r_mul h w' f (by rw [abs_of_nonneg hwf0]; linarith)
  have ep' := le_of_max hu0 ep (by rw [abs_of_nonneg hwf0]; exact hwf : |w' * f| ≤ M) hMt
  have p0 : 0 ≤ p := nonneg_fin h.toIsMonotoneRounding hwf0 hp
  have fl : 0 ≤ 1 - al c := by linarith
  refine ⟨p, hp, p0, ?_⟩
  have : p - w * (1 - al c) = (p - w' * f) + w' * (f - (1 - al c)) + (1 - al c) * (w' - w) := by ring
  rw [this]
  have k1 : |w' * (f - (1 - al c))| ≤ M * (4 * u) := by
    rw [abs_mul, abs_of_nonneg hw0']; exact mul_le_mul hM df (abs_nonneg _) (hw0'.trans hM)
  have k2 : |(1 - al c) * (w' - w)| ≤ (1 - al c) * D := by
    rw [abs_mul, abs_of_nonneg fl]; exact mul_le_mul_of_nonneg_left hd fl
  have k3 := abs_add_le (p - w' * f + w' * (f - (1 - al c))) ((1 - al c) * (w' - w))
  have k4 := abs_add_le (p - w' * f) (w' * (f - (1 - al c)))
  linarith

set_option maxHeartbeats 1000000 in
theorem wtNan_sim (h : IsRounding R u τ Ω) (c : EWMACfg K) (B : K) (hf : FormatFits u τ Ω c.com B) (hadj : c.adjust ≠ .linear)
    (hig : c.ignoreNa = false) :
    WtSim R c (WtNan c u) (20 * u * (1 + c.com) ^ 2) True := by
  have hc := hf.com_nonneg
  have hu0 := hf.u_nonneg
  obtain ⟨hu, ht2, ht⟩ := alpha_bounds hf
  have ha0 := al_pos c hc
  have ha1 := al_le_one c hc
  have f1 := hf.precision
  have f4 := hf.overflow
  have e1 : al c * (1 + c.com) = 1 := by unfold al; field_simp
  obtain ⟨a, f, hal, hfe, da, f0, f1', df⟩ := alpha_near h c hc hu0 hu ht (by linarith)
  have old_eq : ∀ b (w' : Fl K), Rounded.oldWt R c b false w' = Rounded.mul R w' (.fin f) := by
    intro b w'
    unfold Rounded.oldWt Rounded.factor
    simp only [hadj, if_false, hfe, hig, Bool.false_eq_true]
  have aw_eq : ∀ b (w : K), aWt c b w = w * (1 - al c) := by
    intro b w
    simp [aWt, hadj, hig]
  set κ := 1 + c.com with hκ
  have κ1 : 1 ≤ κ := by linarith
  have uκ : 64 * u * κ ≤ 1 := f1
  have uκ0 : 0 ≤ u * κ := by positivity
  have uκ2 : 8 * u * κ ^ 2 ≤ 1 / 8 * κ := by
    have := mul_le_mul_of_nonneg_right uκ (by linarith : 0 ≤ κ); linarith
  have e2 : al c * (8 * u * κ ^ 2) = 8 * u * κ := by linear_combination 8 * u * κ * e1
  have e3 : al c * (6 * u * κ) = 6 * u := by linear_combination 6 * u * e1
  cases htr : c.adjust.truthy with
  | true =>
    have enw : nw c = 1 := by simp [nw, htr]
    have hnew : Rounded.newWt R c = .fin 1 := by simp [Rounded.newWt, htr]
    have dec : ∀ w w', 0 ≤ w → WtNan c u w w' → ∃ p, Rounded.mul R (.fin w') (.fin f) = .fin p ∧ 0 ≤ p ∧
        |p - w * (1 - al c)| ≤ 8 * u * κ ^ 2 - 2 * (u * κ) := by
      intro w w' hw0 hw
      simp only [WtNan, htr, if_true] at hw
      obtain ⟨w1, w2, w3⟩ := hw
      have hwκ : w ≤ κ := by nlinarith
      have hw'κ : w' ≤ 9 / 8 * κ := by have := (abs_le.mp w3).2; linarith
      obtain ⟨p, hp, p0, dp⟩ := decay_near h c hc hu0 f f0 f1' df w w' _ (9 / 8 * κ) hw0 w2 hw'κ (by linarith) (by linarith) w3
      exact ⟨p, hp, p0, dp.trans (by linarith)⟩
    refine ⟨?_, fun w w' hw0 hw => ?_, fun _ w w' hw0 hw => ?_⟩
    · simp only [WtNan, htr, if_true]
      exact ⟨by linarith, zero_le_one, by rw [sub_self, abs_zero]; positivity⟩
    · obtain ⟨p, hp, p0, dp⟩ := dec w w' hw0 hw
      simp only [WtNan, htr, if_true] at hw ⊢
      obtain ⟨w1, w2, w3⟩ := hw
      have hq0 : 0 ≤ w * (1 - al c) := mul_nonneg hw0 (by linarith)
      have hqκ : al c * (w * (1 - al c) + 1) ≤ 1 := by
        have : al c * (w * (1 - al c) + 1) = 1 - (1 - al c) * (1 - al c * w) := by ring
        have h2 : 0 ≤ (1 - al c) * (1 - al c * w) := mul_nonneg (by linarith) (by linarith)
        linarith
      rw [old_eq, aw_eq, enw]
      set q := w * (1 - al c) with hq
      have hqκ2 : q + 1 ≤ κ := by nlinarith
      have hpκ : p + 1 ≤ 9 / 8 * κ := by have := (abs_le.mp dp).2; linarith
      obtain ⟨w'', hw'', ew⟩ := r_add h p 1 (by rw [abs_of_nonneg (by linarith)]; linarith)
      have ew' := le_of_max hu0 ew (by rw [abs_of_nonneg (by linarith)]; exact hpκ : |p + 1| ≤ 9 / 8 * κ) (by linarith)
      have w0'' : 0 ≤ w'' := nonneg_fin h.toIsMonotoneRounding (by linarith : 0 ≤ p + 1) hw''
      refine ⟨p, 1, hp, hnew, p0, zero_le_one, by linarith, by linarith, ?_, ?_, w'', hw'', hqκ, w0'', ?_⟩
      · have h3 : 0 < p + 1 := by linarith
        have h4 : 0 < q + 1 := by linarith
        have : p / (p + 1) - q / (q + 1) = (p - q) / ((p + 1) * (q + 1)) := by field_simp; ring
        rw [this, abs_div, abs_of_pos (mul_pos h3 h4)]
        have h5 : 1 ≤ (p + 1) * (q + 1) := by nlinarith
        have h6 : |p - q| / ((p + 1) * (q + 1)) ≤ |p - q| := div_le_self (abs_nonneg _) h5
        have h7 : 0 ≤ u * κ ^ 2 := by positivity
        linarith
      · rw [div_le_iff₀ (by linarith)]
        linarith
      · have : w'' - (q + 1) = (w'' - (p + 1)) + (p - q) := by ring
        rw [this]; exact (abs_add_le _ _).trans (by linarith)
    · obtain ⟨p, hp, p0, dp⟩ := dec w w' hw0 hw
      simp only [WtNan, htr, if_true] at hw ⊢
      obtain ⟨w1, w2, w3⟩ := hw
      rw [old_eq, aw_eq]
      refine ⟨p, hp, ?_, p0, by linarith⟩
      have h1 : w * (1 - al c) ≤ w := by nlinarith
      have := mul_le_mul_of_nonneg_left h1 ha0.le
      linarith
  | false =>
    have enw : nw c = al c := by simp [nw, htr]
    have hnew : Rounded.newWt R c = .fin a := by simp [Rounded.newWt, htr, hal]
    obtain ⟨daa, dab⟩ := abs_le.mp da
    have hua : u * al c ≤ al c / 64 := by nlinarith
    have hua0 : 0 ≤ u * al c := by positivity
    have dec : ∀ w w', 0 ≤ w → WtNan c u w w' → ∃ p, Rounded.mul R (.fin w') (.fin f) = .fin p ∧ 0 ≤ p ∧
        |p - w * (1 - al c)| ≤ 6 * u * κ := by
      intro w w' hw0 hw
      simp only [WtNan, htr, if_false, Bool.false_eq_true] at hw
      obtain ⟨w1, w2, w3⟩ := hw
      have hw'κ : w' ≤ 9 / 8 := by have := (abs_le.mp w3).2; linarith
      obtain ⟨p, hp, p0, dp⟩ := decay_near h c hc hu0 f f0 f1' df w w' _ (9 / 8) hw0 w2 hw'κ (by linarith) (by linarith) w3
      exact ⟨p, hp, p0, dp.trans (by linarith)⟩
    refine ⟨?_, fun w w' hw0 hw => ?_, fun _ w w' hw0 hw => ?_⟩
    · simp only [WtNan, htr, if_false, Bool.false_eq_true]
      exact ⟨le_refl _, zero_le_one, by rw [sub_self, abs_zero]; positivity⟩
    · obtain ⟨p, hp, p0, dp⟩ := dec w w' hw0 hw
      simp only [WtNan, htr, if_false, Bool.false_eq_true] at hw ⊢
      obtain ⟨w1, w2, w3⟩ := hw
      have hq0 : 0 ≤ w * (1 - al c) := mul_nonneg hw0 (by linarith)
      rw [old_eq, aw_eq, enw]
      have hq1 : w * (1 - al c) ≤ 1 - al c := by nlinarith
      set q := w * (1 - al c) with hq
      have hp1 : p ≤ 9 / 8 := by have := (abs_le.mp dp).2; linarith
      refine ⟨p, a, hp, hnew, p0, by linarith, by linarith, by have := (abs_le.mp dp).2; linarith, ?_, ?_, 1, rfl, le_refl _, zero_le_one, ?_⟩
      · have h3 : al c / 2 ≤ p + a := by linarith
        have h4 : al c ≤ q + al c := by linarith
        have h30 : 0 < p + a := by linarith
        have h40 : 0 < q + al c := by linarith
        have : p / (p + a) - q / (q + al c) = (al c * (p - q) - q * (a - al c)) / ((p + a) * (q + al c)) := by field_simp; ring
        rw [this, abs_div, abs_of_pos (mul_pos h30 h40), div_le_iff₀ (mul_pos h30 h40)]
        have k1 : |al c * (p - q)| ≤ al c * (6 * u * κ) := by
          rw [abs_mul, abs_of_pos ha0]; exact mul_le_mul_of_nonneg_left dp ha0.le
        have k2 : |q * (a - al c)| ≤ 1 * (3 * u * al c) := by
          rw [abs_mul, abs_of_nonneg hq0]; exact mul_le_mul (by linarith) da (abs_nonneg _) zero_le_one
        have k3 := abs_sub (al c * (p - q)) (q * (a - al c))
        have k4 : al c / 2 * al c ≤ (p + a) * (q + al c) := mul_le_mul h3 h4 ha0.le h30.le
        have k5 : 20 * u * κ ^ 2 * (al c / 2 * al c) ≤ 20 * u * κ ^ 2 * ((p + a) * (q + al c)) :=
          mul_le_mul_of_nonneg_left k4 (by positivity)
        have k6 : 20 * u * κ ^ 2 * (al c / 2 * al c) = 10 * u := by
          linear_combination 10 * u * (al c * κ + 1) * e1
        have k7 : u * al c ≤ u := by nlinarith
        linarith
      · rw [div_le_iff₀ (by linarith)]
        nlinarith
      · rw [sub_self, abs_zero]; positivity
    · obtain ⟨p, hp, p0, dp⟩ := dec w w' hw0 hw
      simp only [WtNan, htr, if_false, Bool.false_eq_true] at hw ⊢
      obtain ⟨w1, w2, w3⟩ := hw
      rw [old_eq, aw_eq]
      exact ⟨p, hp, by nlinarith, p0, dp⟩

theorem bound_fits_nan {c : EWMACfg K} {B : K} (hf : FormatFits u τ Ω c.com B) (hp : 128 * u * (1 + c.com) ^ 3 ≤ 1) :
    BoundFits u (al c) (20 * u * (1 + c.com) ^ 2) B (80 * u * B * (1 + c.com) ^ 3) := by
  obtain ⟨hc, hu0, hB, f1, f2, f3, f4, f5⟩ := hf
  have e1 : al c * (1 + c.com) = 1 := by unfold al; field_simp
  set κ := 1 + c.com with hκ
  have κ1 : 1 ≤ κ := by linarith
  have hE2 : al c * (80 * u * B * κ ^ 3) = 80 * u * B * κ ^ 2 := by linear_combination 80 * u * B * κ ^ 2 * e1
  have hEB : 80 * u * B * κ ^ 3 ≤ 5 / 8 * B := by
    have := mul_le_mul_of_nonneg_right hp hB
    linarith
  have k1 := mul_le_mul_of_nonneg_left hEB (by positivity : 0 ≤ 20 * u * κ ^ 2)
  have k2 : 0 ≤ u * B := by positivity
  have k3 : u * B ≤ u * B * κ ^ 2 := le_mul_of_one_le_right k2 (one_le_pow₀ κ1)
  have k4 : u * B ≤ u * B * κ ^ 3 := le_mul_of_one_le_right k2 (one_le_pow₀ κ1)
  exact ⟨by positivity, hEB, by linarith, by linarith⟩

/-- **C178** (Haiku), missing values not ignored: NaN values may occur anywhere in the stream and the weights decay during them; the
error still does not grow with the length of the stream. -/
theorem C178_ewma_rounding_missing (h : IsRounding R u τ Ω) (c : EWMACfg K) (B : K) (hf : FormatFits u τ Ω c.com B)
    (hp : 128 * u * (1 + c.com) ^ 3 ≤ 1) (hadj : c.adjust ≠ .linear) (hig : c.ignoreNa = false) (hi : Sized B c.initial)
    (xs : List (Fl K)) (hx : ∀ x ∈ xs, Sized B x) (t : Nat) (ht : t < xs.length) :
    ∃ o' o, ((Rounded.ewma R c).run xs)[t]? = some o' ∧ ((ewma c).run xs)[t]? = some o ∧ o'.nobs = o.nobs ∧
      Near (80 * u * B * (1 + c.com) ^ 3) o'.value o.value :=
  ewma_near h c B hf (wtNan_sim h c B hf hadj hig) (bound_fits_nan hf hp) hi xs hx (Or.inl trivial) t ht

/-- **C178** (Flax), missing values not ignored. -/
theorem C178_flax_ewma_rounding_missing (h : IsRounding R u τ Ω) (c : EWMACfg K) (B : K) (hf : FormatFits u τ Ω c.com B)
    (hp : 128 * u * (1 + c.com) ^ 3 ≤ 1) (hadj : c.adjust ≠ .linear) (hig : c.ignoreNa = false) (hi : Sized B c.initial)
    (xs : List (Fl K)) (hx : ∀ x ∈ xs, Sized B x) (t : Nat) (ht : t < xs.length) :
    ∃ o' o, ((Rounded.flaxEwma R c).run xs)[t]? = some o' ∧ ((flaxEwma c).run xs)[t]? = some o ∧ o'.nobs = o.nobs ∧
      Near (80 * u * B * (1 + c.com) ^ 3) o'.value o.value :=
  flax_ewma_near h c B hf (wtNan_sim h c B hf hadj hig) (bound_fits_nan hf hp) hi xs hx (Or.inl trivial) t ht

/-! ## float32 -/

/-- The assumptions hold in float32 for time constants up to `2^18` and inputs between `2^-100` and `2^100` in size. -/
theorem float32_fits (com B : ℚ) (hc : 0 ≤ com) (hc2 : 1 + com ≤ 2 ^ 18) (hB : 1 / 2 ^ 100 ≤ B) (hB2 : B ≤ 2 ^ 100) :
    FormatFits (1 / 2 ^ float32.prec) (2 ^ float32.emin) float32.largest com B := by
  have e1 : (1 / 2 ^ float32.prec : ℚ) = 1 / 2 ^ 24 := rfl
  have e2 : (2 ^ float32.emin : ℚ) = 1 / 2 ^ 126 := by decide +kernel
  have e3 : float32.largest = 2 ^ 128 - 2 ^ 104 := by decide +kernel
  rw [e1, e2, e3]
  have hB0 : 0 ≤ B := le_trans (by norm_num) hB
  have k : B * (1 + com) ≤ 2 ^ 100 * 2 ^ 18 := mul_le_mul hB2 hc2 (by linarith) (by norm_num)
  refine ⟨hc, by norm_num, hB0, ?_, ?_, ?_, ?_, ?_⟩
  · norm_num at hc2 ⊢; linarith
  · norm_num at hc2 ⊢; linarith
  · norm_num at hc2 hB ⊢; linarith
  · norm_num at hc2 ⊢; linarith
  · norm_num at k ⊢; linarith

/-- **C178** in float32: on a stream of any length of float32 values at most `B` in size, the EWMA is at every step within
`40 B (1 + com) / 2^24` of the exact one. -/
theorem C178_float32 (c : EWMACfg ℚ) (B : ℚ) (hc : 0 ≤ c.com) (hc2 : 1 + c.com ≤ 2 ^ 18) (hB : 1 / 2 ^ 100 ≤ B) (hB2 : B ≤ 2 ^ 100)
    (hi : Sized B c.initial) (xs : List (Fl ℚ)) (hx : ∀ x ∈ xs, Sized B x) (hna : c.ignoreNa = true ∨ ∀ x ∈ xs, x ≠ .nan)
    (t : Nat) (ht : t < xs.length) :
    ∃ o' o, ((Rounded.ewma float32.round c).run xs)[t]? = some o' ∧ ((ewma c).run xs)[t]? = some o ∧ o'.nobs = o.nobs ∧
      Near (40 * (1 / 2 ^ 24) * B * (1 + c.com)) o'.value o.value :=
  C178_ewma_rounding (C178_ieee float32 float32_ok) c B (float32_fits c.com B hc hc2 hB hB2) hi xs hx hna t ht

/-- A concrete float32 run with a missing value (`com = 2`, `ignore_na`): the third mean is 7130317/2^21, the exact one 17/5, and the
bound of `C178_float32` (`B = 5`) holds for it. -/
example :
    let c : EWMACfg ℚ := ⟨2, .yes, true, 0, .nan, float32.largest⟩
    let xs : List (Fl ℚ) := [.fin 1, .nan, .fin 5, .fin (-3)]
    ((Rounded.ewma float32.round c).run xs).map (·.value) = [.fin 1, .fin 1, .fin (7130317 / 2097152), .fin (12362157 / 33554432)] ∧
      ((ewma c).run xs).map (·.value) = [.fin 1, .fin 1, .fin (17 / 5), .fin (7 / 19)] ∧
      |(7130317 / 2097152 : ℚ) - 17 / 5| ≤ 40 * (1 / 2 ^ 24) * 5 * (1 + 2) ∧
      0 ≤ c.com ∧ 1 + c.com ≤ 2 ^ 18 ∧ ((1 : ℚ) / 2 ^ 100 ≤ 5 ∧ (5 : ℚ) ≤ 2 ^ 100) ∧ c.ignoreNa = true := by
  decide +kernel

/-- The hypotheses of the theorem with missing values are met in float32 with `com = 2`, `B = 5`. -/
example : FormatFits (1 / 2 ^ float32.prec) (2 ^ float32.emin) float32.largest (2 : ℚ) 5 ∧
    128 * (1 / 2 ^ float32.prec) * (1 + 2 : ℚ) ^ 3 ≤ 1 :=
  ⟨float32_fits 2 5 (by norm_num) (by norm_num) (by norm_num) (by norm_num), by decide +kernel⟩

end Verif.Props
