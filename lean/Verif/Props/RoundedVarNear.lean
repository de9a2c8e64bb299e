import Verif.Props.RoundedVar
import Verif.Props.RoundedNaN
import Verif.Props.EWMVar

/-! # C184: the EWMVar with rounded arithmetic is close to the exact one -/

set_option linter.unusedSectionVars false
set_option linter.unusedSimpArgs false
set_option linter.unusedVariables false

namespace Verif.Props
open Model Spec Lemmas
open Model.Rounded (rnd)
variable {K : Type} [Field K] [LinearOrder K] [IsStrictOrderedRing K]
variable {R : K → Fl K} {u τ Ω : K}

/-- What is assumed of the precision, the time constant and the size of the inputs. -/
structure VarFits (u τ Ω com B : K) : Prop where
  com_nonneg : 0 ≤ com
  u_nonneg : 0 ≤ u
  B_nonneg : 0 ≤ B
  precision : 256 * u * (1 + com) ≤ 1
  underflow : τ * (1 + com) ≤ 1
  underflow_inputs : τ * (1 + com) ≤ B
  underflow_squares : τ * (1 + com) ≤ B ^ 2
  overflow : 8 * (1 + com) ≤ Ω
  overflow_inputs : 4 * B ≤ Ω
  overflow_squares : 16 * B ^ 2 ≤ Ω

/-- The power routine has an absolute error of at most four units of roundoff between 0 and 1. -/
def PowNear (u : K) (pw : Fl K → Nat → Fl K) : Prop :=
  ∀ (x : K) (n : Nat), 0 ≤ x → x ≤ 1 → ∃ y, pw (.fin x) n = .fin y ∧ |y - x ^ n| ≤ 4 * u

theorem mul_bd {x y X Y : K} (hx : |x| ≤ X) (hy : |y| ≤ Y) : |x * y| ≤ X * Y := by
  rw [abs_mul]; exact mul_le_mul hx hy (abs_nonneg _) ((abs_nonneg _).trans hx)

theorem pow_near {b f α : K} (hα0 : 0 < α) (hb : b = 1 - α) (hb0 : 0 ≤ b) (f0 : 0 ≤ f) (f1 : f ≤ 1) (n : Nat) :
    |f ^ n - b ^ n| * α ≤ |f - b| * (1 - b ^ n) := by
  induction n with
  | zero => simp
  | succ n ih =>
    have e : f ^ (n + 1) - b ^ (n + 1) = f * (f ^ n - b ^ n) + (f - b) * b ^ n := by ring
    have hbn : 0 ≤ b ^ n := by positivity
    have hd := abs_nonneg (f - b)
    rw [e]
    have h1 : |f * (f ^ n - b ^ n) + (f - b) * b ^ n| ≤ |f ^ n - b ^ n| + |f - b| * b ^ n := by
      refine (abs_add_le _ _).trans ?_
      rw [abs_mul, abs_mul, abs_of_nonneg f0, abs_of_nonneg hbn]
      have : f * |f ^ n - b ^ n| ≤ 1 * |f ^ n - b ^ n| := mul_le_mul_of_nonneg_right f1 (abs_nonneg _)
      linarith
    have h2 := mul_le_mul_of_nonneg_right h1 hα0.le
    have e2 : |f - b| * (1 - b ^ (n + 1)) = |f - b| * (1 - b ^ n) + |f - b| * b ^ n * α := by
      rw [pow_succ, hb]; ring
    rw [e2]
    have e3 : (|f ^ n - b ^ n| + |f - b| * b ^ n) * α = |f ^ n - b ^ n| * α + |f - b| * b ^ n * α := by ring
    linarith

/-- The reciprocal of a computed time scale. -/
theorem inv_gain (h : IsRounding R u τ Ω) {k ts ts' : K} (hu0 : 0 ≤ u) (hu1 : u ≤ 1 / 256) (hk : 1 ≤ k) (ht : τ ≤ 1 / k) (hΩ : 2 ≤ Ω)
    (h1 : 1 ≤ ts) (h2 : ts ≤ k) (h3 : |ts' - ts| ≤ 6 * u * ts) :
    ∃ g, (if Fl.lt (.fin 0) (.fin ts') = true then Rounded.div R (.fin 1) (.fin ts') else (.nan : Fl K)) = .fin g ∧
      |g - 1 / ts| ≤ 16 * (u * k) * (1 / ts) ∧ 1 / k ≤ 1 / ts := by
  have hts : 0 < ts := by linarith
  have husm : u * ts ≤ 1 / 256 * ts := mul_le_mul_of_nonneg_right hu1 hts.le
  have hlo : 31 / 32 * ts ≤ ts' := by have := (abs_le.mp h3).1; linarith
  have hpos : 0 < ts' := by linarith
  have hle : 1 / k ≤ 1 / ts := one_div_le_one_div_of_le hts h2
  have hi0 : 0 < 1 / ts := by positivity
  have hi1 : 1 / ts ≤ 1 := by rw [div_le_one hts]; exact h1
  have d2 : |1 / ts' - 1 / ts| ≤ 7 * u * (1 / ts) := by
    have e : 1 / ts' - 1 / ts = ((1 / ts) * (ts - ts')) / ts' := by field_simp
    rw [e, abs_div, abs_of_pos hpos, div_le_iff₀ hpos, abs_mul, abs_of_pos hi0, abs_sub_comm]
    have h4 : 1 / ts * |ts' - ts| ≤ 1 / ts * (6 * u * ts) := mul_le_mul_of_nonneg_left h3 hi0.le
    have h5 : 1 / ts * (6 * u * ts) = 6 * u := by field_simp
    have h6 : 7 * u * (1 / ts) * (31 / 32 * ts) ≤ 7 * u * (1 / ts) * ts' := mul_le_mul_of_nonneg_left hlo (by positivity)
    have h7 : 7 * u * (1 / ts) * (31 / 32 * ts) = 7 * (31 / 32) * u := by field_simp
    linarith
  have hui : u * (1 / ts) ≤ 1 / 256 * (1 / ts) := mul_le_mul_of_nonneg_right hu1 hi0.le
  have hb : |1 / ts'| ≤ 33 / 32 * (1 / ts) := by
    have := (abs_le.mp d2).2
    rw [abs_of_nonneg (by positivity)]; linarith
  obtain ⟨g, hg, eg⟩ := r_div h 1 ts' hpos.ne' (by linarith)
  have eg' := le_of_max hu0 eg hb (by linarith)
  refine ⟨g, ?_, ?_, hle⟩
  · rw [if_pos (by simpa using hpos)]; exact hg
  · have e : g - 1 / ts = (g - 1 / ts') + (1 / ts' - 1 / ts) := by ring
    rw [e]
    refine (abs_add_le _ _).trans ?_
    have huk : u ≤ u * k := by nlinarith
    have : u * (1 / ts) ≤ u * k * (1 / ts) := mul_le_mul_of_nonneg_right huk hi0.le
    have h0 : 0 ≤ u * (1 / ts) := by positivity
    linarith

set_option maxHeartbeats 1000000 in
/-- The computed smoothing factor has a small relative error. -/
theorem gain_near (h : IsRounding R u τ Ω) (pw : Fl K → Nat → Fl K) (hpw : PowNear u pw) (com B : K) (hf : VarFits u τ Ω com B)
    (adjust : Adjust) (n : Nat) :
    ∃ g, Rounded.varAlpha R pw com adjust (n + 1) = .fin g ∧
      |g - varGain com adjust (n + 1)| ≤ 16 * (u * (1 + com)) * varGain com adjust (n + 1) ∧
      1 / (1 + com) ≤ varGain com adjust (n + 1) := by
  have hc := hf.com_nonneg
  have hu0 := hf.u_nonneg
  let c : EWMACfg K := ⟨com, adjust, true, 0, .nan, 0⟩
  have ha0 : 0 < al c := al_pos c hc
  have ha1 : al c ≤ 1 := al_le_one c hc
  have hk : (0 : K) < 1 + com := by linarith
  have e1 : al c * (1 + com) = 1 := by change 1 / (1 + com) * (1 + com) = 1; field_simp
  have hu : 256 * u ≤ al c := by
    have := mul_le_mul_of_nonneg_left hf.precision ha0.le
    have e : al c * (256 * u * (1 + com)) = 256 * u := by linear_combination 256 * u * e1
    linarith
  have ht : τ ≤ al c := by
    have := mul_le_mul_of_nonneg_left hf.underflow ha0.le
    have e : al c * (τ * (1 + com)) = τ := by linear_combination τ * e1
    linarith
  obtain ⟨a, f, hal, hfe, da, f0, f1, df⟩ := alpha_near h c hc hu0 (by linarith) ht hf.overflow
  have hal' : Rounded.div R (.fin 1) (Rounded.add R (.fin 1) (.fin com)) = .fin a := hal
  have hue : u ≤ u * (1 + com) := by nlinarith
  have hu1 : u ≤ 1 / 256 := by linarith
  have hΩ := hf.overflow
  have hua : u * al c ≤ 1 / 256 * al c := mul_le_mul_of_nonneg_right hu1 ha0.le
  have hua0 : 0 ≤ u * al c := by positivity
  have hal2 : 1 / (1 + com) = al c := rfl
  unfold Rounded.varAlpha varGain
  rw [hal', hal2]
  cases adjust with
  | no =>
    refine ⟨a, rfl, ?_, le_refl _⟩
    have : u * al c ≤ u * (1 + com) * al c := mul_le_mul_of_nonneg_right hue ha0.le
    simp only
    linarith
  | linear =>
    have hapos : 63 / 64 * al c ≤ a := by have := (abs_le.mp da).1; linarith
    have ha' : 0 < a := by linarith
    have d1 : |1 / a - (1 + com)| ≤ 7 / 2 * u * (1 + com) := by
      have e : 1 / a - (1 + com) = ((1 + com) * (al c - a)) / a := by
        field_simp; linear_combination -e1
      rw [e, abs_div, abs_of_pos ha', div_le_iff₀ ha', abs_mul, abs_of_pos hk, abs_sub_comm]
      have h1 : (1 + com) * |a - al c| ≤ (1 + com) * (3 * u * al c) := mul_le_mul_of_nonneg_left da hk.le
      have h2 : (1 + com) * (3 * u * al c) = 3 * u := by linear_combination 3 * u * e1
      have h3 : 7 / 2 * u * (1 + com) * (63 / 64 * al c) ≤ 7 / 2 * u * (1 + com) * a :=
        mul_le_mul_of_nonneg_left hapos (by positivity)
      have h4 : 7 / 2 * u * (1 + com) * (63 / 64 * al c) = 7 / 2 * (63 / 64) * u := by linear_combination 7 / 2 * (63 / 64) * u * e1
      linarith
    have hκe : u * (1 + com) ≤ 1 / 256 * (1 + com) := mul_le_mul_of_nonneg_right hu1 hk.le
    have hκ0 : 0 ≤ u * (1 + com) := by positivity
    have hia : |1 / a| ≤ 33 / 32 * (1 + com) := by
      have := (abs_le.mp d1).2
      rw [abs_of_nonneg (by positivity)]; linarith
    obtain ⟨t, hte, et⟩ := r_div h 1 a ha'.ne' (by linarith)
    have et' := le_of_max hu0 et hia (by linarith)
    have dt : |t - (1 + com)| ≤ 5 * u * (1 + com) := by
      have e : t - (1 + com) = (t - 1 / a) + (1 / a - (1 + com)) := by ring
      rw [e]; exact (abs_add_le _ _).trans (by linarith)
    simp only [hte, Fl.lt_fin, decide_eq_true_eq]
    have hn1 : (1 : K) ≤ ((n + 1 : Nat) : K) := by push_cast; linarith [Nat.cast_nonneg (α := K) n]
    generalize hN : ((n + 1 : Nat) : K) = N at hn1 ⊢
    -- the exact and the computed time scales
    have key : ∀ ts ts' : K, 1 ≤ ts → ts ≤ 1 + com → |ts' - ts| ≤ 6 * u * ts →
        ∃ g, (if Fl.lt (.fin 0) (.fin ts') = true then Rounded.div R (.fin 1) (.fin ts') else (.nan : Fl K)) = .fin g ∧
          |g - 1 / ts| ≤ 16 * (u * (1 + com)) * (1 / ts) ∧ al c ≤ 1 / ts := fun ts ts' h1 h2 h3 =>
      inv_gain h hu0 hu1 (by linarith) ht (by linarith) h1 h2 h3
    have dtl := (abs_le.mp dt).1
    have dtr := (abs_le.mp dt).2
    by_cases hN1 : N < 1 + com
    · rw [if_pos hN1]
      by_cases hN2 : N < t
      · rw [if_pos hN2]
        exact key N N hn1 hN1.le (by rw [sub_self, abs_zero]; positivity)
      · rw [if_neg hN2]
        refine key N t hn1 hN1.le ?_
        have hNt := not_lt.mp hN2
        have : 31 / 32 * (1 + com) ≤ N := by linarith
        have hNu : u * (31 / 32 * (1 + com)) ≤ u * N := mul_le_mul_of_nonneg_left this hu0
        rw [abs_le]; constructor <;> linarith
    · rw [if_neg hN1]
      have hN1' := not_lt.mp hN1
      have e : al c = 1 / (1 + com) := rfl
      rw [e]
      by_cases hN2 : N < t
      · rw [if_pos hN2]
        refine key (1 + com) N (by linarith) (le_refl _) ?_
        rw [abs_of_nonneg (by linarith)]
        linarith
      · rw [if_neg hN2]
        refine key (1 + com) t (by linarith) (le_refl _) (dt.trans (by linarith))
  | yes =>
    rw [hal] at hfe
    obtain ⟨p, hp, ep⟩ := hpw f (n + 1) f0 f1
    have hpn := pow_near (b := 1 - al c) (f := f) ha0 rfl (by linarith) f0 f1 (n + 1)
    have hD := geo_pos (al c) ha0 ha1 n
    have hD1 : 1 - (1 - al c) ^ (n + 1) ≤ 1 := by
      have : 0 ≤ (1 - al c) ^ (n + 1) := pow_nonneg (by linarith) _
      linarith
    simp only [hfe, hp]
    generalize hDd : 1 - (1 - al c) ^ (n + 1) = D at *
    have hD0 : 0 < D := by linarith
    have hbn : (1 - al c) ^ (n + 1) = 1 - D := by linear_combination -hDd
    rw [hbn] at hpn
    generalize hE : u * (1 + com) = e at *
    have hEa : e * al c = u := by rw [← hE]; linear_combination u * e1
    have he0 : 0 ≤ e := by rw [← hE]; positivity
    have he1 : 256 * e ≤ 1 := by rw [← hE]; have := hf.precision; linarith
    have hpow : |f ^ (n + 1) - (1 - D)| ≤ 4 * e * D := by
      have h2 : |f - (1 - al c)| * D ≤ 4 * u * D := mul_le_mul_of_nonneg_right df hD0.le
      have h3 : |f ^ (n + 1) - (1 - D)| * al c ≤ (4 * e * D) * al c := by
        have : (4 * e * D) * al c = 4 * u * D := by linear_combination 4 * D * hEa
        linarith
      exact le_of_mul_le_mul_right h3 ha0
    have huD : u ≤ e * D := by rw [← hEa]; exact mul_le_mul_of_nonneg_left hD he0
    have heD : e * D ≤ 1 / 256 * D := mul_le_mul_of_nonneg_right (by linarith) hD0.le
    have heD0 : 0 ≤ e * D := by positivity
    have dp : |(1 - p) - D| ≤ 8 * (e * D) := by
      have e : (1 - p) - D = -((p - f ^ (n + 1)) + (f ^ (n + 1) - (1 - D))) := by ring
      rw [e, abs_neg]
      exact (abs_add_le _ _).trans (by linarith)
    have b1 : |1 - p| ≤ 33 / 32 * D := by
      have e : 1 - p = ((1 - p) - D) + D := by ring
      rw [e]; refine (abs_add_le _ _).trans ?_
      rw [abs_of_pos hD0]; linarith
    obtain ⟨r, hr, er⟩ := r_sub h 1 p (by linarith)
    have er' := le_of_max hu0 er b1 (by linarith)
    have hu2 : u ≤ e := hue
    have huD2 : u * D ≤ e * D := mul_le_mul_of_nonneg_right hu2 hD0.le
    have dr : |r - D| ≤ 10 * (e * D) := by
      have e : r - D = (r - (1 - p)) + ((1 - p) - D) := by ring
      rw [e]; exact (abs_add_le _ _).trans (by linarith)
    have hr31 : 15 / 16 * D ≤ r := by have := (abs_le.mp dr).1; linarith
    have hr0 : 0 < r := by linarith
    have hg0 : 0 < al c / D := by positivity
    have hg1 : al c / D ≤ 1 := (div_le_one hD0).mpr hD
    have hle : al c ≤ al c / D := by rw [le_div_iff₀ hD0]; nlinarith
    have d3 : |a / r - al c / D| ≤ 14 * (e * (al c / D)) := by
      have e2 : a / r - al c / D = ((a - al c) + (al c / D) * (D - r)) / r := by field_simp; ring
      rw [e2, abs_div, abs_of_pos hr0, div_le_iff₀ hr0]
      have h1 : |(a - al c) + (al c / D) * (D - r)| ≤ 3 * u * al c + (al c / D) * (10 * (e * D)) := by
        refine (abs_add_le _ _).trans (add_le_add da ?_)
        rw [abs_mul, abs_of_pos hg0, abs_sub_comm]
        exact mul_le_mul_of_nonneg_left dr hg0.le
      have h2 : (al c / D) * (10 * (e * D)) = 10 * (e * al c) := by field_simp
      have h3 : 14 * (e * (al c / D)) * (15 / 16 * D) ≤ 14 * (e * (al c / D)) * r := mul_le_mul_of_nonneg_left hr31 (by positivity)
      have h4 : 14 * (e * (al c / D)) * (15 / 16 * D) = 14 * (15 / 16) * (e * al c) := by field_simp
      have h5 : u * al c ≤ e * al c := mul_le_mul_of_nonneg_right hu2 ha0.le
      have h6 : 0 ≤ e * al c := by positivity
      linarith
    have heg : e * (al c / D) ≤ 1 / 256 * (al c / D) := mul_le_mul_of_nonneg_right (by linarith) hg0.le
    have heg0 : 0 ≤ e * (al c / D) := by positivity
    have b2 : |a / r| ≤ 17 / 16 * (al c / D) := by
      have e2 : a / r = (a / r - al c / D) + al c / D := by ring
      rw [e2]; refine (abs_add_le _ _).trans ?_
      rw [abs_of_pos hg0]; linarith
    obtain ⟨g, hg, eg⟩ := r_div h a r hr0.ne' (by linarith)
    have eg' := le_of_max hu0 eg b2 (by linarith)
    refine ⟨g, by rw [hr]; exact hg, ?_, hle⟩
    have e2 : g - al c / D = (g - a / r) + (a / r - al c / D) := by ring
    rw [e2]
    refine (abs_add_le _ _).trans ?_
    have : u * (al c / D) ≤ e * (al c / D) := mul_le_mul_of_nonneg_right hu2 hg0.le
    linarith

/-! ## One step -/

set_option maxHeartbeats 2000000 in
/-- One observation after the first, on numbers: `e` stands for `u (1 + com)`. -/
theorem var_step_near (h : IsRounding R u τ Ω) {e a a' B x m m' v v' : K} (hu0 : 0 ≤ u) (he : 256 * e ≤ 1) (hB : 0 ≤ B) (ha0 : 0 ≤ a)
    (ha1 : a ≤ 1) (hue : u ≤ e * a) (hτ1 : τ ≤ a) (hτ2 : τ ≤ a * B) (hτ3 : τ ≤ a * B ^ 2) (hΩ1 : 2 ≤ Ω) (hΩ2 : 4 * B ≤ Ω)
    (hΩ3 : 16 * B ^ 2 ≤ Ω) (hda : |a' - a| ≤ 16 * e * a) (hx : |x| ≤ B) (hm : |m| ≤ B) (hdm : |m' - m| ≤ 48 * e * B)
    (hv0 : 0 ≤ v) (hv1 : v ≤ 4 * B ^ 2) (hdv : |v' - v| ≤ 640 * e * B ^ 2) (he0 : 0 ≤ e) :
    ∃ mn vn, Rounded.add R (.fin m') (Rounded.mul R (.fin a') (Rounded.sub R (.fin x) (.fin m'))) = .fin mn ∧
      Rounded.mul R (Rounded.sub R (.fin 1) (.fin a')) (Rounded.add R (.fin v')
        (Rounded.mul R (Rounded.sub R (.fin x) (.fin m')) (Rounded.mul R (.fin a') (Rounded.sub R (.fin x) (.fin m'))))) = .fin vn ∧
      |mn - (m + a * (x - m))| ≤ 48 * e * B ∧ |m + a * (x - m)| ≤ B ∧
      |vn - (1 - a) * (v + (x - m) * (a * (x - m)))| ≤ 640 * e * B ^ 2 ∧
      0 ≤ (1 - a) * (v + (x - m) * (a * (x - m))) ∧ (1 - a) * (v + (x - m) * (a * (x - m))) ≤ 4 * B ^ 2 := by
  have hee : e ≤ 1 / 256 := by linarith
  have hB2 : 0 ≤ B ^ 2 := by positivity
  have heB0 : 0 ≤ e * B := by positivity
  have heB : e * B ≤ 1 / 256 * B := mul_le_mul_of_nonneg_right hee hB
  have hea0 : 0 ≤ e * a := by positivity
  have hea : e * a ≤ e := by nlinarith
  have hue' : u ≤ e := hue.trans hea
  have haB0 : 0 ≤ a * B := by positivity
  have haB : a * B ≤ B := by nlinarith
  have haB2 : a * B ^ 2 ≤ B ^ 2 := by nlinarith
  have haB20 : 0 ≤ a * B ^ 2 := by positivity
  have heaB0 : 0 ≤ e * a * B := by positivity
  have heaB : e * a * B ≤ e * B := mul_le_mul_of_nonneg_right hea hB
  have heaBs : e * a * B ≤ 1 / 256 * (a * B) := by
    have := mul_le_mul_of_nonneg_right hee haB0
    linarith [mul_assoc e a B]
  have huB : u * B ≤ e * a * B := mul_le_mul_of_nonneg_right hue hB
  have huB0 : 0 ≤ u * B := by positivity
  have heB2 : 0 ≤ e * B ^ 2 := by positivity
  have heB2s : e * B ^ 2 ≤ 1 / 256 * B ^ 2 := mul_le_mul_of_nonneg_right hee hB2
  have heaB20 : 0 ≤ e * a * B ^ 2 := by positivity
  have heaB2 : e * a * B ^ 2 ≤ e * B ^ 2 := mul_le_mul_of_nonneg_right hea hB2
  have heaB2s : e * a * B ^ 2 ≤ 1 / 256 * (a * B ^ 2) := by
    have := mul_le_mul_of_nonneg_right hee haB20
    linarith [mul_assoc e a (B ^ 2)]
  have huB2 : u * B ^ 2 ≤ e * a * B ^ 2 := mul_le_mul_of_nonneg_right hue hB2
  -- the exact values
  have hmn : |m + a * (x - m)| ≤ B := by
    have e1 : m + a * (x - m) = (1 - a) * m + a * x := by ring
    rw [e1]
    have h1 : |(1 - a) * m| ≤ (1 - a) * B := mul_bd (abs_of_nonneg (by linarith)).le hm
    have h2 : |a * x| ≤ a * B := mul_bd (abs_of_nonneg ha0).le hx
    exact (abs_add_le _ _).trans (by linarith)
  have hd : |x - m| ≤ 2 * B := (abs_sub _ _).trans (by linarith)
  have hd2 : (x - m) ^ 2 ≤ 4 * B ^ 2 := by
    have := mul_bd hd hd
    rw [← sq, abs_of_nonneg (by positivity)] at this
    linarith [this, (by ring : 2 * B * (2 * B) = 4 * B ^ 2)]
  have hq : (x - m) * (a * (x - m)) = a * (x - m) ^ 2 := by ring
  have hq0 : 0 ≤ a * (x - m) ^ 2 := by positivity
  have hq1 : a * (x - m) ^ 2 ≤ 4 * (a * B ^ 2) := by
    have := mul_le_mul_of_nonneg_left hd2 ha0
    linarith
  -- the difference
  have hxm : |x - m'| ≤ 35 / 16 * B := by
    have e1 : x - m' = (x - m) - (m' - m) := by ring
    rw [e1]; exact (abs_sub _ _).trans (by linarith)
  obtain ⟨d, hdd, ed⟩ := r_sub h x m' (by linarith)
  have ed' := le_of_max hu0 ed hxm (by linarith)
  have hdb : |d| ≤ 9 / 4 * B := by
    have e1 : d = (d - (x - m')) + (x - m') := by ring
    rw [e1]; exact (abs_add_le _ _).trans (by linarith)
  -- the increment
  have ha' : |a'| ≤ 17 / 16 * a := by
    have e1 : a' = (a' - a) + a := by ring
    rw [e1]; refine (abs_add_le _ _).trans ?_
    rw [abs_of_nonneg ha0]
    have : e * a ≤ 1 / 256 * a := mul_le_mul_of_nonneg_right hee ha0
    linarith
  have had : |a' * d| ≤ 5 / 2 * (a * B) := (mul_bd ha' hdb).trans (by linarith [(by ring : 17 / 16 * a * (9 / 4 * B) = 153 / 64 * (a * B))])
  obtain ⟨i, hi, ei⟩ := r_mul h a' d (by linarith)
  have ei' := le_of_max hu0 ei had (by linarith)
  have huaB : u * (a * B) ≤ e * a * B := by
    have := mul_le_mul_of_nonneg_right hue' haB0
    linarith [mul_assoc e a B]
  have hi1 : |i - a * (x - m')| ≤ 41 * (e * a * B) := by
    have e1 : i - a * (x - m') = (i - a' * d) + (a' - a) * d + a * (d - (x - m')) := by ring
    rw [e1]
    have h1 := mul_bd hda hdb
    have h2 := mul_bd (abs_of_nonneg ha0).le ed'
    have h3 : a * (u * (35 / 16 * B)) ≤ 35 / 16 * (e * a * B) := by
      have : a * (u * (35 / 16 * B)) = 35 / 16 * (u * (a * B)) := by ring
      linarith
    refine (abs_add_le _ _).trans ((add_le_add (abs_add_le _ _) le_rfl).trans ?_)
    linarith [(by ring : 16 * e * a * (9 / 4 * B) = 36 * (e * a * B))]
  -- the mean
  have hs1 : |m' + i - (m + a * (x - m))| ≤ (1 - a) * (48 * e * B) + 41 * (e * a * B) := by
    have e1 : m' + i - (m + a * (x - m)) = (1 - a) * (m' - m) + (i - a * (x - m')) := by ring
    rw [e1]
    exact (abs_add_le _ _).trans (add_le_add (mul_bd (abs_of_nonneg (by linarith)).le hdm) hi1)
  have hs1e : (1 - a) * (48 * e * B) = 48 * (e * B) - 48 * (e * a * B) := by ring
  have hs2 : |m' + i| ≤ 3 / 2 * B := by
    have e1 : m' + i = (m' + i - (m + a * (x - m))) + (m + a * (x - m)) := by ring
    rw [e1]; exact (abs_add_le _ _).trans (by linarith)
  obtain ⟨mn, hmne, emn⟩ := r_add h m' i (by linarith)
  have emn' := le_of_max hu0 emn hs2 (by linarith)
  have hmnn : |mn - (m + a * (x - m))| ≤ 48 * e * B := by
    have e1 : mn - (m + a * (x - m)) = (mn - (m' + i)) + (m' + i - (m + a * (x - m))) := by ring
    rw [e1]; refine (abs_add_le _ _).trans ?_
    linarith
  -- the squared difference
  have hdd2 : |d - (x - m)| ≤ 51 * (e * B) := by
    have e1 : d - (x - m) = (d - (x - m')) - (m' - m) := by ring
    rw [e1]; refine (abs_sub _ _).trans ?_
    linarith
  have hi2 : |i - a * (x - m)| ≤ 89 * (e * a * B) := by
    have e1 : i - a * (x - m) = (i - a * (x - m')) - a * (m' - m) := by ring
    rw [e1]; refine (abs_sub _ _).trans ?_
    have := mul_bd (abs_of_nonneg ha0).le hdm
    linarith [(by ring : a * (48 * e * B) = 48 * (e * a * B))]
  have hw1 : |d * i - a * (x - m) ^ 2| ≤ 303 * (e * a * B ^ 2) := by
    have e1 : d * i - a * (x - m) ^ 2 = d * (i - a * (x - m)) + (d - (x - m)) * (a * (x - m)) := by ring
    rw [e1]
    have h1 := mul_bd hdb hi2
    have h2 := mul_bd hdd2 (mul_bd (abs_of_nonneg ha0).le hd)
    refine (abs_add_le _ _).trans ?_
    linarith [(by ring : 9 / 4 * B * (89 * (e * a * B)) = 801 / 4 * (e * a * B ^ 2)),
      (by ring : 51 * (e * B) * (a * (2 * B)) = 102 * (e * a * B ^ 2))]
  have hw2 : |d * i| ≤ 6 * (a * B ^ 2) := by
    have e1 : d * i = (d * i - a * (x - m) ^ 2) + a * (x - m) ^ 2 := by ring
    rw [e1]; refine (abs_add_le _ _).trans ?_
    rw [abs_of_nonneg hq0]; linarith
  obtain ⟨w, hw, ew⟩ := r_mul h d i (by linarith)
  have ew' := le_of_max hu0 ew hw2 (by linarith)
  have huaB2 : u * (a * B ^ 2) ≤ e * a * B ^ 2 := by
    have := mul_le_mul_of_nonneg_right hue' haB20
    linarith [mul_assoc e a (B ^ 2)]
  have hw3 : |w - a * (x - m) ^ 2| ≤ 309 * (e * a * B ^ 2) := by
    have e1 : w - a * (x - m) ^ 2 = (w - d * i) + (d * i - a * (x - m) ^ 2) := by ring
    rw [e1]; refine (abs_add_le _ _).trans ?_
    linarith
  -- the sum
  have ht1 : |v' + w - (v + a * (x - m) ^ 2)| ≤ 640 * (e * B ^ 2) + 309 * (e * a * B ^ 2) := by
    have e1 : v' + w - (v + a * (x - m) ^ 2) = (v' - v) + (w - a * (x - m) ^ 2) := by ring
    rw [e1]; refine (abs_add_le _ _).trans ?_
    linarith
  have ht2 : |v' + w| ≤ 12 * B ^ 2 := by
    have e1 : v' + w = (v' + w - (v + a * (x - m) ^ 2)) + (v + a * (x - m) ^ 2) := by ring
    rw [e1]; refine (abs_add_le _ _).trans ?_
    rw [abs_of_nonneg (by linarith : 0 ≤ v + a * (x - m) ^ 2)]; linarith
  obtain ⟨t, ht, et⟩ := r_add h v' w (by linarith)
  have et' := le_of_max hu0 et ht2 (by linarith)
  have ht3 : |t - (v + a * (x - m) ^ 2)| ≤ 640 * (e * B ^ 2) + 321 * (e * a * B ^ 2) := by
    have e1 : t - (v + a * (x - m) ^ 2) = (t - (v' + w)) + (v' + w - (v + a * (x - m) ^ 2)) := by ring
    rw [e1]; refine (abs_add_le _ _).trans ?_
    linarith
  have ht4 : |t| ≤ 12 * B ^ 2 := by
    have e1 : t = (t - (v + a * (x - m) ^ 2)) + (v + a * (x - m) ^ 2) := by ring
    rw [e1]; refine (abs_add_le _ _).trans ?_
    rw [abs_of_nonneg (by linarith : 0 ≤ v + a * (x - m) ^ 2)]; linarith
  -- the complement
  have ho : |1 - a'| ≤ 17 / 16 := by
    have e1 : 1 - a' = (1 - a) - (a' - a) := by ring
    rw [e1]; refine (abs_sub _ _).trans ?_
    rw [abs_of_nonneg (by linarith : 0 ≤ 1 - a)]
    have : e * a ≤ 1 / 256 * a := mul_le_mul_of_nonneg_right hee ha0
    linarith
  obtain ⟨q, hqq, eq⟩ := r_sub h 1 a' (by linarith)
  have eq' := le_of_max hu0 eq ho (by linarith)
  have hq3 : |q - (1 - a)| ≤ 18 * (e * a) := by
    have e1 : q - (1 - a) = (q - (1 - a')) - (a' - a) := by ring
    rw [e1]; refine (abs_sub _ _).trans ?_
    linarith
  have hq4 : |q| ≤ 9 / 8 := by
    have e1 : q = (q - (1 - a)) + (1 - a) := by ring
    rw [e1]; refine (abs_add_le _ _).trans ?_
    rw [abs_of_nonneg (by linarith : 0 ≤ 1 - a)]; linarith
  -- the variance
  have hz : |q * t| ≤ 14 * B ^ 2 := (mul_bd hq4 ht4).trans (by linarith)
  obtain ⟨vn, hvn, evn⟩ := r_mul h q t (by linarith)
  have evn' := le_of_max hu0 evn hz (by linarith)
  refine ⟨mn, vn, by rw [hdd, hi]; exact hmne, by rw [hdd, hi, hw, ht, hqq]; exact hvn, hmnn, hmn, ?_, ?_, ?_⟩
  · rw [hq]
    have e1 : vn - (1 - a) * (v + a * (x - m) ^ 2) =
        (vn - q * t) + (q - (1 - a)) * t + (1 - a) * (t - (v + a * (x - m) ^ 2)) := by ring
    rw [e1]
    have h1 := mul_bd hq3 ht4
    have h2 := mul_bd (abs_of_nonneg (by linarith : 0 ≤ 1 - a)).le ht3
    have h3 : (1 - a) * (640 * (e * B ^ 2) + 321 * (e * a * B ^ 2)) ≤ 640 * (e * B ^ 2) - 640 * (e * a * B ^ 2) + 321 * (e * a * B ^ 2) := by
      have : 0 ≤ a * (e * a * B ^ 2) := by positivity
      linarith [(by ring : (1 - a) * (640 * (e * B ^ 2) + 321 * (e * a * B ^ 2)) =
        640 * (e * B ^ 2) - 640 * (e * a * B ^ 2) + 321 * (e * a * B ^ 2) - 321 * (a * (e * a * B ^ 2)))]
    refine (abs_add_le _ _).trans ((add_le_add (abs_add_le _ _) le_rfl).trans ?_)
    linarith [(by ring : 18 * (e * a) * (12 * B ^ 2) = 216 * (e * a * B ^ 2))]
  · rw [hq]; exact mul_nonneg (by linarith) (by linarith)
  · rw [hq]
    have h1 : (1 - a) * (v + a * (x - m) ^ 2) ≤ (1 - a) * (4 * B ^ 2 + 4 * (a * B ^ 2)) :=
      mul_le_mul_of_nonneg_left (by linarith) (by linarith)
    have h2 : (1 - a) * (4 * B ^ 2 + 4 * (a * B ^ 2)) = 4 * B ^ 2 - 4 * (a * (a * B ^ 2)) := by ring
    have h3 : 0 ≤ a * (a * B ^ 2) := by positivity
    linarith

/-! ## Runs -/

/-- The two states agree on the number of observations; before the first one there is no mean and no (or zero) variance; afterwards the
mean and the variance are close. -/
def VarNear (e B : K) (s' s : EWMVarState K) : Prop :=
  s'.nobs = s.nobs ∧
  ((s.nobs = 0 ∧ s'.mean = .nan ∧ s.mean = .nan ∧ s'.var = s.var ∧ (s.var = .nan ∨ s.var = .fin 0)) ∨
   (∃ m m' v v', s'.mean = .fin m' ∧ s.mean = .fin m ∧ s'.var = .fin v' ∧ s.var = .fin v ∧ |m| ≤ B ∧ |m' - m| ≤ 48 * e * B ∧
      0 ≤ v ∧ v ≤ 4 * B ^ 2 ∧ |v' - v| ≤ 640 * e * B ^ 2))

theorem near_zero {E : K} (hE : 0 ≤ E) : Near E (.fin 0 : Fl K) (.fin 0) :=
  Or.inr ⟨0, 0, rfl, rfl, by simpa using hE⟩

theorem VarNear.step (h : IsRounding R u τ Ω) (pw : Fl K → Nat → Fl K) (hpw : PowNear u pw) (com B : K) (hf : VarFits u τ Ω com B)
    (adjust : Adjust) {s' s : EWMVarState K} (hs : VarNear (u * (1 + com)) B s' s) {x : Fl K} (hx : Sized B x) :
    VarNear (u * (1 + com)) B (Rounded.ewmvarStep R pw com adjust s' x).2 (ewmvarStep com adjust s x).2 ∧
      Near (640 * (u * (1 + com)) * B ^ 2) (Rounded.ewmvarStep R pw com adjust s' x).1 (ewmvarStep com adjust s x).1 := by
  have hc := hf.com_nonneg
  have hu0 := hf.u_nonneg
  have hB := hf.B_nonneg
  have hk : (0 : K) < 1 + com := by linarith
  have he0 : 0 ≤ u * (1 + com) := by positivity
  have hue : u ≤ u * (1 + com) := by nlinarith
  have hE : 0 ≤ 640 * (u * (1 + com)) * B ^ 2 := by positivity
  obtain ⟨mean', var', nobs'⟩ := s'
  obtain ⟨mean, var, nobs⟩ := s
  obtain ⟨hn, hs⟩ := hs
  simp only at hn hs
  subst hn
  rcases hx with rfl | ⟨x, rfl, hxB⟩
  · -- a missing value
    rcases hs with ⟨hn, rfl, rfl, rfl, hv⟩ | ⟨m, m', v, v', rfl, rfl, rfl, rfl, h1, h2, h3, h4, h5⟩
    · rcases hv with rfl | rfl
      · exact ⟨⟨rfl, Or.inl ⟨hn, rfl, rfl, rfl, Or.inr rfl⟩⟩, near_zero hE⟩
      · exact ⟨⟨rfl, Or.inl ⟨hn, rfl, rfl, rfl, Or.inr rfl⟩⟩, near_zero hE⟩
    · exact ⟨⟨rfl, Or.inr ⟨m, m', v, v', rfl, rfl, rfl, rfl, h1, h2, h3, h4, h5⟩⟩, Or.inr ⟨v', v, rfl, rfl, h5⟩⟩
  · obtain ⟨g, hg, dg, hlo⟩ := gain_near h pw hpw com B hf adjust nobs'
    have hgx := varAlpha_eq com hc adjust nobs'
    obtain ⟨g0, g1⟩ := varGain_range com hc adjust nobs'
    generalize varGain com adjust (nobs' + 1) = a at *
    rcases hs with ⟨hn, rfl, rfl, rfl, hv⟩ | ⟨m, m', v, v', rfl, rfl, rfl, rfl, h1, h2, h3, h4, h5⟩
    · -- the first value
      have hv0 : (if var'.isNan = true then (Fl.fin 0 : Fl K) else var') = .fin 0 := by
        rcases hv with rfl | rfl <;> rfl
      have z1 : Rounded.sub R (.fin x) (.fin x) = .fin 0 := by
        simp only [Rounded.sub, Fl.fin_sub, rnd, sub_self, h.zero]
      have z2 : Rounded.mul R (.fin g) (.fin 0) = .fin 0 := by
        simp only [Rounded.mul, Fl.fin_mul, rnd, mul_zero, h.zero]
      have z3 : Rounded.mul R (.fin 0) (.fin 0) = .fin 0 := by
        simp only [Rounded.mul, Fl.fin_mul, rnd, mul_zero, h.zero]
      have z4 : Rounded.add R (.fin 0) (.fin 0) = .fin 0 := by
        simp only [Rounded.add, Fl.fin_add, rnd, add_zero, h.zero]
      have hbig : |(1 : K) - g| ≤ Ω := by
        have hpr : u * (1 + com) ≤ 1 / 256 := by have := hf.precision; linarith
        have h1 : |g - a| ≤ 1 := dg.trans (by nlinarith)
        have e1 : (1 : K) - g = (1 - a) - (g - a) := by ring
        rw [e1]
        refine (abs_sub _ _).trans ?_
        rw [abs_of_nonneg (by linarith : (0 : K) ≤ 1 - a)]
        have := hf.overflow
        linarith
      obtain ⟨q, hq, -⟩ := r_sub h 1 g hbig
      have z5 : Rounded.mul R (.fin q) (.fin 0) = .fin 0 := by
        simp only [Rounded.mul, Fl.fin_mul, rnd, mul_zero, h.zero]
      obtain ⟨y, hy, ey⟩ := r_add h x 0 (by rw [add_zero]; have := hf.overflow_inputs; linarith)
      rw [add_zero] at ey
      have hτB : τ ≤ B := by
        have h1 := hf.underflow_inputs
        rcases le_total 0 τ with h0 | h0
        · nlinarith
        · linarith
      have ey' := le_of_max hu0 ey hxB hτB
      have eR : Rounded.ewmvarStep R pw com adjust ⟨.nan, var', nobs'⟩ (.fin x) = (.fin 0, ⟨.fin y, .fin 0, nobs' + 1⟩) := by
        simp only [Rounded.ewmvarStep, Fl.isNan_nan, Fl.isNan_fin, Bool.not_false, if_true, hg, z1, z2, z3, hq, hy, hv0, z4, z5]
      have eX : ewmvarStep com adjust ⟨.nan, var', nobs'⟩ (.fin x) = (.fin 0, ⟨.fin x, .fin 0, nobs' + 1⟩) := by
        simp only [ewmvarStep, Fl.isNan_nan, Fl.isNan_fin, Bool.not_false, if_true, hgx, hv0, Fl.fin_sub, Fl.fin_mul, Fl.fin_add, sub_self,
          mul_zero, add_zero]
      rw [eR, eX]
      have huB : u * B ≤ u * (1 + com) * B := mul_le_mul_of_nonneg_right hue hB
      have huB0 : 0 ≤ u * (1 + com) * B := by positivity
      exact ⟨⟨rfl, Or.inr ⟨x, y, 0, 0, rfl, rfl, rfl, rfl, hxB, ey'.trans (by linarith), le_refl _, by positivity, by simpa using hE⟩⟩,
        near_zero hE⟩
    · -- later values
      have hak : 1 / (1 + com) * (1 + com) = 1 := by field_simp
      have hτa : ∀ M : K, 0 ≤ M → τ * (1 + com) ≤ M → τ ≤ a * M := by
        intro M hM0 hM
        rcases le_total 0 τ with h0 | h0
        · have h1 : 1 / (1 + com) * (τ * (1 + com)) ≤ a * M := mul_le_mul hlo hM (by positivity) g0
          have h2 : 1 / (1 + com) * (τ * (1 + com)) = τ := by linear_combination τ * hak
          linarith
        · exact h0.trans (mul_nonneg g0 hM0)
      have hua : u ≤ u * (1 + com) * a := by
        have h1 := mul_le_mul_of_nonneg_left hlo he0
        have h2 : u * (1 + com) * (1 / (1 + com)) = u := by linear_combination u * hak
        linarith
      obtain ⟨mn, vn, e1, e2, e3, e4, e5, e6, e7⟩ := var_step_near (R := R) h (e := u * (1 + com)) (a := a) (a' := g) (B := B) (x := x)
        (m := m) (m' := m') (v := v) (v' := v') hu0 (by have := hf.precision; linarith) hB g0 g1 hua
        (by simpa using hτa 1 zero_le_one hf.underflow) (hτa B hB hf.underflow_inputs) (hτa (B ^ 2) (by positivity) hf.underflow_squares)
        (by have := hf.overflow; linarith) hf.overflow_inputs hf.overflow_squares dg hxB h1 h2 h3 h4 h5 he0
      have eR : Rounded.ewmvarStep R pw com adjust ⟨.fin m', .fin v', nobs'⟩ (.fin x) = (.fin vn, ⟨.fin mn, .fin vn, nobs' + 1⟩) := by
        simp only [Rounded.ewmvarStep, Fl.isNan_fin, Bool.not_false, if_true, Bool.false_eq_true, if_false, hg, e1, e2]
      have eX : ewmvarStep com adjust ⟨.fin m, .fin v, nobs'⟩ (.fin x) =
          (.fin ((1 - a) * (v + (x - m) * (a * (x - m)))),
            ⟨.fin (m + a * (x - m)), .fin ((1 - a) * (v + (x - m) * (a * (x - m)))), nobs' + 1⟩) := by
        simp only [ewmvarStep, Fl.isNan_fin, Bool.not_false, if_true, Bool.false_eq_true, if_false, hgx, Fl.fin_sub, Fl.fin_mul, Fl.fin_add]
      rw [eR, eX]
      exact ⟨⟨rfl, Or.inr ⟨_, mn, _, vn, rfl, rfl, rfl, rfl, e4, e3, e6, e7, e5⟩⟩, Or.inr ⟨_, _, rfl, rfl, e5⟩⟩

/-- **C184**: with floating point arithmetic of unit roundoff `u`, on a stream of any length whose values are NaN or at most `B`, the
variance returned at *every* step is within `640 u B^2 (1 + com)` of the exact one: rounding errors do not accumulate. -/
theorem C184_ewmvar_rounding (h : IsRounding R u τ Ω) (pw : Fl K → Nat → Fl K) (hpw : PowNear u pw) (com B : K)
    (hf : VarFits u τ Ω com B) (adjust : Adjust) (xs : List (Fl K)) (hx : ∀ x ∈ xs, Sized B x) (t : Nat) (ht : t < xs.length) :
    ∃ o' o, ((Rounded.ewmvar R pw com adjust).run xs)[t]? = some o' ∧ ((ewmvar com adjust).run xs)[t]? = some o ∧
      Near (640 * u * B ^ 2 * (1 + com)) o' o := by
  have key : ∀ (xs : List (Fl K)), (∀ x ∈ xs, Sized B x) → ∀ s' s, VarNear (u * (1 + com)) B s' s → ∀ t : Nat, t < xs.length →
      ∃ o' o, ((Rounded.ewmvar R pw com adjust).outsFrom s' xs)[t]? = some o' ∧ ((ewmvar com adjust).outsFrom s xs)[t]? = some o ∧
        Near (640 * u * B ^ 2 * (1 + com)) o' o := by
    intro xs
    induction xs with
    | nil => intro _ _ _ _ t ht; simp at ht
    | cons x xs ih =>
      intro hx s' s hs t ht
      obtain ⟨h1, h2⟩ := VarNear.step h pw hpw com B hf adjust hs (hx x (by simp))
      cases t with
      | zero =>
        refine ⟨_, _, rfl, rfl, ?_⟩
        have e : 640 * u * B ^ 2 * (1 + com) = 640 * (u * (1 + com)) * B ^ 2 := by ring
        rw [e]; exact h2
      | succ t => exact ih (fun y hy => hx y (by simp [hy])) _ _ h1 t (by simpa using ht)
  exact key xs hx _ _ ⟨rfl, Or.inl ⟨rfl, rfl, rfl, rfl, Or.inl rfl⟩⟩ t ht

/-- Correctly rounded powers are precise enough. -/
theorem powRounded_near (h : IsRounding R u τ Ω) (hu0 : 0 ≤ u) (hτ : τ ≤ 1) (hΩ : 1 ≤ Ω) : PowNear u (powRounded R) := by
  intro x n hx0 hx1
  have h1 : x ^ n ≤ 1 := pow_le_one₀ hx0 hx1
  have hb : |x ^ n| ≤ 1 := by rw [abs_of_nonneg (by positivity)]; exact h1
  obtain ⟨y, hy, ey⟩ := h.near (x ^ n) (by linarith)
  exact ⟨y, hy, (le_of_max hu0 ey hb hτ).trans (by linarith)⟩

/-- **C184** in float32 with correctly rounded powers: time constants up to `2^16`, inputs between `2^-50` and `2^60` in size. -/
theorem C184_float32 (com B : ℚ) (hc : 0 ≤ com) (hc2 : 1 + com ≤ 2 ^ 16) (hB : 1 / 2 ^ 50 ≤ B) (hB2 : B ≤ 2 ^ 60) (adjust : Adjust)
    (xs : List (Fl ℚ)) (hx : ∀ x ∈ xs, Sized B x) (t : Nat) (ht : t < xs.length) :
    ∃ o' o, ((Rounded.ewmvar float32.round (powRounded float32.round) com adjust).run xs)[t]? = some o' ∧
      ((ewmvar com adjust).run xs)[t]? = some o ∧ Near (640 * (1 / 2 ^ 24) * B ^ 2 * (1 + com)) o' o := by
  have hF := C178_ieee float32 float32_ok
  have e1 : (1 / 2 ^ float32.prec : ℚ) = 1 / 2 ^ 24 := rfl
  have e2 : (2 ^ float32.emin : ℚ) = 1 / 2 ^ 126 := by decide +kernel
  have e3 : float32.largest = 2 ^ 128 - 2 ^ 104 := by decide +kernel
  rw [e1, e2, e3] at hF
  have hB0 : 0 ≤ B := le_trans (by norm_num) hB
  have k1 : (1 / 2 ^ 50 : ℚ) ^ 2 ≤ B ^ 2 := pow_le_pow_left₀ (by norm_num) hB 2
  have k2 : B ^ 2 ≤ (2 ^ 60 : ℚ) ^ 2 := pow_le_pow_left₀ hB0 hB2 2
  refine C184_ewmvar_rounding hF _ (powRounded_near hF (by norm_num) (by norm_num) (by norm_num)) com B
    ⟨hc, by norm_num, hB0, ?_, ?_, ?_, ?_, ?_, ?_, ?_⟩ adjust xs hx t ht
  · norm_num at hc2 ⊢; linarith
  · norm_num at hc2 ⊢; linarith
  · norm_num at hc2 hB ⊢; linarith
  · norm_num at hc2 k1 ⊢; linarith
  · norm_num at hc2 ⊢; linarith
  · norm_num at hB2 ⊢; linarith
  · norm_num at k2 ⊢; linarith

/-- A concrete float32 run with a missing value (`com = 2`, `adjust=True`): the exact variances are 0, 0, 96/25 and 4416/361; the last
computed one is 3206725/2^18, and the hypotheses and the bound of `C184_float32` (`B = 5`) hold. -/
example :
    let xs : List (Fl ℚ) := [.fin 1, .nan, .fin 5, .fin (-3)]
    (Rounded.ewmvar float32.round (powRounded float32.round) (2 : ℚ) .yes).run xs = [.fin 0, .fin 0, .fin (1006633 / 262144), .fin (3206725 / 262144)] ∧
      (ewmvar (2 : ℚ) .yes).run xs = [.fin 0, .fin 0, .fin (96 / 25), .fin (4416 / 361)] ∧
      |(3206725 / 262144 : ℚ) - 4416 / 361| ≤ 640 * (1 / 2 ^ 24) * 5 ^ 2 * (1 + 2) ∧
      (0 : ℚ) ≤ 2 ∧ (1 + 2 : ℚ) ≤ 2 ^ 16 ∧ ((1 : ℚ) / 2 ^ 50 ≤ 5 ∧ (5 : ℚ) ≤ 2 ^ 60) := by
  decide +kernel

end Verif.Props
