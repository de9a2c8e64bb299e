import Verif.Props.Rounded

/-! # Rounding errors of the EWMA do not accumulate -/

set_option linter.unusedSectionVars false
set_option linter.unusedSimpArgs false
set_option linter.unusedVariables false

namespace Verif.Props
open Model Spec Lemmas
open Model.Rounded (rnd)
variable {K : Type} [Field K] [LinearOrder K] [IsStrictOrderedRing K]
variable {R : K → Fl K} {u τ Ω : K}

/-- The computed smoothing factor and the computed decay. -/
theorem alpha_near (h : IsRounding R u τ Ω) (c : EWMACfg K) (hc : 0 ≤ c.com) (hu0 : 0 ≤ u) (hu : 64 * u ≤ al c) (ht : τ ≤ al c)
    (ho : 8 * (1 + c.com) ≤ Ω) :
    ∃ a f, Rounded.alpha R c = .fin a ∧ Rounded.sub R (.fin 1) (Rounded.alpha R c) = .fin f ∧
      |a - al c| ≤ 3 * u * al c ∧ 0 ≤ f ∧ f ≤ 1 ∧ |f - (1 - al c)| ≤ 4 * u := by
  have ha0 := al_pos c hc
  have ha1 := al_le_one c hc
  have e1 : al c * (1 + c.com) = 1 := by unfold al; field_simp
  have hu1 : 64 * u ≤ 1 := hu.trans ha1
  obtain ⟨s, hs, es⟩ := r_add h 1 c.com (by rw [abs_of_nonneg (by linarith)]; linarith)
  have es' := le_of_max hu0 es (abs_of_nonneg (by linarith : (0 : K) ≤ 1 + c.com)).le (by linarith)
  have hsl : 63 / 64 * (1 + c.com) ≤ s := by
    have := (abs_le.mp es').1
    nlinarith
  have hs0 : 0 < s := by nlinarith
  have hs1 : 1 ≤ s := mono_fin h.toIsMonotoneRounding (by linarith : (1 : K) ≤ 1 + c.com) h.one hs
  have d1 : |1 / s - al c| ≤ 64 / 63 * (u * al c) := by
    have : 1 / s - al c = (al c * ((1 + c.com) - s)) / s := by
      field_simp; linear_combination -e1
    rw [this, abs_div, abs_of_pos hs0, div_le_iff₀ hs0, abs_mul, abs_of_pos ha0, abs_sub_comm]
    have h2 : 64 / 63 * (u * al c) * (63 / 64 * (1 + c.com)) ≤ 64 / 63 * (u * al c) * s :=
      mul_le_mul_of_nonneg_left hsl (by positivity)
    have h3 : 64 / 63 * (u * al c) * (63 / 64 * (1 + c.com)) = u := by linear_combination u * e1
    have h4 : al c * |s - (1 + c.com)| ≤ al c * (u * (1 + c.com)) := mul_le_mul_of_nonneg_left es' ha0.le
    have h5 : al c * (u * (1 + c.com)) = u := by linear_combination u * e1
    linarith
  have ua : u * al c ≤ al c / 64 := by nlinarith
  have ua0 : 0 ≤ u * al c := by positivity
  have hq0 : 0 ≤ 1 / s := by positivity
  have hq1 : 1 / s ≤ 1 := by rw [div_le_one hs0]; exact hs1
  have hq2 : |1 / s| ≤ 33 / 32 * al c := by
    rw [abs_of_nonneg hq0]; have := (abs_le.mp d1).2; linarith
  obtain ⟨a, haa, ea⟩ := r_div h 1 s hs0.ne' (by rw [abs_of_nonneg hq0]; nlinarith)
  have ea' := le_of_max hu0 ea hq2 (by linarith)
  have hda : |a - al c| ≤ 3 * u * al c := by
    have : a - al c = (a - 1 / s) + (1 / s - al c) := by ring
    rw [this]; exact (abs_add_le _ _).trans (by linarith)
  have hal : Rounded.alpha R c = .fin a := by simp only [Rounded.alpha, hs, haa]
  have hRa : R (1 / s) = .fin a := by
    simpa only [Rounded.div, Fl.fin_div_of_ne _ hs0.ne', rnd] using haa
  have a0 : 0 ≤ a := nonneg_fin h.toIsMonotoneRounding hq0 hRa
  have a1 : a ≤ 1 := le_one_fin h.toIsMonotoneRounding hq1 hRa
  obtain ⟨f, hf, ef⟩ := r_sub h 1 a (by rw [abs_of_nonneg (by linarith)]; linarith)
  have ef' := le_of_max hu0 ef (by rw [abs_of_nonneg (by linarith)]; linarith : |1 - a| ≤ 1) (by linarith)
  have hRf : R (1 - a) = .fin f := by simpa only [Rounded.sub, Fl.fin_sub, rnd] using hf
  refine ⟨a, f, hal, by rw [hal]; exact hf, hda, nonneg_fin h.toIsMonotoneRounding (by linarith) hRf,
    le_one_fin h.toIsMonotoneRounding (by linarith) hRf, ?_⟩
  have : f - (1 - al c) = (f - (1 - a)) - (a - al c) := by ring
  rw [this]
  have h3 : 3 * u * al c ≤ 3 * u := by nlinarith
  exact (abs_sub _ _).trans (by linarith)

/-- How the computed weight approximates the exact one. -/
def WtOk (c : EWMACfg K) (u w w' : K) : Prop :=
  match c.adjust with
  | .yes => 1 ≤ w ∧ al c * w ≤ 1 ∧ |w' - w| ≤ 8 * u * w ^ 2
  | .no => w = 1 ∧ w' = 1
  | .linear => 0 ≤ w ∧ 0 ≤ w' ∧
    |min w' c.com - min w c.com| ≤ 8 * u * (min w c.com + 1) ^ 2 - 3 * u * (min w c.com + 1)

/-- Two shares of an old and a new weight with nearby old weights. -/
theorem share_near {p p' d : K} (hp : 0 ≤ p) (hu0 : 0 ≤ u) (hd : |p' - p| ≤ 8 * u * (p + 1) ^ 2) (hs : 64 * u * (p + 1) ≤ 1) :
    7 / 8 * (p + 1) ≤ p' + 1 ∧ |p' / (p' + 1) - p / (p + 1)| ≤ 10 * u := by
  have h1 : 8 * u * (p + 1) ^ 2 ≤ 1 / 8 * (p + 1) := by nlinarith
  have h2 : 7 / 8 * (p + 1) ≤ p' + 1 := by have := (abs_le.mp hd).1; linarith
  have h3 : 0 < p' + 1 := by linarith
  have h4 : 0 < p + 1 := by linarith
  refine ⟨h2, ?_⟩
  have : p' / (p' + 1) - p / (p + 1) = (p' - p) / ((p' + 1) * (p + 1)) := by field_simp; ring
  rw [this, abs_div, abs_of_pos (mul_pos h3 h4), div_le_iff₀ (mul_pos h3 h4)]
  have h5 : 10 * u * (7 / 8 * (p + 1) * (p + 1)) ≤ 10 * u * ((p' + 1) * (p + 1)) :=
    mul_le_mul_of_nonneg_left (mul_le_mul_of_nonneg_right h2 h4.le) (by positivity)
  nlinarith [mul_nonneg hu0 (sq_nonneg (p + 1))]

set_option maxHeartbeats 1000000 in
/-- An observed step: the old weight, its share, and the next weight. -/
theorem weight_step (h : IsRounding R u τ Ω) (c : EWMACfg K) (hc : 0 ≤ c.com) (hu0 : 0 ≤ u) (hu : 64 * u ≤ al c) (ht : τ ≤ al c)
    (ho : 8 * (1 + c.com) ≤ Ω) (w w' : K) (hw : WtOk c u w w') :
    ∃ p n, Rounded.oldWt R c true false (.fin w') = .fin p ∧ Rounded.newWt R c = .fin n ∧ 0 ≤ p ∧ 0 ≤ n ∧
      7 / 8 ≤ p + n ∧ p + n ≤ 2 * (1 + c.com) ∧
      |p / (p + n) - aWt c true w / (aWt c true w + nw c)| ≤ 10 * u ∧
      aWt c true w / (aWt c true w + nw c) ≤ 1 - al c ∧
      ∃ w'', (if c.adjust.truthy then Rounded.add R (.fin p) (.fin n) else .fin 1) = .fin w'' ∧
        WtOk c u (if c.adjust.truthy then aWt c true w + nw c else 1) w'' := by
  have ha0 := al_pos c hc
  have ha1 := al_le_one c hc
  have e1 : al c * (1 + c.com) = 1 := by unfold al; field_simp
  have hu1 : 64 * u ≤ 1 := hu.trans ha1
  have huc : 64 * u * (1 + c.com) ≤ 1 := by
    have := mul_le_mul_of_nonneg_right hu (by linarith : 0 ≤ 1 + c.com); linarith
  have ht1 : τ ≤ 1 := ht.trans ha1
  obtain ⟨a, f, hal, hf, da, f0, f1, df⟩ := alpha_near h c hc hu0 hu ht ho
  cases hadj : c.adjust with
  | yes =>
    simp only [WtOk, hadj] at hw ⊢
    obtain ⟨w1, w2, w3⟩ := hw
    have hwc : w ≤ 1 + c.com := by nlinarith
    have huw : 64 * u * w ≤ 1 := by
      have := mul_le_mul_of_nonneg_left hwc (by positivity : 0 ≤ 64 * u); linarith
    have hb : 8 * u * w ^ 2 ≤ 1 / 8 * w := by
      have := mul_le_mul_of_nonneg_right huw (by linarith : 0 ≤ w); linarith
    obtain ⟨w3a, w3b⟩ := abs_le.mp w3
    have hw' : w' ≤ 9 / 8 * w := by linarith
    have hw0 : 0 ≤ w' := by linarith
    have hwf : w' * f ≤ 9 / 8 * w := by nlinarith
    have hwf0 : 0 ≤ w' * f := by positivity
    obtain ⟨p, hp, ep⟩ := r_mul h w' f (by rw [abs_of_nonneg hwf0]; linarith)
    have ep' := le_of_max hu0 ep (by rw [abs_of_nonneg hwf0]; exact hwf : |w' * f| ≤ 9 / 8 * w) (by linarith)
    have p0 : 0 ≤ p := nonneg_fin h.toIsMonotoneRounding hwf0 hp
    have fl : 0 ≤ 1 - al c := by linarith
    have dp : |p - w * (1 - al c)| ≤ 8 * u * w ^ 2 * (1 - al c) + 6 * u * w := by
      have : p - w * (1 - al c) = (p - w' * f) + w' * (f - (1 - al c)) + (w' - w) * (1 - al c) := by ring
      rw [this]
      have k1 : |w' * (f - (1 - al c))| ≤ 9 / 8 * w * (4 * u) := by
        rw [abs_mul, abs_of_nonneg hw0]; exact mul_le_mul hw' df (abs_nonneg _) (by positivity)
      have k2 : |(w' - w) * (1 - al c)| ≤ 8 * u * w ^ 2 * (1 - al c) := by
        rw [abs_mul, abs_of_nonneg fl]; exact mul_le_mul_of_nonneg_right w3 fl
      have k3 := abs_add_le (p - w' * f + w' * (f - (1 - al c))) ((w' - w) * (1 - al c))
      have k4 := abs_add_le (p - w' * f) (w' * (f - (1 - al c)))
      have k5 : 0 ≤ u * w := by positivity
      nlinarith
    set q := w * (1 - al c) with hq
    have q0 : 0 ≤ q := by positivity
    have hqw : w ≤ q + 1 := by rw [hq]; linarith
    have key : w ^ 2 * (1 - al c) ≤ (q + 1) ^ 2 - (q + 1) := by
      have : (q + 1) ^ 2 - (q + 1) - w ^ 2 * (1 - al c) = (w * (1 - al c)) * (1 - al c * w) := by rw [hq]; ring
      have h2 : 0 ≤ (w * (1 - al c)) * (1 - al c * w) := mul_nonneg q0 (by linarith)
      linarith
    have dp2 : |p - q| ≤ 8 * u * (q + 1) ^ 2 - 2 * u * (q + 1) := by
      have m1 : 8 * u * (w ^ 2 * (1 - al c)) ≤ 8 * u * ((q + 1) ^ 2 - (q + 1)) := mul_le_mul_of_nonneg_left key (by positivity)
      have m2 : 6 * u * w ≤ 6 * u * (q + 1) := mul_le_mul_of_nonneg_left hqw (by positivity)
      linarith
    have hq1 : al c * (q + 1) ≤ 1 := by
      have : al c * (q + 1) = 1 - (1 - al c) * (1 - al c * w) := by rw [hq]; ring
      have h2 : 0 ≤ (1 - al c) * (1 - al c * w) := mul_nonneg fl (by linarith)
      linarith
    have hqc : q + 1 ≤ 1 + c.com := by nlinarith
    have huq : 64 * u * (q + 1) ≤ 1 := by
      have := mul_le_mul_of_nonneg_left hqc (by positivity : 0 ≤ 64 * u); linarith
    have dp3 : |p - q| ≤ 8 * u * (q + 1) ^ 2 := by
      have : 0 ≤ u * (q + 1) := by positivity
      linarith
    obtain ⟨hs1, hs2⟩ := share_near (d := 0) q0 hu0 dp3 huq
    have hb2 : 8 * u * (q + 1) ^ 2 ≤ 1 / 8 * (q + 1) := by
      have := mul_le_mul_of_nonneg_right huq (by linarith : 0 ≤ q + 1); linarith
    have hpq : p + 1 ≤ 9 / 8 * (q + 1) := by have := (abs_le.mp dp3).2; linarith
    have eaw : aWt c true w = q := by simp [aWt, hadj, hq]
    have enw : nw c = 1 := by simp [nw, hadj, Adjust.truthy]
    obtain ⟨w'', hw'', ew⟩ := r_add h p 1 (by rw [abs_of_nonneg (by linarith)]; linarith)
    have ew' := le_of_max hu0 ew (by rw [abs_of_nonneg (by linarith)]; exact hpq : |p + 1| ≤ 9 / 8 * (q + 1)) (by linarith)
    refine ⟨p, 1, ?_, by simp [Rounded.newWt, hadj, Adjust.truthy], p0, zero_le_one, by linarith, by linarith, ?_, ?_, w'', ?_, ?_⟩
    · unfold Rounded.oldWt Rounded.factor
      simp only [hadj, reduceCtorEq, if_false, hf, hp]
      cases c.ignoreNa <;> simp [hp]
    · rw [eaw, enw]; exact hs2
    · rw [eaw, enw, div_le_iff₀ (by linarith)]
      linarith
    · simp only [Adjust.truthy, if_true, hw'']
    · simp only [Adjust.truthy, if_true, eaw, enw]
      refine ⟨by linarith, hq1, ?_⟩
      have : w'' - (q + 1) = (w'' - (p + 1)) + (p - q) := by ring
      rw [this]
      have := abs_add_le (w'' - (p + 1)) (p - q)
      have m3 : 0 ≤ u * (q + 1) := by positivity
      linarith
  | no =>
    simp only [WtOk, hadj] at hw ⊢
    obtain ⟨rfl, rfl⟩ := hw
    obtain ⟨p, hp, ep⟩ := r_mul h 1 f (by rw [one_mul, abs_of_nonneg f0]; linarith)
    rw [one_mul] at ep
    have ep' := le_of_max hu0 ep (by rw [abs_of_nonneg f0]; exact f1 : |f| ≤ 1) ht1
    have p0 : 0 ≤ p := nonneg_fin h.toIsMonotoneRounding (by rw [one_mul]; exact f0) hp
    have fl : 0 ≤ 1 - al c := by linarith
    have dp : |p - (1 - al c)| ≤ 5 * u := by
      have : p - (1 - al c) = (p - f) + (f - (1 - al c)) := by ring
      rw [this]; exact (abs_add_le _ _).trans (by linarith)
    obtain ⟨dpa, dpb⟩ := abs_le.mp dp
    obtain ⟨daa, dab⟩ := abs_le.mp da
    have hua : u * al c ≤ u := by nlinarith
    have hua0 : 0 ≤ u * al c := by positivity
    have a0 : 0 ≤ a := by nlinarith
    have hS : 7 / 8 ≤ p + a := by nlinarith
    have hS2 : p + a ≤ 9 / 8 := by nlinarith
    have eaw : aWt c true 1 = 1 - al c := by simp [aWt, hadj]
    have enw : nw c = al c := by simp [nw, hadj, Adjust.truthy]
    have el : (1 - al c) / (1 - al c + al c) = 1 - al c := by rw [sub_add_cancel, div_one]
    refine ⟨p, a, ?_, by simp [Rounded.newWt, hadj, Adjust.truthy, hal], p0, a0, hS, by linarith, ?_, ?_, 1, ?_, ?_⟩
    · unfold Rounded.oldWt Rounded.factor
      simp only [hadj, reduceCtorEq, if_false, hf, hp]
      cases c.ignoreNa <;> simp [hp]
    · rw [eaw, enw, el]
      have hS0 : 0 < p + a := by linarith
      have : p / (p + a) - (1 - al c) = (al c * (p - (1 - al c)) - (1 - al c) * (a - al c)) / (p + a) := by
        field_simp; ring
      rw [this, abs_div, abs_of_pos hS0, div_le_iff₀ hS0]
      have k1 : |al c * (p - (1 - al c))| ≤ 1 * (5 * u) := by
        rw [abs_mul, abs_of_pos ha0]; exact mul_le_mul ha1 dp (abs_nonneg _) zero_le_one
      have k2 : |(1 - al c) * (a - al c)| ≤ 1 * (3 * u * al c) := by
        rw [abs_mul, abs_of_nonneg fl]; exact mul_le_mul (by linarith) da (abs_nonneg _) zero_le_one
      have k1' : |al c * (p - (1 - al c))| ≤ al c * (5 * u) := by
        rw [abs_mul, abs_of_pos ha0]; exact mul_le_mul_of_nonneg_left dp ha0.le
      have k3 := abs_sub (al c * (p - (1 - al c))) ((1 - al c) * (a - al c))
      have k4 : 10 * u * (7 / 8) ≤ 10 * u * (p + a) := mul_le_mul_of_nonneg_left hS (by positivity)
      nlinarith
    · rw [eaw, enw, el]
    · simp [Adjust.truthy]
    · simp [Adjust.truthy]
  | linear =>
    simp only [WtOk, hadj] at hw ⊢
    obtain ⟨w0, w0', w3⟩ := hw
    have eaw : aWt c true w = min w c.com := by simp [aWt, hadj]
    have enw : nw c = 1 := by simp [nw, hadj, Adjust.truthy]
    set q := min w c.com with hq
    set q' := min w' c.com with hq'
    have q0 : 0 ≤ q := le_min w0 hc
    have q0' : 0 ≤ q' := le_min w0' hc
    have hqc : q ≤ c.com := min_le_right _ _
    have hqc' : q' ≤ c.com := min_le_right _ _
    have huq : 64 * u * (q + 1) ≤ 1 := by
      have := mul_le_mul_of_nonneg_left (by linarith : q + 1 ≤ 1 + c.com) (by positivity : 0 ≤ 64 * u); linarith
    have hb2 : 8 * u * (q + 1) ^ 2 ≤ 1 / 8 * (q + 1) := by
      have := mul_le_mul_of_nonneg_right huq (by linarith : 0 ≤ q + 1); linarith
    have uq0 : 0 ≤ u * (q + 1) := by positivity
    have hq'q : q' ≤ 9 / 8 * (q + 1) := by have := (abs_le.mp w3).2; linarith
    obtain ⟨p, hp, ep⟩ := r_mul h q' 1 (by rw [mul_one, abs_of_nonneg q0']; linarith)
    rw [mul_one] at ep
    have ep' := le_of_max hu0 ep (by rw [abs_of_nonneg q0']; exact hq'q : |q'| ≤ 9 / 8 * (q + 1)) (by linarith)
    have p0 : 0 ≤ p := nonneg_fin h.toIsMonotoneRounding (by rw [mul_one]; exact q0') hp
    have dp : |p - q| ≤ 8 * u * (q + 1) ^ 2 - 3 * u * (q + 1) + u * (9 / 8 * (q + 1)) := by
      have : p - q = (p - q') + (q' - q) := by ring
      rw [this]; exact (abs_add_le _ _).trans (by linarith)
    have dp3 : |p - q| ≤ 8 * u * (q + 1) ^ 2 := dp.trans (by linarith)
    obtain ⟨hs1, hs2⟩ := share_near (d := 0) q0 hu0 dp3 huq
    have hpq : p + 1 ≤ 9 / 8 * (q + 1) := by have := (abs_le.mp dp3).2; linarith
    obtain ⟨w'', hw'', ew⟩ := r_add h p 1 (by rw [abs_of_nonneg (by linarith)]; linarith)
    have ew' := le_of_max hu0 ew (by rw [abs_of_nonneg (by linarith)]; exact hpq : |p + 1| ≤ 9 / 8 * (q + 1)) (by linarith)
    have w0'' : 0 ≤ w'' := nonneg_fin h.toIsMonotoneRounding (by linarith : 0 ≤ p + 1) hw''
    have dw : |w'' - (q + 1)| ≤ 8 * u * (q + 1) ^ 2 := by
      have : w'' - (q + 1) = (w'' - (p + 1)) + (p - q) := by ring
      rw [this]; exact (abs_add_le _ _).trans (by linarith)
    refine ⟨p, 1, ?_, by simp [Rounded.newWt, hadj, Adjust.truthy], p0, zero_le_one, by linarith, by linarith, ?_, ?_, w'', ?_, ?_⟩
    · unfold Rounded.oldWt Rounded.factor
      rw [min_fin]
      simp only [hadj, if_true, ← hq', Bool.false_eq_true, if_false, hp]
      cases c.ignoreNa <;> simp [hp]
    · rw [eaw, enw]; exact hs2
    · rw [eaw, enw, div_le_iff₀ (by linarith)]
      nlinarith
    · simp only [Adjust.truthy, if_true, hw'']
    · simp only [Adjust.truthy, if_true, eaw, enw]
      refine ⟨by linarith, w0'', ?_⟩
      obtain ⟨dw1, dw2⟩ := abs_le.mp dw
      rcases le_total (q + 1) c.com with hle | hle
      · rw [min_eq_left hle]
        have k : |min w'' c.com - (q + 1)| ≤ |w'' - (q + 1)| := by
          rcases le_total w'' c.com with h1 | h1
          · rw [min_eq_left h1]
          · rw [min_eq_right h1, abs_of_nonneg (by linarith), abs_of_nonneg (by linarith)]; linarith
        refine k.trans (dw.trans ?_)
        have : 8 * u * (q + 1 + 1) ^ 2 - 3 * u * (q + 1 + 1) - 8 * u * (q + 1) ^ 2 = u * (13 * (q + 1) + 5) := by ring
        have h2 : 0 ≤ u * (13 * (q + 1) + 5) := by positivity
        linarith
      · rw [min_eq_right hle]
        have hr : 0 ≤ 8 * u * (c.com + 1) ^ 2 - 3 * u * (c.com + 1) := by
          have : 8 * u * (c.com + 1) ^ 2 - 3 * u * (c.com + 1) = u * (c.com + 1) * (8 * c.com + 5) := by ring
          rw [this]; positivity
        rcases le_total c.com w'' with h1 | h1
        · rw [min_eq_right h1, sub_self, abs_zero]; exact hr
        · rw [min_eq_left h1, abs_of_nonpos (by linarith)]
          -- t = q + 1 - com is between 0 and 1
          have e2 : c.com - w'' ≤ 8 * u * (q + 1) ^ 2 - (q + 1 - c.com) := by linarith
          set t := q + 1 - c.com with htt
          have t0 : 0 ≤ t := by linarith
          have t1 : t ≤ 1 := by linarith
          have e3 : q + 1 = c.com + t := by rw [htt]; ring
          rw [e3] at e2
          have e4 : 8 * u * (c.com + 1) ^ 2 - 8 * u * (c.com + t) ^ 2 = 8 * u * ((1 - t) * (2 * c.com + 1 + t)) := by ring
          have e5 : 8 * u * ((1 - t) * (c.com + 1)) ≤ 8 * u * ((1 - t) * (2 * c.com + 1 + t)) :=
            mul_le_mul_of_nonneg_left (mul_le_mul_of_nonneg_left (by linarith) (by linarith)) (by positivity)
          have e6 : t * (64 * u * (1 + c.com)) ≤ t * 1 := mul_le_mul_of_nonneg_left huc t0
          have e7 : 0 ≤ u * (1 + c.com) * t := by positivity
          have e8 : 0 ≤ u * (1 + c.com) := by positivity
          nlinarith
end Verif.Props
