import Verif.Model.Rounded
import Verif.Spec.Rounding
import Verif.Lemmas.EWMA
import Mathlib.Tactic.LinearCombination

/-! # Properties of the numerical modules with rounded arithmetic -/

set_option linter.unusedSectionVars false
set_option linter.unusedSimpArgs false
set_option linter.unusedVariables false

namespace Verif.Props
open Model Spec Lemmas
open Model.Rounded (rnd)
variable {K : Type} [Field K] [LinearOrder K] [IsStrictOrderedRing K]

/-! ## Exact arithmetic is the case without rounding -/

theorem rnd_fin (x : Fl K) : rnd Fl.fin x = x := by cases x <;> rfl

/-- The model used by all other properties is this one, with exact arithmetic. -/
theorem C178_exact_ewma (c : EWMACfg K) : Rounded.ewma Fl.fin c = Model.ewma c := by
  unfold Rounded.ewma Model.ewma
  congr 1
  funext s x
  simp only [Rounded.ewmaStep, ewmaStep, Rounded.oldWt, ewmaOldWt, Rounded.factor, ewmaFactor, Rounded.newWt, EWMACfg.newWt,
    Rounded.alpha, EWMACfg.alpha, Rounded.combine, Rounded.add, Rounded.sub, Rounded.mul, Rounded.div, rnd_fin]

theorem C178_exact_flax_ewma (c : EWMACfg K) : Rounded.flaxEwma Fl.fin c = Model.flaxEwma c := by
  unfold Rounded.flaxEwma Model.flaxEwma
  congr 1
  funext s x
  simp only [Rounded.flaxEwmaStep, flaxEwmaStep, Rounded.oldWt, ewmaOldWt, Rounded.factor, ewmaFactor, Rounded.newWt, EWMACfg.newWt,
    Rounded.alpha, EWMACfg.alpha, Rounded.combine, Rounded.add, Rounded.sub, Rounded.mul, Rounded.div, rnd_fin]

theorem C178_exact_numba (c : EWMACfg K) : Rounded.numbaEwma Fl.fin c = Model.numbaEwma c := by
  unfold Rounded.numbaEwma Model.numbaEwma
  congr 1
  funext s x
  simp only [Rounded.numbaStep, numbaStep, Rounded.newWt, EWMACfg.newWt,
    Rounded.alpha, EWMACfg.alpha, Rounded.combine, Rounded.add, Rounded.sub, Rounded.mul, Rounded.div, rnd_fin]

theorem C179_exact_ewmvar (com : K) (adjust : Adjust) : Rounded.ewmvar Fl.fin flPow com adjust = Model.ewmvar com adjust := by
  unfold Rounded.ewmvar Model.ewmvar
  congr 1
  funext s x
  cases adjust <;>
  simp only [Rounded.ewmvarStep, ewmvarStep, Rounded.varAlpha, ewmvarAlpha,
    Rounded.add, Rounded.sub, Rounded.mul, Rounded.div, rnd_fin]

/-! ## One operation -/

section ops
variable {R : K → Fl K} {u τ Ω : K}

theorem r_add (h : IsRounding R u τ Ω) (a b : K) (hb : |a + b| ≤ Ω) :
    ∃ y, Rounded.add R (.fin a) (.fin b) = .fin y ∧ |y - (a + b)| ≤ u * max |a + b| τ := h.near _ hb

theorem r_sub (h : IsRounding R u τ Ω) (a b : K) (hb : |a - b| ≤ Ω) :
    ∃ y, Rounded.sub R (.fin a) (.fin b) = .fin y ∧ |y - (a - b)| ≤ u * max |a - b| τ := by
  have := h.near _ hb
  simpa only [Rounded.sub, Fl.fin_sub, rnd] using this

theorem r_mul (h : IsRounding R u τ Ω) (a b : K) (hb : |a * b| ≤ Ω) :
    ∃ y, Rounded.mul R (.fin a) (.fin b) = .fin y ∧ |y - a * b| ≤ u * max |a * b| τ := h.near _ hb

theorem r_div (h : IsRounding R u τ Ω) (a b : K) (hb0 : b ≠ 0) (hb : |a / b| ≤ Ω) :
    ∃ y, Rounded.div R (.fin a) (.fin b) = .fin y ∧ |y - a / b| ≤ u * max |a / b| τ := by
  have := h.near _ hb
  simpa only [Rounded.div, Fl.fin_div_of_ne _ hb0, rnd] using this

/-- Error of an operation whose exact result is at most `M`, which is at least `τ`. -/
theorem le_of_max {y x M : K} (hu : 0 ≤ u) (h : |y - x| ≤ u * max |x| τ) (hx : |x| ≤ M) (ht : τ ≤ M) : |y - x| ≤ u * M :=
  h.trans (mul_le_mul_of_nonneg_left (max_le hx ht) hu)

theorem mono_fin (h : IsMonotoneRounding R) {x y a b : K} (hxy : x ≤ y) (hx : R x = .fin a) (hy : R y = .fin b) : a ≤ b := by
  have := h.mono x y hxy
  rw [hx, hy, Fl.lt_fin] at this
  simpa using this

theorem nonneg_fin (h : IsMonotoneRounding R) {x a : K} (hx0 : 0 ≤ x) (hx : R x = .fin a) : 0 ≤ a :=
  mono_fin h hx0 h.zero hx

theorem le_one_fin (h : IsMonotoneRounding R) {x a : K} (hx0 : x ≤ 1) (hx : R x = .fin a) : a ≤ 1 :=
  mono_fin h hx0 hx h.one

/-- One rounded weighted mean. -/
theorem combine_near (h : IsRounding R u τ Ω) (hu0 : 0 ≤ u) (hu : 64 * u ≤ 1) (p n m x M : K) (hp : 0 ≤ p) (hn : 0 ≤ n)
    (hs : 0 < p + n) (hm : |m| ≤ M) (hx : |x| ≤ M) (h1 : τ ≤ p + n) (h2 : τ ≤ (p + n) * M) (h3 : τ ≤ M)
    (o1 : 4 * ((p + n) * M) ≤ Ω) (o2 : 4 * (p + n) ≤ Ω) (o3 : 4 * M ≤ Ω) :
    ∃ y, Rounded.combine R (.fin p) (.fin m) (.fin n) (.fin x) = .fin y ∧
      |y - (p * m + n * x) / (p + n)| ≤ 8 * u * M := by
  have hM : 0 ≤ M := (abs_nonneg m).trans hm
  have hSM : 0 ≤ (p + n) * M := by positivity
  have bpm : |p * m| ≤ p * M := by rw [abs_mul, abs_of_nonneg hp]; exact mul_le_mul_of_nonneg_left hm hp
  have bnx : |n * x| ≤ n * M := by rw [abs_mul, abs_of_nonneg hn]; exact mul_le_mul_of_nonneg_left hx hn
  have hpM : 0 ≤ p * M := by positivity
  have hnM : 0 ≤ n * M := by positivity
  have eSM : (p + n) * M = p * M + n * M := by ring
  obtain ⟨a, ha, ea⟩ := r_mul h p m (by linarith)
  obtain ⟨b, hb, eb⟩ := r_mul h n x (by linarith)
  have ea' := le_of_max hu0 ea (by linarith : |p * m| ≤ (p + n) * M) h2
  have eb' := le_of_max hu0 eb (by linarith : |n * x| ≤ (p + n) * M) h2
  have uS : u * ((p + n) * M) ≤ (p + n) * M / 64 := by nlinarith
  have uS0 : 0 ≤ u * ((p + n) * M) := by positivity
  have hab : |a + b - (p * m + n * x)| ≤ 2 * (u * ((p + n) * M)) := by
    have : a + b - (p * m + n * x) = (a - p * m) + (b - n * x) := by ring
    rw [this]; exact (abs_add_le _ _).trans (by linarith)
  have hN : |p * m + n * x| ≤ (p + n) * M := (abs_add_le _ _).trans (by linarith)
  have hab2 : |a + b| ≤ 2 * ((p + n) * M) := by
    have : a + b = (a + b - (p * m + n * x)) + (p * m + n * x) := by ring
    rw [this]; exact (abs_add_le _ _).trans (by linarith)
  obtain ⟨c, hc, ec⟩ := r_add h a b (by linarith)
  have ec' := le_of_max hu0 ec hab2 (by linarith)
  have hcN : |c - (p * m + n * x)| ≤ 4 * (u * ((p + n) * M)) := by
    have : c - (p * m + n * x) = (c - (a + b)) + (a + b - (p * m + n * x)) := by ring
    rw [this]; exact (abs_add_le _ _).trans (by linarith)
  obtain ⟨d, hd, ed⟩ := r_add h p n (by rw [abs_of_pos hs]; linarith)
  have ed' := le_of_max hu0 ed (abs_of_pos hs).le h1
  have uP : u * (p + n) ≤ (p + n) / 64 := by nlinarith
  have hdl : 63 / 64 * (p + n) ≤ d := by have := (abs_le.mp ed').1; linarith
  have hd0 : 0 < d := by linarith
  have hq : |c / d - (p * m + n * x) / (p + n)| ≤ 6 * u * M := by
    have e : c / d - (p * m + n * x) / (p + n) =
        ((c - (p * m + n * x)) - (p * m + n * x) / (p + n) * (d - (p + n))) / d := by
      field_simp; ring
    rw [e, abs_div, abs_of_pos hd0, div_le_iff₀ hd0]
    have hr : |(p * m + n * x) / (p + n)| ≤ M := by
      rw [abs_div, abs_of_pos hs, div_le_iff₀ hs]; linarith
    have h5 : |(p * m + n * x) / (p + n) * (d - (p + n))| ≤ M * (u * (p + n)) := by
      rw [abs_mul]; exact mul_le_mul hr ed' (abs_nonneg _) hM
    have h6 := abs_sub (c - (p * m + n * x)) ((p * m + n * x) / (p + n) * (d - (p + n)))
    have h7 : 6 * u * M * (63 / 64 * (p + n)) ≤ 6 * u * M * d := mul_le_mul_of_nonneg_left hdl (by positivity)
    have h8 : M * (u * (p + n)) = u * ((p + n) * M) := by ring
    have h9 : 6 * u * M * (63 / 64 * (p + n)) = 6 * (63 / 64) * (u * ((p + n) * M)) := by ring
    linarith
  have hr : |(p * m + n * x) / (p + n)| ≤ M := by
    rw [abs_div, abs_of_pos hs, div_le_iff₀ hs]; linarith
  have uM : u * M ≤ M / 64 := by nlinarith
  have uM0 : 0 ≤ u * M := by positivity
  have hq2 : |c / d| ≤ 2 * M := by
    have : c / d = (c / d - (p * m + n * x) / (p + n)) + (p * m + n * x) / (p + n) := by ring
    rw [this]; exact (abs_add_le _ _).trans (by linarith)
  obtain ⟨y, hy, ey⟩ := r_div h c d hd0.ne' (by linarith)
  have ey' := le_of_max hu0 ey hq2 (by linarith)
  refine ⟨y, ?_, ?_⟩
  · simp only [Rounded.combine, ha, hb, hc, hd, hy]
  · have : y - (p * m + n * x) / (p + n) = (y - c / d) + (c / d - (p * m + n * x) / (p + n)) := by ring
    rw [this]; exact (abs_add_le _ _).trans (by linarith)

end ops
end Verif.Props
