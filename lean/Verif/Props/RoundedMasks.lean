import Verif.Model.RoundedMasks
import Verif.Props.RoundedMean

/-! # Masked statistics in floating point -/

set_option linter.unusedSectionVars false
set_option linter.unusedSimpArgs false
set_option linter.unusedVariables false

namespace Verif.Props
open Model Spec Lemmas
open Model.Rounded (rnd)
variable {K : Type} [Field K] [LinearOrder K] [IsStrictOrderedRing K]
variable {R : K → Fl K} {u τ Ω : K}

/-! ## The exact model is the case without rounding -/

theorem C191_exact (big : K) (l : Line K) : Rounded.maskMean Fl.fin List.sum big l = maskMean big l := by
  unfold Rounded.maskMean maskMean Rounded.div
  exact rnd_fin _

theorem exact_sub (a b : Fl K) : Rounded.sub Fl.fin a b = a - b := rnd_fin _
theorem exact_mul (a b : Fl K) : Rounded.mul Fl.fin a b = a * b := rnd_fin _
theorem exact_div (a b : Fl K) : Rounded.div Fl.fin a b = a / b := rnd_fin _
theorem exact_add (a b : Fl K) : Rounded.add Fl.fin a b = a + b := rnd_fin _

theorem C192_exact (root : K → K) (eps big : K) (ac : Bool) (l : Line K) :
    Rounded.maskStd Fl.fin List.sum (Fl.sqrt root) eps big ac l = maskStd root eps big ac l ∧
    Rounded.maskNormalize Fl.fin List.sum (Fl.sqrt root) eps big ac l = maskNormalize root eps big ac l := by
  have h : Rounded.maskStd Fl.fin List.sum (Fl.sqrt root) eps big ac l = maskStd root eps big ac l := by
    unfold Rounded.maskStd maskStd Rounded.stdOfVar stdOfVar Rounded.maskVarWith maskVarWith
    simp only [exact_sub, exact_mul, exact_div, exact_add, C191_exact]
  refine ⟨h, ?_⟩
  unfold Rounded.maskNormalize maskNormalize
  simp only [h, exact_div]

/-! ## Sums over a masked line -/

/-- A rounded sum divided by a count. -/
theorem quotient_near (h : IsFloat R u τ Ω) (hu0 : 0 ≤ u) (B : K) (hB : 0 ≤ B) (hτ : τ ≤ B) (N : Nat) (hN : 2 * u * N ≤ 1)
    (hΩ : 2 * (N + 1) * B ≤ Ω) (total : List (Fl K) → Fl K) (ht : ∀ l, FloatSum (Rounded.add R) l (total l)) (l : List (Fl K))
    (hok : SumOk R B l) (k : Nat) (hnz : nonzero l ≤ k) (hk : k ≤ N) :
    (k = 0 ∧ Rounded.div R (total l) (.fin (k : K)) = .nan ∧ l.sum / .fin (k : K) = .nan) ∨
    (0 < k ∧ ∃ y, Rounded.div R (total l) (.fin (k : K)) = .fin y ∧ R y = .fin y ∧ l.sum / .fin (k : K) = .fin ((l.map numOf).sum / k) ∧
      |y - (l.map numOf).sum / k| ≤ 2 * u * k * B ∧ |(l.map numOf).sum / k| ≤ B) := by
  have hBΩ : 2 * (N : K) * B ≤ Ω := by linarith
  obtain ⟨s, hs, -, es, es0⟩ := floatSum_near h hu0 B hB hτ N hN hBΩ (ht l) hok (hnz.trans hk)
  have bS := sum_abs_le B hB l hok
  have exact_sum : l.sum = .fin (l.map numOf).sum := sum_fin l fun x hx => by
    obtain ⟨v, hv, -⟩ := hok x hx; exact ⟨v, hv⟩
  rw [hs, exact_sum]
  generalize (l.map numOf).sum = S at es bS ⊢
  generalize nonzero l = n at *
  rcases Nat.eq_zero_or_pos k with hk0 | hk0
  · subst hk0
    have hn : n = 0 := by omega
    have s0 : s = 0 := es0 hn
    have S0 : S = 0 := by subst hn; simpa using bS
    subst s0 S0
    left
    have : (Fl.fin 0 : Fl K) / Fl.fin ((0 : Nat) : K) = .nan := by
      rw [Nat.cast_zero]; exact Fl.zero_div_zero
    exact ⟨rfl, by unfold Rounded.div; rw [this]; rfl, this⟩
  · right
    refine ⟨hk0, ?_⟩
    have k1 : (1 : K) ≤ k := by exact_mod_cast hk0
    have kne : (k : K) ≠ 0 := by linarith
    have kN : (k : K) ≤ N := by exact_mod_cast hk
    have nk : (n : K) ≤ k := by exact_mod_cast hnz
    have n0 : (0 : K) ≤ n := Nat.cast_nonneg n
    have e1 : 2 * u * B * (n * (n - 1)) ≤ 2 * u * B * (k * (k - 1)) := by
      refine mul_le_mul_of_nonneg_left ?_ (by positivity)
      nlinarith
    have q1 : 2 * u * k ≤ 1 := by nlinarith
    have e2 : 2 * u * B * (k * (k - 1)) ≤ B * (k - 1) := by
      have := mul_le_mul_of_nonneg_right q1 (mul_nonneg hB (by linarith : (0 : K) ≤ k - 1)); linarith
    have a2 : (n : K) * B ≤ k * B := mul_le_mul_of_nonneg_right nk hB
    have hsk : |s| ≤ 2 * B * k := by
      have : s = (s - S) + S := by ring
      rw [this]
      have a1 := abs_add_le (s - S) S
      linarith
    have hq : |s / k| ≤ 2 * B := by
      rw [abs_div, abs_of_nonneg (by linarith : (0 : K) ≤ k), div_le_iff₀ (by linarith)]; exact hsk
    have hkB : B ≤ N * B := by nlinarith
    obtain ⟨y, hy, ey⟩ := r_div h.toIsRounding s k kne (by linarith)
    have ey' := le_of_max hu0 ey hq (by linarith)
    have hRy : R y = .fin y := by
      unfold Rounded.div at hy
      rw [Fl.fin_div_of_ne _ kne] at hy
      exact h.idem _ _ hy
    refine ⟨y, hy, hRy, Fl.fin_div_of_ne _ kne, ?_, ?_⟩
    · have : y - S / k = (y - s / k) + (s - S) / k := by rw [sub_div]; ring
      rw [this]
      have a1 := abs_add_le (y - s / k) ((s - S) / k)
      have a3 : |(s - S) / k| ≤ 2 * u * B * (k - 1) := by
        rw [abs_div, abs_of_nonneg (by linarith : (0 : K) ≤ k), div_le_iff₀ (by linarith)]
        linarith
      linarith
    · rw [abs_div, abs_of_nonneg (by linarith : (0 : K) ≤ k), div_le_iff₀ (by linarith)]
      linarith

/-- The entries under the mask are NaN, or floats of the format of size at most `B`. -/
def LineOk (R : K → Fl K) (B : K) (l : Line K) : Prop := ∀ e ∈ l, e.1 = true → SizedFloat R B e.2

/-- What the reduction sees of an entry. -/
def filled (big : K) (e : Bool × Fl K) : Fl K := nanToNumDefault big (if e.1 then e.2 else .fin 0)

theorem filled_ok (h : IsFloat R u τ Ω) {B : K} (hB : 0 ≤ B) (big : K) {l : Line K} (hl : LineOk R B l) {e : Bool × Fl K} (he : e ∈ l) :
    ∃ v, filled big e = .fin v ∧ R v = .fin v ∧ |v| ≤ B ∧ (e.1 = false → v = 0) := by
  obtain ⟨b, x⟩ := e
  cases b with
  | false => exact ⟨0, rfl, h.zero, by simpa using hB, fun _ => rfl⟩
  | true =>
    rcases hl _ he rfl with hx | ⟨v, hx, h1, h2⟩
    · simp only at hx; subst hx; exact ⟨0, rfl, h.zero, by simpa using hB, fun _ => rfl⟩
    · simp only at hx; subst hx; exact ⟨v, rfl, h1, h2, by simp⟩

theorem maskCount_cons (e : Bool × Fl K) (l : Line K) : maskCount (e :: l) = (if e.1 then 1 else 0) + maskCount l := by
  simp [maskCount]

theorem nonzero_le_count (l : Line K) (F : Bool × Fl K → Fl K) (h : ∀ e ∈ l, e.1 = false → F e = .fin 0) :
    nonzero (l.map F) ≤ maskCount l := by
  induction l with
  | nil => simp [nonzero]
  | cons e l ih =>
    have ih := ih fun x hx => h x (by simp [hx])
    rw [maskCount_cons]
    simp only [List.map_cons, nonzero, List.countP_cons] at ih ⊢
    cases hb : e.1 with
    | false =>
      rw [h e (by simp) hb]
      have : numOf (Fl.fin 0 : Fl K) = 0 := rfl
      simpa [this] using ih
    | true =>
      simp only [if_true]
      split <;> omega

theorem masked_sums_near {D : K} (hD : 0 ≤ D) (l : Line K) (F' F : Bool × Fl K → Fl K)
    (h : ∀ e ∈ l, if e.1 then |numOf (F' e) - numOf (F e)| ≤ D else F' e = F e) :
    |((l.map F').map numOf).sum - ((l.map F).map numOf).sum| ≤ maskCount l * D := by
  induction l with
  | nil => simp [maskCount]
  | cons e l ih =>
    have ih := ih fun x hx => h x (by simp [hx])
    have h0 := h e (by simp)
    rw [maskCount_cons]
    simp only [List.map_cons, List.sum_cons]
    generalize ((l.map F').map numOf).sum = S' at *
    generalize ((l.map F).map numOf).sum = S at *
    have e1 : numOf (F' e) + S' - (numOf (F e) + S) = (numOf (F' e) - numOf (F e)) + (S' - S) := by ring
    rw [e1]
    have a1 := abs_add_le (numOf (F' e) - numOf (F e)) (S' - S)
    cases hb : e.1 with
    | false =>
      simp only [hb, Bool.false_eq_true, if_false] at h0 ⊢
      rw [h0, sub_self, zero_add, zero_add]; exact ih
    | true =>
      simp only [hb, if_true] at h0 ⊢
      push_cast
      linarith

theorem maskFill_filled (big : K) (l : Line K) : maskFill big l = l.map (filled big) := rfl

/-! ## C191: MaskMean -/

/-- **C191**: on every line with `n` masked entries, each NaN or a float of size at most `B`, whatever the entries outside the mask and
whatever the order of the summation, the mean computed by `MaskMean` is within `2 n u B` of the exact one (and both are NaN
when nothing is masked). -/
theorem C191_mask_mean_rounding (h : IsFloat R u τ Ω) (hu0 : 0 ≤ u) (B : K) (hB : 0 ≤ B) (hτ : τ ≤ B) (big : K)
    (total : List (Fl K) → Fl K) (ht : ∀ l, FloatSum (Rounded.add R) l (total l)) (l : Line K) (hl : LineOk R B l)
    (hN : 2 * u * maskCount l ≤ 1) (hΩ : 2 * (maskCount l + 1) * B ≤ Ω) :
    Near (2 * u * maskCount l * B) (Rounded.maskMean R total big l) (maskMean big l) := by
  have hok : SumOk R B (maskFill big l) := by
    intro x hx
    obtain ⟨e, he, rfl⟩ := List.mem_map.mp hx
    obtain ⟨v, h1, h2, h3, -⟩ := filled_ok h hB big hl he
    exact ⟨v, h1, h2, h3⟩
  have hz : nonzero (maskFill big l) ≤ maskCount l := nonzero_le_count l (filled big) fun e he hb => by
    obtain ⟨v, h1, -, -, h4⟩ := filled_ok h hB big hl he
    rw [h1, h4 hb]
  rcases quotient_near h hu0 B hB hτ (maskCount l) hN hΩ total ht _ hok (maskCount l) hz (le_refl _) with ⟨-, h1, h2⟩ | ⟨-, y, h1, -, h2, h3, -⟩
  · exact Or.inl ⟨h1, h2⟩
  · exact Or.inr ⟨y, _, h1, h2, h3⟩

/-! ## C192: MaskStd -/

/-- A square root routine: on a number it returns a non-negative number whose square has a relative error of at most `4 u` (a correctly
rounded root, or one off by one unit in the last place, is such). -/
def IsSqrt (sq : Fl K → Fl K) (u : K) : Prop := ∀ a, 0 ≤ a → ∃ y, sq (.fin a) = .fin y ∧ 0 ≤ y ∧ |y * y - a| ≤ 4 * u * a

/-- The computed and exact difference to the mean of one entry. -/
theorem diff_near (h : IsFloat R u τ Ω) (hu0 : 0 ≤ u) {B : K} (hB : 0 ≤ B) (hτ : τ ≤ B) (hΩ : 16 * B ≤ Ω) {v m m' δ : K} (hv : |v| ≤ B)
    (hm : |m| ≤ B) (hd : |m' - m| ≤ δ) (hδ : δ ≤ B) :
    ∃ d, Rounded.sub R (.fin v) (.fin m') = .fin d ∧ |d - (v - m)| ≤ δ + 3 * u * B := by
  have hm' : |m'| ≤ 2 * B := by
    have : m' = (m' - m) + m := by ring
    rw [this]; exact (abs_add_le _ _).trans (by linarith)
  have hvm : |v - m'| ≤ 3 * B := (abs_sub _ _).trans (by linarith)
  obtain ⟨d, hd1, hd2⟩ := r_sub h.toIsRounding v m' (by linarith)
  have hd3 := le_of_max hu0 hd2 hvm (by linarith)
  refine ⟨d, hd1, ?_⟩
  have : d - (v - m) = (d - (v - m')) - (m' - m) := by ring
  rw [this]
  exact (abs_sub _ _).trans (by linarith)

/-- The computed and exact square. -/
theorem square_near (h : IsFloat R u τ Ω) (hu0 : 0 ≤ u) (hu : 64 * u ≤ 1) {B : K} (hB : 0 ≤ B) (hτ : τ ≤ B ^ 2) (hΩ : 16 * B ^ 2 ≤ Ω)
    {d d' η : K} (hd : |d| ≤ 2 * B) (he : |d' - d| ≤ η) (hη : η ≤ 2 * B) :
    ∃ s, Rounded.mul R (.fin d') (.fin d') = .fin s ∧ R s = .fin s ∧ |s - d * d| ≤ 16 * u * B ^ 2 + 6 * B * η ∧ |s| ≤ 17 * B ^ 2 := by
  have hd' : |d'| ≤ 4 * B := by
    have : d' = (d' - d) + d := by ring
    rw [this]; exact (abs_add_le _ _).trans (by linarith)
  have hsq : |d' * d'| ≤ 16 * B ^ 2 := by
    rw [abs_mul]
    have := mul_le_mul hd' hd' (abs_nonneg _) (by linarith)
    linarith
  have hB2 : 0 ≤ B ^ 2 := by positivity
  obtain ⟨s, hs1, hs2⟩ := r_mul h.toIsRounding d' d' (by linarith)
  have hs3 := le_of_max hu0 hs2 hsq (by linarith)
  refine ⟨s, hs1, h.idem _ _ hs1, ?_, ?_⟩
  · have e1 : s - d * d = (s - d' * d') + (d' - d) * (d' + d) := by ring
    have e2 : |d' + d| ≤ 6 * B := (abs_add_le _ _).trans (by linarith)
    have e3 : |(d' - d) * (d' + d)| ≤ η * (6 * B) := by
      rw [abs_mul]; exact mul_le_mul he e2 (abs_nonneg _) ((abs_nonneg _).trans he)
    rw [e1]
    exact (abs_add_le _ _).trans (by linarith)
  · have : s = (s - d' * d') + d' * d' := by ring
    rw [this]
    have := mul_le_mul_of_nonneg_right hu hB2
    exact (abs_add_le _ _).trans (by linarith)

/-- The difference of one entry in the computed and in the exact variance. -/
def devOf (sub : Fl K → Fl K → Fl K) (big : K) (ac : Bool) (mean : Fl K) (e : Bool × Fl K) : Fl K :=
  if e.1 then (if ac then filled big e else sub (filled big e) mean) else .fin 0

theorem zip_fill {α : Type} (big : K) (l : Line K) (f : Bool × Fl K → α) :
    (List.zip (l.map (·.1)) (maskFill big l)).map f = l.map fun e => f (e.1, filled big e) := by
  rw [maskFill_filled, List.zip_map', List.map_map]; rfl

theorem roundedVar_eq (total : List (Fl K) → Fl K) (big : K) (ac : Bool) (mean : Fl K) (l : Line K) :
    Rounded.maskVarWith R total big ac mean l =
      Rounded.div R (total (l.map fun e => Rounded.mul R (devOf (Rounded.sub R) big ac mean e) (devOf (Rounded.sub R) big ac mean e)))
        (.fin (maskCount l : K)) := by
  unfold Rounded.maskVarWith
  simp only [zip_fill, List.map_map]
  rfl

theorem exactVar_eq (big : K) (ac : Bool) (mean : Fl K) (l : Line K) :
    maskVarWith big ac mean l =
      (l.map fun e => devOf (fun a b => a - b) big ac mean e * devOf (fun a b => a - b) big ac mean e).sum / .fin (maskCount l : K) := by
  unfold maskVarWith
  simp only [zip_fill, List.map_map]
  rfl

/-- What is assumed of the format, the number `n` of masked entries and their size. -/
structure MaskFits (u τ Ω : K) (n : Nat) (B : K) : Prop where
  u_nonneg : 0 ≤ u
  B_nonneg : 0 ≤ B
  precision : 64 * u * n ≤ 1
  precision' : 64 * u ≤ 1
  underflow : τ ≤ B
  underflow_squares : τ ≤ B ^ 2
  overflow : 2 * (n + 8) * B ≤ Ω
  overflow_squares : 34 * (n + 1) * B ^ 2 ≤ Ω

theorem sum_sq_nonneg (l : Line K) (F : Bool × Fl K → K) : 0 ≤ (l.map fun e => F e * F e).sum := by
  induction l with
  | nil => simp
  | cons e l ih => simp only [List.map_cons, List.sum_cons]; have := mul_self_nonneg (F e); linarith

theorem mask_var_near (h : IsFloat R u τ Ω) (B : K) (big : K) (total : List (Fl K) → Fl K) (ht : ∀ l, FloatSum (Rounded.add R) l (total l))
    (ac : Bool) (l : Line K) (hl : LineOk R B l) (hf : MaskFits u τ Ω (maskCount l) B) (hn : 0 < maskCount l) :
    ∃ v' v, Rounded.maskVarWith R total big ac (Rounded.maskMean R total big l) l = .fin v' ∧
      maskVarWith big ac (maskMean big l) l = .fin v ∧ 0 ≤ v ∧ v ≤ 4 * B ^ 2 ∧ |v' - v| ≤ 80 * u * maskCount l * B ^ 2 := by
  obtain ⟨hu0, hB, hp, hu, hτ, hτ2, hΩ, hΩ2⟩ := hf
  have hok : SumOk R B (maskFill big l) := by
    intro x hx
    obtain ⟨e, he, rfl⟩ := List.mem_map.mp hx
    obtain ⟨v, h1, h2, h3, -⟩ := filled_ok h hB big hl he
    exact ⟨v, h1, h2, h3⟩
  have hz : nonzero (maskFill big l) ≤ maskCount l := nonzero_le_count l (filled big) fun e he hb => by
    obtain ⟨v, h1, -, -, h4⟩ := filled_ok h hB big hl he
    rw [h1, h4 hb]
  have n1 : (1 : K) ≤ maskCount l := by exact_mod_cast hn
  have hB2 : 0 ≤ B ^ 2 := by positivity
  have hN : 2 * u * maskCount l ≤ 1 := by
    have : 0 ≤ u * maskCount l := by positivity
    linarith
  have huB : u * maskCount l * B ≤ B / 64 := by
    have := mul_le_mul_of_nonneg_right hp hB; linarith
  have hnB : B ≤ maskCount l * B := by nlinarith
  have hnB2 : B ^ 2 ≤ maskCount l * B ^ 2 := by nlinarith
  rcases quotient_near h hu0 B hB hτ (maskCount l) hN (by linarith) total ht _ hok (maskCount l) hz (le_refl _) with
    ⟨h0, -⟩ | ⟨-, m', m1, -, m2, m3, m4⟩
  · omega
  have hm' : Rounded.maskMean R total big l = .fin m' := m1
  have hm : maskMean big l = .fin ((List.map numOf (maskFill big l)).sum / maskCount l) := m2
  generalize (List.map numOf (maskFill big l)).sum / (maskCount l : K) = m at *
  rw [hm', hm, roundedVar_eq, exactVar_eq]
  -- one entry
  have ent : ∀ e ∈ l, ∃ s d, Rounded.mul R (devOf (Rounded.sub R) big ac (.fin m') e) (devOf (Rounded.sub R) big ac (.fin m') e) = .fin s ∧
      devOf (fun a b => a - b) big ac (.fin m) e = .fin d ∧ R s = .fin s ∧ |s| ≤ 17 * B ^ 2 ∧ |d| ≤ 2 * B ∧
      (if e.1 then |s - d * d| ≤ (12 * maskCount l + 34) * u * B ^ 2 else (s = 0 ∧ d = 0)) := by
    intro e he
    obtain ⟨v, hv1, -, hv2, hv3⟩ := filled_ok h hB big hl he
    cases hb : e.1 with
    | false =>
      refine ⟨0, 0, ?_, ?_, h.zero, by rw [abs_zero]; positivity, by rw [abs_zero]; positivity, by simp⟩
      · simp [devOf, hb, Rounded.mul, rnd, h.zero]
      · simp [devOf, hb]
    | true =>
      have key : ∃ d' d, devOf (Rounded.sub R) big ac (.fin m') e = .fin d' ∧ devOf (fun a b => a - b) big ac (.fin m) e = .fin d ∧
          |d| ≤ 2 * B ∧ |d' - d| ≤ 2 * u * maskCount l * B + 3 * u * B := by
        cases ac with
        | true =>
          refine ⟨v, v, by simp [devOf, hb, hv1], by simp [devOf, hb, hv1], by linarith, ?_⟩
          rw [sub_self, abs_zero]; positivity
        | false =>
          obtain ⟨d', hd1, hd2⟩ := diff_near h hu0 hB hτ (by linarith) hv2 m4 m3 (by linarith)
          refine ⟨d', v - m, by simp [devOf, hb, hv1, hd1], by simp [devOf, hb, hv1], ?_, hd2⟩
          exact (abs_sub _ _).trans (by linarith)
      obtain ⟨d', d, k1, k2, k3, k4⟩ := key
      have huB1 : u * B ≤ u * maskCount l * B := by
        have := mul_le_mul_of_nonneg_left hnB hu0; linarith
      obtain ⟨s, s1, s2, s3, s4⟩ := square_near h hu0 hu hB hτ2 (by linarith) k3 k4 (by linarith)
      refine ⟨s, d, by rw [k1]; exact s1, k2, s2, s4, k3, ?_⟩
      simp only [if_true]
      have : 16 * u * B ^ 2 + 6 * B * (2 * u * maskCount l * B + 3 * u * B) = (12 * maskCount l + 34) * u * B ^ 2 := by ring
      rw [← this]; exact s3
  have hok2 : SumOk R (17 * B ^ 2) (l.map fun e => Rounded.mul R (devOf (Rounded.sub R) big ac (.fin m') e) (devOf (Rounded.sub R) big ac (.fin m') e)) := by
    intro x hx
    obtain ⟨e, he, rfl⟩ := List.mem_map.mp hx
    obtain ⟨s, d, h1, -, h2, h3, -⟩ := ent e he
    exact ⟨s, h1, h2, h3⟩
  have hz2 := nonzero_le_count l (fun e => Rounded.mul R (devOf (Rounded.sub R) big ac (.fin m') e) (devOf (Rounded.sub R) big ac (.fin m') e))
    fun e he hb => by
      obtain ⟨s, d, h1, -, -, -, -, h2⟩ := ent e he
      rw [hb] at h2
      rw [h1, (by simpa using h2 : s = 0 ∧ d = 0).1]
  have hD : 0 ≤ (12 * maskCount l + 34) * u * B ^ 2 := by positivity
  have hsum := masked_sums_near hD l (fun e => Rounded.mul R (devOf (Rounded.sub R) big ac (.fin m') e) (devOf (Rounded.sub R) big ac (.fin m') e))
    (fun e => devOf (fun a b => a - b) big ac (.fin m) e * devOf (fun a b => a - b) big ac (.fin m) e) fun e he => by
      obtain ⟨s, d, h1, h3, -, -, -, h2⟩ := ent e he
      simp only [h1, h3]
      cases hb : e.1 with
      | true => simpa [hb, numOf] using h2
      | false =>
        rw [hb] at h2
        obtain ⟨rfl, rfl⟩ : s = 0 ∧ d = 0 := by simpa using h2
        simp
  have hex : (l.map fun e => devOf (fun a b => a - b) big ac (.fin m) e * devOf (fun a b => a - b) big ac (.fin m) e).sum =
      .fin ((l.map fun e => numOf (devOf (fun a b => a - b) big ac (.fin m) e) * numOf (devOf (fun a b => a - b) big ac (.fin m) e)).sum) := by
    rw [sum_fin _ fun x hx => by
      obtain ⟨e, he, rfl⟩ := List.mem_map.mp hx
      obtain ⟨s, d, -, h3, -⟩ := ent e he
      exact ⟨d * d, by rw [h3]; rfl⟩]
    rw [List.map_map]
    congr 2
    refine List.map_congr_left fun e he => ?_
    obtain ⟨s, d, -, h3, -⟩ := ent e he
    simp [h3, numOf]
  have hex2 : ((l.map fun e => devOf (fun a b => a - b) big ac (.fin m) e * devOf (fun a b => a - b) big ac (.fin m) e).map numOf).sum =
      (l.map fun e => numOf (devOf (fun a b => a - b) big ac (.fin m) e) * numOf (devOf (fun a b => a - b) big ac (.fin m) e)).sum := by
    rw [List.map_map]
    congr 1
    refine List.map_congr_left fun e he => ?_
    obtain ⟨s, d, -, h3, -⟩ := ent e he
    simp [h3, numOf]
  rw [hex2] at hsum
  have hSn := sum_sq_nonneg l fun e => numOf (devOf (fun a b => a - b) big ac (.fin m) e)
  have hSle : (l.map fun e => numOf (devOf (fun a b => a - b) big ac (.fin m) e) * numOf (devOf (fun a b => a - b) big ac (.fin m) e)).sum ≤
      maskCount l * (4 * B ^ 2) := by
    have := masked_sums_near (D := 4 * B ^ 2) (by positivity) l
      (fun e => devOf (fun a b => a - b) big ac (.fin m) e * devOf (fun a b => a - b) big ac (.fin m) e) (fun _ => .fin 0) fun e he => by
        obtain ⟨s, d, -, h3, -, -, h4, h2⟩ := ent e he
        simp only [h3]
        cases hb : e.1 with
        | true =>
          have : |d * d| ≤ 4 * B ^ 2 := by
            rw [abs_mul]; have := mul_le_mul h4 h4 (abs_nonneg _) (by linarith); linarith
          simpa [numOf] using this
        | false =>
          rw [hb] at h2
          obtain ⟨-, rfl⟩ : s = 0 ∧ d = 0 := by simpa using h2
          simp
    rw [hex2] at this
    have z : ((l.map fun _ : Bool × Fl K => (Fl.fin 0 : Fl K)).map numOf).sum = 0 := by
      rw [List.map_map]
      have : (numOf ∘ fun _ : Bool × Fl K => (Fl.fin 0 : Fl K)) = fun _ => (0 : K) := by funext x; rfl
      rw [this]; simp
    rw [z, sub_zero] at this
    exact (le_abs_self _).trans this
  rw [hex]
  generalize (l.map fun e => numOf (devOf (fun a b => a - b) big ac (.fin m) e) * numOf (devOf (fun a b => a - b) big ac (.fin m) e)).sum = S at *
  rcases quotient_near h hu0 (17 * B ^ 2) (by positivity) (by linarith) (maskCount l) hN (by linarith) total ht _ hok2 (maskCount l) hz2
    (le_refl _) with ⟨h0, -⟩ | ⟨-, y, y1, -, -, y3, -⟩
  · omega
  generalize ((l.map fun e => Rounded.mul R (devOf (Rounded.sub R) big ac (.fin m') e) (devOf (Rounded.sub R) big ac (.fin m') e)).map numOf).sum = S' at *
  generalize maskCount l = n at *
  have n0 : (0 : K) < n := by linarith
  refine ⟨y, S / n, y1, Fl.fin_div_of_ne _ n0.ne', by positivity, ?_, ?_⟩
  · rw [div_le_iff₀ n0]; linarith
  · have e : y - S / n = (y - S' / n) + (S' - S) / n := by rw [sub_div]; ring
    have e2 : |(S' - S) / n| ≤ (12 * n + 34) * u * B ^ 2 := by
      rw [abs_div, abs_of_pos n0, div_le_iff₀ n0]; linarith
    rw [e]
    have a1 := abs_add_le (y - S' / n) ((S' - S) / n)
    have a2 : u * B ^ 2 ≤ u * n * B ^ 2 := by have := mul_le_mul_of_nonneg_left hnB2 hu0; linarith
    linarith

/-- **C192**: on every line with `n ≥ 1` masked entries, each NaN or a float of size at most `B` (those outside the mask are arbitrary),
whatever the order of the summations, `MaskStd` returns a non-negative number whose square is within `eps + 120 n u B²` of the exact
variance. -/
theorem C192_mask_std_rounding (h : IsFloat R u τ Ω) (B : K) (big eps : K) (total : List (Fl K) → Fl K)
    (ht : ∀ l, FloatSum (Rounded.add R) l (total l)) (sq : Fl K → Fl K) (hsq : IsSqrt sq u) (heps : 0 ≤ eps) (hepsB : eps ≤ B ^ 2)
    (ac : Bool) (l : Line K) (hl : LineOk R B l) (hf : MaskFits u τ Ω (maskCount l) B) (hn : 0 < maskCount l) :
    ∃ y v, Rounded.maskStd R total sq eps big ac l = .fin y ∧ maskVarWith big ac (maskMean big l) l = .fin v ∧ 0 ≤ v ∧ 0 ≤ y ∧
      |y * y - v| ≤ eps + 120 * u * maskCount l * B ^ 2 := by
  obtain ⟨v', v, h1, h2, v0, v4, hv⟩ := mask_var_near h B big total ht ac l hl hf hn
  obtain ⟨hu0, hB, hp, hu, hτ, hτ2, hΩ, hΩ2⟩ := hf
  have n1 : (1 : K) ≤ maskCount l := by exact_mod_cast hn
  have hB2 : 0 ≤ B ^ 2 := by positivity
  have hnB2 : B ^ 2 ≤ maskCount l * B ^ 2 := by nlinarith
  have k1 : u * maskCount l * B ^ 2 ≤ B ^ 2 / 64 := by have := mul_le_mul_of_nonneg_right hp hB2; linarith
  have k2 : 0 ≤ u * maskCount l * B ^ 2 := by positivity
  have k3 : u * B ^ 2 ≤ u * maskCount l * B ^ 2 := by have := mul_le_mul_of_nonneg_left hnB2 hu0; linarith
  obtain ⟨d1, d2⟩ := abs_le.mp hv
  unfold Rounded.maskStd Rounded.stdOfVar
  rw [h1, h2]
  by_cases hv' : 0 < v'
  · have hs : |eps + v'| ≤ 25 / 4 * B ^ 2 := by rw [abs_of_nonneg (by linarith)]; linarith
    obtain ⟨a, ha, ea⟩ := r_add h.toIsRounding eps v' (by linarith)
    have ea' := le_of_max hu0 ea hs (by linarith)
    have a0 : 0 ≤ a := nonneg_fin h.toIsMonotoneRounding (by linarith : 0 ≤ eps + v') ha
    obtain ⟨y, hy, y0, ey⟩ := hsq a a0
    refine ⟨y, v, ?_, rfl, v0, y0, ?_⟩
    · simp only [Fl.lt_fin, hv', decide_true, if_true]
      rw [ha]; exact hy
    · have hua := mul_le_mul_of_nonneg_right hu hB2
      obtain ⟨e1, e2⟩ := abs_le.mp ea'
      have ha7 : a ≤ 27 / 4 * B ^ 2 := by rw [abs_of_nonneg (by linarith)] at hs; linarith
      have hua2 := mul_le_mul_of_nonneg_left ha7 hu0
      have e : y * y - v = (y * y - a) + ((a - (eps + v')) + ((v' - v) + eps)) := by ring
      rw [e]
      have b1 := abs_add_le (y * y - a) ((a - (eps + v')) + ((v' - v) + eps))
      have b2 := abs_add_le (a - (eps + v')) ((v' - v) + eps)
      have b3 := abs_add_le (v' - v) eps
      rw [abs_of_nonneg heps] at b3
      linarith
  · refine ⟨0, v, by simp [hv'], rfl, v0, le_refl _, ?_⟩
    rw [mul_zero, zero_sub, abs_neg, abs_of_nonneg v0]
    linarith

end Verif.Props
