import Verif.Props.RoundedNaN
import Verif.Props.RoundedVar
import Verif.Lemmas.Windows

/-! # Rolling means and constant streams with rounded arithmetic -/

set_option linter.unusedSectionVars false
set_option linter.unusedSimpArgs false
set_option linter.unusedVariables false

namespace Verif.Props
open Model Spec Lemmas
open Model.Rounded (rnd)
variable {K : Type} [Field K] [LinearOrder K] [IsStrictOrderedRing K]
variable {R : K → Fl K} {u τ Ω : K}

/-! ## Sums -/

/-- The entries of a masked window: floats of the format, those other than 0 at most `B`. -/
def SumOk (R : K → Fl K) (B : K) (l : List (Fl K)) : Prop := ∀ x ∈ l, ∃ v, x = .fin v ∧ R v = .fin v ∧ |v| ≤ B

/-- The number of a float, 0 for the others. -/
def numOf : Fl K → K
  | .fin v => v
  | _ => 0

/-- The number of entries other than 0. -/
def nonzero (l : List (Fl K)) : Nat := l.countP fun x => decide (numOf x ≠ 0)

theorem sum_abs_le (B : K) (hB : 0 ≤ B) (l : List (Fl K)) (hl : SumOk R B l) : |(l.map numOf).sum| ≤ nonzero l * B := by
  induction l with
  | nil => simp [nonzero]
  | cons x l ih =>
    obtain ⟨v, rfl, -, hv⟩ := hl x (by simp)
    have ih := ih fun y hy => hl y (by simp [hy])
    simp only [List.map_cons, List.sum_cons, nonzero, List.countP_cons] at ih ⊢
    refine (abs_add_le _ _).trans ?_
    have ev : numOf (Fl.fin v) = v := rfl
    rw [ev]
    by_cases h0 : v = 0
    · simpa [h0] using ih
    · simp only [ne_eq, h0, not_false_eq_true, decide_true, if_true] at ih ⊢
      push_cast
      linarith

/-- A rounded sum, in any order. -/
theorem floatSum_near (h : IsFloat R u τ Ω) (hu0 : 0 ≤ u) (B : K) (hB : 0 ≤ B) (hτ : τ ≤ B) (N : Nat) (hN : 2 * u * N ≤ 1)
    (hΩ : 2 * N * B ≤ Ω) {l : List (Fl K)} {a : Fl K} (hs : FloatSum (Rounded.add R) l a) (hl : SumOk R B l) (hk : nonzero l ≤ N) :
    ∃ s, a = .fin s ∧ R s = .fin s ∧ |s - (l.map numOf).sum| ≤ 2 * u * B * (nonzero l * (nonzero l - 1)) ∧
      (nonzero l = 0 → s = 0) := by
  induction hs with
  | zero => exact ⟨0, rfl, h.zero, by simp [nonzero], fun _ => rfl⟩
  | leaf x =>
    obtain ⟨v, rfl, h1, h2⟩ := hl x (by simp)
    refine ⟨v, rfl, h1, ?_, fun h0 => ?_⟩
    · by_cases h0 : v = 0 <;> simp [nonzero, numOf, h0]
    · by_contra hv
      simp [nonzero, numOf, hv] at h0
  | @reorder l l' a hp hs ih =>
    have hl' : SumOk R B l := fun x hx => hl x (hp.mem_iff.mp hx)
    have e : nonzero l = nonzero l' := hp.countP_eq _
    have e2 : (l.map numOf).sum = (l'.map numOf).sum := (hp.map _).sum_eq
    rw [← e, ← e2]
    exact ih hl' (by rw [e]; exact hk)
  | @node l r a b hs1 hs2 ih1 ih2 =>
    have e : nonzero (l ++ r) = nonzero l + nonzero r := List.countP_append
    rw [e] at hk ⊢
    have hl1 : SumOk R B l := fun x hx => hl x (by simp [hx])
    have hl2 : SumOk R B r := fun x hx => hl x (by simp [hx])
    obtain ⟨s, rfl, s1, s2, s3⟩ := ih1 hl1 (by omega)
    obtain ⟨t, rfl, t1, t2, t3⟩ := ih2 hl2 (by omega)
    have b1 := sum_abs_le B hB l hl1
    have b2 := sum_abs_le B hB r hl2
    rw [List.map_append, List.sum_append]
    generalize (l.map numOf).sum = S at s2 b1 ⊢
    generalize (r.map numOf).sum = T at t2 b2 ⊢
    generalize nonzero l = m at *
    generalize nonzero r = n at *
    have eadd : Rounded.add R (.fin s) (.fin t) = R (s + t) := rfl
    rcases Nat.eq_zero_or_pos m with hm | hm
    · subst hm
      have s0 : s = 0 := s3 rfl
      have S0 : S = 0 := by simpa using b1
      subst s0 S0
      refine ⟨t, by rw [eadd, zero_add, t1], t1, ?_, fun h0 => t3 (by omega)⟩
      simpa using t2
    rcases Nat.eq_zero_or_pos n with hn | hn
    · subst hn
      have t0 : t = 0 := t3 rfl
      have T0 : T = 0 := by simpa using b2
      subst t0 T0
      refine ⟨s, by rw [eadd, add_zero, s1], s1, ?_, fun h0 => s3 (by omega)⟩
      simpa using s2
    have m1 : (1 : K) ≤ m := by exact_mod_cast hm
    have n1 : (1 : K) ≤ n := by exact_mod_cast hn
    have mnN : (m : K) + n ≤ N := by exact_mod_cast hk
    have q1 : 2 * u * m ≤ 1 := by nlinarith
    have q2 : 2 * u * n ≤ 1 := by nlinarith
    have r1 : 2 * u * B * (m * (m - 1)) ≤ B * (m - 1) := by
      have := mul_le_mul_of_nonneg_right q1 (mul_nonneg hB (by linarith : (0 : K) ≤ m - 1)); linarith
    have r2 : 2 * u * B * (n * (n - 1)) ≤ B * (n - 1) := by
      have := mul_le_mul_of_nonneg_right q2 (mul_nonneg hB (by linarith : (0 : K) ≤ n - 1)); linarith
    have hst : |s + t| ≤ 2 * ((m + n) * B) := by
      have : s + t = (s - S) + (t - T) + (S + T) := by ring
      rw [this]
      have a1 := abs_add_le ((s - S) + (t - T)) (S + T)
      have a2 := abs_add_le (s - S) (t - T)
      have a3 := abs_add_le S T
      linarith
    have hBN : (m + n) * B ≤ N * B := mul_le_mul_of_nonneg_right mnN hB
    have hB1 : B ≤ (m + n) * B := by nlinarith
    obtain ⟨y, hy, ey⟩ := r_add h.toIsRounding s t (by linarith)
    have ey' := le_of_max hu0 ey hst (by linarith)
    refine ⟨y, hy, h.idem _ _ hy, ?_, fun h0 => by omega⟩
    have : y - (S + T) = (y - (s + t)) + ((s - S) + (t - T)) := by ring
    rw [this]
    have a1 := abs_add_le (y - (s + t)) ((s - S) + (t - T))
    have a2 := abs_add_le (s - S) (t - T)
    push_cast
    have k1 : (m : K) + n ≤ 2 * (m * n) := by nlinarith
    have k2 : 2 * u * B * (m + n) ≤ 2 * u * B * (2 * (m * n)) := mul_le_mul_of_nonneg_left k1 (by positivity)
    linarith

/-! ## C181: the rolling mean -/

/-- A value fed to a rolling mean: NaN, or a float of the format, at most `B` in size. -/
def SizedFloat (R : K → Fl K) (B : K) (x : Fl K) : Prop := x = .nan ∨ ∃ v, x = .fin v ∧ R v = .fin v ∧ |v| ≤ B

/-- The number of values in a window that are not NaN. -/
def present (w : List (Fl K)) : Nat := w.countP fun x => !x.isNan

theorem count_eq (w : List (Fl K)) : (w.map fun x => if x.isNan then 0 else 1).sum = present w := by
  induction w with
  | nil => rfl
  | cons x w ih =>
    simp only [List.map_cons, List.sum_cons, present, List.countP_cons] at ih ⊢
    rw [ih]; cases x.isNan <;> simp [Nat.add_comm]

theorem nonzero_le (w : List (Fl K)) : nonzero (w.map fun x => if x.isNan then (0 : Fl K) else x) ≤ present w := by
  induction w with
  | nil => simp [nonzero]
  | cons x w ih =>
    simp only [List.map_cons, nonzero, present, List.countP_cons] at ih ⊢
    have : numOf (0 : Fl K) = 0 := rfl
    cases x with
    | fin v => by_cases h0 : v = 0 <;> simp [numOf, h0] at ih ⊢ <;> omega
    | nan =>
      have : numOf (Fl.fin 0 : Fl K) = 0 := rfl
      simp [this] at ih ⊢; omega
    | pinf => simp [this, numOf] at ih ⊢; omega
    | ninf => simp [this, numOf] at ih ⊢; omega

theorem sum_fin (l : List (Fl K)) (hl : ∀ x ∈ l, ∃ v, x = .fin v) : l.sum = .fin (l.map numOf).sum := by
  induction l with
  | nil => rfl
  | cons x l ih =>
    obtain ⟨v, rfl⟩ := hl x (by simp)
    rw [List.sum_cons, ih fun y hy => hl y (by simp [hy])]
    simp [numOf]

theorem windowMean_near (h : IsFloat R u τ Ω) (hu0 : 0 ≤ u) (B : K) (hB : 0 ≤ B) (hτ : τ ≤ B) (N : Nat) (hN : 2 * u * N ≤ 1)
    (hΩ : 2 * (N + 1) * B ≤ Ω) (total : List (Fl K) → Fl K) (ht : ∀ l, FloatSum (Rounded.add R) l (total l)) (minPeriods : Nat)
    (w : List (Fl K)) (hw : ∀ x ∈ w, SizedFloat R B x) (hk : present w ≤ N) :
    Near (2 * u * present w * B) (Rounded.windowMean R total minPeriods w) (Model.windowMean minPeriods w) := by
  unfold Rounded.windowMean Model.windowMean
  simp only [count_eq]
  set l := w.map fun x => if x.isNan then (0 : Fl K) else x with hl
  have hok : SumOk R B l := by
    intro x hx
    obtain ⟨y, hy, rfl⟩ := List.mem_map.mp hx
    rcases hw y hy with rfl | ⟨v, rfl, h1, h2⟩
    · exact ⟨0, rfl, h.zero, by simpa using hB⟩
    · exact ⟨v, rfl, h1, h2⟩
  have hnz : nonzero l ≤ present w := nonzero_le w
  have hBΩ : 2 * (N : K) * B ≤ Ω := by linarith
  obtain ⟨s, hs, -, es, es0⟩ := floatSum_near h hu0 B hB hτ N hN hBΩ (ht l) hok (hnz.trans hk)
  have bS := sum_abs_le B hB l hok
  have exact_sum : l.sum = .fin (l.map numOf).sum := sum_fin l fun x hx => by
    obtain ⟨v, hv, -⟩ := hok x hx; exact ⟨v, hv⟩
  by_cases hmp : minPeriods ≤ present w
  · rw [if_pos hmp, if_pos hmp, hs, exact_sum]
    generalize (l.map numOf).sum = S at es bS ⊢
    generalize present w = k at *
    generalize nonzero l = n at *
    rcases Nat.eq_zero_or_pos k with hk0 | hk0
    · subst hk0
      have hn : n = 0 := by omega
      have s0 : s = 0 := es0 hn
      have S0 : S = 0 := by subst hn; simpa using bS
      subst s0 S0
      left
      have : (Fl.fin 0 : Fl K) / Fl.fin ((0 : Nat) : K) = .nan := by
        rw [Nat.cast_zero]
        change (if (0 : K) = 0 then Fl.infSign 0 else _) = _
        simp [Fl.infSign]
      exact ⟨by unfold Rounded.div; rw [this]; rfl, this⟩
    · right
      have k1 : (1 : K) ≤ k := by exact_mod_cast hk0
      have kne : (k : K) ≠ 0 := by linarith
      have kN : (k : K) ≤ N := by exact_mod_cast hk
      have nk : (n : K) ≤ k := by exact_mod_cast hnz
      have n0 : (0 : K) ≤ n := Nat.cast_nonneg n
      have e1 : 2 * u * B * (n * (n - 1)) ≤ 2 * u * B * (k * (k - 1)) := by
        refine mul_le_mul_of_nonneg_left ?_ (by positivity)
        nlinarith
      have q1 : 2 * u * k ≤ 1 := by nlinarith
      have e2 : 2 * u * B * (k * (k - 1)) ≤ B * (k - 1) := by
        have := mul_le_mul_of_nonneg_right q1 (mul_nonneg hB (by linarith : (0 : K) ≤ k - 1)); linarith
      have hsk : |s| ≤ 2 * B * k := by
        have : s = (s - S) + S := by ring
        rw [this]
        have a1 := abs_add_le (s - S) S
        have a2 : (n : K) * B ≤ k * B := mul_le_mul_of_nonneg_right nk hB
        linarith
      have hq : |s / k| ≤ 2 * B := by
        rw [abs_div, abs_of_nonneg (by linarith : (0 : K) ≤ k), div_le_iff₀ (by linarith)]; exact hsk
      have hkB : B ≤ N * B := by nlinarith
      obtain ⟨y, hy, ey⟩ := r_div h.toIsRounding s k kne (by linarith)
      have ey' := le_of_max hu0 ey hq (by linarith)
      refine ⟨y, S / k, hy, Fl.fin_div_of_ne _ kne, ?_⟩
      have : y - S / k = (y - s / k) + (s - S) / k := by rw [sub_div]; ring
      rw [this]
      have a1 := abs_add_le (y - s / k) ((s - S) / k)
      have a3 : |(s - S) / k| ≤ 2 * u * B * (k - 1) := by
        rw [abs_div, abs_of_nonneg (by linarith : (0 : K) ≤ k), div_le_iff₀ (by linarith)]
        linarith
      linarith
  · rw [if_neg hmp, if_neg hmp]
    exact Or.inl ⟨rfl, rfl⟩

theorem present_le_length (w : List (Fl K)) : present w ≤ w.length := List.countP_le_length

theorem mem_window {α : Type} {n : Nat} {fill : α} {h : List α} {x : α} (hx : x ∈ window n fill h) : x = fill ∨ x ∈ h := by
  unfold window at hx
  rcases List.mem_append.mp hx with hx | hx
  · exact Or.inl (List.eq_of_mem_replicate hx)
  · exact Or.inr (List.mem_of_mem_drop hx)

theorem near_mono {E E' : K} (hE : E ≤ E') {a b : Fl K} (h : Near E a b) : Near E' a b := by
  rcases h with h | ⟨y, v, h1, h2, h3⟩
  · exact Or.inl h
  · exact Or.inr ⟨y, v, h1, h2, h3.trans hE⟩

theorem window_near (h : IsFloat R u τ Ω) (hu0 : 0 ≤ u) (B : K) (hB : 0 ≤ B) (hτ : τ ≤ B) (horizon : Nat) (hN : 2 * u * horizon ≤ 1)
    (hΩ : 2 * (horizon + 1) * B ≤ Ω) (total : List (Fl K) → Fl K) (ht : ∀ l, FloatSum (Rounded.add R) l (total l)) (minPeriods : Nat)
    (hist : List (Fl K)) (hx : ∀ x ∈ hist, SizedFloat R B x) :
    Near (2 * u * horizon * B) (Rounded.windowMean R total minPeriods (window horizon .nan hist))
      (Model.windowMean minPeriods (window horizon .nan hist)) := by
  have hk : present (window horizon .nan hist) ≤ horizon := by
    have := present_le_length (window horizon .nan hist)
    rwa [window_length] at this
  refine near_mono ?_ (windowMean_near h hu0 B hB hτ horizon hN hΩ total ht minPeriods _ (fun x hm => ?_) hk)
  · have : ((present (window horizon .nan hist) : Nat) : K) ≤ horizon := by exact_mod_cast hk
    have := mul_le_mul_of_nonneg_left this (by positivity : 0 ≤ 2 * u)
    exact mul_le_mul_of_nonneg_right this hB
  · rcases mem_window hm with rfl | hm
    · exact Or.inl rfl
    · exact hx x hm

/-- **C181** (Haiku): with floating point arithmetic of unit roundoff `u` and the window summed in any order, on a stream of any length of
floats at most `B` (NaN anywhere), the rolling mean returned at every step is within `2 u horizon B` of the exact one: nothing
accumulates, a value that has left the window leaves no trace. -/
theorem C181_rolling_mean_rounding (h : IsFloat R u τ Ω) (hu0 : 0 ≤ u) (B : K) (hB : 0 ≤ B) (hτ : τ ≤ B) (horizon minPeriods : Nat)
    (hN : 2 * u * horizon ≤ 1) (hΩ : 2 * (horizon + 1) * B ≤ Ω) (total : List (Fl K) → Fl K)
    (ht : ∀ l, FloatSum (Rounded.add R) l (total l)) (xs : List (Fl K)) (hx : ∀ x ∈ xs, SizedFloat R B x) (t : Nat) (htl : t < xs.length) :
    ∃ y v, ((Rounded.rollingMean R total horizon minPeriods).run xs)[t]? = some y ∧ ((rollingMean horizon minPeriods).run xs)[t]? = some v ∧
      Near (2 * u * horizon * B) y v := by
  have hc' : (Rounded.rollingMean R total horizon minPeriods).Computes fun hist =>
      Rounded.windowMean R total minPeriods (window horizon .nan hist) := by
    apply Mealy.computes_of_step
    intro ys y
    have hs : (Rounded.rollingMean R total horizon minPeriods).stateAfter ys = (buffer horizon Fl.nan).stateAfter ys := rfl
    rw [hs, buffer_stateAfter]
    simp only [Rounded.rollingMean, buffer, bufferApply_window]
  have hc : (rollingMean (K := K) horizon minPeriods).Computes fun hist => Model.windowMean minPeriods (window horizon .nan hist) := by
    apply Mealy.computes_of_step
    intro ys y
    have hs : (rollingMean (K := K) horizon minPeriods).stateAfter ys = (buffer horizon Fl.nan).stateAfter ys := rfl
    rw [hs, buffer_stateAfter]
    simp only [rollingMean, buffer, bufferApply_window]
  exact ⟨_, _, hc' xs t htl, hc xs t htl,
    window_near h hu0 B hB hτ horizon hN hΩ total ht minPeriods _ fun x hm => hx x (List.mem_of_mem_take hm)⟩

/-- **C181** (Flax; fewer than `2^31` steps, the range of the write index). -/
theorem C181_flax_rolling_mean_rounding (h : IsFloat R u τ Ω) (hu0 : 0 ≤ u) (B : K) (hB : 0 ≤ B) (hτ : τ ≤ B) (horizon minPeriods : Nat)
    (h0 : 0 < horizon) (h30 : horizon ≤ 2 ^ 30)
    (hN : 2 * u * horizon ≤ 1) (hΩ : 2 * (horizon + 1) * B ≤ Ω) (total : List (Fl K) → Fl K)
    (ht : ∀ l, FloatSum (Rounded.add R) l (total l)) (xs : List (Fl K)) (hl : xs.length < 2 ^ 31) (hx : ∀ x ∈ xs, SizedFloat R B x)
    (t : Nat) (htl : t < xs.length) :
    ∃ y v, ((Rounded.flaxRollingMean R total horizon minPeriods).run xs)[t]? = some y ∧
      ((flaxRollingMean horizon minPeriods).run xs)[t]? = some v ∧ Near (2 * u * horizon * B) y v := by
  have hlen : (xs.take t).length + 1 < 2 ^ 31 := by rw [List.length_take]; omega
  have hx' : xs.take t ++ [xs[t]] = xs.take (t + 1) := List.take_append_getElem htl
  have hout := circ_step_out horizon h0 h30 (Fl.nan (K := K)) (xs.take t) xs[t] hlen
  rw [hx'] at hout
  refine ⟨_, _, ?_, ?_, window_near h hu0 B hB hτ horizon hN hΩ total ht minPeriods (xs.take (t + 1))
    fun x hm => hx x (List.mem_of_mem_take hm)⟩
  · rw [Mealy.run, Mealy.outsFrom_getElem?, List.getElem?_eq_getElem htl]
    simp only [Option.map_some, Option.some.injEq]
    change Rounded.windowMean R total minPeriods ((circBuffer horizon Fl.nan).step ((circBuffer horizon Fl.nan).stateAfter (xs.take t)) xs[t]).1.1 = _
    rw [hout]
  · rw [Mealy.run, Mealy.outsFrom_getElem?, List.getElem?_eq_getElem htl]
    simp only [Option.map_some, Option.some.injEq]
    change Model.windowMean minPeriods ((circBuffer horizon Fl.nan).step ((circBuffer horizon Fl.nan).stateAfter (xs.take t)) xs[t]).1.1 = _
    rw [hout]

/-- Summing from left to right is one of the orders. -/
theorem floatSum_foldl (R : K → Fl K) (l : List (Fl K)) : FloatSum (Rounded.add R) l (l.foldl (Rounded.add R) (.fin 0)) := by
  have : ∀ (l pre : List (Fl K)) (a : Fl K), FloatSum (Rounded.add R) pre a →
      FloatSum (Rounded.add R) (pre ++ l) (l.foldl (Rounded.add R) a) := by
    intro l
    induction l with
    | nil => intro pre a h; simpa using h
    | cons x l ih =>
      intro pre a h
      have := ih (pre ++ [x]) _ (FloatSum.node h (FloatSum.leaf x))
      simpa using this
  simpa using this l [] _ FloatSum.zero

/-- float32, a stream on which rounding is visible: the hypotheses hold, the computed means differ from the exact ones. -/
example : let xs : List (Fl ℚ) := [.fin 16777216, .fin 1, .nan, .fin 1]
    let total : List (Fl ℚ) → Fl ℚ := fun l => l.foldl (Rounded.add float32.round) (.fin 0)
    (∀ x ∈ xs, SizedFloat float32.round (2 ^ 24) x) ∧
      (Rounded.rollingMean float32.round total 4 1).run xs = [.fin 16777216, .fin 8388608, .fin 8388608, .fin 5592405.5] ∧
      (rollingMean 4 1).run xs = [.fin 16777216, .fin 8388608.5, .fin 8388608.5, .fin 5592406] := by
  refine ⟨?_, by decide +kernel, by decide +kernel⟩
  intro x hx
  simp only [List.mem_cons, List.not_mem_nil, or_false] at hx
  rcases hx with rfl | rfl | rfl | rfl
  · exact Or.inr ⟨_, rfl, by decide +kernel, by decide +kernel⟩
  · exact Or.inr ⟨_, rfl, by decide +kernel, by decide +kernel⟩
  · exact Or.inl rfl
  · exact Or.inr ⟨_, rfl, by decide +kernel, by decide +kernel⟩

/-! ## C180: constant streams -/

/-- **C180** (numba): for every rounding whatsoever, on a stream of one value (with NaN anywhere) the numba EWMA returns exactly
this value as soon as it has been observed. -/
theorem C180_numba_constant (R : K → Fl K) (c : EWMACfg K) (hi : c.initial = .nan) (k : K) (xs : List (Fl K))
    (hx : ∀ x ∈ xs, x = .nan ∨ x = .fin k) (t : Nat) (ht : t < xs.length) :
    ((Rounded.numbaEwma R c).run xs)[t]? =
      some (if max c.minPeriods 1 ≤ present (xs.take (t + 1)) then .fin k else .nan) := by
  have hstep : ∀ (s : EWMAState K) (x : Fl K), (s.mean = if s.nobs = 0 then .nan else .fin k) → (x = .nan ∨ x = .fin k) →
      (Rounded.numbaStep R c s x).2.nobs = s.nobs + (if x.isNan then 0 else 1) ∧
      ((Rounded.numbaStep R c s x).2.mean = if s.nobs + (if x.isNan then 0 else 1) = 0 then .nan else .fin k) ∧
      (Rounded.numbaStep R c s x).1 = (if c.minPeriods ≤ s.nobs + (if x.isNan then 0 else 1) then
        (if s.nobs + (if x.isNan then 0 else 1) = 0 then .nan else .fin k) else .nan) := by
    intro s x hm hx
    have key : (Rounded.numbaStep R c s x).2.nobs = s.nobs + (if x.isNan then 0 else 1) ∧
        (Rounded.numbaStep R c s x).1 = (if c.minPeriods ≤ s.nobs + (if x.isNan then 0 else 1) then (Rounded.numbaStep R c s x).2.mean else .nan) ∧
        ((Rounded.numbaStep R c s x).2.mean = if s.nobs + (if x.isNan then 0 else 1) = 0 then .nan else .fin k) := by
      unfold Rounded.numbaStep
      by_cases h0 : s.nobs = 0
      · rw [if_pos h0] at hm
        rcases hx with rfl | rfl <;> simp [hm, h0]
      · rw [if_neg h0] at hm
        rcases hx with rfl | rfl
        · cases c.ignoreNa <;> simp [hm, h0]
        · simp [hm, h0, Fl.feq]
    exact ⟨key.1, key.2.2, by rw [key.2.1, key.2.2]⟩
  have all : ∀ (xs : List (Fl K)) (s : EWMAState K) (t : Nat), (s.mean = if s.nobs = 0 then .nan else .fin k) →
      (∀ x ∈ xs, x = .nan ∨ x = .fin k) → t < xs.length →
      ((Rounded.numbaEwma R c).outsFrom s xs)[t]? =
        some (if max c.minPeriods 1 ≤ s.nobs + present (xs.take (t + 1)) then .fin k else .nan) := by
    intro xs
    induction xs with
    | nil => intro s t _ _ h; simp at h
    | cons x xs ih =>
      intro s t hm hx ht
      obtain ⟨h1, h2, h3⟩ := hstep s x hm (hx x (by simp))
      have hp : ∀ l : List (Fl K), present (x :: l) = (if x.isNan then 0 else 1) + present l := by
        intro l
        simp only [present, List.countP_cons]
        cases x.isNan <;> simp [Nat.add_comm]
      cases t with
      | zero =>
        simp only [Mealy.outsFrom_cons, List.getElem?_cons_zero, Nat.zero_add, List.take_succ_cons, List.take_zero, hp]
        refine congrArg some (h3.trans ?_)
        have : present ([] : List (Fl K)) = 0 := rfl
        rw [this, Nat.add_zero]
        generalize s.nobs + (if x.isNan then 0 else 1) = n
        by_cases hn : n = 0
        · subst hn; simp
        · have : max c.minPeriods 1 ≤ n ↔ c.minPeriods ≤ n := by omega
          simp [hn, this]
      | succ t =>
        simp only [Mealy.outsFrom_cons, List.getElem?_cons_succ, List.take_succ_cons, hp]
        have := ih (Rounded.numbaStep R c s x).2 t (by rw [h2, h1]) (fun y hy => hx y (by simp [hy])) (by simpa using ht)
        rw [h1, Nat.add_assoc] at this
        exact this
  have := all xs (Rounded.numbaEwma R c).init t (by simp [Rounded.numbaEwma, hi]) hx ht
  simpa [Mealy.run, Rounded.numbaEwma] using this

/-- **C180** (Haiku) is false: in float32 the EWMA of the constant 0.1 is not constant (`com = 2`, two observations), nor is it with
`adjust=False` or `adjust="linear"` (`com = 10`). -/
theorem C180_constant_drifts_partial :
    let tenth : Fl ℚ := float32.round (1 / 10)
    let values (com : ℚ) (a : Adjust) (n : Nat) :=
      ((Rounded.ewma float32.round ⟨com, a, false, 0, .nan, float32.largest⟩).run (List.replicate n tenth)).map (·.value)
    tenth = .fin (13421773 / 134217728) ∧
      values 2 .yes 2 = [tenth, .fin (13421772 / 134217728)] ∧
      values 10 .no 3 = [tenth, .fin (13421772 / 134217728), .fin (13421771 / 134217728)] ∧
      values 10 .linear 7 = List.replicate 6 tenth ++ [.fin (13421774 / 134217728)] := by
  decide +kernel

end Verif.Props
