import Verif.Props.RoundedMasks
import Verif.Props.Windows
import Mathlib.Analysis.Real.Sqrt

/-! # Percentage changes in floating point; constant lines under MaskNormalize -/

set_option linter.unusedSectionVars false
set_option linter.unusedSimpArgs false
set_option linter.unusedVariables false

namespace Verif.Props
open Model Spec Lemmas
open Model.Rounded (rnd)
variable {K : Type} [Field K] [LinearOrder K] [IsStrictOrderedRing K]
variable {R : K → Fl K} {u τ Ω : K}

/-! ## C194 -/

theorem C194_exact (fz pad : Bool) :
    Rounded.pctChange (Fl.fin (K := K)) fz = pctChange fz ∧ Rounded.flaxPctChange (Fl.fin (K := K)) pad fz = flaxPctChange pad fz := by
  have h : Rounded.pctValue (Fl.fin (K := K)) fz = pctValue fz := by
    funext x p
    unfold Rounded.pctValue pctValue
    simp only [exact_sub, exact_div]
    rfl
  constructor
  · unfold Rounded.pctChange pctChange; rw [h]
  · unfold Rounded.flaxPctChange flaxPctChange; rw [h]

theorem roundedPct_stateAfter (fz : Bool) (xs : List (Fl K)) :
    (Rounded.pctChange R fz).stateAfter xs = (lastValid xs, (buffer 2 Fl.nan).stateAfter ((ffill (K := K)).run xs)) := by
  induction xs using List.reverseRecOn with
  | nil => rfl
  | append_singleton xs x ih =>
    rw [Mealy.stateAfter_append_singleton, ih, Mealy.run_append_singleton,
      Mealy.stateAfter_append_singleton, ffill_stateAfter, lastValid_snoc]
    rfl

/-- The computed change at each step is that from the most recent value. -/
theorem roundedPct_run (fz : Bool) (xs : List (Fl K)) (t : Nat) (ht : t < xs.length) :
    ((Rounded.pctChange R fz).run xs)[t]? = some (some (Rounded.pctValue R fz xs[t] (lastValid (xs.take t)))) := by
  rw [Mealy.run, Mealy.outsFrom_getElem?, List.getElem?_eq_getElem ht]
  simp only [Option.map_some, Option.some.injEq]
  have hs := roundedPct_stateAfter (R := R) fz (xs.take t)
  rw [Mealy.stateAfter] at hs
  rw [hs]
  simp only [Rounded.pctChange, lag]
  have hf : (ffill.step (lastValid (xs.take t)) xs[t]).1 = lastValid (xs.take t ++ [xs[t]]) := by
    rw [lastValid_snoc]; rfl
  rw [hf, buffer_stateAfter]
  simp only [buffer, Nat.reduceAdd, bufferApply_window]
  rw [window_ago _ _ _ _ (by omega)]
  simp only [Option.map_some, Option.some.injEq]
  congr 1
  unfold ago
  simp only [List.reverse_append, List.reverse_cons, List.reverse_nil, List.nil_append,
    List.cons_append]
  show List.getD _ 1 Fl.nan = _
  simp only [List.getD_cons_succ]
  rcases List.eq_nil_or_concat (xs.take t) with h | ⟨l, a, h⟩
  · rw [h]; simp [lastValid, valid, Mealy.run]
  · rw [h, List.concat_eq_append, Mealy.run_append_singleton, ffill_stateAfter]
    simp [lastValid_snoc, ffill]

theorem roundedPct_flax (fz : Bool) (xs : List (Fl K)) (hx : xs.length < 2 ^ 31) :
    (Rounded.flaxPctChange R true fz).run xs = (Rounded.pctChange R fz).run xs := by
  have hst : ∀ ys : List (Fl K), (Rounded.flaxPctChange R true fz).stateAfter ys =
      (lastValid ys, (circBuffer 2 Fl.nan).stateAfter ((ffill (K := K)).run ys)) := by
    intro ys
    induction ys using List.reverseRecOn with
    | nil => rfl
    | append_singleton xs x ih =>
      rw [Mealy.stateAfter_append_singleton, ih, Mealy.run_append_singleton,
        Mealy.stateAfter_append_singleton, ffill_stateAfter, lastValid_snoc]
      rfl
  have := Mealy.run_eq_of_steps (Rounded.flaxPctChange R true fz) (Rounded.pctChange R fz) id xs (fun t ht => by
    have hl : (xs.take t).length = t := by simp; omega
    rw [hst, roundedPct_stateAfter]
    have h1 := circ_step_out 2 (by omega) (by omega) Fl.nan ((ffill (K := K)).run (xs.take t))
      (ffill.step (lastValid (xs.take t)) xs[t]).1 (by simp; omega)
    simp only [Rounded.flaxPctChange, flaxLag, if_true, h1, Rounded.pctChange, lag, Nat.reduceAdd, buffer_stateAfter]
    simp only [buffer, bufferApply_window, id])
  simpa using this

/-- A value of the stream: NaN, 0, or a number between `b` and `B` in size. -/
def Ranged (b B : K) (x : Fl K) : Prop := x = .nan ∨ ∃ v, x = .fin v ∧ |v| ≤ B ∧ (v = 0 ∨ b ≤ |v|)

theorem lastValid_ranged {b B : K} (xs : List (Fl K)) (h : ∀ x ∈ xs, Ranged b B x) : Ranged b B (lastValid xs) := by
  unfold lastValid
  cases hl : (valid xs).getLast? with
  | none => exact Or.inl rfl
  | some v =>
    have : v ∈ valid xs := List.mem_of_getLast? hl
    exact h v (List.mem_of_mem_filter this)

/-- Two changes: the same float, or numbers at distance at most `5 u (1 + |exact change|)`. -/
def PctNear (u : K) (a b : Fl K) : Prop := a = b ∨ ∃ y v, a = .fin y ∧ b = .fin v ∧ |y - v| ≤ 5 * u * (1 + |v|)

theorem pct_near (h : IsRounding R u τ Ω) (hu0 : 0 ≤ u) (hu1 : u ≤ 1) (hτ : τ ≤ 1) {b B : K} (hb : 0 < b) (hB : 0 ≤ B)
    (hΩ : 2 * (B / b + 1) ≤ Ω) (fz : Bool) (x p : Fl K) (hx : Ranged b B x) (hp : Ranged b B p) :
    PctNear u (Rounded.pctValue R fz x p) (pctValue fz x p) := by
  have hnn : ∀ p : Fl K, Rounded.pctValue R fz .nan p = pctValue fz .nan p := by
    intro p; unfold Rounded.pctValue pctValue; cases p <;> cases fz <;> simp [Rounded.sub, Rounded.div, rnd]
  rcases hx with rfl | ⟨x, rfl, hxB, -⟩
  · exact Or.inl (hnn p)
  rcases hp with rfl | ⟨p, rfl, -, hp⟩
  · left; unfold Rounded.pctValue pctValue; simp [Rounded.sub, Rounded.div, rnd]
  have e1 : Rounded.pctValue R fz (.fin x) (.fin p) = Rounded.sub R (Rounded.div R (.fin x) (.fin p)) (.fin 1) := by
    simp [Rounded.pctValue]
  have e2 : pctValue fz (.fin x) (.fin p) = .fin x / .fin p - .fin 1 := by simp [pctValue]
  rw [e1, e2]
  rcases hp with rfl | hp
  · left
    unfold Rounded.sub Rounded.div
    rw [Fl.fin_div, if_pos rfl]
    unfold Fl.infSign
    split
    · rfl
    · split <;> rfl
  · right
    have p0 : p ≠ 0 := fun h0 => by rw [h0, abs_zero] at hp; linarith
    have hq : |x / p| ≤ B / b := by
      rw [abs_div]; exact div_le_div₀ hB hxB hb hp
    obtain ⟨q, hq1, hq2⟩ := r_div h x p p0 (by have := abs_nonneg (x / p); linarith)
    have hmax : max |x / p| τ ≤ |x / p| + 1 := max_le (by linarith) (by have := abs_nonneg (x / p); linarith)
    have hq3 : |q - x / p| ≤ u * (|x / p| + 1) := hq2.trans (mul_le_mul_of_nonneg_left hmax hu0)
    have hq4 : u * (|x / p| + 1) ≤ |x / p| + 1 := by
      have : 0 ≤ |x / p| + 1 := by positivity
      nlinarith
    have hqv : |x / p| ≤ |x / p - 1| + 1 := by
      have : x / p = (x / p - 1) + 1 := by ring
      calc |x / p| = |(x / p - 1) + 1| := by rw [← this]
        _ ≤ _ := (abs_add_le _ _).trans (by rw [abs_one])
    have hy1 : |q - 1| ≤ |x / p - 1| + u * (|x / p| + 1) := by
      have : q - 1 = (q - x / p) + (x / p - 1) := by ring
      rw [this]; exact (abs_add_le _ _).trans (by linarith)
    have hy0 : |q - 1| ≤ Ω := by
      have k : |x / p - 1| ≤ |x / p| + 1 := (abs_sub _ _).trans (by rw [abs_one])
      linarith
    obtain ⟨y, hy, ey⟩ := r_sub h q 1 hy0
    have hmax2 : max |q - 1| τ ≤ |q - 1| + 1 := max_le (by linarith) (by have := abs_nonneg (q - 1); linarith)
    have ey2 : |y - (q - 1)| ≤ u * (|q - 1| + 1) := ey.trans (mul_le_mul_of_nonneg_left hmax2 hu0)
    refine ⟨y, x / p - 1, by rw [hq1]; exact hy, by rw [Fl.fin_div_of_ne _ p0]; exact Fl.fin_sub _ _, ?_⟩
    have e3 : y - (x / p - 1) = (y - (q - 1)) + (q - x / p) := by ring
    rw [e3]
    have a := abs_add_le (y - (q - 1)) (q - x / p)
    have hV := mul_nonneg hu0 (abs_nonneg (x / p - 1))
    generalize |x / p - 1| = V at *
    generalize |x / p| = Q at *
    have c1 : u * (|q - 1| + 1) ≤ u * (V + (V + 2) + 1) := by
      refine mul_le_mul_of_nonneg_left ?_ hu0
      linarith
    have c2 : u * (Q + 1) ≤ u * (V + 2) := mul_le_mul_of_nonneg_left (by linarith) hu0
    linarith

/-- **C194** (Haiku): with floating point arithmetic of unit roundoff `u`, on a stream of any length of values that are NaN, 0, or between
`b` and `B` in size, the change computed at every step is within `5 u (1 + |change|)` of the exact one, and the NaN, infinite and
filled outputs are exactly the same. -/
theorem C194_pct_change_rounding (h : IsRounding R u τ Ω) (hu0 : 0 ≤ u) (hu1 : u ≤ 1) (hτ : τ ≤ 1) {b B : K} (hb : 0 < b) (hB : 0 ≤ B)
    (hΩ : 4 * (B / b + 1) ≤ Ω) (fz : Bool) (xs : List (Fl K)) (hx : ∀ x ∈ xs, Ranged b B x) (t : Nat) (ht : t < xs.length) :
    ∃ y e, ((Rounded.pctChange R fz).run xs)[t]? = some (some y) ∧ ((pctChange fz).run xs)[t]? = some (some e) ∧ PctNear u y e := by
  refine ⟨_, _, roundedPct_run fz xs t ht, C05_pct_change fz xs t ht, ?_⟩
  rw [← pctValue_eq]
  have hBb : 0 ≤ B / b := by positivity
  exact pct_near h hu0 hu1 hτ hb hB (by linarith) fz _ _ (hx _ (List.getElem_mem ht))
    (lastValid_ranged _ fun x hm => hx x (List.mem_of_mem_take hm))

/-- **C194** (Flax, `pad`), fewer than `2^31` steps. -/
theorem C194_flax_pct_change_rounding (h : IsRounding R u τ Ω) (hu0 : 0 ≤ u) (hu1 : u ≤ 1) (hτ : τ ≤ 1) {b B : K} (hb : 0 < b) (hB : 0 ≤ B)
    (hΩ : 4 * (B / b + 1) ≤ Ω) (fz : Bool) (xs : List (Fl K)) (hl : xs.length < 2 ^ 31) (hx : ∀ x ∈ xs, Ranged b B x) (t : Nat)
    (ht : t < xs.length) :
    ∃ y e, ((Rounded.flaxPctChange R true fz).run xs)[t]? = some (some y) ∧ ((flaxPctChange true fz).run xs)[t]? = some (some e) ∧
      PctNear u y e := by
  rw [roundedPct_flax fz xs hl, C05_flax_pct_change fz xs hl]
  exact C194_pct_change_rounding h hu0 hu1 hτ hb hB hΩ fz xs hx t ht

/-- A concrete float32 run with a missing value, a zero and a non-trivial rounding: the change from 3 to 1. -/
example :
    (Rounded.pctChange float32.round true).run [.fin 3, .nan, .fin 1, .fin 0, .fin 5] =
        [some .nan, some (.fin 0), some (.fin (-11184810 / 16777216)), some (.fin (-1)), some .pinf] ∧
      (pctChange (K := ℚ) true).run [.fin 3, .nan, .fin 1, .fin 0, .fin 5] =
        [some .nan, some (.fin 0), some (.fin (-2 / 3)), some (.fin (-1)), some .pinf] ∧
      |(-11184810 / 16777216 : ℚ) - -2 / 3| ≤ 5 * (1 / 2 ^ 24) * (1 + 2 / 3) ∧
      4 * ((5 : ℚ) / 1 + 1) ≤ float32.largest := by
  decide +kernel

/-! ## The hypotheses of C191 and C192 are met in float32 -/

/-- There are square root routines as assumed. -/
theorem exists_isSqrt : ∃ sq : Fl ℚ → Fl ℚ, IsSqrt sq (1 / 2 ^ 24) := by
  have key : ∀ a : ℚ, 0 ≤ a → ∃ y : ℚ, 0 ≤ y ∧ |y * y - a| ≤ 4 * (1 / 2 ^ 24) * a := by
    intro a ha
    rcases ha.eq_or_lt with rfl | ha
    · exact ⟨0, le_refl _, by simp⟩
    have har : (0 : ℝ) < a := by exact_mod_cast ha
    have hs := Real.sqrt_pos.mpr har
    have hss := Real.mul_self_sqrt har.le
    set r := Real.sqrt (a : ℝ) with hr
    obtain ⟨y, y1, y2⟩ := exists_rat_btwn (show r * (1 - 1 / 2 ^ 24) < r by nlinarith)
    have hy0 : (0 : ℝ) < y := lt_trans (by nlinarith) y1
    have u1 : (y : ℝ) * y ≤ a := by rw [← hss]; exact mul_le_mul y2.le y2.le hy0.le hs.le
    have l1 : (a : ℝ) * (1 - 4 * (1 / 2 ^ 24)) ≤ y * y := by
      have : r * (1 - 1 / 2 ^ 24) * (r * (1 - 1 / 2 ^ 24)) ≤ (y : ℝ) * y :=
        mul_le_mul y1.le y1.le (by nlinarith) hy0.le
      have e : r * (1 - 1 / 2 ^ 24) * (r * (1 - 1 / 2 ^ 24)) = a * (1 - 1 / 2 ^ 24) ^ 2 := by rw [← hss]; ring
      rw [e] at this
      refine le_trans (mul_le_mul_of_nonneg_left ?_ har.le) this
      norm_num
    have u2 : y * y ≤ a := by exact_mod_cast u1
    have l2 : a * (1 - 4 * (1 / 2 ^ 24)) ≤ y * y := by
      have : ((a * (1 - 4 * (1 / 2 ^ 24)) : ℚ) : ℝ) ≤ ((y * y : ℚ) : ℝ) := by push_cast; exact l1
      exact_mod_cast this
    refine ⟨y, by exact_mod_cast hy0.le, ?_⟩
    rw [abs_le]; constructor <;> linarith
  classical
  refine ⟨fun x => match x with
    | .fin a => if h : 0 ≤ a then .fin (key a h).choose else .nan
    | x => x, fun a ha => ⟨_, dif_pos ha, (key a ha).choose_spec.1, (key a ha).choose_spec.2⟩⟩

/-- In float32, lines of up to `2^18` masked entries of size at most `B`, `B` between `2^-60` and `2^50`, are within the assumptions. -/
theorem float32_mask_fits (n : Nat) (B : ℚ) (hn : n ≤ 2 ^ 18) (hB : 1 / 2 ^ 60 ≤ B) (hB2 : B ≤ 2 ^ 50) :
    MaskFits (1 / 2 ^ float32.prec) (2 ^ float32.emin) float32.largest n B := by
  have e1 : (1 / 2 ^ float32.prec : ℚ) = 1 / 2 ^ 24 := rfl
  have e2 : (2 ^ float32.emin : ℚ) = 1 / 2 ^ 126 := by decide +kernel
  have e3 : float32.largest = 2 ^ 128 - 2 ^ 104 := by decide +kernel
  rw [e1, e2, e3]
  have hB0 : 0 ≤ B := le_trans (by norm_num) hB
  have n0 : (0 : ℚ) ≤ n := Nat.cast_nonneg n
  have hn' : (n : ℚ) ≤ 2 ^ 18 := by exact_mod_cast hn
  have b1 : B ^ 2 ≤ 2 ^ 50 * 2 ^ 50 := by rw [pow_two]; exact mul_le_mul hB2 hB2 hB0 (by norm_num)
  have b2 : 1 / 2 ^ 60 * (1 / 2 ^ 60) ≤ B ^ 2 := by rw [pow_two]; exact mul_le_mul hB hB (by norm_num) hB0
  have p1 : 2 * ((n : ℚ) + 8) * B ≤ 2 * (2 ^ 18 + 8) * 2 ^ 50 := mul_le_mul (by linarith) hB2 hB0 (by norm_num)
  have p2 : 34 * ((n : ℚ) + 1) * B ^ 2 ≤ 34 * (2 ^ 18 + 1) * (2 ^ 50 * 2 ^ 50) := mul_le_mul (by linarith) b1 (by positivity) (by norm_num)
  refine ⟨by norm_num, hB0, ?_, by norm_num, ?_, ?_, ?_, ?_⟩
  · have : 64 * (1 / 2 ^ 24) * (n : ℚ) ≤ 64 * (1 / 2 ^ 24) * 2 ^ 18 := mul_le_mul_of_nonneg_left hn' (by norm_num)
    refine this.trans ?_
    norm_num
  · norm_num at hB ⊢; linarith
  · norm_num at b2 ⊢; linarith
  · norm_num at p1 ⊢; linarith
  · norm_num at p2 ⊢; linarith

/-- **C192** in float32: on a line of `n ≤ 2^18` masked entries of size at most `B`, the square of the computed standard deviation is within
`eps + 120 n B² / 2^24` of the exact variance. -/
theorem C192_float32 (B : ℚ) (hB : 1 / 2 ^ 60 ≤ B) (hB2 : B ≤ 2 ^ 50) (big eps : ℚ) (total : List (Fl ℚ) → Fl ℚ)
    (ht : ∀ l, FloatSum (Rounded.add float32.round) l (total l)) (sq : Fl ℚ → Fl ℚ) (hsq : IsSqrt sq (1 / 2 ^ 24)) (heps : 0 ≤ eps)
    (hepsB : eps ≤ B ^ 2) (ac : Bool) (l : Line ℚ) (hl : LineOk float32.round B l) (hn : 0 < maskCount l) (hn2 : maskCount l ≤ 2 ^ 18) :
    ∃ y v, Rounded.maskStd float32.round total sq eps big ac l = .fin y ∧ maskVarWith big ac (maskMean big l) l = .fin v ∧ 0 ≤ v ∧ 0 ≤ y ∧
      |y * y - v| ≤ eps + 120 * (1 / 2 ^ 24) * maskCount l * B ^ 2 :=
  C192_mask_std_rounding (C179_ieee float32 float32_ok) B big eps total ht sq hsq heps hepsB ac l hl
    (float32_mask_fits _ B hn2 hB hB2) hn

/-- A concrete line with a NaN and an infinity outside the mask: the computed mean of (0.1, 1, 5) and NaN is off by a rounding. -/
example :
    let l : Line ℚ := [(true, .fin (13421773 / 134217728)), (false, .pinf), (true, .fin 1), (true, .nan), (true, .fin 5), (true, .fin 1), (true, .fin 1)]
    maskCount l = 6 ∧
      Rounded.maskMean float32.round (fun l => l.foldl (Rounded.add float32.round) (.fin 0)) float32.largest l = .fin (11324621 / 8388608) ∧
      maskMean float32.largest l = .fin (1087163597 / 805306368) ∧
      |(11324621 / 8388608 : ℚ) - 1087163597 / 805306368| ≤ 2 * (1 / 2 ^ 24) * 6 * 5 ∧ LineOk float32.round 5 l := by
  refine ⟨by decide +kernel, by decide +kernel, by decide +kernel, by decide +kernel, ?_⟩
  have r1 : float32.round (13421773 / 134217728) = .fin (13421773 / 134217728) := by decide +kernel
  have r2 : float32.round 1 = .fin 1 := by decide +kernel
  have r3 : float32.round 5 = .fin 5 := by decide +kernel
  intro e he hm
  simp only [List.mem_cons, List.not_mem_nil, or_false] at he
  rcases he with rfl | rfl | rfl | rfl | rfl | rfl | rfl
  · exact Or.inr ⟨_, rfl, r1, by rw [abs_of_nonneg (by norm_num)]; norm_num⟩
  · cases hm
  · exact Or.inr ⟨_, rfl, r2, by rw [abs_of_nonneg (by norm_num)]; norm_num⟩
  · exact Or.inl rfl
  · exact Or.inr ⟨_, rfl, r3, by rw [abs_of_nonneg (by norm_num)]⟩
  · exact Or.inr ⟨_, rfl, r2, by rw [abs_of_nonneg (by norm_num)]; norm_num⟩
  · exact Or.inr ⟨_, rfl, r2, by rw [abs_of_nonneg (by norm_num)]; norm_num⟩

/-! ## C193: a constant line -/

/-- A line of `n` equal values, all masked. -/
def constantLine (n : Nat) (k : K) : Line K := List.replicate n (true, .fin k)

theorem constant_count (n : Nat) (k : K) : maskCount (constantLine n k) = n := by
  unfold constantLine maskCount
  rw [List.map_replicate, List.sum_replicate]
  simp

theorem constant_fill (n : Nat) (k big : K) : maskFill big (constantLine n k) = List.replicate n (.fin k) := by
  unfold constantLine maskFill
  rw [List.map_replicate]; rfl

theorem sum_replicate_fin (n : Nat) (k : K) : (List.replicate n (Fl.fin k)).sum = .fin (n * k) := by
  induction n with
  | zero => simp
  | succ n ih => rw [List.replicate_succ, List.sum_cons, ih]; simp; ring

/-- **C193**, in exact arithmetic: `MaskNormalize` sends every constant line to zeros. -/
theorem C193_constant_exact (root : K → K) (eps big k : K) (n : Nat) :
    maskNormalize root eps big false (constantLine n k) = List.replicate n (.fin 0) := by
  rcases Nat.eq_zero_or_pos n with rfl | hn
  · rfl
  have n0 : (n : K) ≠ 0 := by exact_mod_cast hn.ne'
  have hm : maskMean big (constantLine n k) = .fin k := by
    unfold maskMean
    rw [constant_fill, constant_count, sum_replicate_fin, Fl.fin_div_of_ne _ n0, mul_div_cancel_left₀ _ n0]
  have hv : maskVarWith big false (.fin k) (constantLine n k) = .fin 0 := by
    rw [exactVar_eq, constant_count]
    unfold constantLine
    rw [List.map_replicate]
    have : devOf (fun a b => a - b) big false (.fin k) (true, .fin k) = .fin 0 := by
      change (Fl.fin k - Fl.fin k : Fl K) = _
      rw [Fl.fin_sub, sub_self]
    rw [this, Fl.fin_mul, sum_replicate_fin, Fl.fin_div_of_ne _ n0]
    simp
  have hs : maskStd root eps big false (constantLine n k) = .fin 0 := by
    unfold maskStd
    rw [hm, hv]; simp [stdOfVar]
  unfold maskNormalize
  simp only [hs]
  unfold constantLine
  rw [List.map_replicate]
  unfold fillNanInf
  rw [List.map_replicate]
  congr 1
  rw [Fl.fin_div, if_pos rfl]
  unfold Fl.infSign
  split
  · rfl
  · split <;> rfl

/-- 0.1 in float32, and the `eps` of `MaskStd` in float32 (the square of the resolution `1e-6`). -/
def tenth32 : ℚ := 13421773 / 134217728
def eps32 : ℚ := 2305843 / 2305843009213693952

/-- `sum` in the order of the entries. -/
def sumInOrder (l : List (Fl ℚ)) : Fl ℚ := l.foldl (Rounded.add float32.round) (.fin 0)

/-- **C193** is false in float32: seven equal values 0.1 are not sent to zeros but to numbers above 65536, with every square root
routine (the computed mean is one unit off, the computed variance is not 0, and the standard deviation is `sqrt(eps)`). -/
theorem C193_constant_explodes_partial (sq : Fl ℚ → Fl ℚ) (hsq : IsSqrt sq (1 / 2 ^ 24)) :
    float32.round (1 / 10) = .fin tenth32 ∧
    ∃ z, 65536 ≤ z ∧ Rounded.maskNormalize float32.round sumInOrder sq eps32 float32.largest false (constantLine 7 tenth32) =
      List.replicate 7 (.fin z) := by
  refine ⟨by decide +kernel, ?_⟩
  have hv : Rounded.maskVarWith float32.round sumInOrder float32.largest false
      (Rounded.maskMean float32.round sumInOrder float32.largest (constantLine 7 tenth32)) (constantLine 7 tenth32) =
      .fin (1 / 18014398509481984) := by decide +kernel
  have ha : Rounded.add float32.round (.fin eps32) (.fin (1 / 18014398509481984)) = .fin (2305971 / 2305843009213693952) := by
    decide +kernel
  obtain ⟨y, hy, y0, ey⟩ := hsq (2305971 / 2305843009213693952) (by norm_num)
  have hstd : Rounded.maskStd float32.round sumInOrder sq eps32 float32.largest false (constantLine 7 tenth32) = .fin y := by
    unfold Rounded.maskStd Rounded.stdOfVar
    rw [hv]
    simp only [Fl.lt_fin]
    norm_num at ha hy ⊢
    rw [ha]; exact hy
  obtain ⟨e1, e2⟩ := abs_le.mp ey
  have ypos : 0 < y := by
    rcases y0.eq_or_lt with h | h
    · rw [← h] at e1; norm_num at e1
    · exact h
  have yup : y ≤ tenth32 / 65536 := by
    by_contra hc
    have hc := not_le.mp hc
    have : tenth32 / 65536 * (tenth32 / 65536) ≤ y * y := mul_le_mul hc.le hc.le (by unfold tenth32; norm_num) y0
    unfold tenth32 at this
    norm_num at this e2
    linarith
  have ylo : 1 / 2 ^ 21 ≤ y := by
    by_contra hc
    have hc := not_le.mp hc
    have : y * y ≤ 1 / 2 ^ 21 * (1 / 2 ^ 21) := mul_le_mul hc.le hc.le y0 (by norm_num)
    norm_num at this e1
    linarith
  have hq1 : 65536 ≤ tenth32 / y := by
    rw [le_div_iff₀ ypos]; linarith
  have hq2 : tenth32 / y ≤ 2 ^ 21 := by
    rw [div_le_iff₀ ypos]
    have : tenth32 ≤ 1 := by unfold tenth32; norm_num
    linarith
  have hr := C178_ieee float32 float32_ok
  have hΩ : (2 : ℚ) ^ 21 ≤ float32.largest := by decide +kernel
  obtain ⟨z, hz, -⟩ := hr.near (tenth32 / y) (by rw [abs_of_nonneg (by linarith)]; exact hq2.trans hΩ)
  have h6 : float32.round 65536 = .fin 65536 := by decide +kernel
  have hz6 : 65536 ≤ z := mono_fin hr.toIsMonotoneRounding hq1 h6 hz
  refine ⟨z, hz6, ?_⟩
  unfold Rounded.maskNormalize
  simp only [hstd]
  unfold constantLine
  rw [List.map_replicate]
  unfold fillNanInf
  rw [List.map_replicate]
  congr 1
  have : Rounded.div float32.round (.fin tenth32) (.fin y) = .fin z := by
    unfold Rounded.div
    rw [Fl.fin_div_of_ne _ ypos.ne']; exact hz
  rw [this]; rfl

end Verif.Props
