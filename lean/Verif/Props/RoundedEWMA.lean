import Verif.Props.RoundedWt

/-! # Rounding errors of the EWMA do not accumulate -/

set_option linter.unusedSectionVars false
set_option linter.unusedSimpArgs false
set_option linter.unusedVariables false

namespace Verif.Props
open Model Spec Lemmas
open Model.Rounded (rnd)
variable {K : Type} [Field K] [LinearOrder K] [IsStrictOrderedRing K]
variable {R : K → Fl K} {u τ Ω : K}

/-! ## The invariant -/

/-- A value fed to the module: NaN, or a number of size at most `B`. -/
def Sized (B : K) (x : Fl K) : Prop := x = .nan ∨ ∃ v, x = .fin v ∧ |v| ≤ B

/-- Two results: both NaN, or numbers at distance at most `E`. -/
def Near (E : K) (a b : Fl K) : Prop := (a = .nan ∧ b = .nan) ∨ ∃ y v, a = .fin y ∧ b = .fin v ∧ |y - v| ≤ E

/-- The computed state (left) follows the exact one (right). -/
def StNear (W : K → K → Prop) (B E : K) (s' s : EWMAState K) : Prop :=
  s'.nobs = s.nobs ∧ ∃ w, s.oldWt = .fin w ∧ 0 ≤ w ∧
    ((s'.mean = .nan ∧ s.mean = .nan) ∨
      ∃ m' m w', s'.mean = .fin m' ∧ s.mean = .fin m ∧ s'.oldWt = .fin w' ∧ |m' - m| ≤ E ∧ |m| ≤ B ∧ W w w')

theorem wtOk_one (c : EWMACfg K) (hc : 0 ≤ c.com) (hu0 : 0 ≤ u) : WtOk c u 1 1 := by
  have ha1 := al_le_one c hc
  cases hadj : c.adjust with
  | yes => simp only [WtOk, hadj]; exact ⟨le_refl _, by linarith, by rw [sub_self, abs_zero]; positivity⟩
  | no => simp [WtOk, hadj]
  | linear =>
    simp only [WtOk, hadj]
    refine ⟨zero_le_one, zero_le_one, ?_⟩
    rw [sub_self, abs_zero]
    have hq : 0 ≤ min 1 c.com := le_min zero_le_one hc
    have : 8 * u * (min 1 c.com + 1) ^ 2 - 3 * u * (min 1 c.com + 1) = u * (min 1 c.com + 1) * (8 * min 1 c.com + 5) := by ring
    rw [this]; positivity

/-- The weighted mean with nearby shares and nearby old means. -/
theorem mean_near {p n q r m m' x B E al δ : K} (hp : 0 ≤ p) (hn : 0 ≤ n) (hs : 0 < p + n) (hq : 0 ≤ q) (hr : 0 < r)
    (hl : q / (q + r) ≤ 1 - al) (hd : |p / (p + n) - q / (q + r)| ≤ δ) (hm : |m| ≤ B) (hx : |x| ≤ B) (he : |m' - m| ≤ E) :
    |(p * m' + n * x) / (p + n) - (q * m + r * x) / (q + r)| ≤ (1 - al + δ) * E + 2 * δ * B := by
  have hqr : 0 < q + r := by linarith
  have e1 : (p * m' + n * x) / (p + n) - (q * m + r * x) / (q + r) =
      p / (p + n) * (m' - m) + (p / (p + n) - q / (q + r)) * (m - x) := by field_simp; ring
  have l0 : 0 ≤ p / (p + n) := by positivity
  have l1 : p / (p + n) ≤ 1 - al + δ := by have := (abs_le.mp hd).2; linarith
  have hE : 0 ≤ E := (abs_nonneg _).trans he
  have k1 : |p / (p + n) * (m' - m)| ≤ (1 - al + δ) * E := by
    rw [abs_mul, abs_of_nonneg l0]; exact mul_le_mul l1 he (abs_nonneg _) (l0.trans l1)
  have k2 : |m - x| ≤ 2 * B := (abs_sub _ _).trans (by linarith)
  have k3 : |(p / (p + n) - q / (q + r)) * (m - x)| ≤ δ * (2 * B) := by
    rw [abs_mul]; exact mul_le_mul hd k2 (abs_nonneg _) ((abs_nonneg _).trans hd)
  rw [e1]
  exact (abs_add_le _ _).trans (by linarith)

theorem mean_sized {q r m x B : K} (hq : 0 ≤ q) (hr : 0 < r) (hm : |m| ≤ B) (hx : |x| ≤ B) : |(q * m + r * x) / (q + r)| ≤ B := by
  have hqr : 0 < q + r := by linarith
  rw [abs_div, abs_of_pos hqr, div_le_iff₀ hqr]
  have k1 : |q * m| ≤ q * B := by rw [abs_mul, abs_of_nonneg hq]; exact mul_le_mul_of_nonneg_left hm hq
  have k2 : |r * x| ≤ r * B := by rw [abs_mul, abs_of_pos hr]; exact mul_le_mul_of_nonneg_left hx hr.le
  exact (abs_add_le _ _).trans (by linarith)

/-- What is assumed of the precision, the time constant and the size of the inputs. -/
structure FormatFits (u τ Ω com B : K) : Prop where
  com_nonneg : 0 ≤ com
  u_nonneg : 0 ≤ u
  B_nonneg : 0 ≤ B
  precision : 64 * u * (1 + com) ≤ 1
  underflow : 2 * τ * (1 + com) ≤ 1
  underflow_inputs : 2 * τ * (1 + com) ≤ B
  overflow : 16 * (1 + com) ≤ Ω
  overflow_inputs : 16 * B * (1 + com) ≤ Ω

/-- The computed weights follow the exact ones closely enough: `W` relates them, `δ` bounds the error of the share of the old mean. -/
structure WtSim (R : K → Fl K) (c : EWMACfg K) (W : K → K → Prop) (δ : K) (nanOk : Prop) : Prop where
  one : W 1 1
  obs : ∀ w w', 0 ≤ w → W w w' →
    ∃ p n, Rounded.oldWt R c true false (.fin w') = .fin p ∧ Rounded.newWt R c = .fin n ∧ 0 ≤ p ∧ 0 ≤ n ∧
      al c / 2 ≤ p + n ∧ p + n ≤ 2 * (1 + c.com) ∧
      |p / (p + n) - aWt c true w / (aWt c true w + nw c)| ≤ δ ∧
      aWt c true w / (aWt c true w + nw c) ≤ 1 - al c ∧
      ∃ w'', (if c.adjust.truthy then Rounded.add R (.fin p) (.fin n) else .fin 1) = .fin w'' ∧
        W (if c.adjust.truthy then aWt c true w + nw c else 1) w''
  nan : nanOk → ∀ w w', 0 ≤ w → W w w' → ∃ w'', Rounded.oldWt R c false false (.fin w') = .fin w'' ∧ W (aWt c false w) w''

/-- The bound `E` is preserved by a step. -/
structure BoundFits (u al δ B E : K) : Prop where
  nonneg : 0 ≤ E
  small : E ≤ 5 / 8 * B
  first : 8 * u * B ≤ E
  step : 2 * δ * B + 13 * u * B + δ * E ≤ al * E

/-- The computed mean at an observed step. -/
theorem combine_step (h : IsRounding R u τ Ω) (c : EWMACfg K) (B : K) (hf : FormatFits u τ Ω c.com B) {W : K → K → Prop} {δ E : K}
    {nanOk : Prop} (hW : WtSim R c W δ nanOk) (hE : BoundFits u (al c) δ B E)
    (m m' w w' x : K) (hm : |m| ≤ B) (hx : |x| ≤ B) (he : |m' - m| ≤ E) (hw0 : 0 ≤ w) (hw : W w w') :
    ∃ y w'', Rounded.combine R (Rounded.oldWt R c true false (.fin w')) (.fin m') (Rounded.newWt R c) (.fin x) = .fin y ∧
      |y - (aWt c true w * m + nw c * x) / (aWt c true w + nw c)| ≤ E ∧
      (if c.adjust.truthy then Rounded.add R (Rounded.oldWt R c true false (.fin w')) (Rounded.newWt R c) else .fin 1) = .fin w'' ∧
        W (if c.adjust.truthy then aWt c true w + nw c else 1) w'' := by
  obtain ⟨hc, hu0, hB, f1, f2, f3, f4, f5⟩ := hf
  obtain ⟨hE0, hEB, -, hEs⟩ := hE
  have ha0 := al_pos c hc
  have ha1 := al_le_one c hc
  have e1 : al c * (1 + c.com) = 1 := by unfold al; field_simp
  have hu1 : 64 * u ≤ 1 := by nlinarith
  have ht2 : 2 * τ ≤ al c := by
    have := mul_le_mul_of_nonneg_left f2 ha0.le
    have e : al c * (2 * τ * (1 + c.com)) = 2 * τ := by linear_combination 2 * τ * e1
    linarith
  have htB : 2 * τ ≤ al c * B := by
    have := mul_le_mul_of_nonneg_left f3 ha0.le
    have e : al c * (2 * τ * (1 + c.com)) = 2 * τ := by linear_combination 2 * τ * e1
    linarith
  have htB1 : 2 * τ ≤ B := htB.trans (by nlinarith)
  obtain ⟨p, n, hp, hn, p0, n0, s1, s2, s3, s4, w'', hw'', hok⟩ := hW.obs w w' hw0 hw
  have hm' : |m'| ≤ 13 / 8 * B := by
    have : m' = (m' - m) + m := by ring
    rw [this]; exact (abs_add_le _ _).trans (by linarith)
  have hsM : al c / 2 * (13 / 8 * B) ≤ (p + n) * (13 / 8 * B) := mul_le_mul_of_nonneg_right s1 (by positivity)
  have haB : 0 ≤ al c * B := by positivity
  have hsM2 : (p + n) * (13 / 8 * B) ≤ 2 * (1 + c.com) * (13 / 8 * B) := mul_le_mul_of_nonneg_right s2 (by positivity)
  have hBc : B ≤ B * (1 + c.com) := by nlinarith
  have hBc0 : 0 ≤ B * (1 + c.com) := by positivity
  have hτB : τ ≤ B := by rcases le_total τ 0 with h0 | h0 <;> linarith
  obtain ⟨y, hy, ey⟩ := combine_near h hu0 hu1 p n m' x (13 / 8 * B) p0 n0 (by linarith) hm' (by linarith) (by linarith)
    (by linarith) (by linarith) (by linarith) (by linarith) (by linarith)
  have hmn := mean_near p0 n0 (by linarith : 0 < p + n) (aWt_nonneg c hc true w hw0) (nw_pos c hc) s4 s3 hm hx he
  refine ⟨y, w'', ?_, ?_, ?_, hok⟩
  · rw [hp, hn]; exact hy
  · have : y - (aWt c true w * m + nw c * x) / (aWt c true w + nw c) =
        (y - (p * m' + n * x) / (p + n)) + ((p * m' + n * x) / (p + n) - (aWt c true w * m + nw c * x) / (aWt c true w + nw c)) := by
      ring
    rw [this]
    refine (abs_add_le _ _).trans ((add_le_add ey hmn).trans ?_)
    linarith
  · rw [hp, hn]; exact hw''

/-- The computed mean at the first observation. -/
theorem combine_first (h : IsRounding R u τ Ω) (c : EWMACfg K) (B : K) (hf : FormatFits u τ Ω c.com B) (x : K) (hx : |x| ≤ B) :
    ∃ y, Rounded.combine R (.fin 0) (.fin 0) (Rounded.newWt R c) (.fin x) = .fin y ∧ |y - x| ≤ 8 * u * B ∧
      (if c.adjust.truthy then Rounded.add R (.fin 0) (Rounded.newWt R c) else .fin 1) = .fin 1 := by
  obtain ⟨hc, hu0, hB, f1, f2, f3, f4, f5⟩ := hf
  have ha0 := al_pos c hc
  have ha1 := al_le_one c hc
  have e1 : al c * (1 + c.com) = 1 := by unfold al; field_simp
  have hu : 64 * u ≤ al c := by
    have := mul_le_mul_of_nonneg_left f1 ha0.le
    have e : al c * (64 * u * (1 + c.com)) = 64 * u := by linear_combination 64 * u * e1
    linarith
  have ht2 : 2 * τ ≤ al c := by
    have := mul_le_mul_of_nonneg_left f2 ha0.le
    have e : al c * (2 * τ * (1 + c.com)) = 2 * τ := by linear_combination 2 * τ * e1
    linarith
  have htB : 2 * τ ≤ al c * B := by
    have := mul_le_mul_of_nonneg_left f3 ha0.le
    have e : al c * (2 * τ * (1 + c.com)) = 2 * τ := by linear_combination 2 * τ * e1
    linarith
  have ht : τ ≤ al c := by rcases le_total τ 0 with h0 | h0 <;> linarith
  obtain ⟨a, f, hal, hfe, da, -⟩ := alpha_near h c hc hu0 hu ht (by linarith)
  have key : ∃ n, Rounded.newWt R c = .fin n ∧ al c / 2 ≤ n ∧ n ≤ 2 ∧ (c.adjust.truthy = true → n = 1) := by
    unfold Rounded.newWt
    cases c.adjust.truthy with
    | true => exact ⟨1, rfl, by linarith, by linarith, fun _ => rfl⟩
    | false =>
      have hua : u * al c ≤ al c / 64 := by nlinarith
      obtain ⟨d1, d2⟩ := abs_le.mp da
      exact ⟨a, by simp [hal], by linarith, by linarith, by simp⟩
  obtain ⟨n, hn, n1, n2, n3⟩ := key
  have hBc : B ≤ B * (1 + c.com) := by nlinarith
  have hnB : al c / 2 * B ≤ n * B := mul_le_mul_of_nonneg_right n1 hB
  have hnB2 : n * B ≤ 2 * B := mul_le_mul_of_nonneg_right n2 hB
  have hanB : al c * B ≤ B := by nlinarith
  have t1 : τ ≤ n * B := by linarith
  have t2 : τ ≤ B := by rcases le_total τ 0 with h0 | h0 <;> linarith
  obtain ⟨y, hy, ey⟩ := combine_near h hu0 (by linarith) 0 n 0 x B (le_refl _) (by linarith) (by linarith) (by simpa using hB) hx
    (by linarith) (by linarith) t2 (by linarith) (by linarith) (by linarith)
  refine ⟨y, by rw [hn]; exact hy, ?_, ?_⟩
  · have e2 : (0 * 0 + n * x) / (0 + n) = x := by
      have : 0 < n := by linarith
      rw [zero_mul, zero_add, zero_add, mul_div_cancel_left₀ _ this.ne']
    rw [e2] at ey
    exact ey
  · split
    · rename_i ht
      rw [hn, n3 ht]
      simp [Rounded.add, rnd, h.one]
    · rfl

/-! ## One step -/

theorem rounded_out (R : K → Fl K) (c : EWMACfg K) (s : EWMAState K) (x : Fl K) :
    (Rounded.ewmaStep R c s x).1.value =
      (if c.minPeriods ≤ (Rounded.ewmaStep R c s x).2.nobs then (Rounded.ewmaStep R c s x).2.mean else .nan) ∧
    (Rounded.ewmaStep R c s x).1.nobs = (Rounded.ewmaStep R c s x).2.nobs ∧
    (Rounded.ewmaStep R c s x).2.nobs = s.nobs + (if x.isNan then 0 else 1) := by
  unfold Rounded.ewmaStep
  refine ⟨?_, rfl, ?_⟩
  · by_cases h : c.minPeriods = 0 <;> simp [h]
  · cases x.isNan <;> simp

theorem StNear.step (h : IsRounding R u τ Ω) (c : EWMACfg K) (B : K) (hf : FormatFits u τ Ω c.com B) {W : K → K → Prop} {δ E : K}
    {nanOk : Prop} (hW : WtSim R c W δ nanOk) (hE : BoundFits u (al c) δ B E) (s' s : EWMAState K) (x : Fl K)
    (hs : StNear W B E s' s) (hx : Sized B x) (hna : nanOk ∨ x ≠ .nan) :
    StNear W B E (Rounded.ewmaStep R c s' x).2 (ewmaStep c s x).2 := by
  have hc := hf.com_nonneg
  obtain ⟨hn, w, hw, hw0, hm⟩ := hs
  have he := ewmaStep_eq c hc s w hw0 hw x
  have hwn := aStep_wt_nonneg c hc (reading c.big s.mean) w hw0 (reading c.big x)
  simp only at he
  rw [he]
  have hnn : (Rounded.ewmaStep R c s' x).2.nobs = s.nobs + (if (reading c.big x).isSome then 1 else 0) := by
    rw [(rounded_out R c s' x).2.2, hn]
    cases x <;> rfl
  refine ⟨hnn, _, rfl, hwn, ?_⟩
  rcases hx with rfl | ⟨x, rfl, hxB⟩
  · have hig : nanOk := by simpa using hna
    rcases hm with ⟨m1, m2⟩ | ⟨m', m, w', m1, m2, m3, m4, m5, m6⟩
    · left
      rw [m2]
      simp [Rounded.ewmaStep, m1, reading, aStep, toFl]
    · right
      rw [m2]
      obtain ⟨w'', hw'', hok⟩ := hW.nan hig w w' hw0 m6
      refine ⟨m', m, w'', ?_, ?_, ?_, m4, m5, ?_⟩
      · simp [Rounded.ewmaStep, m1, nanToNumDefault]
      · simp [reading, aStep, toFl]
      · have : (Rounded.ewmaStep R c s' .nan).2.oldWt = Rounded.oldWt R c false s'.mean.isNan s'.oldWt := by
          simp [Rounded.ewmaStep]
        rw [this, m1, m3, ← hw'']; rfl
      · simpa [reading, aStep] using hok
  · right
    have e1 : (Rounded.ewmaStep R c s' (.fin x)).2.mean =
        Rounded.combine R (Rounded.oldWt R c true s'.mean.isNan s'.oldWt) (nanToNumDefault c.big s'.mean) (Rounded.newWt R c) (.fin x) := by
      simp [Rounded.ewmaStep, nanToNumDefault]
    have e2 : (Rounded.ewmaStep R c s' (.fin x)).2.oldWt =
        if c.adjust.truthy then Rounded.add R (Rounded.oldWt R c true s'.mean.isNan s'.oldWt) (Rounded.newWt R c) else .fin 1 := by
      simp [Rounded.ewmaStep]
    rcases hm with ⟨m1, m2⟩ | ⟨m', m, w', m1, m2, m3, m4, m5, m6⟩
    · obtain ⟨y, hy, ey, ew⟩ := combine_first h c B hf x hxB
      rw [e1, e2, m1, m2]
      have e3 : Rounded.oldWt R c true true s'.oldWt = .fin 0 := by simp [Rounded.oldWt]
      refine ⟨y, x, 1, ?_, ?_, ?_, ey.trans hE.first, hxB, ?_⟩
      · change Rounded.combine R (Rounded.oldWt R c true true s'.oldWt) (.fin 0) _ _ = _
        rw [e3]; exact hy
      · simp [reading, aStep, toFl]
      · change (if c.adjust.truthy then Rounded.add R (Rounded.oldWt R c true true s'.oldWt) (Rounded.newWt R c) else .fin 1) = _
        rw [e3]; exact ew
      · simpa [reading, aStep] using hW.one
    · obtain ⟨y, w'', hy, ey, ew, hok⟩ := combine_step h c B hf hW hE m m' w w' x m5 hxB m4 hw0 m6
      rw [e1, e2, m1, m2, m3]
      refine ⟨y, _, w'', hy, ?_, ew, ey, ?_, ?_⟩
      · simp [reading, aStep, toFl]
      · exact mean_sized (aWt_nonneg c hc true w hw0) (nw_pos c hc) m5 hxB
      · simpa [reading, aStep] using hok

/-! ## The theorems -/

/-- Two runs that are step by step close. -/
theorem near_runs (W : K → K → Prop) (B E : K) (M' M : Mealy (EWMAState K) (Fl K) (EWMAOut K))
    (ok : Fl K → Prop)
    (hst : ∀ s' s x, StNear W B E s' s → ok x →
      StNear W B E (M'.step s' x).2 (M.step s x).2 ∧
      (M'.step s' x).1.nobs = (M.step s x).1.nobs ∧ Near E (M'.step s' x).1.value (M.step s x).1.value)
    (xs : List (Fl K)) (hx : ∀ x ∈ xs, ok x) (s' s : EWMAState K) (hs : StNear W B E s' s) (t : Nat) (ht : t < xs.length) :
    ∃ o' o, (M'.outsFrom s' xs)[t]? = some o' ∧ (M.outsFrom s xs)[t]? = some o ∧ o'.nobs = o.nobs ∧ Near E o'.value o.value := by
  induction xs generalizing s' s t with
  | nil => simp at ht
  | cons x xs ih =>
    obtain ⟨h1, h2, h3⟩ := hst s' s x hs (hx x (by simp))
    cases t with
    | zero => exact ⟨_, _, rfl, rfl, h2, h3⟩
    | succ t =>
      simpa using ih (fun y hy => hx y (by simp [hy])) _ _ h1 t (by simpa using ht)

theorem StNear.out (h : IsRounding R u τ Ω) (c : EWMACfg K) (B : K) (hf : FormatFits u τ Ω c.com B) {W : K → K → Prop} {δ E : K}
    {nanOk : Prop} (hW : WtSim R c W δ nanOk) (hE : BoundFits u (al c) δ B E) (s' s : EWMAState K) (x : Fl K)
    (hs : StNear W B E s' s) (hx : Sized B x) (hna : nanOk ∨ x ≠ .nan) :
    StNear W B E (Rounded.ewmaStep R c s' x).2 (ewmaStep c s x).2 ∧
      (Rounded.ewmaStep R c s' x).1.nobs = (ewmaStep c s x).1.nobs ∧
      Near E (Rounded.ewmaStep R c s' x).1.value (ewmaStep c s x).1.value := by
  have h1 := StNear.step h c B hf hW hE s' s x hs hx hna
  obtain ⟨o1, o2, -⟩ := rounded_out R c s' x
  have ho := rounded_out Fl.fin c s x
  have he : Rounded.ewmaStep Fl.fin c = ewmaStep c := congrArg Mealy.step (C178_exact_ewma c)
  rw [he] at ho
  obtain ⟨p1, p2, -⟩ := ho
  refine ⟨h1, by rw [o2, p2]; exact h1.1, ?_⟩
  rw [o1, p1, h1.1]
  split
  · obtain ⟨-, w, -, -, hm⟩ := h1
    rcases hm with ⟨m1, m2⟩ | ⟨m', m, w', m1, m2, -, m4, -⟩
    · exact Or.inl ⟨m1, m2⟩
    · exact Or.inr ⟨m', m, m1, m2, m4⟩
  · exact Or.inl ⟨rfl, rfl⟩

theorem stNear_init {c : EWMACfg K} {W : K → K → Prop} {δ B E : K} {nanOk : Prop} (hW : WtSim R c W δ nanOk) (hE : 0 ≤ E)
    (hi : Sized B c.initial) : StNear W B E ⟨c.initial, .fin 1, 0⟩ ⟨c.initial, .fin 1, 0⟩ := by
  refine ⟨rfl, 1, rfl, zero_le_one, ?_⟩
  rcases hi with hi | ⟨v, hi, hv⟩
  · exact Or.inl ⟨hi, hi⟩
  · exact Or.inr ⟨v, v, 1, hi, hi, rfl, by rw [sub_self, abs_zero]; exact hE, hv, hW.one⟩

/-- The computed outputs, for any way of following the weights. -/
theorem ewma_near (h : IsRounding R u τ Ω) (c : EWMACfg K) (B : K) (hf : FormatFits u τ Ω c.com B) {W : K → K → Prop} {δ E : K}
    {nanOk : Prop} (hW : WtSim R c W δ nanOk) (hE : BoundFits u (al c) δ B E) (hi : Sized B c.initial)
    (xs : List (Fl K)) (hx : ∀ x ∈ xs, Sized B x) (hna : nanOk ∨ ∀ x ∈ xs, x ≠ .nan) (t : Nat) (ht : t < xs.length) :
    ∃ o' o, ((Rounded.ewma R c).run xs)[t]? = some o' ∧ ((ewma c).run xs)[t]? = some o ∧ o'.nobs = o.nobs ∧
      Near E o'.value o.value :=
  near_runs W B E (Rounded.ewma R c) (ewma c) (fun x => Sized B x ∧ (nanOk ∨ x ≠ .nan))
    (fun s' s x hs hok => StNear.out h c B hf hW hE s' s x hs hok.1 hok.2) xs
    (fun x hm => ⟨hx x hm, hna.imp id fun g => g x hm⟩) _ _ (stNear_init hW hE.nonneg hi) t ht

/-- The two libraries compute the same step unless the mean is infinite. -/
theorem flax_step_eq (R : K → Fl K) (c : EWMACfg K) (s : EWMAState K) (x : Fl K) (hm : s.mean = .nan ∨ ∃ m, s.mean = .fin m) :
    Rounded.flaxEwmaStep R c s x = Rounded.ewmaStep R c s x := by
  unfold Rounded.flaxEwmaStep Rounded.ewmaStep
  rcases hm with hm | ⟨m, hm⟩ <;> cases hn : x.isNan <;> simp [hm, hn, nanToNumDefault]

theorem flax_ewma_near (h : IsRounding R u τ Ω) (c : EWMACfg K) (B : K) (hf : FormatFits u τ Ω c.com B) {W : K → K → Prop} {δ E : K}
    {nanOk : Prop} (hW : WtSim R c W δ nanOk) (hE : BoundFits u (al c) δ B E) (hi : Sized B c.initial)
    (xs : List (Fl K)) (hx : ∀ x ∈ xs, Sized B x) (hna : nanOk ∨ ∀ x ∈ xs, x ≠ .nan) (t : Nat) (ht : t < xs.length) :
    ∃ o' o, ((Rounded.flaxEwma R c).run xs)[t]? = some o' ∧ ((flaxEwma c).run xs)[t]? = some o ∧ o'.nobs = o.nobs ∧
      Near E o'.value o.value := by
  refine near_runs W B E (Rounded.flaxEwma R c) (flaxEwma c) (fun x => Sized B x ∧ (nanOk ∨ x ≠ .nan))
    (fun s' s x hs hok => ?_) xs
    (fun x hm => ⟨hx x hm, hna.imp id fun g => g x hm⟩) _ _ (stNear_init hW hE.nonneg hi) t ht
  have he : flaxEwmaStep c = Rounded.flaxEwmaStep Fl.fin c := (congrArg Mealy.step (C178_exact_flax_ewma c)).symm
  have he2 : ewmaStep c = Rounded.ewmaStep Fl.fin c := (congrArg Mealy.step (C178_exact_ewma c)).symm
  obtain ⟨-, w, -, -, hm⟩ := id hs
  have k1 : s'.mean = .nan ∨ ∃ m, s'.mean = .fin m := by
    rcases hm with ⟨m1, -⟩ | ⟨m', m, w', m1, -⟩
    · exact Or.inl m1
    · exact Or.inr ⟨_, m1⟩
  have k2 : s.mean = .nan ∨ ∃ m, s.mean = .fin m := by
    rcases hm with ⟨-, m1⟩ | ⟨m', m, w', -, m1, -⟩
    · exact Or.inl m1
    · exact Or.inr ⟨_, m1⟩
  change StNear W B _ (Rounded.flaxEwmaStep R c s' x).2 (flaxEwmaStep c s x).2 ∧
    (Rounded.flaxEwmaStep R c s' x).1.nobs = (flaxEwmaStep c s x).1.nobs ∧
    Near _ (Rounded.flaxEwmaStep R c s' x).1.value (flaxEwmaStep c s x).1.value
  rw [he, flax_step_eq R c s' x k1, flax_step_eq Fl.fin c s x k2, ← he2]
  exact StNear.out h c B hf hW hE s' s x hs hok.1 hok.2

/-! ### NaN values ignored, or absent -/

theorem alpha_bounds {c : EWMACfg K} {B : K} (hf : FormatFits u τ Ω c.com B) : 64 * u ≤ al c ∧ 2 * τ ≤ al c ∧ τ ≤ al c := by
  obtain ⟨hc, hu0, hB, f1, f2, f3, f4, f5⟩ := hf
  have ha0 := al_pos c hc
  have e1 : al c * (1 + c.com) = 1 := by unfold al; field_simp
  have ht2 : 2 * τ ≤ al c := by
    have := mul_le_mul_of_nonneg_left f2 ha0.le
    have e : al c * (2 * τ * (1 + c.com)) = 2 * τ := by linear_combination 2 * τ * e1
    linarith
  refine ⟨?_, ht2, by rcases le_total τ 0 with h0 | h0 <;> linarith⟩
  have := mul_le_mul_of_nonneg_left f1 ha0.le
  have e : al c * (64 * u * (1 + c.com)) = 64 * u := by linear_combination 64 * u * e1
  linarith

theorem wtOk_sim (h : IsRounding R u τ Ω) (c : EWMACfg K) (B : K) (hf : FormatFits u τ Ω c.com B) :
    WtSim R c (WtOk c u) (10 * u) (c.ignoreNa = true) := by
  have hc := hf.com_nonneg
  obtain ⟨hu, -, ht⟩ := alpha_bounds hf
  have ha1 := al_le_one c hc
  have f4 := hf.overflow
  refine ⟨wtOk_one c hc hf.u_nonneg, fun w w' hw0 hw => ?_, fun hig w w' hw0 m6 => ?_⟩
  · obtain ⟨p, n, h1, h2, h3, h4, h5, h6⟩ := weight_step h c hc hf.u_nonneg hu ht (by linarith) w w' hw
    exact ⟨p, n, h1, h2, h3, h4, by linarith, h6⟩
  · unfold Rounded.oldWt Rounded.factor
    rw [min_fin]
    cases hadj : c.adjust with
    | yes =>
      refine ⟨w', by simp [hig], ?_⟩
      have : aWt c false w = w := by simp [aWt, hadj, hig]
      rw [this]; exact m6
    | no =>
      refine ⟨w', by simp [hig], ?_⟩
      have : aWt c false w = w := by simp [aWt, hadj, hig]
      rw [this]; exact m6
    | linear =>
      refine ⟨min w' c.com, by simp [hig], ?_⟩
      have e : aWt c false w = min w c.com := by simp [aWt, hadj, hig]
      simp only [WtOk, hadj] at m6 ⊢
      rw [e, min_assoc, min_assoc, min_self]
      exact ⟨le_min m6.1 hc, le_min m6.2.1 hc, m6.2.2⟩

theorem bound_fits {c : EWMACfg K} {B : K} (hf : FormatFits u τ Ω c.com B) :
    BoundFits u (al c) (10 * u) B (40 * u * B * (1 + c.com)) := by
  obtain ⟨hc, hu0, hB, f1, f2, f3, f4, f5⟩ := hf
  have e1 : al c * (1 + c.com) = 1 := by unfold al; field_simp
  have hE2 : al c * (40 * u * B * (1 + c.com)) = 40 * u * B := by linear_combination 40 * u * B * e1
  have hEB : 40 * u * B * (1 + c.com) ≤ 5 / 8 * B := by
    have := mul_le_mul_of_nonneg_right f1 hB
    linarith
  have k1 := mul_le_mul_of_nonneg_left hEB hu0
  have k2 : 0 ≤ u * B := by positivity
  have k3 : 0 ≤ u * B * c.com := by positivity
  exact ⟨by positivity, hEB, by linarith, by linarith⟩

/-- **C178** (Haiku): with floating point arithmetic of unit roundoff `u`, on a stream of any length whose values are at most `B`, the
EWMA returned at *every* step is within `40 u B (1 + com)` of the exact one: rounding errors do not accumulate.  NaN values are
allowed when `ignore_na` is set. -/
theorem C178_ewma_rounding (h : IsRounding R u τ Ω) (c : EWMACfg K) (B : K) (hf : FormatFits u τ Ω c.com B) (hi : Sized B c.initial)
    (xs : List (Fl K)) (hx : ∀ x ∈ xs, Sized B x) (hna : c.ignoreNa = true ∨ ∀ x ∈ xs, x ≠ .nan) (t : Nat) (ht : t < xs.length) :
    ∃ o' o, ((Rounded.ewma R c).run xs)[t]? = some o' ∧ ((ewma c).run xs)[t]? = some o ∧ o'.nobs = o.nobs ∧
      Near (40 * u * B * (1 + c.com)) o'.value o.value :=
  ewma_near h c B hf (wtOk_sim h c B hf) (bound_fits hf) hi xs hx hna t ht

/-- **C178** (Flax). -/
theorem C178_flax_ewma_rounding (h : IsRounding R u τ Ω) (c : EWMACfg K) (B : K) (hf : FormatFits u τ Ω c.com B)
    (hi : Sized B c.initial) (xs : List (Fl K)) (hx : ∀ x ∈ xs, Sized B x) (hna : c.ignoreNa = true ∨ ∀ x ∈ xs, x ≠ .nan)
    (t : Nat) (ht : t < xs.length) :
    ∃ o' o, ((Rounded.flaxEwma R c).run xs)[t]? = some o' ∧ ((flaxEwma c).run xs)[t]? = some o ∧ o'.nobs = o.nobs ∧
      Near (40 * u * B * (1 + c.com)) o'.value o.value :=
  flax_ewma_near h c B hf (wtOk_sim h c B hf) (bound_fits hf) hi xs hx hna t ht

end Verif.Props
