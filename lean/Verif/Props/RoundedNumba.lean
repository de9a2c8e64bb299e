import Verif.Props.RoundedNaN
import Verif.Props.EWMA

/-! # The numba EWMA in floating point: close to the exact one and to the Haiku module -/

set_option linter.unusedSectionVars false
set_option linter.unusedSimpArgs false
set_option linter.unusedVariables false

namespace Verif.Props
open Model Spec Lemmas
open Model.Rounded (rnd)
variable {K : Type} [Field K] [LinearOrder K] [IsStrictOrderedRing K]
variable {R : K → Fl K} {u τ Ω : K}

/-- The mean returned by the numba kernel at a row. -/
theorem numba_out (R : K → Fl K) (c : EWMACfg K) (s : EWMAState K) (x : Fl K) :
    (Rounded.numbaStep R c s x).1 =
      (if c.minPeriods ≤ (Rounded.numbaStep R c s x).2.nobs then (Rounded.numbaStep R c s x).2.mean else .nan) ∧
    (Rounded.numbaStep R c s x).2.nobs = s.nobs + (if x.isNan then 0 else 1) := by
  unfold Rounded.numbaStep
  cases x.isNan <;> simp

/-- A used-up weight stays used up. -/
theorem decay_at_zero (h : IsRounding R u τ Ω) (hu0 : 0 ≤ u) (hu : 64 * u ≤ 1) (hτ : τ ≤ 1) (hΩ : 1 ≤ Ω) :
    Fl.maximum (.fin 0) (Rounded.div R (Rounded.sub R (.fin 0) (.fin 1)) (.fin 0)) = .fin 0 := by
  obtain ⟨y, hy, ey⟩ := h.near (-1) (by simpa using hΩ)
  have hy0 : y < 0 := by
    have : u * max |(-1 : K)| τ ≤ u := by
      have : max |(-1 : K)| τ = 1 := by rw [abs_neg, abs_one]; exact max_eq_left hτ
      rw [this, mul_one]
    have := (abs_le.mp (ey.trans this)).2
    linarith
  have e1 : Rounded.sub R (.fin 0) (.fin 1) = .fin y := by simp [Rounded.sub, rnd, hy]
  have e2 : (Fl.fin y / Fl.fin 0 : Fl K) = .ninf := by
    rw [Fl.fin_div]
    simp [hy0.ne, hy0.not_gt, Fl.infSign]
  rw [e1]
  simp only [Rounded.div]
  rw [e2]
  simp [rnd, Fl.maximum, Fl.lt]

/-- Once there is a mean, the kernel uses the weights of the Haiku module (`w'` is not negative where it matters). -/
theorem numba_step_some (h : IsRounding R u τ Ω) (hu0 : 0 ≤ u) (hu : 64 * u ≤ 1) (hτ : τ ≤ 1) (hΩ : 1 ≤ Ω) (c : EWMACfg K) (s : EWMAState K)
    (m w' : K) (hm : s.mean = .fin m) (hw : s.oldWt = .fin w') (hpos : c.adjust = .linear → 0 ≤ w') (hcom : 0 ≤ c.com) :
    (Rounded.numbaStep R c s .nan).2.mean = .fin m ∧
    (Rounded.numbaStep R c s .nan).2.oldWt = Rounded.oldWt R c false false (.fin w') ∧
    ∀ x, (Rounded.numbaStep R c s (.fin x)).2.mean = (if m = x then .fin m
        else Rounded.combine R (Rounded.oldWt R c true false (.fin w')) (.fin m) (Rounded.newWt R c) (.fin x)) ∧
      (Rounded.numbaStep R c s (.fin x)).2.oldWt =
        (if c.adjust.truthy then Rounded.add R (Rounded.oldWt R c true false (.fin w')) (Rounded.newWt R c) else .fin 1) := by
  have hmn : (!s.mean.isNan) = true := by rw [hm]; rfl
  have hlin : c.adjust = .linear →
      (if Fl.lt (.fin 0) (.fin w') then Fl.maximum (.fin 0) (Rounded.div R (Rounded.sub R (.fin w') (.fin 1)) (.fin w')) else .fin 0) =
        Fl.maximum (.fin 0) (Rounded.div R (Rounded.sub R (.fin w') (.fin 1)) (.fin w')) := by
    intro hl
    rcases (hpos hl).eq_or_lt with h0 | h0
    · subst h0
      rw [decay_at_zero h hu0 hu hτ hΩ]; simp
    · simp [h0]
  refine ⟨?_, ?_, fun x => ⟨?_, ?_⟩⟩
  · unfold Rounded.numbaStep
    simp only [hmn, hw, if_true, Fl.isNan_nan, Bool.not_true, Bool.false_or, hm]
    cases c.ignoreNa <;> simp
  · unfold Rounded.numbaStep Rounded.oldWt Rounded.factor
    by_cases hl : c.adjust = .linear
    · simp only [hmn, hw, if_true, hl]
      cases c.ignoreNa
      · simp only [Fl.isNan_nan, Bool.not_true, Bool.not_false, Bool.false_or, if_true, Bool.false_eq_true, if_false]
        rw [hlin hl]
      · simp
    · simp only [hmn, hw, if_true, hl, if_false]
      cases c.ignoreNa <;> simp
  · unfold Rounded.numbaStep Rounded.oldWt Rounded.factor
    by_cases hl : c.adjust = .linear
    · simp [hmn, hw, hl, hm]
    · simp [hmn, hw, hl, hm]
  · unfold Rounded.numbaStep Rounded.oldWt Rounded.factor
    by_cases hl : c.adjust = .linear
    · simp [hmn, hw, hl, hm]
    · simp [hmn, hw, hl, hm]

/-- The rounded kernel (left) follows the exact Haiku module (right). -/
def NumbaNear (W : K → K → Prop) (B E : K) (s' s : EWMAState K) : Prop := StNear W B E s' s ∧ (s'.mean = .nan → s'.oldWt = .fin 1)

theorem NumbaNear.step (h : IsRounding R u τ Ω) (c : EWMACfg K) (B : K) (hf : FormatFits u τ Ω c.com B) {W : K → K → Prop} {δ E : K}
    {nanOk : Prop} (hW : WtSim R c W δ nanOk) (hpos : c.adjust = .linear → ∀ w w', W w w' → 0 ≤ w') (hE : BoundFits u (al c) δ B E)
    (s' s : EWMAState K) (x : Fl K) (hs : NumbaNear W B E s' s) (hx : Sized B x) (hna : nanOk ∨ x ≠ .nan) :
    NumbaNear W B E (Rounded.numbaStep R c s' x).2 (ewmaStep c s x).2 := by
  have hc := hf.com_nonneg
  obtain ⟨hu, ht2, ht⟩ := alpha_bounds hf
  have ha1 := al_le_one c hc
  have hu1 : 64 * u ≤ 1 := by linarith
  have hτ1 : τ ≤ 1 := by linarith
  have hΩ1 : 1 ≤ Ω := by have := hf.overflow; linarith
  obtain ⟨⟨hn, w, hw, hw0, hm⟩, h1⟩ := hs
  have he := ewmaStep_eq c hc s w hw0 hw x
  have hwn := aStep_wt_nonneg c hc (reading c.big s.mean) w hw0 (reading c.big x)
  simp only at he
  rw [he]
  have hnn : (Rounded.numbaStep R c s' x).2.nobs = s.nobs + (if (reading c.big x).isSome then 1 else 0) := by
    rw [(numba_out R c s' x).2, hn]
    cases x <;> rfl
  rcases hm with ⟨m1, m2⟩ | ⟨m', m, w', m1, m2, m3, m4, m5, m6⟩
  · have o1 := h1 m1
    rcases hx with rfl | ⟨x, rfl, hxB⟩
    · have e1 : (Rounded.numbaStep R c s' .nan).2.mean = .nan := by simp [Rounded.numbaStep, m1]
      have e2 : (Rounded.numbaStep R c s' .nan).2.oldWt = .fin 1 := by simp [Rounded.numbaStep, m1, o1]
      refine ⟨⟨hnn, _, rfl, hwn, Or.inl ⟨e1, ?_⟩⟩, fun _ => e2⟩
      rw [m2]; simp [reading, aStep, toFl]
    · have e1 : (Rounded.numbaStep R c s' (.fin x)).2.mean = .fin x := by simp [Rounded.numbaStep, m1]
      have e2 : (Rounded.numbaStep R c s' (.fin x)).2.oldWt = .fin 1 := by simp [Rounded.numbaStep, m1, o1]
      refine ⟨⟨hnn, _, rfl, hwn, Or.inr ⟨x, x, 1, e1, ?_, e2, by rw [sub_self, abs_zero]; exact hE.nonneg, hxB, ?_⟩⟩, fun _ => e2⟩
      · rw [m2]; simp [reading, aStep, toFl]
      · rw [m2]; simpa [reading, aStep] using hW.one
  · obtain ⟨k1, k2, k3⟩ := numba_step_some h hf.u_nonneg hu1 hτ1 hΩ1 c s' m' w' m1 m3 (fun hl => hpos hl w w' m6) hc
    rcases hx with rfl | ⟨x, rfl, hxB⟩
    · have hig : nanOk := by simpa using hna
      obtain ⟨w'', hw'', hok⟩ := hW.nan hig w w' hw0 m6
      refine ⟨⟨hnn, _, rfl, hwn, Or.inr ⟨m', m, w'', k1, ?_, ?_, m4, m5, ?_⟩⟩, fun hbad => by rw [k1] at hbad; cases hbad⟩
      · rw [m2]; simp [reading, aStep, toFl]
      · rw [k2, hw'']
      · rw [m2]; simpa [reading, aStep] using hok
    · obtain ⟨y, w'', hy, ey, ew, hok⟩ := combine_step h c B hf hW hE m m' w w' x m5 hxB m4 hw0 m6
      obtain ⟨k4, k5⟩ := k3 x
      have hmean : ∃ z, (Rounded.numbaStep R c s' (.fin x)).2.mean = .fin z ∧
          |z - (aWt c true w * m + nw c * x) / (aWt c true w + nw c)| ≤ E := by
        by_cases hmx : m' = x
        · refine ⟨x, by rw [k4, if_pos hmx, hmx], ?_⟩
          have q0 := aWt_nonneg c hc true w hw0
          have r0 := nw_pos c hc
          have e : x - (aWt c true w * m + nw c * x) / (aWt c true w + nw c) =
              aWt c true w / (aWt c true w + nw c) * (m' - m) := by rw [hmx]; field_simp; ring
          rw [e, abs_mul]
          have l0 : 0 ≤ aWt c true w / (aWt c true w + nw c) := by positivity
          have l1 : aWt c true w / (aWt c true w + nw c) ≤ 1 := by rw [div_le_one (by linarith)]; linarith
          rw [abs_of_nonneg l0]
          calc _ ≤ 1 * |m' - m| := mul_le_mul_of_nonneg_right l1 (abs_nonneg _)
            _ ≤ E := by rw [one_mul]; exact m4
        · exact ⟨y, by rw [k4, if_neg hmx]; exact hy, ey⟩
      obtain ⟨z, hz, ez⟩ := hmean
      refine ⟨⟨hnn, _, rfl, hwn, Or.inr ⟨z, _, w'', hz, ?_, ?_, ez, ?_, ?_⟩⟩, fun hbad => by rw [hz] at hbad; cases hbad⟩
      · rw [m2]; simp [reading, aStep, toFl]
      · rw [k5]; exact ew
      · exact mean_sized (aWt_nonneg c hc true w hw0) (nw_pos c hc) m5 hxB
      · rw [m2]; simpa [reading, aStep] using hok

theorem numba_near (h : IsRounding R u τ Ω) (c : EWMACfg K) (B : K) (hf : FormatFits u τ Ω c.com B) {W : K → K → Prop} {δ E : K}
    {nanOk : Prop} (hW : WtSim R c W δ nanOk) (hpos : c.adjust = .linear → ∀ w w', W w w' → 0 ≤ w') (hE : BoundFits u (al c) δ B E)
    (hi : Sized B c.initial) (xs : List (Fl K)) (hx : ∀ x ∈ xs, Sized B x) (hna : nanOk ∨ ∀ x ∈ xs, x ≠ .nan) (t : Nat)
    (ht : t < xs.length) :
    ∃ o' o, ((Rounded.numbaEwma R c).run xs)[t]? = some o' ∧ ((ewma c).run xs)[t]? = some o ∧ Near E o' o.value := by
  suffices H : ∀ (xs : List (Fl K)) (s' s : EWMAState K), (∀ x ∈ xs, Sized B x) → (nanOk ∨ ∀ x ∈ xs, x ≠ .nan) →
      NumbaNear W B E s' s → ∀ t, t < xs.length →
      ∃ o' o, ((Rounded.numbaEwma R c).outsFrom s' xs)[t]? = some o' ∧ ((ewma c).outsFrom s xs)[t]? = some o ∧ Near E o' o.value from
    H xs _ _ hx hna ⟨stNear_init hW hE.nonneg hi, fun _ => rfl⟩ t ht
  intro xs
  induction xs with
  | nil => intro s' s _ _ _ t ht; simp at ht
  | cons x xs ih =>
    intro s' s hx hna hs t ht
    have h1 := NumbaNear.step h c B hf hW hpos hE s' s x hs (hx x (by simp)) (hna.imp id fun g => g x (by simp))
    cases t with
    | zero =>
      refine ⟨_, _, rfl, rfl, ?_⟩
      change Near E (Rounded.numbaStep R c s' x).1 (ewmaStep c s x).1.value
      have ho := rounded_out Fl.fin c s x
      have he : Rounded.ewmaStep Fl.fin c = ewmaStep c := congrArg Mealy.step (C178_exact_ewma c)
      rw [he] at ho
      rw [(numba_out R c s' x).1, ho.1, h1.1.1]
      split
      · obtain ⟨⟨-, w, -, -, hm⟩, -⟩ := h1
        rcases hm with ⟨m1, m2⟩ | ⟨m', m, w', m1, m2, -, m4, -⟩
        · exact Or.inl ⟨m1, m2⟩
        · exact Or.inr ⟨m', m, m1, m2, m4⟩
      · exact Or.inl ⟨rfl, rfl⟩
    | succ t =>
      simp only [Mealy.outsFrom_cons, List.getElem?_cons_succ]
      exact ih _ _ (fun y hy => hx y (by simp [hy])) (hna.imp id fun g y hy => g y (by simp [hy])) h1 t (by simpa using ht)

theorem sized_run {B : K} {xs : List (Fl K)} (hx : ∀ x ∈ xs, Sized B x) : NoInf xs := fun x hm => by
  rcases hx x hm with e | ⟨v, e, -⟩ <;> rw [e] <;> exact ⟨by simp, by simp⟩

theorem sized_initial {B : K} {x : Fl K} (h : Sized B x) : x ≠ .pinf ∧ x ≠ .ninf := by
  rcases h with e | ⟨v, e, -⟩ <;> rw [e] <;> exact ⟨by simp, by simp⟩

/-- Closeness to the exact module is closeness to the exact kernel, and closeness of the two computed results. -/
theorem numba_conclusion (c : EWMACfg K) (hc : 0 < c.com) {B E : K} (hi : Sized B c.initial) (xs : List (Fl K))
    (hx : ∀ x ∈ xs, Sized B x) (t : Nat) {o' : Fl K} {o o2 p : EWMAOut K} (h1 : ((Rounded.numbaEwma R c).run xs)[t]? = some o')
    (h2 : ((ewma c).run xs)[t]? = some o) (h3 : Near E o' o.value)
    (k1 : ((Rounded.ewma R c).run xs)[t]? = some o2) (k2 : ((ewma c).run xs)[t]? = some p) (k3 : Near E o2.value p.value) :
    ∃ y e z, ((Rounded.numbaEwma R c).run xs)[t]? = some y ∧ ((numbaEwma c).run xs)[t]? = some e ∧
      ((Rounded.ewma R c).run xs)[t]? = some z ∧ Near E y e ∧ Near (2 * E) y z.value := by
  have hex := C20_numba_ewma_agrees_partial c hc (sized_initial hi) xs (sized_run hx)
  rw [h2] at k2
  obtain rfl : o = p := by injection k2
  refine ⟨o', o.value, o2, h1, by rw [hex]; simp [h2], k1, h3, ?_⟩
  rcases h3 with ⟨a1, a2⟩ | ⟨y, v, a1, a2, a3⟩ <;> rcases k3 with ⟨b1, b2⟩ | ⟨y2, v2, b1, b2, b3⟩
  · exact Or.inl ⟨a1, b1⟩
  · rw [a2] at b2; cases b2
  · rw [a2] at b2; cases b2
  · rw [a2] at b2
    obtain rfl : v = v2 := by injection b2
    refine Or.inr ⟨y, y2, a1, b1, ?_⟩
    have : y - y2 = (y - v) - (y2 - v) := by ring
    rw [this]
    exact (abs_sub _ _).trans (by linarith)

/-- **C190**: with floating point arithmetic of unit roundoff `u`, on a column of any length whose values are at most `B`, the numba
EWMA is at *every* row within `40 u B (1 + com)` of the exact one, and within twice that of what the Haiku module computes in the same
arithmetic: the two backends cannot drift apart.  NaN values are allowed when `ignore_na` is set. -/
theorem C190_numba_rounding (h : IsRounding R u τ Ω) (c : EWMACfg K) (hc : 0 < c.com) (B : K) (hf : FormatFits u τ Ω c.com B)
    (hi : Sized B c.initial) (xs : List (Fl K)) (hx : ∀ x ∈ xs, Sized B x) (hna : c.ignoreNa = true ∨ ∀ x ∈ xs, x ≠ .nan)
    (t : Nat) (ht : t < xs.length) :
    ∃ y e z, ((Rounded.numbaEwma R c).run xs)[t]? = some y ∧ ((numbaEwma c).run xs)[t]? = some e ∧
      ((Rounded.ewma R c).run xs)[t]? = some z ∧ Near (40 * u * B * (1 + c.com)) y e ∧
      Near (2 * (40 * u * B * (1 + c.com))) y z.value := by
  have hpos : c.adjust = .linear → ∀ w w', WtOk c u w w' → 0 ≤ w' := by
    intro hl w w' hw
    simp only [WtOk, hl] at hw
    exact hw.2.1
  obtain ⟨o', o, h1, h2, h3⟩ := numba_near h c B hf (wtOk_sim h c B hf) hpos (bound_fits hf) hi xs hx hna t ht
  obtain ⟨o2, p, k1, k2, -, k3⟩ := C178_ewma_rounding h c B hf hi xs hx hna t ht
  exact numba_conclusion c hc hi xs hx t h1 h2 h3 k1 k2 k3

/-- **C190**, missing values not ignored: they may occur anywhere. -/
theorem C190_numba_rounding_missing (h : IsRounding R u τ Ω) (c : EWMACfg K) (hc : 0 < c.com) (B : K) (hf : FormatFits u τ Ω c.com B)
    (hp : 128 * u * (1 + c.com) ^ 3 ≤ 1) (hadj : c.adjust ≠ .linear) (hig : c.ignoreNa = false) (hi : Sized B c.initial)
    (xs : List (Fl K)) (hx : ∀ x ∈ xs, Sized B x) (t : Nat) (ht : t < xs.length) :
    ∃ y e z, ((Rounded.numbaEwma R c).run xs)[t]? = some y ∧ ((numbaEwma c).run xs)[t]? = some e ∧
      ((Rounded.ewma R c).run xs)[t]? = some z ∧ Near (80 * u * B * (1 + c.com) ^ 3) y e ∧
      Near (2 * (80 * u * B * (1 + c.com) ^ 3)) y z.value := by
  obtain ⟨o', o, h1, h2, h3⟩ := numba_near h c B hf (wtNan_sim h c B hf hadj hig) (fun hl => absurd hl hadj) (bound_fits_nan hf hp) hi xs
    hx (Or.inl trivial) t ht
  obtain ⟨o2, p, k1, k2, -, k3⟩ := C178_ewma_rounding_missing h c B hf hp hadj hig hi xs hx t ht
  exact numba_conclusion c hc hi xs hx t h1 h2 h3 k1 k2 k3

/-- **C190** in float32. -/
theorem C190_float32 (c : EWMACfg ℚ) (B : ℚ) (hc : 0 < c.com) (hc2 : 1 + c.com ≤ 2 ^ 18) (hB : 1 / 2 ^ 100 ≤ B) (hB2 : B ≤ 2 ^ 100)
    (hi : Sized B c.initial) (xs : List (Fl ℚ)) (hx : ∀ x ∈ xs, Sized B x) (hna : c.ignoreNa = true ∨ ∀ x ∈ xs, x ≠ .nan)
    (t : Nat) (ht : t < xs.length) :
    ∃ y e z, ((Rounded.numbaEwma float32.round c).run xs)[t]? = some y ∧ ((numbaEwma c).run xs)[t]? = some e ∧
      ((Rounded.ewma float32.round c).run xs)[t]? = some z ∧ Near (40 * (1 / 2 ^ 24) * B * (1 + c.com)) y e ∧
      Near (2 * (40 * (1 / 2 ^ 24) * B * (1 + c.com))) y z.value :=
  C190_numba_rounding (C178_ieee float32 float32_ok) c hc B (float32_fits c.com B hc.le hc2 hB hB2) hi xs hx hna t ht

/-- A concrete float32 column on which the two backends differ (two values 0.1, `com = 2`): the kernel returns 0.1, the module a
neighbouring number; both are within the bounds. -/
example :
    let c : EWMACfg ℚ := ⟨2, .yes, true, 0, .nan, float32.largest⟩
    let tenth : Fl ℚ := .fin (13421773 / 134217728)
    let xs : List (Fl ℚ) := [tenth, .nan, tenth, .fin 1]
    ((Rounded.numbaEwma float32.round c).run xs).take 3 = [tenth, tenth, tenth] ∧ ((numbaEwma c).run xs).take 3 = [tenth, tenth, tenth] ∧
      (((Rounded.ewma float32.round c).run xs).map (·.value)).take 3 = [tenth, tenth, .fin (13421772 / 134217728)] ∧
      0 < c.com ∧ 1 + c.com ≤ 2 ^ 18 ∧ ((1 : ℚ) / 2 ^ 100 ≤ 1 ∧ (1 : ℚ) ≤ 2 ^ 100) ∧ c.ignoreNa = true := by
  decide +kernel

end Verif.Props
