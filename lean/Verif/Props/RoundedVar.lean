import Verif.Props.RoundedWt
import Verif.Props.Ieee
import Mathlib.Tactic.LinearCombination

/-! # The EWMVar with rounded arithmetic is never negative -/

set_option linter.unusedSectionVars false
set_option linter.unusedSimpArgs false
set_option linter.unusedVariables false

namespace Verif.Props
open Model Spec Lemmas
open Model.Rounded (rnd)
variable {K : Type} [Field K] [LinearOrder K] [IsStrictOrderedRing K]
variable {R : K → Fl K} {u τ Ω : K}

/-! ## Signs of rounded operations -/

/-- Not below zero: NaN, a number at least zero, or +inf. -/
def NotNeg (v : Fl K) : Prop := Fl.lt v (.fin 0) = false

theorem notNeg_fin (k : K) : NotNeg (.fin k) ↔ 0 ≤ k := by simp [NotNeg]
theorem notNeg_nan : NotNeg (.nan : Fl K) := rfl
theorem notNeg_pinf : NotNeg (.pinf : Fl K) := rfl
theorem not_notNeg_ninf : ¬ NotNeg (.ninf : Fl K) := by simp [NotNeg, Fl.lt]

theorem notNeg_rnd (h : IsMonotoneRounding R) {v : Fl K} (hv : NotNeg v) : NotNeg (rnd R v) := by
  cases v with
  | fin k =>
    have := h.mono 0 k ((notNeg_fin k).mp hv)
    rw [h.zero] at this
    exact this
  | nan => exact hv
  | pinf => exact hv
  | ninf => exact hv

theorem notNeg_add {a b : Fl K} (ha : NotNeg a) (hb : NotNeg b) : NotNeg (a + b) := by
  cases a <;> cases b <;> first | rfl | exact absurd ha not_notNeg_ninf | exact absurd hb not_notNeg_ninf | skip
  rw [notNeg_fin] at ha hb
  rw [Fl.fin_add, notNeg_fin]; linarith

theorem infSign_notNeg {k : K} (hk : 0 ≤ k) : NotNeg (Fl.infSign k) := by
  unfold Fl.infSign
  split_ifs with h1 h2
  · rfl
  · rfl
  · exact absurd (lt_of_le_of_ne hk (Ne.symm h1)) h2

theorem notNeg_mul {a b : Fl K} (ha : NotNeg a) (hb : NotNeg b) : NotNeg (a * b) := by
  cases a <;> cases b <;> first | rfl | exact absurd ha not_notNeg_ninf | exact absurd hb not_notNeg_ninf | skip
  · rw [notNeg_fin] at ha hb
    exact (notNeg_fin _).mpr (mul_nonneg ha hb)
  · exact infSign_notNeg ((notNeg_fin _).mp ha)
  · exact infSign_notNeg ((notNeg_fin _).mp hb)

/-- A difference times its rounded multiple by a weight that is not negative. -/
theorem notNeg_square (h : IsMonotoneRounding R) {a : Fl K} (d : Fl K) (ha : NotNeg a) : NotNeg (d * rnd R (a * d)) := by
  cases a with
  | nan => cases d <;> rfl
  | ninf => exact absurd ha not_notNeg_ninf
  | pinf =>
    cases d with
    | nan => rfl
    | pinf => rfl
    | ninf => rfl
    | fin d =>
      change NotNeg (Fl.fin d * rnd R (Fl.infSign d))
      unfold Fl.infSign
      split_ifs with h1 h2
      · rfl
      · change NotNeg (Fl.infSign d); exact infSign_notNeg h2.le
      · change NotNeg (Fl.neg (Fl.infSign d))
        have : d < 0 := lt_of_le_of_ne (not_lt.mp h2) h1
        simp [Fl.infSign, h1, h2, Fl.neg, NotNeg, Fl.lt]
  | fin a =>
    have ha := (notNeg_fin a).mp ha
    cases d with
    | nan => rfl
    | pinf =>
      change NotNeg (Fl.pinf * rnd R (Fl.infSign a))
      unfold Fl.infSign
      split_ifs with h1 h2
      · rfl
      · rfl
      · exact absurd (lt_of_le_of_ne ha (Ne.symm h1)) h2
    | ninf =>
      change NotNeg (Fl.ninf * rnd R (Fl.neg (Fl.infSign a)))
      unfold Fl.infSign
      split_ifs with h1 h2
      · rfl
      · rfl
      · exact absurd (lt_of_le_of_ne ha (Ne.symm h1)) h2
    | fin d =>
      change NotNeg (Fl.fin d * R (a * d))
      rcases le_total 0 d with hd | hd
      · exact notNeg_mul ((notNeg_fin d).mpr hd) (notNeg_rnd h (v := .fin (a * d)) ((notNeg_fin _).mpr (mul_nonneg ha hd)))
      · have hm := h.mono (a * d) 0 (mul_nonpos_of_nonneg_of_nonpos ha hd)
        rw [h.zero] at hm
        cases hR : R (a * d) with
        | nan => rfl
        | pinf => rw [hR] at hm; simp [Fl.lt] at hm
        | ninf =>
          change NotNeg (Fl.neg (Fl.infSign d))
          unfold Fl.infSign
          split_ifs with h1 h2
          · rfl
          · exact absurd h2 (not_lt.mpr hd)
          · rfl
        | fin k =>
          rw [hR, Fl.lt_fin] at hm
          have hk : k ≤ 0 := by simpa using hm
          exact (notNeg_fin _).mpr (mul_nonneg_of_nonpos_of_nonpos hd hk)

/-! ## One step -/

/-- A smoothing factor between 0 and 1, or NaN. -/
def IsShare (a : Fl K) : Prop := a = .nan ∨ ∃ k, a = .fin k ∧ 0 ≤ k ∧ k ≤ 1

theorem IsShare.notNeg {a : Fl K} (h : IsShare a) : NotNeg a := by
  rcases h with rfl | ⟨k, rfl, h0, -⟩
  · rfl
  · exact (notNeg_fin k).mpr h0

theorem IsShare.complement (h : IsMonotoneRounding R) {a : Fl K} (ha : IsShare a) : NotNeg (Rounded.sub R (.fin 1) a) := by
  rcases ha with rfl | ⟨k, rfl, -, h1⟩
  · rfl
  · exact notNeg_rnd h (by rw [Fl.fin_sub, notNeg_fin]; linarith)

/-- NaN or zero. -/
def IsNil (v : Fl K) : Prop := v = .nan ∨ v = .fin 0

theorem isNil_rnd (h : IsMonotoneRounding R) {v : Fl K} (hv : IsNil v) : IsNil (rnd R v) := by
  rcases hv with rfl | rfl
  · exact Or.inl rfl
  · exact Or.inr h.zero

theorem isNil_mul (h : IsMonotoneRounding R) (a : Fl K) {v : Fl K} (hv : IsNil v) : IsNil (Rounded.mul R a v) := by
  refine isNil_rnd h ?_
  rcases hv with rfl | rfl
  · left; cases a <;> rfl
  · cases a with
    | nan => exact Or.inl rfl
    | fin a => right; change Fl.fin (a * 0) = _; rw [mul_zero]
    | pinf => left; change Fl.infSign (0 : K) = _; simp [Fl.infSign]
    | ninf => left; change Fl.neg (Fl.infSign (0 : K)) = _; simp [Fl.infSign, Fl.neg]

theorem isNil_add (h : IsMonotoneRounding R) {v : Fl K} (hv : IsNil v) : IsNil (Rounded.add R (.fin 0) v) := by
  refine isNil_rnd h ?_
  rcases hv with rfl | rfl
  · exact Or.inl rfl
  · right; change Fl.fin ((0 : K) + 0) = _; rw [add_zero]

theorem isNil_sub_self (h : IsMonotoneRounding R) (x : Fl K) : IsNil (Rounded.sub R x x) := by
  refine isNil_rnd h ?_
  cases x with
  | fin k => right; rw [Fl.fin_sub, sub_self]
  | nan => exact Or.inl rfl
  | pinf => exact Or.inl rfl
  | ninf => exact Or.inl rfl

theorem IsNil.notNeg {v : Fl K} (h : IsNil v) : NotNeg v := by
  rcases h with rfl | rfl
  · rfl
  · exact (notNeg_fin 0).mpr (le_refl _)

/-- The state: no negative variance; before the first observation, no mean and no variance. -/
def VarOk (s : EWMVarState K) : Prop := NotNeg s.var ∧ (s.nobs = 0 → s.mean = .nan ∧ IsNil s.var)

theorem ewmvar_step_ok (h : IsMonotoneRounding R) (pw : Fl K → Nat → Fl K) (com : K) (adjust : Adjust)
    (hA : ∀ n, 2 ≤ n → IsShare (Rounded.varAlpha R pw com adjust n)) (s : EWMVarState K) (x : Fl K) (hs : VarOk s) :
    NotNeg (Rounded.ewmvarStep R pw com adjust s x).1 ∧ VarOk (Rounded.ewmvarStep R pw com adjust s x).2 := by
  obtain ⟨h1, h2⟩ := hs
  have hv : NotNeg (if s.var.isNan then Fl.fin 0 else s.var) := by
    split
    · exact (notNeg_fin 0).mpr (le_refl _)
    · exact h1
  suffices hh : NotNeg (Rounded.ewmvarStep R pw com adjust s x).1 ∧
      ((Rounded.ewmvarStep R pw com adjust s x).2.nobs = 0 → (Rounded.ewmvarStep R pw com adjust s x).2.mean = .nan ∧
        IsNil (Rounded.ewmvarStep R pw com adjust s x).1) from ⟨hh.1, hh.1, hh.2⟩
  cases hx : x.isNan with
  | true =>
    simp only [Rounded.ewmvarStep, hx, Bool.not_true, Bool.false_eq_true, if_false]
    refine ⟨hv, fun hn => ?_⟩
    obtain ⟨m1, m2⟩ := h2 hn
    refine ⟨by rw [m1]; exact (Fl.isNan_iff x).mp hx, ?_⟩
    rcases m2 with m2 | m2 <;> rw [m2]
    · exact Or.inr rfl
    · exact Or.inr rfl
  | false =>
    simp only [Rounded.ewmvarStep, hx, Bool.not_false, if_true]
    refine ⟨?_, fun hn => by omega⟩
    by_cases hn : s.nobs = 0
    · obtain ⟨m1, m2⟩ := h2 hn
      have e : (if s.var.isNan then Fl.fin 0 else s.var) = .fin 0 := by
        rcases m2 with m2 | m2 <;> rw [m2] <;> rfl
      rw [e, m1]
      simp only [Fl.isNan_nan, if_true]
      exact (isNil_mul h _ (isNil_add h (isNil_mul h _ (isNil_mul h _ (isNil_sub_self h x))))).notNeg
    · have ha := hA (s.nobs + 1) (by omega)
      exact notNeg_rnd h (notNeg_mul (ha.complement h) (notNeg_rnd h (notNeg_add hv (notNeg_rnd h (notNeg_square h _ ha.notNeg)))))

theorem ewmvar_notNeg (h : IsMonotoneRounding R) (pw : Fl K → Nat → Fl K) (com : K) (adjust : Adjust)
    (hA : ∀ n, 2 ≤ n → IsShare (Rounded.varAlpha R pw com adjust n)) (xs : List (Fl K)) :
    ∀ v ∈ (Rounded.ewmvar R pw com adjust).run xs, NotNeg v := by
  have : ∀ (xs : List (Fl K)) (s : EWMVarState K), VarOk s → ∀ v ∈ (Rounded.ewmvar R pw com adjust).outsFrom s xs, NotNeg v := by
    intro xs
    induction xs with
    | nil => intro s _ v hv; simp at hv
    | cons x xs ih =>
      intro s hs v hv
      have hk := ewmvar_step_ok h pw com adjust hA s x hs
      simp only [Mealy.outsFrom_cons, List.mem_cons] at hv
      rcases hv with rfl | hv
      · exact hk.1
      · exact ih _ hk.2 v hv
  exact this xs _ ⟨notNeg_nan, fun _ => ⟨rfl, Or.inl rfl⟩⟩

/-! ## The smoothing factors -/

/-- The quotient of 1 by a number at least 1. -/
theorem inv_share (h : IsMonotoneRounding R) {v : Fl K} (hn : v ≠ .nan) (hv : Fl.lt v (.fin 1) = false) :
    ∃ k, Rounded.div R (.fin 1) v = .fin k ∧ 0 ≤ k ∧ k ≤ 1 := by
  cases v with
  | nan => exact absurd rfl hn
  | ninf => simp [Fl.lt] at hv
  | pinf => exact ⟨0, by change R 0 = _; exact h.zero, le_refl _, zero_le_one⟩
  | fin k =>
    have hk : 1 ≤ k := by simpa using hv
    have hk0 : 0 < k := by linarith
    have e : Rounded.div R (.fin 1) (.fin k) = R (1 / k) := by
      simp only [Rounded.div, Fl.fin_div_of_ne _ hk0.ne', rnd]
    rw [e]
    have m0 := h.mono 0 (1 / k) (by positivity)
    have m1 := h.mono (1 / k) 1 (by rw [div_le_one hk0]; exact hk)
    rw [h.zero] at m0
    rw [h.one] at m1
    cases hR : R (1 / k) with
    | nan => exact absurd hR (h.number _)
    | pinf => rw [hR] at m1; simp [Fl.lt] at m1
    | ninf => rw [hR] at m0; simp [Fl.lt] at m0
    | fin y =>
      rw [hR, Fl.lt_fin] at m0 m1
      exact ⟨y, rfl, by simpa using m0, by simpa using m1⟩

/-- The computed `1 / (1 + com)`. -/
theorem base_share (h : IsMonotoneRounding R) (com : K) (hc : 0 ≤ com) :
    ∃ k, Rounded.div R (.fin 1) (Rounded.add R (.fin 1) (.fin com)) = .fin k ∧ 0 ≤ k ∧ k ≤ 1 := by
  refine inv_share h (h.number _) ?_
  have := h.mono 1 (1 + com) (by linarith)
  rw [h.one] at this
  exact this

/-- **C179**, `adjust=False`: for every rounding that is monotone and leaves 0 and 1 alone, every stream (NaN and infinities included)
and every `com ≥ 0`, no output is negative. -/
theorem C179_ewmvar_notNeg_no (h : IsMonotoneRounding R) (pw : Fl K → Nat → Fl K) (com : K) (hc : 0 ≤ com) (xs : List (Fl K)) :
    ∀ v ∈ (Rounded.ewmvar R pw com .no).run xs, Fl.lt v (.fin 0) = false :=
  ewmvar_notNeg h pw com .no (fun _ _ => Or.inr (base_share h com hc)) xs

/-- **C179**, `adjust="linear"`. -/
theorem C179_ewmvar_notNeg_linear (h : IsMonotoneRounding R) (pw : Fl K → Nat → Fl K) (com : K) (hc : 0 ≤ com) (xs : List (Fl K)) :
    ∀ v ∈ (Rounded.ewmvar R pw com .linear).run xs, Fl.lt v (.fin 0) = false := by
  refine ewmvar_notNeg h pw com .linear (fun n hn => ?_) xs
  obtain ⟨a, ha, a0, a1⟩ := base_share h com hc
  have hn1 : (1 : K) ≤ n := by exact_mod_cast (by omega : 1 ≤ n)
  unfold Rounded.varAlpha
  simp only [ha]
  have key : ∀ v : Fl K, v ≠ .nan → Fl.lt v (.fin 1) = false →
      IsShare (if Fl.lt (.fin 0) v then Rounded.div R (.fin 1) v else .nan) := by
    intro v h1 h2
    split
    · exact Or.inr (inv_share h h1 h2)
    · exact Or.inl rfl
  have ht : Rounded.div R (.fin 1) (.fin a) ≠ .nan ∧ Fl.lt (Rounded.div R (.fin 1) (.fin a)) (.fin 1) = false := by
    rcases a0.lt_or_eq with h0 | h0
    · have e : Rounded.div R (.fin 1) (.fin a) = R (1 / a) := by
        simp only [Rounded.div, Fl.fin_div_of_ne _ h0.ne', rnd]
      rw [e]
      have m1 := h.mono 1 (1 / a) (by rw [le_div_iff₀ h0]; linarith)
      rw [h.one] at m1
      exact ⟨h.number _, m1⟩
    · subst h0
      have e : Rounded.div R (.fin 1) (.fin 0) = .pinf := by
        change rnd R (if (0 : K) = 0 then Fl.infSign 1 else _) = _
        simp [Fl.infSign, rnd]
      rw [e]; exact ⟨by simp, rfl⟩
  by_cases hlt : Fl.lt (.fin (n : K)) (Rounded.div R (.fin 1) (.fin a)) = true
  · rw [if_pos hlt]
    exact key _ (by simp) (by rw [Fl.lt_fin]; exact decide_eq_false (not_lt.mpr hn1))
  · rw [if_neg hlt]
    exact key _ ht.1 ht.2

/-- The power routine is nearly correct: powers from 2 on exceed the square by at most 4 units of roundoff. -/
def PowOk (u : K) (pw : Fl K → Nat → Fl K) : Prop :=
  ∀ (x : K) (n : Nat), (x = 0 ∨ u / 2 ≤ x) → x ≤ 1 → 2 ≤ n → ∃ y, pw (.fin x) n = .fin y ∧ y ≤ x ^ 2 * (1 + 4 * u)

/-- **C179**, `adjust=True`, in a floating point format with `64 u (1 + com) ≤ 1`. -/
theorem C179_ewmvar_notNeg_yes (h : IsFloat R u τ Ω) (hu0 : 0 < u) (hτu : τ ≤ u) (pw : Fl K → Nat → Fl K) (hpw : PowOk u pw)
    (com : K) (hc : 0 ≤ com) (hcom : 64 * u * (1 + com) ≤ 1) (hτ : τ * (1 + com) ≤ 1) (hΩ : 8 * (1 + com) ≤ Ω) (xs : List (Fl K)) :
    ∀ v ∈ (Rounded.ewmvar R pw com .yes).run xs, Fl.lt v (.fin 0) = false := by
  refine ewmvar_notNeg h.toIsMonotoneRounding pw com .yes (fun n hn => ?_) xs
  let c : EWMACfg K := ⟨com, .yes, true, 0, .nan, 0⟩
  have ha0 := al_pos c hc
  have ha1 := al_le_one c hc
  have e1 : al c * (1 + com) = 1 := by unfold al; have : (1 : K) + com ≠ 0 := by linarith
                                       change 1 / (1 + com) * (1 + com) = 1; field_simp
  have hu : 64 * u ≤ al c := by
    have := mul_le_mul_of_nonneg_left hcom ha0.le
    have e : al c * (64 * u * (1 + com)) = 64 * u := by linear_combination 64 * u * e1
    linarith
  have ht : τ ≤ al c := by
    have := mul_le_mul_of_nonneg_left hτ ha0.le
    have e : al c * (τ * (1 + com)) = τ := by linear_combination τ * e1
    linarith
  obtain ⟨a, f, hal, hf, da, f0, f1, -⟩ := alpha_near h.toIsRounding c hc hu0.le hu ht hΩ
  have hal' : Rounded.div R (.fin 1) (Rounded.add R (.fin 1) (.fin com)) = .fin a := hal
  rw [hal] at hf
  obtain ⟨a', ea', b0, b1⟩ := base_share h.toIsMonotoneRounding com hc
  have : a' = a := by rw [hal'] at ea'; exact (Fl.fin.inj ea').symm
  subst this
  have hua : u * al c ≤ al c / 64 := by nlinarith
  have ha16 : 32 * u ≤ a' := by have := (abs_le.mp da).1; linarith
  have hRa : R a' = .fin a' := by
    have : ∃ k, Rounded.add R (.fin 1) (.fin com) = .fin k ∧ k ≠ 0 := by
      obtain ⟨s, hs, es⟩ := r_add h.toIsRounding 1 com (by rw [abs_of_nonneg (by linarith)]; linarith)
      have : 1 ≤ s := mono_fin h.toIsMonotoneRounding (by linarith : (1 : K) ≤ 1 + com) h.one hs
      exact ⟨s, hs, by linarith⟩
    obtain ⟨k, hk, hk0⟩ := this
    rw [hk] at hal'
    simp only [Rounded.div, Fl.fin_div_of_ne _ hk0, rnd] at hal'
    exact h.idem _ _ hal'
  -- the decay
  have hgap : a' = 1 ∨ u ≤ 1 - a' := by
    rcases b1.lt_or_eq with hl | hl
    · right; have := h.gap _ _ hRa hl; linarith
    · exact Or.inl hl
  have hRf : R (1 - a') = .fin f := by simpa only [Rounded.sub, Fl.fin_sub, rnd] using hf
  have hΩ1 : 8 ≤ Ω := by nlinarith
  have hff : (f = 0 ∨ u / 2 ≤ f) ∧ f ≤ (1 - a') * (1 + u) := by
    rcases hgap with hg | hg
    · rw [hg, sub_self, h.zero] at hRf
      have : f = 0 := (Fl.fin.inj hRf).symm
      exact ⟨Or.inl this, by rw [this, hg]; simp⟩
    · obtain ⟨y, hy, ey⟩ := h.near (1 - a') (by rw [abs_of_nonneg (by linarith)]; linarith)
      rw [hRf] at hy
      have : f = y := Fl.fin.inj hy
      subst this
      have ey' := le_of_max hu0.le ey (abs_of_nonneg (by linarith : 0 ≤ 1 - a')).le (by linarith)
      obtain ⟨y1, y2⟩ := abs_le.mp ey'
      have hu1 : 64 * u ≤ 1 := hu.trans ha1
      refine ⟨Or.inr ?_, by linarith⟩
      nlinarith
  obtain ⟨P, hP, hP2⟩ := hpw f n hff.1 f1 hn
  have hPle : P ≤ 1 - a' := by
    have k0 : 0 ≤ 1 - a' := by linarith
    have k1 : f ^ 2 ≤ ((1 - a') * (1 + u)) ^ 2 := pow_le_pow_left₀ f0 hff.2 2
    have k2 : f ^ 2 * (1 + 4 * u) ≤ ((1 - a') * (1 + u)) ^ 2 * (1 + 4 * u) := mul_le_mul_of_nonneg_right k1 (by linarith)
    have hu1 : 64 * u ≤ 1 := hu.trans ha1
    have k3 : (1 + u) ^ 2 * (1 + 4 * u) ≤ 1 + 8 * u := by nlinarith [mul_nonneg hu0.le hu0.le, mul_nonneg hu0.le (mul_nonneg hu0.le hu0.le)]
    have k4 : (1 - a') * ((1 + u) ^ 2 * (1 + 4 * u)) ≤ (1 - a') * (1 + 8 * u) := mul_le_mul_of_nonneg_left k3 k0
    have k5 : (1 - a') * (1 + 8 * u) ≤ 1 := by nlinarith
    have k6 : (1 - a') * ((1 - a') * ((1 + u) ^ 2 * (1 + 4 * u))) ≤ (1 - a') * 1 := mul_le_mul_of_nonneg_left (k4.trans k5) k0
    have k7 : ((1 - a') * (1 + u)) ^ 2 * (1 + 4 * u) = (1 - a') * ((1 - a') * ((1 + u) ^ 2 * (1 + 4 * u))) := by ring
    linarith
  unfold Rounded.varAlpha
  simp only [hal', hf, hP]
  -- the denominator is at least a'
  have hden : Rounded.sub R (.fin 1) (.fin P) = R (1 - P) := by simp only [Rounded.sub, Fl.fin_sub, rnd]
  rw [hden]
  have hm := h.mono a' (1 - P) (by linarith)
  rw [hRa] at hm
  cases hD : R (1 - P) with
  | nan => exact absurd hD (h.number _)
  | ninf => rw [hD] at hm; simp [Fl.lt] at hm
  | pinf => exact Or.inr ⟨0, by change R 0 = _; exact h.zero, le_refl _, zero_le_one⟩
  | fin d =>
    rw [hD, Fl.lt_fin] at hm
    have hd : a' ≤ d := by simpa using hm
    have hd0 : 0 < d := by linarith
    have e : Rounded.div R (.fin a') (.fin d) = R (a' / d) := by
      simp only [Rounded.div, Fl.fin_div_of_ne _ hd0.ne', rnd]
    rw [e]
    have m0 := h.mono 0 (a' / d) (by positivity)
    have m1 := h.mono (a' / d) 1 (by rw [div_le_one hd0]; exact hd)
    rw [h.zero] at m0
    rw [h.one] at m1
    cases hR : R (a' / d) with
    | nan => exact absurd hR (h.number _)
    | pinf => rw [hR] at m1; simp [Fl.lt] at m1
    | ninf => rw [hR] at m0; simp [Fl.lt] at m0
    | fin y =>
      rw [hR, Fl.lt_fin] at m0 m1
      exact Or.inr ⟨y, rfl, by simpa using m0, by simpa using m1⟩

/-! ## Floating point formats -/

/-- Correctly rounded powers. -/
def powRounded (R : K → Fl K) : Fl K → Nat → Fl K
  | .fin x, n => R (x ^ n)
  | _, _ => .nan

theorem powRounded_ok (h : IsRounding R u τ Ω) (hu0 : 0 ≤ u) (hτ : τ ≤ u ^ 2 / 4) (hΩ : 1 ≤ Ω) :
    PowOk u (powRounded R) := by
  intro x n hx hx1 hn
  have hx0 : 0 ≤ x := by
    rcases hx with rfl | hx
    · exact le_refl _
    · linarith
  have hxn : x ^ n ≤ x ^ 2 := pow_le_pow_of_le_one hx0 hx1 hn
  have hx2 : x ^ 2 ≤ 1 := pow_le_one₀ hx0 hx1
  obtain ⟨y, hy, -⟩ := h.near (x ^ n) (by rw [abs_of_nonneg (by positivity)]; linarith)
  obtain ⟨z, hz, ez⟩ := h.near (x ^ 2) (by rw [abs_of_nonneg (by positivity)]; linarith)
  refine ⟨y, hy, (mono_fin h.toIsMonotoneRounding hxn hy hz).trans ?_⟩
  rcases hx with rfl | hx
  · rw [zero_pow (by omega), h.zero] at hz
    rw [← Fl.fin.inj hz]; simp
  · have hsq : u ^ 2 / 4 ≤ x ^ 2 := by
      have := pow_le_pow_left₀ (by linarith : 0 ≤ u / 2) hx 2
      linarith
    have ez' := le_of_max hu0 ez (abs_of_nonneg (by positivity : 0 ≤ x ^ 2)).le (by linarith)
    have := (abs_le.mp ez').2
    have : 0 ≤ u * x ^ 2 := by positivity
    linarith

section format
variable (f : Format)

theorem nearest_of_multiple {y : ℚ} {n : ℤ} (hy : y = n * 2 ^ f.quantum y) : f.nearest y = y :=
  le_antisymm (nearest_le f hy (le_refl _)) (le_nearest f hy (le_refl _))

theorem multiple_of_multiple {y : ℚ} {n a b : ℤ} (hy : y = n * 2 ^ b) (h : a ≤ b) : ∃ m : ℤ, y = m * 2 ^ a := by
  obtain ⟨k, hk⟩ := pow_multiple a b h
  exact ⟨n * k, by rw [hy, hk]; push_cast; ring⟩

theorem nearest_multiple (hf : f.Ok) (x : ℚ) : ∃ n : ℤ, f.nearest x = n * 2 ^ f.quantum (f.nearest x) := by
  have hp := hf.prec
  by_cases hy0 : f.nearest x = 0
  · exact ⟨0, by rw [hy0]; simp⟩
  by_cases hx0 : x = 0
  · subst hx0; exact absurd (nearest_zero f) hy0
  set e := max f.emin (Int.log 2 |x|) with he
  have hq : f.quantum x = e - f.prec + 1 := rfl
  have hxe : |x| ≤ 2 ^ (e + 1) :=
    (lt_pow_log hx0).le.trans (zpow_le_zpow_right₀ (by norm_num) (by have := le_max_right f.emin (Int.log 2 |x|); omega))
  obtain ⟨n, hn⟩ := pow_multiple (f.quantum x) (e + 1) (by omega)
  obtain ⟨x1, x2⟩ := abs_le.mp hxe
  have h1 := nearest_le f hn x2
  have h2 := le_nearest f (n := -n) (b := -2 ^ (e + 1)) (by rw [hn]; push_cast; ring) x1
  have hab : |f.nearest x| ≤ 2 ^ (e + 1) := abs_le.mpr ⟨h2, h1⟩
  rcases hab.lt_or_eq with hl | hl
  · have hlog : Int.log 2 |f.nearest x| < e + 1 :=
      (Int.lt_zpow_iff_log_lt (b := 2) (by norm_num) (abs_pos.mpr hy0)).mp (by exact_mod_cast hl)
    refine multiple_of_multiple (b := f.quantum x) rfl ?_
    rw [hq]; unfold Format.quantum
    have := max_le (le_max_left f.emin (Int.log 2 |x|)) (by omega : Int.log 2 |f.nearest x| ≤ e)
    omega
  · have hlog : Int.log 2 |f.nearest x| = e + 1 := by
      rw [hl]; exact_mod_cast Int.log_zpow (R := ℚ) (b := 2) (by norm_num) (e + 1)
    have hqq : f.quantum (f.nearest x) ≤ e + 1 := by
      unfold Format.quantum
      rw [hlog]
      have := max_le (by have := le_max_left f.emin (Int.log 2 |x|); omega : f.emin ≤ e + 1) (le_refl (e + 1))
      omega
    obtain ⟨m, hm⟩ := pow_multiple _ _ hqq
    rcases abs_choice (f.nearest x) with hc | hc
    · exact ⟨m, by rw [← hm, ← hl, hc]⟩
    · refine ⟨-m, ?_⟩
      push_cast
      rw [neg_mul, ← hm, ← hl, hc, neg_neg]

theorem nearest_idem (hf : f.Ok) (x : ℚ) : f.nearest (f.nearest x) = f.nearest x := by
  obtain ⟨n, hn⟩ := nearest_multiple f hf x
  exact nearest_of_multiple f hn

theorem round_eq_fin {x y : ℚ} (h : f.round x = .fin y) : f.nearest x = y ∧ y < 2 ^ (f.emax + 1) ∧ -2 ^ (f.emax + 1) < y := by
  unfold Format.round at h
  split_ifs at h with h1 h2
  have := Fl.fin.inj h
  subst this
  exact ⟨rfl, not_le.mp h1, not_le.mp h2⟩

/-- **C179**: the IEEE 754 formats. -/
theorem C179_ieee (hf : f.Ok) : IsFloat f.round (1 / 2 ^ f.prec) (2 ^ f.emin) f.largest where
  toIsRounding := C178_ieee f hf
  idem x y h := by
    obtain ⟨h1, h2, h3⟩ := round_eq_fin f h
    have h4 : f.nearest y = y := by rw [← h1]; exact nearest_idem f hf x
    unfold Format.round
    rw [h4, if_neg (not_le.mpr h2), if_neg (not_le.mpr h3)]
  gap x y h hy1 := by
    obtain ⟨h1, -, -⟩ := round_eq_fin f h
    obtain ⟨n, hn⟩ := nearest_multiple f hf x
    rw [h1] at hn
    have hp := hf.prec
    have he := hf.emin
    have hu : (1 : ℚ) / 2 ^ f.prec ≤ 1 / 2 := by
      refine div_le_div_of_nonneg_left (by norm_num) (by norm_num) ?_
      calc (2 : ℚ) = 2 ^ 1 := by norm_num
        _ ≤ 2 ^ f.prec := pow_le_pow_right₀ (by norm_num) hp
    by_cases hh : y ≤ 1 / 2
    · linarith
    · have hh : 1 / 2 < y := not_le.mp hh
      have hlog : Int.log 2 |y| = -1 := by
        have hy0 : 0 < |y| := abs_pos.mpr (by linarith)
        have l1 : Int.log 2 |y| < 0 := (Int.lt_zpow_iff_log_lt (b := 2) (by norm_num) hy0).mp
          (by rw [abs_of_pos (by linarith)]; simpa using hy1)
        have l2 : -1 ≤ Int.log 2 |y| := (Int.zpow_le_iff_le_log (b := 2) (by norm_num) hy0).mp
          (by rw [abs_of_pos (by linarith)]; norm_num; linarith)
        omega
      have hq0 : f.quantum y ≤ 0 := by
        unfold Format.quantum; rw [hlog]; have := max_le he (by omega : (-1 : ℤ) ≤ 0); omega
      have hq1 : -(f.prec : ℤ) ≤ f.quantum y := by
        unfold Format.quantum; rw [hlog]; have := le_max_right f.emin (-1); omega
      obtain ⟨m, hm⟩ := pow_multiple _ _ hq0
      rw [zpow_zero] at hm
      have hg := quantum_pos f y
      have hnm : n < m := by
        have : (n : ℚ) * 2 ^ f.quantum y < m * 2 ^ f.quantum y := by rw [← hn, ← hm]; exact hy1
        exact_mod_cast lt_of_mul_lt_mul_right this hg.le
      have hle : (n : ℚ) ≤ m - 1 := by exact_mod_cast (by omega : n ≤ m - 1)
      have h5 := mul_le_mul_of_nonneg_right hle hg.le
      rw [← hn, sub_mul, ← hm, one_mul] at h5
      have h6 : (1 : ℚ) / 2 ^ f.prec ≤ 2 ^ f.quantum y := by
        rw [one_div, ← zpow_natCast, ← zpow_neg]
        exact zpow_le_zpow_right₀ (by norm_num) hq1
      linarith

end format

/-- **C179** in float32, `adjust=True`, correctly rounded powers: no output is negative, for `com` up to `2^18 - 1`. -/
theorem C179_float32 (com : ℚ) (hc : 0 ≤ com) (hc2 : 1 + com ≤ 2 ^ 18) (adjust : Adjust) (xs : List (Fl ℚ)) :
    ∀ v ∈ (Rounded.ewmvar float32.round (powRounded float32.round) com adjust).run xs, Fl.lt v (.fin 0) = false := by
  have hF := C179_ieee float32 float32_ok
  cases adjust with
  | no => exact C179_ewmvar_notNeg_no hF.toIsMonotoneRounding _ com hc xs
  | linear => exact C179_ewmvar_notNeg_linear hF.toIsMonotoneRounding _ com hc xs
  | yes =>
    have e1 : (1 / 2 ^ float32.prec : ℚ) = 1 / 2 ^ 24 := rfl
    have e2 : (2 ^ float32.emin : ℚ) = 1 / 2 ^ 126 := by decide +kernel
    have e3 : float32.largest = 2 ^ 128 - 2 ^ 104 := by decide +kernel
    rw [e1, e2, e3] at hF
    refine C179_ewmvar_notNeg_yes hF (by norm_num) (by norm_num) _
      (powRounded_ok hF.toIsRounding (by norm_num) (by norm_num) (by norm_num)) com hc ?_ ?_ ?_ xs
    · norm_num at hc2 ⊢; linarith
    · norm_num at hc2 ⊢; linarith
    · norm_num at hc2 ⊢; linarith

/-- What "precision enough" is needed for: when `1 - alpha` rounds to 1, the adjusted weight divides by zero and every output at an
observation is NaN. -/
theorem C179_large_com_nan (R : K → Fl K) (pw : Fl K → Nat → Fl K) (com a : K) (h : IsMonotoneRounding R) (ha0 : 0 < a)
    (ha : Rounded.div R (.fin 1) (Rounded.add R (.fin 1) (.fin com)) = .fin a) (hf : Rounded.sub R (.fin 1) (.fin a) = .fin 1)
    (hp : ∀ n, pw (.fin 1) n = .fin 1) (xs : List (Fl K)) (t : Nat) (x : Fl K) (hx : xs[t]? = some x) :
    ((Rounded.ewmvar R pw com .yes).run xs)[t]? = some (if x.isNan then .fin 0 else .nan) := by
  have hA : ∀ n, Rounded.varAlpha R pw com .yes n = .pinf := by
    intro n
    unfold Rounded.varAlpha
    simp only [ha, hf, hp]
    have e : Rounded.sub R (.fin 1) (.fin 1) = .fin 0 := by
      simp only [Rounded.sub, Fl.fin_sub, sub_self, rnd]; exact h.zero
    rw [e]
    change rnd R (if (0 : K) = 0 then Fl.infSign a else _) = _
    simp [Fl.infSign, ha0, ha0.ne', rnd]
  have step : ∀ (s : EWMVarState K), s.mean = .nan → IsNil s.var → ∀ x,
      (Rounded.ewmvarStep R pw com .yes s x).1 = (if x.isNan then .fin 0 else .nan) ∧
        (Rounded.ewmvarStep R pw com .yes s x).2.mean = .nan ∧ IsNil (Rounded.ewmvarStep R pw com .yes s x).2.var := by
    intro s hm hv x
    have hv' : (if s.var.isNan then Fl.fin 0 else s.var) = .fin 0 := by
      rcases hv with hv | hv <;> rw [hv] <;> rfl
    cases hx : x.isNan with
    | true =>
      simp only [Rounded.ewmvarStep, hx, hm, hv', Fl.isNan_nan, if_true, Bool.not_true, Bool.false_eq_true, if_false]
      exact ⟨trivial, (Fl.isNan_iff x).mp hx, Or.inr rfl⟩
    | false =>
      have hd := isNil_sub_self h x
      have hi : Rounded.mul R .pinf (Rounded.sub R x x) = .nan := by
        rcases hd with hd | hd <;> rw [hd]
        · rfl
        · change rnd R (Fl.infSign (0 : K)) = _
          simp [Fl.infSign, rnd]
      have hdi : Rounded.mul R (Rounded.sub R x x) .nan = .nan := by
        cases Rounded.sub R x x <;> rfl
      have hme : Rounded.add R x .nan = .nan := by cases x <;> rfl
      simp only [Rounded.ewmvarStep, hx, hm, hv', Fl.isNan_nan, if_true, Bool.not_false, hA, hi, hdi, hme, Bool.false_eq_true, if_false]
      exact ⟨rfl, trivial, Or.inl rfl⟩
  have all : ∀ (xs : List (Fl K)) (s : EWMVarState K) (t : Nat), s.mean = .nan → IsNil s.var → xs[t]? = some x →
      ((Rounded.ewmvar R pw com .yes).outsFrom s xs)[t]? = some (if x.isNan then .fin 0 else .nan) := by
    intro xs
    induction xs with
    | nil => intro s t _ _ h; simp at h
    | cons y ys ih =>
      intro s t hm hv hxt
      obtain ⟨s1, s2, s3⟩ := step s hm hv y
      cases t with
      | zero =>
        have : y = x := by simpa using hxt
        subst this
        simp only [Mealy.outsFrom_cons, List.getElem?_cons_zero]
        exact congrArg some s1
      | succ t =>
        simp only [Mealy.outsFrom_cons, List.getElem?_cons_succ]
        exact ih _ t s2 s3 (by simpa using hxt)
  exact all xs _ t rfl (Or.inl rfl) hx

/-- float32 and `com = 2^25`: every output at an observation is NaN, whatever the stream. -/
theorem C179_float32_large_com (xs : List (Fl ℚ)) (t : Nat) (x : Fl ℚ) (hx : xs[t]? = some x) :
    ((Rounded.ewmvar float32.round (powRounded float32.round) (2 ^ 25) .yes).run xs)[t]? = some (if x.isNan then .fin 0 else .nan) :=
  C179_large_com_nan float32.round _ (2 ^ 25) (1 / 2 ^ 25) (round_monotone float32 float32_ok) (by norm_num) (by decide +kernel)
    (by decide +kernel) (fun n => by change float32.round (1 ^ n) = _; rw [one_pow]; decide +kernel) xs t x hx

end Verif.Props
