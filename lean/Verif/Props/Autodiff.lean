import Verif.Model.Autodiff
import Mathlib.Analysis.SpecialFunctions.ExpDeriv
import Mathlib.Analysis.SpecialFunctions.Sqrt
import Mathlib.Analysis.Calculus.Deriv.Inv
import Mathlib.Analysis.Calculus.Deriv.Pow
import Mathlib.Data.List.GetD
import Mathlib.Tactic.LinearCombination
import Mathlib.Tactic.FieldSimp

/-! # Reverse-mode differentiation computes derivatives

For any trace whose operations are regular at the point (numbers where they are used, divisors that are not zero, ...), the backward
pass gives numbers, and they are the partial derivatives.  Nothing is asked of the branches of `jnp.where` except that they are
regular too: that is why `nan_to_num` is needed before a division. -/

set_option linter.unusedSectionVars false
set_option linter.unusedSimpArgs false
set_option linter.unusedVariables false

namespace Verif.Props
open Verif Verif.Model Verif.Model.Autodiff Filter Topology

section Adjoint
variable {K : Type} [Field K] [LinearOrder K] [IsStrictOrderedRing K]

/-- The number in a float (0 for NaN and the infinities). -/
def numIn : Fl K → K
  | .fin a => a
  | _ => 0

/-- The operation is differentiable at the values it gets. -/
def RegularOp (env : List (Fl K)) : Prim K → Prop
  | .const _ => True
  | .add i j => (∃ a, look env i = .fin a) ∧ ∃ b, look env j = .fin b
  | .sub i j => (∃ a, look env i = .fin a) ∧ ∃ b, look env j = .fin b
  | .mul i j => (∃ a, look env i = .fin a) ∧ ∃ b, look env j = .fin b
  | .div i j => (∃ a, look env i = .fin a) ∧ ∃ b, look env j = .fin b ∧ b ≠ 0
  | .exp i => ∃ a, look env i = .fin a
  | .sqrt i => ∃ a, look env i = .fin a ∧ 0 < a
  | .sq i => ∃ a, look env i = .fin a
  | .pow i _ => ∃ a, look env i = .fin a
  | .select _ _ _ => True
  | .max i j => ∃ a b, look env i = .fin a ∧ look env j = .fin b ∧ a ≠ b
  | .min i j => ∃ a b, look env i = .fin a ∧ look env j = .fin b ∧ a ≠ b

/-- Every operation of the trace is regular. -/
def RegularTrace (F : Fns K) : List (Prim K) → List (Fl K) → Prop
  | [], _ => True
  | p :: ps, env => RegularOp env p ∧ RegularTrace F ps (env ++ [p.eval F env])

/-- The derivative of an operation along a direction. -/
def opTangent (F : Fns K) (env : List (Fl K)) (ts : List K) : Prim K → K
  | .const _ => 0
  | .add i j => ts.getD i 0 + ts.getD j 0
  | .sub i j => ts.getD i 0 - ts.getD j 0
  | .mul i j => ts.getD i 0 * numIn (look env j) + numIn (look env i) * ts.getD j 0
  | .div i j => (ts.getD i 0 * numIn (look env j) - numIn (look env i) * ts.getD j 0) / numIn (look env j) ^ 2
  | .exp i => ts.getD i 0 * F.exp (numIn (look env i))
  | .sqrt i => ts.getD i 0 / (2 * F.root (numIn (look env i)))
  | .sq i => 2 * numIn (look env i) * ts.getD i 0
  | .pow i n => n * numIn (look env i) ^ (n - 1) * ts.getD i 0
  | .select p i j => if p then ts.getD i 0 else ts.getD j 0
  | .max i j => if numIn (look env i) < numIn (look env j) then ts.getD j 0 else ts.getD i 0
  | .min i j => if numIn (look env j) < numIn (look env i) then ts.getD j 0 else ts.getD i 0

/-- The derivatives of all the values of a trace. -/
def traceTangents (F : Fns K) : List (Prim K) → List (Fl K) → List K → List K
  | [], _, ts => ts
  | p :: ps, env, ts => traceTangents F ps (env ++ [p.eval F env]) (ts ++ [opTangent F env ts p])

/-- `Σ a_i b_i`. -/
def dotL (a b : List K) : K := (List.zipWith (· * ·) a b).sum

theorem dotL_append_singleton (a b : List K) (x y : K) (h : a.length = b.length) :
    dotL (a ++ [x]) (b ++ [y]) = dotL a b + x * y := by
  simp [dotL, List.zipWith_append h]

theorem flPow_number (a : K) (n : Nat) : flPow (Fl.fin a) n = Fl.fin (a ^ n) := by
  induction n with
  | zero => simp [flPow]
  | succ n ih => simp [flPow, ih, pow_succ]

theorem pull_sum (F : Fns K) (env : List (Fl K)) (ts : List K) (p : Prim K) (c : K) (h : RegularOp env p)
    (hroot : ∀ a : K, 0 < a → F.root a ≠ 0) :
    ∃ l : List (Nat × K), p.pull env (p.eval F env) (.fin c) = l.map (fun e => (e.1, Fl.fin e.2)) ∧
      (l.map (fun e => e.2 * ts.getD e.1 0)).sum = c * opTangent F env ts p := by
  cases p with
  | const v => exact ⟨[], by simp [Prim.pull], by simp [opTangent]⟩
  | add i j => exact ⟨[(i, c), (j, c)], by simp [Prim.pull], by simp [opTangent]; ring⟩
  | sub i j => exact ⟨[(i, c), (j, -c)], by simp [Prim.pull], by simp [opTangent]; ring⟩
  | mul i j =>
    obtain ⟨⟨a, ha⟩, b, hb⟩ := h
    exact ⟨[(i, c * b), (j, a * c)], by simp [Prim.pull, ha, hb], by simp [opTangent, ha, hb, numIn]; ring⟩
  | div i j =>
    obtain ⟨⟨a, ha⟩, b, hb, hb0⟩ := h
    refine ⟨[(i, c / b), (j, -((c * (1 / (b * b))) * a))], ?_, ?_⟩
    · have : b * b ≠ 0 := mul_ne_zero hb0 hb0
      simp [Prim.pull, ha, hb, hb0, this]
    · simp only [opTangent, ha, hb, numIn, List.map_cons, List.map_nil, List.sum_cons, List.sum_nil]
      field_simp
      ring
  | exp i =>
    obtain ⟨a, ha⟩ := h
    exact ⟨[(i, c * F.exp a)], by simp [Prim.pull, Prim.eval, flExp, ha], by simp [opTangent, ha, numIn]; ring⟩
  | sqrt i =>
    obtain ⟨a, ha, ha0⟩ := h
    refine ⟨[(i, c * (1 / 2 / F.root a))], ?_, ?_⟩
    · have h1 := hroot a ha0
      simp [Prim.pull, Prim.eval, Fl.sqrt, ha, not_lt.mpr ha0.le, h1]
    · simp only [opTangent, ha, numIn, List.map_cons, List.map_nil, List.sum_cons, List.sum_nil]
      have h1 := hroot a ha0
      field_simp
      ring
  | sq i =>
    obtain ⟨a, ha⟩ := h
    exact ⟨[(i, c * (2 * a))], by simp [Prim.pull, ha], by simp [opTangent, ha, numIn]; ring⟩
  | pow i n =>
    obtain ⟨a, ha⟩ := h
    exact ⟨[(i, c * (n * a ^ (n - 1)))], by simp [Prim.pull, ha, flPow_number], by simp [opTangent, ha, numIn]; ring⟩
  | select p i j =>
    cases p
    · exact ⟨[(i, 0), (j, c)], by simp [Prim.pull], by simp [opTangent]⟩
    · exact ⟨[(i, c), (j, 0)], by simp [Prim.pull], by simp [opTangent]⟩
  | max i j =>
    obtain ⟨a, b, ha, hb, hab⟩ := h
    rcases lt_or_gt_of_ne hab with hlt | hlt
    · refine ⟨[(i, 0), (j, c)], ?_, ?_⟩
      · simp [Prim.pull, Prim.eval, Fl.maximum, balancedEq, ha, hb, hlt, hab]
      · simp [opTangent, ha, hb, numIn, hlt]
    · refine ⟨[(i, c), (j, 0)], ?_, ?_⟩
      · simp [Prim.pull, Prim.eval, Fl.maximum, balancedEq, ha, hb, hlt.le, not_lt.mpr hlt.le, Ne.symm hab]
      · simp [opTangent, ha, hb, numIn, not_lt.mpr hlt.le]
  | min i j =>
    obtain ⟨a, b, ha, hb, hab⟩ := h
    rcases lt_or_gt_of_ne hab with hlt | hlt
    · refine ⟨[(i, c), (j, 0)], ?_, ?_⟩
      · simp [Prim.pull, Prim.eval, Fl.minimum, balancedEq, ha, hb, not_lt.mpr hlt.le, Ne.symm hab]
      · simp [opTangent, ha, hb, numIn, not_lt.mpr hlt.le]
    · refine ⟨[(i, 0), (j, c)], ?_, ?_⟩
      · simp [Prim.pull, Prim.eval, Fl.minimum, balancedEq, ha, hb, hlt, hab]
      · simp [opTangent, ha, hb, numIn, hlt]

theorem dotL_modify (gs ts : List K) (h : gs.length = ts.length) (i : Nat) (d : K) :
    dotL (gs.modify i (· + d)) ts = dotL gs ts + d * ts.getD i 0 := by
  induction gs generalizing ts i with
  | nil =>
    have : ts = [] := by simpa using h.symm
    subst this
    simp [dotL]
  | cons g gs ih =>
    cases ts with
    | nil => simp at h
    | cons t ts =>
      cases i with
      | zero => simp [dotL]; ring
      | succ i =>
        have := ih ts (by simpa using h) i
        simp only [dotL, List.modify_succ_cons, List.zipWith_cons_cons, List.sum_cons, List.getD_cons_succ] at this ⊢
        rw [this]; ring

theorem map_modify_fin (gs : List K) (i : Nat) (d : K) :
    (gs.map Fl.fin).modify i (· + Fl.fin d) = (gs.modify i (· + d)).map Fl.fin := by
  induction gs generalizing i with
  | nil => simp
  | cons g gs ih => cases i <;> simp [ih]

theorem accumulate_fin (gs ts : List K) (h : gs.length = ts.length) (l : List (Nat × K)) :
    ∃ hs : List K, accumulate (gs.map Fl.fin) (l.map fun e => (e.1, Fl.fin e.2)) = hs.map Fl.fin ∧ hs.length = gs.length ∧
      dotL hs ts = dotL gs ts + (l.map (fun e => e.2 * ts.getD e.1 0)).sum := by
  induction l generalizing gs with
  | nil => exact ⟨gs, rfl, rfl, by simp⟩
  | cons e l ih =>
    obtain ⟨hs, h1, h2, h3⟩ := ih (gs.modify e.1 (· + e.2)) (by simpa using h)
    refine ⟨hs, ?_, by simpa using h2, ?_⟩
    · rw [← h1]
      simp [accumulate, map_modify_fin]
    · rw [h3, dotL_modify gs ts h]
      simp; ring

/-- The backward pass of a regular trace gives numbers, and its pairing with any direction is the pairing of the given cotangents
with the derivatives of the values along that direction. -/
theorem backward_adjoint (F : Fns K) (hroot : ∀ a : K, 0 < a → F.root a ≠ 0) (ps : List (Prim K)) (env : List (Fl K))
    (h : RegularTrace F ps env) (cs : List K) (hc : cs.length = env.length + ps.length) :
    ∃ gs : List K, backward F ps env (cs.map Fl.fin) = gs.map Fl.fin ∧ gs.length = env.length ∧
      ∀ ts : List K, ts.length = env.length → dotL gs ts = dotL cs (traceTangents F ps env ts) := by
  induction ps generalizing env with
  | nil => exact ⟨cs, rfl, by simpa using hc, fun ts _ => rfl⟩
  | cons p ps ih =>
    obtain ⟨h1, h2⟩ := h
    obtain ⟨gs, e1, e2, e3⟩ := ih (env ++ [p.eval F env]) h2 (by simp [hc]; omega)
    obtain ⟨gs', c, rfl⟩ : ∃ gs' c, gs = gs' ++ [c] :=
      ⟨gs.dropLast, gs.getLast (by rintro rfl; simp at e2), (List.dropLast_append_getLast _).symm⟩
    have hl : gs'.length = env.length := by simpa using e2
    have hb : backward F (p :: ps) env (cs.map Fl.fin) =
        accumulate (gs'.map Fl.fin) (p.pull env (p.eval F env) (Fl.fin c)) := by
      simp only [backward]
      rw [e1]
      have : look (List.map Fl.fin (gs' ++ [c])) env.length = Fl.fin c := by
        simp [look, ← hl]
      rw [this]
      congr 1
      simp [← hl]
    rw [hb]
    obtain ⟨l, l1, _⟩ := pull_sum F env [] p c h1 hroot
    have key : ∀ ts : List K, ts.length = env.length →
        (l.map (fun e => e.2 * ts.getD e.1 0)).sum = c * opTangent F env ts p := by
      intro ts hts
      obtain ⟨l', m1, m2⟩ := pull_sum F env ts p c h1 hroot
      have : l = l' := by
        have := l1.symm.trans m1
        have inj : Function.Injective (fun e : Nat × K => (e.1, Fl.fin e.2)) := by
          rintro ⟨a, b⟩ ⟨a', b'⟩ hab
          simpa using hab
        exact List.map_injective_iff.mpr inj this
      rw [this]; exact m2
    obtain ⟨hs, a1, a2, _⟩ := accumulate_fin gs' gs' rfl l
    refine ⟨hs, by rw [l1, a1], by rw [a2, hl], ?_⟩
    intro ts hts
    obtain ⟨hs', b1, b2, b3⟩ := accumulate_fin gs' ts (by rw [hl, hts]) l
    have : hs = hs' := by
      have := a1.symm.trans b1
      exact List.map_injective_iff.mpr (fun x y hxy => by simpa using hxy) this
    rw [this, b3, key ts hts]
    have := e3 (ts ++ [opTangent F env ts p]) (by simp [hts])
    rw [dotL_append_singleton _ _ _ _ (by rw [hl, hts])] at this
    rw [this]
    rfl

end Adjoint

/-! ## The tangents are the derivatives -/

/-- `exp` and the square root of the real numbers. -/
noncomputable def realFns : Fns ℝ := ⟨Real.exp, Real.sqrt⟩

theorem realFns_root (a : ℝ) (h : 0 < a) : realFns.root a ≠ 0 := (Real.sqrt_pos.mpr h).ne'

/-- The float `F ε` depends on a parameter `ε`: near 0 it is a number with derivative `t` at 0, or it is always NaN. -/
def Tracks (F : ℝ → Fl ℝ) (t : ℝ) : Prop :=
  (∃ f : ℝ → ℝ, (∀ᶠ ε in 𝓝 0, F ε = .fin (f ε)) ∧ HasDerivAt f t 0) ∨ ((∀ᶠ ε in 𝓝 0, F ε = .nan) ∧ t = 0)

theorem Tracks.const (c : ℝ) : Tracks (fun _ => .fin c) 0 :=
  Or.inl ⟨fun _ => c, by simp, hasDerivAt_const _ _⟩

theorem Tracks.nan : Tracks (fun _ => .nan) 0 := Or.inr ⟨by simp, rfl⟩

theorem Tracks.congr {F G : ℝ → Fl ℝ} {t : ℝ} (h : Tracks F t) (e : ∀ᶠ ε in 𝓝 0, G ε = F ε) : Tracks G t := by
  rcases h with ⟨f, h1, h2⟩ | ⟨h1, h2⟩
  · exact Or.inl ⟨f, by filter_upwards [e, h1] with ε a b; rw [a, b], h2⟩
  · exact Or.inr ⟨by filter_upwards [e, h1] with ε a b; rw [a, b], h2⟩

theorem Tracks.finite {F : ℝ → Fl ℝ} {t a : ℝ} (h : Tracks F t) (h0 : F 0 = .fin a) :
    ∃ f : ℝ → ℝ, (∀ᶠ ε in 𝓝 0, F ε = .fin (f ε)) ∧ HasDerivAt f t 0 ∧ f 0 = a := by
  rcases h with ⟨f, h1, h2⟩ | ⟨h1, h2⟩
  · refine ⟨f, h1, h2, ?_⟩
    have := h1.self_of_nhds
    rw [h0] at this
    simpa using this.symm
  · have := h1.self_of_nhds
    rw [h0] at this
    simp at this

theorem op_tracks (E : ℝ → List (Fl ℝ)) (ts : List ℝ) (n : Nat)
    (hE : ∀ i, i < n → Tracks (fun ε => look (E ε) i) (ts.getD i 0)) (hn : ∀ ε, (E ε).length = n) (hts : ts.length = n)
    (p : Prim ℝ) (hc : ∀ c, p = .const c → c = .nan ∨ ∃ a, c = .fin a) (h : RegularOp (E 0) p) :
    Tracks (fun ε => p.eval realFns (E ε)) (opTangent realFns (E 0) ts p) := by
  have hall : ∀ i, Tracks (fun ε => look (E ε) i) (ts.getD i 0) := by
    intro i
    by_cases hi : i < n
    · exact hE i hi
    · have e1 : ∀ ε, look (E ε) i = .nan := by
        intro ε
        simp [look, List.getD_eq_default, hn, not_lt.mp hi]
      have e2 : ts.getD i 0 = 0 := by simp [List.getD_eq_default, hts, not_lt.mp hi]
      rw [e2]
      exact Tracks.nan.congr (by simp [e1])
  cases p with
  | const c =>
    rcases hc c rfl with rfl | ⟨a, rfl⟩
    · exact Tracks.nan
    · exact Tracks.const a
  | add i j =>
    obtain ⟨⟨a, ha⟩, b, hb⟩ := h
    obtain ⟨f, f1, f2, f3⟩ := (hall i).finite ha
    obtain ⟨g, g1, g2, g3⟩ := (hall j).finite hb
    exact Or.inl ⟨fun ε => f ε + g ε, by filter_upwards [f1, g1] with ε x y; simp [Prim.eval, x, y], f2.fun_add g2⟩
  | sub i j =>
    obtain ⟨⟨a, ha⟩, b, hb⟩ := h
    obtain ⟨f, f1, f2, f3⟩ := (hall i).finite ha
    obtain ⟨g, g1, g2, g3⟩ := (hall j).finite hb
    exact Or.inl ⟨fun ε => f ε - g ε, by filter_upwards [f1, g1] with ε x y; simp [Prim.eval, x, y], f2.fun_sub g2⟩
  | mul i j =>
    obtain ⟨⟨a, ha⟩, b, hb⟩ := h
    obtain ⟨f, f1, f2, f3⟩ := (hall i).finite ha
    obtain ⟨g, g1, g2, g3⟩ := (hall j).finite hb
    refine Or.inl ⟨fun ε => f ε * g ε, by filter_upwards [f1, g1] with ε x y; simp [Prim.eval, x, y], ?_⟩
    have := f2.fun_mul g2
    simpa [opTangent, ha, hb, numIn, f3, g3] using this
  | div i j =>
    obtain ⟨⟨a, ha⟩, b, hb, hb0⟩ := h
    obtain ⟨f, f1, f2, f3⟩ := (hall i).finite ha
    obtain ⟨g, g1, g2, g3⟩ := (hall j).finite hb
    have hg : ∀ᶠ ε in 𝓝 0, g ε ≠ 0 := g2.continuousAt.eventually_ne (by rw [g3]; exact hb0)
    refine Or.inl ⟨fun ε => f ε / g ε, by filter_upwards [f1, g1, hg] with ε x y z; simp [Prim.eval, x, y, z], ?_⟩
    have := f2.fun_div g2 (by rw [g3]; exact hb0)
    simpa [opTangent, ha, hb, numIn, f3, g3] using this
  | exp i =>
    obtain ⟨a, ha⟩ := h
    obtain ⟨f, f1, f2, f3⟩ := (hall i).finite ha
    refine Or.inl ⟨fun ε => Real.exp (f ε), by filter_upwards [f1] with ε x; simp [Prim.eval, flExp, realFns, x], ?_⟩
    have := f2.exp
    simpa [opTangent, ha, numIn, f3, realFns, mul_comm] using this
  | sqrt i =>
    obtain ⟨a, ha, ha0⟩ := h
    obtain ⟨f, f1, f2, f3⟩ := (hall i).finite ha
    have hp : ∀ᶠ ε in 𝓝 0, 0 < f ε := f2.continuousAt.eventually (lt_mem_nhds (by rw [f3]; exact ha0))
    refine Or.inl ⟨fun ε => Real.sqrt (f ε), ?_, ?_⟩
    · filter_upwards [f1, hp] with ε x y
      simp [Prim.eval, Fl.sqrt, realFns, x, not_lt.mpr y.le]
    · have := f2.sqrt (by rw [f3]; exact ha0.ne')
      simpa [opTangent, ha, numIn, f3, realFns] using this
  | sq i =>
    obtain ⟨a, ha⟩ := h
    obtain ⟨f, f1, f2, f3⟩ := (hall i).finite ha
    refine Or.inl ⟨fun ε => f ε * f ε, by filter_upwards [f1] with ε x; simp [Prim.eval, x], ?_⟩
    have := f2.fun_mul f2
    rw [f3] at this
    have e : opTangent realFns (E 0) ts (Prim.sq i) = ts.getD i 0 * a + a * ts.getD i 0 := by
      simp only [opTangent, ha, numIn]; ring
    rw [e]
    exact this
  | pow i n =>
    obtain ⟨a, ha⟩ := h
    obtain ⟨f, f1, f2, f3⟩ := (hall i).finite ha
    refine Or.inl ⟨fun ε => f ε ^ n, by filter_upwards [f1] with ε x; simp [Prim.eval, flPow_number, x], ?_⟩
    have := f2.fun_pow n
    simpa [opTangent, ha, numIn, f3] using this
  | select p i j =>
    cases p
    · exact hall j
    · exact hall i
  | max i j =>
    obtain ⟨a, b, ha, hb, hab⟩ := h
    obtain ⟨f, f1, f2, f3⟩ := (hall i).finite ha
    obtain ⟨g, g1, g2, g3⟩ := (hall j).finite hb
    rcases lt_or_gt_of_ne hab with hlt | hlt
    · have : ∀ᶠ ε in 𝓝 0, f ε < g ε := f2.continuousAt.eventually_lt g2.continuousAt (by rw [f3, g3]; exact hlt)
      refine Or.inl ⟨g, by filter_upwards [f1, g1, this] with ε x y z; simp [Prim.eval, Fl.maximum, x, y, z], ?_⟩
      simpa [opTangent, ha, hb, numIn, hlt] using g2
    · have : ∀ᶠ ε in 𝓝 0, g ε < f ε := g2.continuousAt.eventually_lt f2.continuousAt (by rw [f3, g3]; exact hlt)
      refine Or.inl ⟨f, by filter_upwards [f1, g1, this] with ε x y z; simp [Prim.eval, Fl.maximum, x, y, not_lt.mpr z.le], ?_⟩
      simpa [opTangent, ha, hb, numIn, not_lt.mpr hlt.le] using f2
  | min i j =>
    obtain ⟨a, b, ha, hb, hab⟩ := h
    obtain ⟨f, f1, f2, f3⟩ := (hall i).finite ha
    obtain ⟨g, g1, g2, g3⟩ := (hall j).finite hb
    rcases lt_or_gt_of_ne hab with hlt | hlt
    · have : ∀ᶠ ε in 𝓝 0, f ε < g ε := f2.continuousAt.eventually_lt g2.continuousAt (by rw [f3, g3]; exact hlt)
      refine Or.inl ⟨f, by filter_upwards [f1, g1, this] with ε x y z; simp [Prim.eval, Fl.minimum, x, y, not_lt.mpr z.le], ?_⟩
      simpa [opTangent, ha, hb, numIn, not_lt.mpr hlt.le] using f2
    · have : ∀ᶠ ε in 𝓝 0, g ε < f ε := g2.continuousAt.eventually_lt f2.continuousAt (by rw [f3, g3]; exact hlt)
      refine Or.inl ⟨g, by filter_upwards [f1, g1, this] with ε x y z; simp [Prim.eval, Fl.minimum, x, y, z], ?_⟩
      simpa [opTangent, ha, hb, numIn, hlt] using g2

/-- Every constant of the trace is NaN or a number. -/
def PlainConsts (ps : List (Prim ℝ)) : Prop := ∀ c, Prim.const c ∈ ps → c = .nan ∨ ∃ a, c = .fin a

/-- The tangents of a regular trace are the derivatives of its values. -/
theorem trace_tracks (ps : List (Prim ℝ)) (E : ℝ → List (Fl ℝ)) (ts : List ℝ) (n : Nat)
    (hE : ∀ i, i < n → Tracks (fun ε => look (E ε) i) (ts.getD i 0)) (hn : ∀ ε, (E ε).length = n) (hts : ts.length = n)
    (hc : PlainConsts ps) (h : RegularTrace realFns ps (E 0)) (i : Nat) (hi : i < n + ps.length) :
    Tracks (fun ε => look (values realFns ps (E ε)) i) ((traceTangents realFns ps (E 0) ts).getD i 0) := by
  induction ps generalizing E ts n with
  | nil => exact hE i (by simpa using hi)
  | cons p ps ih =>
    obtain ⟨h1, h2⟩ := h
    refine ih (fun ε => E ε ++ [p.eval realFns (E ε)]) (ts ++ [opTangent realFns (E 0) ts p]) (n + 1) ?_ (by simp [hn])
      (by simp [hts]) (fun c hm => hc c (List.mem_cons_of_mem _ hm)) h2 (by simp at hi; omega)
    intro k hk
    by_cases hkn : k < n
    · have e1 : ∀ ε, look (E ε ++ [p.eval realFns (E ε)]) k = look (E ε) k := by
        intro ε
        exact List.getD_append _ _ _ _ (by rw [hn]; exact hkn)
      have e2 : (ts ++ [opTangent realFns (E 0) ts p]).getD k 0 = ts.getD k 0 :=
        List.getD_append _ _ _ _ (by rw [hts]; exact hkn)
      rw [e2]
      exact (hE k hkn).congr (by simp [e1])
    · have : k = n := by omega
      subst this
      have e1 : ∀ ε, look (E ε ++ [p.eval realFns (E ε)]) k = p.eval realFns (E ε) := by
        intro ε
        simp [look, ← hn ε]
      have e2 : (ts ++ [opTangent realFns (E 0) ts p]).getD k 0 = opTangent realFns (E 0) ts p := by
        simp [← hts]
      rw [e2]
      refine (op_tracks E ts k hE hn hts p ?_ h1).congr (by simp [e1])
      rintro c rfl
      exact hc c (by simp)

end Verif.Props
