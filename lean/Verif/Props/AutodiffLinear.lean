import Verif.Props.AutodiffVar

/-! # C186: the gradient of EWMA with `adjust="linear"`

In this mode the old weight is multiplied by `max(0, (old_wt - 1) / old_wt)` at each missing value.  Once a gap has brought the weight to
0, the next call divides by it in a branch that `jnp.where` discards, and the gradient of the parameter is NaN.  On complete data the
gradient is made of numbers. -/

set_option linter.unusedSectionVars false
set_option linter.unusedSimpArgs false
set_option linter.unusedVariables false

namespace Verif.Props
open Verif Verif.Model Verif.Model.Autodiff

section
variable {K : Type} [Field K] [LinearOrder K] [IsStrictOrderedRing K]

/-- The operation gives numbers in the backward pass: as `RegularOp`, but the two operands of a minimum or maximum may be equal. -/
def NumericOp (env : List (Fl K)) : Prim K → Prop
  | .max i j => ∃ a b, look env i = .fin a ∧ look env j = .fin b
  | .min i j => ∃ a b, look env i = .fin a ∧ look env j = .fin b
  | p => RegularOp env p

/-- Every operation of the trace gives numbers. -/
def NumericTrace (F : Fns K) : List (Prim K) → List (Fl K) → Prop
  | [], _ => True
  | p :: ps, env => NumericOp env p ∧ NumericTrace F ps (env ++ [p.eval F env])

theorem numeric_pull (F : Fns K) (env : List (Fl K)) (p : Prim K) (c : K) (h : NumericOp env p)
    (hroot : ∀ a : K, 0 < a → F.root a ≠ 0) :
    ∃ l : List (Nat × K), p.pull env (p.eval F env) (.fin c) = l.map (fun e => (e.1, Fl.fin e.2)) := by
  have hb : ∀ (x z y : Fl K), ∃ q : K, balancedEq x z y = .fin q := by
    intro x z y
    have h2 : (2 : K) ≠ 0 := two_ne_zero
    simp only [balancedEq]
    split <;> split <;> simp [h2]
  by_cases hr : RegularOp env p
  · obtain ⟨l, h1, -⟩ := pull_sum F env [] p c hr hroot
    exact ⟨l, h1⟩
  · cases p with
    | max i j =>
      obtain ⟨q, hq⟩ := hb (look env i) ((Prim.max i j).eval F env) (look env j)
      obtain ⟨r, hr⟩ := hb (look env j) ((Prim.max i j).eval F env) (look env i)
      exact ⟨[(i, c * q), (j, c * r)], by simp [Prim.pull, hq, hr]⟩
    | min i j =>
      obtain ⟨q, hq⟩ := hb (look env i) ((Prim.min i j).eval F env) (look env j)
      obtain ⟨r, hr⟩ := hb (look env j) ((Prim.min i j).eval F env) (look env i)
      exact ⟨[(i, c * q), (j, c * r)], by simp [Prim.pull, hq, hr]⟩
    | _ => exact absurd h hr

/-- The backward pass of such a trace gives numbers. -/
theorem backward_numbers (F : Fns K) (hroot : ∀ a : K, 0 < a → F.root a ≠ 0) (ps : List (Prim K)) (env : List (Fl K))
    (h : NumericTrace F ps env) (cs : List K) (hc : cs.length = env.length + ps.length) :
    ∃ gs : List K, backward F ps env (cs.map Fl.fin) = gs.map Fl.fin ∧ gs.length = env.length := by
  induction ps generalizing env with
  | nil => exact ⟨cs, rfl, by simpa using hc⟩
  | cons p ps ih =>
    obtain ⟨h1, h2⟩ := h
    obtain ⟨gs, e1, e2⟩ := ih (env ++ [p.eval F env]) h2 (by simp [hc]; omega)
    obtain ⟨gs', c, rfl⟩ : ∃ gs' c, gs = gs' ++ [c] :=
      ⟨gs.dropLast, gs.getLast (by rintro rfl; simp at e2), (List.dropLast_append_getLast _).symm⟩
    have hl : gs'.length = env.length := by simpa using e2
    have hb : backward F (p :: ps) env (cs.map Fl.fin) =
        accumulate (gs'.map Fl.fin) (p.pull env (p.eval F env) (Fl.fin c)) := by
      simp only [backward]
      rw [e1]
      have : look (List.map Fl.fin (gs' ++ [c])) env.length = Fl.fin c := by
        simp [look, ← hl]
      rw [this]
      congr 1
      simp [← hl]
    rw [hb]
    obtain ⟨l, l1⟩ := numeric_pull F env p c h1 hroot
    obtain ⟨hs, a1, a2, _⟩ := accumulate_fin gs' gs' rfl l
    exact ⟨hs, by rw [l1, a1], by rw [a2, hl]⟩

end

set_option maxHeartbeats 4000000 in
theorem linear_trace_numeric (keep : Nat) (c : EWMACfg ℝ) (ha : c.adjust = .linear) (l : ℝ) (m : Fl ℝ) (w : ℝ) (n : Nat) (x : ℝ)
    (hm : NumOrNan m) (hw : 1 ≤ w) :
    NumericTrace realFns (ewmaTrace keep c ⟨m, .fin w, n⟩ (.fin x)) [Fl.fin l, m, .fin w, .fin x] := by
  obtain ⟨com, adj, ign, mp, ini, big⟩ := c
  simp only at ha
  subst ha
  obtain ⟨h1, h2, h3⟩ := exp_share l
  have hw0 : w ≠ 0 := by positivity
  have e1 : (1 + Real.exp l) ≠ 0 := h1.ne'
  have hp := Real.exp_pos l
  have hmin : Fl.minimum (Fl.fin w) (Fl.fin (Real.exp l)) = .fin (min w (Real.exp l)) := by
    simp only [Fl.minimum]
    rcases lt_or_ge (Real.exp l) w with h | h
    · simp [h, min_eq_right h.le]
    · simp [not_lt.mpr h, min_eq_left h]
  have e4 : min w (Real.exp l) * 1 + 1 ≠ 0 := by
    have : 0 < min w (Real.exp l) := lt_min (by linarith) hp
    positivity
  have e5 : min w (Real.exp l) + 1 ≠ 0 := by simpa using e4
  have e7 : (0 : ℝ) + 1 ≠ 0 := by norm_num
  have hmax : ∃ q : ℝ, Fl.maximum (Fl.fin (0 : ℝ)) (Fl.fin ((w - 1) / w)) = .fin q := by
    simp only [Fl.maximum, Fl.isNan, Bool.or_false, Bool.false_eq_true, if_false]
    split <;> exact ⟨_, rfl⟩
  obtain ⟨q, hq⟩ := hmax
  rcases hm with rfl | ⟨m, rfl⟩ <;> cases ign <;>
    (simp only [ewmaTrace, ewmaFront, ewmaMode, ewmaTail, ewmaBase, NumericTrace, NumericOp, RegularOp, Prim.eval, look,
        Adjust.truthy, flExp, reduceCtorEq, if_true, if_false, List.cons_append, List.nil_append,
        List.getD_cons_zero, List.getD_cons_succ, Bool.false_eq_true, Nat.reduceAdd, realFns, Fl.feq, Fl.isNan, Bool.not_true,
        Bool.not_false, Bool.or_true, Bool.or_false, Bool.true_or, Bool.false_or, Fl.fin_add, Fl.fin_sub, Fl.fin_mul,
        Fl.fin_div_of_ne _ hw0, hmin, hq, Fl.fin_div_of_ne _ e1, Fl.fin_div_of_ne _ e4, Fl.fin_div_of_ne _ e5, Fl.fin_div_of_ne _ e7]
     repeat' apply And.intro
     all_goals
      first
      | trivial
      | exact ⟨_, rfl⟩
      | exact ⟨_, _, rfl, rfl⟩
      | exact ⟨_, rfl, by assumption⟩)

/-- After a call on a number: a mean that is a number, a weight of at least 1. -/
def GoodLinear (step : EWMACfg ℝ → EWMAState ℝ → Fl ℝ → EWMAOut ℝ × EWMAState ℝ) : Prop :=
  ∀ (c : EWMACfg ℝ) (l : ℝ), c.adjust = .linear → c.com = Real.exp l → ∀ (m : Fl ℝ) (w : ℝ) (n : Nat) (x : ℝ),
    NumOrNan m → 1 ≤ w → NumOrNan (step c ⟨m, .fin w, n⟩ (.fin x)).2.mean ∧ ∃ w', (step c ⟨m, .fin w, n⟩ (.fin x)).2.oldWt = .fin w' ∧ 1 ≤ w'

theorem linear_min (w l : ℝ) : Fl.minimum (Fl.fin w) (Fl.fin (Real.exp l)) = .fin (min w (Real.exp l)) := by
  simp only [Fl.minimum]
  rcases lt_or_ge (Real.exp l) w with h | h
  · simp [h, min_eq_right h.le]
  · simp [not_lt.mpr h, min_eq_left h]

theorem good_linear_haiku : GoodLinear ewmaStep := by
  rintro ⟨com, adj, ign, mp, ini, big⟩ l ha hcom m w n x hm hw
  simp only at ha hcom
  subst ha hcom
  have hp : 0 < min w (Real.exp l) := lt_min (by linarith) (Real.exp_pos l)
  have e4 : min w (Real.exp l) + 1 ≠ 0 := by positivity
  rcases hm with rfl | ⟨m, rfl⟩ <;> cases ign <;>
    simp [ewmaStep, EWMACfg.newWt, Adjust.truthy, ewmaOldWt, ewmaFactor, nanToNumDefault, Fl.nanToNum, NumOrNan, linear_min, e4,
      (Real.exp_pos l).le] <;> linarith

theorem good_linear_flax : GoodLinear flaxEwmaStep := by
  rintro ⟨com, adj, ign, mp, ini, big⟩ l ha hcom m w n x hm hw
  simp only at ha hcom
  subst ha hcom
  have hp : 0 < min w (Real.exp l) := lt_min (by linarith) (Real.exp_pos l)
  have e4 : min w (Real.exp l) + 1 ≠ 0 := by positivity
  rcases hm with rfl | ⟨m, rfl⟩ <;> cases ign <;>
    simp [flaxEwmaStep, EWMACfg.newWt, Adjust.truthy, ewmaOldWt, ewmaFactor, nanToNumDefault, Fl.nanToNum, NumOrNan, linear_min, e4,
      (Real.exp_pos l).le] <;> linarith

theorem linear_numbers_from (keep : Nat) (step : EWMACfg ℝ → EWMAState ℝ → Fl ℝ → EWMAOut ℝ × EWMAState ℝ) (hG : GoodLinear step)
    (c : EWMACfg ℝ) (ha : c.adjust = .linear) (l : ℝ) (hcom : c.com = Real.exp l) (xs : List ℝ) :
    ∀ (gs : List ℝ) (m : Fl ℝ) (w : ℝ) (n : Nat), gs.length = xs.length → NumOrNan m → 1 ≤ w →
      ∃ gl gm gw : ℝ, ∃ gx : List ℝ, gx.length = xs.length ∧
        ewmaGrad realFns keep step c l ⟨m, .fin w, n⟩ (xs.map Fl.fin) (gs.map Fl.fin) = ⟨.fin gl, .fin gm, .fin gw, gx.map Fl.fin⟩ := by
  induction xs with
  | nil =>
    intro gs m w n h _ _
    exact ⟨0, 0, 0, [], rfl, by simp [ewmaGrad]⟩
  | cons x xs ih =>
    intro gs m w n h hm hw
    obtain ⟨g, gs, rfl⟩ : ∃ g gs', gs = g :: gs' := by cases gs <;> simp_all
    obtain ⟨q1, w', q2, q3⟩ := hG c l ha hcom m w n x hm hw
    obtain ⟨gl, gm, gw, gx, r0, r1⟩ := ih gs (step c ⟨m, .fin w, n⟩ (.fin x)).2.mean w' (step c ⟨m, .fin w, n⟩ (.fin x)).2.nobs (by simpa using h) q1 q3
    rw [← q2] at r1
    have hb : ewmaBase c = 22 := by simp [ewmaBase, ha]
    have hlen : (ewmaTrace keep c ⟨m, .fin w, n⟩ (.fin x)).length = 32 := by
      simp [ewmaTrace, ewmaFront, ewmaMode, ewmaTail, ha]
    obtain ⟨ps, p1, p2⟩ := backward_numbers realFns realFns_root _ _ (linear_trace_numeric keep c ha l m w n x hm hw)
      ((((List.replicate 36 (0 : ℝ)).set 32 gw).set 34 gm).set 35 g) (by simp [hlen])
    obtain ⟨pl, pm, pw, px, rfl⟩ : ∃ a b d e, ps = [a, b, d, e] := by
      match ps, p2 with
      | [a, b, d, e], _ => exact ⟨a, b, d, e, rfl⟩
    have hpull : ewmaPull realFns keep c l ⟨m, .fin w, n⟩ (.fin x) (.fin g) (.fin gm) (.fin gw) = ⟨.fin pl, .fin pm, .fin pw, .fin px⟩ := by
      simp only [ewmaPull, hb, hlen]
      have : (((List.replicate ([Fl.fin l, m, Fl.fin w, Fl.fin x].length + 32) (Fl.fin (0 : ℝ))).set (22 + 10) (Fl.fin gw)).set (22 + 12)
          (Fl.fin gm)).set (22 + 13) (Fl.fin g) = List.map Fl.fin ((((List.replicate 36 (0 : ℝ)).set 32 gw).set 34 gm).set 35 g) := by
        simp [List.map_set, List.map_replicate]
      rw [this, p1]
      simp [look]
    refine ⟨pl + gl, pm, pw, px :: gx, by simp [r0], ?_⟩
    simp only [List.map_cons, ewmaGrad]
    rw [r1, hpull]
    simp

/-- **C186, complete data.** With `adjust="linear"` and no missing value the gradients through the Haiku and the Flax `EWMA` are numbers.
What is missing of C186: gaps (`C186_gap_nan_partial`). -/
theorem C186_complete_data_numbers_partial (c : EWMACfg ℝ) (ha : c.adjust = .linear) (logcom : ℝ) (hi : NumOrNan c.initial) (xs gs : List ℝ)
    (hl : gs.length = xs.length) :
    (∃ gl : ℝ, ∃ gx : List ℝ, gx.length = xs.length ∧
      (haikuEwmaGrad realFns { c with com := Real.exp logcom } logcom (xs.map Fl.fin) (gs.map Fl.fin)).logcom = .fin gl ∧
      (haikuEwmaGrad realFns { c with com := Real.exp logcom } logcom (xs.map Fl.fin) (gs.map Fl.fin)).xs = gx.map Fl.fin) ∧
    (∃ gl : ℝ, ∃ gx : List ℝ, gx.length = xs.length ∧
      (flaxEwmaGrad realFns { c with com := Real.exp logcom } logcom (xs.map Fl.fin) (gs.map Fl.fin)).logcom = .fin gl ∧
      (flaxEwmaGrad realFns { c with com := Real.exp logcom } logcom (xs.map Fl.fin) (gs.map Fl.fin)).xs = gx.map Fl.fin) := by
  constructor
  · obtain ⟨gl, gm, gw, gx, h1, h2⟩ := linear_numbers_from 13 ewmaStep good_linear_haiku { c with com := Real.exp logcom } ha logcom rfl xs gs
      c.initial 1 0 hl hi le_rfl
    exact ⟨gl, gx, h1, by simp only [haikuEwmaGrad, h2], by simp only [haikuEwmaGrad, h2]⟩
  · obtain ⟨gl, gm, gw, gx, h1, h2⟩ := linear_numbers_from 1 flaxEwmaStep good_linear_flax { c with com := Real.exp logcom } ha logcom rfl xs gs
      c.initial 1 0 hl hi le_rfl
    exact ⟨gl, gx, h1, by simp only [flaxEwmaGrad, h2], by simp only [flaxEwmaGrad, h2]⟩

/-- **C186, gaps.** With `adjust="linear"` there are streams of numbers with one missing value on which the module returns numbers and the
gradient of the parameter is NaN, for Haiku and for Flax; `adjust=True` gives a number on the same stream.  So C186 is false of the
code. -/
theorem C186_gap_nan_partial :
    ∃ (F : Fns ℚ) (c : EWMACfg ℚ) (logcom : ℚ) (xs gs : List (Fl ℚ)), c.adjust = .linear ∧ c.com = F.exp logcom ∧ xs[0]? ≠ some .nan ∧
      (∀ y ∈ (ewma c).run xs, ∃ a, y.value = .fin a) ∧
      (haikuEwmaGrad F c logcom xs gs).logcom = .nan ∧ (flaxEwmaGrad F c logcom xs gs).logcom = .nan ∧
      ∃ q, (haikuEwmaGrad F { c with adjust := .yes } logcom xs gs).logcom = .fin q := by
  refine ⟨⟨fun _ => 3, id⟩, ⟨3, .linear, false, 0, .nan, 1⟩, 0, [.fin 1, .nan, .fin 4], [.fin 0, .fin 0, .fin 1], rfl, rfl, by decide +kernel, ?_,
    by decide +kernel, by decide +kernel, -216 / 625, ?_⟩
  · have h : ((ewma (⟨3, .linear, false, 0, .nan, 1⟩ : EWMACfg ℚ)).run [.fin 1, .nan, .fin 4]).map (·.value) = [.fin 1, .fin 1, .fin 4] := by
      decide +kernel
    intro y hy
    have := List.mem_map_of_mem (f := (·.value)) hy
    rw [h] at this
    simp only [List.mem_cons, List.not_mem_nil, or_false] at this
    rcases this with e | e | e <;> exact ⟨_, e⟩
  · decide +kernel

end Verif.Props
