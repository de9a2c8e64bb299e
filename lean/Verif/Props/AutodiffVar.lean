import Verif.Props.AutodiffEWMA

/-! # C187: the gradient of EWMVar

On complete data `jax.grad` through the unrolled EWMVar gives the derivatives of the loss.  With a missing value anywhere it gives NaN:
`EWMVar` computes `x - mean` and multiplies by it in a branch that `jnp.where` discards, and in the backward pass the zero cotangent of
that branch is multiplied by NaN.  (`EWMA` replaces the missing values before it computes, `EWMVar` does not.) -/

set_option linter.unusedSectionVars false
set_option linter.unusedSimpArgs false
set_option linter.unusedVariables false

namespace Verif.Props
open Verif Verif.Model Verif.Model.Autodiff Filter Topology

section Trace
variable {K : Type} [Field K] [LinearOrder K]

set_option maxHeartbeats 4000000 in
/-- The trace of one call computes what the call computes. -/
theorem trace_ewmvar (F : Fns K) (adjust : Adjust) (l : K) (s : EWMVarState K) (x : Fl K) :
    let v := values F (ewmvarTrace (F.exp l) adjust s x) [Fl.fin l, s.mean, s.var, x]
    let r := ewmvarStep (F.exp l) adjust s x
    look v (ewmvarBase adjust + 3) = r.2.mean ∧ look v (ewmvarBase adjust + 8) = r.2.var ∧ look v (ewmvarBase adjust + 8) = r.1 := by
  obtain ⟨m, w, n⟩ := s
  cases adjust <;>
    simp only [ewmvarTrace, ewmvarFront, ewmvarMode, ewmvarTail, ewmvarBase, values, Prim.eval, look, ewmvarStep, ewmvarAlpha, flExp,
      List.cons_append, List.nil_append, List.getD_cons_zero, List.getD_cons_succ, Nat.reduceAdd] <;>
    cases x <;> simp [Fl.isNan]

end Trace

theorem ewmvarTrace_length (com : ℝ) (adjust : Adjust) (s : EWMVarState ℝ) (x : Fl ℝ) :
    (ewmvarTrace com adjust s x).length + 4 = ewmvarBase adjust + 9 := by
  cases adjust <;> simp [ewmvarTrace, ewmvarFront, ewmvarMode, ewmvarTail, ewmvarBase]

theorem ewmvarTrace_consts (com : ℝ) (adjust : Adjust) (s : EWMVarState ℝ) (x : Fl ℝ) : PlainConsts (ewmvarTrace com adjust s x) := by
  intro v hv
  cases adjust
  · simp [ewmvarTrace, ewmvarFront, ewmvarMode, ewmvarTail] at hv
    rcases hv with rfl | rfl <;> simp
  · simp [ewmvarTrace, ewmvarFront, ewmvarMode, ewmvarTail] at hv
    rcases hv with rfl | rfl <;> simp
  · simp [ewmvarTrace, ewmvarFront, ewmvarMode, ewmvarTail] at hv
    rcases hv with rfl | rfl | rfl | rfl <;> simp

theorem ewmvarTrace_congr (com com' : ℝ) (adjust : Adjust) (ha : adjust ≠ .linear) (m m' v v' : Fl ℝ) (n : Nat) (x x' : Fl ℝ)
    (h1 : m.isNan = m'.isNan) (h2 : v.isNan = v'.isNan) (h3 : x.isNan = x'.isNan) :
    ewmvarTrace com adjust ⟨m, v, n⟩ x = ewmvarTrace com' adjust ⟨m', v', n⟩ x' := by
  cases adjust
  · simp only [ewmvarTrace, ewmvarFront, ewmvarMode, h1, h2, h3]
  · simp only [ewmvarTrace, ewmvarFront, ewmvarMode, h1, h2, h3]
  · exact absurd rfl ha

theorem share_pow (l : ℝ) (n : Nat) : 1 - (1 - 1 / (1 + Real.exp l)) ^ (n + 1) ≠ 0 := by
  obtain ⟨h1, h2, h3⟩ := exp_share l
  have : (1 - 1 / (1 + Real.exp l)) ^ (n + 1) < 1 := pow_lt_one₀ h3 (by linarith) (by omega)
  linarith

set_option maxHeartbeats 4000000 in
theorem ewmvar_trace_regular (adjust : Adjust) (ha : adjust ≠ .linear) (l : ℝ) (m v : Fl ℝ) (n : Nat) (x : ℝ)
    (hm : NumOrNan m) (hv : NumOrNan v) :
    RegularTrace realFns (ewmvarTrace (Real.exp l) adjust ⟨m, v, n⟩ (.fin x)) [Fl.fin l, m, v, .fin x] := by
  obtain ⟨h1, h2, h3⟩ := exp_share l
  have e1 : (1 + Real.exp l) ≠ 0 := h1.ne'
  have e2 := share_pow l n
  rcases hm with rfl | ⟨m, rfl⟩ <;> rcases hv with rfl | ⟨v, rfl⟩ <;> cases adjust <;>
    first
    | exact absurd rfl ha
    | (simp only [ewmvarTrace, ewmvarFront, ewmvarMode, ewmvarTail, RegularTrace, RegularOp, Prim.eval, look,
        flExp, reduceCtorEq, if_true, if_false, List.cons_append, List.nil_append, List.append_nil,
        List.getD_cons_zero, List.getD_cons_succ, Bool.false_eq_true, Nat.reduceAdd, realFns, Fl.isNan, Bool.not_true,
        Bool.not_false, flPow_number, Fl.fin_add, Fl.fin_sub, Fl.fin_mul, Fl.fin_div_of_ne _ e1, Fl.fin_div_of_ne _ e2]
       repeat' apply And.intro
       all_goals
        first
        | trivial
        | exact ⟨_, rfl⟩
        | exact ⟨_, rfl, by assumption⟩)

/-- The backward pass through one call on a number gives numbers, dual to the derivatives along any direction. -/
theorem ewmvarPull_adjoint (adjust : Adjust) (ha : adjust ≠ .linear) (l : ℝ) (m v : Fl ℝ) (n : Nat) (x : ℝ)
    (hm : NumOrNan m) (hv : NumOrNan v) (g gm gv : ℝ) :
    ∃ pl pm pv px : ℝ, ewmvarPull realFns adjust l ⟨m, v, n⟩ (.fin x) (.fin g) (.fin gm) (.fin gv) = ⟨.fin pl, .fin pm, .fin pv, .fin px⟩ ∧
      ∀ tl tm tv tx : ℝ,
        let T := traceTangents realFns (ewmvarTrace (Real.exp l) adjust ⟨m, v, n⟩ (.fin x)) [Fl.fin l, m, v, .fin x] [tl, tm, tv, tx]
        pl * tl + pm * tm + pv * tv + px * tx =
          g * T.getD (ewmvarBase adjust + 8) 0 + gm * T.getD (ewmvarBase adjust + 3) 0 + gv * T.getD (ewmvarBase adjust + 8) 0 := by
  have hlen := ewmvarTrace_length (Real.exp l) adjust ⟨m, v, n⟩ (.fin x)
  have hbb : 2 ≤ ewmvarBase adjust := by cases adjust <;> simp [ewmvarBase]
  set P := ewmvarTrace (Real.exp l) adjust ⟨m, v, n⟩ (.fin x) with hP
  let L : List (Nat × ℝ) := [(ewmvarBase adjust + 8, g), (ewmvarBase adjust + 3, gm), (ewmvarBase adjust + 8, gv)]
  obtain ⟨cs, c1, c2, _⟩ := accumulate_fin (List.replicate (4 + P.length) (0 : ℝ)) (List.replicate (4 + P.length) (0 : ℝ)) rfl L
  obtain ⟨gs, g1, g2, g3⟩ := backward_adjoint realFns realFns_root P [Fl.fin l, m, v, .fin x]
    (ewmvar_trace_regular adjust ha l m v n x hm hv) cs (by simpa using c2)
  obtain ⟨pl, pm, pv, px, rfl⟩ : ∃ a b d e, gs = [a, b, d, e] := by
    match gs, g2 with
    | [a, b, d, e], _ => exact ⟨a, b, d, e, rfl⟩
  refine ⟨pl, pm, pv, px, ?_, ?_⟩
  · simp only [ewmvarPull]
    have e0 : (realFns.exp l) = Real.exp l := rfl
    rw [e0, ← hP]
    have : accumulate (List.replicate ([Fl.fin l, m, v, Fl.fin x].length + P.length) (Fl.fin (0 : ℝ)))
        [(ewmvarBase adjust + 8, Fl.fin g), (ewmvarBase adjust + 3, Fl.fin gm), (ewmvarBase adjust + 8, Fl.fin gv)] = cs.map Fl.fin := by
      rw [← c1]
      simp [L, List.map_replicate]
    rw [this, g1]
    simp [look]
  · intro tl tm tv tx
    have := g3 [tl, tm, tv, tx] rfl
    have hl : (traceTangents realFns P [Fl.fin l, m, v, .fin x] [tl, tm, tv, tx]).length = 4 + P.length := by
      rw [traceTangents_length]; rfl
    obtain ⟨cs', d1, d2, d3⟩ := accumulate_fin (List.replicate (4 + P.length) (0 : ℝ))
      (traceTangents realFns P [Fl.fin l, m, v, .fin x] [tl, tm, tv, tx]) (by simp [hl]) L
    have hcs : cs = cs' := by
      have := c1.symm.trans d1
      exact List.map_injective_iff.mpr (fun x y hxy => by simpa using hxy) this
    rw [hcs, d3, dotL_zeros] at this
    simp only [dotL, L, List.zipWith_cons_cons, List.zipWith_nil_left, List.sum_cons, List.sum_nil, List.map_cons, List.map_nil] at this
    linarith

/-- After a call on a number the states are numbers. -/
theorem good_ewmvar (adjust : Adjust) (ha : adjust ≠ .linear) (l : ℝ) (m v : Fl ℝ) (n : Nat) (x : ℝ) (hm : NumOrNan m) (hv : NumOrNan v) :
    NumOrNan (ewmvarStep (Real.exp l) adjust ⟨m, v, n⟩ (.fin x)).2.mean ∧ NumOrNan (ewmvarStep (Real.exp l) adjust ⟨m, v, n⟩ (.fin x)).2.var := by
  obtain ⟨h1, h2, h3⟩ := exp_share l
  have e1 : (1 + Real.exp l) ≠ 0 := h1.ne'
  have e2 := share_pow l n
  obtain ⟨a, hA⟩ : ∃ a, ewmvarAlpha (Real.exp l) adjust (n + 1) = .fin a := by
    cases adjust
    · simp only [ewmvarAlpha, Fl.fin_add, Fl.fin_sub, Fl.fin_div_of_ne _ e1, flPow_number, Fl.fin_div_of_ne _ e2]
      exact ⟨_, rfl⟩
    · simp only [ewmvarAlpha, Fl.fin_add, Fl.fin_sub, Fl.fin_div_of_ne _ e1]
      exact ⟨_, rfl⟩
    · exact absurd rfl ha
  rcases hm with rfl | ⟨m, rfl⟩ <;> rcases hv with rfl | ⟨v, rfl⟩ <;> simp [ewmvarStep, hA, NumOrNan]

theorem ewmvar_gradient_from (adjust : Adjust) (ha : adjust ≠ .linear) (l dl : ℝ) :
    ∀ (xs ds gs : List ℝ) (n : Nat) (M V : ℝ → Fl ℝ) (tm tv : ℝ),
      ds.length = xs.length → gs.length = xs.length → Tracks M tm → Tracks V tv → NumOrNan (M 0) → NumOrNan (V 0) →
      ∃ gl gm gv : ℝ, ∃ gx : List ℝ,
        ewmvarGradFrom realFns adjust l ⟨M 0, V 0, n⟩ (xs.map Fl.fin) (gs.map Fl.fin) = ⟨.fin gl, .fin gm, .fin gv, gx.map Fl.fin⟩ ∧
        gx.length = xs.length ∧
        HasDerivAt (fun ε => weighted gs ((ewmvar (Real.exp (l + ε * dl)) adjust).outsFrom
          ⟨M ε, V ε, n⟩ (List.zipWith (fun x d => Fl.fin (x + ε * d)) xs ds)))
          (gl * dl + gm * tm + gv * tv + dotL gx ds) 0 := by
  intro xs
  induction xs with
  | nil =>
    intro ds gs n M V tm tv h1 h2 hM hV hM0 hV0
    obtain rfl : ds = [] := by simpa using h1
    obtain rfl : gs = [] := by simpa using h2
    refine ⟨0, 0, 0, [], by simp [ewmvarGradFrom], rfl, ?_⟩
    simpa [weighted, dotL] using hasDerivAt_const (0 : ℝ) (0 : ℝ)
  | cons x xs ih =>
    intro ds gs n M V tm tv h1 h2 hM hV hM0 hV0
    obtain ⟨d, ds, rfl⟩ : ∃ d ds', ds = d :: ds' := by cases ds <;> simp_all
    obtain ⟨g, gs, rfl⟩ : ∃ g gs', gs = g :: gs' := by cases gs <;> simp_all
    have hX : Tracks (fun ε => Fl.fin (x + ε * d)) d := by
      refine Or.inl ⟨fun ε => x + ε * d, by simp, ?_⟩
      simpa using ((hasDerivAt_id (0 : ℝ)).mul_const d).const_add x
    have hL : Tracks (fun ε => Fl.fin (l + ε * dl)) dl := by
      refine Or.inl ⟨fun ε => l + ε * dl, by simp, ?_⟩
      simpa using ((hasDerivAt_id (0 : ℝ)).mul_const dl).const_add l
    let R : ℝ → Fl ℝ × EWMVarState ℝ := fun ε => ewmvarStep (Real.exp (l + ε * dl)) adjust ⟨M ε, V ε, n⟩ (.fin (x + ε * d))
    have hR0 : R 0 = ewmvarStep (Real.exp l) adjust ⟨M 0, V 0, n⟩ (.fin x) := by simp [R]
    obtain ⟨q1, q2⟩ := good_ewmvar adjust ha l (M 0) (V 0) n x hM0 hV0
    let P := ewmvarTrace (Real.exp l) adjust ⟨M 0, V 0, n⟩ (.fin x)
    let E : ℝ → List (Fl ℝ) := fun ε => [Fl.fin (l + ε * dl), M ε, V ε, .fin (x + ε * d)]
    have hE0 : E 0 = [Fl.fin l, M 0, V 0, .fin x] := by simp [E]
    have hlen : P.length + 4 = ewmvarBase adjust + 9 := ewmvarTrace_length _ adjust _ _
    have hreg : RegularTrace realFns P (E 0) := by
      rw [hE0]; exact ewmvar_trace_regular adjust ha l (M 0) (V 0) n x hM0 hV0
    have htr := trace_tracks P E [dl, tm, tv, d] 4 (by
        intro i hi
        match i, hi with
        | 0, _ => exact hL
        | 1, _ => exact hM
        | 2, _ => exact hV
        | 3, _ => exact hX) (by simp [E]) rfl (ewmvarTrace_consts _ adjust _ _) hreg
    have hsame : ∀ᶠ ε in 𝓝 0, look (values realFns P (E ε)) (ewmvarBase adjust + 3) = (R ε).2.mean ∧
        look (values realFns P (E ε)) (ewmvarBase adjust + 8) = (R ε).2.var ∧
        look (values realFns P (E ε)) (ewmvarBase adjust + 8) = (R ε).1 := by
      filter_upwards [hM.masks, hV.masks] with ε hε hε'
      have e := trace_ewmvar realFns adjust (l + ε * dl) ⟨M ε, V ε, n⟩ (.fin (x + ε * d))
      rw [ewmvarTrace_congr _ (Real.exp l) adjust ha (M ε) (M 0) (V ε) (V 0) n (.fin (x + ε * d)) (.fin x) hε.1 hε'.1 rfl] at e
      exact e
    let T := traceTangents realFns P (E 0) [dl, tm, tv, d]
    have tM : Tracks (fun ε => (R ε).2.mean) (T.getD (ewmvarBase adjust + 3) 0) :=
      (htr _ (by omega)).congr (by filter_upwards [hsame] with ε h; exact h.1.symm)
    have tV : Tracks (fun ε => (R ε).2.var) (T.getD (ewmvarBase adjust + 8) 0) :=
      (htr _ (by omega)).congr (by filter_upwards [hsame] with ε h; exact h.2.1.symm)
    have tR : Tracks (fun ε => (R ε).1) (T.getD (ewmvarBase adjust + 8) 0) :=
      (htr _ (by omega)).congr (by filter_upwards [hsame] with ε h; exact h.2.2.symm)
    obtain ⟨gl, gm, gv, gx, r1, r2, r3⟩ := ih ds gs (n + 1) (fun ε => (R ε).2.mean) (fun ε => (R ε).2.var)
      _ _ (by simpa using h1) (by simpa using h2) tM tV (by simp only [hR0]; exact q1) (by simp only [hR0]; exact q2)
    obtain ⟨pl, pm, pv, px, p1, p2⟩ := ewmvarPull_adjoint adjust ha l (M 0) (V 0) n x hM0 hV0 g gm gv
    have hnobs : ∀ ε, (R ε).2 = ⟨(R ε).2.mean, (R ε).2.var, n + 1⟩ := by
      intro ε
      simp [R, ewmvarStep]
    refine ⟨pl + gl, pm, pv, px :: gx, ?_, by simp [r2], ?_⟩
    · simp only [List.map_cons, ewmvarGradFrom]
      have hs : (ewmvarStep (realFns.exp l) adjust ⟨M 0, V 0, n⟩ (.fin x)).2 = ⟨(R 0).2.mean, (R 0).2.var, n + 1⟩ := by
        rw [← hnobs 0, hR0]; rfl
      rw [hs, r1, p1]
      simp
    · have hd := (tR.deriv.const_mul g).add r3
      have key := p2 dl tm tv d
      refine (hd.congr_deriv ?_).congr_of_eventuallyEq ?_
      · simp only [dotL, List.zipWith_cons_cons, List.sum_cons] at key ⊢
        simp only [T, P, hE0]
        linarith
      · refine Filter.Eventually.of_forall fun ε => ?_
        have hs := hnobs ε
        simp only [weighted, List.zipWith_cons_cons, Mealy.outsFrom, List.map_cons, List.sum_cons, Pi.add_apply, ewmvar]
        congr 1

/-- **C187, complete data.** With `adjust` True or False and no missing value, `jax.grad` through the unrolled `EWMVar` (Haiku and Flax
compute the same) gives the derivatives of the loss with respect to `logcom` and to the data.  What is missing of C187: missing values
(`C187_missing_value_nan_partial`) and `adjust="linear"`. -/
theorem C187_complete_data_gradient_partial (adjust : Adjust) (ha : adjust ≠ .linear) (logcom : ℝ) (xs gs : List ℝ)
    (hl : gs.length = xs.length) :
    ∃ gl : ℝ, ∃ gx : List ℝ, gx.length = xs.length ∧
      (ewmvarGrad realFns adjust logcom (xs.map Fl.fin) (gs.map Fl.fin)).logcom = .fin gl ∧
      (ewmvarGrad realFns adjust logcom (xs.map Fl.fin) (gs.map Fl.fin)).xs = gx.map Fl.fin ∧
      ∀ (dl : ℝ) (ds : List ℝ), ds.length = xs.length →
        HasDerivAt (fun ε => weighted gs ((ewmvar (Real.exp (logcom + ε * dl)) adjust).run
          (List.zipWith (fun x d => Fl.fin (x + ε * d)) xs ds))) (gl * dl + dotL gx ds) 0 := by
  have hmain := fun (dl : ℝ) (ds : List ℝ) (hd : ds.length = xs.length) =>
    ewmvar_gradient_from adjust ha logcom dl xs ds gs 0 (fun _ => .nan) (fun _ => .nan) 0 0 hd hl Tracks.nan Tracks.nan (Or.inl rfl) (Or.inl rfl)
  obtain ⟨gl, gm, gv, gx, e1, e2, -⟩ := hmain 0 (List.replicate xs.length 0) (by simp)
  refine ⟨gl, gx, e2, by rw [ewmvarGrad, e1], by rw [ewmvarGrad, e1], ?_⟩
  intro dl ds hd
  obtain ⟨gl', gm', gv', gx', f1, f2, f3⟩ := hmain dl ds hd
  rw [e1] at f1
  simp only [StreamGrad.mk.injEq, Fl.fin.injEq] at f1
  obtain ⟨rfl, rfl, rfl, f4⟩ := f1
  have hinj : gx = gx' := List.map_injective_iff.mpr (fun a b h => by simpa using h) f4
  subst hinj
  simpa [Mealy.run, ewmvar] using f3

/-! ## Missing values -/

section Missing
variable {K : Type} [Field K] [LinearOrder K]

theorem fl_nan_add (a : Fl K) : Fl.nan + a = Fl.nan := by cases a <;> rfl

theorem fl_add_nan (a : Fl K) : a + Fl.nan = Fl.nan := by cases a <;> rfl


set_option maxHeartbeats 4000000 in
/-- The backward pass through a call on a missing value: NaN for the parameter, whatever the cotangents. -/
theorem ewmvarPull_missing (F : Fns K) (adjust : Adjust) (ha : adjust ≠ .linear) (l : K) (s : EWMVarState K) (g gm gv : Fl K) :
    (ewmvarPull F adjust l s .nan g gm gv).logcom = .nan := by
  obtain ⟨m, v, n⟩ := s
  cases h1 : m.isNan <;> cases h2 : v.isNan <;> cases adjust <;>
    first
    | exact absurd rfl ha
    | simp [ewmvarPull, ewmvarTrace, ewmvarFront, ewmvarMode, ewmvarTail, ewmvarBase, backward, Prim.pull, Prim.eval, look, accumulate, List.replicate, h1, h2, fl_nan_add, fl_add_nan]

set_option maxHeartbeats 8000000 in
/-- The backward pass through a call on a missing value: NaN for the missing value, in every mode. -/
theorem ewmvarPull_missing_x (F : Fns K) (adjust : Adjust) (l : K) (s : EWMVarState K) (g gm gv : Fl K) :
    (ewmvarPull F adjust l s .nan g gm gv).x = .nan := by
  obtain ⟨m, v, n⟩ := s
  cases adjust
  · cases h1 : m.isNan <;> cases h2 : v.isNan <;> simp [ewmvarPull, ewmvarTrace, ewmvarFront, ewmvarMode, ewmvarTail, ewmvarBase, backward, Prim.pull, Prim.eval, look, accumulate, List.replicate, h1, h2, fl_nan_add, fl_add_nan]
  · cases h1 : m.isNan <;> cases h2 : v.isNan <;> simp [ewmvarPull, ewmvarTrace, ewmvarFront, ewmvarMode, ewmvarTail, ewmvarBase, backward, Prim.pull, Prim.eval, look, accumulate, List.replicate, h1, h2, fl_nan_add, fl_add_nan]
  · simp only [ewmvarPull, ewmvarTrace, ewmvarMode, ewmvarBase]
    generalize Fl.lt (Fl.fin (0 : K)) _ = b2
    generalize Fl.lt (Fl.fin (_ : K)) _ = b1
    cases h1 : m.isNan <;> cases h2 : v.isNan <;> cases b1 <;> cases b2 <;> simp [ewmvarPull, ewmvarTrace, ewmvarFront, ewmvarMode, ewmvarTail, ewmvarBase, backward, Prim.pull, Prim.eval, look, accumulate, List.replicate, h1, h2, fl_nan_add, fl_add_nan]

/-- **C187, missing values.** As soon as the stream has a missing value, the gradient through `EWMVar` with respect to `logcom` is NaN
(`adjust` True or False), for every loss, every parameter and whatever the other values; and in every mode the gradient with respect to
each missing value is NaN.  So C187 is false of the code. -/
theorem C187_missing_value_nan_partial (F : Fns K) (adjust : Adjust) (logcom : K) (xs gs : List (Fl K)) (hl : gs.length = xs.length) (i : Nat)
    (hi : xs[i]? = some .nan) :
    (adjust ≠ .linear → (ewmvarGrad F adjust logcom xs gs).logcom = .nan) ∧ (ewmvarGrad F adjust logcom xs gs).xs[i]? = some .nan := by
  have main : ∀ (xs gs : List (Fl K)) (s : EWMVarState K) (i : Nat), gs.length = xs.length → xs[i]? = some .nan →
      (adjust ≠ .linear → (ewmvarGradFrom F adjust logcom s xs gs).logcom = .nan) ∧
        (ewmvarGradFrom F adjust logcom s xs gs).xs[i]? = some .nan := by
    intro xs
    induction xs with
    | nil => intro gs s i _ h; simp at h
    | cons x xs ih =>
      intro gs s i hl h
      cases gs with
      | nil => simp at hl
      | cons g gs =>
        cases i with
        | zero =>
          obtain rfl : x = .nan := by simpa using h
          refine ⟨fun ha => ?_, ?_⟩
          · simp only [ewmvarGradFrom, ewmvarPull_missing F adjust ha, fl_nan_add]
          · simp only [ewmvarGradFrom, ewmvarPull_missing_x, List.getElem?_cons_zero]
        | succ i =>
          obtain ⟨h1, h2⟩ := ih gs (ewmvarStep (F.exp logcom) adjust s x).2 i (by simpa using hl) (by simpa using h)
          refine ⟨fun ha => ?_, ?_⟩
          · simp only [ewmvarGradFrom, h1 ha, fl_add_nan]
          · simp only [ewmvarGradFrom, List.getElem?_cons_succ, h2]
  exact main xs gs _ i hl hi

end Missing

/-- The variance itself is a number throughout on this stream, only its gradient is lost. -/
example : (ewmvar (1 : ℚ) .no).run [.fin 1, .nan, .fin 3] = [.fin 0, .fin 0, .fin 1] ∧
    (ewmvarGrad (K := ℚ) ⟨fun _ => 1, id⟩ .no 0 [.fin 1, .nan, .fin 3] [.fin 0, .fin 0, .fin 1]).logcom = .nan := by decide +kernel

/-- On a complete stream: `v = (1-a)·a·(x-y)²` with `a = 1/2`, so the gradient with respect to the data is `(-1, 1)`. -/
example : (ewmvarGrad (K := ℚ) ⟨fun _ => 1, id⟩ .no 0 [.fin 1, .fin 3] [.fin 0, .fin 1]).xs = [.fin (-1), .fin 1] := by decide +kernel


end Verif.Props
