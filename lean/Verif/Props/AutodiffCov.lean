import Verif.Model.AutodiffCov
import Verif.Props.AutodiffEWMA
import Verif.Props.EWMVar
import Mathlib.Algebra.BigOperators.Fin

/-! # C199: gradients through EWMCov -/

set_option linter.unusedSectionVars false
set_option linter.unusedSimpArgs false
set_option linter.unusedVariables false

namespace Verif.Props
open Verif Verif.Model Verif.Model.Autodiff Filter Topology

/-! ## EWMA along curves

C185 moves the data along straight lines; here each entry of the stream follows any differentiable curve. -/

theorem ewma_gradient_curves (keep : Nat) (step : EWMACfg ℝ → EWMAState ℝ → Fl ℝ → EWMAOut ℝ × EWMAState ℝ)
    (hT : TraceOf keep step) (hG : GoodStep step) (hN : CountsObs step) (c : EWMACfg ℝ) (ha : c.adjust ≠ .linear) (l dl : ℝ) (hcom : c.com = Real.exp l) :
    ∀ (Xs : List (ℝ → Fl ℝ)) (ts gs : List ℝ) (n : Nat) (M W : ℝ → Fl ℝ) (tm tw w : ℝ),
      ts.length = Xs.length → gs.length = Xs.length → (∀ p ∈ Xs.zip ts, Tracks p.1 p.2 ∧ NumOrNan (p.1 0)) → Tracks M tm → Tracks W tw → NumOrNan (M 0) →
      W 0 = .fin w → 0 ≤ w →
      ∃ gl gm gw : ℝ, ∃ gx : List ℝ,
        ewmaGrad realFns keep step c l ⟨M 0, W 0, n⟩ (Xs.map fun X => X 0) (gs.map Fl.fin) = ⟨.fin gl, .fin gm, .fin gw, gx.map Fl.fin⟩ ∧
        gx.length = Xs.length ∧
        HasDerivAt (fun ε => weighted gs (((⟨⟨c.initial, .fin 1, 0⟩, step { c with com := Real.exp (l + ε * dl) }⟩ : Mealy _ _ _).outsFrom
          ⟨M ε, W ε, n⟩ (Xs.map fun X => X ε)).map (·.value)))
          (gl * dl + gm * tm + gw * tw + dotL gx ts) 0 := by
  intro Xs
  induction Xs with
  | nil =>
    intro ts gs n M W tm tw w h1 h2 _ hM hW hM0 hw hw0
    obtain rfl : ts = [] := by simpa using h1
    obtain rfl : gs = [] := by simpa using h2
    refine ⟨0, 0, 0, [], by simp [ewmaGrad], rfl, ?_⟩
    simpa [weighted, dotL] using hasDerivAt_const (0 : ℝ) (0 : ℝ)
  | cons X Xs ih =>
    intro ts gs n M W tm tw w h1 h2 hx hM hW hM0 hw hw0
    obtain ⟨tx, ts, rfl⟩ : ∃ d ds', ts = d :: ds' := by cases ts <;> simp_all
    obtain ⟨g, gs, rfl⟩ : ∃ g gs', gs = g :: gs' := by cases gs <;> simp_all
    obtain ⟨hX, hx0⟩ : Tracks X tx ∧ NumOrNan (X 0) := hx (X, tx) (by simp)
    let C : ℝ → EWMACfg ℝ := fun ε => { c with com := Real.exp (l + ε * dl) }
    let R : ℝ → EWMAOut ℝ × EWMAState ℝ := fun ε => step (C ε) ⟨M ε, W ε, n⟩ (X ε)
    have hC0 : C 0 = c := by
      simp only [C, zero_mul, add_zero, ← hcom]
    have hR0 : R 0 = step c ⟨M 0, W 0, n⟩ (X 0) := by simp only [R, hC0]
    obtain ⟨q1, ⟨w', q2, q3⟩, q4⟩ := hG c l ha hcom ⟨M 0, W 0, n⟩ (X 0) w hM0 hx0 hw hw0
    let P := ewmaTrace keep c ⟨M 0, W 0, n⟩ (X 0)
    let E : ℝ → List (Fl ℝ) := fun ε => [Fl.fin (l + ε * dl), M ε, W ε, X ε]
    have hE0 : E 0 = [Fl.fin l, M 0, W 0, X 0] := by simp [E]
    have hb : ewmaBase c = 18 := by simp [ewmaBase, ha]
    have hlen : P.length = 28 := ewmaTrace_length keep c ha _ _
    have hreg : RegularTrace realFns P (E 0) := by
      rw [hE0]; exact ewma_trace_regular keep c ha l ⟨M 0, W 0, n⟩ (X 0) hM0 hx0 w hw hw0
    have hL : Tracks (fun ε => Fl.fin (l + ε * dl)) dl := by
      refine Or.inl ⟨fun ε => l + ε * dl, by simp, ?_⟩
      simpa using ((hasDerivAt_id (0 : ℝ)).mul_const dl).const_add l
    have htr := trace_tracks P E [dl, tm, tw, tx] 4 (by
        intro i hi
        match i, hi with
        | 0, _ => exact hL
        | 1, _ => exact hM
        | 2, _ => exact hW
        | 3, _ => exact hX) (by simp [E]) rfl (ewmaTrace_consts keep c ha _ _) hreg
    have hsame : ∀ᶠ ε in 𝓝 0, look (values realFns P (E ε)) 30 = (R ε).2.mean ∧ look (values realFns P (E ε)) 28 = (R ε).2.oldWt ∧
        look (values realFns P (E ε)) 31 = (R ε).1.value := by
      filter_upwards [hM.masks, hX.masks] with ε hε hε'
      have e := hT realFns c (l + ε * dl) ⟨M ε, W ε, n⟩ (X ε)
      rw [ewmaTrace_congr keep c c ⟨M ε, W ε, n⟩ ⟨M 0, W 0, n⟩ (X ε) (X 0) rfl ⟨rfl, rfl, rfl, rfl⟩ hε hε', hb] at e
      exact e
    let T := traceTangents realFns P (E 0) [dl, tm, tw, tx]
    have tM : Tracks (fun ε => (R ε).2.mean) (T.getD 30 0) :=
      (htr 30 (by rw [hlen]; omega)).congr (by filter_upwards [hsame] with ε h; exact h.1.symm)
    have tW : Tracks (fun ε => (R ε).2.oldWt) (T.getD 28 0) :=
      (htr 28 (by rw [hlen]; omega)).congr (by filter_upwards [hsame] with ε h; exact h.2.1.symm)
    have tR : Tracks (fun ε => (R ε).1.value) (T.getD 31 0) :=
      (htr 31 (by rw [hlen]; omega)).congr (by filter_upwards [hsame] with ε h; exact h.2.2.symm)
    obtain ⟨gl, gm, gw, gx, r1, r2, r3⟩ := ih ts gs (if (X 0).isNan then n else n + 1) (fun ε => (R ε).2.mean) (fun ε => (R ε).2.oldWt)
      (T.getD 30 0) (T.getD 28 0) w' (by simpa using h1) (by simpa using h2) (fun y hy => hx y (by simp [hy])) tM tW
      (by simp only [hR0]; exact q1) (by simp only [hR0]; exact q2) q3
    obtain ⟨pl, pm, pw, px, p1, p2⟩ := ewmaPull_adjoint keep c ha l ⟨M 0, W 0, n⟩ (X 0) hM0 hx0 w hw hw0 g gm gw
    have hnobs : ∀ᶠ ε in 𝓝 0, (R ε).2 = ⟨(R ε).2.mean, (R ε).2.oldWt, if (X 0).isNan then n else n + 1⟩ := by
      filter_upwards [hX.masks] with ε hε
      have := hN (C ε) ⟨M ε, W ε, n⟩ (X ε)
      rw [hε.1] at this
      simp only at this
      rw [← this]
    refine ⟨pl + gl, pm, pw, px :: gx, ?_, by simp [r2], ?_⟩
    · simp only [List.map_cons, ewmaGrad]
      have hs : (step c ⟨M 0, W 0, n⟩ (X 0)).2 = ⟨(R 0).2.mean, (R 0).2.oldWt, if (X 0).isNan then n else n + 1⟩ := by
        rw [← hnobs.self_of_nhds, hR0]
      rw [hs, r1, p1]
      simp
    · have hd := (tR.deriv.const_mul g).add r3
      have key := p2 dl tm tw tx
      refine (hd.congr_deriv ?_).congr_of_eventuallyEq ?_
      · simp only [dotL, List.zipWith_cons_cons, List.sum_cons] at key ⊢
        simp only [T, P, hE0]
        linarith
      · filter_upwards [hnobs] with ε hs
        simp only [weighted, List.zipWith_cons_cons, Mealy.outsFrom, List.map_cons, List.sum_cons, Pi.add_apply]
        congr 1
        simp only [R, C] at hs ⊢
        rw [← hs]

/-! ## EWMA from the fresh state, on complete data -/

/-- A stream of `T` numbers. -/
def numbers (T : ℕ) (a : ℕ → ℝ) : List (Fl ℝ) := (List.range T).map fun t => Fl.fin (a t)

theorem list_sum_range (T : ℕ) (f : ℕ → ℝ) : ((List.range T).map f).sum = ∑ t ∈ Finset.range T, f t := rfl

theorem look_numbers (T : ℕ) (a : ℕ → ℝ) (t : ℕ) (ht : t < T) : look (numbers T a) t = .fin (a t) := by
  simp [look, numbers, ht]

theorem numbers_of_list (l : List ℝ) : l.map Fl.fin = numbers l.length (fun t => l.getD t 0) := by
  apply List.ext_getElem
  · simp [numbers]
  · intro i h1 h2
    simp [numbers] at h1 h2 ⊢
    simp [h1]

theorem innerOutputs_length (step : EWMACfg ℝ → EWMAState ℝ → Fl ℝ → EWMAOut ℝ × EWMAState ℝ) (c : EWMACfg ℝ) (l : ℝ) (xs : List (Fl ℝ)) :
    (innerOutputs realFns step c l xs).length = xs.length := by
  simp [innerOutputs]

theorem weighted_range (T : ℕ) (w : ℕ → ℝ) (ys : List (Fl ℝ)) (h : ys.length = T) :
    weighted ((List.range T).map w) ys = ∑ t ∈ Finset.range T, w t * numIn (look ys t) := by
  rw [weighted, ← list_sum_range]
  congr 1
  apply List.ext_getElem
  · simp [h]
  · intro i h1 h2
    simp at h1 h2
    simp [look, h, h2]

theorem dotL_range (T : ℕ) (l : List ℝ) (d : ℕ → ℝ) (h : l.length = T) :
    dotL l ((List.range T).map d) = ∑ t ∈ Finset.range T, l.getD t 0 * d t := by
  rw [dotL, ← list_sum_range]
  congr 1
  apply List.ext_getElem
  · simp [h]
  · intro i h1 h2
    simp at h1 h2
    simp [h, h2]

/-- The two implementations, as far as the proofs use them. -/
structure Differentiated (keep : Nat) (step : EWMACfg ℝ → EWMAState ℝ → Fl ℝ → EWMAOut ℝ × EWMAState ℝ) : Prop where
  trace : TraceOf keep step
  good : GoodStep step
  counts : CountsObs step
  number : ∀ (c : EWMACfg ℝ) (l : ℝ), c.adjust ≠ .linear → c.com = Real.exp l → c.minPeriods ≤ 1 → ∀ (s : EWMAState ℝ) (x w : ℝ), NumOrNan s.mean →
    s.oldWt = .fin w → 0 ≤ w → ∃ a, (step c s (.fin x)).1.value = .fin a

variable {keep : Nat} {step : EWMACfg ℝ → EWMAState ℝ → Fl ℝ → EWMAOut ℝ × EWMAState ℝ}

theorem inner_gradient (H : Differentiated keep step) (c : EWMACfg ℝ) (ha : c.adjust ≠ .linear) (hi : NumOrNan c.initial) (l : ℝ) (T : ℕ) (a w : ℕ → ℝ) :
    ∃ gl : ℝ, ∃ gx : ℕ → ℝ,
      (ewmaGrad realFns keep step (withLogcom realFns c l) l ⟨c.initial, Fl.fin 1, 0⟩ (numbers T a) (numbers T w)).logcom = .fin gl ∧
      (ewmaGrad realFns keep step (withLogcom realFns c l) l ⟨c.initial, Fl.fin 1, 0⟩ (numbers T a) (numbers T w)).xs = numbers T gx ∧
      ∀ (dl : ℝ) (f : ℕ → ℝ → ℝ) (d : ℕ → ℝ), (∀ t, f t 0 = a t) → (∀ t, HasDerivAt (f t) (d t) 0) →
        HasDerivAt (fun ε => ∑ t ∈ Finset.range T, w t * numIn (look (innerOutputs realFns step c (l + ε * dl) (numbers T fun t => f t ε)) t))
          (gl * dl + ∑ t ∈ Finset.range T, gx t * d t) 0 := by
  have hmain := fun (dl : ℝ) (f : ℕ → ℝ → ℝ) (d : ℕ → ℝ) (h0 : ∀ t, f t 0 = a t) (hd : ∀ t, HasDerivAt (f t) (d t) 0) =>
    ewma_gradient_curves keep step H.trace H.good H.counts (withLogcom realFns c l) ha l dl rfl
      ((List.range T).map fun t ε => Fl.fin (f t ε)) ((List.range T).map d) ((List.range T).map w) 0 (fun _ => c.initial) (fun _ => .fin 1) 0 0 1
      (by simp) (by simp) (by
        intro p hp
        rw [List.zip_map', List.mem_map] at hp
        obtain ⟨t, _, rfl⟩ := hp
        exact ⟨Or.inl ⟨f t, by simp, hd t⟩, Or.inr ⟨_, rfl⟩⟩) (by
        rcases hi with h | ⟨a, h⟩
        · rw [h]; exact Tracks.nan
        · rw [h]; exact Tracks.const a) (Tracks.const 1) hi rfl (by norm_num)
  have hw : ((List.range T).map w).map Fl.fin = numbers T w := by simp [numbers]
  have hx : ∀ f : ℕ → ℝ → ℝ, (∀ t, f t 0 = a t) → ((List.range T).map fun t ε => Fl.fin (f t ε)).map (fun X => X 0) = numbers T a := by
    intro f h0; simp [numbers, h0]
  obtain ⟨gl, gm, gw, gx, e1, e2, -⟩ := hmain 0 (fun t _ => a t) (fun _ => 0) (fun _ => rfl) (fun t => hasDerivAt_const _ _)
  rw [hw, hx _ (fun _ => rfl)] at e1
  rw [List.length_map, List.length_range] at e2
  refine ⟨gl, fun t => gx.getD t 0, by rw [e1], by rw [e1]; simp only; rw [numbers_of_list, e2], ?_⟩
  intro dl f d h0 hd
  obtain ⟨gl', gm', gw', gx', f1, f2, f3⟩ := hmain dl f d h0 hd
  rw [hw, hx f h0, e1] at f1
  simp only [StreamGrad.mk.injEq, Fl.fin.injEq] at f1
  obtain ⟨rfl, rfl, rfl, f4⟩ := f1
  have hinj : gx = gx' := List.map_injective_iff.mpr (fun a b h => by simpa using h) f4
  subst hinj
  rw [mul_zero, mul_zero, add_zero, add_zero, dotL_range T gx d e2] at f3
  refine f3.congr_of_eventuallyEq (Filter.Eventually.of_forall fun ε => ?_)
  simp only
  rw [← weighted_range T w _ (by rw [innerOutputs_length]; simp [numbers])]
  simp only [innerOutputs, numbers, Mealy.run, withLogcom, List.map_map]
  rfl

/-- On complete data the outputs are numbers. -/
theorem inner_number (H : Differentiated keep step) (c : EWMACfg ℝ) (ha : c.adjust ≠ .linear) (hi : NumOrNan c.initial) (hm : c.minPeriods ≤ 1) (l : ℝ)
    (T : ℕ) (a : ℕ → ℝ) (t : ℕ) (ht : t < T) :
    look (innerOutputs realFns step c l (numbers T a)) t = .fin (numIn (look (innerOutputs realFns step c l (numbers T a)) t)) := by
  have main : ∀ (xs : List ℝ) (s : EWMAState ℝ) (w : ℝ), NumOrNan s.mean → s.oldWt = .fin w → 0 ≤ w →
      ∀ y ∈ ((⟨⟨c.initial, Fl.fin 1, 0⟩, step (withLogcom realFns c l)⟩ : Mealy (EWMAState ℝ) (Fl ℝ) (EWMAOut ℝ)).outsFrom s (xs.map Fl.fin)).map (·.value),
        ∃ b, y = .fin b := by
    intro xs
    induction xs with
    | nil => intro s w _ _ _ y hy; simp [Mealy.outsFrom] at hy
    | cons x xs ih =>
      intro s w h1 h2 h3 y hy
      simp only [List.map_cons, Mealy.outsFrom, List.mem_cons] at hy
      obtain ⟨q1, ⟨w', q2, q3⟩, q4⟩ := H.good (withLogcom realFns c l) l ha rfl s (.fin x) w h1 (Or.inr ⟨x, rfl⟩) h2 h3
      rcases hy with rfl | hy
      · exact H.number (withLogcom realFns c l) l ha rfl hm s x w h1 h2 h3
      · exact ih _ w' q1 q2 q3 y hy
  have hlen : t < (innerOutputs realFns step c l (numbers T a)).length := by rw [innerOutputs_length]; simpa [numbers] using ht
  have hmem : look (innerOutputs realFns step c l (numbers T a)) t ∈ innerOutputs realFns step c l (numbers T a) := by
    rw [look, List.getD_eq_getElem _ _ hlen]
    exact List.getElem_mem _
  have hnum : numbers T a = ((List.range T).map a).map Fl.fin := by simp [numbers]
  obtain ⟨b, hb⟩ := main ((List.range T).map a) ⟨c.initial, Fl.fin 1, 0⟩ 1 hi rfl (by norm_num) (look (innerOutputs realFns step c l (numbers T a)) t) (by
    rw [← hnum]; exact hmem)
  rw [hb]; rfl

set_option maxHeartbeats 2000000 in
theorem differentiated_haiku : Differentiated 13 ewmaStep := by
  refine ⟨trace_haiku, good_haiku, counts_haiku, ?_⟩
  rintro ⟨com, adj, ign, mp, ini, big⟩ l ha rfl hmp ⟨m, w', n⟩ x w hm rfl hw0
  obtain ⟨h1, h2, h3⟩ := exp_share l
  have e1 : (1 + Real.exp l) ≠ 0 := h1.ne'
  have p2 : 0 ≤ w * (1 - 1 / (1 + Real.exp l)) := by positivity
  have e2 : w * (1 - 1 / (1 + Real.exp l)) + 1 ≠ 0 := by positivity
  have e4 : w * (1 - 1 / (1 + Real.exp l)) + 1 / (1 + Real.exp l) ≠ 0 := by positivity
  have e6 : 0 + 1 / (1 + Real.exp l) ≠ 0 := by positivity
  have e7 : (0 : ℝ) + 1 ≠ 0 := by norm_num
  have hmp' : mp ≤ n + 1 := by simp only at hmp; omega
  rcases hm with hm | ⟨m, hm⟩ <;> simp only at hm <;> subst hm <;> cases adj <;> cases ign <;>
    first
    | exact absurd rfl ha
    | (simp only [ewmaStep, EWMACfg.newWt, EWMACfg.alpha, Adjust.truthy, ewmaOldWt, ewmaFactor, nanToNumDefault,
        Fl.isNan, Fl.nanToNum, reduceCtorEq, if_true, if_false, Bool.not_true, Bool.not_false, Bool.false_eq_true, Bool.and_true, Bool.and_false,
        Bool.true_and, Bool.false_and, Fl.fin_add, Fl.fin_sub, Fl.fin_mul, Fl.fin_div_of_ne _ e1, Fl.fin_div_of_ne _ e2, Fl.fin_div_of_ne _ e4,
        Fl.fin_div_of_ne _ e6, Fl.fin_div_of_ne _ e7, hmp']
       simp)

set_option maxHeartbeats 2000000 in
theorem differentiated_flax : Differentiated 1 flaxEwmaStep := by
  refine ⟨trace_flax, good_flax, counts_flax, ?_⟩
  rintro ⟨com, adj, ign, mp, ini, big⟩ l ha rfl hmp ⟨m, w', n⟩ x w hm rfl hw0
  obtain ⟨h1, h2, h3⟩ := exp_share l
  have e1 : (1 + Real.exp l) ≠ 0 := h1.ne'
  have p2 : 0 ≤ w * (1 - 1 / (1 + Real.exp l)) := by positivity
  have e2 : w * (1 - 1 / (1 + Real.exp l)) + 1 ≠ 0 := by positivity
  have e4 : w * (1 - 1 / (1 + Real.exp l)) + 1 / (1 + Real.exp l) ≠ 0 := by positivity
  have e6 : 0 + 1 / (1 + Real.exp l) ≠ 0 := by positivity
  have e7 : (0 : ℝ) + 1 ≠ 0 := by norm_num
  have hmp' : mp ≤ n + 1 := by simp only at hmp; omega
  rcases hm with hm | ⟨m, hm⟩ <;> simp only at hm <;> subst hm <;> cases adj <;> cases ign <;>
    first
    | exact absurd rfl ha
    | (simp only [flaxEwmaStep, EWMACfg.newWt, EWMACfg.alpha, Adjust.truthy, ewmaOldWt, ewmaFactor, nanToNumDefault,
        Fl.isNan, Fl.nanToNum, reduceCtorEq, if_true, if_false, Bool.not_true, Bool.not_false, Bool.false_eq_true, Bool.and_true, Bool.and_false,
        Bool.true_and, Bool.false_and, Fl.fin_add, Fl.fin_sub, Fl.fin_mul, Fl.fin_div_of_ne _ e1, Fl.fin_div_of_ne _ e2, Fl.fin_div_of_ne _ e4,
        Fl.fin_div_of_ne _ e6, Fl.fin_div_of_ne _ e7, hmp']
       simp)

/-! ## The product of the two means -/

open Finset in
theorem cov_product (T : ℕ) {m n : ℕ} (g : ℕ → Fin m → Fin n → ℝ) (B : ℕ → Fin m → ℝ → ℝ) (C : ℕ → Fin n → ℝ → ℝ)
    (hB : ∀ t ∈ range T, ∀ i, DifferentiableAt ℝ (B t i) 0) (hC : ∀ t ∈ range T, ∀ j, DifferentiableAt ℝ (C t j) 0) (db : Fin m → ℝ) (dc : Fin n → ℝ)
    (h1 : ∀ i, HasDerivAt (fun ε => ∑ t ∈ range T, (∑ j, -(g t i j) * C t j 0) * B t i ε) (db i) 0)
    (h2 : ∀ j, HasDerivAt (fun ε => ∑ t ∈ range T, (∑ i, B t i 0 * -(g t i j)) * C t j ε) (dc j) 0) :
    HasDerivAt (fun ε => ∑ t ∈ range T, ∑ i, ∑ j, -(g t i j) * (B t i ε * C t j ε)) (∑ i, db i + ∑ j, dc j) 0 := by
  have e1 : ∀ i, db i = ∑ t ∈ range T, (∑ j, -(g t i j) * C t j 0) * deriv (B t i) 0 := fun i =>
    (h1 i).unique (HasDerivAt.fun_sum fun t ht => (hB t ht i).hasDerivAt.const_mul _)
  have e2 : ∀ j, dc j = ∑ t ∈ range T, (∑ i, B t i 0 * -(g t i j)) * deriv (C t j) 0 := fun j =>
    (h2 j).unique (HasDerivAt.fun_sum fun t ht => (hC t ht j).hasDerivAt.const_mul _)
  have h3 : HasDerivAt (fun ε => ∑ t ∈ range T, ∑ i, ∑ j, -(g t i j) * (B t i ε * C t j ε))
      (∑ t ∈ range T, ∑ i, ∑ j, -(g t i j) * (deriv (B t i) 0 * C t j 0 + B t i 0 * deriv (C t j) 0)) 0 :=
    HasDerivAt.fun_sum fun t ht => HasDerivAt.fun_sum fun i _ => HasDerivAt.fun_sum fun j _ =>
      ((hB t ht i).hasDerivAt.mul (hC t ht j).hasDerivAt).const_mul _
  refine h3.congr_deriv ?_
  simp only [e1, e2, mul_add, sum_add_distrib]
  congr 1
  · rw [sum_comm]
    refine sum_congr rfl fun i _ => sum_congr rfl fun t _ => ?_
    rw [sum_mul]
    exact sum_congr rfl fun j _ => by ring
  · rw [sum_comm (s := univ) (t := range T)]
    refine sum_congr rfl fun t _ => ?_
    rw [sum_comm]
    refine sum_congr rfl fun j _ => ?_
    rw [sum_mul]
    exact sum_congr rfl fun i _ => by ring

theorem sumFin_fin {n : ℕ} (f : Fin n → ℝ) : sumFin (fun j => Fl.fin (f j)) = .fin (∑ j, f j) := by
  unfold sumFin
  rw [show (List.ofFn fun j => Fl.fin (f j)) = (List.ofFn f).map Fl.fin by rw [List.map_ofFn]; rfl, Fl.sum_map_fin, List.sum_ofFn]

/-- `T` pairs of arrays of numbers. -/
def numberPairs (T : ℕ) {m n : ℕ} (x : ℕ → Fin m → ℝ) (y : ℕ → Fin n → ℝ) : List ((Fin m → Fl ℝ) × (Fin n → Fl ℝ)) :=
  (List.range T).map fun t => (fun i => Fl.fin (x t i), fun j => Fl.fin (y t j))

/-- The loss: the sum of the outputs, weighted. -/
noncomputable def covLoss {m n : ℕ} (g : ℕ → Fin m → Fin n → ℝ) (outs : List (Fin m → Fin n → Fl ℝ)) : ℝ :=
  ∑ t ∈ Finset.range outs.length, ∑ i, ∑ j, g t i j * numIn (outs.getD t (fun _ _ => .nan) i j)

theorem pairs_xy (T : ℕ) {m n : ℕ} (x : ℕ → Fin m → ℝ) (y : ℕ → Fin n → ℝ) (i : Fin m) (j : Fin n) :
    (numberPairs T x y).map (fun p => p.1 i * p.2 j) = numbers T fun t => x t i * y t j := by simp [numberPairs, numbers]

theorem pairs_x (T : ℕ) {m n : ℕ} (x : ℕ → Fin m → ℝ) (y : ℕ → Fin n → ℝ) (i : Fin m) :
    (numberPairs T x y).map (fun p => p.1 i) = numbers T fun t => x t i := by simp [numberPairs, numbers]

theorem pairs_y (T : ℕ) {m n : ℕ} (x : ℕ → Fin m → ℝ) (y : ℕ → Fin n → ℝ) (j : Fin n) :
    (numberPairs T x y).map (fun p => p.2 j) = numbers T fun t => y t j := by simp [numberPairs, numbers]

theorem map_range_congr {α : Type} (T : ℕ) (f g : ℕ → α) (h : ∀ t < T, f t = g t) : (List.range T).map f = (List.range T).map g :=
  List.map_congr_left fun t ht => h t (List.mem_range.mp ht)

/-- The output of an inner EWMA as a number. -/
noncomputable def innerNum (step : EWMACfg ℝ → EWMAState ℝ → Fl ℝ → EWMAOut ℝ × EWMAState ℝ) (c : EWMACfg ℝ) (l : ℝ) (T : ℕ) (a : ℕ → ℝ) (t : ℕ) : ℝ :=
  numIn (look (innerOutputs realFns step c l (numbers T a)) t)

theorem covLoss_outputs (H : Differentiated keep step) (c : EWMACfg ℝ) (ha : c.adjust ≠ .linear) (hi : NumOrNan c.initial) (hm : c.minPeriods ≤ 1)
    (l : CovParams ℝ) (T : ℕ) {m n : ℕ} (x : ℕ → Fin m → ℝ) (y : ℕ → Fin n → ℝ) (g : ℕ → Fin m → Fin n → ℝ) (centered : Bool) :
    covLoss g (covOutputs realFns step c centered l (numberPairs T x y)) =
      (∑ i, ∑ j, ∑ t ∈ Finset.range T, g t i j * innerNum step c l.xy T (fun t => x t i * y t j) t) +
        if centered then 0 else ∑ t ∈ Finset.range T, ∑ i, ∑ j, -(g t i j) *
          (innerNum step c l.x T (fun t => x t i) t * innerNum step c l.y T (fun t => y t j) t) := by
  have hlen : (covOutputs realFns step c centered l (numberPairs T x y)).length = T := by simp [covOutputs, numberPairs]
  unfold covLoss
  rw [hlen]
  have hget : ∀ t ∈ Finset.range T, ∀ i j, numIn ((covOutputs realFns step c centered l (numberPairs T x y)).getD t (fun _ _ => .nan) i j) =
      innerNum step c l.xy T (fun t => x t i * y t j) t -
        if centered then 0 else innerNum step c l.x T (fun t => x t i) t * innerNum step c l.y T (fun t => y t j) t := by
    intro t ht i j
    have ht' : t < T := Finset.mem_range.mp ht
    have hl' : (numberPairs T x y).length = T := by simp [numberPairs]
    have : (covOutputs realFns step c centered l (numberPairs T x y)).getD t (fun _ _ => .nan) =
        fun i j => if centered then look (innerOutputs realFns step c l.xy (numbers T fun t => x t i * y t j)) t
          else look (innerOutputs realFns step c l.xy (numbers T fun t => x t i * y t j)) t -
            look (innerOutputs realFns step c l.x (numbers T fun t => x t i)) t * look (innerOutputs realFns step c l.y (numbers T fun t => y t j)) t := by
      simp only [covOutputs, pairs_xy, pairs_x, pairs_y, hl']
      simp [ht']
    rw [this]
    simp only
    rw [inner_number H c ha hi hm l.xy T _ t ht', inner_number H c ha hi hm l.x T _ t ht', inner_number H c ha hi hm l.y T _ t ht']
    cases centered <;> simp [numIn, innerNum]
  have step1 : ∀ t ∈ Finset.range T, (∑ i, ∑ j, g t i j * numIn ((covOutputs realFns step c centered l (numberPairs T x y)).getD t (fun _ _ => .nan) i j)) =
      (∑ i, ∑ j, g t i j * innerNum step c l.xy T (fun t => x t i * y t j) t) +
        if centered then 0 else ∑ i, ∑ j, -(g t i j) * (innerNum step c l.x T (fun t => x t i) t * innerNum step c l.y T (fun t => y t j) t) := by
    intro t ht
    simp only [hget t ht]
    cases centered
    · simp only [Bool.false_eq_true, if_false, ← Finset.sum_add_distrib]
      exact Finset.sum_congr rfl fun i _ => Finset.sum_congr rfl fun j _ => by ring
    · simp
  rw [Finset.sum_congr rfl step1, Finset.sum_add_distrib]
  congr 1
  · rw [Finset.sum_comm]
    refine Finset.sum_congr rfl fun i _ => ?_
    rw [Finset.sum_comm]
  · cases centered <;> simp

theorem inner_differentiable (H : Differentiated keep step) (c : EWMACfg ℝ) (ha : c.adjust ≠ .linear) (hi : NumOrNan c.initial) (l dl : ℝ) (T : ℕ)
    (a d : ℕ → ℝ) (t : ℕ) (ht : t ∈ Finset.range T) :
    DifferentiableAt ℝ (fun ε => innerNum step c (l + ε * dl) T (fun t => a t + ε * d t) t) 0 := by
  obtain ⟨gl, gx, -, -, h⟩ := inner_gradient H c ha hi l T a (Pi.single t 1)
  have := h dl (fun t ε => a t + ε * d t) d (by simp) (fun t => by simpa using ((hasDerivAt_id (0 : ℝ)).mul_const (d t)).const_add (a t))
  refine this.differentiableAt.congr_of_eventuallyEq (Filter.Eventually.of_forall fun ε => ?_)
  simp only [Pi.single_apply, ite_mul, one_mul, zero_mul]
  rw [Finset.sum_ite_eq' (Finset.range T) t, if_pos ht]
  rfl

/-- The derivative of a straight line. -/
theorem line_deriv (a d : ℝ) : HasDerivAt (fun ε : ℝ => a + ε * d) d 0 := by
  simpa using ((hasDerivAt_id (0 : ℝ)).mul_const d).const_add a

open Finset in
theorem cov_gradient (H : Differentiated keep step) (c : EWMACfg ℝ) (ha : c.adjust ≠ .linear) (hi : NumOrNan c.initial) (hm : c.minPeriods ≤ 1)
    (centered : Bool) (l : CovParams ℝ) (T : ℕ) {m n : ℕ} (x : ℕ → Fin m → ℝ) (y : ℕ → Fin n → ℝ) (g : ℕ → Fin m → Fin n → ℝ) :
    ∃ gxy gx gy : ℝ, ∃ dX : ℕ → Fin m → ℝ, ∃ dY : ℕ → Fin n → ℝ,
      ewmcovGrad realFns keep step c centered l (numberPairs T x y) ((List.range T).map fun t i j => Fl.fin (g t i j)) =
        ⟨.fin gxy, .fin gx, .fin gy, (List.range T).map fun t i => Fl.fin (dX t i), (List.range T).map fun t j => Fl.fin (dY t j)⟩ ∧
      ∀ (dl : CovParams ℝ) (dx : ℕ → Fin m → ℝ) (dy : ℕ → Fin n → ℝ),
        HasDerivAt (fun ε => covLoss g (covOutputs realFns step c centered ⟨l.xy + ε * dl.xy, l.x + ε * dl.x, l.y + ε * dl.y⟩
            (numberPairs T (fun t i => x t i + ε * dx t i) (fun t j => y t j + ε * dy t j))))
          (gxy * dl.xy + gx * dl.x + gy * dl.y + (∑ t ∈ range T, ∑ i, dX t i * dx t i) + ∑ t ∈ range T, ∑ j, dY t j * dy t j) 0 := by
  have hl' : (numberPairs T x y).length = T := by simp [numberPairs]
  choose lxy axy A1 A2 A3 using fun i j => inner_gradient H c ha hi l.xy T (fun t => x t i * y t j) (fun t => g t i j)
  have hgs : ∀ i j, ((List.range T).map fun t i j => Fl.fin (g t i j)).map (fun g : Fin m → Fin n → Fl ℝ => g i j) = numbers T fun t => g t i j := by
    intro i j; simp [numbers]
  -- the derivative of the first term
  have hxy : ∀ (dl : CovParams ℝ) (dx : ℕ → Fin m → ℝ) (dy : ℕ → Fin n → ℝ), HasDerivAt (fun ε => ∑ i, ∑ j, ∑ t ∈ range T,
      g t i j * innerNum step c (l.xy + ε * dl.xy) T (fun t => (x t i + ε * dx t i) * (y t j + ε * dy t j)) t)
      ((∑ i, ∑ j, lxy i j) * dl.xy + (∑ t ∈ range T, ∑ i, (∑ j, axy i j t * y t j) * dx t i) + ∑ t ∈ range T, ∑ j, (∑ i, x t i * axy i j t) * dy t j) 0 := by
    intro dl dx dy
    have := HasDerivAt.fun_sum (u := univ) fun i _ => HasDerivAt.fun_sum (u := univ) fun j _ => A3 i j dl.xy
      (fun t ε => (x t i + ε * dx t i) * (y t j + ε * dy t j)) (fun t => dx t i * y t j + x t i * dy t j) (by simp)
      (fun t => by
        have h := HasDerivAt.fun_mul (line_deriv (x t i) (dx t i)) (line_deriv (y t j) (dy t j))
        simpa using h)
    refine this.congr_deriv ?_
    simp only [mul_add, sum_add_distrib, sum_mul, add_assoc]
    congr 1
    congr 1
    · rw [sum_comm (s := range T)]
      refine sum_congr rfl fun i _ => ?_
      rw [sum_comm]
      exact sum_congr rfl fun t _ => sum_congr rfl fun j _ => by ring
    · rw [sum_comm (s := range T)]
      rw [sum_comm]
      refine sum_congr rfl fun j _ => ?_
      rw [sum_comm]
      exact sum_congr rfl fun t _ => sum_congr rfl fun i _ => by ring
  cases centered with
  | true =>
    refine ⟨∑ i, ∑ j, lxy i j, 0, 0, fun t i => ∑ j, axy i j t * y t j, fun t j => ∑ i, x t i * axy i j t, ?_, ?_⟩
    · simp only [ewmcovGrad, pairs_xy, pairs_x, pairs_y, hgs, hl', if_true, A1, A2, sumFin_fin, CovGrad.mk.injEq, true_and]
      constructor
      · refine map_range_congr _ _ _ fun t ht => funext fun i => ?_
        rw [← sumFin_fin]
        refine congrArg sumFin (funext fun j => ?_)
        rw [look_numbers _ _ _ ht, show (numbers T fun t => y t j).getD t .nan = .fin (y t j) from look_numbers _ _ _ ht, Fl.fin_mul]
      · refine map_range_congr _ _ _ fun t ht => funext fun j => ?_
        rw [← sumFin_fin]
        refine congrArg sumFin (funext fun i => ?_)
        rw [look_numbers _ _ _ ht, show (numbers T fun t => x t i).getD t .nan = .fin (x t i) from look_numbers _ _ _ ht, Fl.fin_mul]
    · intro dl dx dy
      refine ((hxy dl dx dy).congr_deriv (by ring)).congr_of_eventuallyEq (Filter.Eventually.of_forall fun ε => ?_)
      simp only
      rw [covLoss_outputs H c ha hi hm _ T]
      simp
  | false =>
    choose lx ax B1 B2 B3 using fun i => inner_gradient H c ha hi l.x T (fun t => x t i)
      (fun t => ∑ j, -(g t i j) * innerNum step c l.y T (fun t => y t j) t)
    choose ly ay C1 C2 C3 using fun j => inner_gradient H c ha hi l.y T (fun t => y t j)
      (fun t => ∑ i, innerNum step c l.x T (fun t => x t i) t * -(g t i j))
    refine ⟨∑ i, ∑ j, lxy i j, ∑ i, lx i, ∑ j, ly j, fun t i => ax i t + ∑ j, axy i j t * y t j, fun t j => ay j t + ∑ i, x t i * axy i j t, ?_, ?_⟩
    · have k1 : ∀ i, ((List.range T).map fun t i j => Fl.fin (g t i j)).mapIdx (fun t (g : Fin m → Fin n → Fl ℝ) =>
          sumFin fun j => -(g i j) * look (innerOutputs realFns step c l.y (numbers T fun t => y t j)) t) =
          numbers T fun t => ∑ j, -(g t i j) * innerNum step c l.y T (fun t => y t j) t := by
        intro i
        apply List.ext_getElem
        · simp [numbers]
        · intro t h1 h2
          have ht : t < T := by simpa using h1
          simp only [List.getElem_mapIdx, List.getElem_map, List.getElem_range, numbers]
          rw [← sumFin_fin]
          refine congrArg sumFin (funext fun j => ?_)
          have := inner_number H c ha hi hm l.y T (fun t => y t j) t ht
          simp only [numbers] at this
          rw [this, Fl.neg_fin, Fl.fin_mul]
          rfl
      have k2 : ∀ j, ((List.range T).map fun t i j => Fl.fin (g t i j)).mapIdx (fun t (g : Fin m → Fin n → Fl ℝ) =>
          sumFin fun i => look (innerOutputs realFns step c l.x (numbers T fun t => x t i)) t * -(g i j)) =
          numbers T fun t => ∑ i, innerNum step c l.x T (fun t => x t i) t * -(g t i j) := by
        intro j
        apply List.ext_getElem
        · simp [numbers]
        · intro t h1 h2
          have ht : t < T := by simpa using h1
          simp only [List.getElem_mapIdx, List.getElem_map, List.getElem_range, numbers]
          rw [← sumFin_fin]
          refine congrArg sumFin (funext fun i => ?_)
          have := inner_number H c ha hi hm l.x T (fun t => x t i) t ht
          simp only [numbers] at this
          rw [this, Fl.neg_fin, Fl.fin_mul]
          rfl
      simp only [ewmcovGrad, pairs_xy, pairs_x, pairs_y, hgs, hl', Bool.false_eq_true, if_false, k1, k2, A1, A2, B1, B2, C1, C2, sumFin_fin,
        CovGrad.mk.injEq, true_and]
      constructor
      · refine map_range_congr _ _ _ fun t ht => funext fun i => ?_
        rw [look_numbers _ _ _ ht, ← Fl.fin_add, ← sumFin_fin]
        refine congrArg (Fl.fin (ax i t) + sumFin ·) (funext fun j => ?_)
        rw [look_numbers _ _ _ ht, show (numbers T fun t => y t j).getD t .nan = .fin (y t j) from look_numbers _ _ _ ht, Fl.fin_mul]
      · refine map_range_congr _ _ _ fun t ht => funext fun j => ?_
        rw [look_numbers _ _ _ ht, ← Fl.fin_add, ← sumFin_fin]
        refine congrArg (Fl.fin (ay j t) + sumFin ·) (funext fun i => ?_)
        rw [look_numbers _ _ _ ht, show (numbers T fun t => x t i).getD t .nan = .fin (x t i) from look_numbers _ _ _ ht, Fl.fin_mul]
    · intro dl dx dy
      have hprod := cov_product T g (fun t i ε => innerNum step c (l.x + ε * dl.x) T (fun t => x t i + ε * dx t i) t)
        (fun t j ε => innerNum step c (l.y + ε * dl.y) T (fun t => y t j + ε * dy t j) t)
        (fun t ht i => inner_differentiable H c ha hi l.x dl.x T _ _ t ht) (fun t ht j => inner_differentiable H c ha hi l.y dl.y T _ _ t ht)
        (fun i => lx i * dl.x + ∑ t ∈ range T, ax i t * dx t i) (fun j => ly j * dl.y + ∑ t ∈ range T, ay j t * dy t j)
        (fun i => by
          have := B3 i dl.x (fun t ε => x t i + ε * dx t i) (fun t => dx t i) (by simp) (fun t => line_deriv _ _)
          simpa [innerNum] using this)
        (fun j => by
          have := C3 j dl.y (fun t ε => y t j + ε * dy t j) (fun t => dy t j) (by simp) (fun t => line_deriv _ _)
          simpa [innerNum] using this)
      refine (((hxy dl dx dy).add hprod).congr_deriv ?_).congr_of_eventuallyEq (Filter.Eventually.of_forall fun ε => ?_)
      · simp only [add_mul, sum_add_distrib, sum_mul]
        rw [sum_comm (s := univ) (t := range T), sum_comm (s := univ) (t := range T)]
        ring
      · simp only [Pi.add_apply]
        rw [covLoss_outputs H c ha hi hm _ T]
        simp

/-! ## C199 -/

/-- **C199, complete data (Haiku).** For any number of components, `adjust` True or False, any `ignore_na`, `assume_centered`, initial value, and
`min_periods` 0 or 1: on complete data every gradient through the unrolled EWMCov is a number and they are the derivatives of the loss, along every
direction `(dl, dx, dy)` of the three parameters and of the data.  What is missing of C199: missing values
(`C199_missing_partner_nan_partial`, `C199_late_series_nan_partial`), larger `min_periods`, `adjust="linear"`. -/
theorem C199_haiku_complete_data_partial (c : EWMACfg ℝ) (ha : c.adjust ≠ .linear) (hi : NumOrNan c.initial) (hm : c.minPeriods ≤ 1)
    (centered : Bool) (l : CovParams ℝ) (T : ℕ) {m n : ℕ} (x : ℕ → Fin m → ℝ) (y : ℕ → Fin n → ℝ) (g : ℕ → Fin m → Fin n → ℝ) :
    ∃ gxy gx gy : ℝ, ∃ dX : ℕ → Fin m → ℝ, ∃ dY : ℕ → Fin n → ℝ,
      ewmcovGrad realFns 13 ewmaStep c centered l (numberPairs T x y) ((List.range T).map fun t i j => Fl.fin (g t i j)) =
        ⟨.fin gxy, .fin gx, .fin gy, (List.range T).map fun t i => Fl.fin (dX t i), (List.range T).map fun t j => Fl.fin (dY t j)⟩ ∧
      ∀ (dl : CovParams ℝ) (dx : ℕ → Fin m → ℝ) (dy : ℕ → Fin n → ℝ),
        HasDerivAt (fun ε => covLoss g (covOutputs realFns ewmaStep c centered ⟨l.xy + ε * dl.xy, l.x + ε * dl.x, l.y + ε * dl.y⟩
            (numberPairs T (fun t i => x t i + ε * dx t i) (fun t j => y t j + ε * dy t j))))
          (gxy * dl.xy + gx * dl.x + gy * dl.y + (∑ t ∈ Finset.range T, ∑ i, dX t i * dx t i) +
            ∑ t ∈ Finset.range T, ∑ j, dY t j * dy t j) 0 :=
  cov_gradient differentiated_haiku c ha hi hm centered l T x y g

/-- **C199, complete data (Flax).** -/
theorem C199_flax_complete_data_partial (c : EWMACfg ℝ) (ha : c.adjust ≠ .linear) (hi : NumOrNan c.initial) (hm : c.minPeriods ≤ 1)
    (centered : Bool) (l : CovParams ℝ) (T : ℕ) {m n : ℕ} (x : ℕ → Fin m → ℝ) (y : ℕ → Fin n → ℝ) (g : ℕ → Fin m → Fin n → ℝ) :
    ∃ gxy gx gy : ℝ, ∃ dX : ℕ → Fin m → ℝ, ∃ dY : ℕ → Fin n → ℝ,
      ewmcovGrad realFns 1 flaxEwmaStep c centered l (numberPairs T x y) ((List.range T).map fun t i j => Fl.fin (g t i j)) =
        ⟨.fin gxy, .fin gx, .fin gy, (List.range T).map fun t i => Fl.fin (dX t i), (List.range T).map fun t j => Fl.fin (dY t j)⟩ ∧
      ∀ (dl : CovParams ℝ) (dx : ℕ → Fin m → ℝ) (dy : ℕ → Fin n → ℝ),
        HasDerivAt (fun ε => covLoss g (covOutputs realFns flaxEwmaStep c centered ⟨l.xy + ε * dl.xy, l.x + ε * dl.x, l.y + ε * dl.y⟩
            (numberPairs T (fun t i => x t i + ε * dx t i) (fun t j => y t j + ε * dy t j))))
          (gxy * dl.xy + gx * dl.x + gy * dl.y + (∑ t ∈ Finset.range T, ∑ i, dX t i * dx t i) +
            ∑ t ∈ Finset.range T, ∑ j, dY t j * dy t j) 0 :=
  cov_gradient differentiated_flax c ha hi hm centered l T x y g

section General
variable {K : Type} [Field K] [LinearOrder K] [IsStrictOrderedRing K]

theorem covOutputs_run {m n : ℕ} (F : Fns K) (st : EWMACfg K → EWMAState K → Fl K → EWMAOut K × EWMAState K) (c : EWMACfg K) (centered : Bool) (l : K)
    (ps : List ((Fin m → Fl K) × (Fin n → Fl K))) :
    (covMachine st ⟨c.initial, .fin 1, 0⟩ (Fin m) (Fin n) (withLogcom F c l) centered).run ps = covOutputs F st c centered ⟨l, l, l⟩ ps := by
  apply List.ext_getElem?
  intro t
  by_cases ht : t < ps.length
  · obtain ⟨C, h1, h2⟩ := cov_at (ι := Fin m) (κ := Fin n) st ⟨c.initial, .fin 1, 0⟩ (withLogcom F c l) centered ps t ht
    rw [h1]
    simp only [covOutputs, List.getElem?_map, List.getElem?_range ht, Option.map_some]
    congr 1
    funext i j
    obtain ⟨a, b, d, e1, e2, e3, e4⟩ := h2 i j
    rw [e4]
    simp only [look, innerOutputs, List.getD_eq_getElem?_getD, List.getElem?_map, e1, e2, e3, Option.map_some, Option.getD_some]
  · rw [List.getElem?_eq_none (by simp; omega), List.getElem?_eq_none (by simp [covOutputs]; omega)]

/-- **C199, what is differentiated**: with equal parameters (as they are initialised) `covOutputs` are the outputs of the Haiku and Flax EWMCov modules. -/
theorem C199_outputs {m n : ℕ} (F : Fns K) (c : EWMACfg K) (centered : Bool) (l : K) (ps : List ((Fin m → Fl K) × (Fin n → Fl K))) :
    (ewmcov (Fin m) (Fin n) { c with com := F.exp l } centered).run ps = covOutputs F ewmaStep c centered ⟨l, l, l⟩ ps ∧
    (flaxEwmcov (Fin m) (Fin n) { c with com := F.exp l } centered).run ps = covOutputs F flaxEwmaStep c centered ⟨l, l, l⟩ ps :=
  ⟨covOutputs_run F ewmaStep c centered l ps, covOutputs_run F flaxEwmaStep c centered l ps⟩

theorem sum_with_nan (l : List (Fl K)) (h : Fl.nan ∈ l) : l.sum = .nan := by
  induction l with
  | nil => simp at h
  | cons a l ih =>
    rw [List.sum_cons]
    rcases List.mem_cons.mp h with e | e
    · rw [← e, Fl.nan_add]
    · rw [ih e, Fl.add_nan]

theorem sumFin_nan {n : ℕ} (f : Fin n → Fl K) (i : Fin n) (h : f i = .nan) : sumFin f = .nan :=
  sum_with_nan _ (List.mem_ofFn.mpr ⟨i, h⟩)

/-- **C199, a missing partner.** When one component of `x` is missing at a step, the gradient with respect to every component of `y` at this step is
NaN (and symmetrically), for every loss, every parameter, every mode and whatever else is in the stream: the zero cotangent of the missing product is
multiplied by the missing value.  So C199 is false of the code. -/
theorem C199_missing_partner_nan_partial {m n : ℕ} (F : Fns K) (keep : Nat) (st : EWMACfg K → EWMAState K → Fl K → EWMAOut K × EWMAState K) (c : EWMACfg K)
    (centered : Bool) (l : CovParams K) (ps : List ((Fin m → Fl K) × (Fin n → Fl K))) (gs : List (Fin m → Fin n → Fl K)) (t : ℕ)
    (p : (Fin m → Fl K) × (Fin n → Fl K)) (ht : ps[t]? = some p) :
    (∀ i, p.1 i = .nan → ∃ v, (ewmcovGrad F keep st c centered l ps gs).ys[t]? = some v ∧ ∀ j, v j = .nan) ∧
    (∀ j, p.2 j = .nan → ∃ v, (ewmcovGrad F keep st c centered l ps gs).xs[t]? = some v ∧ ∀ i, v i = .nan) := by
  obtain ⟨hlt, hp⟩ := List.getElem?_eq_some_iff.mp ht
  constructor
  · intro i hi
    have h1 : ∀ j, (sumFin fun i => (ps.map fun p => p.1 i).getD t .nan *
        look (ewmaGrad F keep st (withLogcom F c l.xy) l.xy ⟨c.initial, Fl.fin 1, 0⟩ (ps.map fun p => p.1 i * p.2 j) (gs.map fun g => g i j)).xs t) = .nan := by
      intro j
      apply sumFin_nan _ i
      rw [List.getD_eq_getElem?_getD, List.getElem?_map, ht, Option.map_some, Option.getD_some, hi, Fl.nan_mul]
    cases centered
    · refine ⟨_, by simp only [ewmcovGrad, Bool.false_eq_true, if_false, List.getElem?_map, List.getElem?_range hlt, Option.map_some]; rfl, fun j => ?_⟩
      simp only [h1 j, Fl.add_nan]
    · exact ⟨_, by simp only [ewmcovGrad, if_true, List.getElem?_map, List.getElem?_range hlt, Option.map_some], h1⟩
  · intro j hj
    have h1 : ∀ i, (sumFin fun j =>
        look (ewmaGrad F keep st (withLogcom F c l.xy) l.xy ⟨c.initial, Fl.fin 1, 0⟩ (ps.map fun p => p.1 i * p.2 j) (gs.map fun g => g i j)).xs t *
          (ps.map fun p => p.2 j).getD t .nan) = .nan := by
      intro i
      apply sumFin_nan _ j
      rw [List.getD_eq_getElem?_getD, List.getElem?_map, ht, Option.map_some, Option.getD_some, hj, Fl.mul_nan]
    cases centered
    · refine ⟨_, by simp only [ewmcovGrad, Bool.false_eq_true, if_false, List.getElem?_map, List.getElem?_range hlt, Option.map_some]; rfl, fun i => ?_⟩
      simp only [h1 i, Fl.add_nan]
    · exact ⟨_, by simp only [ewmcovGrad, if_true, List.getElem?_map, List.getElem?_range hlt, Option.map_some], h1⟩

end General

/-- Functions for examples: `exp` is the constant 1. -/
def oneFns : Fns ℚ := ⟨fun _ => 1, id⟩

/-- **C199, a series that starts late.** There are two series, the second starting two steps later, and a loss that ignores these steps (their
weight is 0), for which the gradient of the parameter of `mean_x` is NaN, for Haiku and Flax, although the outputs in the loss are numbers. -/
theorem C199_late_series_nan_partial :
    ∃ (c : EWMACfg ℚ) (l : CovParams ℚ) (ps : List ((Fin 1 → Fl ℚ) × (Fin 1 → Fl ℚ))) (gs : List (Fin 1 → Fin 1 → Fl ℚ)),
      c.adjust ≠ .linear ∧ (gs.map fun g => g 0 0) = [.fin 0, .fin 0, .fin 1] ∧
      (∃ q, ((covOutputs oneFns ewmaStep c false l ps).map fun o => o 0 0)[2]? = some (.fin q)) ∧
      (ewmcovGrad oneFns 13 ewmaStep c false l ps gs).x = .nan ∧ (ewmcovGrad oneFns 1 flaxEwmaStep c false l ps gs).x = .nan := by
  refine ⟨⟨1, .yes, false, 0, .nan, 1000⟩, ⟨0, 0, 0⟩, [(fun _ => .fin 1, fun _ => .nan), (fun _ => .fin 2, fun _ => .nan), (fun _ => .fin 2, fun _ => .fin 3)],
    [fun _ _ => .fin 0, fun _ _ => .fin 0, fun _ _ => .fin 1], by simp, by simp, ⟨6 - 3 * 13 / 7, by decide +kernel⟩, by decide +kernel, by decide +kernel⟩

example : ∃ v, (ewmcovGrad (m := 1) (n := 2) oneFns 13 ewmaStep ⟨1, .yes, false, 0, .nan, 1000⟩ false ⟨0, 0, 0⟩
    [(fun _ => .fin 1, fun _ => .fin 2), (fun _ => .nan, fun _ => .fin 3)] [fun _ _ => .fin 1, fun _ _ => .fin 1]).ys[1]? = some v ∧ ∀ j, v j = .nan :=
  (C199_missing_partner_nan_partial oneFns 13 ewmaStep _ false _ _ _ 1 _ rfl).1 0 rfl

/-- On complete data: two steps, one component each. -/
example : (ewmcovGrad (m := 1) (n := 1) oneFns 13 ewmaStep ⟨1, .yes, false, 0, .nan, 1000⟩ false ⟨0, 0, 0⟩
    [(fun _ => .fin 1, fun _ => .fin 2), (fun _ => .fin 3, fun _ => .fin 5)] [fun _ _ => .fin 0, fun _ _ => .fin 1]).xs.map (fun v => v 0) =
      [.fin (-2 / 3), .fin (2 / 3)] := by decide +kernel

end Verif.Props
