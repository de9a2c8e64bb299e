import Verif.Props.AutodiffLinear
import Verif.Props.Masks

/-! # C188–C189: the gradients of PctChange, MaskStd and MaskNormalize -/

set_option linter.unusedSectionVars false
set_option linter.unusedSimpArgs false
set_option linter.unusedVariables false

namespace Verif.Props
open Verif Verif.Model Verif.Model.Autodiff Filter Topology

/-! ## PctChange -/

/-- The trace computes the value of the module. -/
theorem pct_trace {K : Type} [Field K] [LinearOrder K] (F : Fns K) (fz : Bool) (x prev : Fl K) :
    look (values F (pctTrace fz x prev) [x, prev]) 6 = pctValue fz x prev := by
  cases fz <;> cases x <;> cases prev <;> simp [pctTrace, values, Prim.eval, look, pctValue]

/-- **C188, numbers.** Where the current and the previous values are numbers and the previous one is not 0, the backward pass through
`PctChange` gives the derivatives of `x / prev - 1`.  What is missing of C188: missing values (`C188_missing_value_nan_partial`). -/
theorem C188_pct_change_gradient_partial (fz : Bool) (x prev g : ℝ) (h : prev ≠ 0) :
    ∃ px pp : ℝ, pctPull realFns fz (.fin x) (.fin prev) (.fin g) = (.fin px, .fin pp) ∧
      ∀ dx dp : ℝ, HasDerivAt (fun ε => g * numIn (pctValue fz (.fin (x + ε * dx)) (.fin (prev + ε * dp)))) (px * dx + pp * dp) 0 := by
  have hreg : RegularTrace realFns (pctTrace fz (.fin x) (.fin prev)) [Fl.fin x, Fl.fin prev] := by
    cases fz <;> simp [pctTrace, RegularTrace, RegularOp, Prim.eval, look, h]
  obtain ⟨gs, g1, g2, g3⟩ := backward_adjoint realFns realFns_root _ _ hreg [0, 0, 0, 0, 0, 0, g] (by simp [pctTrace])
  obtain ⟨px, pp, rfl⟩ : ∃ a b, gs = [a, b] := by
    match gs, g2 with
    | [a, b], _ => exact ⟨a, b, rfl⟩
  refine ⟨px, pp, ?_, ?_⟩
  · simp only [pctPull]
    simp only [List.map_cons, List.map_nil] at g1
    rw [g1]
    simp [look]
  · intro dx dp
    have hX : ∀ a d : ℝ, Tracks (fun ε => Fl.fin (a + ε * d)) d := by
      intro a d
      refine Or.inl ⟨fun ε => a + ε * d, by simp, ?_⟩
      simpa using ((hasDerivAt_id (0 : ℝ)).mul_const d).const_add a
    have htr := trace_tracks (pctTrace fz (.fin x) (.fin prev)) (fun ε => [Fl.fin (x + ε * dx), Fl.fin (prev + ε * dp)]) [dx, dp] 2 (by
        intro i hi
        match i, hi with
        | 0, _ => exact hX x dx
        | 1, _ => exact hX prev dp) (by simp) rfl (by
          intro c hc
          cases fz <;> simp [pctTrace] at hc <;> rcases hc with rfl | rfl <;> simp) (by simpa using hreg) 6 (by simp [pctTrace])
    have hv : ∀ ε : ℝ, look (values realFns (pctTrace fz (.fin x) (.fin prev)) [Fl.fin (x + ε * dx), Fl.fin (prev + ε * dp)]) 6 =
        pctValue fz (.fin (x + ε * dx)) (.fin (prev + ε * dp)) := fun ε => pct_trace realFns fz (.fin (x + ε * dx)) (.fin (prev + ε * dp))
    have hd := htr.deriv.const_mul g
    simp only [hv] at hd
    refine hd.congr_deriv ?_
    have key := g3 [dx, dp] rfl
    simp only [dotL, List.zipWith_cons_cons, List.zipWith_nil_left, List.sum_cons, List.sum_nil, add_zero] at key
    rw [key]
    simp only [pctTrace, traceTangents, List.cons_append, List.nil_append, List.zipWith_cons_cons, List.zipWith_nil_left, List.sum_cons,
      List.sum_nil, List.getD_cons_succ, List.getD_cons_zero, zero_mul, zero_add, add_zero]

/-- **C188, missing values.** Where the current value is missing and the previous one is a number, `PctChange` (with the default
`fillna_zero=True`) returns 0, which does not depend on the previous value, and the backward pass gives NaN for the previous value, whatever the loss,
so NaN for the last value observed before the gap.  So C188 is false of the code. -/
theorem C188_missing_value_nan_partial {K : Type} [Field K] [LinearOrder K] [IsStrictOrderedRing K] (F : Fns K) (prev : K) (hp : prev ≠ 0) (g : Fl K) :
    pctValue true .nan (.fin prev) = .fin 0 ∧ (pctPull F true .nan (.fin prev) g).2 = .nan := by
  have : prev * prev ≠ 0 := mul_ne_zero hp hp
  constructor
  · simp [pctValue]
  · simp [pctPull, pctTrace, backward, Prim.pull, Prim.eval, look, accumulate, this]

example : pctPull (K := ℚ) ⟨fun _ => 1, id⟩ true (.fin 3) (.fin 2) (.fin 1) = (.fin (1 / 2), .fin (-3 / 4)) ∧
    pctPull (K := ℚ) ⟨fun _ => 1, id⟩ true .nan (.fin 2) (.fin 1) = (.fin 0, .nan) := by decide +kernel

/-! ## MaskStd -/

section Std
variable {K : Type} [Field K] [LinearOrder K] [IsStrictOrderedRing K]

/-- The value an entry counts for: 0 when it is masked or missing. -/
def entryVal (e : Bool × Fl K) : K := if e.1 then (match e.2 with | .fin k => k | _ => 0) else 0

theorem sum_fin_map {α : Type} (f : α → K) (l : List α) : (l.map fun e => Fl.fin (f e)).sum = Fl.fin (l.map f).sum := by
  induction l with
  | nil => rfl
  | cons e l ih => simp [ih]

/-- The mean, the centred entries, the variance. -/
def realMean (l : Line K) : K := (l.map entryVal).sum / maskCount l
def centred (l : Line K) (e : Bool × Fl K) : K := if e.1 then entryVal e - realMean l else 0
def realVar (l : Line K) : K := (l.map fun e => centred l e * centred l e).sum / maskCount l

theorem mask_mean_num (big : K) (l : Line K) (h : Clean l) (hn : maskCount l ≠ 0) : maskMean big l = .fin (realMean l) := by
  have hc : (maskCount l : K) ≠ 0 := by exact_mod_cast hn
  have : maskFill big l = l.map fun e => Fl.fin (entryVal e) := maskFill_eq big l h
  simp only [maskMean, this, sum_fin_map, realMean, Fl.fin_div_of_ne _ hc]

theorem stdMasked_num (big : K) (l : Line K) (h : Clean l) (hn : maskCount l ≠ 0) :
    stdMasked big l = l.map fun e => Fl.fin (centred l e) := by
  have : maskFill big l = l.map fun e => Fl.fin (entryVal e) := maskFill_eq big l h
  simp only [stdMasked, stdDiff, this, mask_mean_num big l h hn, List.map_map, List.zipWith_map_right, List.zipWith_self]
  apply List.map_congr_left
  intro e _
  cases hb : e.1 <;> simp [centred, hb]

theorem stdVar_num (big : K) (l : Line K) (h : Clean l) (hn : maskCount l ≠ 0) : stdVar big l = .fin (realVar l) := by
  have hc : (maskCount l : K) ≠ 0 := by exact_mod_cast hn
  simp only [stdVar, stdMasked_num big l h hn, List.map_map]
  have : ((fun d : Fl K => d * d) ∘ fun e => Fl.fin (centred l e)) = fun e => Fl.fin (centred l e * centred l e) := by
    funext e; simp
  rw [this, sum_fin_map, Fl.fin_div_of_ne _ hc]
  rfl

theorem realVar_nonneg (l : Line K) : 0 ≤ realVar l := by
  apply div_nonneg
  · apply List.sum_nonneg
    intro x hx
    obtain ⟨e, _, rfl⟩ := List.mem_map.mp hx
    exact mul_self_nonneg _
  · exact Nat.cast_nonneg _

/-- The variance of the model of the gradient is the one of the module. -/
theorem stdVar_eq (big : K) (l : Line K) : stdVar big l = maskVarWith big false (maskMean big l) l := by
  have key : ∀ (m : Fl K) (l : Line K), List.zipWith (fun e d => if e.1 then d else Fl.fin 0) l ((maskFill big l).map fun v => v - m) =
      (List.zip (l.map (·.1)) (maskFill big l)).map fun e => if e.1 then e.2 - m else Fl.fin 0 := by
    intro m l
    induction l with
    | nil => rfl
    | cons e l ih => simpa [maskFill] using ih
  simp only [stdVar, stdMasked, stdDiff, maskVarWith, key]
  rfl

theorem maskStd_num (F : Fns K) (eps big : K) (l : Line K) (h : Clean l) (hn : maskCount l ≠ 0) (hv : 0 < realVar l) (he : 0 < eps) :
    maskStd F.root eps big false l = .fin (F.root (eps + realVar l)) := by
  rw [maskStd, ← stdVar_eq, stdVar_num big l h hn]
  have : ¬ eps + realVar l < 0 := not_lt.mpr (by positivity)
  simp [stdOfVar, Fl.lt_fin, hv, Fl.sqrt, this]

/-- The cotangents of the entries, as numbers. -/
def stdCoef (F : Fns K) (eps : K) (l : Line K) (ct : K) : K :=
  (if 0 < realVar l then ct else 0) * (1 / 2 / F.root (eps + realVar l)) / maskCount l
def realStdPull (F : Fns K) (eps : K) (l : Line K) (ct : K) (e : Bool × Fl K) : K :=
  let c := stdCoef F eps l ct
  if e.1 then (match e.2 with | .fin _ => c * (2 * centred l e) + -(l.map fun e => if e.1 then c * (2 * centred l e) else 0).sum / maskCount l | _ => 0)
  else 0

theorem maskStdPull_num (F : Fns K) (hroot : ∀ a : K, 0 < a → F.root a ≠ 0) (eps big : K) (he : 0 < eps) (l : Line K) (h : Clean l)
    (hn : maskCount l ≠ 0) (ct : K) : maskStdPull F eps big l (.fin ct) = l.map fun e => Fl.fin (realStdPull F eps l ct e) := by
  have hc : (maskCount l : K) ≠ 0 := by exact_mod_cast hn
  have hv := realVar_nonneg l
  have hp : 0 < eps + realVar l := by linarith
  have hr := hroot _ hp
  have e1 : (if Fl.lt (Fl.fin 0) (Fl.fin (realVar l)) then Fl.fin ct else Fl.fin 0) = Fl.fin (if 0 < realVar l then ct else 0) := by
    by_cases h0 : 0 < realVar l <;> simp [Fl.lt_fin, h0]
  simp only [maskStdPull, stdVar_num big l h hn, stdMasked_num big l h hn, e1, Fl.fin_add, Fl.sqrt, not_lt.mpr hp.le, if_false,
    Fl.fin_div_of_ne _ hr, Fl.fin_mul, Fl.fin_div_of_ne _ hc, List.zipWith_map_right, List.zipWith_self]
  have hcdef : stdCoef F eps l ct = (if 0 < realVar l then ct else 0) * (1 / 2 / F.root (eps + realVar l)) / maskCount l := rfl
  rw [← hcdef]
  generalize hcg : stdCoef F eps l ct = c
  have e2 : (l.map fun e => if e.1 = true then Fl.fin (c * (2 * centred l e)) else Fl.fin 0) =
      l.map fun e => Fl.fin (if e.1 = true then c * (2 * centred l e) else 0) := by
    apply List.map_congr_left
    intro e _
    split <;> rfl
  rw [e2, sum_fin_map]
  apply List.map_congr_left
  rintro ⟨b, x⟩ _
  cases b
  · simp [realStdPull]
  · cases x <;> simp [realStdPull, hcg, Fl.fin_div_of_ne _ hc, keepNumber]

/-- **C189, MaskStd.** The gradient of `MaskStd` is made of numbers on every line without infinities: with missing values, masked
values, no value selected at all, a variance of 0. -/
theorem C189_mask_std_gradient_numbers (F : Fns K) (hroot : ∀ a : K, 0 < a → F.root a ≠ 0) (eps big : K) (he : 0 < eps) (l : Line K) (h : Clean l)
    (ct : K) : ∃ gs : List K, gs.length = l.length ∧ maskStdPull F eps big l (.fin ct) = gs.map Fl.fin := by
  by_cases hn : maskCount l = 0
  · refine ⟨List.replicate l.length 0, by simp, ?_⟩
    have hall : ∀ e ∈ l, e.1 = false := by
      intro e hm
      have : ∀ x ∈ l.map (fun e : Bool × Fl K => if e.1 then 1 else 0), x = 0 := List.sum_eq_zero_iff.mp hn
      have := this _ (List.mem_map_of_mem hm)
      simpa using this
    have key : ∀ (l : Line K) (cs : List (Fl K)), (∀ e ∈ l, e.1 = false) → cs.length = l.length →
        List.zipWith (fun e c => if e.1 then keepNumber e.2 c else Fl.fin 0) l cs =
          (List.replicate l.length (0 : K)).map Fl.fin := by
      intro l
      induction l with
      | nil => intros; rfl
      | cons e l ih =>
        intro cs h1 h2
        cases cs with
        | nil => simp at h2
        | cons c cs =>
          have := ih cs (fun e he => h1 e (by simp [he])) (by simpa using h2)
          simp only [List.zipWith_cons_cons, this, h1 e (by simp), List.length_cons, List.replicate_succ, List.map_cons]
          simp
    exact key l _ hall (by simp [stdMasked, stdDiff, maskFill])
  · exact ⟨l.map (realStdPull F eps l ct), by simp, by rw [maskStdPull_num F hroot eps big he l h hn ct, List.map_map]; rfl⟩

end Std

/-- The line with its entries moved by `ε d`. -/
noncomputable def movedLine (ε : ℝ) (l : Line ℝ) (ds : List ℝ) : Line ℝ := List.zipWith (fun e d => (e.1, moved ε e.2 d)) l ds

/-- What a move of `d` does to the value an entry counts for. -/
def entryMove (z : (Bool × Fl ℝ) × ℝ) : ℝ := if z.1.1 then (match z.1.2 with | .fin _ => z.2 | _ => 0) else 0

theorem movedLine_eq (ε : ℝ) (l : Line ℝ) (ds : List ℝ) : movedLine ε l ds = (l.zip ds).map fun z => (z.1.1, moved ε z.1.2 z.2) := by
  simp [movedLine, List.zip, List.map_zipWith]

theorem entryVal_moved (ε : ℝ) (z : (Bool × Fl ℝ) × ℝ) : entryVal (z.1.1, moved ε z.1.2 z.2) = entryVal z.1 + ε * entryMove z := by
  obtain ⟨⟨b, x⟩, d⟩ := z
  cases b <;> cases x <;> simp [entryVal, entryMove, moved]

theorem deriv_sum {α : Type} (Z : List α) (f : α → ℝ → ℝ) (f' : α → ℝ) (h : ∀ z ∈ Z, HasDerivAt (f z) (f' z) 0) :
    HasDerivAt (fun ε => (Z.map fun z => f z ε).sum) ((Z.map f').sum) 0 := by
  induction Z with
  | nil => simpa using hasDerivAt_const (0 : ℝ) (0 : ℝ)
  | cons z Z ih =>
    simp only [List.map_cons, List.sum_cons]
    exact (h z (by simp)).fun_add (ih fun y hy => h y (by simp [hy]))

theorem sum_mul_right' {α : Type} (Z : List α) (f : α → ℝ) (c : ℝ) : (Z.map fun z => f z * c).sum = (Z.map f).sum * c := by
  induction Z with
  | nil => simp
  | cons z Z ih => simp [ih]; ring

/-- **C189, MaskStd, derivative.** Where the variance is positive, the gradient of `MaskStd` is the derivative: for every line without
infinities, with masked and missing values anywhere, along every direction. -/
theorem C189_mask_std_gradient (eps big : ℝ) (he : 0 < eps) (l : Line ℝ) (h : Clean l) (hn : maskCount l ≠ 0)
    (hv : stdVar big l ≠ .fin 0) (ct : ℝ) :
    ∃ gs : List ℝ, gs.length = l.length ∧ maskStdPull realFns eps big l (.fin ct) = gs.map Fl.fin ∧
      ∀ ds : List ℝ, ds.length = l.length →
        HasDerivAt (fun ε => ct * numIn (maskStd Real.sqrt eps big false (movedLine ε l ds))) (dotL gs ds) 0 := by
  refine ⟨l.map (realStdPull realFns eps l ct), by simp, by rw [maskStdPull_num realFns realFns_root eps big he l h hn ct, List.map_map]; rfl, ?_⟩
  intro ds hd
  have hvar : 0 < realVar l := by
    rw [stdVar_num big l h hn] at hv
    exact lt_of_le_of_ne (realVar_nonneg l) fun e => hv (by rw [← e])
  have hn' : (maskCount l : ℝ) ≠ 0 := by exact_mod_cast hn
  set Z := l.zip ds with hZ
  have hl : l = Z.map (·.1) := by rw [hZ, List.map_fst_zip (by omega)]
  have hm0 : movedLine 0 l ds = l := by
    rw [movedLine_eq, ← hZ]
    conv_rhs => rw [hl]
    simp [moved_zero]
  have hclean : ∀ ε, Clean (movedLine ε l ds) := by
    intro ε e hm hb
    rw [movedLine_eq] at hm
    obtain ⟨⟨⟨b, x⟩, d⟩, hz, rfl⟩ := List.mem_map.mp hm
    have hx := h (b, x) (by rw [hl]; exact List.mem_map_of_mem (f := (·.1)) hz) hb
    cases x <;> simp [moved] at hx ⊢
  have hcount : ∀ ε, maskCount (movedLine ε l ds) = maskCount l := by
    intro ε
    rw [movedLine_eq]
    conv_rhs => rw [hl]
    simp [maskCount, Function.comp_def, hZ]
  let μ : ℝ → ℝ := fun ε => (Z.map fun z => entryVal z.1 + ε * entryMove z).sum / maskCount l
  have hmean : ∀ ε, realMean (movedLine ε l ds) = μ ε := by
    intro ε
    simp only [realMean, hcount, μ]
    rw [movedLine_eq, List.map_map]
    congr 3
    funext z
    exact entryVal_moved ε z
  let ν : ℝ → ℝ := fun ε => (Z.map fun z => if z.1.1 then (entryVal z.1 + ε * entryMove z - μ ε) * (entryVal z.1 + ε * entryMove z - μ ε) else 0).sum /
    maskCount l
  have hvarε : ∀ ε, realVar (movedLine ε l ds) = ν ε := by
    intro ε
    simp only [realVar, hcount, ν, centred, hmean]
    rw [movedLine_eq, List.map_map]
    congr 3
    funext z
    simp only [Function.comp, entryVal_moved]
    split <;> simp
  let D : ℝ := (Z.map entryMove).sum / maskCount l
  have hline : ∀ a d : ℝ, HasDerivAt (fun ε : ℝ => a + ε * d) d 0 := by
    intro a d
    simpa using ((hasDerivAt_id (0 : ℝ)).mul_const d).const_add a
  have dμ : HasDerivAt μ D 0 := (deriv_sum Z _ _ fun z _ => hline (entryVal z.1) (entryMove z)).div_const _
  have hμ0 : μ 0 = realMean l := by
    have := hmean 0
    rw [← this, hm0]
  have dν : HasDerivAt ν ((Z.map fun z => centred l z.1 * 2 * (entryMove z - D)).sum / maskCount l) 0 := by
    refine (deriv_sum Z _ _ fun z _ => ?_).div_const _
    by_cases hb : z.1.1
    · have := ((hline (entryVal z.1) (entryMove z)).fun_sub dμ).fun_mul ((hline (entryVal z.1) (entryMove z)).fun_sub dμ)
      simp only [hb, if_true, centred]
      refine this.congr_deriv ?_
      rw [hμ0]
      ring
    · simp only [hb, if_false, centred, Bool.false_eq_true]
      simpa using hasDerivAt_const (0 : ℝ) (0 : ℝ)
  have hν0 : ν 0 = realVar l := by
    rw [← hvarε 0, hm0]
  have hpos : ∀ᶠ ε in 𝓝 0, 0 < ν ε := dν.continuousAt.eventually (lt_mem_nhds (by rw [hν0]; exact hvar))
  have dstd := ((dν.const_add eps).sqrt (by rw [hν0]; positivity)).const_mul ct
  refine (dstd.congr_of_eventuallyEq ?_).congr_deriv ?_
  · filter_upwards [hpos] with ε hε
    have := maskStd_num realFns eps big (movedLine ε l ds) (hclean ε) (by rw [hcount]; exact hn) (by rw [hvarε]; exact hε) he
    have e0 : realFns.root = Real.sqrt := rfl
    rw [e0] at this
    rw [this, hvarε]
    rfl
  · rw [hν0]
    have hs : Real.sqrt (eps + realVar l) ≠ 0 := (Real.sqrt_pos.mpr (by positivity)).ne'
    have hc : stdCoef realFns eps l ct = ct * (1 / 2 / Real.sqrt (eps + realVar l)) / maskCount l := by
      simp [stdCoef, hvar, realFns]
    generalize hcg : stdCoef realFns eps l ct = c at hc
    have hdot : dotL (l.map (realStdPull realFns eps l ct)) ds =
        (Z.map fun z => (c * (2 * centred l z.1) + -(l.map fun e => if e.1 then c * (2 * centred l e) else 0).sum / maskCount l) * entryMove z).sum := by
      simp only [dotL, hZ, List.zip, List.map_zipWith, List.zipWith_map_left]
      congr 2
      funext e d
      obtain ⟨b, x⟩ := e
      cases b <;> cases x <;> simp [realStdPull, entryMove, hcg]
    rw [hdot]
    have hS : (l.map fun e => if e.1 then c * (2 * centred l e) else 0).sum = (Z.map fun z => 2 * centred l z.1).sum * c := by
      rw [← sum_mul_right']
      conv_lhs => rw [hl]
      rw [List.map_map]
      congr 2
      funext z
      simp only [Function.comp]
      by_cases hb : z.1.1
      · simp only [hb, if_true, hl]; ring
      · simp [hb, centred]
    rw [hS]
    have e1 : (Z.map fun z => centred l z.1 * 2 * (entryMove z - D)).sum =
        (Z.map fun z => 2 * centred l z.1 * entryMove z).sum - (Z.map fun z => 2 * centred l z.1).sum * D := by
      generalize D = D'
      clear_value Z
      clear * -
      induction Z with
      | nil => simp
      | cons z Z ih => simp only [List.map_cons, List.sum_cons, ih]; ring
    have e2 : ∀ q : ℝ, (Z.map fun z => (c * (2 * centred l z.1) + q) * entryMove z).sum =
        c * (Z.map fun z => 2 * centred l z.1 * entryMove z).sum + q * (Z.map entryMove).sum := by
      intro q
      clear_value Z
      clear * -
      induction Z with
      | nil => simp
      | cons z Z ih => simp only [List.map_cons, List.sum_cons, ih]; ring
    rw [e1, e2]
    simp only [D, hc]
    field_simp
    ring

/-! ## MaskNormalize -/

section Normalize
variable {K : Type} [Field K] [LinearOrder K] [IsStrictOrderedRing K]

/-- **C189, MaskNormalize, constant lines.** When the standard deviation is 0 (the selected values are all equal, or none is selected), `MaskNormalize`
returns zeros, and its gradient is NaN for every entry, whatever the loss: `x / 0` is discarded but its zero cotangent is divided by 0.
So the claim "the gradient of MaskNormalize is made of numbers" is false of the code. -/
theorem C189_mask_normalize_constant_nan_partial (F : Fns K) (eps big : K) (l : Line K) (h0 : maskStd F.root eps big false l = .fin 0)
    (cts : List (Fl K)) (hl : cts.length = l.length) :
    maskNormalize F.root eps big false l = List.replicate l.length (.fin 0) ∧
    maskNormalizePull F eps big l cts = List.replicate l.length .nan := by
  have hq : ∀ x : Fl K, ∀ a, x / Fl.fin 0 ≠ .fin a := by
    intro x a
    cases x with
    | fin k =>
      rw [Fl.fin_div, if_pos rfl]
      simp only [Fl.infSign]
      split
      · simp
      · split <;> simp
    | _ => simp [HDiv.hDiv, Div.div, Fl.div]
  constructor
  · simp only [maskNormalize, h0, fillNanInf]
    apply List.ext_getElem
    · simp
    · intro i h1 h2
      have := hq (l[i]'(by simpa using h1)).2
      simp only [List.getElem_map, List.getElem_replicate]
      cases hx : (l[i]'(by simpa using h1)).2 / Fl.fin 0 with
      | fin a => exact absurd hx (this a)
      | _ => simp [Fl.nanToNum]
  · apply List.ext_getElem
    · simp [maskNormalizePull, maskStdPull, stdMasked, stdDiff, maskFill, hl]
    · intro i h1 h2
      simp only [maskNormalizePull, h0, List.getElem_zipWith, List.getElem_replicate]
      have := hq (l[i]'(by simpa using h2)).2
      cases hx : (l[i]'(by simpa using h2)).2 / Fl.fin 0 with
      | fin a => exact absurd hx (this a)
      | _ => simp only [keepNumber, Fl.zero_div_zero, fl_nan_add]

/-- **C189, MaskNormalize, other lines.** When the entries are numbers and the standard deviation is not 0, the gradient of
`MaskNormalize` is made of numbers.  What is missing of C189: lines of equal values (`C189_mask_normalize_constant_nan_partial`). -/
theorem C189_mask_normalize_numbers_partial (F : Fns K) (hroot : ∀ a : K, 0 < a → F.root a ≠ 0) (eps big : K) (he : 0 < eps)
    (l : List (Bool × K)) (s : K) (hs : maskStd F.root eps big false (l.map fun e => (e.1, Fl.fin e.2)) = .fin s) (h0 : s ≠ 0)
    (cts : List K) (hl : cts.length = l.length) :
    ∃ gs : List K, gs.length = l.length ∧ maskNormalizePull F eps big (l.map fun e => (e.1, Fl.fin e.2)) (cts.map Fl.fin) = gs.map Fl.fin := by
  have hss : s * s ≠ 0 := mul_ne_zero h0 h0
  set L : Line K := l.map fun e => (e.1, Fl.fin e.2) with hL
  have hclean : Clean L := by
    intro e hm _
    obtain ⟨a, _, rfl⟩ := List.mem_map.mp hm
    simp
  have e1 : List.zipWith (fun (e : Bool × Fl K) c => keepNumber (e.2 / Fl.fin s) c) L (cts.map Fl.fin) = cts.map Fl.fin := by
    rw [hL, List.zipWith_map_left]
    simp only [Fl.fin_div_of_ne _ h0]
    apply List.ext_getElem
    · simp [hl]
    · intro i h1 h2
      simp [keepNumber]
  have e2 : (List.zipWith (fun (e : Bool × Fl K) c => -((c * (Fl.fin 1 / (Fl.fin s * Fl.fin s))) * e.2)) L (cts.map Fl.fin)).sum =
      .fin (List.zipWith (fun (e : Bool × K) c => -((c * (1 / (s * s))) * e.2)) l cts).sum := by
    rw [hL, List.zipWith_map_left, List.zipWith_map_right]
    simp only [Fl.fin_mul, Fl.fin_div_of_ne _ hss, Fl.neg_fin]
    have : ∀ (l : List (Bool × K)) (cts : List K), (List.zipWith (fun (e : Bool × K) c => Fl.fin (-(c * (1 / (s * s)) * e.2))) l cts).sum =
        Fl.fin (List.zipWith (fun (e : Bool × K) c => -((c * (1 / (s * s))) * e.2)) l cts).sum := by
      intro l
      induction l with
      | nil => intro cts; rfl
      | cons e l ih =>
        intro cts
        cases cts with
        | nil => rfl
        | cons c cts => simp only [List.zipWith_cons_cons, List.sum_cons, ih, Fl.fin_add]
    exact this l cts
  obtain ⟨ps, p1, p2⟩ := C189_mask_std_gradient_numbers F hroot eps big he L hclean
    (List.zipWith (fun (e : Bool × K) c => -((c * (1 / (s * s))) * e.2)) l cts).sum
  refine ⟨List.zipWith (fun c p => c / s + p) cts ps, by simp [p1, hL, hl], ?_⟩
  simp only [maskNormalizePull, hs]
  rw [e1, e2, p2, List.zipWith_map_left, List.zipWith_map_right]
  simp only [Fl.fin_div_of_ne _ h0, Fl.fin_add, List.map_zipWith]

end Normalize

/-- A line of equal values, one of them masked, has standard deviation 0. -/
example : maskStd (fun _ : ℚ => 1) 1 1 false [(true, .fin 2), (false, .fin 7), (true, .fin 2)] = .fin 0 ∧
    maskNormalizePull (K := ℚ) ⟨fun _ => 1, fun _ => 1⟩ 1 1 [(true, .fin 2), (false, .fin 7), (true, .fin 2)] [.fin 1, .fin 0, .fin 0] =
      [.nan, .nan, .nan] := by decide +kernel

/-- A line with a missing and a masked value meets the hypotheses of `C189_mask_std_gradient`. -/
example : Clean ([(true, .fin 2), (false, .pinf), (true, .nan), (true, .fin 4)] : Line ℚ) ∧
    maskCount ([(true, .fin 2), (false, .pinf), (true, .nan), (true, .fin 4)] : Line ℚ) ≠ 0 ∧
    stdVar (1 : ℚ) [(true, .fin 2), (false, .pinf), (true, .nan), (true, .fin 4)] ≠ .fin 0 := by
  refine ⟨?_, by decide +kernel, by decide +kernel⟩
  intro e he hb
  simp only [List.mem_cons, List.not_mem_nil, or_false] at he
  rcases he with rfl | rfl | rfl | rfl <;> simp at hb ⊢

end Verif.Props
