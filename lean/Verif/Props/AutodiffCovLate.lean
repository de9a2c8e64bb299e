import Verif.Props.AutodiffCov
import Verif.Props.AutodiffVar
import Verif.Props.AutodiffNaN
import Verif.Props.OptimNaN

/-! # C199, a series that starts late, in general; and what it does in an online optimiser (C211) -/

namespace Verif.Props
open Verif Verif.Spec Verif.Model Verif.Model.Autodiff Verif.Model.Optim
set_option linter.unusedSectionVars false

section
variable {K : Type} [Field K] [LinearOrder K] [IsStrictOrderedRing K]

theorem haiku_quiet_nan (c : EWMACfg K) (s : EWMAState K) (h : s.mean = .nan) :
    (ewmaStep c s .nan).1.value = .nan ∧ (ewmaStep c s .nan).2.mean = .nan := by
  simp [ewmaStep, h, Fl.isNan]

theorem flax_quiet_nan (c : EWMACfg K) (s : EWMAState K) (h : s.mean = .nan) :
    (flaxEwmaStep c s .nan).1.value = .nan ∧ (flaxEwmaStep c s .nan).2.mean = .nan := by
  simp [flaxEwmaStep, h, Fl.isNan]

theorem late_from (step : EWMAState K → Fl K → EWMAOut K × EWMAState K)
    (hq : ∀ s, s.mean = .nan → (step s .nan).1.value = .nan ∧ (step s .nan).2.mean = .nan) (s₀ : EWMAState K) (xs : List (Fl K)) :
    ∀ (s : EWMAState K), s.mean = .nan → ∀ t, (∀ k ≤ t, ∀ x, xs[k]? = some x → x = .nan) →
      look (((⟨s₀, step⟩ : Mealy (EWMAState K) (Fl K) (EWMAOut K)).outsFrom s xs).map (·.value)) t = .nan := by
  induction xs with
  | nil => intro s _ t _; rfl
  | cons x xs ih =>
    intro s hs t h
    have hx : x = .nan := h 0 (by omega) x rfl
    subst hx
    obtain ⟨h1, h2⟩ := hq s hs
    cases t with
    | zero => simpa [look, Mealy.outsFrom] using h1
    | succ t =>
      have := ih (step s .nan).2 h2 t fun k hk x hx => h (k + 1) (by omega) x (by simpa using hx)
      simpa [look, Mealy.outsFrom] using this

/-- The mean of a series of which no value was observed yet is missing. -/
theorem innerOutputs_late (F : Fns K) (step : EWMACfg K → EWMAState K → Fl K → EWMAOut K × EWMAState K)
    (hq : ∀ c s, s.mean = .nan → (step c s .nan).1.value = .nan ∧ (step c s .nan).2.mean = .nan) (c : EWMACfg K) (hi : c.initial = .nan) (l : K)
    (xs : List (Fl K)) (t : Nat) (h : ∀ k ≤ t, ∀ x, xs[k]? = some x → x = .nan) : look (innerOutputs F step c l xs) t = .nan :=
  late_from (step (withLogcom F c l)) (hq _) ⟨c.initial, Fl.fin 1, 0⟩ xs ⟨c.initial, Fl.fin 1, 0⟩ hi t h

/-- Where the mean of the series has a value to differentiate at step `t`: `adjust=False` and `min_periods` values observed, or a number as output of the step before. -/
def Trained (F : Fns K) (step : EWMACfg K → EWMAState K → Fl K → EWMAOut K × EWMAState K) (c : EWMACfg K) (l : K) (xs : List (Fl K)) (t : Nat) : Prop :=
  (∃ x, xs[t]? = some x ∧ x ≠ .nan) ∧
    ((c.adjust = .no ∧ c.minPeriods ≤ (valid (xs.take (t + 1))).length) ∨ ∃ u v, t = u + 1 ∧ (innerOutputs F step c l xs)[u]? = some v ∧ v ≠ .nan)

theorem back_nan (F : Fns K) (keep : Nat) (step : EWMACfg K → EWMAState K → Fl K → EWMAOut K × EWMAState K)
    (hk : ∀ (c : EWMACfg K), c.adjust = .no → ∀ (l : K) (xs : List (Fl K)) (s : EWMAState K) (gs : List (Fl K)) (t : Nat) (x : Fl K), xs[t]? = some x →
      gs[t]? = some .nan → x.isNan = false → c.minPeriods ≤ s.nobs + observedCount (xs.take (t + 1)) → (ewmaGrad F keep step c l s xs gs).logcom = .nan)
    (hval : ∀ c s x, (step c s x).1.value ≠ .nan → (step c s x).2.mean.isNan = false ∧ c.minPeriods ≤ (step c s x).2.nobs)
    (c : EWMACfg K) (l : K) (xs gs : List (Fl K)) (t : Nat) (ht : Trained F step c l xs t) (hg : gs[t]? = some .nan) :
    (ewmaGrad F keep step (withLogcom F c l) l ⟨c.initial, Fl.fin 1, 0⟩ xs gs).logcom = .nan := by
  obtain ⟨⟨x, hx, hxn⟩, h⟩ := ht
  have hx' : x.isNan = false := by cases x <;> simp_all [Fl.isNan]
  rcases h with ⟨ha, hm⟩ | ⟨u, v, rfl, hv, hvn⟩
  · exact hk (withLogcom F c l) ha l xs _ gs t x hx hg hx' (by simpa [observedCount, withLogcom] using hm)
  · obtain ⟨o, ho, hov⟩ : ∃ o, ((⟨⟨c.initial, Fl.fin 1, 0⟩, step (withLogcom F c l)⟩ : Mealy (EWMAState K) (Fl K) (EWMAOut K)).outsFrom ⟨c.initial, Fl.fin 1, 0⟩ xs)[u]? = some o ∧
        o.value = v := by
      have := hv
      rw [innerOutputs, Mealy.run, List.getElem?_map] at this
      exact Option.map_eq_some_iff.1 this
    exact ewma_grad_nan' F keep step (withLogcom F c l) (hval _) l ⟨c.initial, Fl.fin 1, 0⟩ xs _ gs u x o ho (by rw [hov]; exact hvn) hx hx' hg

theorem cov_late {m n : ℕ} (F : Fns K) (keep : Nat) (step : EWMACfg K → EWMAState K → Fl K → EWMAOut K × EWMAState K)
    (hk : ∀ (c : EWMACfg K), c.adjust = .no → ∀ (l : K) (xs : List (Fl K)) (s : EWMAState K) (gs : List (Fl K)) (t : Nat) (x : Fl K), xs[t]? = some x →
      gs[t]? = some .nan → x.isNan = false → c.minPeriods ≤ s.nobs + observedCount (xs.take (t + 1)) → (ewmaGrad F keep step c l s xs gs).logcom = .nan)
    (hval : ∀ c s x, (step c s x).1.value ≠ .nan → (step c s x).2.mean.isNan = false ∧ c.minPeriods ≤ (step c s x).2.nobs)
    (hq : ∀ c s, s.mean = .nan → (step c s .nan).1.value = .nan ∧ (step c s .nan).2.mean = .nan)
    (c : EWMACfg K) (hi : c.initial = .nan) (l : CovParams K) (ps : List ((Fin m → Fl K) × (Fin n → Fl K))) (gs : List (Fin m → Fin n → Fl K))
    (t : ℕ) (ht : t < gs.length) (i : Fin m) (j : Fin n) :
    ((∀ k ≤ t, ∀ q, ps[k]? = some q → q.2 j = .nan) → Trained F step c l.x (ps.map fun p => p.1 i) t → (ewmcovGrad F keep step c false l ps gs).x = .nan) ∧
    ((∀ k ≤ t, ∀ q, ps[k]? = some q → q.1 i = .nan) → Trained F step c l.y (ps.map fun p => p.2 j) t → (ewmcovGrad F keep step c false l ps gs).y = .nan) := by
  constructor
  · intro hlate htr
    refine sumFin_nan _ i (back_nan F keep step hk hval c l.x _ _ t htr ?_)
    rw [List.getElem?_mapIdx, List.getElem?_eq_getElem ht, Option.map_some]
    refine congrArg some (sumFin_nan _ j ?_)
    rw [innerOutputs_late F step hq c hi l.y _ t ?_, Fl.mul_nan]
    intro k hk x hx
    rw [List.getElem?_map] at hx
    obtain ⟨q, h1, rfl⟩ := Option.map_eq_some_iff.1 hx
    exact hlate k hk q h1
  · intro hlate htr
    refine sumFin_nan _ j (back_nan F keep step hk hval c l.y _ _ t htr ?_)
    rw [List.getElem?_mapIdx, List.getElem?_eq_getElem ht, Option.map_some]
    refine congrArg some (sumFin_nan _ i ?_)
    rw [innerOutputs_late F step hq c hi l.x _ t ?_, Fl.nan_mul]
    intro k hk x hx
    rw [List.getElem?_map] at hx
    obtain ⟨q, h1, rfl⟩ := Option.map_eq_some_iff.1 hx
    exact hlate k hk q h1

/-- **C199, a series that starts late, in general (Haiku).** Without `assume_centered`: if at some step a component of `y` has had no value yet while the mean of a component of
`x` has a value to differentiate, the gradient of the parameter of the means of `x` is NaN, whatever the loss (even one that ignores the missing outputs), the other values and the
parameters; and symmetrically. -/
theorem C199_late_series_haiku_partial {m n : ℕ} (F : Fns K) (c : EWMACfg K) (hi : c.initial = .nan) (l : CovParams K)
    (ps : List ((Fin m → Fl K) × (Fin n → Fl K))) (gs : List (Fin m → Fin n → Fl K)) (t : ℕ) (ht : t < gs.length) (i : Fin m) (j : Fin n) :
    ((∀ k ≤ t, ∀ q, ps[k]? = some q → q.2 j = .nan) → Trained F ewmaStep c l.x (ps.map fun p => p.1 i) t → (ewmcovGrad F 13 ewmaStep c false l ps gs).x = .nan) ∧
    ((∀ k ≤ t, ∀ q, ps[k]? = some q → q.1 i = .nan) → Trained F ewmaStep c l.y (ps.map fun p => p.2 j) t → (ewmcovGrad F 13 ewmaStep c false l ps gs).y = .nan) :=
  cov_late F 13 ewmaStep (fun c ha l xs => ewma_grad_nan F 13 ewmaStep c (haiku_nobs c) ha l xs) haiku_value haiku_quiet_nan c hi l ps gs t ht i j

/-- **C199, a series that starts late, in general (Flax).** -/
theorem C199_late_series_flax_partial {m n : ℕ} (F : Fns K) (c : EWMACfg K) (hi : c.initial = .nan) (l : CovParams K)
    (ps : List ((Fin m → Fl K) × (Fin n → Fl K))) (gs : List (Fin m → Fin n → Fl K)) (t : ℕ) (ht : t < gs.length) (i : Fin m) (j : Fin n) :
    ((∀ k ≤ t, ∀ q, ps[k]? = some q → q.2 j = .nan) → Trained F flaxEwmaStep c l.x (ps.map fun p => p.1 i) t → (ewmcovGrad F 1 flaxEwmaStep c false l ps gs).x = .nan) ∧
    ((∀ k ≤ t, ∀ q, ps[k]? = some q → q.1 i = .nan) → Trained F flaxEwmaStep c l.y (ps.map fun p => p.2 j) t → (ewmcovGrad F 1 flaxEwmaStep c false l ps gs).y = .nan) :=
  cov_late F 1 flaxEwmaStep (fun c ha l xs => ewma_grad_nan F 1 flaxEwmaStep c (flax_nobs c) ha l xs) flax_value flax_quiet_nan c hi l ps gs t ht i j

/-- **C211**, with C187: a FuncOptimizer (`grads_fill_nan_inf=True`) on a function that takes the `EWMVar` (adjust True or False) of a series with one missing value at least at every
call never trains its `logcom`. -/
theorem C211_variance_with_gap_never_trained {S O R : Type} (F : Fns K) (adjust : Adjust) (ha : adjust ≠ .linear)
    (c : FConfig S O (List (Fl K)) R (Fl K)) (hfill : c.fill = true) (p0 : HkDict (Fl K)) (hd : IsDict2 p0) (s0 : S) (m n : String) (v : Fl K)
    (hv : get2 p0 m n = some v) (hp : c.pred m n v = true) (hq : Quiet c.opt m n)
    (l : HkDict (Fl K) → K) (weights : HkDict (Fl K) → HkDict (Fl K) → S → List (Fl K) → List (Fl K)) (hw : ∀ θ nt s x, (weights θ nt s x).length = x.length)
    (hgrad : ∀ θ nt s x, get2 (c.grad θ nt s x) m n = some (ewmvarGrad F adjust (l θ) x (weights θ nt s x)).logcom)
    (xs : List (List (Fl K))) (hx : ∀ x ∈ xs, Fl.nan ∈ x) (out : R × HkDict (Fl K)) (ho : out ∈ (funcOptimizer c p0 s0).run xs) :
    get2 out.2 m n = some v :=
  C211_func_frozen c hfill p0 hd s0 m n v hv hp hq xs (fun θ nt s x hxx => ⟨.nan, by
    obtain ⟨i, hi⟩ := List.mem_iff_getElem?.1 (hx x hxx)
    have h := (C187_missing_value_nan_partial F adjust (l θ) x (weights θ nt s x) (hw θ nt s x) i hi).1 ha
    rw [hgrad θ nt s x]
    exact congrArg some h, rfl⟩) out ho

/-- **C211**, with C199: the same for the parameter of the means of `x` in an `EWMCov(adjust=False)` when a component of `y` starts after a component of `x`, at every call. -/
theorem C211_covariance_late_never_trained {S O R : Type} {mm nn : ℕ} (F : Fns K) (cfg : EWMACfg K) (ha : cfg.adjust = .no) (hi : cfg.initial = .nan)
    (c : FConfig S O (List ((Fin mm → Fl K) × (Fin nn → Fl K))) R (Fl K)) (hfill : c.fill = true) (p0 : HkDict (Fl K)) (hd : IsDict2 p0) (s0 : S) (m n : String) (v : Fl K)
    (hv : get2 p0 m n = some v) (hp : c.pred m n v = true) (hq : Quiet c.opt m n)
    (l : HkDict (Fl K) → CovParams K) (weights : HkDict (Fl K) → HkDict (Fl K) → S → List ((Fin mm → Fl K) × (Fin nn → Fl K)) → List (Fin mm → Fin nn → Fl K))
    (hw : ∀ θ nt s x, (weights θ nt s x).length = x.length)
    (hgrad : ∀ θ nt s x, get2 (c.grad θ nt s x) m n = some (ewmcovGrad F 13 ewmaStep cfg false (l θ) x (weights θ nt s x)).x)
    (i : Fin mm) (j : Fin nn) (xs : List (List ((Fin mm → Fl K) × (Fin nn → Fl K))))
    (hx : ∀ x ∈ xs, ∃ t p, x[t]? = some p ∧ p.1 i ≠ .nan ∧ cfg.minPeriods ≤ (valid ((x.take (t + 1)).map fun p => p.1 i)).length ∧
      ∀ k ≤ t, ∀ q, x[k]? = some q → q.2 j = .nan)
    (out : R × HkDict (Fl K)) (ho : out ∈ (funcOptimizer c p0 s0).run xs) : get2 out.2 m n = some v :=
  C211_func_frozen c hfill p0 hd s0 m n v hv hp hq xs (fun θ nt s x hxx => ⟨.nan, by
    obtain ⟨t, p, h1, h2, h3, h4⟩ := hx x hxx
    have h := (C199_late_series_haiku_partial F cfg hi (l θ) x (weights θ nt s x) t (by rw [hw]; exact (List.getElem?_eq_some_iff.1 h1).1) i j).1 h4
      ⟨⟨p.1 i, by rw [List.getElem?_map, h1]; rfl, h2⟩, Or.inl ⟨ha, by rw [← List.map_take]; exact h3⟩⟩
    rw [hgrad θ nt s x]
    exact congrArg some h, rfl⟩) out ho

end

section Cases

/-- Concrete instance of `C199_late_series_haiku_partial` and `C199_late_series_flax_partial`: `y` starts at step 2; the loss looks at the last output only. -/
example : let ps : List ((Fin 1 → Fl ℚ) × (Fin 1 → Fl ℚ)) := [(fun _ => .fin 1, fun _ => .nan), (fun _ => .fin 2, fun _ => .nan), (fun _ => .fin 2, fun _ => .fin 3)]
    let gs : List (Fin 1 → Fin 1 → Fl ℚ) := [fun _ _ => .fin 0, fun _ _ => .fin 0, fun _ _ => .fin 1]
    (ewmcovGrad oneFns 13 ewmaStep ⟨1, .no, false, 0, .nan, 1000⟩ false ⟨0, 0, 0⟩ ps gs).x = .nan ∧
    (ewmcovGrad oneFns 1 flaxEwmaStep ⟨1, .yes, false, 0, .nan, 1000⟩ false ⟨0, 0, 0⟩ ps gs).x = .nan := by
  intro ps gs
  have hl : ∀ k ≤ 1, ∀ q, ps[k]? = some q → q.2 0 = .nan := by
    intro k hk q hq
    have : k = 0 ∨ k = 1 := by omega
    rcases this with rfl | rfl <;> (simp [ps] at hq; rw [← hq])
  refine ⟨(C199_late_series_haiku_partial oneFns _ rfl _ ps gs 1 (by decide) 0 0).1 hl ⟨⟨.fin 2, rfl, by simp⟩, Or.inl ⟨rfl, by decide⟩⟩,
    (C199_late_series_flax_partial oneFns _ rfl _ ps gs 1 (by decide) 0 0).1 hl ⟨⟨.fin 2, rfl, by simp⟩, Or.inr ⟨0, .fin 1, rfl, by decide +kernel, by simp⟩⟩⟩

/-- Concrete instance of `C211_variance_with_gap_never_trained`: the second value is missing in both calls. -/
example : ∀ out ∈ (funcOptimizer (⟨fun _ _ _ => ((), ()), fun _ _ _ x => [("v", [("logcom", (ewmvarGrad oneFns .yes 0 x (x.map fun _ => .fin 1)).logcom)])], momentum 1 (1 / 2),
      fun _ _ _ => true, true⟩ : FConfig Unit (HkDict (Fl ℚ)) (List (Fl ℚ)) Unit (Fl ℚ)) [("v", [("logcom", .fin 3)])] ()).run [[.fin 1, .nan, .fin 4], [.fin 2, .nan]],
    get2 out.2 "v" "logcom" = some (.fin 3) :=
  C211_variance_with_gap_never_trained oneFns .yes (by simp) _ rfl _ ⟨by decide, by decide⟩ () "v" "logcom" (.fin 3) (by decide +kernel) rfl
    (momentum_quiet 1 (1 / 2) "v" "logcom").1 (fun _ => 0) (fun _ _ _ x => x.map fun _ => .fin 1) (by simp) (fun _ _ _ _ => rfl) _ (by decide +kernel)
end Cases

end Verif.Props
