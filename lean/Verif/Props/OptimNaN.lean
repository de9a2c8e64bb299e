import Verif.Props.Optim
import Verif.Props.AutodiffNaN

/-! # C211: what the online optimisers do with a parameter whose gradient is NaN -/

namespace Verif.Props
open Verif Verif.Spec Verif.Model Verif.Model.Autodiff Verif.Model.Optim Verif.Model.Events
set_option linter.unusedSectionVars false

section
variable {S O X L I R : Type} {K : Type} [Field K] [LinearOrder K]

/-- An optimiser that leaves alone a parameter that never had a gradient other than 0: `update` answers 0 for it. -/
def Quiet (opt : Transformation O (Fl K)) (m n : String) : Prop :=
  ∃ inv : O → Prop, (∀ p, inv (opt.init p)) ∧ ∀ g o, inv o → get2 g m n = some (.fin 0) →
    get2 (opt.update g o).1 m n = some (.fin 0) ∧ inv (opt.update g o).2

theorem add_fin_zero (v : Fl K) : v + Fl.fin 0 = v := by
  cases v with
  | fin a => rw [Fl.fin_add, _root_.add_zero]
  | _ => rfl

theorem optax_quiet (opt : Transformation O (Fl K)) (p g : HkDict (Fl K)) (o : O) (m n : String)
    (h : get2 (opt.update g o).1 m n = some (.fin 0)) : get2 (optaxStep Fl.add opt p g o).1 m n = get2 p m n := by
  have e : optaxStep Fl.add opt p g o = (applyUpdates Fl.add p (opt.update g o).1, (opt.update g o).2) := rfl
  rw [e, applyUpdates, get2_mapTree]
  simp only [h]
  cases get2 p m n with
  | none => rfl
  | some v => exact congrArg some (add_fin_zero v)

/-- **C211**, FuncOptimizer with `grads_fill_nan_inf=True`: a trainable parameter whose gradient is NaN or infinite at every call keeps its initial value in the parameters
returned at every call, whatever the function and the other gradients: no error, no training. -/
theorem C211_func_frozen (c : FConfig S O X R (Fl K)) (hfill : c.fill = true) (p0 : HkDict (Fl K)) (hd : IsDict2 p0) (s0 : S) (m n : String) (v : Fl K)
    (hv : get2 p0 m n = some v) (hp : c.pred m n v = true) (hq : Quiet c.opt m n) (xs : List X)
    (hg : ∀ θ nt s, ∀ x ∈ xs, ∃ g, get2 (c.grad θ nt s x) m n = some g ∧ g.isFin = false)
    (out : R × HkDict (Fl K)) (ho : out ∈ (funcOptimizer c p0 s0).run xs) : get2 out.2 m n = some v := by
  obtain ⟨inv, i0, i1⟩ := hq
  have step : ∀ (st : FState S O (Fl K)) (x : X), x ∈ xs → get2 st.trainable m n = some v → inv st.opt →
      get2 (funcStep c st x).2.trainable m n = some v ∧ inv (funcStep c st x).2.opt := by
    intro st x hx h1 h2
    obtain ⟨g, hg1, hg2⟩ := hg st.trainable st.nonTrainable st.mstate x hx
    have hz : get2 (mapTree (fun _ _ g => Optim.fillNanInf g) (c.grad st.trainable st.nonTrainable st.mstate x)) m n = some (.fin 0) := by
      rw [get2_mapTree, hg1]
      cases g <;> simp_all [Optim.fillNanInf, Fl.isFin]
    obtain ⟨u1, u2⟩ := i1 _ st.opt h2 hz
    constructor
    · simp only [funcStep, hfill, if_true]
      rw [optax_quiet _ _ _ _ _ _ u1, h1]
    · simp only [funcStep, hfill, if_true, optaxStep]
      exact u2
  have key : ∀ ys : List X, (∀ x ∈ ys, x ∈ xs) → get2 ((funcOptimizer c p0 s0).stateAfter ys).trainable m n = some v ∧
      inv ((funcOptimizer c p0 s0).stateAfter ys).opt := by
    intro ys
    induction ys using List.reverseRecOn with
    | nil => intro _; exact ⟨(C52_partition_trainable _ _ hd _ _ _).2 ⟨hv, hp⟩, i0 _⟩
    | append_singleton ys y ih =>
      intro hy
      rw [Mealy.stateAfter_append_singleton]
      obtain ⟨h1, h2⟩ := ih fun x hx => hy x (by simp [hx])
      exact step _ y (hy y (by simp)) h1 h2
  obtain ⟨t, ht⟩ := List.mem_iff_getElem?.1 ho
  rw [Mealy.run, Mealy.outsFrom_getElem?] at ht
  obtain ⟨x, hx, rfl⟩ := Option.map_eq_some_iff.1 ht
  obtain ⟨h1, h2⟩ := key (xs.take t) fun y hy => List.mem_of_mem_take hy
  exact (step _ x (List.mem_of_getElem? hx) h1 h2).1

/-- **C211**, OnlineOptimizer (without projection): the same for a gradient that is NaN at every call. -/
theorem C211_online_frozen (big : K) (c : OConfig S O X L I (Fl K)) (hproj : ∀ d, c.project d = d) (p0 : HkDict (Fl K)) (hd : IsDict2 p0) (s0 : S) (m n : String)
    (v : Fl K) (hv : get2 p0 m n = some v) (hp : c.pred m n v = true) (hq : Quiet c.opt m n) (xs : List X)
    (hg : ∀ θ nt s, ∀ x ∈ xs, get2 (c.grad θ nt s x) m n = some .nan) :
    get2 ((onlineOptimizer big c p0 s0).stateAfter xs).trainable m n = some v := by
  obtain ⟨inv, i0, i1⟩ := hq
  have key : ∀ ys : List X, (∀ x ∈ ys, x ∈ xs) → get2 ((onlineOptimizer big c p0 s0).stateAfter ys).trainable m n = some v ∧
      inv ((onlineOptimizer big c p0 s0).stateAfter ys).opt := by
    intro ys
    induction ys using List.reverseRecOn with
    | nil => intro _; exact ⟨(C52_partition_trainable _ _ hd _ _ _).2 ⟨hv, hp⟩, i0 _⟩
    | append_singleton ys y ih =>
      intro hy
      rw [Mealy.stateAfter_append_singleton]
      obtain ⟨h1, h2⟩ := ih fun x hx => hy x (by simp [hx])
      generalize (onlineOptimizer big c p0 s0).stateAfter ys = st at h1 h2
      have hz : get2 (mapTree (fun _ _ g => nanToNum big g) (c.grad st.trainable st.nonTrainable st.mstate y)) m n = some (.fin 0) := by
        rw [get2_mapTree, hg _ _ _ y (hy y (by simp))]; rfl
      obtain ⟨u1, u2⟩ := i1 _ st.opt h2 hz
      show get2 (onlineStep big c st y).2.trainable m n = some v ∧ inv (onlineStep big c st y).2.opt
      constructor
      · simp only [onlineStep, hproj]
        rw [optax_quiet _ _ _ _ _ _ u1, h1]
      · simp only [onlineStep, optaxStep]
        exact u2
  exact (key xs fun _ h => h).1

/-- **C211**, FuncOptimizer with `grads_fill_nan_inf=False`: with an optimiser that passes NaN on, one NaN gradient at the first call makes the parameter NaN at that call and
at all later ones. -/
theorem C211_func_poisoned (c : FConfig S O X R (Fl K)) (hfill : c.fill = false) (p0 : HkDict (Fl K)) (hd : IsDict2 p0) (s0 : S) (m n : String) (v : Fl K)
    (hv : get2 p0 m n = some v) (hp : c.pred m n v = true)
    (hn : ∀ g o, get2 g m n = some .nan → get2 (c.opt.update g o).1 m n = some .nan) (x : X) (xs : List X)
    (hg : ∀ θ nt s, get2 (c.grad θ nt s x) m n = some .nan)
    (out : R × HkDict (Fl K)) (ho : out ∈ (funcOptimizer c p0 s0).run (x :: xs)) : get2 out.2 m n = some .nan := by
  have first : get2 (funcStep c (funcInit c p0 s0) x).2.trainable m n = some .nan := by
    have u1 := hn _ (funcInit c p0 s0).opt (hg (funcInit c p0 s0).trainable (funcInit c p0 s0).nonTrainable (funcInit c p0 s0).mstate)
    have ht : get2 (funcInit c p0 s0).trainable m n = some v := (C52_partition_trainable _ _ hd _ _ _).2 ⟨hv, hp⟩
    simp only [funcStep, hfill, Bool.false_eq_true, if_false]
    rw [C52_optimizer_update _ _ _ _ _ _ _ v .nan ht u1]
    exact congrArg some (Fl.add_nan v)
  have keep : ∀ (st : FState S O (Fl K)) (y : X), get2 st.trainable m n = some .nan → get2 (funcStep c st y).2.trainable m n = some .nan := by
    intro st y h
    simp only [funcStep, hfill, Bool.false_eq_true, if_false, optaxStep, applyUpdates]
    rw [get2_mapTree, h, Option.map_some]
    generalize get2 (c.opt.update _ st.opt).1 m n = u
    cases u with
    | none => rfl
    | some u => exact congrArg some (Fl.nan_add u)
  have all : ∀ (ys : List X) (st : FState S O (Fl K)), get2 st.trainable m n = some .nan →
      ∀ out ∈ (funcOptimizer c p0 s0).outsFrom st ys, get2 out.2 m n = some .nan := by
    intro ys
    induction ys with
    | nil => intro st _ out h; simp [Mealy.outsFrom] at h
    | cons y ys ih =>
      intro st h out ho
      rw [Mealy.outsFrom, List.mem_cons] at ho
      rcases ho with rfl | ho
      · exact keep st y h
      · exact ih _ (keep st y h) out ho
  rw [Mealy.run, Mealy.outsFrom, List.mem_cons] at ho
  rcases ho with rfl | ho
  · exact first
  · exact all xs _ first out ho

/-- **C211**, what follows with C209: a FuncOptimizer (`grads_fill_nan_inf=True`) whose function takes the returns (`PctChange`) of a series smoothed by `EWMA(adjust=False)`
never trains the `logcom` of the EWMA, on any sequence of series with enough observed values and for any loss (`weights` are the derivatives of the loss by the outputs). -/
theorem C211_smoothed_returns_never_trained [IsStrictOrderedRing K] (F : Fns K) (fz ignoreNa : Bool) (minPeriods : Nat) (big : K)
    (c : FConfig S O (List (Fl K)) R (Fl K)) (hfill : c.fill = true) (p0 : HkDict (Fl K)) (hd : IsDict2 p0) (s0 : S) (m n : String) (v : Fl K)
    (hv : get2 p0 m n = some v) (hp : c.pred m n v = true) (hq : Quiet c.opt m n)
    (l : HkDict (Fl K) → K) (weights : HkDict (Fl K) → HkDict (Fl K) → S → List (Fl K) → List (Fl K)) (hw : ∀ θ nt s x, x.length = (weights θ nt s x).length)
    (hgrad : ∀ θ nt s x, get2 (c.grad θ nt s x) m n =
      let d := ((ewmaPulled F 13 ewmaStep ⟨F.exp (l θ), .no, ignoreNa, minPeriods, .nan, big⟩ (l θ)).project (·.value)).chain (pctChangePulled F fz)
      some (d.gradFrom d.m.init x (weights θ nt s x)).1.1.2.2)
    (xs : List (List (Fl K))) (hx : ∀ x ∈ xs, max 1 minPeriods ≤ (valid x).length)
    (out : R × HkDict (Fl K)) (ho : out ∈ (funcOptimizer c p0 s0).run xs) : get2 out.2 m n = some v :=
  C211_func_frozen c hfill p0 hd s0 m n v hv hp hq xs (fun θ nt s x hxx => ⟨.nan, by
    rw [hgrad θ nt s x]
    exact congrArg some (C209_pct_of_ewma_nan_partial F _ rfl rfl (l θ) fz x (weights θ nt s x) (hw θ nt s x) (hx x hxx)), rfl⟩) out ho

/-- `optax.sgd(lr, momentum=μ)`: the trace of the gradients, times the learning rate. -/
def momentum (lr μ : K) : Transformation (HkDict (Fl K)) (Fl K) where
  init p := mapTree (fun _ _ _ => Fl.fin 0) p
  update g o :=
    let t := mapTree (fun m n x => x + Fl.fin μ * (get2 o m n).getD (.fin 0)) g
    (mapTree (fun _ _ x => Fl.fin (-lr) * x) t, t)

/-- Momentum is `Quiet`, and passes NaN on. -/
theorem momentum_quiet (lr μ : K) (m n : String) : Quiet (momentum lr μ) m n ∧
    ∀ g o, get2 g m n = some .nan → get2 ((momentum lr μ).update g o).1 m n = some .nan := by
  refine ⟨⟨fun o => (get2 o m n).getD (.fin 0) = .fin 0, fun p => ?_, fun g o h1 h2 => ?_⟩, fun g o h => ?_⟩
  · simp only [momentum]
    rw [get2_mapTree]
    cases get2 p m n <;> rfl
  · have e : (0 : K) + μ * 0 = 0 := by ring
    have e2 : -lr * (0 : K) = 0 := by ring
    simp only [momentum, get2_mapTree, h2, h1, Option.map_some, Option.getD_some, Fl.fin_mul, Fl.fin_add, e, e2, and_self]
  · simp only [momentum, get2_mapTree, h, Option.map_some, Fl.nan_add, Fl.mul_nan]

end

section Cases

/-- A function with two parameters, the gradient of `w` is NaN and that of `b` is 2. -/
def exC211 (fill : Bool) : FConfig Unit (HkDict (Fl ℚ)) Unit Unit (Fl ℚ) :=
  ⟨fun _ _ _ => ((), ()), fun _ _ _ _ => [("m", [("w", .nan), ("b", .fin 2)])], momentum 1 (1 / 2), fun _ _ _ => true, fill⟩
def exC211P : HkDict (Fl ℚ) := [("m", [("w", .fin 5), ("b", .fin 7)])]

/-- Concrete instance of C211 (`C211_func_frozen`): `b` is trained and `w` is not; (`C211_func_poisoned`): without the filling `w` is NaN. -/
example : ((funcOptimizer (exC211 true) exC211P ()).run [(), ()]).map (·.2) =
    [[("m", [("w", .fin 5), ("b", .fin 5)])], [("m", [("w", .fin 5), ("b", .fin 2)])]] := by decide +kernel
example : ∀ out ∈ (funcOptimizer (exC211 true) exC211P ()).run [(), (), ()], get2 out.2 "m" "w" = some (.fin 5) :=
  C211_func_frozen (exC211 true) rfl exC211P ⟨by decide, by decide⟩ () "m" "w" (.fin 5) (by decide +kernel) rfl (momentum_quiet 1 (1 / 2) "m" "w").1 _
    (fun _ _ _ _ _ => ⟨.nan, rfl, rfl⟩)
example : ∀ out ∈ (funcOptimizer (exC211 false) exC211P ()).run [(), (), ()], get2 out.2 "m" "w" = some .nan :=
  C211_func_poisoned (exC211 false) rfl exC211P ⟨by decide, by decide⟩ () "m" "w" (.fin 5) (by decide +kernel) rfl (momentum_quiet 1 (1 / 2) "m" "w").2 _ _
    (fun _ _ _ => rfl)
end Cases

end Verif.Props
