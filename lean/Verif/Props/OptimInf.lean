import Verif.Props.OptimNaNFlax

/-! # C213: one step of gradient descent in the four online optimisers, for every kind of gradient -/

namespace Verif.Props
open Verif Verif.Spec Verif.Model Verif.Model.Optim
set_option linter.unusedSectionVars false

section
variable {S X L I R A : Type} {K : Type} [Field K] [LinearOrder K]

/-- `optax.sgd(lr)`. -/
def plainSgd (lr : K) : Transformation Unit (Fl K) := ⟨fun _ => (), fun g o => (mapTree (fun _ _ x => Fl.fin (-lr) * x) g, o)⟩

/-- The step that is due: `p - lr·g` for a number, nothing for NaN, and for an infinite gradient a step of `lr·jump`. -/
def dueStep (lr jump : K) (p : Fl K) : Fl K → Fl K
  | .fin g => p + .fin (-(lr * g))
  | .nan => p
  | .pinf => p + .fin (-(lr * jump))
  | .ninf => p + .fin (lr * jump)

theorem sgd_due (lr : K) (p0 g0 : HkDict (Fl K)) (o : Unit) (m n : String) (p g : Fl K) (h1 : get2 p0 m n = some p) (h2 : get2 g0 m n = some g) :
    get2 (optaxStep Fl.add (plainSgd lr) p0 g0 o).1 m n = some (p + Fl.fin (-lr) * g) :=
  C52_optimizer_update Fl.add (plainSgd lr) p0 g0 o m n p _ h1 (by simp only [plainSgd, get2_mapTree, h2, Option.map_some])

theorem due_zero (lr : K) (p g : Fl K) : p + Fl.fin (-lr) * Optim.fillNanInf g = dueStep lr 0 p g := by
  have e : ∀ a : K, -lr * a = -(lr * a) := fun a => by ring
  cases g <;> simp only [Optim.fillNanInf, dueStep, Fl.fin_mul, e]
  · have z : -(lr * (0 : K)) = 0 := by ring
    rw [z, add_fin_zero]
  · have z : -(lr * (0 : K)) = lr * 0 := by ring
    rw [z]

theorem due_big (lr big : K) (p g : Fl K) : p + Fl.fin (-lr) * nanToNum big g = dueStep lr big p g := by
  have e : ∀ a : K, -lr * a = -(lr * a) := fun a => by ring
  cases g <;> simp only [nanToNum, dueStep, Fl.fin_mul, e]
  · have z : -(lr * (0 : K)) = 0 := by ring
    rw [z, add_fin_zero]
  · have z : -(lr * -big) = lr * big := by ring
    rw [z]

/-- **C213**, Haiku OnlineOptimizer with SGD (no projection): after any calls `xs`, the next one moves the parameter by the due step, and by `lr` times the largest float when
the gradient is infinite. -/
theorem C213_online_step (big lr : K) (c : OConfig S Unit X L I (Fl K)) (hopt : c.opt = plainSgd lr) (hproj : ∀ d, c.project d = d) (p0 : HkDict (Fl K)) (s0 : S)
    (xs : List X) (x : X) (m n : String) (p g : Fl K)
    (hp : get2 ((onlineOptimizer big c p0 s0).stateAfter xs).trainable m n = some p)
    (hg : get2 (c.grad ((onlineOptimizer big c p0 s0).stateAfter xs).trainable ((onlineOptimizer big c p0 s0).stateAfter xs).nonTrainable
      ((onlineOptimizer big c p0 s0).stateAfter xs).mstate x) m n = some g) :
    get2 ((onlineOptimizer big c p0 s0).stateAfter (xs ++ [x])).trainable m n = some (dueStep lr big p g) := by
  rw [Mealy.stateAfter_append_singleton]
  generalize (onlineOptimizer big c p0 s0).stateAfter xs = st at hp hg
  show get2 (onlineStep big c st x).2.trainable m n = _
  simp only [onlineStep, hproj, hopt]
  rw [sgd_due lr _ _ _ m n p (nanToNum big g) hp (by rw [get2_mapTree, hg]; rfl), due_big]

/-- **C213**, Haiku FuncOptimizer with SGD: with `grads_fill_nan_inf=True` an infinite gradient is no step at all; without it the parameter is `p - lr·g` in the arithmetic of
floats (NaN or infinite for ever). -/
theorem C213_func_step (lr : K) (c : FConfig S Unit X R (Fl K)) (hopt : c.opt = plainSgd lr) (p0 : HkDict (Fl K)) (s0 : S)
    (xs : List X) (x : X) (m n : String) (p g : Fl K)
    (hp : get2 ((funcOptimizer c p0 s0).stateAfter xs).trainable m n = some p)
    (hg : get2 (c.grad ((funcOptimizer c p0 s0).stateAfter xs).trainable ((funcOptimizer c p0 s0).stateAfter xs).nonTrainable
      ((funcOptimizer c p0 s0).stateAfter xs).mstate x) m n = some g) :
    get2 ((funcOptimizer c p0 s0).stateAfter (xs ++ [x])).trainable m n = some (if c.fill then dueStep lr 0 p g else p + Fl.fin (-lr) * g) ∧
    ((funcOptimizer c p0 s0).run (xs ++ [x]))[xs.length]?.map (fun o => get2 o.2 m n) = some (some (if c.fill then dueStep lr 0 p g else p + Fl.fin (-lr) * g)) := by
  have step : ∀ st : FState S Unit (Fl K), get2 st.trainable m n = some p → get2 (c.grad st.trainable st.nonTrainable st.mstate x) m n = some g →
      get2 (funcStep c st x).2.trainable m n = some (if c.fill then dueStep lr 0 p g else p + Fl.fin (-lr) * g) := by
    intro st h1 h2
    simp only [funcStep, hopt]
    cases c.fill
    · simp only [Bool.false_eq_true, if_false]
      exact sgd_due lr _ _ _ m n p g h1 h2
    · simp only [if_true]
      rw [sgd_due lr _ _ _ m n p (Optim.fillNanInf g) h1 (by rw [get2_mapTree, h2]; rfl), due_zero]
  constructor
  · rw [Mealy.stateAfter_append_singleton]
    exact step _ hp hg
  · rw [Mealy.run, Mealy.outsFrom_getElem?]
    have h1 : (xs ++ [x])[xs.length]? = some x := by simp
    have h2 : (xs ++ [x]).take xs.length = xs := by simp
    rw [h1, h2]
    exact congrArg some (step _ hp hg)

/-- The gradient of a leaf of a nested dictionary: the first entry with its path, 0 if there is none. -/
def leafGrad (g : Nested (Fl K)) (q : List Name) : Fl K := ((g.find? fun r => r.1 == q).map (·.2)).getD (.fin 0)

theorem leafGrad_map (f : Fl K → Fl K) (h0 : f (.fin 0) = .fin 0) (g : Nested (Fl K)) (q : List Name) : leafGrad (g.map fun pv => (pv.1, f pv.2)) q = f (leafGrad g q) := by
  unfold leafGrad
  induction g with
  | nil => exact h0.symm
  | cons a g ih =>
    rw [List.map_cons, List.find?_cons, List.find?_cons]
    cases h : a.1 == q
    · exact ih
    · rfl

/-- **C213**, Flax FuncOptimizer with SGD on initialised parameters: every leaf moves by the due step of its gradient; an infinite gradient is no step. -/
theorem C213_flax_func_step (lr : K) (c : FlaxFunc Unit X R (Fl K)) (hopt : c.optUpdate = nestedSgd lr) (st : FlaxFuncState Unit (Fl K)) (hne : st.trainable ≠ []) (x : X) :
    (flaxFuncStep c st x).2.trainable = st.trainable.map fun qv => (qv.1, dueStep lr 0 qv.2 (leafGrad (c.grad st.trainable st.nonTrainable x) qv.1)) := by
  have hp : flaxFuncPrepare c st x = st := by
    unfold flaxFuncPrepare
    rw [if_neg (by simpa using hne)]
  unfold flaxFuncStep
  simp only [hp]
  rw [if_neg (by simpa using hne)]
  simp only [hopt, nestedSgd]
  apply List.map_congr_left
  intro qv _
  rw [← due_zero, ← leafGrad_map Optim.fillNanInf rfl]
  rfl

/-- **C213**, Flax OnlineOptimizer with SGD (no projection, every parameter trainable, keys without "/"): every leaf moves by the due step, an infinite gradient by `lr` times the
largest float. -/
theorem C213_flax_online_step (big lr : K) (c : NConfig S Unit X L A (Fl K)) (hopt : c.optUpdate = nestedSgd lr) (hpred : ∀ a b v, c.pred a b v = true)
    (hproj : ∀ d, c.project d = d) (st : NState S Unit (Fl K)) (hpl : Plain st.params) (x : X) :
    (flaxOnlineStep big c st x).2.params = st.params.map fun qv => (qv.1, dueStep lr big qv.2 (leafGrad (c.grad st.params [] st.mstate x) qv.1)) := by
  have hpt : nestedPartition c.pred st.params = (st.params, []) := by
    simp [nestedPartition, plain_map st.params hpl, hpred]
  have hmerge : ∀ d : Nested (Fl K), shallowMerge d [] = d := by
    intro d; simp [shallowMerge]
  simp only [flaxOnlineStep, hpt, hmerge, hproj, hopt, nestedSgd]
  apply List.map_congr_left
  intro qv _
  rw [← due_big, ← leafGrad_map (nanToNum big) rfl]
  rfl

end

section Cases

/-- Four parameters with a finite, a NaN and two infinite gradients. -/
def exC213P : HkDict (Fl ℚ) := [("m", [("a", .fin 5), ("b", .fin 5), ("c", .fin 5), ("d", .fin 5)])]
def exC213G : HkDict (Fl ℚ) := [("m", [("a", .fin 2), ("b", .nan), ("c", .pinf), ("d", .ninf)])]
def exC213F (fill : Bool) : FConfig Unit Unit Unit Unit (Fl ℚ) := ⟨fun _ _ _ => ((), ()), fun _ _ _ _ => exC213G, plainSgd 1, fun _ _ _ => true, fill⟩
def exC213O : OConfig Unit Unit Unit Unit Unit (Fl ℚ) := ⟨fun _ _ _ => (((), ()), ()), fun _ _ => (), fun _ _ _ _ => exC213G, plainSgd 1, id, fun _ _ _ => true⟩

/-- Concrete instances of C213 (`C213_func_step`, `C213_online_step`) with the largest number 1000: the three behaviours. -/
example : ((funcOptimizer (exC213F true) exC213P ()).stateAfter [()]).trainable = [("m", [("a", .fin 3), ("b", .fin 5), ("c", .fin 5), ("d", .fin 5)])] ∧
    ((funcOptimizer (exC213F false) exC213P ()).stateAfter [()]).trainable = [("m", [("a", .fin 3), ("b", .nan), ("c", .ninf), ("d", .pinf)])] ∧
    ((onlineOptimizer 1000 exC213O exC213P ()).stateAfter [()]).trainable = [("m", [("a", .fin 3), ("b", .fin 5), ("c", .fin (-995)), ("d", .fin 1005)])] := by
  decide +kernel
example : get2 ((onlineOptimizer 1000 exC213O exC213P ()).stateAfter ([()] ++ [()])).trainable "m" "c" = some (.fin (-1995)) :=
  (C213_online_step 1000 1 exC213O rfl (fun _ => rfl) exC213P () [()] () "m" "c" (.fin (-995)) .pinf (by decide +kernel) rfl).trans (by decide +kernel)
example : get2 ((funcOptimizer (exC213F true) exC213P ()).stateAfter ([] ++ [()])).trainable "m" "a" = some (.fin 3) :=
  (C213_func_step 1 (exC213F true) rfl exC213P () [] () "m" "a" (.fin 5) (.fin 2) (by decide +kernel) rfl).1.trans (by decide +kernel)
/-- Concrete instance of `C213_flax_func_step`. -/
example : (flaxFuncStep exC212 ⟨[([['w']], .fin 5), ([['b']], .fin 7)], none, none⟩ ()).2.trainable = [([['w']], .fin 5), ([['b']], .fin 5)] :=
  (C213_flax_func_step 1 exC212 rfl _ (by simp) ()).trans (by decide +kernel)
/-- Concrete instance of `C213_flax_online_step`. -/
example : (flaxOnlineStep 1000 { exC212N with grad := fun _ _ _ _ => [([['w']], .pinf), ([['b']], .fin 2)] } ⟨[([['w']], .fin 5), ([['b']], .fin 7)], (), none⟩ ()).2.params =
    [([['w']], .fin (-995)), ([['b']], .fin 5)] :=
  (C213_flax_online_step 1000 1 _ rfl (fun _ _ _ => rfl) (fun _ => rfl) _ (by
      intro q v hq
      simp only [List.mem_cons, Prod.mk.injEq, List.not_mem_nil, or_false] at hq
      rcases hq with ⟨rfl, -⟩ | ⟨rfl, -⟩ <;> decide) ()).trans (by decide +kernel)
end Cases

end Verif.Props
