import Verif.Model.AutodiffEvents
import Verif.Props.AutodiffFlax
import Verif.Props.AutodiffPct
import Verif.Props.Events

/-! # C202: gradients through UpdateOnEvent and ConditionalComputation -/

namespace Verif.Props
open Verif Verif.Spec Verif.Model Verif.Model.Events Verif.Model.Autodiff
set_option linter.unusedSectionVars false

section Generic
variable {S I O CS CI CO : Type}

/-- An output computed at an event is returned until the next event: its weight is the sum of the weights of these steps.  The first component is the weight of
the steps before the first event. -/
def heldWeights (zero : CO) (add : CO → CO → CO) : List Bool → List CO → CO × List CO
  | e :: es, g :: gs =>
    let r := heldWeights zero add es gs
    if e then (zero, add g r.1 :: r.2) else (add g r.1, r.2)
  | _, _ => (zero, [])

/-- The values `cs` at the steps with an event, `zero` at the others. -/
def atEvents (zero : CI) : List Bool → List CI → List CI
  | true :: es, c :: cs => c :: atEvents zero es cs
  | false :: es, cs => zero :: atEvents zero es cs
  | _, _ => []

theorem eventInputs_cons (e : Bool) (x : I) (es : List (Bool × I)) :
    eventInputs ((e, x) :: es) = if e then x :: eventInputs es else eventInputs es := by
  cases e <;> simp [eventInputs]

theorem heldWeights_length (zero : CO) (add : CO → CO → CO) (es : List (Bool × I)) : ∀ gs : List CO, es.length = gs.length →
    (heldWeights zero add (es.map (·.1)) gs).2.length = (eventInputs es).length := by
  induction es with
  | nil => intro gs h; rfl
  | cons e es ih =>
    intro gs h
    cases gs with
    | nil => simp at h
    | cons g gs =>
      obtain ⟨e, x⟩ := e
      have := ih gs (by simpa using h)
      rw [eventInputs_cons]
      cases e <;> simp [heldWeights, this]

/-- The backward pass of `UpdateOnEvent(module)` is that of the module on the inputs with an event, for a module whose pullback sends zeros to zeros. -/
theorem update_on_event_grad_from (d : Pulled S I O CS CI CO) (inv : S → Prop) (okI : I → Prop) (ok : CS → Prop)
    (hinv : ∀ s x, inv s → okI x → inv (d.m.step s x).2)
    (hz : ok d.zeroS) (hok : ∀ s x g c, inv s → okI x → ok c → ok (d.pull s x g c).1)
    (hadd0 : ∀ c, ok c → d.addS d.zeroS c = c) (hadd0' : ∀ c, ok c → d.addS c d.zeroS = c)
    (hpull : ∀ s x, inv s → okI x → d.pull s x d.zeroO d.zeroS = (d.zeroS, d.zeroI)) (es : List (Bool × I)) :
    ∀ (s : S) (gs : List CO), inv s → (∀ e ∈ es, okI e.2) → es.length = gs.length →
      ok (d.gradFrom s (eventInputs es) (heldWeights d.zeroO d.addO (es.map (·.1)) gs).2).1 ∧
      updateOnEventGradFrom d s es gs =
        (((d.gradFrom s (eventInputs es) (heldWeights d.zeroO d.addO (es.map (·.1)) gs).2).1, (heldWeights d.zeroO d.addO (es.map (·.1)) gs).1),
          atEvents d.zeroI (es.map (·.1)) (d.gradFrom s (eventInputs es) (heldWeights d.zeroO d.addO (es.map (·.1)) gs).2).2) := by
  induction es with
  | nil => intro s gs _ _ _; exact ⟨hz, rfl⟩
  | cons e es ih =>
    intro s gs hs hx h
    cases gs with
    | nil => simp at h
    | cons g gs =>
      obtain ⟨e, x⟩ := e
      have hl : es.length = gs.length := by simpa using h
      have hx0 : okI x := hx (e, x) (by simp)
      have hx1 : ∀ e ∈ es, okI e.2 := fun e he => hx e (by simp [he])
      cases e with
      | true =>
        obtain ⟨i1, i2⟩ := ih (d.m.step s x).2 gs (hinv s x hs hx0) hx1 hl
        have hk := hok s x (d.addO g (heldWeights d.zeroO d.addO (es.map (·.1)) gs).1) _ hs hx0 i1
        refine ⟨by simpa [eventInputs_cons, heldWeights, Pulled.gradFrom] using hk, ?_⟩
        simp only [updateOnEventGradFrom, i2, if_true, eventInputs_cons, List.map_cons, heldWeights, Pulled.gradFrom, atEvents]
        rw [hadd0' _ hk]
      | false =>
        obtain ⟨i1, i2⟩ := ih s gs hs hx1 hl
        refine ⟨by simpa [eventInputs_cons, heldWeights] using i1, ?_⟩
        simp only [updateOnEventGradFrom, i2, Bool.false_eq_true, if_false, eventInputs_cons, List.map_cons, heldWeights, atEvents, hpull s x hs hx0]
        rw [hadd0 _ i1]

/-- **C202**: for every module whose pullback sends zeros to zeros (on the states `inv` and inputs `okI`), every stream of flags and inputs and all weights, `jax.grad` through the unrolled
`UpdateOnEvent(module)` is `jax.grad` through the unrolled module on the inputs with an event only, each output having the weights of all the steps during
which it is held; the inputs without event have gradient zero. -/
theorem C202_update_on_event (d : Pulled S I O CS CI CO) (inv : S → Prop) (okI : I → Prop) (ok : CS → Prop) (h0 : inv d.m.init)
    (hinv : ∀ s x, inv s → okI x → inv (d.m.step s x).2)
    (hz : ok d.zeroS) (hok : ∀ s x g c, inv s → okI x → ok c → ok (d.pull s x g c).1)
    (hadd0 : ∀ c, ok c → d.addS d.zeroS c = c) (hadd0' : ∀ c, ok c → d.addS c d.zeroS = c)
    (hpull : ∀ s x, inv s → okI x → d.pull s x d.zeroO d.zeroS = (d.zeroS, d.zeroI))
    (es : List (Bool × I)) (hx : ∀ e ∈ es, okI e.2) (gs : List CO) (hl : es.length = gs.length) :
    updateOnEventGrad d es gs = atEvents d.zeroI (es.map (·.1))
      (d.gradFrom d.m.init (eventInputs es) (heldWeights d.zeroO d.addO (es.map (·.1)) gs).2).2 := by
  unfold updateOnEventGrad
  rw [(update_on_event_grad_from d inv okI ok hinv hz hok hadd0 hadd0' hpull es d.m.init gs h0 hx hl).2]

/-- The weights of all the steps: that of the held output at an event, zero at the others. -/
def selectedWeights (zero : CO) (add : CO → CO → CO) : List Bool → List CO → CO × List CO
  | e :: es, g :: gs =>
    let r := selectedWeights zero add es gs
    if e then (zero, add g r.1 :: r.2) else (add g r.1, zero :: r.2)
  | _, _ => (zero, [])

theorem conditional_grad_from (d : Pulled S I O CS CI CO) (event : I → Bool) (xs : List I) : ∀ (s : S) (gs : List CO), xs.length = gs.length →
    conditionalGradFrom d event s xs gs =
      (((d.gradFrom s xs (selectedWeights d.zeroO d.addO (xs.map event) gs).2).1, (selectedWeights d.zeroO d.addO (xs.map event) gs).1),
        (d.gradFrom s xs (selectedWeights d.zeroO d.addO (xs.map event) gs).2).2) := by
  induction xs with
  | nil => intro s gs _; rfl
  | cons x xs ih =>
    intro s gs h
    cases gs with
    | nil => simp at h
    | cons g gs =>
      have := ih (d.m.step s x).2 gs (by simpa using h)
      simp only [conditionalGradFrom, this, List.map_cons, selectedWeights]
      cases event x <;> simp [Pulled.gradFrom]

/-- **C202**, Flax: `jax.grad` through the unrolled `ConditionalComputation` is `jax.grad` through the unrolled module on all the inputs (its state always
advances), with the weights of the held outputs at the events and zero elsewhere; for every module. -/
theorem C202_conditional_computation (d : Pulled S I O CS CI CO) (event : I → Bool) (xs : List I) (gs : List CO) (hl : xs.length = gs.length) :
    conditionalGrad d event xs gs = (d.gradFrom d.m.init xs (selectedWeights d.zeroO d.addO (xs.map event) gs).2).2 := by
  unfold conditionalGrad
  rw [conditional_grad_from d event xs d.m.init gs hl]

/-- The weights are the right ones: whatever number is read from an output, the weighted sum of the outputs of `UpdateOnEvent(module)` is that of the outputs
of the module on the inputs with an event, plus the initial value for the steps before the first event. -/
theorem C202_held_weights {K : Type} [Field K] (m : Mealy S I O) (v : O) (val : O → K) (es : List (Bool × I)) (gs : List K) (hl : es.length = gs.length) :
    (List.zipWith (fun g o => g * val o) gs ((updateOnEvent m (fun _ => v)).run es)).sum =
      (List.zipWith (fun g o => g * val o) (heldWeights 0 (· + ·) (es.map (·.1)) gs).2 (m.run (eventInputs es))).sum +
        (heldWeights 0 (· + ·) (es.map (·.1)) gs).1 * val v := by
  have key : ∀ (es : List (Bool × I)) (s : S) (c : Option O) (gs : List K), es.length = gs.length →
      (List.zipWith (fun g o => g * val o) gs ((updateOnEvent m (fun _ => v)).outsFrom (s, c) es)).sum =
      (List.zipWith (fun g o => g * val o) (heldWeights 0 (· + ·) (es.map (·.1)) gs).2 (m.outsFrom s (eventInputs es))).sum +
        (heldWeights 0 (· + ·) (es.map (·.1)) gs).1 * val (c.getD v) := by
    intro es
    induction es with
    | nil => intro s c gs _; simp [heldWeights, Mealy.outsFrom, eventInputs]
    | cons e es ih =>
      intro s c gs h
      cases gs with
      | nil => simp at h
      | cons g gs =>
        obtain ⟨e, x⟩ := e
        have hl' : es.length = gs.length := by simpa using h
        cases e with
        | true =>
          rw [Mealy.outsFrom, uoe_step_event, List.zipWith_cons_cons, List.sum_cons, ih _ _ gs hl', eventInputs_cons]
          simp only [if_true, List.map_cons, heldWeights, Mealy.outsFrom, List.zipWith_cons_cons, List.sum_cons, Option.getD_some]
          ring
        | false =>
          rw [Mealy.outsFrom, uoe_step_no, List.zipWith_cons_cons, List.sum_cons, ih _ _ gs hl', eventInputs_cons]
          simp only [Bool.false_eq_true, if_false, List.map_cons, heldWeights, Option.getD_some]
          ring
  exact key es m.init none gs hl

/-- Where the input of an event is among the inputs of the events. -/
theorem event_position (es : List (Bool × I)) : ∀ (t : Nat) (x : I), es[t]? = some (true, x) →
    ∃ k, (eventInputs es)[k]? = some x ∧ (∀ y, eventInputs (es.set t (true, y)) = (eventInputs es).set k y) ∧
      ∀ (z : CI) (cs : List CI), cs.length = (eventInputs es).length → (atEvents z (es.map (·.1)) cs)[t]? = cs[k]? := by
  induction es with
  | nil => intro t x h; simp at h
  | cons e es ih =>
    intro t x h
    obtain ⟨e, y⟩ := e
    cases t with
    | zero =>
      simp only [List.getElem?_cons_zero, Option.some.injEq, Prod.mk.injEq] at h
      obtain ⟨h1, h2⟩ := h
      subst h1; subst h2
      refine ⟨0, by simp [eventInputs_cons], fun z => by simp [eventInputs_cons], fun z cs hc => ?_⟩
      cases cs with
      | nil => simp [eventInputs_cons] at hc
      | cons c cs => rfl
    | succ t =>
      obtain ⟨k, k1, k2, k3⟩ := ih t x (by simpa using h)
      cases e with
      | true =>
        refine ⟨k + 1, by simpa [eventInputs_cons] using k1, fun z => by simp [eventInputs_cons, k2], fun z cs hc => ?_⟩
        cases cs with
        | nil => simp [eventInputs_cons] at hc
        | cons c cs =>
          simp only [List.map_cons, atEvents, List.getElem?_cons_succ]
          exact k3 z cs (by simpa [eventInputs_cons] using hc)
      | false =>
        refine ⟨k, by simpa [eventInputs_cons] using k1, fun z => by simp [eventInputs_cons, k2], fun z cs hc => ?_⟩
        simp only [List.map_cons, atEvents, List.getElem?_cons_succ]
        exact k3 z cs (by simpa [eventInputs_cons] using hc)

theorem no_event (es : List (Bool × I)) : ∀ (t : Nat) (x : I), es[t]? = some (false, x) →
    (∀ y, eventInputs (es.set t (false, y)) = eventInputs es) ∧
      ∀ (z : CI) (cs : List CI), cs.length = (eventInputs es).length → (atEvents z (es.map (·.1)) cs)[t]? = some z := by
  induction es with
  | nil => intro t x h; simp at h
  | cons e es ih =>
    intro t x h
    obtain ⟨e, y⟩ := e
    cases t with
    | zero =>
      simp only [List.getElem?_cons_zero, Option.some.injEq, Prod.mk.injEq] at h
      obtain ⟨h1, h2⟩ := h
      subst h1; subst h2
      exact ⟨fun z => by simp [eventInputs_cons], fun z cs _ => rfl⟩
    | succ t =>
      obtain ⟨k2, k3⟩ := ih t x (by simpa using h)
      cases e with
      | true =>
        refine ⟨fun z => by simp [eventInputs_cons, k2], fun z cs hc => ?_⟩
        cases cs with
        | nil => simp [eventInputs_cons] at hc
        | cons c cs =>
          simp only [List.map_cons, atEvents, List.getElem?_cons_succ]
          exact k3 z cs (by simpa [eventInputs_cons] using hc)
      | false =>
        refine ⟨fun z => by simp [eventInputs_cons, k2], fun z cs hc => ?_⟩
        simp only [List.map_cons, atEvents, List.getElem?_cons_succ]
        exact k3 z cs (by simpa [eventInputs_cons] using hc)

end Generic

/-! ## UpdateOnEvent(RollingMean) -/

section Rolling
variable {K : Type} [Field K] [LinearOrder K] [IsStrictOrderedRing K]

theorem heldWeights_fin (es : List Bool) : ∀ gs : List K, heldWeights (Fl.fin 0) (· + ·) es (gs.map Fl.fin) =
    (Fl.fin (heldWeights (0 : K) (· + ·) es gs).1, (heldWeights (0 : K) (· + ·) es gs).2.map Fl.fin) := by
  induction es with
  | nil => intro gs; rfl
  | cons e es ih =>
    intro gs
    cases gs with
    | nil => rfl
    | cons g gs =>
      simp only [List.map_cons, heldWeights, ih gs]
      cases e <;> simp

theorem rollingPulled_grad (horizon minPeriods : Nat) (h0 : 0 < horizon) (xs : List (Fl K)) : ∀ (s : BufState (Fl K)) (gs : List (Fl K)),
    s.buffer.length = horizon → (rollingMeanPulled horizon minPeriods).gradFrom s xs gs = rollingMeanGradFrom horizon minPeriods s xs gs := by
  have stop : ∀ s : BufState (Fl K), s.buffer.length = horizon → (List.replicate horizon (Fl.fin (0 : K)), ([] : List (Fl K))) =
      (s.buffer.map fun _ => Fl.fin 0, []) := by
    intro s hs
    rw [List.map_const', hs]
  induction xs with
  | nil => intro s gs hs; exact stop s hs
  | cons x xs ih =>
    intro s gs hs
    cases gs with
    | nil => exact stop s hs
    | cons g gs =>
      obtain ⟨_, p2⟩ := bufferApply_push horizon h0 s hs x
      have h := ih (bufferApply horizon x s).2 gs (by rw [p2]; simp; omega)
      have e1 : (rollingMeanPulled (K := K) horizon minPeriods).gradFrom s (x :: xs) (g :: gs) =
          ((bufferPull (List.zipWith (· + ·) (meanPull minPeriods (bufferApply horizon x s).1 g)
              ((rollingMeanPulled horizon minPeriods).gradFrom (bufferApply horizon x s).2 xs gs).1)).1,
           (bufferPull (List.zipWith (· + ·) (meanPull minPeriods (bufferApply horizon x s).1 g)
              ((rollingMeanPulled horizon minPeriods).gradFrom (bufferApply horizon x s).2 xs gs).1)).2 ::
            ((rollingMeanPulled horizon minPeriods).gradFrom (bufferApply horizon x s).2 xs gs).2) := rfl
      rw [e1, h]
      rfl

theorem zipWith_zeros (n : Nat) (c : List (Fl K)) (hc : c.length = n) :
    List.zipWith (· + ·) (List.replicate n (Fl.fin 0)) c = c ∧ List.zipWith (· + ·) c (List.replicate n (Fl.fin 0)) = c := by
  constructor <;>
  · apply List.ext_getElem
    · simp [hc]
    · intro i h1 h2
      simp only [List.getElem_zipWith, List.getElem_replicate]
      first | exact zero_add_fl _ | (generalize c[i] = k; cases k <;> first | rfl | (rw [Fl.fin_add]; simp))

theorem bufferPull_zeros (n : Nat) (h0 : 0 < n) :
    bufferPull (List.replicate n (Fl.fin (0 : K))) = (List.replicate n (Fl.fin 0), Fl.fin 0) := by
  unfold bufferPull
  have e : (List.replicate n (Fl.fin (0 : K))).set ((List.replicate n (Fl.fin (0 : K))).length - 1) (Fl.fin 0) = List.replicate n (Fl.fin 0) := by
    apply List.ext_getElem
    · simp
    · intro i h1 h2
      rw [List.getElem_set]
      simp
  rw [e]
  refine Prod.ext ?_ ?_
  · simp only [List.drop_replicate, List.take_replicate, List.length_replicate, List.replicate_append_replicate]
    congr 1
    omega
  · simp only [look, List.length_replicate]
    rw [List.getD_eq_getElem _ _ (by simp; omega)]
    simp

theorem rollingPulled_zero (horizon minPeriods : Nat) (h0 : 0 < horizon) (s : BufState (Fl K)) (hs : s.buffer.length = horizon) (x : Fl K) :
    (rollingMeanPulled horizon minPeriods).pull s x (Fl.fin 0) (List.replicate horizon (Fl.fin 0)) =
      (List.replicate horizon (Fl.fin 0), Fl.fin 0) := by
  obtain ⟨p1, _⟩ := bufferApply_push horizon h0 s hs x
  have hm : meanPull minPeriods (bufferApply horizon x s).1 (Fl.fin (0 : K)) = List.replicate horizon (Fl.fin 0) := by
    rw [meanPull_eq, p1]
    simp only [mul_zero, ite_self, List.map_const']
    congr 1
    simp; omega
  show bufferPull (List.zipWith (· + ·) (meanPull minPeriods (bufferApply horizon x s).1 (Fl.fin 0)) (List.replicate horizon (Fl.fin 0))) = _
  rw [hm, (zipWith_zeros horizon _ (by simp)).1, bufferPull_zeros horizon h0]

theorem rolling_update_on_event (horizon minPeriods : Nat) (h0 : 0 < horizon) (es : List (Bool × Fl K)) (gs : List (Fl K)) (hl : es.length = gs.length) :
    updateOnEventGrad (rollingMeanPulled horizon minPeriods) es gs = atEvents (Fl.fin 0) (es.map (·.1))
      (rollingMeanGrad horizon minPeriods (eventInputs es) (heldWeights (Fl.fin 0) (· + ·) (es.map (·.1)) gs).2) := by
  have h := C202_update_on_event (rollingMeanPulled (K := K) horizon minPeriods) (fun s => s.buffer.length = horizon) (fun _ => True) (fun c => c.length = horizon)
    (by simp [rollingMeanPulled, rollingMean, buffer, bufferInit])
    (fun s x hs _ => by
      obtain ⟨_, p2⟩ := bufferApply_push horizon h0 s hs x
      show (bufferApply horizon x s).2.buffer.length = horizon
      rw [p2]; simp; omega)
    (by simp [rollingMeanPulled])
    (fun s x g c hs _ hc => by
      obtain ⟨p1, _⟩ := bufferApply_push horizon h0 s hs x
      show (bufferPull (List.zipWith (· + ·) (meanPull minPeriods (bufferApply horizon x s).1 g) c)).1.length = horizon
      rw [p1]
      simp only [bufferPull, meanPull, List.length_append, List.length_drop, List.length_take, List.length_set, List.length_zipWith, List.length_map,
        List.length_singleton, hs, hc]
      omega)
    (fun c hc => (zipWith_zeros horizon c hc).1) (fun c hc => (zipWith_zeros horizon c hc).2)
    (fun s x hs _ => rollingPulled_zero horizon minPeriods h0 s hs x) es (fun _ _ => trivial) gs hl
  rw [h]
  have e := rollingPulled_grad horizon minPeriods h0 (eventInputs es) (bufferInit horizon Fl.nan)
    (heldWeights (Fl.fin 0) (· + ·) (es.map (·.1)) gs).2 (by simp [bufferInit])
  unfold rollingMeanGrad
  rw [← e]
  rfl

/-- The weighted sum of the outputs of `UpdateOnEvent(RollingMean)` that are numbers. -/
def eventLoss (horizon minPeriods : Nat) (es : List (Bool × Fl K)) (gs : List K) : K :=
  (List.zipWith (fun g o => g * numOf o) gs ((updateOnEvent (rollingMean horizon minPeriods) (fun _ => Fl.nan)).run es)).sum

theorem weightedOutputs_zip (horizon minPeriods : Nat) (xs : List (Fl K)) (gs : List K) (hl : xs.length = gs.length) :
    weightedOutputs horizon minPeriods xs gs = (List.zipWith (fun g o => g * numOf o) gs ((rollingMean horizon minPeriods).run xs)).sum := by
  unfold weightedOutputs
  congr 1
  apply List.ext_getElem
  · simp [hl]
  · intro i h1 h2
    have hi : i < gs.length := by simpa using h1
    simp [hi, hl]

/-- **C202** for RollingMean: `jax.grad` through the unrolled `UpdateOnEvent(RollingMean)` is the derivative of the weighted sum of the outputs, for every
pattern of events, whatever the missing values, in inputs with or without event. -/
theorem C202_rolling_mean_true_derivative (horizon minPeriods : Nat) (h0 : 0 < horizon) (es : List (Bool × Fl K)) (hx : NoInf (es.map (·.2))) (gs : List K)
    (hl : es.length = gs.length) (t : Nat) (e : Bool) (a : K) (ht : es[t]? = some (e, .fin a)) :
    ∃ grad : K, (updateOnEventGrad (rollingMeanPulled horizon minPeriods) es (gs.map Fl.fin))[t]? = some (.fin grad) ∧
      ∀ δ : K, eventLoss horizon minPeriods (es.set t (e, .fin (a + δ))) gs = eventLoss horizon minPeriods es gs + δ * grad := by
  obtain ⟨htl, hte⟩ := List.getElem?_eq_some_iff.mp ht
  rw [rolling_update_on_event horizon minPeriods h0 es _ (by simpa using hl), heldWeights_fin]
  have hW : (eventInputs es).length = (heldWeights (0 : K) (· + ·) (es.map (·.1)) gs).2.length := (heldWeights_length 0 (· + ·) es gs hl).symm
  have hlen : ∀ ws : List K, ws.length = (eventInputs es).length →
      (rollingMeanGrad horizon minPeriods (eventInputs es) (ws.map Fl.fin)).length = (eventInputs es).length := by
    intro ws hws
    unfold rollingMeanGrad
    rw [(grad_from horizon minPeriods h0 _ (bufferInit horizon .nan) ws (by simp [bufferInit]) hws.symm).2]
    simp
  have hloss : ∀ es' : List (Bool × Fl K), es'.map (·.1) = es.map (·.1) → (eventInputs es').length = (eventInputs es).length →
      eventLoss horizon minPeriods es' gs =
        weightedOutputs horizon minPeriods (eventInputs es') (heldWeights (0 : K) (· + ·) (es.map (·.1)) gs).2 := by
    intro es' h1 h2
    have hl' : es'.length = gs.length := by
      rw [← hl]; simpa using congrArg List.length h1
    rw [weightedOutputs_zip _ _ _ _ (by rw [h2, hW])]
    unfold eventLoss
    rw [C202_held_weights (rollingMean horizon minPeriods) Fl.nan numOf es' gs hl', h1]
    simp [numOf]
  have hflags : ∀ y : Fl K, (es.set t (e, y)).map (·.1) = es.map (·.1) := by
    intro y
    rw [List.map_set]
    apply List.ext_getElem
    · simp
    · intro i h1 h2
      rw [List.getElem_set]
      split
      · rename_i h; subst h; simp [hte]
      · rfl
  have hnoinf : NoInf (eventInputs es) := by
    intro x hxm
    obtain ⟨p, hp, rfl⟩ := List.mem_map.mp hxm
    exact hx _ (List.mem_map_of_mem (List.mem_filter.mp hp).1)
  cases e with
  | true =>
    obtain ⟨k, k1, k2, k3⟩ := event_position (CI := Fl K) es t (.fin a) ht
    obtain ⟨grad, g1, g2⟩ := C198_true_derivative horizon minPeriods h0 (eventInputs es) hnoinf _ hW k a k1
    refine ⟨grad, by rw [k3 _ _ (hlen _ hW.symm)]; exact g1, fun δ => ?_⟩
    rw [hloss _ (hflags _) (by rw [k2]; simp), hloss es rfl rfl, k2]
    exact g2 δ
  | false =>
    obtain ⟨k2, k3⟩ := no_event (CI := Fl K) es t (.fin a) ht
    refine ⟨0, k3 _ _ (hlen _ hW.symm), fun δ => ?_⟩
    rw [hloss _ (hflags _) (by rw [k2]), hloss es rfl rfl, k2]
    ring

/-! ## UpdateOnEvent(PctChange) -/

/-- The pullback used below is the one of the module alone. -/
theorem pctPulled_grad (F : Fns K) (fz : Bool) (xs : List (Fl K)) : ∀ (s : Fl K × BufState (Fl K)) (gs : List (Fl K)), s.2.buffer.length = 2 →
    (pctChangePulled F fz).gradFrom s xs gs =
      (((pctChangeGradFrom F fz s.1 s.2 xs gs).1, (pctChangeGradFrom F fz s.1 s.2 xs gs).2.1), (pctChangeGradFrom F fz s.1 s.2 xs gs).2.2) := by
  have stop : ∀ s : BufState (Fl K), s.buffer.length = 2 → [Fl.fin (0 : K), Fl.fin 0] = s.buffer.map fun _ => Fl.fin 0 := by
    intro s hs
    rw [List.map_const', hs]; rfl
  induction xs with
  | nil =>
    intro s gs hs
    simp only [Pulled.gradFrom, pctChangeGradFrom, ← stop s.2 hs, pctChangePulled]
  | cons x xs ih =>
    intro s gs hs
    cases gs with
    | nil => simp only [Pulled.gradFrom, pctChangeGradFrom, ← stop s.2 hs, pctChangePulled]
    | cons g gs =>
      obtain ⟨_, p2⟩ := bufferApply_push 2 (by omega) s.2 hs (if x.isNan then s.1 else x)
      have h := ih ((if x.isNan then s.1 else x), (bufferApply 2 (if x.isNan then s.1 else x) s.2).2) gs (by rw [p2]; simp; omega)
      have e1 : ((pctChangePulled F fz).m.step s x).2 = ((if x.isNan then s.1 else x), (bufferApply 2 (if x.isNan then s.1 else x) s.2).2) := rfl
      rw [Pulled.gradFrom, e1, h]
      rfl

/-- **C202**, the hypothesis on the module is needed: with PctChange inside, the inputs that the wrapper ignores are not always without effect on the gradients.  An
input without event at the beginning of the stream has the gradient NaN, whatever the weights. -/
theorem C202_pct_change_leak (F : Fns K) (fz : Bool) (x : Fl K) (es : List (Bool × Fl K)) (g : Fl K) (gs : List (Fl K)) :
    (updateOnEventGrad (pctChangePulled F fz) ((false, x) :: es) (g :: gs))[0]? = some .nan := by
  have hprev : look (bufferApply 2 (if x.isNan then (Fl.nan : Fl K) else x) (bufferInit 2 Fl.nan)).1 0 = .nan := by
    rw [(bufferApply_push 2 (by omega) (bufferInit 2 Fl.nan) rfl _).1]; rfl
  have h : ∀ c, ((pctChangePulled F fz).pull (Fl.nan, bufferInit 2 Fl.nan) x (Fl.fin 0) c).2 = .nan := by
    intro c
    show (pctPull F fz x (look (bufferApply 2 (if x.isNan then Fl.nan else x) (bufferInit 2 Fl.nan)).1 0) (Fl.fin 0)).1 + _ = Fl.nan
    rw [hprev, pctPull_eq]
    simp [pctCotangents]
  have e : (updateOnEventGrad (pctChangePulled F fz) ((false, x) :: es) (g :: gs))[0]? =
      some ((pctChangePulled F fz).pull (Fl.nan, bufferInit 2 Fl.nan) x (Fl.fin 0) (Fl.fin 0, [Fl.fin 0, Fl.fin 0])).2 := rfl
  rw [e, h]

end Rolling

/-- Window 2; events at steps 1, 3 and 4.  Step 2 returns the output of step 1 again, so it counts twice. -/
example : updateOnEventGrad (rollingMeanPulled (K := ℚ) 2 1) [(false, .fin 9), (true, .fin 3), (false, .fin 7), (true, .fin 5), (true, .fin 1)]
    ([1, 10, 100, 1000, 10000].map Fl.fin) = [.fin 0, .fin (110 + 500), .fin 0, .fin (500 + 5000), .fin 5000] := by
  decide +kernel

example : conditionalGrad (rollingMeanPulled (K := ℚ) 2 1) (fun x => Fl.lt (.fin 4) x) [.fin 3, .fin 7, .fin 1, .fin 5]
    ([1, 10, 100, 1000].map Fl.fin) = [.fin 55, .fin 55, .fin 500, .fin 500] := by
  decide +kernel

end Verif.Props
