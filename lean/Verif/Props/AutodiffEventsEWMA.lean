import Verif.Props.AutodiffEvents
import Verif.Props.AutodiffEWMA

/-! # C203: gradients through UpdateOnEvent(EWMA) and ConditionalComputation(EWMA) -/

namespace Verif.Props
open Verif Verif.Spec Verif.Model Verif.Model.Events Verif.Model.Autodiff Filter Topology
set_option linter.unusedSectionVars false

/-- The backward pass of the module as used in C202 is that of C185. -/
theorem ewmaPulled_grad {K : Type} [Field K] [LinearOrder K] (F : Fns K) (keep : Nat)
    (step : EWMACfg K → EWMAState K → Fl K → EWMAOut K × EWMAState K) (c : EWMACfg K) (l : K) (xs : List (Fl K)) :
    ∀ (s : EWMAState K) (gs : List (Fl K)), (ewmaPulled F keep step c l).gradFrom s xs gs =
      (((ewmaGrad F keep step c l s xs gs).mean, (ewmaGrad F keep step c l s xs gs).oldWt, (ewmaGrad F keep step c l s xs gs).logcom),
        (ewmaGrad F keep step c l s xs gs).xs) := by
  induction xs with
  | nil => intro s gs; rfl
  | cons x xs ih =>
    intro s gs
    cases gs with
    | nil => rfl
    | cons g gs =>
      have h := ih (step c s x).2 gs
      have e : (ewmaPulled F keep step c l).gradFrom s (x :: xs) (g :: gs) =
          ((ewmaPulled F keep step c l).pull s x g ((ewmaPulled F keep step c l).gradFrom (step c s x).2 xs gs).1 |>.1,
           ((ewmaPulled F keep step c l).pull s x g ((ewmaPulled F keep step c l).gradFrom (step c s x).2 xs gs).1).2 ::
            ((ewmaPulled F keep step c l).gradFrom (step c s x).2 xs gs).2) := rfl
      rw [e, h]
      rfl

/-- The states of EWMA: the mean is missing or a number and the weight is a non-negative number. -/
def EwmaReach (s : EWMAState ℝ) : Prop := NumOrNan s.mean ∧ ∃ w : ℝ, s.oldWt = .fin w ∧ 0 ≤ w

/-- A call that does not contribute to the loss has no gradient. -/
theorem ewmaPulled_zero (keep : Nat) (step : EWMACfg ℝ → EWMAState ℝ → Fl ℝ → EWMAOut ℝ × EWMAState ℝ) (c : EWMACfg ℝ) (ha : c.adjust ≠ .linear) (l : ℝ)
    (s : EWMAState ℝ) (x : Fl ℝ) (hs : EwmaReach s) (hx : NumOrNan x) :
    (ewmaPulled realFns keep step c l).pull s x (.fin 0) (.fin 0, .fin 0, .fin 0) = ((.fin 0, .fin 0, .fin 0), .fin 0) := by
  obtain ⟨hm, w, hw, hw0⟩ := hs
  obtain ⟨pl, pm, pw, px, p1, p2⟩ := ewmaPull_adjoint keep c ha l s x hm hx w hw hw0 0 0 0
  have hl := p2 1 0 0 0
  have hm' := p2 0 1 0 0
  have hw' := p2 0 0 1 0
  have hx' := p2 0 0 0 1
  simp only [mul_one, mul_zero, add_zero, zero_add, zero_mul] at hl hm' hw' hx'
  show ((_, _, _), _) = _
  rw [p1]
  simp [hl, hm', hw', hx']

theorem ewma_update_on_event (keep : Nat) (step : EWMACfg ℝ → EWMAState ℝ → Fl ℝ → EWMAOut ℝ × EWMAState ℝ) (hG : GoodStep step)
    (c : EWMACfg ℝ) (ha : c.adjust ≠ .linear) (l : ℝ) (hc : c.com = Real.exp l) (hi : NumOrNan c.initial)
    (es : List (Bool × Fl ℝ)) (hx : ∀ e ∈ es, NumOrNan e.2) (gs : List (Fl ℝ)) (hl : es.length = gs.length) :
    let d := ewmaPulled realFns keep step c l
    let r := ewmaGrad realFns keep step c l ⟨c.initial, Fl.fin 1, 0⟩ (eventInputs es) (heldWeights (Fl.fin 0) (· + ·) (es.map (·.1)) gs).2
    (updateOnEventGradFrom d d.m.init es gs).1.1.2.2 = r.logcom ∧
      (updateOnEventGradFrom d d.m.init es gs).2 = atEvents (Fl.fin 0) (es.map (·.1)) r.xs := by
  intro d r
  have h := (update_on_event_grad_from d EwmaReach NumOrNan (fun _ => True)
    (fun s x hs hx => by
      obtain ⟨hm, w, hw, hw0⟩ := hs
      obtain ⟨g1, g2, _⟩ := hG c l ha hc s x w hm hx hw hw0
      exact ⟨g1, g2⟩)
    trivial (fun _ _ _ _ _ _ _ => trivial)
    (fun k _ => by
      show (_, _, _) = _
      simp only [d, ewmaPulled, zero_add_fl])
    (fun k _ => by
      show (_, _, _) = _
      simp only [d, ewmaPulled, add_zero_fl])
    (fun s x hs hx => ewmaPulled_zero keep step c ha l s x hs hx) es d.m.init gs ⟨hi, 1, rfl, by norm_num⟩ hx hl).2
  have e := ewmaPulled_grad realFns keep step c l (eventInputs es) ⟨c.initial, Fl.fin 1, 0⟩ (heldWeights (Fl.fin 0) (· + ·) (es.map (·.1)) gs).2
  rw [h]
  change (d.gradFrom d.m.init (eventInputs es) (heldWeights (Fl.fin 0) (· + ·) (es.map (·.1)) gs).2) = _ at e
  constructor
  · show (d.gradFrom d.m.init (eventInputs es) (heldWeights (Fl.fin 0) (· + ·) (es.map (·.1)) gs).2).1.2.2 = _
    rw [e]
  · show atEvents (Fl.fin 0) (es.map (·.1)) (d.gradFrom d.m.init (eventInputs es) (heldWeights (Fl.fin 0) (· + ·) (es.map (·.1)) gs).2).2 = _
    rw [e]

/-! ## The derivative -/

/-- A stream of flags and inputs, the inputs moved by `ε ds`. -/
noncomputable def movedEvents (ε : ℝ) (es : List (Bool × Fl ℝ)) (ds : List ℝ) : List (Bool × Fl ℝ) :=
  List.zipWith (fun e d => (e.1, moved ε e.2 d)) es ds

theorem movedEvents_flags (ε : ℝ) (es : List (Bool × Fl ℝ)) : ∀ ds : List ℝ, ds.length = es.length → (movedEvents ε es ds).map (·.1) = es.map (·.1) := by
  induction es with
  | nil => intro ds _; rfl
  | cons e es ih =>
    intro ds h
    cases ds with
    | nil => simp at h
    | cons d ds =>
      have := ih ds (by simpa using h)
      simp only [movedEvents] at this
      simp [movedEvents, this]

theorem movedEvents_inputs (ε : ℝ) (es : List (Bool × Fl ℝ)) : ∀ ds : List ℝ, ds.length = es.length →
    eventInputs (movedEvents ε es ds) = List.zipWith (moved ε) (eventInputs es) (eventInputs ((es.map (·.1)).zip ds)) := by
  induction es with
  | nil => intro ds _; rfl
  | cons e es ih =>
    intro ds h
    cases ds with
    | nil => simp at h
    | cons d ds =>
      obtain ⟨e, x⟩ := e
      have := ih ds (by simpa using h)
      simp only [movedEvents] at this
      simp only [movedEvents, List.zipWith_cons_cons, List.map_cons, List.zip_cons_cons, eventInputs_cons, this]
      cases e <;> simp

theorem eventInputs_zip_length (es : List (Bool × Fl ℝ)) : ∀ ds : List ℝ, ds.length = es.length →
    (eventInputs ((es.map (·.1)).zip ds)).length = (eventInputs es).length := by
  induction es with
  | nil => intro ds _; rfl
  | cons e es ih =>
    intro ds h
    cases ds with
    | nil => simp at h
    | cons d ds =>
      obtain ⟨e, x⟩ := e
      have := ih ds (by simpa using h)
      simp only [List.map_cons, List.zip_cons_cons, eventInputs_cons]
      cases e <;> simp [this]

theorem atEvents_fin (flags : List Bool) : ∀ gx : List ℝ, atEvents (Fl.fin 0) flags (gx.map Fl.fin) = (atEvents 0 flags gx).map Fl.fin := by
  induction flags with
  | nil => intro gx; rfl
  | cons e es ih =>
    intro gx
    cases e with
    | false => simp [atEvents, ih]
    | true => cases gx <;> simp [atEvents, ih]

theorem atEvents_dot (flags : List Bool) : ∀ (gx ds : List ℝ), ds.length = flags.length → gx.length = (eventInputs (flags.zip ds)).length →
    dotL (atEvents 0 flags gx) ds = dotL gx (eventInputs (flags.zip ds)) ∧ (atEvents 0 flags gx).length = flags.length := by
  induction flags with
  | nil => intro gx ds _ h; cases gx <;> simp_all [atEvents, eventInputs, dotL]
  | cons e es ih =>
    intro gx ds h h'
    cases ds with
    | nil => simp at h
    | cons d ds =>
      have hd : ds.length = es.length := by simpa using h
      rw [List.zip_cons_cons, eventInputs_cons] at h' ⊢
      cases e with
      | false =>
        obtain ⟨i1, i2⟩ := ih gx ds hd (by simpa using h')
        refine ⟨?_, by simp [atEvents, i2]⟩
        simp only [dotL] at i1
        simp [atEvents, dotL, i1]
      | true =>
        cases gx with
        | nil => simp at h'
        | cons a gx =>
          obtain ⟨i1, i2⟩ := ih gx ds hd (by simpa using h')
          refine ⟨?_, by simp [atEvents, i2]⟩
          simp only [dotL] at i1
          simp [atEvents, dotL, i1]

/-- The outputs of the unrolled `UpdateOnEvent(EWMA)`, `com = exp(logcom)`; `v` is the initial output. -/
noncomputable def eventOutputs (c : EWMACfg ℝ) (v : EWMAOut ℝ) (logcom : ℝ) (es : List (Bool × Fl ℝ)) : List (Fl ℝ) :=
  ((updateOnEvent (ewma { c with com := Real.exp logcom }) (fun _ => v)).run es).map (·.value)

/-- **C203 (Haiku).** `jax.grad` through the unrolled `UpdateOnEvent(EWMA)`, with `adjust` True or False: for every pattern of events, every stream of
numbers and missing values (at the steps with or without event), every weighted sum of the outputs, every `ignore_na`, `min_periods`, initial value and initial
output, the gradients are numbers, and they are the derivatives of the loss along every direction `(dl, ds)` of the parameter and of the data. -/
theorem C203_update_on_event_ewma (c : EWMACfg ℝ) (ha : c.adjust ≠ .linear) (logcom : ℝ) (hi : NumOrNan c.initial) (v : EWMAOut ℝ)
    (es : List (Bool × Fl ℝ)) (hx : ∀ e ∈ es, NumOrNan e.2) (gs : List ℝ) (hl : gs.length = es.length) :
    ∃ gl : ℝ, ∃ gx : List ℝ, gx.length = es.length ∧
      updateOnEventEwmaGrad realFns { c with com := Real.exp logcom } logcom es (gs.map Fl.fin) = (.fin gl, gx.map Fl.fin) ∧
      ∀ (dl : ℝ) (ds : List ℝ), ds.length = es.length →
        HasDerivAt (fun ε => weighted gs (eventOutputs c v (logcom + ε * dl) (movedEvents ε es ds))) (gl * dl + dotL gx ds) 0 := by
  have hle : es.length = gs.length := hl.symm
  have hW := heldWeights_length (0 : ℝ) (· + ·) es gs hle
  obtain ⟨gl, gx, g1, g2, g3, g4⟩ := C185_haiku_ewma_gradient c ha logcom hi (eventInputs es) (heldWeights (0 : ℝ) (· + ·) (es.map (·.1)) gs).2 hW
    (by
      intro x hxm
      obtain ⟨p, hp, rfl⟩ := List.mem_map.mp hxm
      exact hx _ (List.mem_filter.mp hp).1)
  obtain ⟨h1, h2⟩ := ewma_update_on_event 13 ewmaStep good_haiku { c with com := Real.exp logcom } ha logcom rfl hi es hx (gs.map Fl.fin) (by simpa using hle)
  rw [heldWeights_fin] at h1 h2
  simp only [haikuEwmaGrad] at g2 g3
  refine ⟨gl, atEvents 0 (es.map (·.1)) gx, ?_, ?_, ?_⟩
  · have := (atEvents_dot (es.map (·.1)) gx (List.replicate es.length 0) (by simp)
      (by rw [eventInputs_zip_length _ _ (by simp)]; exact g1)).2
    simpa using this
  · rw [← atEvents_fin]
    exact Prod.ext (h1.trans g2) (h2.trans (by rw [g3]))
  · intro dl ds hd
    have hz := eventInputs_zip_length es ds hd
    rw [(atEvents_dot (es.map (·.1)) gx ds (by simpa using hd) (by rw [hz]; exact g1)).1]
    have := (g4 dl (eventInputs ((es.map (·.1)).zip ds)) hz).add_const ((heldWeights (0 : ℝ) (· + ·) (es.map (·.1)) gs).1 * numIn v.value)
    refine this.congr_of_eventuallyEq (Filter.Eventually.of_forall fun ε => ?_)
    have hm := movedEvents_flags ε es ds hd
    have hml : (movedEvents ε es ds).length = gs.length := by rw [hl]; simpa using congrArg List.length hm
    have hh := C202_held_weights (ewma { c with com := Real.exp (logcom + ε * dl) }) v (fun o => numIn o.value) (movedEvents ε es ds) gs hml
    rw [hm, movedEvents_inputs ε es ds hd] at hh
    simp only [weighted, eventOutputs, haikuOutputs, List.zipWith_map_right]
    exact hh

/-! ## Flax ConditionalComputation -/

/-- The weights of the selected outputs are the right ones. -/
theorem selected_weights {S I O K : Type} [Field K] (m : Mealy S I O) (event : I → Bool) (v : O) (val : O → K) (xs : List I) (gs : List K)
    (hl : xs.length = gs.length) :
    (List.zipWith (fun g o => g * val o) gs ((conditionalComputation m (fun _ => v) (some event)).run xs)).sum =
      (List.zipWith (fun g o => g * val o) (selectedWeights 0 (· + ·) (xs.map event) gs).2 (m.run xs)).sum +
        (selectedWeights 0 (· + ·) (xs.map event) gs).1 * val v := by
  have key : ∀ (xs : List I) (s : S) (c : Option O) (gs : List K), xs.length = gs.length →
      (List.zipWith (fun g o => g * val o) gs ((conditionalComputation m (fun _ => v) (some event)).outsFrom (s, c) xs)).sum =
      (List.zipWith (fun g o => g * val o) (selectedWeights 0 (· + ·) (xs.map event) gs).2 (m.outsFrom s xs)).sum +
        (selectedWeights 0 (· + ·) (xs.map event) gs).1 * val (c.getD v) := by
    intro xs
    induction xs with
    | nil => intro s c gs _; simp [selectedWeights, Mealy.outsFrom]
    | cons x xs ih =>
      intro s c gs h
      cases gs with
      | nil => simp at h
      | cons g gs =>
        have hl' : xs.length = gs.length := by simpa using h
        have e : (conditionalComputation m (fun _ => v) (some event)).step (s, c) x =
            ((if event x then (m.step s x).1 else c.getD v),
              ((m.step s x).2, some (if event x then (m.step s x).1 else c.getD v))) := rfl
        rw [Mealy.outsFrom, e, List.zipWith_cons_cons, List.sum_cons, ih _ _ gs hl']
        simp only [List.map_cons, selectedWeights, Mealy.outsFrom]
        cases event x <;> simp <;> ring
  exact key xs m.init none gs hl

theorem selectedWeights_fin (es : List Bool) : ∀ gs : List ℝ, selectedWeights (Fl.fin 0) (· + ·) es (gs.map Fl.fin) =
    (Fl.fin (selectedWeights (0 : ℝ) (· + ·) es gs).1, (selectedWeights (0 : ℝ) (· + ·) es gs).2.map Fl.fin) := by
  induction es with
  | nil => intro gs; rfl
  | cons e es ih =>
    intro gs
    cases gs with
    | nil => rfl
    | cons g gs =>
      simp only [List.map_cons, selectedWeights, ih gs]
      cases e <;> simp

theorem selectedWeights_length {K : Type} [Field K] (es : List Bool) : ∀ gs : List K, es.length = gs.length →
    (selectedWeights (0 : K) (· + ·) es gs).2.length = es.length := by
  induction es with
  | nil => intro gs _; rfl
  | cons e es ih =>
    intro gs h
    cases gs with
    | nil => simp at h
    | cons g gs =>
      have := ih gs (by simpa using h)
      cases e <;> simp [selectedWeights, this]

/-- The outputs of the unrolled Flax `ConditionalComputation(EWMA)`, `com = exp(logcom)`; `v` is the initial output. -/
noncomputable def conditionalOutputs (c : EWMACfg ℝ) (event : Fl ℝ → Bool) (v : EWMAOut ℝ) (logcom : ℝ) (xs : List (Fl ℝ)) : List (Fl ℝ) :=
  ((conditionalComputation (flaxEwma { c with com := Real.exp logcom }) (fun _ => v) (some event)).run xs).map (·.value)

/-- **C203 (Flax).** The same for the Flax `ConditionalComputation(EWMA)`: the derivative is that at a stream where the events do not change under small moves of the
inputs. -/
theorem C203_conditional_ewma (c : EWMACfg ℝ) (ha : c.adjust ≠ .linear) (logcom : ℝ) (hi : NumOrNan c.initial) (event : Fl ℝ → Bool) (v : EWMAOut ℝ)
    (xs : List (Fl ℝ)) (hx : ∀ x ∈ xs, NumOrNan x) (hev : ∀ x ∈ xs, ∀ d : ℝ, ∀ᶠ ε in 𝓝 0, event (moved ε x d) = event x)
    (gs : List ℝ) (hl : gs.length = xs.length) :
    ∃ gl : ℝ, ∃ gx : List ℝ, gx.length = xs.length ∧
      conditionalEwmaGrad realFns { c with com := Real.exp logcom } logcom event xs (gs.map Fl.fin) = (.fin gl, gx.map Fl.fin) ∧
      ∀ (dl : ℝ) (ds : List ℝ), ds.length = xs.length →
        HasDerivAt (fun ε => weighted gs (conditionalOutputs c event v (logcom + ε * dl) (List.zipWith (moved ε) xs ds))) (gl * dl + dotL gx ds) 0 := by
  have hW := selectedWeights_length (xs.map event) gs (by simp [hl])
  obtain ⟨gl, gx, g1, g2, g3, g4⟩ := C185_flax_ewma_gradient c ha logcom hi xs (selectedWeights (0 : ℝ) (· + ·) (xs.map event) gs).2 (by simpa using hW) hx
  simp only [flaxEwmaGrad] at g2 g3
  have h := conditional_grad_from (ewmaPulled realFns 1 flaxEwmaStep { c with com := Real.exp logcom } logcom) event xs ⟨c.initial, Fl.fin 1, 0⟩
    (gs.map Fl.fin) (by simp [hl])
  rw [ewmaPulled_grad] at h
  refine ⟨gl, gx, g1, ?_, ?_⟩
  · have e : conditionalEwmaGrad realFns { c with com := Real.exp logcom } logcom event xs (gs.map Fl.fin) =
      ((conditionalGradFrom (ewmaPulled realFns 1 flaxEwmaStep { c with com := Real.exp logcom } logcom) event ⟨c.initial, Fl.fin 1, 0⟩ xs (gs.map Fl.fin)).1.1.2.2,
       (conditionalGradFrom (ewmaPulled realFns 1 flaxEwmaStep { c with com := Real.exp logcom } logcom) event ⟨c.initial, Fl.fin 1, 0⟩ xs (gs.map Fl.fin)).2) := rfl
    rw [e, h]
    have e2 : (selectedWeights (ewmaPulled realFns 1 flaxEwmaStep { c with com := Real.exp logcom } logcom).zeroO
        (ewmaPulled realFns 1 flaxEwmaStep { c with com := Real.exp logcom } logcom).addO (xs.map event) (gs.map Fl.fin)) =
        (Fl.fin (selectedWeights (0 : ℝ) (· + ·) (xs.map event) gs).1, (selectedWeights (0 : ℝ) (· + ·) (xs.map event) gs).2.map Fl.fin) :=
      selectedWeights_fin _ gs
    rw [e2]
    exact Prod.ext g2 g3
  · intro dl ds hd
    have hd4 := (g4 dl ds hd).add_const ((selectedWeights (0 : ℝ) (· + ·) (xs.map event) gs).1 * numIn v.value)
    have hall : ∀ᶠ ε in 𝓝 (0 : ℝ), (List.zipWith (moved ε) xs ds).map event = xs.map event := by
      clear g1 g2 g3 g4 h hd4 hW hl
      induction xs generalizing ds with
      | nil => exact Filter.Eventually.of_forall fun ε => rfl
      | cons x xs ih =>
        cases ds with
        | nil => simp at hd
        | cons d ds =>
          filter_upwards [hev x (by simp) d, ih (fun y hy => hx y (by simp [hy])) (fun y hy => hev y (by simp [hy])) ds (by simpa using hd)] with ε a b
          simp [a, b]
    refine hd4.congr_of_eventuallyEq ?_
    filter_upwards [hall] with ε hm
    have hh := selected_weights (flaxEwma { c with com := Real.exp (logcom + ε * dl) }) event v (fun o => numIn o.value) (List.zipWith (moved ε) xs ds) gs
      (by simp [hl, hd])
    rw [hm] at hh
    simp only [weighted, conditionalOutputs, flaxOutputs, List.zipWith_map_right]
    exact hh

/-- A threshold event: the inputs away from the threshold meet the hypothesis. -/
theorem threshold_event (a : ℝ) (x : Fl ℝ) (hx : x = .nan ∨ ∃ b, x = .fin b ∧ b ≠ a) (d : ℝ) :
    ∀ᶠ ε in 𝓝 (0 : ℝ), Fl.lt (.fin a) (moved ε x d) = Fl.lt (.fin a) x := by
  rcases hx with rfl | ⟨b, rfl, hb⟩
  · exact Filter.Eventually.of_forall fun ε => rfl
  · have hc : Filter.Tendsto (fun ε : ℝ => b + ε * d) (𝓝 0) (𝓝 b) := by
      have : Continuous fun ε : ℝ => b + ε * d := by fun_prop
      simpa using this.tendsto 0
    rcases lt_or_gt_of_ne hb with h | h
    · filter_upwards [hc.eventually (gt_mem_nhds h)] with ε hε
      simp only [moved, Fl.lt]
      simp [not_lt.mpr hε.le, not_lt.mpr h.le]
    · filter_upwards [hc.eventually (lt_mem_nhds h)] with ε hε
      simp only [moved, Fl.lt]
      simp [hε, h]

/-- Events at the first and the last steps, with a missing value and a step without event between them. -/
example : (updateOnEventEwmaGrad (K := ℚ) ⟨fun _ => 1, id⟩ ⟨1, .yes, false, 0, .nan, 1⟩ 0
    [(true, .fin 1), (false, .fin 8), (true, .nan), (true, .fin 4)] [.fin 0, .fin 0, .fin 0, .fin 1]).2 =
    [.fin (1 / 5), .fin 0, .fin 0, .fin (4 / 5)] := by decide +kernel

example : (conditionalEwmaGrad (K := ℚ) ⟨fun _ => 1, id⟩ ⟨1, .yes, false, 0, .nan, 1⟩ 0 (Fl.lt (.fin 3))
    [.fin 1, .nan, .fin 4, .fin 2] [.fin 0, .fin 0, .fin 0, .fin 1]).2 =
    [.fin (1 / 5), .fin 0, .fin (4 / 5), .fin 0] := by decide +kernel

example : ∃ gl : ℝ, ∃ gx : List ℝ, gx.length = 3 ∧
    updateOnEventEwmaGrad realFns ⟨Real.exp 0, .yes, false, 0, .nan, 1⟩ 0 [(true, .fin 1), (false, .nan), (true, .fin 4)] ([1, 2, 3].map Fl.fin) =
      (.fin gl, gx.map Fl.fin) := by
  obtain ⟨gl, gx, h1, h2, -⟩ := C203_update_on_event_ewma ⟨0, .yes, false, 0, .nan, 1⟩ (by simp) 0 (Or.inl rfl) ⟨.nan, .nan, 0⟩
    [(true, .fin 1), (false, .nan), (true, .fin 4)] (by
      intro x hx
      simp only [List.mem_cons, List.not_mem_nil, or_false] at hx
      rcases hx with rfl | rfl | rfl
      · exact Or.inr ⟨1, rfl⟩
      · exact Or.inl rfl
      · exact Or.inr ⟨4, rfl⟩) [1, 2, 3] rfl
  exact ⟨gl, gx, h1, h2⟩

end Verif.Props
