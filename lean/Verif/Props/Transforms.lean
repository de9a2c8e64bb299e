import Verif.Model.Transforms
import Verif.Props.Optim
import Verif.Props.Pipeline
import Verif.Props.Windows
import Mathlib.Analysis.Calculus.Deriv.Pow
import Mathlib.Analysis.Calculus.Deriv.Mul
import Mathlib.Analysis.Calculus.Deriv.Add
import Mathlib.Tactic.LinearCombination
import Mathlib.Tactic.FieldSimp

/-! # Properties of the streaming decorators (C91–C97) -/

set_option linter.unusedSectionVars false

namespace Verif.Props
open Verif.Model Verif.Model.Unroll Verif.Model.Events Verif.Model.Transforms

section Optimizer
variable {O X Y A K M : Type} [One K] [Add K]

/-! ## C91: streaming_optimizer evaluates, then learns, with the given optimiser -/

/-- C91: for every model, optimiser, loss and stream there are scales `s 0 = 1, s 1, ...` and optimiser states `o 0 = init 1,
o 1, ...` such that step `t` returns the loss of the model's output times `s t` (the scale learnt from the earlier steps
only), the model's own output, and the new scale `s (t+1)`, where `(s (t+1), o (t+1))` is one step of the optimiser on the
gradient at `s t`. -/
theorem C91_replay (grad : (K → K) → K → K) (opt : ScalarOpt O K) (loss : Y → X → K) (mul : Y → K → Y)
    (model : Mealy M (X × List X) (Y × A)) (xs : List (X × List X)) :
    ∃ (s : Nat → K) (o : Nat → O), s 0 = 1 ∧ o 0 = opt.init 1 ∧
      ∀ t (ht : t < xs.length) (y : Y) (a : A), (model.run xs)[t]? = some (y, a) →
        let target := match xs[t].2 with
          | second :: _ => second
          | [] => xs[t].1
        let L : K → K := fun p => loss (mul y p) target
        ((streamingOptimizer grad opt loss mul model).run xs)[t]? =
            some ((L (s t), y, a), (s (t + 1), grad L (s t))) ∧
          s (t + 1) = s t + (opt.update (grad L (s t)) (o t) (s t)).1 ∧
          o (t + 1) = (opt.update (grad L (s t)) (o t) (s t)).2 := by
  set m := streamingOptimizer grad opt loss mul model with hm
  refine ⟨fun t => (m.stateAfter (xs.take t)).2.1, fun t => (m.stateAfter (xs.take t)).2.2, ?_, ?_, ?_⟩
  · simp [hm, streamingOptimizer, Mealy.stateAfter, Mealy.stateFrom]
  · simp [hm, streamingOptimizer, Mealy.stateAfter, Mealy.stateFrom]
  · intro t ht y a hy
    have hmod : ∀ ys, (m.stateAfter ys).1 = model.stateAfter ys := by
      intro ys
      induction ys using List.reverseRecOn with
      | nil => rfl
      | append_singleton ys y ih =>
        rw [Mealy.stateAfter_append_singleton, Mealy.stateAfter_append_singleton, ← ih]; rfl
    have hout := Mealy.outsFrom_getElem? m m.init xs t
    have hout' := Mealy.outsFrom_getElem? model model.init xs t
    simp only [Mealy.run] at hy ⊢
    rw [hout'] at hy
    rw [hout]
    rw [List.getElem?_eq_getElem ht] at hy ⊢
    simp only [Option.map_some, Option.some.injEq] at hy ⊢
    have hs : m.stateAfter (xs.take (t + 1)) = (m.step (m.stateAfter (xs.take t)) xs[t]).2 := by
      rw [List.take_succ_eq_append_getElem ht, Mealy.stateAfter_append_singleton]
    rw [hs]
    have hst : m.stateFrom m.init (xs.take t) = m.stateAfter (xs.take t) := rfl
    have hst' : model.stateFrom model.init (xs.take t) = (m.stateAfter (xs.take t)).1 := (hmod _).symm
    rw [hst]
    rw [hst'] at hy
    generalize m.stateAfter (xs.take t) = st at *
    have hop : optTarget xs[t] = (match xs[t].2 with
          | second :: _ => second
          | [] => xs[t].1) := rfl
    simp only [hm, streamingOptimizer, hy, hop]
    refine ⟨?_, ?_, ?_⟩ <;> trivial

/-- C91: a three-argument function such as `f(price, volume, target)` is trained on its second argument: two streams with the
same first two arguments, on which the model gives the same outputs, give the same losses, gradients and scales, whatever
the other arguments. -/
theorem C91_third_argument_ignored (grad : (K → K) → K → K) (opt : ScalarOpt O K) (loss : Y → X → K) (mul : Y → K → Y)
    (model : Mealy M (X × List X) (Y × A)) (hmodel : ∀ s a b r r', model.step s (a, b :: r) = model.step s (a, b :: r'))
    (xs : List (X × X × List X × List X)) :
    (streamingOptimizer grad opt loss mul model).run (xs.map fun q => (q.1, q.2.1 :: q.2.2.1)) =
    (streamingOptimizer grad opt loss mul model).run (xs.map fun q => (q.1, q.2.1 :: q.2.2.2)) := by
  simp only [Mealy.run]
  generalize (streamingOptimizer grad opt loss mul model).init = s
  induction xs generalizing s with
  | nil => rfl
  | cons q xs ih =>
    simp only [List.map_cons, Mealy.outsFrom]
    have e : (streamingOptimizer grad opt loss mul model).step s (q.1, q.2.1 :: q.2.2.1) =
        (streamingOptimizer grad opt loss mul model).step s (q.1, q.2.1 :: q.2.2.2) := by
      simp only [streamingOptimizer, optTarget, hmodel s.1 q.1 q.2.1 q.2.2.1 q.2.2.2]
    rw [e, ih]

end Optimizer

/-- The derivative used by `jax.grad` on the squared loss. -/
theorem deriv_sq_loss (y t s : ℝ) : deriv (fun p => (y * p - t) ^ 2) s = 2 * y * (y * s - t) := by
  have h : HasDerivAt (fun p : ℝ => (y * p - t) ^ 2) (2 * (y * s - t) ^ (2 - 1) * (y * 1)) s :=
    (((hasDerivAt_id s).const_mul y).sub_const t).pow 2
  rw [h.deriv]; ring

/-- C91: with SGD, the squared loss and targets that are `c` times the model's output, the scale error is multiplied by
`1 - 2·lr·y²` at each step: the scale after `t` steps is `c + (1-c)·Π (1 - 2·lr·y_i²)`. -/
theorem C91_sgd_scale {M A : Type} (lr c : ℝ) (model : Mealy M (ℝ × List ℝ) (ℝ × A)) (xs : List (ℝ × List ℝ))
    (ys : List ℝ) (hys : (model.run xs).map Prod.fst = ys)
    (htarget : ∀ t (ht : t < xs.length), ∃ r, xs[t].2 = (c * ys.getD t 0) :: r) (t : Nat) (ht : t < xs.length) :
    let out := (streamingOptimizer deriv (plainSgd lr) (fun p y => (p - y) ^ 2) (· * ·) model).run xs
    let err : Nat → ℝ := fun t => (1 - c) * ((ys.take t).map fun y => 1 - 2 * lr * y ^ 2).prod
    ∃ o, out[t]? = some o ∧ o.1.1 = (ys.getD t 0 * err t) ^ 2 ∧ o.2.1 = c + err (t + 1) := by
  intro out err
  obtain ⟨s, o, h0, -, h⟩ := C91_replay deriv (plainSgd lr) (fun p y => (p - y) ^ 2) (· * ·) model xs
  have hlen : (model.run xs).length = xs.length := Mealy.run_length _ _
  have hyl : ys.length = xs.length := by rw [← hys, List.length_map, hlen]
  have hmodel : ∀ t (ht : t < xs.length), ∃ a, (model.run xs)[t]? = some (ys.getD t 0, a) := by
    intro t ht
    have : (model.run xs)[t]? = some ((model.run xs)[t]'(by omega)) := List.getElem?_eq_getElem _
    refine ⟨((model.run xs)[t]'(by omega)).2, ?_⟩
    have e : ys.getD t 0 = ((model.run xs)[t]'(by omega)).1 := by
      subst hys
      rw [List.getD_eq_getElem?_getD, List.getElem?_map, this]
      simp
    rw [this, e]
  have hstep : ∀ t (ht : t < xs.length), s (t + 1) - c = (1 - 2 * lr * (ys.getD t 0) ^ 2) * (s t - c) := by
    intro t ht
    obtain ⟨a, ha⟩ := hmodel t ht
    obtain ⟨-, h2, -⟩ := h t ht _ a ha
    obtain ⟨r, hr⟩ := htarget t ht
    rw [hr] at h2
    simp only [plainSgd, deriv_sq_loss] at h2
    rw [h2]; ring
  have hs : ∀ t, t ≤ xs.length → s t = c + err t := by
    intro t
    induction t with
    | zero => intro _; simp [err, h0]
    | succ t ih =>
      intro hle
      have e1 := hstep t (by omega)
      have e2 := ih (by omega)
      have e3 : err (t + 1) = err t * (1 - 2 * lr * (ys.getD t 0) ^ 2) := by
        simp only [err]
        rw [List.take_succ_eq_append_getElem (by omega : t < ys.length)]
        simp only [List.map_append, List.prod_append, List.map_cons, List.map_nil, List.prod_cons, List.prod_nil]
        rw [List.getD_eq_getElem _ _ (by omega : t < ys.length)]; ring
      rw [e3]; linear_combination e1 + (1 - 2 * lr * (ys.getD t 0) ^ 2) * e2
  obtain ⟨a, ha⟩ := hmodel t ht
  obtain ⟨h1, -, -⟩ := h t ht _ a ha
  refine ⟨_, h1, ?_, ?_⟩
  · obtain ⟨r, hr⟩ := htarget t ht
    rw [hr, hs t ht.le]; ring
  · exact hs (t + 1) ht

/-- C91: hence with `δ ≤ lr·y² ≤ 1 - δ` at every step (`δ ≤ 1/2`) the scale converges geometrically to `c`. -/
theorem C91_sgd_converges {M A : Type} (lr c δ : ℝ) (hδ : δ ≤ 1 / 2) (model : Mealy M (ℝ × List ℝ) (ℝ × A))
    (xs : List (ℝ × List ℝ)) (ys : List ℝ) (hys : (model.run xs).map Prod.fst = ys)
    (htarget : ∀ t (ht : t < xs.length), ∃ r, xs[t].2 = (c * ys.getD t 0) :: r)
    (hlr : ∀ y ∈ ys, δ ≤ lr * y ^ 2 ∧ lr * y ^ 2 ≤ 1 - δ) (t : Nat) (ht : t < xs.length) :
    ∃ o, ((streamingOptimizer deriv (plainSgd lr) (fun p y => (p - y) ^ 2) (· * ·) model).run xs)[t]? = some o ∧
      |o.2.1 - c| ≤ (1 - 2 * δ) ^ (t + 1) * |1 - c| := by
  obtain ⟨o, h1, -, h3⟩ := C91_sgd_scale lr c model xs ys hys htarget t ht
  refine ⟨o, h1, ?_⟩
  have hlen : (model.run xs).length = xs.length := Mealy.run_length _ _
  have hyl : ys.length = xs.length := by rw [← hys, List.length_map, hlen]
  have key : ∀ l : List ℝ, (∀ y ∈ l, δ ≤ lr * y ^ 2 ∧ lr * y ^ 2 ≤ 1 - δ) →
      |(l.map fun y => 1 - 2 * lr * y ^ 2).prod| ≤ (1 - 2 * δ) ^ l.length := by
    intro l hl
    induction l with
    | nil => simp
    | cons y l ih =>
      simp only [List.map_cons, List.prod_cons, List.length_cons, abs_mul]
      have hy := hl y (by simp)
      have a1 : |1 - 2 * lr * y ^ 2| ≤ 1 - 2 * δ := by rw [abs_le]; constructor <;> nlinarith
      rw [pow_succ, mul_comm]
      exact mul_le_mul (ih fun y hy => hl y (by simp [hy])) a1 (abs_nonneg _) (pow_nonneg (by linarith) _)
  have hk := key (ys.take (t + 1)) (fun y hy => hlr y (List.mem_of_mem_take hy))
  rw [List.length_take, min_eq_left (by omega)] at hk
  rw [h3]
  rw [show c + (1 - c) * ((ys.take (t + 1)).map fun y => 1 - 2 * lr * y ^ 2).prod - c =
    ((ys.take (t + 1)).map fun y => 1 - 2 * lr * y ^ 2).prod * (1 - c) by ring, abs_mul]
  exact mul_le_mul_of_nonneg_right hk (abs_nonneg _)

/-- A concrete case: the model repeats its first argument, the target is twice it. -/
def idModel : Mealy Unit (ℝ × List ℝ) (ℝ × Unit) := ⟨(), fun _ x => ((x.1, ()), ())⟩

example : (idModel.run [(1, [2]), (1, [2, 7])]).map Prod.fst = [1, 1] := rfl
example : ∀ t (ht : t < [((1 : ℝ), [(2 : ℝ)]), (1, [2, 7])].length), ∃ r,
    [((1 : ℝ), [(2 : ℝ)]), (1, [2, 7])][t].2 = (2 * ([1, 1] : List ℝ).getD t 0) :: r := by
  intro t ht
  match t, ht with
  | 0, _ => exact ⟨[], by simp⟩
  | 1, _ => exact ⟨[7], by simp⟩
example : ∀ y ∈ ([1, 1] : List ℝ), (1 / 4 : ℝ) ≤ 1 / 4 * y ^ 2 ∧ 1 / 4 * y ^ 2 ≤ 1 - 1 / 4 := by
  intro y hy
  simp only [List.mem_cons, List.not_mem_nil, or_false, or_self] at hy
  subst hy; norm_num

/-! ## C92: the predictions returned do not benefit from learning -/

/-- C92 (the property "predictions improve with learning" is false of the code): the predictions and auxiliary outputs
returned are, on every stream, those of the model alone, whatever the optimiser, the loss and the gradients; the learnt
scale is never applied to them. -/
theorem C92_prediction_unscaled_partial {O X Y A K M : Type} [One K] [Add K] (grad : (K → K) → K → K) (opt : ScalarOpt O K)
    (loss : Y → X → K) (mul : Y → K → Y) (model : Mealy M (X × List X) (Y × A)) (xs : List (X × List X)) :
    ((streamingOptimizer grad opt loss mul model).run xs).map (fun o => (o.1.2.1, o.1.2.2)) = model.run xs := by
  simp only [Mealy.run]
  have e : (streamingOptimizer grad opt loss mul model).init.1 = model.init := rfl
  rw [← e]
  generalize (streamingOptimizer grad opt loss mul model).init = s
  induction xs generalizing s with
  | nil => rfl
  | cons x xs ih =>
    simp only [Mealy.outsFrom, List.map_cons, ih]
    rfl

/-- C92, witness: the scale has converged to the true ratio 2 after one step, and the next prediction is still 1 where the
target is 2. -/
theorem C92_prediction_witness :
    let grad : (ℚ → ℚ) → ℚ → ℚ := fun f p => f (p + 1 / 2) - f (p - 1 / 2)
    let model : Mealy Unit (ℚ × List ℚ) (ℚ × Unit) := ⟨(), fun _ x => ((x.1, ()), ())⟩
    (streamingOptimizer grad (plainSgd (1 / 2)) (fun p y => (p - y) ^ 2) (· * ·) model).run [(1, [2]), (1, [2])] =
      [((1, 1, ()), (2, -2)), ((0, 1, ()), (2, 0))] := by
  decide +kernel

/-! ## C93: apply_with_state -/

section ApplyWithState
variable {V I O : Type}

theorem dictUpdate_keys (d w : List (String × V)) (h : ∀ kv ∈ w, kv.1 ∈ d.map Prod.fst) :
    (dictUpdate d w).map Prod.fst = d.map Prod.fst := by
  unfold dictUpdate
  induction w generalizing d with
  | nil => rfl
  | cons kv w ih =>
    have e : (dictSet d kv.1 kv.2).map Prod.fst = d.map Prod.fst := by
      rw [dictSet_keys, if_pos (h kv (by simp))]
    simp only [List.foldl_cons]
    rw [ih, e]
    intro q hq
    rw [e]
    exact h q (by simp [hq])

/-- The collections that `apply_with_state` declares mutable. -/
def mutableOf (vars : List (String × V)) : List String :=
  (if (vars.lookup "state").isSome then ["state"] else []) ++ (if (vars.lookup "cache").isSome then ["cache"] else [])

theorem lookup_isSome_iff (vars : List (String × V)) (k : String) :
    (vars.lookup k).isSome = true ↔ k ∈ vars.map Prod.fst := by
  constructor
  · intro h
    obtain ⟨v, hv⟩ := Option.isSome_iff_exists.1 h
    exact List.mem_map.2 ⟨_, mem_of_lookup _ _ _ hv, rfl⟩
  · intro h
    obtain ⟨v, hv⟩ := lookup_isSome_of_mem vars k h
    simp [hv]

theorem mem_mutableOf (vars : List (String × V)) (k : String) :
    k ∈ mutableOf vars ↔ (k = "state" ∨ k = "cache") ∧ k ∈ vars.map Prod.fst := by
  unfold mutableOf
  rw [List.mem_append]
  have h1 := lookup_isSome_iff vars "state"
  have h2 := lookup_isSome_iff vars "cache"
  constructor
  · rintro (h | h)
    · split at h
      · simp only [List.mem_singleton] at h
        subst h; exact ⟨Or.inl rfl, h1.1 ‹_›⟩
      · simp at h
    · split at h
      · simp only [List.mem_singleton] at h
        subst h; exact ⟨Or.inr rfl, h2.1 ‹_›⟩
      · simp at h
  · rintro ⟨rfl | rfl, h⟩
    · left; rw [if_pos (h1.2 h)]; simp
    · right; rw [if_pos (h2.2 h)]; simp

theorem applyWithState_eq (call : Call V I O) (vars : List (String × V)) (x : I) (h : mutableOf vars ≠ []) :
    applyWithState call vars x = moduleApply call vars (mutableOf vars) x := if_neg h

/-- The stream a Flax module computes when all its collections are carried from one call to the next: every call sees the
variables updated by everything written so far. -/
def threaded (call : Call V I O) (vars : List (String × V)) : List I → Except Unit (List O × List (String × V))
  | [] => .ok ([], vars)
  | x :: xs =>
    match call vars x with
    | .error e => .error e
    | .ok (o, writes) =>
      match threaded call (dictUpdate vars writes) xs with
      | .error e => .error e
      | .ok (os, vars'') => .ok (o :: os, vars'')

/-- C93: for a module without parameters (its variables are "state" and/or "cache"), feeding the returned variables back
continues the stream exactly: same outputs, errors and final variables.  (With parameters this is false:
`C93_params_lost`.) -/
theorem C93_feed_back_partial (call : Call V I O) (vars : List (String × V)) (hne : vars ≠ [])
    (hkeys : ∀ k ∈ vars.map Prod.fst, k = "state" ∨ k = "cache")
    (hw : ∀ vs x o w, call vs x = .ok (o, w) → ∀ kv ∈ w, kv.1 ∈ vars.map Prod.fst) (xs : List I) :
    applyChain call vars xs = threaded call vars xs := by
  have key : ∀ (xs : List I) (vs : List (String × V)), vs.map Prod.fst = vars.map Prod.fst →
      applyChain call vs xs = threaded call vs xs := by
    intro xs
    induction xs with
    | nil => intro vs _; rfl
    | cons x xs ih =>
      intro vs hvs
      have hmem : ∀ k, k ∈ mutableOf vs ↔ k ∈ vars.map Prod.fst := by
        intro k
        rw [mem_mutableOf, hvs]
        exact ⟨fun h => h.2, fun h => ⟨hkeys k h, h⟩⟩
      have hmne : mutableOf vs ≠ [] := by
        obtain ⟨p, l, e⟩ := List.exists_cons_of_ne_nil hne
        exact List.ne_nil_of_mem ((hmem p.1).2 (by simp [e]))
      simp only [applyChain, threaded, applyWithState_eq call vs x hmne, moduleApply]
      cases hc : call vs x with
      | error e => rfl
      | ok r =>
        obtain ⟨o, w⟩ := r
        have hwk := hw vs x o w hc
        have hall : (w.all fun kv => (mutableOf vs).contains kv.1) = true := by
          rw [List.all_eq_true]
          intro kv hkv
          simpa [List.contains_iff_mem] using (hmem kv.1).2 (hwk kv hkv)
        have hku : (dictUpdate vs w).map Prod.fst = vars.map Prod.fst := by
          rw [dictUpdate_keys vs w (by rw [hvs]; exact hwk), hvs]
        have hfil : (dictUpdate vs w).filter (fun kv => (mutableOf vs).contains kv.1) = dictUpdate vs w := by
          rw [List.filter_eq_self]
          intro kv hkv
          have : kv.1 ∈ vars.map Prod.fst := hku ▸ List.mem_map_of_mem hkv
          simpa [List.contains_iff_mem] using (hmem kv.1).2 this
        simp only [hall, if_true, hfil]
        rw [ih _ hku]
        cases threaded call (dictUpdate vs w) xs <;> rfl
  exact key xs vars rfl

/-- C93: for any module that writes only to its "state" and "cache" collections, merging the returned variables into the
previous ones (`{**variables, **new}`) continues the stream exactly, parameters included. -/
theorem C93_merge_back (call : Call V I O) (vars : List (String × V)) (hnd : (vars.map Prod.fst).Nodup)
    (hw : ∀ vs x o w, call vs x = .ok (o, w) → ∀ kv ∈ w, (kv.1 = "state" ∨ kv.1 = "cache") ∧ kv.1 ∈ vars.map Prod.fst)
    (xs : List I) : applyChainMerged call vars xs = threaded call vars xs := by
  have key : ∀ (xs : List I) (vs : List (String × V)), vs.map Prod.fst = vars.map Prod.fst →
      applyChainMerged call vs xs = threaded call vs xs := by
    intro xs
    induction xs with
    | nil => intro vs _; rfl
    | cons x xs ih =>
      intro vs hvs
      have hself : dictUpdate vs vs = vs := by
        apply assoc_ext
        · exact dictUpdate_keys vs vs (fun kv h => List.mem_map_of_mem h)
        · rw [dictUpdate_keys vs vs (fun kv h => List.mem_map_of_mem h), hvs]; exact hnd
        · intro n _
          rw [dictUpdate_lookup]
          have hr : (vs.reverse).lookup n = vs.lookup n := by
            cases h : vs.lookup n with
            | some v =>
              rw [lookup_iff_mem _ (by rw [List.map_reverse, List.nodup_reverse, hvs]; exact hnd)]
              exact List.mem_reverse.2 (mem_of_lookup _ _ _ h)
            | none =>
              cases h' : vs.reverse.lookup n with
              | none => rfl
              | some v =>
                have := (lookup_iff_mem _ (by rw [hvs]; exact hnd) n v).2 (List.mem_reverse.1 (mem_of_lookup _ _ _ h'))
                rw [this] at h; cases h
          rw [hr]
          cases vs.lookup n <;> rfl
      simp only [applyChainMerged, threaded, applyWithState]
      by_cases hm : mutableOf vs = []
      · have hm' := hm
        unfold mutableOf at hm'
        simp only [hm', if_true, moduleApply]
        cases hc : call vs x with
        | error e => rfl
        | ok r =>
          obtain ⟨o, w⟩ := r
          have hwk := hw vs x o w hc
          have hw0 : w = [] := by
            cases w with
            | nil => rfl
            | cons kv w =>
              have := hwk kv (by simp)
              have : kv.1 ∈ mutableOf vs := (mem_mutableOf vs kv.1).2 ⟨this.1, by rw [hvs]; exact this.2⟩
              rw [hm] at this; simp at this
          subst hw0
          simp only [List.all_nil, if_true, hself]
          rw [ih _ hvs]
          have hu : dictUpdate vs [] = vs := rfl
          rw [hu]
          cases threaded call vs xs <;> rfl
      · have hm' := hm
        unfold mutableOf at hm'
        simp only [if_neg hm', moduleApply]
        cases hc : call vs x with
        | error e => rfl
        | ok r =>
          obtain ⟨o, w⟩ := r
          have hwk := hw vs x o w hc
          have hmem : ∀ kv ∈ w, kv.1 ∈ mutableOf vs := fun kv hkv =>
            (mem_mutableOf vs kv.1).2 ⟨(hwk kv hkv).1, by rw [hvs]; exact (hwk kv hkv).2⟩
          have hall : (w.all fun kv => (mutableOf vs).contains kv.1) = true := by
            rw [List.all_eq_true]
            intro kv hkv
            simpa [List.contains_iff_mem] using hmem kv hkv
          have hku : (dictUpdate vs w).map Prod.fst = vs.map Prod.fst :=
            dictUpdate_keys vs w (fun kv h => by rw [hvs]; exact (hwk kv h).2)
          have hfil : dictUpdate vs ((dictUpdate vs w).filter fun kv => (mutableOf vs).contains kv.1) =
              dictUpdate vs w := by
            have hk2 : (dictUpdate vs ((dictUpdate vs w).filter fun kv => (mutableOf vs).contains kv.1)).map Prod.fst =
                vs.map Prod.fst := dictUpdate_keys _ _ (fun kv h => by
                  rw [← hku]; exact List.mem_map_of_mem (List.mem_filter.1 h).1)
            apply assoc_ext
            · exact hk2.trans hku.symm
            · exact (hk2.trans hvs) ▸ hnd
            · intro n _
              have hndu : ((dictUpdate vs w).map Prod.fst).Nodup := by rw [hku, hvs]; exact hnd
              rw [dictUpdate_lookup]
              by_cases hn : n ∈ mutableOf vs
              · cases hl : (dictUpdate vs w).lookup n with
                | none =>
                  have hkn : n ∈ (dictUpdate vs w).map Prod.fst := by
                    rw [hku]; exact ((mem_mutableOf vs n).1 hn).2
                  obtain ⟨v, hv⟩ := lookup_isSome_of_mem _ n hkn
                  rw [hv] at hl; cases hl
                | some v =>
                  have : ((dictUpdate vs w).filter fun kv => (mutableOf vs).contains kv.1).reverse.lookup n = some v := by
                    rw [lookup_iff_mem]
                    · rw [List.mem_reverse, List.mem_filter]
                      exact ⟨mem_of_lookup _ _ _ hl, by simpa [List.contains_iff_mem] using hn⟩
                    · rw [List.map_reverse, List.nodup_reverse]
                      exact hndu.sublist (List.filter_sublist.map _)
                  rw [this]; rfl
              · have h1 : ((dictUpdate vs w).filter fun kv => (mutableOf vs).contains kv.1).reverse.lookup n = none := by
                  cases hl : ((dictUpdate vs w).filter fun kv => (mutableOf vs).contains kv.1).reverse.lookup n with
                  | none => rfl
                  | some v =>
                    have := mem_of_lookup _ _ _ hl
                    rw [List.mem_reverse, List.mem_filter] at this
                    exact absurd (by simpa [List.contains_iff_mem] using this.2) hn
                rw [h1, dictUpdate_lookup]
                have h2 : w.reverse.lookup n = none := by
                  cases hl : w.reverse.lookup n with
                  | none => rfl
                  | some v =>
                    have := mem_of_lookup _ _ _ hl
                    exact absurd (hmem _ (List.mem_reverse.1 this)) hn
                rw [h2]
          simp only [show ((w.all fun kv =>
            ((if (vs.lookup "state").isSome then ["state"] else []) ++
              (if (vs.lookup "cache").isSome then ["cache"] else [])).contains kv.1) = true) from hall, if_true]
          have hfil' := hfil
          unfold mutableOf at hfil'
          rw [hfil', ih _ (hku.trans hvs)]
          cases threaded call (dictUpdate vs w) xs <;> rfl
  exact key xs vars rfl

/-- C93: once there is some state, the variables returned contain only "state" and "cache": the parameters are gone. -/
theorem C93_params_lost (call : Call V I O) (vars : List (String × V)) (x : I) (o : O) (new : List (String × V))
    (hs : "state" ∈ vars.map Prod.fst ∨ "cache" ∈ vars.map Prod.fst) (h : applyWithState call vars x = .ok (o, new)) :
    ∀ k ∈ new.map Prod.fst, k = "state" ∨ k = "cache" := by
  have hne : mutableOf vars ≠ [] := by
    rcases hs with hs | hs
    · exact List.ne_nil_of_mem ((mem_mutableOf vars "state").2 ⟨Or.inl rfl, hs⟩)
    · exact List.ne_nil_of_mem ((mem_mutableOf vars "cache").2 ⟨Or.inr rfl, hs⟩)
  rw [applyWithState_eq call vars x hne] at h
  unfold moduleApply at h
  split at h
  · cases h
  · split at h
    · injection h with h
      obtain ⟨_, rfl⟩ := Prod.mk.inj h
      intro k hk
      obtain ⟨kv, hkv, rfl⟩ := List.mem_map.1 hk
      have := (List.mem_filter.1 hkv).2
      exact ((mem_mutableOf vars kv.1).1 (by simpa [List.contains_iff_mem] using this)).1
    · cases h

/-- C93: a module that writes to any other collection (the "learnable" scale of `streaming_optimizer`, say) raises. -/
theorem C93_other_collection_raises (call : Call V I O) (vars : List (String × V)) (x : I) (o : O) (w : List (String × V))
    (hc : call vars x = .ok (o, w)) (hw : ∃ kv ∈ w, kv.1 ≠ "state" ∧ kv.1 ≠ "cache") :
    applyWithState call vars x = .error () := by
  obtain ⟨kv, hkv, h1, h2⟩ := hw
  have hno : ∀ m : List String, (∀ k ∈ m, k = "state" ∨ k = "cache") → (w.all fun kv => m.contains kv.1) = false := by
    intro m hm
    rw [List.all_eq_false]
    refine ⟨kv, hkv, ?_⟩
    intro hcon
    rcases hm kv.1 (by simpa [List.contains_iff_mem] using hcon) with h | h
    · exact h1 h
    · exact h2 h
  by_cases hm : mutableOf vars = []
  · have hm' := hm
    unfold mutableOf at hm'
    simp only [applyWithState, hm', if_true, moduleApply, hc, hno [] (by simp)]
    rfl
  · rw [applyWithState_eq call vars x hm]
    simp only [moduleApply, hc, hno (mutableOf vars) (fun k hk => ((mem_mutableOf vars k).1 hk).1)]
    rfl

/-- C93: without "state" and "cache" the variables come back unchanged. -/
theorem C93_stateless (call : Call V I O) (vars : List (String × V)) (x : I) (o : O) (new : List (String × V))
    (h1 : "state" ∉ vars.map Prod.fst) (h2 : "cache" ∉ vars.map Prod.fst) (h : applyWithState call vars x = .ok (o, new)) :
    new = vars := by
  have hm : mutableOf vars = [] := by
    rw [List.eq_nil_iff_forall_not_mem]
    intro k hk
    obtain ⟨rfl | rfl, h⟩ := (mem_mutableOf vars k).1 hk
    · exact h1 h
    · exact h2 h
  unfold mutableOf at hm
  simp only [applyWithState, hm, if_true] at h
  split at h
  · cases h
  · injection h with h
    exact (Prod.mk.inj h).2.symm

/-- A module with a parameter `w` and a running sum: output `w * sum`. -/
def scaledSum : Call Nat Nat Nat := fun vars x =>
  match vars.lookup "params", vars.lookup "state" with
  | some w, some s => .ok (w * (s + x), [("state", s + x)])
  | _, _ => .error ()

/-- C93, witness: fed back, the second call fails because the parameters are missing; merged, the stream goes on. -/
theorem C93_params_lost_witness :
    applyChain scaledSum [("params", 2), ("state", 0)] [1, 2] = .error () ∧
    applyChainMerged scaledSum [("params", 2), ("state", 0)] [1, 2] = .ok ([2, 6], [("params", 2), ("state", 3)]) := by
  decide

/-- The hypotheses of `C93_merge_back` are met by this module. -/
example : ∀ vs x o w, scaledSum vs x = .ok (o, w) →
    ∀ kv ∈ w, (kv.1 = "state" ∨ kv.1 = "cache") ∧ kv.1 ∈ ([("params", 2), ("state", 0)] : List (String × Nat)).map Prod.fst := by
  intro vs x o w h kv hkv
  unfold scaledSum at h
  split at h
  · injection h with h
    obtain ⟨_, rfl⟩ := Prod.mk.inj h
    simp only [List.mem_singleton] at hkv
    subst hkv; simp
  · cases h

/-- A parameterless running sum meets the hypotheses of `C93_feed_back_partial`. -/
example : let call : Call Nat Nat Nat := fun vars x => .ok ((vars.lookup "state").getD 0, [("state", (vars.lookup "state").getD 0 + x)])
    (∀ vs x o w, call vs x = .ok (o, w) → ∀ kv ∈ w, kv.1 ∈ ([("state", 5)] : List (String × Nat)).map Prod.fst) ∧
    applyChain call [("state", 5)] [1, 2, 3] = .ok ([5, 6, 8], [("state", 11)]) := by
  refine ⟨?_, by decide⟩
  intro vs x o w h kv hkv
  injection h with h
  obtain ⟨_, rfl⟩ := Prod.mk.inj h
  simp only [List.mem_singleton] at hkv
  subst hkv; simp

end ApplyWithState

/-! ## C94: the StreamingScan module -/

section Decorators
variable {S S' I O V X C K B F : Type}

theorem laxScan_keep (g : C → I → C × O) (fn : I → O) (c : C) (hg : ∀ x, g c x = (c, fn x)) (xs : List I) :
    laxScan g c xs = (c, xs.map fn) := by
  induction xs with
  | nil => rfl
  | cons x xs ih => simp only [laxScan, hg, ih, List.map_cons]

/-- C94 (the documented "scan with state and resets" is false of the module): whatever the inputs, without a reset function or
with a constant one, the outputs are the function applied to each input independently and the final state is the initial
one. -/
theorem C94_streaming_scan_stateless_partial (fn : I → O) (preserve b : Bool) (initial : Option C) (zero : C) (xs : List I) :
    streamingScanModule fn .absent preserve initial zero xs = .ok (xs.map fn, initial.getD zero) ∧
    streamingScanModule fn (.const b) preserve initial zero xs = .ok (xs.map fn, initial.getD zero) := by
  constructor
  · simp only [streamingScanModule]
    rw [laxScan_keep _ fn _ (fun x => by simp)]
  · simp only [streamingScanModule]
    rw [laxScan_keep _ fn _ (fun x => by simp)]

/-- C94: with a reset function that looks at the data, every call raises, even on an empty sequence. -/
theorem C94_streaming_scan_reset_raises (fn : I → O) (f : I → Bool) (preserve : Bool) (initial : Option C) (zero : C)
    (xs : List I) : streamingScanModule fn (.traced f) preserve initial zero xs = .error () := rfl

/-! ## C95: decorators that provide a context -/

/-- C95: the decorated function is run, with its own state, on the pairs (context's output, arguments), where the context runs
alone on its inputs; neither influences the other's state otherwise. -/
theorem C95_context (ctx : Mealy S X B) (arg : I → X) (fn : Mealy S' (B × I) O) (xs : List I) :
    (withContext ctx arg fn).run xs = fn.run ((ctx.run (xs.map arg)).zip xs) ∧
    (withContext ctx arg fn).stateAfter xs =
      (ctx.stateAfter (xs.map arg), fn.stateAfter ((ctx.run (xs.map arg)).zip xs)) := by
  have key : ∀ (xs : List I) (s : S) (s' : S'),
      (withContext ctx arg fn).outsFrom (s, s') xs = fn.outsFrom s' ((ctx.outsFrom s (xs.map arg)).zip xs) ∧
      (withContext ctx arg fn).stateFrom (s, s') xs =
        (ctx.stateFrom s (xs.map arg), fn.stateFrom s' ((ctx.outsFrom s (xs.map arg)).zip xs)) := by
    intro xs
    induction xs with
    | nil => intro s s'; exact ⟨rfl, rfl⟩
    | cons x xs ih =>
      intro s s'
      simp only [Mealy.outsFrom, List.map_cons, List.zip_cons_cons, Mealy.stateFrom, List.foldl_cons] at ih ⊢
      obtain ⟨h1, h2⟩ := ih (ctx.step s (arg x)).2 (fn.step s' ((ctx.step s (arg x)).1, x)).2
      exact ⟨congrArg (_ :: ·) h1, h2⟩
  exact key xs ctx.init fn.init

/-- C95: with `streaming_compressed_memory(maxlen, compression="none")` the function receives, at step `t`, the window of the
last `maxlen` inputs (padded with the fill value) and the input, for streams shorter than 2^31. -/
theorem C95_memory_window {α : Type} (maxlen : Nat) (hm : 0 < maxlen) (hm' : maxlen ≤ 2 ^ 30) (fill : α)
    (fn : Mealy S' (List α × α) O) (xs : List α) (hlen : xs.length < 2 ^ 31) :
    (compressedMemoryNone maxlen fill fn).run xs =
      fn.run (((List.range xs.length).map fun (t : Nat) => Spec.window maxlen fill (xs.take (t + 1))).zip xs) := by
  unfold compressedMemoryNone
  rw [(C95_context _ _ _ _).1, List.map_id]
  congr 2
  have hmap : ∀ (ys : List α) (s : CircState α),
      Mealy.outsFrom ⟨(circBuffer maxlen fill).init, fun s x =>
        let r := (circBuffer maxlen fill).step s x; (r.1.1, r.2)⟩ s ys = ((circBuffer maxlen fill).outsFrom s ys).map (·.1) := by
    intro ys
    induction ys with
    | nil => intro s; rfl
    | cons y ys ih => intro s; simp only [Mealy.outsFrom, List.map_cons, ih]
  rw [Mealy.run, hmap]
  apply List.ext_getElem?
  intro t
  rw [List.getElem?_map, List.getElem?_map, Mealy.outsFrom_getElem?]
  by_cases ht : t < xs.length
  · have hl : (xs.take t).length = t := by simp; omega
    have := circ_step_out maxlen hm hm' fill (xs.take t) xs[t] (by omega)
    rw [Mealy.stateAfter] at this
    rw [List.getElem?_eq_getElem ht, List.getElem?_range ht]
    simp only [Option.map_some]
    rw [List.take_succ_eq_append_getElem ht]
    exact congrArg (fun o => some o.1) this
  · rw [List.getElem?_eq_none (by omega), List.getElem?_eq_none (by simp; omega)]; rfl

example : (compressedMemoryNone 2 0 (⟨0, fun s x => (s + x.1.sum, s + x.2)⟩ : Mealy Nat (List Nat × Nat) Nat)).run
    [1, 2, 4] = [0 + 1, 1 + 3, 3 + 6] := by decide

/-! ## C96: decorators that ignore the decorated function

These describe the wrappers' bodies; `C148_decorators_raise_partial` shows that in the pinned version the bodies are not
reached. -/

/-- C96 (the documentation says the decorated function computes with the modules; false of the code): the result of
`hierarchical_composition` has one entry per declared module, in order, each computed from the keyword arguments alone;
the decorated function and the positional arguments are irrelevant. -/
theorem C96_hierarchical_ignores_function_partial (modules : List (String × (List (String × V) → V)))
    (hnd : (modules.map Prod.fst).Nodup) (fn : F) (args : List V) (kwargs : List (String × V))
    (hkw : (kwargs.map Prod.fst).Nodup) :
    hierarchicalComposition modules fn args kwargs = modules.map fun nm => (nm.1, nm.2 kwargs) := by
  unfold hierarchicalComposition
  have hmi : ∀ name computed, moduleInputs [] name kwargs computed = kwargs := by
    intro name computed
    have : moduleInputs [] name kwargs computed = dictUpdate [] kwargs := rfl
    rw [this]
    have key : ∀ (l d : List (String × V)), ((d ++ l).map Prod.fst).Nodup → dictUpdate d l = d ++ l := by
      intro l
      induction l with
      | nil => intro d _; simp [dictUpdate]
      | cons kv l ih =>
        intro d hd
        have hnew : dictSet d kv.1 kv.2 = d ++ [kv] := by
          have hk : kv.1 ∉ d.map Prod.fst := by
            simp only [List.map_append, List.map_cons] at hd
            intro hmem
            exact (List.nodup_append.1 hd).2.2 _ hmem _ (by simp) rfl
          clear ih hd
          induction d with
          | nil => rfl
          | cons p d ihd =>
            obtain ⟨a, b⟩ := p
            simp only [List.map_cons, List.mem_cons, not_or] at hk
            simp only [dictSet, List.cons_append]
            rw [if_neg (fun e => hk.1 e.symm), ihd hk.2]
        have e : dictUpdate d (kv :: l) = dictUpdate (dictSet d kv.1 kv.2) l := rfl
        rw [e, hnew, ih _ (by simpa using hd)]
        simp
    simpa using key kwargs [] (by simpa using hkw)
  have main : ∀ (ms : List (String × (List (String × V) → V))) (out : List (String × V)),
      (out.map Prod.fst ++ ms.map Prod.fst).Nodup →
      executeInOrder [] kwargs ms out = out ++ ms.map fun nm => (nm.1, nm.2 kwargs) := by
    intro ms
    induction ms with
    | nil => intro out _; simp [executeInOrder]
    | cons nm ms ih =>
      intro out hout
      obtain ⟨n, m⟩ := nm
      simp only [executeInOrder, hmi]
      have hk : n ∉ out.map Prod.fst := by
        simp only [List.map_cons] at hout
        intro hmem
        exact (List.nodup_append.1 hout).2.2 _ hmem _ (by simp) rfl
      have hnew : dictSet out n (m kwargs) = out ++ [(n, m kwargs)] := by
        clear ih hout
        induction out with
        | nil => rfl
        | cons p d ihd =>
          obtain ⟨a, b⟩ := p
          simp only [List.map_cons, List.mem_cons, not_or] at hk
          simp only [dictSet, List.cons_append]
          rw [if_neg (fun e => hk.1 e.symm), ihd hk.2]
      rw [hnew, ih]
      · simp
      · simpa using hout
  simpa using main modules [] (by simpa using hnd)

/-- C96: `state_machine` behaves as the `StreamingStateMachine` of its states whatever the decorated function. -/
theorem C96_state_machine_ignores_function_partial (states : List (String × Mealy S I O))
    (transitions : List (String × List (String × (I → Bool)))) (initial : String) (dflt : S) (fn fn' : F) (xs : List I) :
    stateMachineDecorated states transitions initial dflt fn xs =
      stateMachineRun states transitions (initial, smInit states dflt) xs ∧
    stateMachineDecorated states transitions initial dflt fn xs = stateMachineDecorated states transitions initial dflt fn' xs :=
  ⟨rfl, rfl⟩

/-- C96: `conditional_update` on a pure function returns the function's value when the condition holds and the first argument
otherwise, whatever `reset_on_condition` and the history. -/
theorem C96_conditional_update_partial (fn : I → O) (cond : I → Bool) (reset : Bool) (arg0 : I → O) (xs : List I) :
    (conditionalUpdate fn cond reset arg0).run xs = xs.map fun x => if cond x then fn x else arg0 x := by
  have key : ∀ (xs : List I) (s : Unit), (conditionalUpdate fn cond reset arg0).outsFrom s xs =
      xs.map fun x => if cond x then fn x else arg0 x := by
    intro xs
    induction xs with
    | nil => intro s; rfl
    | cons x xs ih =>
      intro s
      simp only [Mealy.outsFrom, List.map_cons]
      congr 1
      · simp only [conditionalUpdate, conditionalStateUpdate]; split <;> rfl
      · exact ih _
  exact key xs ()

example : hierarchicalComposition (F := Unit) [("a", fun kw : List (String × Nat) => kw.length), ("b", fun _ => 7)] () [1, 2]
    [("x", 3)] = [("a", 1), ("b", 7)] := by decide

/-! ## C97: batches -/

/-- C97: Flax `VMap` applies the function to each batch element, and returns the mean of the results by default; the mean does
not depend on the order of the batch, and a constant result is returned unchanged. -/
theorem C97_vmap_mean [Field K] [CharZero K] (fn : X → K) (batch : List X) (hb : batch ≠ []) :
    flaxVMap fn false batch = .ok (.inr (batch.map fn)) ∧
    (∃ r, flaxVMap fn true batch = .ok (.inl r) ∧ r * batch.length = (batch.map fn).sum ∧
      (∀ batch', batch'.Perm batch → flaxVMap fn true batch' = .ok (.inl r)) ∧
      (∀ c, (∀ x ∈ batch, fn x = c) → r = c)) := by
  have hl : (batch.length : K) ≠ 0 := by
    rw [Nat.cast_ne_zero]; simpa using hb
  refine ⟨by simp [flaxVMap, hb], meanList (batch.map fn), by simp [flaxVMap, hb], ?_, ?_, ?_⟩
  · simp only [meanList, List.length_map]; field_simp
  · intro batch' hp
    have hb' : batch' ≠ [] := by rintro rfl; exact hb (List.nil_perm.1 hp)
    simp only [flaxVMap, hb', if_false, if_true, meanList, List.length_map, hp.length_eq, (hp.map fn).sum_eq]
  · intro c hc
    have : (batch.map fn).sum = batch.length * c := by
      rw [List.map_congr_left hc]; simp
    simp only [meanList, List.length_map, this]; field_simp

/-- C97: the mean of a batch stays within the range of the elements' results. -/
theorem C97_mean_bounds [Field K] [LinearOrder K] [IsStrictOrderedRing K] (xs : List K) (hx : xs ≠ []) (lo hi : K)
    (h : ∀ x ∈ xs, lo ≤ x ∧ x ≤ hi) : lo ≤ meanList xs ∧ meanList xs ≤ hi := by
  have hl : (0 : K) < xs.length := by
    rw [Nat.cast_pos]; exact List.length_pos_iff.2 hx
  have key : ∀ l : List K, (∀ x ∈ l, lo ≤ x ∧ x ≤ hi) → lo * l.length ≤ l.sum ∧ l.sum ≤ hi * l.length := by
    intro l hlm
    induction l with
    | nil => simp
    | cons y l ih =>
      have h1 := hlm y (by simp)
      have h2 := ih (fun x hx => hlm x (by simp [hx]))
      simp only [List.sum_cons, List.length_cons, Nat.cast_add, Nat.cast_one]
      constructor <;> nlinarith [h2.1, h2.2]
  obtain ⟨h1, h2⟩ := key xs h
  exact ⟨(le_div_iff₀ hl).2 h1, (div_le_iff₀ hl).2 h2⟩

/-- C97: Haiku `add_batch` of a module: at every step the mean over the batch of what the module alone returns on each batch
element's own stream. -/
theorem C97_add_batch [Field K] (m : Mealy S X K) (n : Nat) (xs : List (Fin n → X)) (t : Nat) (ht : t < xs.length) :
    ∃ ys : Fin n → K, (∀ b, (m.run (xs.map fun x => x b))[t]? = some (ys b)) ∧
      ((addBatch m n).run xs)[t]? = some ((List.ofFn ys).sum / (n : K)) := by
  have hst : ∀ (ys : List (Fin n → X)) (b : Fin n), (addBatch m n).stateAfter ys b = m.stateAfter (ys.map fun x => x b) := by
    intro ys b
    induction ys using List.reverseRecOn with
    | nil => rfl
    | append_singleton ys y ih =>
      rw [Mealy.stateAfter_append_singleton, List.map_append, List.map_cons, List.map_nil,
        Mealy.stateAfter_append_singleton, ← ih]
      rfl
  refine ⟨fun b => (m.step (m.stateAfter ((xs.take t).map fun x => x b)) (xs[t] b)).1, ?_, ?_⟩
  · intro b
    rw [Mealy.run, Mealy.outsFrom_getElem?, List.getElem?_map, List.getElem?_eq_getElem ht, ← List.map_take]
    rfl
  · rw [Mealy.run, Mealy.outsFrom_getElem?, List.getElem?_eq_getElem ht]
    simp only [Option.map_some, Option.some.injEq]
    have : (addBatch m n).stateFrom (addBatch m n).init (xs.take t) = fun b => m.stateAfter ((xs.take t).map fun x => x b) :=
      funext fun b => hst _ b
    rw [this]
    simp [addBatch, vmapLift, meanList]

example : flaxVMap (fun x : ℚ => x * x) true [1, 2, 3] = .ok (.inl (14 / 3)) := by decide +kernel
example : (addBatch (⟨0, fun s x => (s + x, s + x)⟩ : Mealy ℚ ℚ ℚ) 2).run
    [fun b => if b = 0 then 1 else 3, fun b => if b = 0 then 1 else 3] = [2, 4] := by decide +kernel

end Decorators

end Verif.Props
