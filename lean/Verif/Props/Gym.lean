import Verif.Model.Gym
import Mathlib.Data.List.Basic

/-! # Properties C54–C57, C76–C78: gym loop, callbacks, feedback -/

namespace Verif.Props
open Model.Gym
set_option linter.unusedSectionVars false
set_option linter.unusedSimpArgs false

variable {W Obs Act Rw Info : Type}

/-! ## Observing what the loop calls -/

/-- An observable call, with the values exchanged; callbacks are identified by their position. -/
inductive Ev (Obs Act Rw Info : Type) where
  | reset (o : Obs)
  | start (i : Nat) (o : Obs)
  | act (o : Obs) (a : Act)
  | onAct (i : Nat) (o : Obs) (a : Act)
  | env (a : Act) (o : Obs) (rw : Rw) (done : Bool) (info : Info)
  | onStep (i : Nat) (gs : GymState Obs Act Rw Info) (ret : Bool)
  | ends (i : Nat)
  | close

/-- The same environment and agent, writing every call to a log. -/
def traceSys (sys : Sys W Obs Act Rw Info) : Sys (W × List (Ev Obs Act Rw Info)) Obs Act Rw Info where
  reset w := ((sys.reset w.1).1, ((sys.reset w.1).2, w.2 ++ [.reset (sys.reset w.1).1]))
  act w o := ((sys.act w.1 o).1, ((sys.act w.1 o).2, w.2 ++ [.act o (sys.act w.1 o).1]))
  step w a := ((sys.step w.1 a).1, ((sys.step w.1 a).2,
    w.2 ++ [.env a (sys.step w.1 a).1.1 (sys.step w.1 a).1.2.1 (sys.step w.1 a).1.2.2.1 (sys.step w.1 a).1.2.2.2]))
  close w := (sys.close w.1, w.2 ++ [.close])

/-- The same callback, writing every call to the log. -/
def traceCb (p : Callback W Obs Act Rw Info × Nat) : Callback (W × List (Ev Obs Act Rw Info)) Obs Act Rw Info where
  onStart := p.1.onStart.map fun f w o => (f w.1 o, w.2 ++ [.start p.2 o])
  onAct := p.1.onAct.map fun f w o a => (f w.1 o a, w.2 ++ [.onAct p.2 o a])
  onStep := p.1.onStep.map fun f w gs => ((f w.1 gs).1, ((f w.1 gs).2, w.2 ++ [.onStep p.2 gs (f w.1 gs).1]))
  onEnd := p.1.onEnd.map fun f w => (f w.1, w.2 ++ [.ends p.2])

def traced (cbs : List (Callback W Obs Act Rw Info)) : List (Callback (W × List (Ev Obs Act Rw Info)) Obs Act Rw Info) :=
  cbs.zipIdx.map traceCb

/-- Positions of the callbacks that define a given function. -/
def positions (has : Callback W Obs Act Rw Info → Bool) (cbs : List (Callback W Obs Act Rw Info)) : List Nat :=
  (cbs.zipIdx.filter fun p => has p.1).map Prod.snd

/-- Specification of one iteration on observation `obs`: one action, every `on_act` callback, one environment step with
that action, every `on_step` callback on the resulting loop state; `fin` when the environment or at least one of them
says so. -/
def StepLog (cbs : List (Callback W Obs Act Rw Info)) (obs : Obs) (evs : List (Ev Obs Act Rw Info))
    (gs : GymState Obs Act Rw Info) (fin : Bool) : Prop :=
  ∃ rets : List Bool, rets.length = (positions (·.onStep.isSome) cbs).length ∧
    evs = [Ev.act obs gs.action] ++ (positions (·.onAct.isSome) cbs).map (fun i => Ev.onAct i obs gs.action) ++
      [Ev.env gs.action gs.obs gs.rw gs.done gs.info] ++
      List.zipWith (fun i r => Ev.onStep i gs r) (positions (·.onStep.isSome) cbs) rets ∧
    fin = (gs.done || rets.any id)

/-- Specification of the loop: iterations that are not final, each fed with the observation of the one before, then a final
one whose state is the result. -/
inductive LoopLog (cbs : List (Callback W Obs Act Rw Info)) :
    Obs → List (Ev Obs Act Rw Info) → GymState Obs Act Rw Info → Prop
  | last {obs evs gs} : StepLog cbs obs evs gs true → LoopLog cbs obs evs gs
  | more {obs evs gs rest gs'} : StepLog cbs obs evs gs false → LoopLog cbs gs.obs rest gs' →
      LoopLog cbs obs (evs ++ rest) gs'

section Trace
variable (sys : Sys W Obs Act Rw Info)

theorem trace_onAct (ps : List (Callback W Obs Act Rw Info × Nat)) (o : Obs) (a : Act) (w : W) (log : List (Ev Obs Act Rw Info)) :
    ((ps.map traceCb).filterMap (·.onAct)).foldl (fun w f => f w o a) (w, log) =
      (((ps.map Prod.fst).filterMap (·.onAct)).foldl (fun w f => f w o a) w,
        log ++ ((ps.filter fun p => p.1.onAct.isSome).map Prod.snd).map fun i => Ev.onAct i o a) := by
  induction ps generalizing w log with
  | nil => simp
  | cons p ps ih =>
    obtain ⟨c, i⟩ := p
    rw [List.map_cons, List.filterMap_cons, List.map_cons, List.filterMap_cons]
    cases h : c.onAct with
    | none => simpa [traceCb, h] using ih w log
    | some f =>
      have := ih (f w o a) (log ++ [.onAct i o a])
      rw [List.append_assoc, List.singleton_append] at this
      simpa [traceCb, h] using this

theorem trace_onStart (ps : List (Callback W Obs Act Rw Info × Nat)) (o : Obs) (w : W) (log : List (Ev Obs Act Rw Info)) :
    ((ps.map traceCb).filterMap (·.onStart)).foldl (fun w f => f w o) (w, log) =
      (((ps.map Prod.fst).filterMap (·.onStart)).foldl (fun w f => f w o) w,
        log ++ ((ps.filter fun p => p.1.onStart.isSome).map Prod.snd).map fun i => Ev.start i o) := by
  induction ps generalizing w log with
  | nil => simp
  | cons p ps ih =>
    obtain ⟨c, i⟩ := p
    rw [List.map_cons, List.filterMap_cons, List.map_cons, List.filterMap_cons]
    cases h : c.onStart with
    | none => simpa [traceCb, h] using ih w log
    | some f =>
      have := ih (f w o) (log ++ [.start i o])
      rw [List.append_assoc, List.singleton_append] at this
      simpa [traceCb, h] using this

theorem trace_onEnd (ps : List (Callback W Obs Act Rw Info × Nat)) (w : W) (log : List (Ev Obs Act Rw Info)) :
    ((ps.map traceCb).filterMap (·.onEnd)).foldl (fun w f => f w) (w, log) =
      (((ps.map Prod.fst).filterMap (·.onEnd)).foldl (fun w f => f w) w,
        log ++ ((ps.filter fun p => p.1.onEnd.isSome).map Prod.snd).map fun i => Ev.ends i) := by
  induction ps generalizing w log with
  | nil => simp
  | cons p ps ih =>
    obtain ⟨c, i⟩ := p
    rw [List.map_cons, List.filterMap_cons, List.map_cons, List.filterMap_cons]
    cases h : c.onEnd with
    | none => simpa [traceCb, h] using ih w log
    | some f =>
      have := ih (f w) (log ++ [.ends i])
      rw [List.append_assoc, List.singleton_append] at this
      simpa [traceCb, h] using this

theorem trace_onStep (ps : List (Callback W Obs Act Rw Info × Nat)) (gs : GymState Obs Act Rw Info) (d : Bool) (w : W)
    (log : List (Ev Obs Act Rw Info)) :
    ∃ rets : List Bool, rets.length = ((ps.filter fun p => p.1.onStep.isSome).map Prod.snd).length ∧
      runOnStep gs ((ps.map traceCb).filterMap (·.onStep)) d (w, log) =
        ((runOnStep gs ((ps.map Prod.fst).filterMap (·.onStep)) d w).1,
          ((runOnStep gs ((ps.map Prod.fst).filterMap (·.onStep)) d w).2,
          log ++ List.zipWith (fun i r => Ev.onStep i gs r) ((ps.filter fun p => p.1.onStep.isSome).map Prod.snd) rets)) ∧
      (runOnStep gs ((ps.map Prod.fst).filterMap (·.onStep)) d w).1 = (d || rets.any id) := by
  induction ps generalizing d w log with
  | nil => exact ⟨[], by simp [runOnStep]⟩
  | cons p ps ih =>
    obtain ⟨c, i⟩ := p
    rw [List.map_cons, List.filterMap_cons, List.map_cons, List.filterMap_cons]
    cases h : c.onStep with
    | none =>
      obtain ⟨rets, h1, h2, h3⟩ := ih d w log
      exact ⟨rets, by simpa [h] using h1, by simpa [traceCb, h] using h2, h3⟩
    | some f =>
      obtain ⟨rets, h1, h2, h3⟩ := ih (d || (f w gs).1) (f w gs).2 (log ++ [.onStep i gs (f w gs).1])
      refine ⟨(f w gs).1 :: rets, by simpa [h] using h1, ?_, ?_⟩
      · simpa [traceCb, h, runOnStep] using h2
      · simpa [runOnStep, Bool.or_assoc] using h3

theorem zipIdx_fst (cbs : List (Callback W Obs Act Rw Info)) : cbs.zipIdx.map Prod.fst = cbs := by
  simp

theorem iteration_trace (cbs : List (Callback W Obs Act Rw Info)) (obs : Obs) (w : W) (log : List (Ev Obs Act Rw Info)) :
    ∃ evs, iteration (traceSys sys) (traced cbs) (w, log) obs =
        ((iteration sys cbs w obs).1, (iteration sys cbs w obs).2.1, ((iteration sys cbs w obs).2.2, log ++ evs)) ∧
      StepLog cbs obs evs (iteration sys cbs w obs).1 (iteration sys cbs w obs).2.1 := by
  obtain ⟨a, w0, ha⟩ : ∃ a w0, sys.act w obs = (a, w0) := ⟨_, _, rfl⟩
  have hact := trace_onAct cbs.zipIdx obs a w0 (log ++ [.act obs a])
  rw [zipIdx_fst] at hact
  obtain ⟨w1, hw1⟩ : ∃ w1, (cbs.filterMap (·.onAct)).foldl (fun w f => f w obs a) w0 = w1 := ⟨_, rfl⟩
  rw [hw1] at hact
  obtain ⟨o', rw', d, inf, w2, hs⟩ : ∃ o' rw' d inf w2, sys.step w1 a = ((o', rw', d, inf), w2) := ⟨_, _, _, _, _, rfl⟩
  obtain ⟨rets, h1, h2, h3⟩ := trace_onStep cbs.zipIdx (⟨rw', o', a, d, inf⟩ : GymState Obs Act Rw Info) d w2
    ((log ++ [.act obs a] ++ (positions (·.onAct.isSome) cbs).map fun i => Ev.onAct i obs a) ++ [.env a o' rw' d inf])
  rw [zipIdx_fst] at h2 h3
  have hit : iteration sys cbs w obs =
      (⟨rw', o', a, d, inf⟩, runOnStep ⟨rw', o', a, d, inf⟩ (cbs.filterMap (·.onStep)) d w2) := by
    unfold iteration
    simp only [ha, hw1, hs]
  rw [hit]
  refine ⟨_, ?_, rets, h1, rfl, h3⟩
  unfold iteration traced
  simp only [traceSys, ha, hact, hs]
  rw [show ((cbs.zipIdx.filter fun p => p.1.onAct.isSome).map Prod.snd) = positions (·.onAct.isSome) cbs from rfl, h2]
  simp [positions]

theorem loop_trace (cbs : List (Callback W Obs Act Rw Info)) (fuel : Nat) (w : W) (obs : Obs)
    (log : List (Ev Obs Act Rw Info)) :
    (loop sys cbs fuel w obs = none ∧ loop (traceSys sys) (traced cbs) fuel (w, log) obs = none) ∨
    ∃ gs w' evs, loop sys cbs fuel w obs = some (gs, w') ∧
      loop (traceSys sys) (traced cbs) fuel (w, log) obs = some (gs, (w', log ++ evs)) ∧ LoopLog cbs obs evs gs := by
  induction fuel generalizing w obs log with
  | zero => exact Or.inl ⟨rfl, rfl⟩
  | succ fuel ih =>
    obtain ⟨evs, h1, h2⟩ := iteration_trace sys cbs obs w log
    unfold loop
    simp only [h1]
    cases hf : (iteration sys cbs w obs).2.1 with
    | true =>
      rw [hf] at h2
      exact Or.inr ⟨_, (iteration sys cbs w obs).2.2, evs, by simp, by simp, .last h2⟩
    | false =>
      rw [hf] at h2
      simp only [Bool.false_eq_true, if_false]
      rcases ih (iteration sys cbs w obs).2.2 (iteration sys cbs w obs).1.obs (log ++ evs) with ⟨h3, h4⟩ | ⟨gs, w', evs', h3, h4, h5⟩
      · exact Or.inl ⟨h3, h4⟩
      · refine Or.inr ⟨gs, w', evs ++ evs', h3, ?_, .more h2 h5⟩
        rw [h4, List.append_assoc]

/-- C54: writing the log changes nothing: same result, same final world. -/
theorem C54_trace_faithful (cbs : List (Callback W Obs Act Rw Info)) (obs : Option Obs) (fuel : Nat) (w : W) :
    (gymUnroll (traceSys sys) (traced cbs) obs fuel (w, [])).map (fun r => (r.1, r.2.1)) = gymUnroll sys cbs obs fuel w := by
  unfold gymUnroll
  simp only
  generalize hp : firstObs (traceSys sys) obs (w, []) = p
  generalize hq : firstObs sys obs w = q
  have hpq : p.1 = q.1 ∧ p.2.1 = q.2 := by
    cases obs <;> simp only [firstObs] at hp hq <;> subst hp <;> subst hq <;> exact ⟨rfl, rfl⟩
  obtain ⟨po, pw, pl⟩ := p
  obtain ⟨qo, qw⟩ := q
  obtain ⟨rfl, rfl⟩ := hpq
  simp only [traced, trace_onStart]
  rw [zipIdx_fst]
  rcases loop_trace sys cbs fuel ((cbs.filterMap (·.onStart)).foldl (fun w f => f w po) pw) po
    (pl ++ ((cbs.zipIdx.filter fun p => p.1.onStart.isSome).map Prod.snd).map fun i => Ev.start i po) with
    ⟨h1, h2⟩ | ⟨gs, w', evs, h1, h2, _⟩
  · simp only [traced] at h2
    rw [h1, h2]; rfl
  · simp only [traced] at h2
    rw [h1, h2]
    simp only [Option.map_some, trace_onEnd, zipIdx_fst]
    rfl

/-- C54: a terminating `gym_unroll` makes exactly these calls, in this order: `env.reset()` if no observation was given; every
`on_train_start`; then iterations, each made of one agent action on the current observation, every `on_act`, exactly one
environment step with that action and every `on_step` (all of them are called even when one asks to stop); the first iteration
in which the environment or an `on_step` says done is the last one and its state is the result; then every `on_train_end`
once, then `env.close()`. -/
theorem C54_gym_unroll_log (cbs : List (Callback W Obs Act Rw Info)) (obs : Option Obs) (fuel : Nat) (w w' : W)
    (gs : GymState Obs Act Rw Info) (log : List (Ev Obs Act Rw Info))
    (h : gymUnroll (traceSys sys) (traced cbs) obs fuel (w, []) = some (gs, (w', log))) :
    ∃ o evs, (obs = some o ∨ obs = none) ∧ LoopLog cbs o evs gs ∧
      log = (if obs.isSome then [] else [.reset o]) ++ (positions (·.onStart.isSome) cbs).map (fun i => Ev.start i o) ++ evs ++
        (positions (·.onEnd.isSome) cbs).map (fun i => Ev.ends i) ++ [.close] := by
  unfold gymUnroll at h
  simp only at h
  generalize hp : firstObs (traceSys sys) obs (w, []) = p at h
  obtain ⟨po, pw, pl⟩ := p
  simp only [traced, trace_onStart] at h
  rw [zipIdx_fst] at h
  have hpl : pl = (if obs.isSome then [] else [.reset po]) ∧ (obs = some po ∨ obs = none) := by
    cases obs with
    | none => simp [firstObs, traceSys] at hp; simp [← hp.2.2, ← hp.1]
    | some o => simp [firstObs] at hp; simp [← hp.2.2, ← hp.1]
  rcases loop_trace sys cbs fuel ((cbs.filterMap (·.onStart)).foldl (fun w f => f w po) pw) po
    (pl ++ ((cbs.zipIdx.filter fun p => p.1.onStart.isSome).map Prod.snd).map fun i => Ev.start i po) with
    ⟨h1, h2⟩ | ⟨gs', w'', evs, h1, h2, h3⟩
  · simp only [traced] at h2
    rw [h2] at h; cases h
  · simp only [traced] at h2
    rw [h2] at h
    simp only [Option.map_some, trace_onEnd, zipIdx_fst, traceSys, Option.some.injEq, Prod.mk.injEq] at h
    obtain ⟨rfl, _, h5⟩ := h
    refine ⟨po, evs, hpl.2, h3, ?_⟩
    rw [← h5, ← hpl.1]
    simp [positions]

/-- C54: once the loop has ended, allowing more iterations changes nothing. -/
theorem C54_result_unique (cbs : List (Callback W Obs Act Rw Info)) (fuel fuel' : Nat) (w : W) (obs : Obs)
    (r : GymState Obs Act Rw Info × W) (h : loop sys cbs fuel w obs = some r) (hf : fuel ≤ fuel') :
    loop sys cbs fuel' w obs = some r := by
  induction fuel generalizing fuel' w obs with
  | zero => cases h
  | succ fuel ih =>
    cases fuel' with
    | zero => omega
    | succ fuel' =>
      unfold loop at h ⊢
      simp only at h ⊢
      split
      · rename_i hd; rw [if_pos hd] at h; exact h
      · rename_i hd; rw [if_neg hd] at h; exact ih _ _ _ h (by omega)

end Trace

/-! ## C56: Stop -/

section Stop

theorem lift_onAct {T : Type} (cs : List (Callback W Obs Act Rw Info)) (o : Obs) (a : Act) (w : W) (t : T) :
    ((cs.map liftCb).filterMap (·.onAct)).foldl (fun w f => f w o a) (w, t) =
      ((cs.filterMap (·.onAct)).foldl (fun w f => f w o a) w, t) := by
  induction cs generalizing w with
  | nil => rfl
  | cons c cs ih =>
    rw [List.map_cons, List.filterMap_cons, List.filterMap_cons]
    cases h : c.onAct with
    | none => simpa [liftCb, h] using ih w
    | some f => simpa [liftCb, h] using ih (f w o a)

theorem lift_onStep {T : Type} (cs : List (Callback W Obs Act Rw Info)) (gs : GymState Obs Act Rw Info) (d : Bool) (w : W)
    (t : T) :
    runOnStep gs ((cs.map liftCb).filterMap (·.onStep)) d (w, t) =
      ((runOnStep gs (cs.filterMap (·.onStep)) d w).1, ((runOnStep gs (cs.filterMap (·.onStep)) d w).2, t)) := by
  induction cs generalizing w d with
  | nil => rfl
  | cons c cs ih =>
    rw [List.map_cons, List.filterMap_cons, List.filterMap_cons]
    cases h : c.onStep with
    | none => simpa [liftCb, h] using ih d w
    | some f => simpa [liftCb, h, runOnStep] using ih (d || (f w gs).1) (f w gs).2

theorem runOnStep_append (gs : GymState Obs Act Rw Info) (fs fs' : List (W → GymState Obs Act Rw Info → Bool × W)) (d : Bool)
    (w : W) : runOnStep gs (fs ++ fs') d w = runOnStep gs fs' (runOnStep gs fs d w).1 (runOnStep gs fs d w).2 := by
  induction fs generalizing d w with
  | nil => rfl
  | cons f fs ih => exact ih _ _

theorem runOnStep_mono (gs : GymState Obs Act Rw Info) (fs : List (W → GymState Obs Act Rw Info → Bool × W)) (w : W) :
    (runOnStep gs fs true w).1 = true := by
  induction fs generalizing w with
  | nil => rfl
  | cons f fs ih => simpa [runOnStep] using ih _

theorem runOnStep_never (gs : GymState Obs Act Rw Info) (fs : List (W → GymState Obs Act Rw Info → Bool × W)) (w : W)
    (h : ∀ f ∈ fs, ∀ w gs, (f w gs).1 = false) : (runOnStep gs fs false w).1 = false := by
  induction fs generalizing w with
  | nil => rfl
  | cons f fs ih =>
    unfold runOnStep
    simp only [h f List.mem_cons_self, Bool.or_self]
    exact ih _ fun f hf => h f (List.mem_cons_of_mem _ hf)

/-- A loop with a `Stop(n)` among arbitrary other callbacks. -/
def withStop (n : Nat) (pre post : List (Callback W Obs Act Rw Info)) : List (Callback (W × Nat) Obs Act Rw Info) :=
  pre.map liftCb ++ stopCb n :: post.map liftCb

theorem iteration_stop (sys : Sys W Obs Act Rw Info) (n : Nat) (pre post : List (Callback W Obs Act Rw Info)) (w : W) (t : Nat)
    (obs : Obs) :
    (iteration (liftSys sys) (withStop n pre post) (w, t) obs).2.2.2 = t + 1 ∧
    (n ≤ t + 1 → (iteration (liftSys sys) (withStop n pre post) (w, t) obs).2.1 = true) ∧
    ((∀ w a, (sys.step w a).1.2.2.1 = false) → (∀ c ∈ pre ++ post, ∀ f, c.onStep = some f → ∀ w gs, (f w gs).1 = false) →
      ((iteration (liftSys sys) (withStop n pre post) (w, t) obs).2.1 = true ↔ n ≤ t + 1)) := by
  unfold iteration withStop
  simp only [List.filterMap_append, List.filterMap_cons, stopCb, List.foldl_append]
  simp only [liftSys, lift_onAct]
  rw [runOnStep_append, lift_onStep]
  simp only [runOnStep, lift_onStep]
  refine ⟨trivial, ?_, ?_⟩
  · intro h
    simp only [h, decide_true, Bool.or_true]
    exact runOnStep_mono _ _ _
  · intro henv hcb
    have hpre : ∀ gs w, (runOnStep gs (pre.filterMap (·.onStep)) false w).1 = false := by
      intro gs w
      apply runOnStep_never
      intro f hf
      obtain ⟨c, hc, hcf⟩ := List.mem_filterMap.1 hf
      exact hcb c (List.mem_append_left _ hc) f hcf
    have hpost : ∀ gs w, (runOnStep gs (post.filterMap (·.onStep)) false w).1 = false := by
      intro gs w
      apply runOnStep_never
      intro f hf
      obtain ⟨c, hc, hcf⟩ := List.mem_filterMap.1 hf
      exact hcb c (List.mem_append_right _ hc) f hcf
    simp only [henv, hpre, Bool.false_or]
    by_cases h : n ≤ t + 1
    · simp [h, runOnStep_mono]
    · simp [h, hpost]

/-- C56: with `Stop(n)` among the callbacks the loop always ends, whatever the environment, the agent and the other callbacks
do: at most `n` iterations on a fresh `Stop` (at least one), `n - t` when it has already counted `t` steps. -/
theorem C56_stop_bound (sys : Sys W Obs Act Rw Info) (n : Nat) (pre post : List (Callback W Obs Act Rw Info)) (w : W) (t : Nat)
    (obs : Obs) :
    ∃ gs w' t', loop (liftSys sys) (withStop n pre post) (max 1 (n - t)) (w, t) obs = some (gs, (w', t')) ∧
      t < t' ∧ t' ≤ max (t + 1) n := by
  generalize hk : max 1 (n - t) = k
  have hk1 : 1 ≤ k := by omega
  induction k generalizing w t obs with
  | zero => omega
  | succ k ih =>
    obtain ⟨h1, h2, _⟩ := iteration_stop sys n pre post w t obs
    unfold loop
    simp only
    cases hd : (iteration (liftSys sys) (withStop n pre post) (w, t) obs).2.1 with
    | true =>
      refine ⟨(iteration (liftSys sys) (withStop n pre post) (w, t) obs).1,
        (iteration (liftSys sys) (withStop n pre post) (w, t) obs).2.2.1,
        (iteration (liftSys sys) (withStop n pre post) (w, t) obs).2.2.2, by simp, ?_, ?_⟩ <;> rw [h1] <;> omega
    | false =>
      have hlt : ¬ n ≤ t + 1 := fun h => by rw [h2 h] at hd; cases hd
      simp only [Bool.false_eq_true, if_false]
      obtain ⟨gs, w', t', h3, h4, h5⟩ := ih (iteration (liftSys sys) (withStop n pre post) (w, t) obs).2.2.1
        (iteration (liftSys sys) (withStop n pre post) (w, t) obs).2.2.2
        (iteration (liftSys sys) (withStop n pre post) (w, t) obs).1.obs (by rw [h1]; omega) (by omega)
      refine ⟨gs, w', t', h3, ?_, ?_⟩
      · rw [h1] at h4; omega
      · rw [h1] at h5; omega

/-- C56: when nothing else stops the loop, it runs exactly `n` iterations (1 when `n = 0`): it is still running after one
less, and the counter has advanced by exactly that number. -/
theorem C56_stop_exact (sys : Sys W Obs Act Rw Info) (n : Nat) (pre post : List (Callback W Obs Act Rw Info)) (w : W) (t : Nat)
    (obs : Obs) (henv : ∀ w a, (sys.step w a).1.2.2.1 = false)
    (hcb : ∀ c ∈ pre ++ post, ∀ f, c.onStep = some f → ∀ w gs, (f w gs).1 = false) :
    loop (liftSys sys) (withStop n pre post) (max 1 (n - t) - 1) (w, t) obs = none ∧
    ∃ gs w', loop (liftSys sys) (withStop n pre post) (max 1 (n - t)) (w, t) obs = some (gs, (w', max (t + 1) n)) := by
  generalize hk : max 1 (n - t) = k
  have hk1 : 1 ≤ k := by omega
  induction k generalizing w t obs with
  | zero => omega
  | succ k ih =>
    obtain ⟨h1, h2, h3⟩ := iteration_stop sys n pre post w t obs
    have h3 := h3 henv hcb
    by_cases hn : n ≤ t + 1
    · have hk0 : k = 0 := by omega
      subst hk0
      refine ⟨rfl, ?_⟩
      unfold loop
      simp only [h2 hn, if_true]
      refine ⟨(iteration (liftSys sys) (withStop n pre post) (w, t) obs).1,
        (iteration (liftSys sys) (withStop n pre post) (w, t) obs).2.2.1, ?_⟩
      · have : max (t + 1) n = (iteration (liftSys sys) (withStop n pre post) (w, t) obs).2.2.2 := by rw [h1]; omega
        rw [this]
    · have hd : (iteration (liftSys sys) (withStop n pre post) (w, t) obs).2.1 = false := by
        cases h : (iteration (liftSys sys) (withStop n pre post) (w, t) obs).2.1 with
        | false => rfl
        | true => exact absurd (h3.1 h) hn
      obtain ⟨h4, gs, w', h5⟩ := ih (iteration (liftSys sys) (withStop n pre post) (w, t) obs).2.2.1
        (iteration (liftSys sys) (withStop n pre post) (w, t) obs).2.2.2
        (iteration (liftSys sys) (withStop n pre post) (w, t) obs).1.obs (by rw [h1]; omega) (by omega)
      constructor
      · have : k + 1 - 1 = (k - 1) + 1 := by omega
        rw [this]
        unfold loop
        simp only [hd, Bool.false_eq_true, if_false]
        exact h4
      · unfold loop
        simp only [hd, Bool.false_eq_true, if_false]
        refine ⟨gs, w', ?_⟩
        rw [show ((iteration (liftSys sys) (withStop n pre post) (w, t) obs).2.2) =
          ((iteration (liftSys sys) (withStop n pre post) (w, t) obs).2.2.1,
          (iteration (liftSys sys) (withStop n pre post) (w, t) obs).2.2.2) from rfl, h5, h1]
        congr 3
        omega

/-- Non-vacuity: an environment that never ends, one silent callback. -/
example : ∃ (sys : Sys Nat Nat Nat Nat Unit) (pre post : List (Callback Nat Nat Nat Nat Unit)),
    (∀ w a, (sys.step w a).1.2.2.1 = false) ∧ pre.length = 1 ∧
    (∀ c ∈ pre ++ post, ∀ f, c.onStep = some f → ∀ w gs, (f w gs).1 = false) :=
  ⟨⟨fun w => (0, w), fun w o => (o, w), fun w a => ((a, a, false, ()), w + 1), id⟩,
    [⟨none, none, some fun w _ => (false, w), none⟩], [], fun _ _ => rfl, rfl, by
      intro c hc f hf
      simp only [List.append_nil, List.mem_singleton] at hc
      subst hc
      simp only [Option.some.injEq] at hf
      subst hf
      exact fun _ _ => rfl⟩

end Stop

/-! ## C77: Record -/

section Record
variable {Out : Type}

/-- The entry that a logged environment step deserves: none if the environment said done or the action is `None`. -/
def recorded (isNone : Act → Bool) (fmt : Rw → Obs → Act → Out) : Ev Obs Act Rw Info → Option Out
  | .env a o rw done _ => if done || isNone a then none else some (fmt rw o a)
  | _ => none

theorem filterMap_actEvents (isNone : Act → Bool) (fmt : Rw → Obs → Act → Out) (is : List Nat) (o : Obs) (a : Act) :
    (is.map fun i => (Ev.onAct i o a : Ev Obs Act Rw Info)).filterMap (recorded isNone fmt) = [] := by
  induction is with
  | nil => rfl
  | cons i is ih => simp [recorded]

theorem filterMap_stepEvents (isNone : Act → Bool) (fmt : Rw → Obs → Act → Out) (is : List Nat) (rets : List Bool)
    (gs : GymState Obs Act Rw Info) :
    (List.zipWith (fun i r => (Ev.onStep i gs r : Ev Obs Act Rw Info)) is rets).filterMap (recorded isNone fmt) = [] := by
  induction is generalizing rets with
  | nil => rfl
  | cons i is ih =>
    cases rets with
    | nil => rfl
    | cons r rets => simpa [recorded] using ih rets

/-- Callbacks: logged ones around a `Record`. -/
def withRecord (isNone : Act → Bool) (fmt : Rw → Obs → Act → Out) (pre post : List (Callback W Obs Act Rw Info)) :
    List (Callback ((W × List (Ev Obs Act Rw Info)) × List Out) Obs Act Rw Info) :=
  (traced pre).map liftCb ++ recordCb isNone fmt :: (traced post).map liftCb

theorem iteration_record (sys : Sys W Obs Act Rw Info) (isNone : Act → Bool) (fmt : Rw → Obs → Act → Out)
    (pre post : List (Callback W Obs Act Rw Info)) (w : W) (log : List (Ev Obs Act Rw Info)) (rec : List Out) (obs : Obs)
    (h : rec = log.filterMap (recorded isNone fmt)) :
    (iteration (liftSys (traceSys sys)) (withRecord isNone fmt pre post) ((w, log), rec) obs).2.2.2 =
      (iteration (liftSys (traceSys sys)) (withRecord isNone fmt pre post) ((w, log), rec) obs).2.2.1.2.filterMap
        (recorded isNone fmt) := by
  unfold iteration withRecord
  simp only [List.filterMap_append, List.filterMap_cons, recordCb, List.foldl_append]
  simp only [liftSys, lift_onAct]
  obtain ⟨a, w0, ha⟩ : ∃ a w0, (traceSys sys).act (w, log) obs = (a, w0) := ⟨_, _, rfl⟩
  have hw0 : w0.2.filterMap (recorded isNone fmt) = log.filterMap (recorded isNone fmt) := by
    have : w0.2 = log ++ [.act obs a] := by
      simp only [traceSys, Prod.mk.injEq] at ha
      rw [← ha.2, ← ha.1]
    rw [this, List.filterMap_append]; simp [recorded]
  simp only [ha]
  obtain ⟨w0, log0⟩ := w0
  simp only at hw0
  rw [traced, traced, trace_onAct, trace_onAct]
  generalize ((post.zipIdx.map Prod.fst).filterMap (·.onAct)).foldl (fun w f => f w obs a)
    (((pre.zipIdx.map Prod.fst).filterMap (·.onAct)).foldl (fun w f => f w obs a) w0) = w1
  simp only [traceSys]
  obtain ⟨o', rw', d, inf, w2, hs⟩ : ∃ o' rw' d inf w2, sys.step w1 a = ((o', rw', d, inf), w2) := ⟨_, _, _, _, _, rfl⟩
  simp only [hs]
  rw [runOnStep_append, lift_onStep]
  obtain ⟨rets1, _, h2, _⟩ := trace_onStep pre.zipIdx (⟨rw', o', a, d, inf⟩ : GymState Obs Act Rw Info) d w2
    (log0 ++ List.map (fun i => Ev.onAct i obs a) (List.map Prod.snd (List.filter (fun p => p.fst.onAct.isSome) pre.zipIdx)) ++
      List.map (fun i => Ev.onAct i obs a) (List.map Prod.snd (List.filter (fun p => p.fst.onAct.isSome) post.zipIdx)) ++
      [Ev.env a o' rw' d inf])
  rw [h2]
  simp only [runOnStep]
  generalize (runOnStep _ (List.filterMap (fun x => x.onStep) (List.map Prod.fst pre.zipIdx)) d w2).1 = d1
  generalize (runOnStep _ (List.filterMap (fun x => x.onStep) (List.map Prod.fst pre.zipIdx)) d w2).2 = w3
  by_cases hd : d
  · simp only [hd, if_true, Bool.or_false]
    rw [lift_onStep]
    obtain ⟨rets2, _, h4, _⟩ := trace_onStep post.zipIdx (⟨rw', o', a, true, inf⟩ : GymState Obs Act Rw Info) d1 w3
      (log0 ++ List.map (fun i => Ev.onAct i obs a) (List.map Prod.snd (List.filter (fun p => p.fst.onAct.isSome) pre.zipIdx)) ++
        List.map (fun i => Ev.onAct i obs a) (List.map Prod.snd (List.filter (fun p => p.fst.onAct.isSome) post.zipIdx)) ++
        [Ev.env a o' rw' true inf] ++ List.zipWith (fun i r => Ev.onStep i ⟨rw', o', a, true, inf⟩ r)
          (List.map Prod.snd (List.filter (fun p => p.fst.onStep.isSome) pre.zipIdx)) rets1)
    rw [h4]
    simp only [List.filterMap_append, filterMap_actEvents, filterMap_stepEvents, hw0, h]
    simp [recorded]
  · simp only [hd, Bool.false_eq_true, if_false]
    by_cases hn : isNone a
    · simp only [hn, if_true, Bool.or_false]
      rw [lift_onStep]
      obtain ⟨rets2, _, h4, _⟩ := trace_onStep post.zipIdx (⟨rw', o', a, false, inf⟩ : GymState Obs Act Rw Info) d1 w3
        (log0 ++ List.map (fun i => Ev.onAct i obs a) (List.map Prod.snd (List.filter (fun p => p.fst.onAct.isSome) pre.zipIdx)) ++
          List.map (fun i => Ev.onAct i obs a) (List.map Prod.snd (List.filter (fun p => p.fst.onAct.isSome) post.zipIdx)) ++
          [Ev.env a o' rw' false inf] ++ List.zipWith (fun i r => Ev.onStep i ⟨rw', o', a, false, inf⟩ r)
            (List.map Prod.snd (List.filter (fun p => p.fst.onStep.isSome) pre.zipIdx)) rets1)
      simp only [Bool.eq_false_iff.2 hd] at h4 ⊢
      rw [h4]
      simp only [List.filterMap_append, filterMap_actEvents, filterMap_stepEvents, hw0, h]
      simp [recorded, hn]
    · simp only [hn, Bool.false_eq_true, if_false, Bool.or_false]
      rw [lift_onStep]
      obtain ⟨rets2, _, h4, _⟩ := trace_onStep post.zipIdx (⟨rw', o', a, false, inf⟩ : GymState Obs Act Rw Info) d1 w3
        (log0 ++ List.map (fun i => Ev.onAct i obs a) (List.map Prod.snd (List.filter (fun p => p.fst.onAct.isSome) pre.zipIdx)) ++
          List.map (fun i => Ev.onAct i obs a) (List.map Prod.snd (List.filter (fun p => p.fst.onAct.isSome) post.zipIdx)) ++
          [Ev.env a o' rw' false inf] ++ List.zipWith (fun i r => Ev.onStep i ⟨rw', o', a, false, inf⟩ r)
            (List.map Prod.snd (List.filter (fun p => p.fst.onStep.isSome) pre.zipIdx)) rets1)
      simp only [Bool.eq_false_iff.2 hd] at h4 ⊢
      rw [h4]
      simp only [List.filterMap_append, filterMap_actEvents, filterMap_stepEvents, hw0, h]
      simp [recorded, hn]

/-- C77: at the end of a loop, `Record` holds exactly the formatted (reward, observation, action) of the environment steps
that were made, in order, except those where the environment said done and those without an action. -/
theorem C77_record_log (sys : Sys W Obs Act Rw Info) (isNone : Act → Bool) (fmt : Rw → Obs → Act → Out)
    (pre post : List (Callback W Obs Act Rw Info)) (fuel : Nat) (w w' : W) (obs : Obs) (gs : GymState Obs Act Rw Info)
    (log : List (Ev Obs Act Rw Info)) (rec : List Out)
    (h : loop (liftSys (traceSys sys)) (withRecord isNone fmt pre post) fuel ((w, []), []) obs = some (gs, ((w', log), rec))) :
    rec = log.filterMap (recorded isNone fmt) := by
  have key : ∀ fuel w log0 rec0 obs, rec0 = log0.filterMap (recorded isNone fmt) →
      loop (liftSys (traceSys sys)) (withRecord isNone fmt pre post) fuel ((w, log0), rec0) obs = some (gs, ((w', log), rec)) →
      rec = log.filterMap (recorded isNone fmt) := by
    intro fuel
    induction fuel with
    | zero => intro w log0 rec0 obs _ h; cases h
    | succ fuel ih =>
      intro w log0 rec0 obs hinv h
      have hit := iteration_record sys isNone fmt pre post w log0 rec0 obs hinv
      unfold loop at h
      simp only at h
      generalize iteration (liftSys (traceSys sys)) (withRecord isNone fmt pre post) ((w, log0), rec0) obs = r at h hit
      obtain ⟨gs1, d, ⟨w1, log1⟩, rec1⟩ := r
      simp only at h hit
      split at h
      · simp only [Option.some.injEq, Prod.mk.injEq] at h
        obtain ⟨_, ⟨_, rfl⟩, rfl⟩ := h
        exact hit
      · exact ih _ _ _ _ hit h
  exact key fuel w [] [] obs rfl h

end Record

/-! ## C55: GymFeedback -/

section Feedback
variable {Sa Se Raw : Type}

theorem feedback_gen (agent : Mealy Sa Obs Act) (env : Mealy Se (Act × Raw) (Rw × Obs)) (action0 : Act)
    (raws : List Raw) (a : Act) (se : Se) (sa : Sa) :
    let outs := (gymFeedback agent env action0).outsFrom (a, se, sa) raws
    env.outsFrom se (List.zip (a :: outs.map (·.2.2)) raws) = outs.map (fun o => (o.1, o.2.1)) ∧
    agent.outsFrom sa (outs.map (·.2.1)) = outs.map (·.2.2) := by
  induction raws generalizing a se sa with
  | nil => exact ⟨rfl, rfl⟩
  | cons raw raws ih =>
    have h := ih ((gymFeedback agent env action0).step (a, se, sa) raw).2.1
      ((gymFeedback agent env action0).step (a, se, sa) raw).2.2.1
      ((gymFeedback agent env action0).step (a, se, sa) raw).2.2.2
    simp only [Mealy.outsFrom_cons, List.map_cons, List.zip_cons_cons, List.cons.injEq] at h ⊢
    exact ⟨⟨rfl, h.1⟩, rfl, h.2⟩

/-- C55: the outputs of `GymFeedback` solve the feedback equations: rewards and observations are the environment's on the raw
stream paired with the *previous* action (the initial action first), actions are the agent's on these observations. -/
theorem C55_feedback_equations (agent : Mealy Sa Obs Act) (env : Mealy Se (Act × Raw) (Rw × Obs)) (action0 : Act)
    (raws : List Raw) :
    let outs := (gymFeedback agent env action0).run raws
    env.run (List.zip (action0 :: outs.map (·.2.2)) raws) = outs.map (fun o => (o.1, o.2.1)) ∧
    agent.run (outs.map (·.2.1)) = outs.map (·.2.2) :=
  feedback_gen agent env action0 raws action0 env.init agent.init

theorem take_zip_both {α β : Type} (n : Nat) (xs : List α) (ys : List β) :
    (xs.zip ys).take n = (xs.take n).zip (ys.take n) := by
  rw [List.zip_eq_zipWith, List.take_zipWith, ← List.zip_eq_zipWith]

/-- C55: the reward and the observation of step `t` depend only on the raw observations up to `t` and the actions before `t`:
two agents (even on raw streams that differ later) that take the same first `t` actions get the same rewards and observations
up to step `t`. -/
theorem C55_feedback_causal {Sa' : Type} (agent : Mealy Sa Obs Act) (agent' : Mealy Sa' Obs Act)
    (env : Mealy Se (Act × Raw) (Rw × Obs)) (action0 : Act) (raws raws' : List Raw) (t : Nat)
    (hraw : raws.take (t + 1) = raws'.take (t + 1))
    (hact : (((gymFeedback agent env action0).run raws).map (·.2.2)).take t =
      (((gymFeedback agent' env action0).run raws').map (·.2.2)).take t) :
    (((gymFeedback agent env action0).run raws).map fun o => (o.1, o.2.1)).take (t + 1) =
      (((gymFeedback agent' env action0).run raws').map fun o => (o.1, o.2.1)).take (t + 1) := by
  rw [← (C55_feedback_equations agent env action0 raws).1, ← (C55_feedback_equations agent' env action0 raws').1,
    Mealy.run_take, Mealy.run_take, take_zip_both, take_zip_both, List.take_succ_cons, List.take_succ_cons, hact, hraw]

/-- Non-vacuity: two different agents with the same first action. -/
example : ∃ (agent agent' : Mealy Nat Nat Nat) (env : Mealy Unit (Nat × Nat) (Nat × Nat)),
    (((gymFeedback agent env 0).run [5, 6, 7]).map (·.2.2)).take 1 =
      (((gymFeedback agent' env 0).run [5, 6, 7]).map (·.2.2)).take 1 ∧
    ((gymFeedback agent env 0).run [5, 6, 7]) ≠ ((gymFeedback agent' env 0).run [5, 6, 7]) :=
  ⟨⟨0, fun s o => (o, s)⟩, ⟨0, fun s o => (if s = 0 then o else 0, s + 1)⟩, ⟨(), fun _ x => ((x.1, x.2), ())⟩, by decide, by
    decide⟩

/-- C78: the Flax `GymFeedback` has no feedback: the stored previous action never influences anything, each action is the
agent's on the current observation (and reward if the agent accepts it). -/
theorem C78_flax_feedback_memoryless_partial {F : Type} (agent1 : Obs → Act) (agent2 : Obs → F → Option Act) (zero : Obs → Act)
    (xs : List (Obs × Option F)) :
    (flaxFeedback agent1 agent2 zero).run xs =
      xs.map fun x => (x.2.bind (agent2 x.1)).getD (agent1 x.1) := by
  apply List.ext_getElem?
  intro t
  rw [Mealy.run, Mealy.outsFrom_getElem?, List.getElem?_map]
  cases h : xs[t]? with
  | none => rfl
  | some x =>
    obtain ⟨o, r⟩ := x
    cases r <;> rfl

end Feedback

/-! ## C76: the gym loop on HaikuAgent and HaikuEnv is the feedback loop -/

section Haiku
variable {Sa Se : Type}

/-- The outputs of the feedback loop from a given state do not depend on the initial states. -/
theorem feedback_outs_init {Raw : Type} (fa : Sa → Obs → Act × Sa) (fe : Se → Act × Raw → (Rw × Obs) × Se) (i i' : Sa)
    (j j' : Se) (a a' : Act) (st : Act × Se × Sa) (raws : List Raw) :
    (gymFeedback (⟨i, fa⟩ : Mealy Sa Obs Act) ⟨j, fe⟩ a).outsFrom st raws =
      (gymFeedback (⟨i', fa⟩ : Mealy Sa Obs Act) ⟨j', fe⟩ a').outsFrom st raws := by
  induction raws generalizing st with
  | nil => rfl
  | cons r raws ih => rw [Mealy.outsFrom_cons, Mealy.outsFrom_cons, ih]; rfl

/-- A sequence of feedback outputs with each action replaced by the one that the environment received at that step. -/
def actionsReceived (action0 : Act) (outs : List (Rw × Obs × Act)) : List (Rw × Option Obs × Act) :=
  List.zipWith (fun o a => (o.1, some o.2.1, a)) outs (action0 :: outs.map (·.2.2))

/-- C76: unrolling a `HaikuAgent` in a `HaikuEnv` over data `x0, x1, …` records the rewards and observations of the feedback loop
on `x1, …`, started from the action taken on `x0` (with the agent's state after that action), and stops when the data is
exhausted. The action recorded beside them is the one the environment *received* at that step, so compared with `GymFeedback`
(which returns the action answering the observation) recorded actions are one step late. -/
theorem C76_haiku_unroll (agentInit : Option Obs → Sa) (agentApply : Sa → Option Obs → Act × Sa)
    (envInit : Act → Obs → Se) (envApply : Se → Act → Obs → (Rw × Obs) × Se) (zero : Rw) (info0 i0 : Info)
    (x0 : Obs) (data : List (Obs × Info)) (fuel : Nat) (hf : data.length < fuel) (s0 : Se)
    (hs0 : ∀ x1 i1 rest, data = (x1, i1) :: rest → s0 = envInit (agentApply (agentInit (some x0)) (some x0)).1 x1)
    (oldEnv : Option Se) :
    ∃ gs w, gymUnroll (liftSys (haikuSys agentInit agentApply envInit envApply zero))
        [recordCb (fun _ => false) fun rw o a => (rw, o, a)] none fuel
        ((⟨none, oldEnv, (x0, i0) :: data, info0⟩ : HWorld Sa Se Obs Info), []) = some (gs, w) ∧
      gs.done = true ∧ w.1.data = [] ∧
      w.2 = actionsReceived (agentApply (agentInit (some x0)) (some x0)).1
        ((gymFeedback (⟨(agentApply (agentInit (some x0)) (some x0)).2, fun s o => agentApply s (some o)⟩ : Mealy Sa Obs Act)
        (⟨s0, fun s ax => envApply s ax.1 ax.2⟩ : Mealy Se (Act × Obs) (Rw × Obs))
        (agentApply (agentInit (some x0)) (some x0)).1).run (data.map Prod.fst)) := by
  have key : ∀ (data : List (Obs × Info)) (fuel : Nat) (_ : data.length < fuel) (ag : Option Sa) (en : Option Se) (inf : Info)
      (o : Option Obs) (rec : List (Rw × Option Obs × Act)) (se : Se)
      (_ : ∀ x1 i1 rest, data = (x1, i1) :: rest →
        en.getD (envInit (agentApply (ag.getD (agentInit o)) o).1 x1) = se),
      ∃ gs w, loop (liftSys (haikuSys agentInit agentApply envInit envApply zero))
        [recordCb (fun _ => false) fun rw o a => (rw, o, a)] fuel
        ((⟨ag, en, data, inf⟩ : HWorld Sa Se Obs Info), rec) o = some (gs, w) ∧ gs.done = true ∧ w.1.data = [] ∧
      w.2 = rec ++ actionsReceived (agentApply (ag.getD (agentInit o)) o).1
        ((gymFeedback (⟨(agentApply (ag.getD (agentInit o)) o).2, fun s o => agentApply s (some o)⟩ : Mealy Sa Obs Act)
        (⟨se, fun s ax => envApply s ax.1 ax.2⟩ : Mealy Se (Act × Obs) (Rw × Obs))
        (agentApply (ag.getD (agentInit o)) o).1).run (data.map Prod.fst)) := by
    intro data
    induction data with
    | nil =>
      intro fuel hf ag en inf o rec se _
      cases fuel with
      | zero => simp at hf
      | succ fuel =>
        refine ⟨_, _, rfl, rfl, rfl, ?_⟩
        simp [iteration, recordCb, liftSys, haikuSys, runOnStep, Mealy.run, actionsReceived]
    | cons xi data ih =>
      intro fuel hf ag en inf o rec se hse
      obtain ⟨x, i⟩ := xi
      cases fuel with
      | zero => simp at hf
      | succ fuel =>
        have hse := hse x i data rfl
        obtain ⟨gs, w, h1, h2, h3, h4⟩ := ih fuel (by simp at hf; omega) (some (agentApply (ag.getD (agentInit o)) o).2)
          (some (envApply se (agentApply (ag.getD (agentInit o)) o).1 x).2) i
          (some (envApply se (agentApply (ag.getD (agentInit o)) o).1 x).1.2)
          (rec ++ [((envApply se (agentApply (ag.getD (agentInit o)) o).1 x).1.1,
            some (envApply se (agentApply (ag.getD (agentInit o)) o).1 x).1.2, (agentApply (ag.getD (agentInit o)) o).1)])
          (envApply se (agentApply (ag.getD (agentInit o)) o).1 x).2 (by intro _ _ _ _; rfl)
        refine ⟨gs, w, ?_, h2, h3, ?_⟩
        · unfold loop
          simp only [iteration, List.filterMap_cons, recordCb, List.filterMap_nil, List.foldl_nil, liftSys, haikuSys, hse,
            runOnStep, Bool.false_eq_true, if_false, Bool.or_false]
          exact h1
        · rw [h4]
          simp only [Mealy.run, List.map_cons, Mealy.outsFrom_cons, List.append_assoc, List.singleton_append]
          congr 1
          unfold actionsReceived
          rw [List.map_cons, List.zipWith_cons_cons]
          refine congrArg₂ List.cons rfl ?_
          rw [feedback_outs_init]
          rfl
  obtain ⟨gs, w, h1, h2, h3, h4⟩ := key data fuel hf none none i0 (some x0) [] s0 (by
    intro x1 i1 rest h
    rw [hs0 x1 i1 rest h]; rfl)
  refine ⟨gs, w, ?_, h2, h3, ?_⟩
  · unfold gymUnroll
    simp only [firstObs, liftSys, haikuSys, List.filterMap_cons, recordCb, List.filterMap_nil, List.foldl_nil]
    have h1' := h1
    simp only [liftSys, haikuSys, recordCb] at h1'
    rw [h1']; rfl
  · rw [h4]; rfl

/-- Non-vacuity: an agent that counts, an environment that adds the action to the raw observation. -/
example : ∃ gs w, gymUnroll (liftSys (haikuSys (Info := Unit) (fun _ => 0) (fun (s : Nat) o => (s + o.getD 0, s + 1))
      (fun _ _ => ()) (fun _ a (x : Nat) => ((a, x + a), ())) 0))
      [recordCb (fun _ => false) fun (rw : Nat) o (a : Nat) => (rw, o, a)] none 5
      ((⟨none, none, [(3, ()), (4, ()), (5, ())], ()⟩ : HWorld Nat Unit Nat Unit), []) = some (gs, w) ∧
    w.2 = [(3, some 7, 3), (8, some 13, 8)] :=
  ⟨_, _, rfl, by decide⟩

end Haiku

/-! ## C57: callback scopes -/

section Scopes
variable {C : Type} [DecidableEq C]

theorem mem_setAdd (s cs : List C) (c : C) : c ∈ setAdd s cs ↔ c ∈ s ∨ c ∈ cs := by
  unfold setAdd
  induction cs generalizing s with
  | nil => simp
  | cons a cs ih =>
    rw [List.foldl_cons, ih]
    split
    · rename_i h
      simp only [List.mem_cons]
      constructor
      · rintro (h' | h') <;> simp [h']
      · rintro (h' | h' | h')
        · exact Or.inl h'
        · subst h'; exact Or.inl h
        · exact Or.inr h'
    · simp only [List.mem_append, List.mem_singleton, List.mem_cons, or_assoc, List.not_mem_nil, or_false]

/-- C57: leaving a `gym_unroll` on the global callbacks (`local_callbacks(None)`) restores exactly the active set, whatever ran
inside, also on an exception. -/
theorem C57_local_restores (body : Prog C) (s : List C) : (exec (.unroll none body) s).active = s := rfl

/-- C57: a nested `gym_unroll` on the global callbacks does not see the callbacks of the outer one. -/
theorem C57_nested_unroll_sees_none (body : Prog C) (s : List C) :
    (exec (.unroll none (.unroll none body)) s).used.take 2 = [s, []] := rfl

/-- A program made of scopes only (no global registration). -/
def NoRegister : Prog C → Prop
  | .skip => True
  | .raise_ => True
  | .seq a b => NoRegister a ∧ NoRegister b
  | .withAdd _ body => NoRegister body
  | .unroll _ body => NoRegister body
  | .register _ => False

/-- No scope of the program adds one of the callbacks in `s`, nor one added by an enclosing scope. -/
def Fresh : Prog C → List C → Prop
  | .skip, _ => True
  | .raise_, _ => True
  | .seq a b, s => Fresh a s ∧ Fresh b s
  | .withAdd cs body, s => (∀ c ∈ cs, c ∉ s) ∧ Fresh body (s ++ cs)
  | .unroll none _, _ => True
  | .unroll (some _) body, s => Fresh body s
  | .register _, _ => True

/-- C57: a scope only ever removes callbacks: after any nesting of scopes, normal or exceptional exit, no callback is active
that was not active before. -/
theorem C57_scopes_add_nothing (p : Prog C) (hp : NoRegister p) (s : List C) (c : C) (hc : c ∈ (exec p s).active) : c ∈ s := by
  induction p generalizing s with
  | skip => exact hc
  | raise_ => exact hc
  | seq a b iha ihb =>
    unfold exec at hc
    simp only at hc
    split at hc
    · exact iha hp.1 _ (ihb hp.2 _ hc)
    · exact iha hp.1 _ hc
  | withAdd cs body ih =>
    unfold exec at hc
    simp only [List.mem_filter, decide_eq_true_eq] at hc
    rcases (mem_setAdd _ _ _).1 (ih hp _ hc.1) with h | h
    · exact h
    · exact absurd h hc.2
  | unroll cbs body ih =>
    cases cbs with
    | none => exact hc
    | some cbs => exact ih hp s hc
  | register c' => exact absurd hp id

/-- C57: when no scope adds a callback that is already active, any nesting of scopes restores exactly the previous active
callbacks, also when an exception is raised anywhere inside. -/
theorem C57_scopes_restore_partial (p : Prog C) (hp : NoRegister p) (s s' : List C) (hss : ∀ c, c ∈ s ↔ c ∈ s') (hf : Fresh p s')
    (c : C) : c ∈ (exec p s).active ↔ c ∈ s := by
  induction p generalizing s s' c with
  | skip => rfl
  | raise_ => rfl
  | seq a b iha ihb =>
    unfold exec
    simp only
    split
    · rw [ihb hp.2 (exec a s).active s' (fun c => by rw [iha hp.1 s s' hss hf.1 c, hss c]) hf.2 c]
      exact iha hp.1 s s' hss hf.1 c
    · exact iha hp.1 s s' hss hf.1 c
  | withAdd cs body ih =>
    unfold exec
    simp only [List.mem_filter, decide_eq_true_eq]
    rw [ih hp (setAdd s cs) (s' ++ cs) (fun c => by rw [mem_setAdd, List.mem_append, hss]) hf.2 , mem_setAdd]
    constructor
    · rintro ⟨h | h, h'⟩
      · exact h
      · exact absurd h h'
    · intro h
      exact ⟨Or.inl h, fun hcs => hf.1 c hcs ((hss c).1 h)⟩
  | unroll cbs body ih =>
    cases cbs with
    | none => rfl
    | some cbs => exact ih hp s s' hss hf c
  | register c' => exact absurd hp id

/-- C57, counterexample: re-entering the scope of an active callback deactivates it for the rest of the outer scope. -/
theorem C57_reentry_witness :
    (exec (.withAdd [1] (.seq (.withAdd [1] .skip) (.unroll none .skip)) : Prog Nat) []).used = [[]] := by
  decide

example : NoRegister (.withAdd [1] (.seq (.withAdd [2] .raise_) .skip) : Prog Nat) ∧
    Fresh (.withAdd [1] (.seq (.withAdd [2] .raise_) .skip) : Prog Nat) [7] := by
  simp [NoRegister, Fresh]

end Scopes

end Verif.Props
