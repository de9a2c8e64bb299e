import Verif.Base.Mealy

/-!
# Gym loop, callbacks, Haiku agents and environments, feedback module

`src/wax/gym/` and `src/wax/modules/gym_feedback.py`, `src/wax/flax/modules/gym_feedback.py`.

Python objects (environment, agent, callbacks) are mutable and may share anything, so every operation acts on one arbitrary
"world" `W`.  Simplifications: exceptions raised by user code inside `gym_unroll` are not modelled in the loop itself (they are
in the callback scoping model); a callback set is iterated in the order of a list (Python's set order is arbitrary: theorems
quantify over the list).
-/

namespace Verif.Model.Gym

variable {W Obs Act Rw Info : Type}

/-- src/wax/gym/gym_unroll.py:43 `GymUnrollState`. -/
structure GymState (Obs Act Rw Info : Type) where
  rw : Rw
  obs : Obs
  action : Act
  done : Bool
  info : Info

/-- The environment and the agent: src/wax/gym/env.py:31-56, src/wax/gym/agent.py. `close` is `env.close()`. -/
structure Sys (W Obs Act Rw Info : Type) where
  reset : W → Obs × W
  act : W → Obs → Act × W
  step : W → Act → (Obs × Rw × Bool × Info) × W
  close : W → W

/-- src/wax/gym/callbacks/callbacks.py:92-95: the tuple of the four optional functions. The result of `on_step` is used for its truth
value only (`None` is false). -/
structure Callback (W Obs Act Rw Info : Type) where
  onStart : Option (W → Obs → W)
  onAct : Option (W → Obs → Act → W)
  onStep : Option (W → GymState Obs Act Rw Info → Bool × W)
  onEnd : Option (W → W)

/-- src/wax/gym/gym_unroll.py:75-77: every `on_step` callback is called; `done` accumulates their answers. -/
def runOnStep (gs : GymState Obs Act Rw Info) :
    List (W → GymState Obs Act Rw Info → Bool × W) → Bool → W → Bool × W
  | [], done, w => (done, w)
  | f :: fs, done, w =>
    let r := f w gs
    runOnStep gs fs (done || r.1) r.2

/-- src/wax/gym/gym_unroll.py:61-80, one iteration: the loop state, whether to stop, and the new world.
`src/wax/gym/callbacks/callbacks.py:112-117 unpack_callbacks` keeps, for each of the four functions, the callbacks that define it, in order. -/
def iteration (sys : Sys W Obs Act Rw Info) (cbs : List (Callback W Obs Act Rw Info)) (w : W) (obs : Obs) :
    GymState Obs Act Rw Info × Bool × W :=
  let a := sys.act w obs
  let w := (cbs.filterMap (·.onAct)).foldl (fun w f => f w obs a.1) a.2
  let r := sys.step w a.1
  let gs : GymState Obs Act Rw Info := ⟨r.1.2.1, r.1.1, a.1, r.1.2.2.1, r.1.2.2.2⟩
  let d := runOnStep gs (cbs.filterMap (·.onStep)) gs.done r.2
  (gs, d.1, d.2)

/-- src/wax/gym/gym_unroll.py:60-80 `while True`, with a bound on the number of iterations (`none`: still running). -/
def loop (sys : Sys W Obs Act Rw Info) (cbs : List (Callback W Obs Act Rw Info)) :
    Nat → W → Obs → Option (GymState Obs Act Rw Info × W)
  | 0, _, _ => none
  | fuel + 1, w, obs =>
    let r := iteration sys cbs w obs
    if r.2.1 then some (r.1, r.2.2) else loop sys cbs fuel r.2.2 r.1.obs

/-- src/wax/gym/gym_unroll.py:54. -/
def firstObs (sys : Sys W Obs Act Rw Info) (obs : Option Obs) (w : W) : Obs × W :=
  match obs with
  | some o => (o, w)
  | none => sys.reset w

/-- src/wax/gym/gym_unroll.py:54-88. -/
def gymUnroll (sys : Sys W Obs Act Rw Info) (cbs : List (Callback W Obs Act Rw Info)) (obs : Option Obs) (fuel : Nat) (w : W) :
    Option (GymState Obs Act Rw Info × W) :=
  let ow := firstObs sys obs w
  let w := (cbs.filterMap (·.onStart)).foldl (fun w f => f w ow.1) ow.2
  (loop sys cbs fuel w ow.1).map fun r => (r.1, sys.close ((cbs.filterMap (·.onEnd)).foldl (fun w f => f w) r.2))

/-! ## Stop and Record -/

/-- An operation on `W` seen as one that does not touch the private state `T` of a callback.
See src/wax/gym/env.py:31-56. -/
def liftSys {T : Type} (sys : Sys W Obs Act Rw Info) : Sys (W × T) Obs Act Rw Info where
  reset w := let r := sys.reset w.1; (r.1, (r.2, w.2))
  act w o := let r := sys.act w.1 o; (r.1, (r.2, w.2))
  step w a := let r := sys.step w.1 a; (r.1, (r.2, w.2))
  close w := (sys.close w.1, w.2)

/-- See src/wax/gym/callbacks/callbacks.py:92-95. -/
def liftCb {T : Type} (c : Callback W Obs Act Rw Info) : Callback (W × T) Obs Act Rw Info where
  onStart := c.onStart.map fun f w o => (f w.1 o, w.2)
  onAct := c.onAct.map fun f w o a => (f w.1 o a, w.2)
  onStep := c.onStep.map fun f w gs => let r := f w.1 gs; (r.1, (r.2, w.2))
  onEnd := c.onEnd.map fun f w => (f w.1, w.2)

/-- src/wax/gym/callbacks/stop.py:17-28: `_t` is the private state. -/
def stopCb (stop : Nat) : Callback (W × Nat) Obs Act Rw Info where
  onStart := none
  onAct := none
  onStep := some fun w _ => (decide (stop ≤ w.2 + 1), (w.1, w.2 + 1))
  onEnd := none

/-- src/wax/gym/callbacks/record.py:86-99, without the tree flattening of the outputs: the private state is the recorded sequence.
`isNone` tells whether an action is `None`. `GymOutput.format` (src/wax/modules/gym_feedback.py:44-50) is `fmt`. -/
def recordCb {Out : Type} (isNone : Act → Bool) (fmt : Rw → Obs → Act → Out) :
    Callback (W × List Out) Obs Act Rw Info where
  onStart := none
  onAct := none
  onStep := some fun w gs =>
    if gs.done then (false, w)
    else if isNone gs.action then (false, w)
    else (false, (w.1, w.2 ++ [fmt gs.rw gs.obs gs.action]))
  onEnd := none

/-! ## HaikuEnv and HaikuAgent -/

/-- src/wax/gym/haiku_env.py:38-42 (`_state` is `none` while `_initialized` is false) and src/wax/gym/haiku_agent.py:29-33, plus the remaining
items of the data generator and the last `_info`. -/
structure HWorld (Sa Se Raw Info : Type) where
  agent : Option Sa
  env : Option Se
  data : List (Raw × Info)
  info : Info

variable {Sa Se Raw : Type}

/-- src/wax/gym/haiku_env.py:44-67 and src/wax/gym/haiku_agent.py:44-49. The observation seen by the agent is `none` at the end of the data,
otherwise what the environment returns (`reset` returns the raw observation, so raw observations and observations have the same
type). Parameters and random keys are folded into the transformed functions. `zero` is the reward 0 returned when the
data is exhausted; `reset` on exhausted data raises `StopIteration`, modelled by returning `none`. -/
def haikuSys (agentInit : Option Obs → Sa) (agentApply : Sa → Option Obs → Act × Sa)
    (envInit : Act → Obs → Se) (envApply : Se → Act → Obs → (Rw × Obs) × Se) (zero : Rw) :
    Sys (HWorld Sa Se Obs Info) (Option Obs) Act Rw Info where
  reset w := match w.data with
    | [] => (none, w)
    | (o, i) :: rest => (some o, { w with data := rest, info := i, env := none })
  act w o :=
    let s := w.agent.getD (agentInit o)
    let r := agentApply s o
    (r.1, { w with agent := some r.2 })
  step w a := match w.data with
    | [] => ((none, zero, true, w.info), w)
    | (o, i) :: rest =>
      let s := w.env.getD (envInit a o)
      let r := envApply s a o
      ((some r.1.2, r.1.1, false, i), { w with data := rest, info := i, env := some r.2 })
  close w := w

/-! ## GymFeedback -/

/-- src/wax/modules/gym_feedback.py:91-118: the state is the last action, the environment's state and the agent's. -/
def gymFeedback (agent : Mealy Sa Obs Act) (env : Mealy Se (Act × Raw) (Rw × Obs)) (action0 : Act) :
    Mealy (Act × Se × Sa) Raw (Rw × Obs × Act) where
  init := (action0, env.init, agent.init)
  step s raw :=
    let e := env.step s.2.1 (s.1, raw)
    let a := agent.step s.2.2 e.1.2
    ((e.1.1, e.1.2, a.1), (a.1, e.2, a.2))

/-- src/wax/flax/modules/gym_feedback.py:31-75 for an agent that accepts observation and reward: `prev_action` is stored and never
read. `agent2 obs reward` is `none` when the call raises a `TypeError`. -/
def flaxFeedback {F : Type} (agent1 : Obs → Act) (agent2 : Obs → F → Option Act) (zero : Obs → Act) :
    Mealy (Option Act) (Obs × Option F) Act where
  init := none
  step prev x :=
    let _prev := prev.getD (zero x.1)
    let a := match x.2 with
      | some r => (agent2 x.1 r).getD (agent1 x.1)
      | none => agent1 x.1
    (a, some a)

/-! ## Callback scopes -/

variable {C : Type} [DecidableEq C]

/-- Programs that open callback scopes (src/wax/gym/callbacks/callbacks.py:97-110, 120-134, 146-171): `withAdd cs body` is
`with add_callbacks(*cs): body` (also `with cb:`); `unroll cbs body` is a `gym_unroll(..., callbacks=cbs)` whose environment,
agent and callbacks run `body`; `raise_` is an exception. -/
inductive Prog (C : Type) where
  | skip
  | raise_
  | seq (a b : Prog C)
  | withAdd (cs : List C) (body : Prog C)
  | unroll (cbs : Option (List C)) (body : Prog C)
  | register (c : C)

/-- Outcome of a program: whether it ended normally, the active set, and the callback lists used by the unrolls it ran.
Used for src/wax/gym/callbacks/callbacks.py:162-171. -/
structure Outcome (C : Type) where
  ok : Bool
  active : List C
  used : List (List C)

/-- `set.update` / `set.add` on a set kept as a list without repetition.
Used for src/wax/gym/callbacks/callbacks.py:162-171. -/
def setAdd (s : List C) (cs : List C) : List C := cs.foldl (fun s c => if c ∈ s then s else s ++ [c]) s

/-- Execution. src/wax/gym/callbacks/callbacks.py:162-171 (`add_callbacks`: add in `__init__`, discard in `__exit__`, which runs also on an
exception), src/wax/gym/callbacks/callbacks.py:120-133 (`local_callbacks`: with `None`, take the active set and leave an empty one; restore in
`finally`; an explicit list leaves the active set alone). -/
def exec : Prog C → List C → Outcome C
  | .skip, s => ⟨true, s, []⟩
  | .raise_, s => ⟨false, s, []⟩
  | .seq a b, s =>
    let ra := exec a s
    if ra.ok then
      let rb := exec b ra.active
      ⟨rb.ok, rb.active, ra.used ++ rb.used⟩
    else ra
  | .withAdd cs body, s =>
    let r := exec body (setAdd s cs)
    ⟨r.ok, r.active.filter (· ∉ cs), r.used⟩
  | .unroll none body, s =>
    let r := exec body []
    ⟨r.ok, s, s :: r.used⟩
  | .unroll (some cbs) body, s =>
    let r := exec body s
    ⟨r.ok, r.active, cbs :: r.used⟩
  | .register c, s => ⟨true, setAdd s [c], []⟩

end Verif.Model.Gym
