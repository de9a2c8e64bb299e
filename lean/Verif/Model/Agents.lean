import Mathlib.Data.List.Basic

/-! # Model: the objects `HaikuAgent` and `HaikuEnv` with their random keys, src/wax/gym/haiku_agent.py, src/wax/gym/haiku_env.py

`Model/Gym` folds parameters and keys into the transformed functions; here they are explicit, as are resets, exceptions of the
wrapped functions and the data generator.  `keys n` is the `n`-th key given by `hk.PRNGSequence(42)` (both classes). -/

namespace Verif.Model.Agents

/-- A `hk.TransformedWithState`; both functions may raise. Used for src/wax/gym/haiku_agent.py:35-37. -/
structure Transformed (Key P S In Out : Type) where
  init : Key → In → Option (P × S)
  apply : P → S → Key → In → Option (Out × S)

variable {Key P S Obs Act Rw Info : Type}

/-! ## HaikuAgent -/

/-- src/wax/gym/haiku_agent.py:29-33: `vars` holds `_params` and `_state` (`none` when `_initialized` is false); `drawn` is the number of keys
taken from `_seq`. -/
structure Agent (P S : Type) where
  drawn : Nat
  vars : Option (P × S)

/-- src/wax/gym/haiku_agent.py:29-33: a new agent. -/
def Agent.new : Agent P S := ⟨0, none⟩

/-- src/wax/gym/haiku_agent.py:39-42 `reset`: the key sequence goes on. -/
def Agent.reset (a : Agent P S) : Agent P S := { a with vars := none }

/-- src/wax/gym/haiku_agent.py:35-37 `_initialize`: the key is drawn before `init` is called, so a failing `init` consumes it. -/
def Agent.initialize (keys : Nat → Key) (f : Transformed Key P S Obs Act) (a : Agent P S) (obs : Obs) : Bool × Agent P S :=
  match f.init (keys a.drawn) obs with
  | none => (false, { a with drawn := a.drawn + 1 })
  | some v => (true, ⟨a.drawn + 1, some v⟩)

/-- src/wax/gym/haiku_agent.py:48: apply with a new key; `_state` is assigned only if `apply` returns. -/
def Agent.act (keys : Nat → Key) (f : Transformed Key P S Obs Act) (a : Agent P S) (obs : Obs) : Option Act × Agent P S :=
  match a.vars with
  | none => (none, a)
  | some (p, s) =>
    match f.apply p s (keys a.drawn) obs with
    | none => (none, { a with drawn := a.drawn + 1 })
    | some (y, s') => (some y, ⟨a.drawn + 1, some (p, s')⟩)

/-- src/wax/gym/haiku_agent.py:44-49 `__call__`; `none` is an exception. -/
def Agent.call (keys : Nat → Key) (f : Transformed Key P S Obs Act) (a : Agent P S) (obs : Obs) : Option Act × Agent P S :=
  match a.vars with
  | some _ => a.act keys f obs
  | none =>
    let r := a.initialize keys f obs
    if r.1 then r.2.act keys f obs else (none, r.2)

/-- What is done with an agent. Used for src/wax/gym/haiku_agent.py:35-49. -/
inductive AgentOp (Obs : Type) where
  | call (obs : Obs)
  | reset

/-- A history of an agent: the results of the calls and the final agent. See src/wax/gym/haiku_agent.py:35-49. -/
def Agent.run (keys : Nat → Key) (f : Transformed Key P S Obs Act) : Agent P S → List (AgentOp Obs) → List (Option Act) × Agent P S
  | a, [] => ([], a)
  | a, .reset :: ops => Agent.run keys f a.reset ops
  | a, .call obs :: ops =>
    let r := a.call keys f obs
    let rs := Agent.run keys f r.2 ops
    (r.1 :: rs.1, rs.2)

/-! ## HaikuEnv -/

/-- src/wax/gym/haiku_env.py:38-42 and the items the data generator still has. `info = none` is the empty dictionary of a new environment. -/
structure Env (P S Raw Info : Type) where
  drawn : Nat
  vars : Option (P × S)
  data : List (Raw × Info)
  info : Option Info

variable {Raw : Type}

/-- src/wax/gym/haiku_env.py:34-42: a new environment over a data generator. -/
def Env.new (data : List (Raw × Info)) : Env P S Raw Info := ⟨0, none, data, none⟩

/-- What `step` and `reset` return: `ended` is `(None, 0, True, info)`. Used for src/wax/gym/haiku_env.py:44-67. -/
inductive EnvOut (Raw Rw Obs Info : Type) where
  | raised
  | started (obs : Raw)
  | stepped (obs : Obs) (rw : Rw) (info : Info)
  | ended (info : Option Info)
deriving DecidableEq

/-- src/wax/gym/haiku_env.py:44-47 `reset`: the next item of the data; on exhausted data `StopIteration` leaves the object as it was. -/
def Env.reset (e : Env P S Raw Info) : EnvOut Raw Rw Obs Info × Env P S Raw Info :=
  match e.data with
  | [] => (.raised, e)
  | (o, i) :: rest => (.started o, { e with data := rest, info := some i, vars := none })

/-- src/wax/gym/haiku_env.py:59-61: initialisation at the first step after a reset, with the key drawn first. -/
def Env.initialize (keys : Nat → Key) (f : Transformed Key P S (Act × Raw) (Rw × Obs)) (e : Env P S Raw Info) (x : Act × Raw) :
    Bool × Env P S Raw Info :=
  match e.vars with
  | some _ => (true, e)
  | none =>
    match f.init (keys e.drawn) x with
    | none => (false, { e with drawn := e.drawn + 1 })
    | some v => (true, { e with drawn := e.drawn + 1, vars := some v })

/-- src/wax/gym/haiku_env.py:63-67. -/
def Env.apply (keys : Nat → Key) (f : Transformed Key P S (Act × Raw) (Rw × Obs)) (e : Env P S Raw Info) (x : Act × Raw) (i : Info) :
    EnvOut Raw Rw Obs Info × Env P S Raw Info :=
  match e.vars with
  | none => (.raised, e)
  | some (p, s) =>
    match f.apply p s (keys e.drawn) x with
    | none => (.raised, { e with drawn := e.drawn + 1 })
    | some ((rw, obs), s') => (.stepped obs rw i, { e with drawn := e.drawn + 1, vars := some (p, s') })

/-- src/wax/gym/haiku_env.py:49-67 `step`: the data item is consumed first, whatever happens next. -/
def Env.step (keys : Nat → Key) (f : Transformed Key P S (Act × Raw) (Rw × Obs)) (e : Env P S Raw Info) (a : Act) :
    EnvOut Raw Rw Obs Info × Env P S Raw Info :=
  match e.data with
  | [] => (.ended e.info, e)
  | (o, i) :: rest =>
    let e1 : Env P S Raw Info := { e with data := rest, info := some i }
    let r := e1.initialize keys f (a, o)
    if r.1 then r.2.apply keys f (a, o) i else (.raised, r.2)

/-- What is done with an environment. Used for src/wax/gym/haiku_env.py:49-67. -/
inductive EnvOp (Act : Type) where
  | reset
  | step (a : Act)

/-- See src/wax/gym/haiku_env.py:49-67. -/
def Env.op (keys : Nat → Key) (f : Transformed Key P S (Act × Raw) (Rw × Obs)) (e : Env P S Raw Info) :
    EnvOp Act → EnvOut Raw Rw Obs Info × Env P S Raw Info
  | .reset => e.reset
  | .step a => e.step keys f a

/-- A history of an environment. Used for src/wax/gym/haiku_agent.py:35-49. -/
def Env.run (keys : Nat → Key) (f : Transformed Key P S (Act × Raw) (Rw × Obs)) :
    Env P S Raw Info → List (EnvOp Act) → List (EnvOut Raw Rw Obs Info) × Env P S Raw Info
  | e, [] => ([], e)
  | e, op :: ops =>
    let r := e.op keys f op
    let rs := Env.run keys f r.2 ops
    (r.1 :: rs.1, rs.2)

/-- src/wax/gym/haiku_env.py:69-70 `__len__`, as `len(env)` answers: `maxlen i` is `info.get("maxlen")` when the info is a dictionary; Python
refuses `None` (TypeError). -/
def Env.len (maxlen : Info → Option Nat) (e : Env P S Raw Info) : Option Nat := e.info.bind maxlen

end Verif.Model.Agents
