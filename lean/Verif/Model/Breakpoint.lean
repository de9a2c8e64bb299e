import Verif.Model.Debug

/-! # Model: interactive breakpoints (src/wax/flax/debug/debugger.py)

The terminal is the list of lines the user will type, then end of file.  `norm` is `strip().lower()`.  What is printed is a
list of items (the exact text of the snapshots is not modelled). -/

namespace Verif.Model.Breakpoint
open Verif.Model.Debug

/-- What a typed line asks for. Used for src/wax/flax/debug/debugger.py:174-187. -/
inductive Cmd where
  | cont | state | input | output | help | quit
  | unknown (c : String)

/-- src/wax/flax/debug/debugger.py:174-187: the tests on the command, in order. -/
def parse (norm : String → String) (line : String) : Cmd :=
  let c := norm line
  if c = "c" ∨ c = "continue" then .cont
  else if c = "s" ∨ c = "state" then .state
  else if c = "i" ∨ c = "input" then .input
  else if c = "o" ∨ c = "output" then .output
  else if c = "h" ∨ c = "help" then .help
  else if c = "q" ∨ c = "quit" then .quit
  else .unknown c

/-- What is printed at the prompt. Used for src/wax/flax/debug/debugger.py:171-192. -/
inductive Shown (St In Out : Type) where
  | state (s : St) | input (i : In) | output (o : Out) | help | unknown (c : String)

variable {C St In Out H : Type}

/-- src/wax/flax/debug/debugger.py:171-192: the loop at the prompt: what is printed, the lines not read yet, and whether KeyboardInterrupt is
raised (end of file continues). -/
def prompt (norm : String → String) (e : Event St In Out) : List String → List (Shown St In Out) × List String × Bool
  | [] => ([], [], false)
  | l :: ls =>
    match parse norm l with
    | .cont => ([], ls, false)
    | .quit => ([], ls, true)
    | .state => let r := prompt norm e ls; (.state e.state :: r.1, r.2)
    | .input => let r := prompt norm e ls; (.input e.input :: r.1, r.2)
    | .output => let r := prompt norm e ls; (.output e.output :: r.1, r.2)
    | .help => let r := prompt norm e ls; (.help :: r.1, r.2)
    | .unknown c => let r := prompt norm e ls; (.unknown c :: r.1, r.2)

/-- src/wax/flax/debug/debugger.py:285-295: the loop over the hooks; `breaks name` says whether the action of that hook is "break".
KeyboardInterrupt leaves the loop: the remaining hooks are not looked at. -/
def hookLoop (norm : String → String) (breaks : String → Bool) (e : Event St In Out) :
    List (String × Hook C St In Out) → List String →
    List (String × Hook C St In Out) × List (Shown St In Out) × List String × Bool
  | [], ls => ([], [], ls, false)
  | (n, h) :: rest, ls =>
    if (h.check e).1 && breaks n then
      let p := prompt norm e ls
      if p.2.2 then ((n, h.onStep e) :: rest, p.1, p.2.1, true)
      else
        let q := hookLoop norm breaks e rest p.2.1
        ((n, h.onStep e) :: q.1, p.1 ++ q.2.1, q.2.2)
    else
      let q := hookLoop norm breaks e rest ls
      ((n, h.onStep e) :: q.1, q.2)

/-- src/wax/flax/debug/debugger.py:268-309 `StreamingDebugger.step` with breakpoints: the debugger, what was printed, the lines left, and whether
KeyboardInterrupt was raised. -/
def stepAt (norm : String → String) (breaks : String → Bool) (cfg : Config St H) (d : Debugger C St In Out H)
    (name : String) (state : St) (input : In) (output : Out) (time : Option Nat) (lines : List String) :
    Debugger C St In Out H × List (Shown St In Out) × List String × Bool :=
  if d.enabled then
    let n := d.currentStep + 1
    let e : Event St In Out := ⟨n, name, state, input, output⟩
    let r := hookLoop norm breaks e d.hooks lines
    ({ d with
      currentStep := n
      stateHistory := if cfg.trackState then dequePush cfg.maxHistory d.stateHistory (cfg.snap state) else d.stateHistory
      execTimes := if cfg.trackPerf then d.execTimes ++ time.toList else d.execTimes
      execSteps := if cfg.trackPerf && time.isSome then d.execSteps ++ [n] else d.execSteps
      hooks := r.1 }, r.2)
  else (d, [], lines, false)

/-- src/wax/flax/debug/debugger.py:445-478 `debug_apply` with breakpoints: the result of the call (`none`: KeyboardInterrupt is raised, the
computed value is lost), for a function returning (output, new state). -/
def debugApplyAt {P R E V : Type} (norm : String → String) (breaks : String → Bool) (cfg : Config V H) (name : String)
    (apply : P → V → R → In → Except E (Out × V)) (d : Debugger C V In Out H) (p : P) (s : V) (rng : R) (x : In)
    (time : Option Nat) (lines : List String) :
    Except E (Option (Out × V)) × Debugger C V In Out H × List String :=
  match apply p s rng x with
  | .error e => (.error e, d, lines)
  | .ok r =>
    let q := stepAt norm breaks cfg d name r.2 x r.1 time lines
    (.ok (if q.2.2.2 then none else some r), q.1, q.2.2.1)

end Verif.Model.Breakpoint
