import Mathlib.Data.List.Basic

/-! # Model: reading and restoring the Haiku state of one module, src/wax/modules/update_on_event.py

Haiku keeps the state of all modules of a transformed function in one dictionary of dictionaries.  Names are character lists. -/

namespace Verif.Model.HaikuState

/-- Used for src/wax/modules/update_on_event.py:27-41. -/
abbrev Name := List Char

/-- haiku `StatePair`: the value at the start of the call and the current one.
Used for src/wax/modules/update_on_event.py:42-48. -/
structure StatePair (V : Type) where
  initial : V
  current : V
deriving DecidableEq, Repr

/-- `frame.state`: module name to bundle, state name to pair. Used for src/wax/modules/update_on_event.py:85, 98. -/
abbrev Frame (V : Type) := List (Name × List (Name × StatePair V))

variable {V O : Type}

/-- src/wax/modules/update_on_event.py:27-41 (and haiku's `params_or_state_dict`): the modules concerned by a restore. -/
def concerned (moduleName : Name) (submodules : List Name) (their : Name) : Bool :=
  their == moduleName || (moduleName ++ ['/']).isPrefixOf their || submodules.contains their

/-- haiku `Module.state_dict()` (haiku/_src/module.py `params_or_state_dict`), used at src/wax/modules/update_on_event.py:85, 98: fully qualified name to
current value. A repeated key is overwritten. -/
def stateDict (moduleName : Name) (submodules : List Name) (fr : Frame V) : List (Name × V) :=
  fr.flatMap fun mb => if concerned moduleName submodules mb.1 then mb.2.map fun np => (mb.1 ++ '/' :: np.1, np.2.current) else []

/-- Lookup in the dictionary built by insertion: the last insertion of a key wins.
Used for src/wax/modules/update_on_event.py:42-48. -/
def dictGet (d : List (Name × V)) (k : Name) : Option V := d.reverse.lookup k

/-- The inner loop at src/wax/modules/update_on_event.py:42-48 for one bundle; a missing key raises KeyError. -/
def setBundle (their : Name) (d : List (Name × V)) : List (Name × StatePair V) → Except Unit (List (Name × StatePair V))
  | [] => .ok []
  | (n, p) :: rest =>
    match dictGet d (their ++ '/' :: n) with
    | none => .error ()
    | some v =>
      match setBundle their d rest with
      | .error e => .error e
      | .ok rest' => .ok ((n, { p with current := v }) :: rest')

/-- src/wax/modules/update_on_event.py:28-64 `set_params_or_state_dict(..., "state", ...)` / `set_state_from_dict`. -/
def setState (moduleName : Name) (submodules : List Name) (d : List (Name × V)) : Frame V → Except Unit (Frame V)
  | [] => .ok []
  | (m, b) :: rest =>
    let b' := if concerned moduleName submodules m then setBundle m d b else .ok b
    match b', setState moduleName submodules d rest with
    | .ok b', .ok rest' => .ok ((m, b') :: rest')
    | _, _ => .error ()

/-- src/wax/modules/update_on_event.py:85-121: the wrapped module is run (`run` transforms the frame), and when there is no event the state read before is
written back.  With an empty previous dictionary (a stateless module, or `init`) nothing is written.  The cached output is modelled in
`Model/Events`. -/
def callOnEvent (moduleName : Name) (submodules : List Name) (run : Frame V → O × Frame V) (event : Bool) (fr : Frame V) :
    Except Unit (O × Frame V) :=
  let prev := stateDict moduleName submodules fr
  let r := run fr
  let next := if prev = [] then [] else stateDict moduleName submodules r.2
  let d := if event then next else prev
  if d = [] then .ok r
  else match setState moduleName submodules d r.2 with
    | .error e => .error e
    | .ok fr' => .ok (r.1, fr')

end Verif.Model.HaikuState
