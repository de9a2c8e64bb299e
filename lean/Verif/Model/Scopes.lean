import Verif.Model.Optim

/-! # Model: scopes of Flax variables and the streaming wrapper

Variables are arrays addressed by a collection name ("params", "state", ...) and a path of scope names. -/

namespace Verif.Model.Scopes
variable {W Key I O : Type}

/-- The arrays of one collection, by path. Used for src/wax/flax/core/state_utils.py:81-102. -/
abbrev Paths (W : Type) := List String → Option W
/-- All the collections. Used for src/wax/flax/core/state_utils.py:81-102. -/
abbrev Vars (W : Type) := String → Paths W

/-- A Flax module: `init(key, x)` gives the variables, `apply(variables, x, rngs, mutable=True)` the output and the new variables.
Used for src/wax/flax/core/transform.py:47-93. -/
structure FlaxModule (W Key I O : Type) where
  init : Key → I → Vars W
  apply : Vars W → Option Key → I → O × Vars W

/-- A pair of pure functions. Used for src/wax/flax/core/transform.py:20-30. -/
structure Pure (W Key I O : Type) where
  init : Key → I → Paths W × Vars W
  apply : Paths W → Vars W → Option Key → I → O × Vars W

/-- The collections other than "params": src/wax/flax/core/transform.py:65-66, 92. -/
def dropParams (v : Vars W) : Vars W := fun c => if c = "params" then fun _ => none else v c

/-- `{"params": params, **state}`: src/wax/flax/core/transform.py:82. -/
def withParams (params : Paths W) (state : Vars W) : Vars W := fun c => if c = "params" then params else state c

/-- src/wax/flax/core/transform.py:33-95 `flax_transform_with_state`. -/
def transform (m : FlaxModule W Key I O) : Pure W Key I O where
  init key x := let v := m.init key x; (v "params", dropParams v)
  apply params state rng x := let r := m.apply (withParams params state) rng x; (r.1, dropParams r.2)

/-- The variables a submodule called `name` sees (Flax scopes). Used for src/wax/flax/core/state_utils.py:81-89. -/
def inside (name : String) (v : Vars W) : Vars W := fun c path => v c (name :: path)

/-- The variables of the parent after those of the submodule `name` became `inner` (Flax scopes).
Used for src/wax/flax/core/state_utils.py:81-89. -/
def putInside (name : String) (v inner : Vars W) : Vars W := fun c path =>
  match path with
  | [] => v c []
  | n :: p => if n = name then inner c p else v c (n :: p)

/-- src/wax/flax/core/state_utils.py:81-89 `StreamingModuleWrapper`: the attribute becomes the submodule "wrapped_module"; Flax folds the scope's
name into the random keys (`fold`). -/
def wrapper (fold : Key → Key) (m : FlaxModule W Key I O) : FlaxModule W Key I O where
  init key x := putInside "wrapped_module" (fun _ _ => none) (m.init (fold key) x)
  apply v rng x :=
    let r := m.apply (inside "wrapped_module" v) (rng.map fold) x
    (r.1, putInside "wrapped_module" v r.2)

/-- src/wax/flax/core/state_utils.py:92-102 `make_streaming_compatible`. -/
def makeStreamingCompatible (fold : Key → Key) (m : FlaxModule W Key I O) : Pure W Key I O := transform (wrapper fold m)

/-- Feeding a stream to a pure pair, one key per step. See src/wax/flax/core/transform.py:69-93. -/
def feed (f : Pure W Key I O) (params : Paths W) : Vars W → List (Option Key × I) → List O × Vars W
  | state, [] => ([], state)
  | state, (rng, x) :: xs =>
    let r := f.apply params state rng x
    let rest := feed f params r.2 xs
    (r.1 :: rest.1, rest.2)

end Verif.Model.Scopes

namespace Verif.Model.Optim
variable {K : Type} [Field K] [LinearOrder K] {O L : Type}

/-- src/wax/flax/modules/online_supervised_learner.py:84-113 `SimpleOnlineLearner`: `(predictions, training_info["loss"])` of the learner. -/
def simpleOnlineLearner {A B P : Type} (model : A → P) (loss : P → B → L) (c : FlaxFunc O (A × B) (L × P) (Fl K)) :
    Mealy (FlaxFuncState O (Fl K)) (A × B) (P × L) where
  init := (flaxLearner model loss c).init
  step st xy :=
    let r := (flaxLearner model loss c).step st xy
    ((r.1.1, r.1.2.1), r.2)

end Verif.Model.Optim
