import Verif.Model.Scopes
import Verif.Props.Optim

/-! # C197: the streaming wrapper -/

namespace Verif.Props
open Verif Verif.Model.Scopes Verif.Model.Optim
variable {W Key I O : Type}

/-- The arrays of a module, as the arrays of the module called `name` in a larger one. -/
def underName (name : String) (p : Paths W) : Paths W
  | [] => none
  | n :: path => if n = name then p path else none

theorem inside_underName (name : String) (v : Vars W) : inside name (fun c => underName name (v c)) = v := by
  funext c path; simp [inside, underName]

theorem putInside_underName (name : String) (v w : Vars W) :
    putInside name (fun c => underName name (v c)) w = fun c => underName name (w c) := by
  funext c path
  cases path with
  | nil => rfl
  | cons n p => simp only [putInside, underName]; split <;> rfl

theorem dropParams_underName (name : String) (v : Vars W) :
    dropParams (fun c => underName name (v c)) = fun c => underName name (dropParams v c) := by
  funext c path
  unfold dropParams
  by_cases h : c = "params"
  · simp only [h, if_true]; cases path with
    | nil => rfl
    | cons n p => simp [underName]
  · simp only [h, if_false]

theorem withParams_underName (name : String) (p : Paths W) (v : Vars W) :
    withParams (underName name p) (fun c => underName name (v c)) = fun c => underName name (withParams p v c) := by
  funext c
  unfold withParams
  split <;> rfl

/-- The reference: calling the module itself again and again, keeping its parameters and replacing every other collection by the returned one. -/
def alone (m : FlaxModule W Key I O) : Vars W → List (Option Key × I) → List O
  | _, [] => []
  | v, (rng, x) :: xs => (m.apply v rng x).1 :: alone m (fun c => if c = "params" then v c else (m.apply v rng x).2 c) xs

/-- **C197**, the plain transform: parameters and state are the collections of `init`; a call runs the module on both and returns every collection
but "params". -/
theorem C197_transform (m : FlaxModule W Key I O) (x : I) (params : Paths W) (state v : Vars W) (rng : Option Key)
    (hp : v "params" = params) (hs : ∀ c, c ≠ "params" → v c = state c) :
    (∀ key, ((transform m).init key x).1 = m.init key x "params") ∧
    (∀ key c, ((transform m).init key x).2 c = if c = "params" then fun _ => none else m.init key x c) ∧
    ((transform m).apply params state rng x).1 = (m.apply v rng x).1 ∧
    (∀ c, ((transform m).apply params state rng x).2 c = if c = "params" then fun _ => none else (m.apply v rng x).2 c) := by
  have e : withParams params state = v := by
    funext c
    unfold withParams
    by_cases hc : c = "params"
    · rw [if_pos hc, hc, hp]
    · rw [if_neg hc, hs c hc]
  refine ⟨fun _ => rfl, fun _ c => rfl, ?_, fun c => ?_⟩
  · simp only [transform, e]
  · simp only [transform, e, dropParams]

/-- The transformed module on a stream is the module itself. -/
theorem feed_alone (m : FlaxModule W Key I O) (params : Paths W) (state v : Vars W) (xs : List (Option Key × I))
    (hp : v "params" = params) (hs : ∀ c, c ≠ "params" → v c = state c) : (feed (transform m) params state xs).1 = alone m v xs := by
  induction xs generalizing state v with
  | nil => rfl
  | cons e xs ih =>
    obtain ⟨rng, x⟩ := e
    obtain ⟨-, -, h1, h2⟩ := C197_transform m x params state v rng hp hs
    simp only [feed, alone, h1]
    rw [ih]
    · simp [hp]
    · intro c hc
      rw [h2 c]; simp [hc]

/-- **C197**, initialisation: the parameters and state of the wrapped module are those of the module (initialised with the key Flax derives
for the scope), under the name "wrapped_module". -/
theorem C197_init (fold : Key → Key) (m : FlaxModule W Key I O) (key : Key) (x : I) :
    (makeStreamingCompatible fold m).init key x =
      (underName "wrapped_module" ((transform m).init (fold key) x).1,
        fun c => underName "wrapped_module" (((transform m).init (fold key) x).2 c)) := by
  have e : putInside "wrapped_module" (fun _ _ => none) (m.init (fold key) x) =
      fun c => underName "wrapped_module" (m.init (fold key) x c) := by
    funext c path
    cases path with
    | nil => rfl
    | cons n p => simp only [putInside, underName]
  simp only [makeStreamingCompatible, transform, wrapper, e, dropParams_underName]

/-- **C197**: on every stream, a module made streaming-compatible returns the outputs of the module itself, given the same parameters, state and
(derived) keys; its final state is the module's, under the name "wrapped_module". -/
theorem C197_streaming_compatible (fold : Key → Key) (m : FlaxModule W Key I O) (params : Paths W) (state : Vars W)
    (xs : List (Option Key × I)) :
    feed (makeStreamingCompatible fold m) (underName "wrapped_module" params) (fun c => underName "wrapped_module" (state c)) xs =
      ((feed (transform m) params state (xs.map fun e => (e.1.map fold, e.2))).1,
        fun c => underName "wrapped_module" ((feed (transform m) params state (xs.map fun e => (e.1.map fold, e.2))).2 c)) := by
  induction xs generalizing state with
  | nil => rfl
  | cons e xs ih =>
    obtain ⟨rng, x⟩ := e
    have h : (makeStreamingCompatible fold m).apply (underName "wrapped_module" params) (fun c => underName "wrapped_module" (state c)) rng x =
        (((transform m).apply params state (rng.map fold) x).1,
          fun c => underName "wrapped_module" (((transform m).apply params state (rng.map fold) x).2 c)) := by
      simp only [makeStreamingCompatible, transform, wrapper, withParams_underName, inside_underName, putInside_underName, dropParams_underName]
    simp only [feed, h, List.map_cons]
    rw [ih]

/-- **C197**, in terms of the module itself: the outputs on a stream are those of calling the module on its own variables `v` again and again. -/
theorem C197_alone (fold : Key → Key) (m : FlaxModule W Key I O) (params : Paths W) (state v : Vars W) (xs : List (Option Key × I))
    (hp : v "params" = params) (hs : ∀ c, c ≠ "params" → v c = state c) :
    (feed (makeStreamingCompatible fold m) (underName "wrapped_module" params) (fun c => underName "wrapped_module" (state c)) xs).1 =
      alone m v (xs.map fun e => (e.1.map fold, e.2)) := by
  rw [C197_streaming_compatible]
  exact feed_alone m params state v _ hp hs

/-- **C197**: started from its own `init`, without random keys in the steps, the wrapped module behaves as the module started from its own. -/
theorem C197_from_init (fold : Key → Key) (m : FlaxModule W Key I O) (key : Key) (x : I) (xs : List I) :
    (feed (makeStreamingCompatible fold m) ((makeStreamingCompatible fold m).init key x).1 ((makeStreamingCompatible fold m).init key x).2
        (xs.map fun x => (none, x))).1 =
      (feed (transform m) ((transform m).init (fold key) x).1 ((transform m).init (fold key) x).2 (xs.map fun x => (none, x))).1 := by
  rw [C197_init, C197_streaming_compatible]
  simp [Function.comp_def]

/-- **C197**: nothing outside the scope "wrapped_module" is read or written: other entries of the collections have no effect. -/
theorem C197_scope (fold : Key → Key) (m : FlaxModule W Key I O) (v w : Vars W) (rng : Option Key) (x : I)
    (h : ∀ c path, v c ("wrapped_module" :: path) = w c ("wrapped_module" :: path)) :
    ((wrapper fold m).apply v rng x).1 = ((wrapper fold m).apply w rng x).1 ∧
    ∀ c path, path.head? ≠ some "wrapped_module" → ((wrapper fold m).apply v rng x).2 c path = v c path := by
  have e : inside "wrapped_module" v = inside "wrapped_module" w := by funext c path; exact h c path
  refine ⟨by simp only [wrapper, e], ?_⟩
  intro c path hp
  cases path with
  | nil => rfl
  | cons n p =>
    have : n ≠ "wrapped_module" := by simpa using hp
    simp [wrapper, putInside, this]

/-- A counting module: output and state are the number of calls. -/
def countingModule : FlaxModule Nat Unit Unit Nat where
  init _ _ := fun c path => if c = "state" ∧ path = ["count"] then some 1 else none
  apply v _ _ :=
    let n := (v "state" ["count"]).getD 0 + 1
    (n, fun c path => if c = "state" ∧ path = ["count"] then some n else v c path)

example : (feed (makeStreamingCompatible id countingModule) ((makeStreamingCompatible id countingModule).init () ()).1
    ((makeStreamingCompatible id countingModule).init () ()).2 [(none, ()), (none, ())]).1 = [2, 3] := by decide +kernel

/-- **C75** for the simplified learner: it returns the prediction and the loss of the unchanged model at every step. -/
theorem C75_simple_learner_never_learns_partial {K O L A B P : Type} [Field K] [LinearOrder K] (model : A → P) (loss : P → B → L)
    (c : FlaxFunc O (A × B) (L × P) (Fl K)) (xys : List (A × B)) :
    (simpleOnlineLearner model loss c).run xys = xys.map fun xy => (model xy.1, loss (model xy.1) xy.2) := by
  have h : (simpleOnlineLearner model loss c).run xys = ((flaxLearner model loss c).run xys).map fun r => (r.1, r.2.1) := by
    have gen : ∀ (l : List (A × B)) st, (simpleOnlineLearner model loss c).outsFrom st l =
        ((flaxLearner model loss c).outsFrom st l).map fun r => (r.1, r.2.1) := by
      intro l
      induction l with
      | nil => intro st; rfl
      | cons x l ih => intro st; rw [Mealy.outsFrom_cons, Mealy.outsFrom_cons, List.map_cons, ← ih]; rfl
    exact gen _ _
  rw [h, C75_flax_learner_never_learns_partial, List.map_map]
  rfl

end Verif.Props
