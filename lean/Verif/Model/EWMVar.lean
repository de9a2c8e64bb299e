import Verif.Model.EWMA

/-! # Model: exponentially weighted variance and covariance -/

namespace Verif.Model
variable {K : Type} [Field K] [LinearOrder K]

/-- `x ** n` for an integer-valued float exponent. Used for src/wax/modules/ewmvar.py:79-80 and 109-115. -/
def flPow (x : Fl K) : Nat → Fl K
  | 0 => .fin 1
  | n + 1 => flPow x n * x

/-- States of EWMVar: src/wax/modules/ewmvar.py:82-99 (`nobs` is a float counter, modelled as a natural number). -/
structure EWMVarState (K : Type) where
  mean : Fl K
  var : Fl K
  nobs : Nat
deriving DecidableEq, Repr

/-- src/wax/modules/ewmvar.py:79-80 and 109-115: the smoothing factor used at a step where `nobs` counts the
observations including the current one. -/
def ewmvarAlpha (com : K) (adjust : Adjust) (nobs : Nat) : Fl K :=
  let alpha := Fl.fin 1 / (Fl.fin 1 + Fl.fin com)
  match adjust with
  | .linear =>
    let tscale := Fl.fin 1 / alpha
    let tscale := if Fl.lt (Fl.fin (nobs : K)) tscale then Fl.fin (nobs : K) else tscale
    if Fl.lt (Fl.fin 0) tscale then Fl.fin 1 / tscale else Fl.nan
  | .yes => alpha / (Fl.fin 1 - flPow (Fl.fin 1 - alpha) nobs)
  | .no => alpha

/-- src/wax/modules/ewmvar.py:64-128 `EWMVar.__call__` (src/wax/flax/modules/ewmvar.py:51-113 is the same
computation on `self.variable`s). -/
def ewmvarStep (com : K) (adjust : Adjust) (s : EWMVarState K) (x : Fl K) : Fl K × EWMVarState K :=
  let mean := if s.mean.isNan then x else s.mean
  let var := if s.var.isNan then Fl.fin 0 else s.var
  let mask := !x.isNan
  let nobs := if mask then s.nobs + 1 else s.nobs
  let alpha := ewmvarAlpha com adjust nobs
  let diff := x - mean
  let incr := alpha * diff
  let mean := if mask then mean + incr else mean
  let var := if mask then (Fl.fin 1 - alpha) * (var + diff * incr) else var
  (var, ⟨mean, var, nobs⟩)

/-- The EWMVar module. See src/wax/modules/ewmvar.py:64-128. -/
def ewmvar (com : K) (adjust : Adjust) : Mealy (EWMVarState K) (Fl K) (Fl K) where
  init := ⟨.nan, .nan, 0⟩
  step := ewmvarStep com adjust

/-- The states of the three inner EWMA modules of EWMCov (one EWMA state per array element).
Used for src/wax/modules/ewmcov.py:112-152. -/
structure CovState (ι κ K : Type) where
  xy : ι → κ → EWMAState K
  x : ι → EWMAState K
  y : κ → EWMAState K

/-- src/wax/modules/ewmcov.py:112-152 `EWMCov.__call__`: `jnp.outer(x, y)[i, j] = x[i] * y[j]`; each EWMA acts
elementwise. -/
def ewmcovStep {ι κ : Type} (step : EWMACfg K → EWMAState K → Fl K → EWMAOut K × EWMAState K) (c : EWMACfg K)
    (assumeCentered : Bool) (s : CovState ι κ K) (p : (ι → Fl K) × (κ → Fl K)) :
    (ι → κ → Fl K) × CovState ι κ K :=
  let xy := fun i j => step c (s.xy i j) (p.1 i * p.2 j)
  if assumeCentered then
    (fun i j => (xy i j).1.value, ⟨fun i j => (xy i j).2, s.x, s.y⟩)
  else
    let mx := fun i => step c (s.x i) (p.1 i)
    let my := fun j => step c (s.y j) (p.2 j)
    (fun i j => (xy i j).1.value - (mx i).1.value * (my j).1.value,
      ⟨fun i j => (xy i j).2, fun i => (mx i).2, fun j => (my j).2⟩)

/-- The Haiku EWMCov module. See src/wax/modules/ewmcov.py:112-152. -/
def ewmcov (ι κ : Type) (c : EWMACfg K) (assumeCentered : Bool) :
    Mealy (CovState ι κ K) ((ι → Fl K) × (κ → Fl K)) (ι → κ → Fl K) where
  init := ⟨fun _ _ => (ewma c).init, fun _ => (ewma c).init, fun _ => (ewma c).init⟩
  step := ewmcovStep ewmaStep c assumeCentered

/-- src/wax/flax/modules/ewmcov.py:39-67 `setup`: exactly one of `com`, `alpha` (ValueError otherwise); `alpha`
is passed on to the EWMAs, which turn it back into `com` (src/wax/flax/modules/ewma.py:48-50). -/
def flaxCovCom : Option K → Option K → Except Unit K
  | some com, none => .ok (1 / (1 / (1 + com)) - 1)
  | none, some alpha => .ok (1 / alpha - 1)
  | _, _ => .error ()

/-- src/wax/flax/modules/ewmcov.py:69-119: the Flax EWMCov module, with Flax EWMAs inside. -/
def flaxEwmcov (ι κ : Type) (c : EWMACfg K) (assumeCentered : Bool) :
    Mealy (CovState ι κ K) ((ι → Fl K) × (κ → Fl K)) (ι → κ → Fl K) where
  init := ⟨fun _ _ => (flaxEwma c).init, fun _ => (flaxEwma c).init, fun _ => (flaxEwma c).init⟩
  step := ewmcovStep flaxEwmaStep c assumeCentered

end Verif.Model
