import Verif.Base.Mealy
import Verif.Model.Masks

/-! # Model: exponential moving averages

One array element; `com` is the parameter `exp(logcom)` (`exp(log com) = com` is trusted).
`big` is the largest finite float, used by `nan_to_num` on infinities. -/

namespace Verif.Model

/-- The `adjust` argument: `True`, `False` or `"linear"`. Used for src/wax/modules/ewma.py:143, 177. -/
inductive Adjust where
  | yes | no | linear
deriving DecidableEq, Repr

/-- Python truthiness of `adjust` (`"linear"` is truthy): src/wax/modules/ewma.py:143, 177. -/
def Adjust.truthy : Adjust → Bool
  | .yes => true
  | .no => false
  | .linear => true

/-- Constructor arguments of EWMA, src/wax/modules/ewma.py:33-103 (after `com` is resolved). -/
structure EWMACfg (K : Type) where
  com : K
  adjust : Adjust
  ignoreNa : Bool
  minPeriods : Nat
  initial : Fl K
  big : K

/-- The three `hk.get_state` entries: src/wax/modules/ewma.py:126-131, 148-153, 188-193. -/
structure EWMAState (K : Type) where
  mean : Fl K
  oldWt : Fl K
  nobs : Nat
deriving DecidableEq, Repr

/-- Result together with the `return_info` dictionary: src/wax/modules/ewma.py:174-175, 195-196, 204-207. -/
structure EWMAOut (K : Type) where
  value : Fl K
  comEff : Fl K
  nobs : Nat
deriving DecidableEq, Repr

section
variable {K : Type} [Field K] [LinearOrder K]

/-- src/wax/modules/ewma.py:91-96: exactly one of `com`, `alpha` must be given (otherwise
AssertionError); `com = 1/alpha - 1`. -/
def ewmaCom : Option K → Option K → Except Unit K
  | some com, none => .ok com
  | none, some alpha => .ok (1 / alpha - 1)
  | _, _ => .error ()

/-- src/wax/modules/ewma.py:141: `alpha = 1 / (1 + com)`. -/
def EWMACfg.alpha (c : EWMACfg K) : Fl K := Fl.fin 1 / (Fl.fin 1 + Fl.fin c.com)

/-- src/wax/modules/ewma.py:143-146 `new_wt`. -/
def EWMACfg.newWt (c : EWMACfg K) : Fl K := if c.adjust.truthy then Fl.fin 1 else c.alpha

/-- src/wax/modules/ewma.py:155-163: `old_wt_factor` and the capped `old_wt`. -/
def ewmaFactor (c : EWMACfg K) (isObs : Bool) (oldWt : Fl K) : Fl K × Fl K :=
  if c.adjust = Adjust.linear then
    (if isObs then Fl.fin 1 else Fl.maximum (Fl.fin 0) ((oldWt - Fl.fin 1) / oldWt),
      Fl.minimum oldWt (Fl.fin c.com))
  else (Fl.fin 1 - c.alpha, oldWt)

/-- src/wax/modules/ewma.py:155-170: the weight of the old mean used at this step. -/
def ewmaOldWt (c : EWMACfg K) (isObs nanMean : Bool) (oldWt : Fl K) : Fl K :=
  let (factor, w) := ewmaFactor c isObs oldWt
  let w := if c.ignoreNa then (if isObs then w * factor else w) else w * factor
  if nanMean then Fl.fin 0 else w

/-- src/wax/modules/ewma.py:105-207 `EWMA.__call__`. -/
def ewmaStep (c : EWMACfg K) (s : EWMAState K) (x : Fl K) : EWMAOut K × EWMAState K :=
  let isObs := !x.isNan
  let nanMean := s.mean.isNan
  let x := nanToNumDefault c.big x
  let mean := nanToNumDefault c.big s.mean
  let newWt := c.newWt
  let oldWt := ewmaOldWt c isObs nanMean s.oldWt
  let mean := if isObs then (oldWt * mean + newWt * x) / (oldWt + newWt) else mean
  let comEff := oldWt / newWt
  let oldWt := if c.adjust.truthy then (if isObs then oldWt + newWt else oldWt)
    else (if isObs then Fl.fin 1 else oldWt)
  let mean := if !isObs && nanMean then Fl.nan else mean
  let nobs := if isObs then s.nobs + 1 else s.nobs
  let result := if c.minPeriods ≠ 0 then (if c.minPeriods ≤ nobs then mean else Fl.nan) else mean
  (⟨result, comEff, nobs⟩, ⟨mean, oldWt, nobs⟩)

/-- The Haiku EWMA module: initial state src/wax/modules/ewma.py:126-131, 148-153, 188-193. -/
def ewma (c : EWMACfg K) : Mealy (EWMAState K) (Fl K) (EWMAOut K) where
  init := ⟨c.initial, Fl.fin 1, 0⟩
  step := ewmaStep c

/-- src/wax/flax/modules/ewma.py:56-163 `EWMA.__call__`: as in Haiku, except that an unobserved step keeps
`current_mean` instead of its `nan_to_num` (line 128).  (`nobs` is int32; its wrap-around after 2^31
observations is modelled in `Model/Counters`.) -/
def flaxEwmaStep (c : EWMACfg K) (s : EWMAState K) (x : Fl K) : EWMAOut K × EWMAState K :=
  let isObs := !x.isNan
  let nanMean := s.mean.isNan
  let xFilled := nanToNumDefault c.big x
  let meanFilled := nanToNumDefault c.big s.mean
  let newWt := c.newWt
  let oldWt := ewmaOldWt c isObs nanMean s.oldWt
  let mean := if isObs then (oldWt * meanFilled + newWt * xFilled) / (oldWt + newWt) else s.mean
  let comEff := oldWt / newWt
  let oldWt := if c.adjust.truthy then (if isObs then oldWt + newWt else oldWt)
    else (if isObs then Fl.fin 1 else oldWt)
  let mean := if !isObs && nanMean then Fl.nan else mean
  let nobs := if isObs then s.nobs + 1 else s.nobs
  let result := if c.minPeriods ≠ 0 then (if c.minPeriods ≤ nobs then mean else Fl.nan) else mean
  (⟨result, comEff, nobs⟩, ⟨mean, oldWt, nobs⟩)

/-- The Flax EWMA module: initial variables src/wax/flax/modules/ewma.py:77-83. -/
def flaxEwma (c : EWMACfg K) : Mealy (EWMAState K) (Fl K) (EWMAOut K) where
  init := ⟨c.initial, Fl.fin 1, 0⟩
  step := flaxEwmaStep c

/-- src/wax/numba/ewma_numba.py:130-184: one row of one column of `numba_apply` (the body of the two
loops). -/
def numbaStep (c : EWMACfg K) (s : EWMAState K) (cur : Fl K) : Fl K × EWMAState K :=
  let isObs := !cur.isNan
  let nobs := s.nobs + (if isObs then 1 else 0)
  let (avg, oldWt) :=
    if !s.mean.isNan then
      let (factor, w) :=
        if c.adjust = Adjust.linear then
          (if isObs then Fl.fin 1
            else if Fl.lt (Fl.fin 0) s.oldWt then
              Fl.maximum (Fl.fin 0) ((s.oldWt - Fl.fin 1) / s.oldWt)
            else Fl.fin 0,
            Fl.minimum s.oldWt (Fl.fin c.com))
        else (Fl.fin 1 - c.alpha, s.oldWt)
      if isObs || !c.ignoreNa then
        let w := w * factor
        if isObs then
          let avg := if Fl.feq s.mean cur then s.mean
            else (w * s.mean + c.newWt * cur) / (w + c.newWt)
          (avg, if c.adjust.truthy then w + c.newWt else Fl.fin 1)
        else (s.mean, w)
      else (s.mean, w)
    else if isObs then (cur, s.oldWt)
    else (s.mean, s.oldWt)
  (if c.minPeriods ≤ nobs then avg else Fl.nan, ⟨avg, oldWt, nobs⟩)

/-- src/wax/numba/ewma_numba.py:97-108, 128-187: one column of the numba EWMA as a pure function of the
values of the state arrays. -/
def numbaEwma (c : EWMACfg K) : Mealy (EWMAState K) (Fl K) (Fl K) where
  init := ⟨c.initial, Fl.fin 1, 0⟩
  step := numbaStep c

/-- The state arrays live in memory: a state object is an address. Used for src/wax/numba/ewma_numba.py:110-126. -/
abbrev Heap (K : Type) := Nat → EWMAState K

/-- src/wax/numba/ewma_numba.py:110-126 `apply(values, state)` with its effect on memory.  With a state, the
three arrays of the caller are updated in place (lines 151, 162-181) and returned; without one, fresh
arrays are allocated (address `fresh`). -/
def numbaApply (c : EWMACfg K) (h : Heap K) (fresh : Nat) (values : List (Fl K)) (state : Option Nat) :
    List (Fl K) × Nat × Heap K :=
  let (a, h) := match state with
    | some a => (a, h)
    | none => (fresh, Function.update h fresh (numbaEwma c).init)
  ((numbaEwma c).outsFrom (h a) values, a,
    Function.update h a ((numbaEwma c).stateFrom (h a) values))

end
end Verif.Model
