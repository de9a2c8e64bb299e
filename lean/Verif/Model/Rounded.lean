import Verif.Model.EWMVar
import Verif.Model.Windows

/-! # Model: the numerical modules with rounded arithmetic

The same functions as in `Model/EWMA`, `Model/EWMVar` and `Model/Windows`, line by line, but every floating point
operation rounds its exact result with `R : K → Fl K` (a number, or an infinity when it overflows).  The rest of
the model uses exact arithmetic; `Props/Rounded` shows that it is the case `R = Fl.fin` of this one.

Simplifications: the operations are executed as written in the source (no fused multiply-add, no reassociation except in sums,
whose order is left open); comparisons, selections, minima and maxima are exact; `com` is the float obtained from `exp(logcom)`;
float counters are exact. -/

namespace Verif.Model.Rounded
variable {K : Type} [Field K] [LinearOrder K]

/-- IEEE 754: an operation returns the rounded exact result; NaN and infinities need no rounding.
Used for src/wax/modules/ewma.py:141. -/
def rnd (R : K → Fl K) : Fl K → Fl K
  | .fin k => R k
  | x => x

/-- Floating point `+`. Used for src/wax/modules/ewma.py:141. -/
def add (R : K → Fl K) (a b : Fl K) : Fl K := rnd R (a + b)
/-- Floating point `-`. Used for src/wax/modules/ewma.py:155-163. -/
def sub (R : K → Fl K) (a b : Fl K) : Fl K := rnd R (a - b)
/-- Floating point `*`. Used for src/wax/modules/ewma.py:155-170. -/
def mul (R : K → Fl K) (a b : Fl K) : Fl K := rnd R (a * b)
/-- Floating point `/`. Used for src/wax/modules/ewma.py:141. -/
def div (R : K → Fl K) (a b : Fl K) : Fl K := rnd R (a / b)

/-- src/wax/modules/ewma.py:141: `alpha = 1.0 / (1.0 + com)`. -/
def alpha (R : K → Fl K) (c : EWMACfg K) : Fl K := div R (.fin 1) (add R (.fin 1) (.fin c.com))

/-- src/wax/modules/ewma.py:143-146 `new_wt`. -/
def newWt (R : K → Fl K) (c : EWMACfg K) : Fl K := if c.adjust.truthy then .fin 1 else alpha R c

/-- src/wax/modules/ewma.py:155-163: `old_wt_factor` and the capped `old_wt`. -/
def factor (R : K → Fl K) (c : EWMACfg K) (isObs : Bool) (oldWt : Fl K) : Fl K × Fl K :=
  if c.adjust = Adjust.linear then
    (if isObs then .fin 1 else Fl.maximum (.fin 0) (div R (sub R oldWt (.fin 1)) oldWt), Fl.minimum oldWt (.fin c.com))
  else (sub R (.fin 1) (alpha R c), oldWt)

/-- src/wax/modules/ewma.py:155-170: the weight of the old mean used at this step. -/
def oldWt (R : K → Fl K) (c : EWMACfg K) (isObs nanMean : Bool) (w : Fl K) : Fl K :=
  let (f, w) := factor R c isObs w
  let w := if c.ignoreNa then (if isObs then mul R w f else w) else mul R w f
  if nanMean then .fin 0 else w

/-- src/wax/modules/ewma.py:172: the new mean at an observation. -/
def combine (R : K → Fl K) (old mean new x : Fl K) : Fl K :=
  div R (add R (mul R old mean) (mul R new x)) (add R old new)

/-- src/wax/modules/ewma.py:105-207 `EWMA.__call__`. -/
def ewmaStep (R : K → Fl K) (c : EWMACfg K) (s : EWMAState K) (x : Fl K) : EWMAOut K × EWMAState K :=
  let isObs := !x.isNan
  let nanMean := s.mean.isNan
  let x := nanToNumDefault c.big x
  let mean := nanToNumDefault c.big s.mean
  let new := newWt R c
  let old := oldWt R c isObs nanMean s.oldWt
  let mean := if isObs then combine R old mean new x else mean
  let comEff := div R old new
  let old := if c.adjust.truthy then (if isObs then add R old new else old)
    else (if isObs then .fin 1 else old)
  let mean := if !isObs && nanMean then .nan else mean
  let nobs := if isObs then s.nobs + 1 else s.nobs
  let result := if c.minPeriods ≠ 0 then (if c.minPeriods ≤ nobs then mean else .nan) else mean
  (⟨result, comEff, nobs⟩, ⟨mean, old, nobs⟩)

/-- The Haiku EWMA module with rounded arithmetic. See src/wax/modules/ewma.py:105-207. -/
def ewma (R : K → Fl K) (c : EWMACfg K) : Mealy (EWMAState K) (Fl K) (EWMAOut K) where
  init := ⟨c.initial, .fin 1, 0⟩
  step := ewmaStep R c

/-- src/wax/flax/modules/ewma.py:56-163 `EWMA.__call__`: as in Haiku, except that an unobserved step keeps `current_mean`. -/
def flaxEwmaStep (R : K → Fl K) (c : EWMACfg K) (s : EWMAState K) (x : Fl K) : EWMAOut K × EWMAState K :=
  let isObs := !x.isNan
  let nanMean := s.mean.isNan
  let xFilled := nanToNumDefault c.big x
  let meanFilled := nanToNumDefault c.big s.mean
  let new := newWt R c
  let old := oldWt R c isObs nanMean s.oldWt
  let mean := if isObs then combine R old meanFilled new xFilled else s.mean
  let comEff := div R old new
  let old := if c.adjust.truthy then (if isObs then add R old new else old)
    else (if isObs then .fin 1 else old)
  let mean := if !isObs && nanMean then .nan else mean
  let nobs := if isObs then s.nobs + 1 else s.nobs
  let result := if c.minPeriods ≠ 0 then (if c.minPeriods ≤ nobs then mean else .nan) else mean
  (⟨result, comEff, nobs⟩, ⟨mean, old, nobs⟩)

/-- The Flax EWMA module with rounded arithmetic. See src/wax/flax/modules/ewma.py:56-163. -/
def flaxEwma (R : K → Fl K) (c : EWMACfg K) : Mealy (EWMAState K) (Fl K) (EWMAOut K) where
  init := ⟨c.initial, .fin 1, 0⟩
  step := flaxEwmaStep R c

/-- src/wax/numba/ewma_numba.py:130-184: one row of one column of `numba_apply`; the mean is left alone when the new value equals
it (line 172). -/
def numbaStep (R : K → Fl K) (c : EWMACfg K) (s : EWMAState K) (cur : Fl K) : Fl K × EWMAState K :=
  let isObs := !cur.isNan
  let nobs := s.nobs + (if isObs then 1 else 0)
  let (avg, old) :=
    if !s.mean.isNan then
      let (f, w) :=
        if c.adjust = Adjust.linear then
          (if isObs then Fl.fin 1
            else if Fl.lt (.fin 0) s.oldWt then Fl.maximum (.fin 0) (div R (sub R s.oldWt (.fin 1)) s.oldWt)
            else .fin 0,
            Fl.minimum s.oldWt (.fin c.com))
        else (sub R (.fin 1) (alpha R c), s.oldWt)
      if isObs || !c.ignoreNa then
        let w := mul R w f
        if isObs then
          let avg := if Fl.feq s.mean cur then s.mean else combine R w s.mean (newWt R c) cur
          (avg, if c.adjust.truthy then add R w (newWt R c) else .fin 1)
        else (s.mean, w)
      else (s.mean, w)
    else if isObs then (cur, s.oldWt)
    else (s.mean, s.oldWt)
  (if c.minPeriods ≤ nobs then avg else .nan, ⟨avg, old, nobs⟩)

/-- One column of the numba EWMA with rounded arithmetic. See src/wax/numba/ewma_numba.py:130-184. -/
def numbaEwma (R : K → Fl K) (c : EWMACfg K) : Mealy (EWMAState K) (Fl K) (Fl K) where
  init := ⟨c.initial, .fin 1, 0⟩
  step := numbaStep R c

/-- src/wax/modules/ewmvar.py:79-80 and 109-115: the smoothing factor at a step, `pw` being the power routine `**`. -/
def varAlpha (R : K → Fl K) (pw : Fl K → Nat → Fl K) (com : K) (adjust : Adjust) (nobs : Nat) : Fl K :=
  let a := div R (.fin 1) (add R (.fin 1) (.fin com))
  match adjust with
  | .linear =>
    let tscale := div R (.fin 1) a
    let tscale := if Fl.lt (.fin (nobs : K)) tscale then .fin (nobs : K) else tscale
    if Fl.lt (.fin 0) tscale then div R (.fin 1) tscale else .nan
  | .yes => div R a (sub R (.fin 1) (pw (sub R (.fin 1) a) nobs))
  | .no => a

/-- src/wax/modules/ewmvar.py:64-128 `EWMVar.__call__` (src/wax/flax/modules/ewmvar.py:51-113 is the same computation). -/
def ewmvarStep (R : K → Fl K) (pw : Fl K → Nat → Fl K) (com : K) (adjust : Adjust) (s : EWMVarState K) (x : Fl K) :
    Fl K × EWMVarState K :=
  let mean := if s.mean.isNan then x else s.mean
  let var := if s.var.isNan then Fl.fin 0 else s.var
  let mask := !x.isNan
  let nobs := if mask then s.nobs + 1 else s.nobs
  let a := varAlpha R pw com adjust nobs
  let diff := sub R x mean
  let incr := mul R a diff
  let mean := if mask then add R mean incr else mean
  let var := if mask then mul R (sub R (.fin 1) a) (add R var (mul R diff incr)) else var
  (var, ⟨mean, var, nobs⟩)

/-- The EWMVar module with rounded arithmetic. See src/wax/modules/ewmvar.py:64-128. -/
def ewmvar (R : K → Fl K) (pw : Fl K → Nat → Fl K) (com : K) (adjust : Adjust) : Mealy (EWMVarState K) (Fl K) (Fl K) where
  init := ⟨.nan, .nan, 0⟩
  step := ewmvarStep R pw com adjust

/-- src/wax/modules/ewmcov.py:112-152 `EWMCov.__call__` (src/wax/flax/modules/ewmcov.py:69-119 is the same computation), `step` being the rounded
EWMA. -/
def ewmcovStep {ι κ : Type} (R : K → Fl K) (step : EWMAState K → Fl K → EWMAOut K × EWMAState K) (assumeCentered : Bool)
    (s : CovState ι κ K) (p : (ι → Fl K) × (κ → Fl K)) : (ι → κ → Fl K) × CovState ι κ K :=
  let xy := fun i j => step (s.xy i j) (mul R (p.1 i) (p.2 j))
  if assumeCentered then
    (fun i j => (xy i j).1.value, ⟨fun i j => (xy i j).2, s.x, s.y⟩)
  else
    let mx := fun i => step (s.x i) (p.1 i)
    let my := fun j => step (s.y j) (p.2 j)
    (fun i j => sub R (xy i j).1.value (mul R (mx i).1.value (my j).1.value),
      ⟨fun i j => (xy i j).2, fun i => (mx i).2, fun j => (my j).2⟩)

/-- src/wax/modules/ewmcov.py:25-152: the Haiku EWMCov module with rounded arithmetic. -/
def ewmcov (R : K → Fl K) (ι κ : Type) (c : EWMACfg K) (assumeCentered : Bool) :
    Mealy (CovState ι κ K) ((ι → Fl K) × (κ → Fl K)) (ι → κ → Fl K) where
  init := ⟨fun _ _ => (ewma R c).init, fun _ => (ewma R c).init, fun _ => (ewma R c).init⟩
  step := ewmcovStep R (ewmaStep R c) assumeCentered

/-- src/wax/flax/modules/ewmcov.py:24-119: the Flax EWMCov module with rounded arithmetic. -/
def flaxEwmcov (R : K → Fl K) (ι κ : Type) (c : EWMACfg K) (assumeCentered : Bool) :
    Mealy (CovState ι κ K) ((ι → Fl K) × (κ → Fl K)) (ι → κ → Fl K) where
  init := ⟨fun _ _ => (flaxEwma R c).init, fun _ => (flaxEwma R c).init, fun _ => (flaxEwma R c).init⟩
  step := ewmcovStep R (flaxEwmaStep R c) assumeCentered

/-- src/wax/modules/rolling_mean.py:38-42: the mean of a window, `total` being the reduction `sum(axis=0)`. -/
def windowMean (R : K → Fl K) (total : List (Fl K) → Fl K) (minPeriods : Nat) (w : List (Fl K)) : Fl K :=
  let sum := total (w.map fun v => if v.isNan then (0 : Fl K) else v)
  let count := (w.map fun v => if v.isNan then 0 else 1).sum
  if minPeriods ≤ count then div R sum (.fin (count : K)) else .nan

/-- src/wax/modules/rolling_mean.py:22-42 `RollingMean` with rounded arithmetic. -/
def rollingMean (R : K → Fl K) (total : List (Fl K) → Fl K) (horizon minPeriods : Nat) : Mealy (BufState (Fl K)) (Fl K) (Fl K) where
  init := (buffer horizon Fl.nan).init
  step s x :=
    let r := (buffer horizon Fl.nan).step s x
    (windowMean R total minPeriods r.1.1, r.2)

/-- src/wax/flax/modules/rolling_mean.py:22-60 `RollingMean` with rounded arithmetic. -/
def flaxRollingMean (R : K → Fl K) (total : List (Fl K) → Fl K) (horizon minPeriods : Nat) :
    Mealy (CircState (Fl K)) (Fl K) (Fl K) where
  init := (circBuffer horizon Fl.nan).init
  step s x :=
    let r := (circBuffer horizon Fl.nan).step s x
    (windowMean R total minPeriods r.1.1, r.2)

end Verif.Model.Rounded
