import Verif.Model.Rounded
import Verif.Model.Windows

/-! # Model: observation counters as machine numbers

`Model/EWMA` counts observations with natural numbers.  Here the counters are those of the code: int32 in the Haiku and Flax EWMA (without
64-bit mode), int64 in the numba EWMA, a float in EWMVar. -/

namespace Verif.Model.Counters

/-- int64 arithmetic. Used for src/wax/numba/ewma_numba.py:106, 151. -/
def i64 (x : Int) : Int := Int.bmod x (2 ^ 64)

/-- The state entries with the counter as a machine integer: src/wax/modules/ewma.py:126-131, 148-153, 188-193,
src/wax/flax/modules/ewma.py:77-83. -/
structure EWMAMachine (K : Type) where
  mean : Fl K
  oldWt : Fl K
  nobs : Int

section
variable {K : Type} [Field K] [LinearOrder K]

/-- src/wax/modules/ewma.py:186-200 (src/wax/flax/modules/ewma.py:144-156): counting the observations and hiding the first results; `wrap` is
the machine's arithmetic.  `core` is what precedes, which does not read the counter (and is given `min_periods = 0`). -/
def ewmaMachineStep (wrap : Int → Int) (core : EWMACfg K → EWMAState K → Fl K → EWMAOut K × EWMAState K) (c : EWMACfg K)
    (s : EWMAMachine K) (x : Fl K) : (Fl K × Int) × EWMAMachine K :=
  let r := core { c with minPeriods := 0 } ⟨s.mean, s.oldWt, 0⟩ x
  let nobs := if x.isNan then s.nobs else wrap (s.nobs + 1)
  let result := if c.minPeriods ≠ 0 then (if (c.minPeriods : Int) ≤ nobs then r.1.value else Fl.nan) else r.1.value
  ((result, nobs), ⟨r.2.mean, r.2.oldWt, nobs⟩)

/-- src/wax/modules/ewma.py:105-207 with its int32 counter (lines 188-194: `dtype=int`). -/
def ewma32 (c : EWMACfg K) : Mealy (EWMAMachine K) (Fl K) (Fl K × Int) where
  init := ⟨c.initial, Fl.fin 1, 0⟩
  step := ewmaMachineStep i32 ewmaStep c

/-- src/wax/flax/modules/ewma.py:56-163 with its int32 counter (line 83). -/
def flaxEwma32 (c : EWMACfg K) : Mealy (EWMAMachine K) (Fl K) (Fl K × Int) where
  init := ⟨c.initial, Fl.fin 1, 0⟩
  step := ewmaMachineStep i32 flaxEwmaStep c

/-- src/wax/numba/ewma_numba.py:130-184 with its int64 counter (lines 106, 151, 183). -/
def numbaEwma64 (c : EWMACfg K) : Mealy (EWMAMachine K) (Fl K) (Fl K × Int) where
  init := ⟨c.initial, Fl.fin 1, 0⟩
  step s x :=
    let r := numbaStep { c with minPeriods := 0 } ⟨s.mean, s.oldWt, 0⟩ x
    let nobs := i64 (s.nobs + if x.isNan then 0 else 1)
    ((if (c.minPeriods : Int) ≤ nobs then r.1 else Fl.nan, nobs), ⟨r.2.mean, r.2.oldWt, nobs⟩)

/-- The state entries of EWMVar, `nobs` having the dtype of the data: src/wax/modules/ewmvar.py:82-99, src/wax/flax/modules/ewmvar.py:74-76. -/
structure EWMVarMachine (K : Type) where
  mean : Fl K
  var : Fl K
  nobs : Fl K

/-- src/wax/modules/ewmvar.py:79-80 and 109-115: the smoothing factor for a float count; `pw` is the power routine on floats. -/
def varAlphaMachine (R : K → Fl K) (pw : Fl K → Fl K → Fl K) (com : K) (adjust : Adjust) (nobs : Fl K) : Fl K :=
  let a := Rounded.div R (.fin 1) (Rounded.add R (.fin 1) (.fin com))
  match adjust with
  | .linear =>
    let tscale := Rounded.div R (.fin 1) a
    let tscale := if Fl.lt nobs tscale then nobs else tscale
    if Fl.lt (.fin 0) tscale then Rounded.div R (.fin 1) tscale else .nan
  | .yes => Rounded.div R a (Rounded.sub R (.fin 1) (pw (Rounded.sub R (.fin 1) a) nobs))
  | .no => a

/-- src/wax/modules/ewmvar.py:64-128 `EWMVar.__call__` (src/wax/flax/modules/ewmvar.py:51-113 is the same computation) with its float counter. -/
def ewmvarMachineStep (R : K → Fl K) (pw : Fl K → Fl K → Fl K) (com : K) (adjust : Adjust) (s : EWMVarMachine K) (x : Fl K) :
    Fl K × EWMVarMachine K :=
  let mean := if s.mean.isNan then x else s.mean
  let var := if s.var.isNan then Fl.fin 0 else s.var
  let mask := !x.isNan
  let nobs := if mask then Rounded.add R s.nobs (.fin 1) else s.nobs
  let a := varAlphaMachine R pw com adjust nobs
  let diff := Rounded.sub R x mean
  let incr := Rounded.mul R a diff
  let mean := if mask then Rounded.add R mean incr else mean
  let var := if mask then Rounded.mul R (Rounded.sub R (.fin 1) a) (Rounded.add R var (Rounded.mul R diff incr)) else var
  (var, ⟨mean, var, nobs⟩)

/-- The EWMVar module with its float counter. See src/wax/modules/ewmvar.py:64-128. -/
def ewmvarMachine (R : K → Fl K) (pw : Fl K → Fl K → Fl K) (com : K) (adjust : Adjust) : Mealy (EWMVarMachine K) (Fl K) (Fl K) where
  init := ⟨.nan, .nan, .fin 0⟩
  step := ewmvarMachineStep R pw com adjust

end
end Verif.Model.Counters
