import Verif.Model.AutodiffPct
import Verif.Model.Events

/-! # Model: gradients through UpdateOnEvent and ConditionalComputation

A module is a streaming machine with the pullback of one call; the two wrappers add their own.  The event flags are booleans and are not differentiated. -/

namespace Verif.Model.Autodiff
variable {S I O CS CI CO : Type}

/-- One call of a module under reverse mode: `pull s x g c` are the cotangents of the state before the call and of the input, from the cotangents `g` of the
output and `c` of the state after it; zeros and additions of cotangents.  Used for src/wax/modules/update_on_event.py:72-121. -/
structure Pulled (S I O CS CI CO : Type) where
  m : Mealy S I O
  pull : S → I → CO → CS → CS × CI
  zeroS : CS
  addS : CS → CS → CS
  zeroI : CI
  zeroO : CO
  addO : CO → CO → CO

/-- `jax.grad` through the unrolled module: src/wax/unroll.py:71-93. -/
def Pulled.gradFrom (d : Pulled S I O CS CI CO) : S → List I → List CO → CS × List CI
  | s, x :: xs, g :: gs =>
    let r := d.gradFrom (d.m.step s x).2 xs gs
    let p := d.pull s x g r.1
    (p.1, p.2 :: r.2)
  | _, _, _ => (d.zeroS, [])

/-- `jax.grad` through the unrolled `UpdateOnEvent(module)`: src/wax/modules/update_on_event.py:81-121.  The module is always called, on the state it has; `hk.cond` keeps
its results or the previous ones; the cotangents of the operands that are not kept are zeros.  The result: the cotangents of the module's state, of the
previous output and of the inputs. -/
def updateOnEventGradFrom (d : Pulled S I O CS CI CO) : S → List (Bool × I) → List CO → (CS × CO) × List CI
  | s, e :: es, g :: gs =>
    let r := updateOnEventGradFrom d (if e.1 then (d.m.step s e.2).2 else s) es gs
    -- the output is returned and stored
    let cOutput := d.addO g r.1.2
    -- hk.cond
    let new := if e.1 then (cOutput, r.1.1) else (d.zeroO, d.zeroS)
    let prev := if e.1 then (d.zeroO, d.zeroS) else (cOutput, r.1.1)
    let p := d.pull s e.2 new.1 new.2
    ((d.addS p.1 prev.2, prev.1), p.2 :: r.2)
  | _, _, _ => ((d.zeroS, d.zeroO), [])

/-- `jax.grad` through the unrolled `UpdateOnEvent(module)` from fresh state: src/wax/modules/update_on_event.py:81-121. -/
def updateOnEventGrad (d : Pulled S I O CS CI CO) (es : List (Bool × I)) (gs : List CO) : List CI :=
  (updateOnEventGradFrom d d.m.init es gs).2

/-- `jax.grad` through the unrolled Flax `ConditionalComputation` with an event function: src/wax/flax/core/streaming_transforms.py:488-528.  `jnp.where` selects
the output only; the module's state always advances. -/
def conditionalGradFrom (d : Pulled S I O CS CI CO) (event : I → Bool) : S → List I → List CO → (CS × CO) × List CI
  | s, x :: xs, g :: gs =>
    let r := conditionalGradFrom d event (d.m.step s x).2 xs gs
    let cSelected := d.addO g r.1.2
    let cNew := if event x then cSelected else d.zeroO
    let cCached := if event x then d.zeroO else cSelected
    let p := d.pull s x cNew r.1.1
    ((p.1, cCached), p.2 :: r.2)
  | _, _, _ => ((d.zeroS, d.zeroO), [])

/-- `jax.grad` through the unrolled Flax `ConditionalComputation` from fresh variables: src/wax/flax/core/streaming_transforms.py:488-528. -/
def conditionalGrad (d : Pulled S I O CS CI CO) (event : I → Bool) (xs : List I) (gs : List CO) : List CI :=
  (conditionalGradFrom d event d.m.init xs gs).2

/-- The Haiku RollingMean as such a module: src/wax/modules/rolling_mean.py:37-42, src/wax/modules/buffer.py:41-46. -/
def rollingMeanPulled {K : Type} [Field K] [LinearOrder K] (horizon minPeriods : Nat) :
    Pulled (BufState (Fl K)) (Fl K) (Fl K) (List (Fl K)) (Fl K) (Fl K) where
  m := rollingMean horizon minPeriods
  pull s x g c := bufferPull (List.zipWith (· + ·) (meanPull minPeriods (bufferApply horizon x s).1 g) c)
  zeroS := List.replicate horizon (Fl.fin 0)
  addS := List.zipWith (· + ·)
  zeroI := Fl.fin 0
  zeroO := Fl.fin 0
  addO := (· + ·)

/-- The Haiku PctChange as such a module: src/wax/modules/pct_change.py:52-61 (the step of `pctChangeGradFrom`). -/
def pctChangePulled {K : Type} [Field K] [LinearOrder K] (F : Fns K) (fillnaZero : Bool) :
    Pulled (Fl K × BufState (Fl K)) (Fl K) (Option (Fl K)) (Fl K × List (Fl K)) (Fl K) (Fl K) where
  m := pctChange fillnaZero
  pull s x g c :=
    let filled := if x.isNan then s.1 else x
    let p := pctPull F fillnaZero x (look (bufferApply 2 filled s.2).1 0) g
    let q := bufferPull (c.2.set 0 (p.2 + look c.2 0))
    let ctFilled := q.2 + c.1
    ((if x.isNan then ctFilled else Fl.fin 0, q.1), p.1 + (if x.isNan then Fl.fin 0 else ctFilled))
  zeroS := (Fl.fin 0, [Fl.fin 0, Fl.fin 0])
  addS a b := (a.1 + b.1, List.zipWith (· + ·) a.2 b.2)
  zeroI := Fl.fin 0
  zeroO := Fl.fin 0
  addO := (· + ·)

/-- The Haiku or Flax EWMA as such a module: src/wax/modules/ewma.py:105-207 (the step of `ewmaGrad`).  The parameter `logcom` is the same at all calls: the sum of its cotangents is the
last component of the cotangent of the state. -/
def ewmaPulled {K : Type} [Field K] [LinearOrder K] (F : Fns K) (keep : Nat) (step : EWMACfg K → EWMAState K → Fl K → EWMAOut K × EWMAState K)
    (c : EWMACfg K) (logcom : K) : Pulled (EWMAState K) (Fl K) (EWMAOut K) (Fl K × Fl K × Fl K) (Fl K) (Fl K) where
  m := ⟨⟨c.initial, Fl.fin 1, 0⟩, step c⟩
  pull s x g ct :=
    let p := ewmaPull F keep c logcom s x g ct.1 ct.2.1
    ((p.mean, p.oldWt, p.logcom + ct.2.2), p.x)
  zeroS := (Fl.fin 0, Fl.fin 0, Fl.fin 0)
  addS a b := (a.1 + b.1, a.2.1 + b.2.1, a.2.2 + b.2.2)
  zeroI := Fl.fin 0
  zeroO := Fl.fin 0
  addO := (· + ·)

/-- `jax.grad` through the unrolled `UpdateOnEvent(EWMA)` (src/wax/modules/update_on_event.py:81-121, src/wax/modules/ewma.py:105-207): with respect to
`logcom` and to the inputs. -/
def updateOnEventEwmaGrad {K : Type} [Field K] [LinearOrder K] (F : Fns K) (c : EWMACfg K) (logcom : K) (es : List (Bool × Fl K)) (gs : List (Fl K)) :
    Fl K × List (Fl K) :=
  let d := ewmaPulled F 13 ewmaStep c logcom
  let r := updateOnEventGradFrom d d.m.init es gs
  (r.1.1.2.2, r.2)

/-- `jax.grad` through the unrolled Flax `ConditionalComputation(EWMA)` (src/wax/flax/core/streaming_transforms.py:488-528,
src/wax/flax/modules/ewma.py:56-163): with respect to `logcom` and to the inputs. -/
def conditionalEwmaGrad {K : Type} [Field K] [LinearOrder K] (F : Fns K) (c : EWMACfg K) (logcom : K) (event : Fl K → Bool) (xs gs : List (Fl K)) :
    Fl K × List (Fl K) :=
  let d := ewmaPulled F 1 flaxEwmaStep c logcom
  let r := conditionalGradFrom d event d.m.init xs gs
  (r.1.1.2.2, r.2)

end Verif.Model.Autodiff
