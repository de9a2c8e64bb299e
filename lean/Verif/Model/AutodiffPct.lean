import Verif.Model.AutodiffMean

/-! # Model: the gradient of PctChange

Reverse-mode differentiation of the unrolled module: `pctPull` (`Model/Autodiff`) at every step, composed with the backward passes of the inner Lag
(a buffer of two rows) and Ffill. -/

namespace Verif.Model.Autodiff
variable {K : Type} [Field K] [LinearOrder K]

/-- src/wax/modules/pct_change.py:52-61 unrolled (src/wax/unroll.py:71-93), from the state of the inner Ffill and the buffer of the inner Lag: the
cotangents of `valid_value`, of the buffer and of the inputs, from the cotangents `gs` of the outputs. -/
def pctChangeGradFrom (F : Fns K) (fillnaZero : Bool) : Fl K → BufState (Fl K) → List (Fl K) → List (Fl K) → Fl K × List (Fl K) × List (Fl K)
  | v, s, x :: xs, g :: gs =>
    -- forward
    let filled := if x.isNan then v else x
    let b := bufferApply 2 filled s
    -- the steps after this one
    let r := pctChangeGradFrom F fillnaZero filled b.2 xs gs
    -- backward
    let p := pctPull F fillnaZero x (look b.1 0) g
    let ctRows := r.2.1.set 0 (p.2 + look r.2.1 0)
    let q := bufferPull ctRows
    let ctFilled := q.2 + r.1
    let ctValid := if x.isNan then ctFilled else Fl.fin 0
    let ctX := p.1 + (if x.isNan then Fl.fin 0 else ctFilled)
    (ctValid, q.1, ctX :: r.2.2)
  | _, s, _, _ => (Fl.fin 0, s.buffer.map fun _ => Fl.fin 0, [])

/-- `jax.grad` through the unrolled PctChange, from a fresh state: src/wax/modules/pct_change.py:52-61, src/wax/modules/ffill.py:26-37,
src/wax/modules/lag.py:31-33. -/
def pctChangeGrad (F : Fns K) (fillnaZero : Bool) (xs gs : List (Fl K)) : List (Fl K) :=
  (pctChangeGradFrom F fillnaZero Fl.nan (bufferInit 2 Fl.nan) xs gs).2.2

end Verif.Model.Autodiff
