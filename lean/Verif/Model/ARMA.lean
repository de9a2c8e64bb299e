import Verif.Model.Windows

/-! # Model: ARMA filters and SNARIMAX -/

namespace Verif.Model
variable {K : Type} [Field K] [LinearOrder K]

/-- `coef @ rows` for a 1-d coefficient vector: `Σ_i coef[i] * rows[i]`. Used for src/wax/modules/arma.py:23-52. -/
def dot (coef : List K) (rows : List (Fl K)) : Fl K :=
  (List.zipWith (fun a y => Fl.fin a * y) coef rows).sum

/-- src/wax/modules/fill_nan_inf.py:23-43 `FillNanInf()` (fill value 0) on one entry. -/
def fill0 (v : Fl K) : Fl K := Fl.nanToNum (Fl.fin 0) (Fl.fin 0) (Fl.fin 0) v

/-- States of the Haiku ARMA: the two inner Buffer modules and the state `y_buffer` (src/wax/modules/arma.py:32-40, 49-51). -/
structure ArmaState (K : Type) where
  eps : BufState (Fl K)
  yBuf : BufState (Fl K)
  y : List (Fl K)

/-- src/wax/modules/arma.py:23-52 `ARMA.__call__` on a scalar innovation. -/
def armaStep (alpha beta : List K) (s : ArmaState K) (eps : Fl K) : Fl K × ArmaState K :=
  let e := (buffer (beta.length + 1) (Fl.fin 0)).step s.eps eps
  let epsBuffer := e.1.1.dropLast
  let y := dot alpha s.y + dot beta epsBuffer + eps
  let y := fill0 y
  let b := (buffer alpha.length (Fl.fin 0)).step s.yBuf y
  (y, ⟨e.2, b.2, b.1.1⟩)

/-- The Haiku ARMA module. See src/wax/modules/arma.py:23-52. -/
def arma (alpha beta : List K) : Mealy (ArmaState K) (Fl K) (Fl K) where
  init := ⟨(buffer (beta.length + 1) (Fl.fin 0)).init, (buffer alpha.length (Fl.fin 0)).init,
    List.replicate alpha.length (Fl.fin 0)⟩
  step := armaStep alpha beta

/-- src/wax/flax/modules/arma.py:63-105 `ARMA.__call__` on a scalar innovation: the AR buffer is called once with a
zero placeholder to read the history and once more with the output. -/
def flaxArmaStep (alpha beta : List K) (s : CircState (Fl K) × CircState (Fl K)) (eps : Fl K) :
    Fl K × (CircState (Fl K) × CircState (Fl K)) :=
  let (output, ar) :=
    if 0 < alpha.length then
      let r := (circBuffer alpha.length (Fl.fin 0)).step s.1 (Fl.fin 0)
      (eps + dot alpha r.1.1, r.2)
    else (eps, s.1)
  let (output, ma) :=
    if 0 < beta.length then
      let r := (circBuffer beta.length (Fl.fin 0)).step s.2 eps
      (output + dot beta r.1.1, r.2)
    else (output, s.2)
  let ar := if 0 < alpha.length then ((circBuffer alpha.length (Fl.fin 0)).step ar output).2 else ar
  (fill0 output, (ar, ma))

/-- The Flax ARMA module from fresh variables. See src/wax/flax/modules/arma.py:63-105. -/
def flaxArma (alpha beta : List K) : Mealy (CircState (Fl K) × CircState (Fl K)) (Fl K) (Fl K) where
  init := ((circBuffer alpha.length (Fl.fin 0)).init, (circBuffer beta.length (Fl.fin 0)).init)
  step := flaxArmaStep alpha beta

/-- src/wax/modules/snarimax.py:68-90 `__init__`: orders other than `p`, `q`, `m` must be 0. -/
def snarimaxNew (d sp sd sq : Nat) : Except Unit Unit :=
  if d ≠ 0 ∨ sp ≠ 0 ∨ sd ≠ 0 ∨ sq ≠ 0 then .error () else .ok ()

/-- States of SNARIMAX: the buffer of targets, the buffer of errors, `errp`, the regressor's state.
Used for src/wax/modules/snarimax.py:92-110. -/
structure SnState (R K : Type) where
  yTrues : BufState (Fl K)
  errLag : BufState (Fl K)
  errp : List (Fl K)
  reg : R

/-- src/wax/modules/snarimax.py:92-110 `SNARIMAX.__call__` with a scalar target and an optional vector of exogenous
variables; the regressor is any module from feature vectors to a number. -/
def snarimaxStep {R : Type} (p q : Nat) (reg : Mealy R (List (Fl K)) (Fl K)) (s : SnState R K)
    (i : Fl K × Option (List (Fl K))) : Fl K × SnState R K :=
  let yb := (buffer (p + 1) Fl.nan).step s.yTrues i.1
  let yp := yb.1.1.drop 1
  let X := i.2.getD [] ++ s.errp ++ yp
  let X := X.map fun v => fill0 v
  let r := reg.step s.reg X
  let err := i.1 - r.1
  let eb := (buffer (q + 1) Fl.nan).step s.errLag err
  (r.1, ⟨yb.2, eb.2, eb.1.1.drop 1, r.2⟩)

/-- The Haiku SNARIMAX module. See src/wax/modules/snarimax.py:92-110. -/
def snarimax {R : Type} (p q : Nat) (reg : Mealy R (List (Fl K)) (Fl K)) :
    Mealy (SnState R K) (Fl K × Option (List (Fl K))) (Fl K) where
  init := ⟨(buffer (p + 1) Fl.nan).init, (buffer (q + 1) Fl.nan).init, List.replicate q (Fl.fin 0), reg.init⟩
  step := snarimaxStep p q reg

/-- src/wax/flax/modules/snarimax.py:39-57, 59-119 `SNARIMAX.__call__` with scalar `x` and target `y` (None if not given): the
buffer of errors is called only when there is a target. -/
def flaxSnarimaxStep {R : Type} (lagsX lagsY : Nat) (reg : Mealy R (List (Fl K)) (Fl K))
    (s : CircState (Fl K) × CircState (Fl K) × R) (i : Fl K × Option (Fl K)) :
    Fl K × (CircState (Fl K) × CircState (Fl K) × R) :=
  let (f1, bx) := if 0 < lagsX then
      let r := (circBuffer lagsX (Fl.fin 0)).step s.1 i.1
      (r.1.1, r.2)
    else ([], s.1)
  let (f2, by') := match i.2 with
    | some y =>
      if 0 < lagsY then
        let r := (circBuffer lagsY (Fl.fin 0)).step s.2.1 (y - i.1)
        (r.1.1, r.2)
      else ([], s.2.1)
    | none => ([], s.2.1)
  let r := reg.step s.2.2 (f1 ++ f2 ++ [i.1])
  (fill0 r.1, (bx, by', r.2))

/-- The Flax SNARIMAX module from fresh variables. See src/wax/flax/modules/snarimax.py:39-57, 59-119. -/
def flaxSnarimax {R : Type} (lagsX lagsY : Nat) (reg : Mealy R (List (Fl K)) (Fl K)) :
    Mealy (CircState (Fl K) × CircState (Fl K) × R) (Fl K × Option (Fl K)) (Fl K) where
  init := ((circBuffer lagsX (Fl.fin 0)).init, (circBuffer lagsY (Fl.fin 0)).init, reg.init)
  step := flaxSnarimaxStep lagsX lagsY reg

end Verif.Model
