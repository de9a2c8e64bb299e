import Verif.Model.Rounded
import Verif.Model.Masks

/-! # Model: masked statistics and percentage changes with rounded arithmetic

The functions of `Model/Masks` and `Model/Windows`, line by line, with the rounded operations of `Model/Rounded`.  `total` is the
reduction `sum` (its order is left open) and `sq` the square root routine; conversions of counts to floats are exact. -/

namespace Verif.Model.Rounded
variable {K : Type} [Field K] [LinearOrder K]

/-- src/wax/modules/mask_mean.py:43-52 `mask_mean` on one line. -/
def maskMean (R : K → Fl K) (total : List (Fl K) → Fl K) (big : K) (l : Line K) : Fl K :=
  div R (total (maskFill big l)) (.fin (maskCount l : K))

/-- src/wax/modules/mask_std.py:52-63: the variance on one line whose mean is `mean`; `diff**2` is one multiplication. -/
def maskVarWith (R : K → Fl K) (total : List (Fl K) → Fl K) (big : K) (assumeCentered : Bool) (mean : Fl K) (l : Line K) : Fl K :=
  let diff := (List.zip (l.map (·.1)) (maskFill big l)).map fun e =>
    let d := if assumeCentered then e.2 else sub R e.2 mean
    if e.1 then d else Fl.fin 0
  div R (total (diff.map fun d => mul R d d)) (.fin (maskCount l : K))

/-- src/wax/modules/mask_std.py:63-65: from the variance to the standard deviation. -/
def stdOfVar (R : K → Fl K) (sq : Fl K → Fl K) (eps : K) (var : Fl K) : Fl K :=
  if Fl.lt (Fl.fin 0) var then sq (add R (Fl.fin eps) var) else Fl.fin 0

/-- src/wax/modules/mask_std.py:46-66 `mask_std` on one line. -/
def maskStd (R : K → Fl K) (total : List (Fl K) → Fl K) (sq : Fl K → Fl K) (eps big : K) (assumeCentered : Bool) (l : Line K) : Fl K :=
  stdOfVar R sq eps (maskVarWith R total big assumeCentered (maskMean R total big l) l)

/-- src/wax/modules/mask_normalize.py:46-49 `normalize` on one line. -/
def maskNormalize (R : K → Fl K) (total : List (Fl K) → Fl K) (sq : Fl K → Fl K) (eps big : K) (assumeCentered : Bool) (l : Line K) :
    List (Fl K) :=
  let std := maskStd R total sq eps big assumeCentered l
  fillNanInf (Fl.fin 0) (l.map fun e => div R e.2 std)

/-- src/wax/modules/pct_change.py:54-61: the value computed from the current and previous values. -/
def pctValue (R : K → Fl K) (fillnaZero : Bool) (x prev : Fl K) : Fl K :=
  let pct := sub R (div R x prev) (.fin 1)
  if fillnaZero && (x.isNan && !prev.isNan) then 0 else pct

/-- src/wax/modules/pct_change.py:24-61 `PctChange` with rounded arithmetic. -/
def pctChange (R : K → Fl K) (fillnaZero : Bool) : Mealy (Fl K × BufState (Fl K)) (Fl K) (Option (Fl K)) where
  init := (ffill.init, (lag 1 Fl.nan).init)
  step s x :=
    let f := ffill.step s.1 x
    let l := (lag 1 Fl.nan).step s.2 f.1
    (l.1.map (pctValue R fillnaZero x), (f.2, l.2))

/-- src/wax/flax/modules/pct_change.py:43-69 `PctChange` with rounded arithmetic. -/
def flaxPctChange (R : K → Fl K) (pad fillnaZero : Bool) : Mealy (Fl K × CircState (Fl K)) (Fl K) (Option (Fl K)) where
  init := (ffill.init, (flaxLag 1 Fl.nan).init)
  step s x :=
    if pad then
      let f := ffill.step s.1 x
      let l := (flaxLag 1 Fl.nan).step s.2 f.1
      (l.1.map (pctValue R fillnaZero x), (f.2, l.2))
    else
      let l := (flaxLag 1 Fl.nan).step s.2 x
      (l.1.map (pctValue R fillnaZero x), (s.1, l.2))

end Verif.Model.Rounded
