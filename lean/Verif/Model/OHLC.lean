import Verif.Base.Fl
import Verif.Base.Mealy

/-! # Model: Open-High-Low-Close bars -/

namespace Verif.Model

/-- src/wax/modules/ohlc.py:22-26 `OHLCData` (one array element). -/
structure OHLCData (K : Type) where
  open_ : Fl K
  high : Fl K
  low : Fl K
  close : Fl K
deriving DecidableEq, Repr

variable {K : Type} [Field K] [LinearOrder K]

/-- src/wax/modules/ohlc.py:36-37: the all-NaN bar. -/
def OHLCData.empty : OHLCData K := ⟨.nan, .nan, .nan, .nan⟩

/-- src/wax/modules/ohlc.py:29-104 `OHLC.__call__` on one element of the price array; the input is the
pair (price, reset_on). -/
def ohlcStep (s : OHLCData K) (inp : Fl K × Bool) : OHLCData K × OHLCData K :=
  let (x, reset) := inp
  -- 54-63: hk.cond(reset_on, daily_call, identity)
  let s := if reset then OHLCData.empty else s
  -- 66
  let close := if !x.isNan then x else s.close
  -- 69-85
  let open_ := if s.open_.isNan then close else s.open_
  let high := if s.high.isNan then close else s.high
  let low := if s.low.isNan then close else s.low
  -- 88-97
  let high := if Fl.lt high close then close else high
  let low := if Fl.lt close low then close else low
  let o : OHLCData K := ⟨open_, high, low, close⟩
  (o, o)

/-- src/wax/modules/ohlc.py:29-104 `OHLC`. -/
def ohlc : Mealy (OHLCData K) (Fl K × Bool) (OHLCData K) where
  init := OHLCData.empty
  step := ohlcStep

/-- src/wax/flax/modules/ohlc.py:55-102 `OHLC.__call__` on one element. -/
def flaxOhlcStep (s : OHLCData K) (inp : Fl K × Bool) : OHLCData K × OHLCData K :=
  let (x, reset) := inp
  let firstOrReset := reset || s.open_.isNan
  let open_ := if firstOrReset then x else s.open_
  let high := if firstOrReset then x else Fl.maximum s.high x
  let low := if firstOrReset then x else Fl.minimum s.low x
  let o : OHLCData K := ⟨open_, high, low, x⟩
  (o, o)

/-- src/wax/flax/modules/ohlc.py:33-102 `OHLC`. -/
def flaxOhlc : Mealy (OHLCData K) (Fl K × Bool) (OHLCData K) where
  init := OHLCData.empty
  step := flaxOhlcStep

end Verif.Model
