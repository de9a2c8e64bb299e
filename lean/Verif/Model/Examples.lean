import Verif.Model.Events
import Verif.Model.EWMA

/-! # Model: the streaming functions shipped in src/wax/flax/examples

Each decorated function is one streaming machine: `streaming_transform_with_state` (src/wax/flax/core/streaming_transforms.py:351-410, 441-465) runs it
inside one compact Flax module, so the modules it creates keep their state between calls.  The machine's first input is the one
given to `init`, the following ones those given to `apply`.  Decimal constants are exact. -/

namespace Verif.Model.Examples
open Verif.Model Verif.Model.Events
variable {K : Type} [Field K] [LinearOrder K]

/-- `EWMA(alpha=alpha)` of the Flax port with its default arguments: src/wax/flax/modules/ewma.py:28-54. -/
def cfg (big alpha : K) : EWMACfg K := ⟨1 / alpha - 1, .yes, false, 0, .nan, big⟩

/-- `jnp.mean` of a one-dimensional array. Used for src/wax/flax/examples/transform_compositions.py:127-148. -/
def flMean (l : List (Fl K)) : Fl K := l.sum / Fl.fin (l.length : K)

/-- `jnp.std` of a one-dimensional array: square root of the mean of the squared deviations from the mean.
Used for src/wax/flax/examples/transform_compositions.py:40-78. -/
def flStd (root : K → K) (l : List (Fl K)) : Fl K :=
  let mean := flMean l
  Fl.sqrt root (flMean (l.map fun x => (x - mean) * (x - mean)))

/-- `jnp.abs`. Used for src/wax/flax/examples/transform_compositions.py:127-148. -/
def flAbs : Fl K → Fl K
  | .nan => .nan
  | .fin a => .fin |a|
  | _ => .pinf

/-- `jnp.sign`. Used for src/wax/flax/examples/transform_compositions.py:196-210. -/
def flSign : Fl K → Fl K
  | .nan => .nan
  | .fin a => .fin (if a < 0 then -1 else if 0 < a then 1 else 0)
  | .pinf => .fin 1
  | .ninf => .fin (-1)

/-- `jnp.tanh` given its values on numbers. Used for src/wax/flax/examples/transform_compositions.py:276-353. -/
def flTanh (tanh : K → K) : Fl K → Fl K
  | .nan => .nan
  | .fin a => .fin (tanh a)
  | .pinf => .fin 1
  | .ninf => .fin (-1)

/-- `jnp.clip(x, lo, hi)`: `minimum(maximum(x, lo), hi)`.
Used for src/wax/flax/examples/transform_compositions.py:276-353. -/
def flClip (x lo hi : Fl K) : Fl K := Fl.minimum (Fl.maximum x lo) hi

/-! ## bollinger_bands -/

/-- The dictionary returned at src/wax/flax/examples/transform_compositions.py:71-78. -/
structure Bollinger (K : Type) where
  price : Fl K
  upper : Fl K
  lower : Fl K
  center : Fl K
  position : Fl K
  width : Fl K
deriving DecidableEq, Repr

/-- src/wax/flax/examples/transform_compositions.py:40-78 `bollinger_bands` (`len(valid_prices)` is concrete outside of `jit`). -/
def bollinger (root : K → K) (big : K) (window : Nat) (numStd : K) :
    Mealy (CircState (Fl K) × EWMAState K) (Fl K) (Bollinger K) where
  init := ((circBuffer window Fl.nan).init, (flaxEwma (cfg big (2 / ((window : K) + 1)))).init)
  step st price :=
    let b := (circBuffer window Fl.nan).step st.1 price
    let e := (flaxEwma (cfg big (2 / ((window : K) + 1)))).step st.2 price
    let center := e.1.value
    let valid := b.1.1.filter fun x => !x.isNan
    let std := if 1 < valid.length then flStd root valid else Fl.fin 0
    let upper := center + Fl.fin numStd * std
    let lower := center - Fl.fin numStd * std
    let width := upper - lower
    let position := if Fl.lt (Fl.fin (1 / 10 ^ 8)) width then (price - lower) / width else Fl.fin (1 / 2)
    (⟨price, upper, lower, center, position, width⟩, (b.2, e.2))

/-! ## macd_indicator -/

/-- The dictionary returned at src/wax/flax/examples/transform_compositions.py:102-109. -/
structure Macd (K : Type) where
  price : Fl K
  macd : Fl K
  signal : Fl K
  histogram : Fl K
  fast : Fl K
  slow : Fl K
deriving DecidableEq, Repr

/-- src/wax/flax/examples/transform_compositions.py:82-109 `macd_indicator`. -/
def macdIndicator (big : K) (fastPeriod slowPeriod signalPeriod : Nat) :
    Mealy (EWMAState K × EWMAState K × EWMAState K) (Fl K) (Macd K) where
  init := ((flaxEwma (cfg big (2 / ((fastPeriod : K) + 1)))).init, (flaxEwma (cfg big (2 / ((slowPeriod : K) + 1)))).init,
    (flaxEwma (cfg big (2 / ((signalPeriod : K) + 1)))).init)
  step st price :=
    let f := (flaxEwma (cfg big (2 / ((fastPeriod : K) + 1)))).step st.1 price
    let s := (flaxEwma (cfg big (2 / ((slowPeriod : K) + 1)))).step st.2.1 price
    let macd := f.1.value - s.1.value
    let g := (flaxEwma (cfg big (2 / ((signalPeriod : K) + 1)))).step st.2.2 macd
    (⟨price, macd, g.1.value, macd - g.1.value, f.1.value, s.1.value⟩, (f.2, s.2, g.2))

/-! ## volume_breakout_detector -/

/-- The dictionary returned at src/wax/flax/examples/transform_compositions.py:141-148. -/
structure Breakout (K : Type) where
  price : Fl K
  volume : Fl K
  momentum : Fl K
  volatility : Fl K
  strength : Fl K
  isBreakout : Bool
deriving DecidableEq, Repr

/-- `jnp.diff(x, prepend=x[0])`: the first difference is `x[0] - x[0]`.
Used for src/wax/flax/examples/transform_compositions.py:127-148. -/
def diffPrepend (l : List (Fl K)) : List (Fl K) :=
  List.zipWith (fun a b => a - b) l ((l.head?.getD .nan) :: l)

/-- src/wax/flax/examples/transform_compositions.py:127-148: the body of `volume_breakout_detector`.  The buffer variable is created
by the first call, filled with its price (`fill_value=price`); later fill values are ignored. -/
def breakoutBody (root : K → K) : Mealy (Option (CircState (Fl K))) (Fl K × Fl K) (Breakout K) where
  init := none
  step st x :=
    let b := (circBuffer 20 x.1).step (st.getD (circBuffer 20 x.1).init) x.1
    let volatility := flStd root (diffPrepend b.1.1)
    let momentum := x.1 - flMean b.1.1
    let strength := flAbs momentum / (volatility + Fl.fin (1 / 10 ^ 8))
    (⟨x.1, x.2, momentum, volatility, strength, Fl.lt (Fl.fin 2) strength⟩, some b.2)

/-- src/wax/flax/core/streaming_transforms.py:506-509: `jnp.full(shape, nan, dtype)`; a boolean array filled with NaN holds `True`. -/
def breakoutFill (_ : Breakout K) : Breakout K := ⟨.nan, .nan, .nan, .nan, .nan, true⟩

/-- src/wax/flax/examples/transform_compositions.py:117-148 `volume_breakout_detector`, with `update_on_event`
(src/wax/flax/core/streaming_transforms.py:531-572). -/
def volumeBreakout (root : K → K) : Mealy (Option (CircState (Fl K)) × Option (Breakout K)) (Fl K × Fl K) (Breakout K) :=
  conditionalComputation (breakoutBody root) breakoutFill (some fun x => Fl.lt (Fl.fin 1000) x.2)

/-! ## regime_aware_processor -/

/-- The dictionary returned at src/wax/flax/examples/transform_compositions.py:174. -/
structure Regime (K : Type) where
  price : Fl K
  signal : Fl K
  volatility : Fl K
  highVol : Bool
deriving DecidableEq, Repr

/-- src/wax/flax/examples/transform_compositions.py:152-174 `regime_aware_processor`.  Both branches create the module named `EWMA_0`:
its parameter `logcom` (here `com`) and its state are those created by the first call, whatever the branch.  A call with NaN or
infinite price is allowed. -/
def regimeAware (root : K → K) (big threshold : K) :
    Mealy (Option (K × CircState (Fl K) × EWMAState K)) (Fl K) (Regime K) where
  init := none
  step st price :=
    let buf := (st.map (·.2.1)).getD (circBuffer 50 price).init
    let b := (circBuffer 50 price).step buf price
    let vol := flStd root b.1.1
    let high := Fl.lt (Fl.fin threshold) vol
    let alpha : K := if high then 3 / 10 else 1 / 20
    let com := (st.map (·.1)).getD (1 / alpha - 1)
    let ew := (st.map (·.2.2)).getD (flaxEwma (cfg big alpha)).init
    let e := flaxEwmaStep { cfg big alpha with com := com } ew price
    (⟨price, e.1.value, vol, high⟩, some (com, b.2, e.2))

/-! ## adaptive_position_sizing, cumulative_returns_with_reset -/

/-- src/wax/flax/examples/transform_compositions.py:196-210 `adaptive_position_sizing`: the position. -/
def positionSize (risk : K) (signal : Fl K) : Fl K :=
  let strength := flAbs signal
  let base := flSign signal * Fl.minimum strength (Fl.fin 1)
  base * Fl.fin risk

/-- `jnp.log` given its values on positive numbers. Used for src/wax/flax/examples/transform_compositions.py:183-192. -/
def flLog (log : K → K) : Fl K → Fl K
  | .fin a => if 0 < a then .fin (log a) else if a = 0 then .ninf else .nan
  | .pinf => .pinf
  | _ => .nan

/-- src/wax/flax/examples/transform_compositions.py:183-192 `cumulative_returns_with_reset`: a function of the current price. -/
def cumulativeReturns (log : K → K) : Mealy Unit (Fl K) (Fl K) where
  init := ()
  step _ price := (flLog log (price + Fl.fin (1 / 10 ^ 8)), ())

/-! ## complete_trading_system -/

/-- The dictionary returned at src/wax/flax/examples/transform_compositions.py:340-353. -/
structure Trading (K : Type) where
  price : Fl K
  volume : Fl K
  center : Fl K
  bandPosition : Fl K
  bandWidth : Fl K
  macd : Fl K
  technical : Fl K
  momentum : Fl K
  macdSignal : Fl K
  raw : Fl K
  riskAdjusted : Fl K
  finalPosition : Fl K
  volatility : Fl K
  highVolume : Bool
deriving DecidableEq, Repr

/-- The state of the six modules created at src/wax/flax/examples/transform_compositions.py:287-320. -/
structure TradingState (K : Type) where
  buf : CircState (Fl K)
  center : EWMAState K
  fast : EWMAState K
  slow : EWMAState K
  resp : EWMAState K
  smooth : EWMAState K

/-- src/wax/flax/examples/transform_compositions.py:276-353 `complete_trading_system`. -/
def tradingSystem (root tanh : K → K) (big : K) : Mealy (TradingState K) (Fl K × Fl K) (Trading K) where
  init := ⟨(circBuffer 20 Fl.nan).init, (flaxEwma (cfg big (2 / 21))).init, (flaxEwma (cfg big (2 / 13))).init,
    (flaxEwma (cfg big (2 / 27))).init, (flaxEwma (cfg big (3 / 10))).init, (flaxEwma (cfg big (1 / 10))).init⟩
  step st x :=
    let price := x.1
    let volume := x.2
    let b := (circBuffer 20 Fl.nan).step st.buf price
    let c := (flaxEwma (cfg big (2 / 21))).step st.center price
    let center := c.1.value
    let nanstd := flStd root (b.1.1.filter fun v => !v.isNan)
    let width := if nanstd.isNan then Fl.fin (1 / 100) else nanstd
    let f := (flaxEwma (cfg big (2 / 13))).step st.fast price
    let s := (flaxEwma (cfg big (2 / 27))).step st.slow price
    let macd := f.1.value - s.1.value
    let bandPosition := (price - center) / (width + Fl.fin (1 / 10 ^ 8))
    let high := Fl.lt (Fl.fin 1200) volume
    let r := (flaxEwma (cfg big (3 / 10))).step st.resp price
    let m := (flaxEwma (cfg big (1 / 10))).step st.smooth price
    let momentumSignal := if high then r.1.value else m.1.value
    let technical := flTanh tanh (bandPosition - Fl.fin (1 / 2))
    let momentum := flTanh tanh (momentumSignal / price - Fl.fin 1)
    let macdSignal := flTanh tanh (macd * Fl.fin 10)
    let raw := (technical + momentum + macdSignal) / Fl.fin 3
    let volatility := width / center
    let riskAdjusted := raw / (Fl.fin 1 + volatility)
    let maxPosition : Fl K := Fl.fin (1 / 10)
    let final := flClip (riskAdjusted * maxPosition) (-maxPosition) maxPosition
    (⟨price, volume, center, bandPosition, width, macd, technical, momentum, macdSignal, raw, riskAdjusted, final, volatility, high⟩,
      ⟨b.2, c.2, f.2, s.2, r.2, m.2⟩)

/-! ## portfolio_manager and the scan demos -/

section
variable {S I O V : Type}

/-- src/wax/flax/examples/streaming_demo.py:68-80 `portfolio_manager`: the modules of the `k`-th asset of the dictionary get the `k`-th
set of automatic names (`Buffer_k`, `EWMA_3k`, …), so their state is the `k`-th one whatever the asset's name.  `m` is the per-asset
processor.  A call with more assets than at `init` raises (missing parameters); with fewer, the other states are kept. -/
def portfolioStep (m : Mealy S I O) (st : Option (List S)) (prices : List (String × I)) :
    Except Unit (List (String × O) × List S) :=
  let ss := st.getD (prices.map fun _ => m.init)
  if prices.length ≤ ss.length then
    let rs := List.zipWith (fun (p : String × I) s => (p.1, m.step s p.2)) prices ss
    .ok (rs.map fun r => (r.1, r.2.1), rs.map (fun r => r.2.2) ++ ss.drop prices.length)
  else .error ()

/-- Calls one after the other: the first is `init`'s, then `apply`. See src/wax/flax/examples/streaming_demo.py:68-80. -/
def portfolioRun (m : Mealy S I O) (st : Option (List S)) : List (List (String × I)) → Except Unit (List (List (String × O)))
  | [] => .ok []
  | p :: ps =>
    match portfolioStep m st p with
    | .error e => .error e
    | .ok (o, ss) =>
      match portfolioRun m (some ss) ps with
      | .error e => .error e
      | .ok os => .ok (o :: os)

/-- A leaf of the pytree returned by a function given to `update_on_event`: an array, or a Python scalar, which has no `shape`.
Used for src/wax/flax/core/streaming_transforms.py:503-511. -/
inductive OutLeaf (V : Type) where
  | array (v : V)
  | python
deriving DecidableEq, Repr

/-- src/wax/flax/core/streaming_transforms.py:503-511: creating the cache, `jnp.full(x.shape, initial, dtype=x.dtype)` on every leaf; a Python scalar raises
AttributeError. -/
def cacheInit (fill : V → V) : List (OutLeaf V) → Except Unit (List V)
  | [] => .ok []
  | .array v :: l => match cacheInit fill l with
    | .ok vs => .ok (fill v :: vs)
    | .error e => .error e
  | .python :: _ => .error ()

/-- src/wax/flax/examples/conditional_computation_demo.py:48-54: the leaves of `high_price_signal`'s output; `updated` is the Python
constant `True`.  (`volume_based_signal`, 80-86, has `high_volume_event` likewise.) -/
def highPriceLeaves (price smoothed signal volatility : V) : List (OutLeaf V) :=
  [.array price, .array smoothed, .array signal, .array volatility, .python]

/-- src/wax/flax/examples/jax_scan_compatibility.py:44-53 `process_with_for_loop` (also src/wax/flax/examples/scan_validation.py:48-52,
src/wax/flax/examples/conditional_computation_demo.py:251-257). -/
def forLoop (step : S → I → O × S) : S → List I → List O × S
  | s, [] => ([], s)
  | s, x :: xs => let r := step s x; let rest := forLoop step r.2 xs; (r.1 :: rest.1, rest.2)

/-- src/wax/flax/examples/jax_scan_compatibility.py:56-77 `process_with_jax_scan`. -/
def scanLoop (step : S → I → O × S) (s : S) (xs : List I) : List O × S :=
  let r := Unroll.laxScan (fun c x => let r := step c x; (r.2, r.1)) s xs
  (r.2, r.1)

end
end Verif.Model.Examples
