import Verif.Model.Examples
import Verif.Model.Transforms

/-! # Model: the demonstration processors of src/wax/flax/examples, tree_lag

See `Model/Examples` for the conventions: the machine's first input is the one given to `init`. -/

namespace Verif.Model.Demos
open Verif.Model Verif.Model.Examples Verif.Model.Transforms
variable {K : Type} [Field K] [LinearOrder K]

/-! ## streaming_signal_processor -/

/-- The dictionary returned at src/wax/flax/examples/streaming_demo.py:56-64. -/
structure Signals (K : Type) where
  price : Fl K
  recent : List (Fl K)
  fast : Fl K
  slow : Fl K
  volatility : Fl K
  signal : Fl K
  momentum : Fl K
deriving DecidableEq, Repr

/-- src/wax/flax/examples/streaming_demo.py:28-64 `streaming_signal_processor`. -/
def signalProcessor (tanh : K → K) (big : K) :
    Mealy (CircState (Fl K) × EWMAState K × EWMAState K × EWMAState K) (Fl K) (Signals K) where
  init := ((circBuffer 10 (Fl.fin 0)).init, (flaxEwma (cfg big (3 / 10))).init, (flaxEwma (cfg big (1 / 10))).init,
    (flaxEwma (cfg big (2 / 10))).init)
  step st price :=
    let b := (circBuffer 10 (Fl.fin 0)).step st.1 price
    let f := (flaxEwma (cfg big (3 / 10))).step st.2.1 price
    let s := (flaxEwma (cfg big (1 / 10))).step st.2.2.1 price
    let deviation := flAbs (price - s.1.value)
    let v := (flaxEwma (cfg big (2 / 10))).step st.2.2.2 deviation
    let momentum := f.1.value - s.1.value
    let normalized := momentum / (v.1.value + Fl.fin (1 / 10 ^ 6))
    (⟨price, b.1.1, f.1.value, s.1.value, v.1.value, flTanh tanh normalized, momentum⟩, (b.2, f.2, s.2, v.2))

/-! ## streaming_processor, simple_processor, always_updating_baseline -/

/-- The dictionary returned at src/wax/flax/examples/jax_scan_compatibility.py:36-41 (src/wax/flax/examples/scan_validation.py:32 has no `std`). -/
structure Smooth (K : Type) where
  price : Fl K
  smoothed : Fl K
  mean : Fl K
  std : Fl K
deriving DecidableEq, Repr

/-- src/wax/flax/examples/jax_scan_compatibility.py:28-41 `streaming_processor` (`n = 5`, `alpha = 0.2`) and src/wax/flax/examples/scan_validation.py:24-32
`simple_processor` (`n = 3`, `alpha = 0.5`, without `std`): a buffer filled with zeros and an EWMA. -/
def smoother (root : K → K) (big : K) (n : Nat) (alpha : K) : Mealy (CircState (Fl K) × EWMAState K) (Fl K) (Smooth K) where
  init := ((circBuffer n (Fl.fin 0)).init, (flaxEwma (cfg big alpha)).init)
  step st price :=
    let b := (circBuffer n (Fl.fin 0)).step st.1 price
    let e := (flaxEwma (cfg big alpha)).step st.2 price
    (⟨price, e.1.value, flMean b.1.1, flStd root b.1.1⟩, (b.2, e.2))

/-- The dictionary returned at src/wax/flax/examples/conditional_computation_demo.py:102-108 without its constant `always_updated`. -/
structure Baseline (K : Type) where
  price : Fl K
  smoothed : Fl K
  signal : Fl K
  volatility : Fl K
deriving DecidableEq, Repr

/-- src/wax/flax/examples/conditional_computation_demo.py:90-108 `always_updating_baseline` (the same computation as
`high_price_signal`, 29-54): the buffer of 5 prices starts filled with 100. -/
def baseline (root tanh : K → K) (big : K) : Mealy (EWMAState K × CircState (Fl K)) (Fl K) (Baseline K) where
  init := ((flaxEwma (cfg big (2 / 10))).init, (circBuffer 5 (Fl.fin 100)).init)
  step st price :=
    let e := (flaxEwma (cfg big (2 / 10))).step st.1 price
    let b := (circBuffer 5 (Fl.fin 100)).step st.2 price
    let volatility := flStd root b.1.1
    let strength := (price - e.1.value) / (volatility + Fl.fin (1 / 10 ^ 6))
    (⟨price, e.1.value, flTanh tanh strength, volatility⟩, (e.2, b.2))

/-! ## The predictors given to `streaming_optimizer` -/

/-- src/wax/flax/examples/transform_compositions.py:224-238, the body of `adaptive_price_predictor(features, target)`: `args = (features,
[target])`; no auxiliary output. -/
def priceModel (big : K) : Mealy (EWMAState K) (Fl K × List (Fl K)) (Fl K × Unit) where
  init := (flaxEwma (cfg big (1 / 10))).init
  step st args :=
    let e := (flaxEwma (cfg big (1 / 10))).step st args.1
    ((e.1.value * Fl.fin (11 / 10), ()), e.2)

/-- src/wax/flax/examples/transform_compositions.py:242-267, the body of `ensemble_predictor(price, volume, target)`; the auxiliary output is
(price_component, volume_component, price_signal, volume_signal).  (A call without volume raises; it is modelled with NaN.) -/
def ensembleModel (big : K) : Mealy (EWMAState K × EWMAState K) (Fl K × List (Fl K)) (Fl K × (Fl K × Fl K × Fl K × Fl K)) where
  init := ((flaxEwma (cfg big (2 / 10))).init, (flaxEwma (cfg big (15 / 100))).init)
  step st args :=
    let p := (flaxEwma (cfg big (2 / 10))).step st.1 args.1
    let v := (flaxEwma (cfg big (15 / 100))).step st.2 (args.2.head?.getD Fl.nan)
    let pp := p.1.value * Fl.fin (105 / 100)
    let vp := v.1.value * Fl.fin (1 / 1000)
    (((pp + vp) / Fl.fin 2, (pp, vp, p.1.value, v.1.value)), (p.2, v.2))

/-! ## tree_lag -/

/-- A pytree: `None`, an array, or a container with children in flattening order.
Used for src/wax/modules/lag.py:39-46. -/
inductive PyTree (V : Type) where
  | none
  | leaf (v : V)
  | node (children : List (PyTree V))

/-- src/wax/modules/lag.py:39-46 and src/wax/flax/modules/lag.py:79-92 `tree_lag`: `tree_map` visits the leaves in order (`None` is an empty
container), and each call of `Lag(shift)(x)` creates the next module (`lag`, `lag_1`, … / `Lag_0`, `Lag_1`, …): its state is the next
one of the list, or a fresh one (states missing in an `apply` are created).  Returns the new tree, the states written and those left. -/
def treeLag {S V O : Type} (lag : Mealy S V O) : PyTree V → List S → PyTree O × List S × List S
  | .none, ss => (.none, [], ss)
  | .leaf v, ss =>
    let r := lag.step (ss.head?.getD lag.init) v
    (.leaf r.1, [r.2], ss.tail)
  | .node children, ss =>
    let r := go children ss
    (.node r.1, r.2.1, r.2.2)
where
  go : List (PyTree V) → List S → List (PyTree O) × List S × List S
    | [], ss => ([], [], ss)
    | t :: ts, ss =>
      let r := treeLag lag t ss
      let rs := go ts r.2.2
      (r.1 :: rs.1, r.2.1 ++ rs.2.1, rs.2.2)

/-- `tree_lag(shift)` inside a transformed function: the arguments `*pytree` are one tuple; states that were not used are kept.
See src/wax/modules/lag.py:39-46. -/
def treeLagMachine {S V O : Type} (lag : Mealy S V O) : Mealy (List S) (List (PyTree V)) (PyTree O) where
  init := []
  step ss args :=
    let r := treeLag lag (.node args) ss
    (r.1, r.2.1 ++ r.2.2)

end Verif.Model.Demos
