import Verif.Spec.Windows
import Verif.Spec.EWMA

/-! # Specification: statistics of recent values -/

namespace Verif.Spec

/-- The last `n` values of a history (all of them while there are fewer). -/
def recent {α : Type} (n : Nat) (hist : List α) : List α := hist.drop (hist.length - n)

/-- Population variance: mean of the squared deviations from the mean. -/
def pvar {K : Type} [Field K] (l : List K) : K := mean (l.map fun x => (x - mean l) * (x - mean l))

/-- `s` is the standard deviation of `l`. -/
def IsStd {K : Type} [Field K] [LinearOrder K] (s : K) (l : List K) : Prop := 0 ≤ s ∧ s * s = pvar l

/-- `v` is the exponentially weighted mean, with smoothing `alpha`, of the numbers `l` (oldest first, not empty): the value of
age `k` has weight `(1 - alpha)^k`. -/
def IsEma {K : Type} [Field K] (alpha v : K) (l : List K) : Prop := expMean (1 - alpha) (l.map some) = some v

end Verif.Spec
