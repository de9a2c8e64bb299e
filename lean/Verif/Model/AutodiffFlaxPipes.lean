import Verif.Model.AutodiffBuffer
import Verif.Model.AutodiffChain

/-! # Model: the Flax modules that read a circular buffer, as modules of `Model/AutodiffEvents` -/

namespace Verif.Model.Autodiff
variable {K : Type} [Field K] [LinearOrder K]

/-- The Flax Lag: src/wax/flax/modules/lag.py:42-62, src/wax/flax/modules/buffer.py:76-99 (the step of `flaxLagGrad`). -/
def flaxLagPulled (k : Nat) (fill : Fl K) : Pulled (CircState (Fl K)) (Fl K) (Option (Fl K)) (List (Fl K)) (Fl K) (Fl K) where
  m := flaxLag k fill
  pull s x g c := circPull (k + 1) s.writeIdx (lagPull (circStep (k + 1) s x).1.1 g) c
  zeroS := List.replicate (k + 1) (Fl.fin 0)
  addS := List.zipWith (· + ·)
  zeroI := Fl.fin 0
  zeroO := Fl.fin 0
  addO := (· + ·)

/-- The Flax Diff: src/wax/flax/modules/diff.py:36-57, src/wax/flax/modules/buffer.py:76-99 (the step of `flaxDiffGrad`). -/
def flaxDiffPulled : Pulled (CircState (Fl K)) (Fl K) (Option (Fl K)) (List (Fl K)) (Fl K) (Fl K) where
  m := flaxDiff
  pull s x g c := circPull 2 s.writeIdx (diffPull (circStep 2 s x).1.1 g) c
  zeroS := List.replicate 2 (Fl.fin 0)
  addS := List.zipWith (· + ·)
  zeroI := Fl.fin 0
  zeroO := Fl.fin 0
  addO := (· + ·)

/-- The Flax RollingMean: src/wax/flax/modules/rolling_mean.py:37-60, src/wax/flax/modules/buffer.py:76-99 (the step of `flaxRollingMeanGradFrom`). -/
def flaxRollingMeanPulled (horizon minPeriods : Nat) : Pulled (CircState (Fl K)) (Fl K) (Fl K) (List (Fl K)) (Fl K) (Fl K) where
  m := flaxRollingMean horizon minPeriods
  pull s x g c := circPull horizon s.writeIdx (meanPull minPeriods (circStep horizon s x).1.1 g) c
  zeroS := List.replicate horizon (Fl.fin 0)
  addS := List.zipWith (· + ·)
  zeroI := Fl.fin 0
  zeroO := Fl.fin 0
  addO := (· + ·)

end Verif.Model.Autodiff
