import Verif.Base.Fl
import Verif.Base.Mealy
import Verif.Props.Windows
import Verif.Props.OHLC
import Verif.Props.Masks
import Verif.Model.EWMA
import Verif.Spec.EWMA
import Verif.Lemmas.EWMA
import Verif.Props.EWMA
import Verif.Props.EWMVar
import Verif.Props.ARMA
import Verif.Spec.Time
import Verif.Props.Encode
import Verif.Props.Stream
import Verif.Props.Unroll
import Verif.Props.Events
import Verif.Props.Patterns
import Verif.Props.Compressed
import Verif.Props.Newton
import Verif.Props.Optim
import Verif.Props.Gym
import Verif.Props.Debug
import Verif.Spec.Pipeline
import Verif.Model.Pipeline
import Verif.Props.Pipeline
import Verif.Model.Format
import Verif.Props.Format
import Verif.Props.Transforms
import Verif.Spec.Stats
import Verif.Model.Examples
import Verif.Props.EWMALinear
import Verif.Props.Examples
import Verif.Model.NumbaFrame
import Verif.Props.NumbaFrame
import Verif.Model.HaikuState
import Verif.Props.HaikuState
import Verif.Model.GymExtra
import Verif.Props.GymExtra
import Verif.Model.Demos
import Verif.Props.Demos
import Verif.Model.Reports
import Verif.Model.Snapshots
import Verif.Props.Reports
import Verif.Props.Snapshots
import Verif.Model.Flow
import Verif.Props.Flow
import Verif.Model.Viz
import Verif.Props.Viz
import Verif.Props.VizNested
import Verif.Model.Broadcast
import Verif.Spec.Broadcast
import Verif.Props.Broadcast
import Verif.Model.Lifecycle
import Verif.Props.Lifecycle
import Verif.Model.Training
import Verif.Props.Training
import Verif.Model.Columns
import Verif.Props.Columns
import Verif.Model.Lifts
import Verif.Props.Lifts
import Verif.Model.Breakpoint
import Verif.Props.Breakpoint
import Verif.Model.Decorators
import Verif.Props.Decorators
import Verif.Model.Dot
import Verif.Spec.Dot
import Verif.Props.Dot
import Verif.Props.DebugMore
import Verif.Model.Panels
import Verif.Props.Panels
import Verif.Props.Sharpen
import Verif.Model.Agents
import Verif.Props.Agents
import Verif.Model.Profiled
import Verif.Props.Profiled
import Verif.Props.Laws
import Verif.Props.SharpenUnroll
import Verif.Model.Markup
import Verif.Props.Markup
import Verif.Props.SharpenViz
import Verif.Model.Clients
import Verif.Props.Clients
import Verif.Model.Threads
import Verif.Props.Threads
import Verif.Spec.Rounding
import Verif.Spec.Ieee
import Verif.Model.Rounded
import Verif.Props.Rounded
import Verif.Props.Ieee
import Verif.Props.RoundedWt
import Verif.Props.RoundedEWMA
import Verif.Props.RoundedNaN
import Verif.Props.RoundedVar
import Verif.Props.RoundedMean
import Verif.Props.RoundedCov
import Verif.Props.SharpenDot
import Verif.Props.RoundedVarNear
import Verif.Model.Autodiff
import Verif.Props.Autodiff
import Verif.Props.AutodiffEWMA
import Verif.Props.AutodiffVar
import Verif.Props.AutodiffLinear
import Verif.Props.AutodiffMasks
import Verif.Props.RoundedNumba
import Verif.Model.RoundedMasks
import Verif.Props.RoundedMasks
import Verif.Props.RoundedPct
import Verif.Model.Counters
import Verif.Props.Counters
import Verif.Model.Scopes
import Verif.Props.Scopes
import Verif.Model.AutodiffMean
import Verif.Props.AutodiffMean
import Verif.Model.AutodiffCov
import Verif.Props.AutodiffCov
import Verif.Props.AutodiffFlax
import Verif.Model.AutodiffPct
import Verif.Props.AutodiffPct
import Verif.Model.AutodiffEvents
import Verif.Props.AutodiffEvents
import Verif.Props.AutodiffEventsEWMA
import Verif.Props.EncodeUnits
import Verif.Model.AutodiffChain
import Verif.Props.AutodiffChain
import Verif.Model.AutodiffBuffer
import Verif.Props.AutodiffBuffer
import Verif.Props.AutodiffPaths
import Verif.Props.AutodiffEventsPaths
import Verif.Props.AutodiffNaN
import Verif.Model.AutodiffFlaxPipes
import Verif.Props.AutodiffFlaxPaths
import Verif.Props.OptimNaN
import Verif.Props.OptimNaNFlax
import Verif.Props.AutodiffCovLate
import Verif.Props.OptimInf
