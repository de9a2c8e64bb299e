import Verif.Spec.Windows
import Verif.Model.Stream

/-! # Specification vocabulary: what has been observed before a time -/

namespace Verif.Spec
open Model.Stream
variable {T V : Type} [LinearOrder T]

/-- The observations of a timestamped dataset strictly before `e`, in order. -/
def seen (data : List (T × V)) (e : T) : List (T × V) := data.filter fun p => decide (p.1 < e)

/-- The observations that were already available at the local step before step `k` (none before the first step). -/
def seenPrev (embed : T → T) (data : List (T × V)) (locals : List (T × V)) : Nat → List (T × V)
  | 0 => []
  | k + 1 => (locals[k]?.map fun p => seen data (embed p.1)).getD []

/-- A dataset entry as an observation. -/
def obsOf (p : T × V) : Obs T V := ⟨some p.1, p.2⟩

/-- The missing observation: no time, the dtype's missing value. -/
def missing (v : V) : Obs T V := ⟨none, v⟩

/-- The times of a dataset are non-decreasing. -/
def TimeSorted (data : List (T × V)) : Prop := (data.map (·.1)).Pairwise (· ≤ ·)

/-- All observations shown by an output. -/
def shown : Out T V → List (Obs T V)
  | .single o => [o]
  | .stacked os => os

end Verif.Spec
