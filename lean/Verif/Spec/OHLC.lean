import Verif.Model.OHLC
import Verif.Spec.Windows

/-! # Specification of a bar -/

namespace Verif.Spec
open Model
variable {K : Type} [Field K] [LinearOrder K]

/-- `o` is the bar of the (non-NaN) prices `vs`, oldest first: first, maximum, minimum, last; all NaN if
there is no price. -/
def IsBar (vs : List (Fl K)) (o : OHLCData K) : Prop :=
  (vs = [] → o = ⟨.nan, .nan, .nan, .nan⟩) ∧
  (vs ≠ [] →
    vs.head? = some o.open_ ∧ vs.getLast? = some o.close ∧
    o.high ∈ vs ∧ (∀ v ∈ vs, Fl.lt o.high v = false) ∧
    o.low ∈ vs ∧ (∀ v ∈ vs, Fl.lt v o.low = false))

/-- `seg` is the current bar's segment of the history `pre ++ seg`: it starts at the last reset (or at the
beginning of time) and contains no later reset. -/
def IsCurrentSegment (pre seg : List (Fl K × Bool)) : Prop :=
  seg ≠ [] ∧ (pre = [] ∨ ∃ x rest, seg = (x, true) :: rest) ∧ ∀ e ∈ seg.tail, e.2 = false

end Verif.Spec
