import Verif.Base.Fl

/-!
# Specification vocabulary: windows over a history

A history is the list of inputs so far, oldest first.
-/

namespace Verif.Spec

/-- The last `n` elements of the history, oldest first, padded on the left with `fill` up to
length `n`. -/
def window {α : Type} (n : Nat) (fill : α) (hist : List α) : List α :=
  List.replicate (n - hist.length) fill ++ hist.drop (hist.length - n)

/-- The input given `k` calls ago (`k = 0` is the current one), `fill` when there was no such call. -/
def ago {α : Type} (k : Nat) (fill : α) (hist : List α) : α :=
  hist.reverse.getD k fill

/-- The values that are not NaN. -/
def valid {K : Type} (l : List (Fl K)) : List (Fl K) := l.filter fun x => !x.isNan

/-- The most recent value that is not NaN, NaN if there is none. -/
def lastValid {K : Type} (hist : List (Fl K)) : Fl K := (valid hist).getLast?.getD Fl.nan

/-- The finite values in a list of floats. -/
def fins {K : Type} (l : List (Fl K)) : List K :=
  l.filterMap fun | .fin k => some k | _ => none

/-- Arithmetic mean of a non-empty list. -/
def mean {K : Type} [Field K] (l : List K) : K := l.sum / (l.length : K)

end Verif.Spec
