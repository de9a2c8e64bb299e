import Verif.Spec.Stream

/-! # Specification vocabulary: as-of joins -/

namespace Verif.Spec
variable {T A : Type} [LinearOrder T]

/-- The rows of a time-indexed table whose time is strictly before `e`, in order. -/
def rowsBefore (ts : List T) (rows : List (List A)) (e : T) : List (List A) :=
  ((ts.zip rows).filter fun p => decide (p.1 < e)).map (·.2)

/-- The last row strictly before `e`, or the missing row. -/
def asOf (miss : List A) (ts : List T) (rows : List (List A)) (e : T) : List A :=
  (rowsBefore ts rows e).getLastD miss

/-- The rows that were available at the previous local step (none at the first). -/
def rowsBeforePrev (embed : T → T) (ts : List T) (rows : List (List A)) (locals : List T) : Nat → List (List A)
  | 0 => []
  | k + 1 => match locals[k]? with
    | none => []
    | some t => rowsBefore ts rows (embed t)

end Verif.Spec
