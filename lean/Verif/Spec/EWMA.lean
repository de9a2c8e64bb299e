import Verif.Base.Fl

/-! # Specification: exponentially weighted means of a history with missing values

A history is a `List (Option K)`, oldest first; `none` is a missing observation. -/

namespace Verif.Spec
variable {K : Type}

/-- The observations of a history. -/
def observed (h : List (Option K)) : List K := h.filterMap id

section
variable [Field K]

/-- `Σ_i w(age of i)·f(x_i)` over the observed positions; the most recent position has age 0. -/
def weightedSum (w : Nat → K) (f : K → K) (h : List (Option K)) : K :=
  ((List.range h.length).map fun (i : Nat) =>
    match h[i]? with
    | some (some x) => w (h.length - 1 - i) * f x
    | _ => 0).sum

/-- Weighted mean with weight `r^age`, `none` if nothing was observed. -/
def expMean (r : K) (h : List (Option K)) : Option K :=
  if observed h = [] then none
  else some (weightedSum (r ^ ·) id h / weightedSum (r ^ ·) (fun _ => 1) h)

end

/-- What a float stands for as an observation: NaN is missing, infinities count as the largest finite
float `big` (`nan_to_num`). -/
def reading [Neg K] (big : K) : Fl K → Option K
  | .nan => none
  | .fin k => some k
  | .pinf => some big
  | .ninf => some (-big)

/-- The history as EWMA reads it; an initial value acts as one observation before the first step. -/
def readings [Neg K] (big : K) (initial : Fl K) (xs : List (Fl K)) : List (Option K) :=
  (match reading big initial with
    | none => []
    | some v => [some v]) ++ xs.map (reading big)

/-- A number or NaN. -/
def toFl : Option K → Fl K
  | none => .nan
  | some k => .fin k

end Verif.Spec

namespace Verif.Spec
variable {K : Type} [Field K]

/-- The recursive mean with gain `a n` at the `n`-th observation: starts at the first value, then
`m := (1 - a n) * m + a n * f x`. -/
def recMean {β : Type} (a : Nat → K) (f : β → K) (l : List β) : K :=
  (l.foldl (fun (p : K × Nat) x =>
    (if p.2 = 0 then f x else (1 - a (p.2 + 1)) * p.1 + a (p.2 + 1) * f x, p.2 + 1)) (0, 0)).1

/-- Weighted variance around the weighted mean, weights `r^age`. -/
def expVar (r : K) (l : List K) : K :=
  let h := l.map some
  let W := weightedSum (r ^ ·) (fun _ => 1) h
  let m := weightedSum (r ^ ·) id h / W
  weightedSum (r ^ ·) (fun x => (x - m) * (x - m)) h / W

end Verif.Spec
