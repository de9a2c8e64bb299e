import Verif.Model.Broadcast

/-! # Specification: lines of an array of any rank -/

namespace Verif.Spec
open Verif.Model Verif.Model.Broadcast

/-- `i` is an index of an array of shape `s`. -/
def Valid (s i : List Nat) : Prop := List.Forall₂ (fun j d => j < d) i s

/-- `k` names the axis at position `p` of an array of rank `n`; negative numbers count from the end. -/
def IsAxis (n : Nat) (k : Int) (p : Nat) : Prop := p < n ∧ (k = p ∨ k = (p : Int) - n)

/-- The line along axis `p` through position `i` (an index of the other axes), as (mask, value) pairs. -/
def lineAlong {K : Type} (p : Nat) (mask : Nd Bool) (x : Nd (Fl K)) (i : List Nat) : Line K :=
  (List.range (x.shape.getD p 0)).map fun j => (mask.at_ (i.insertIdx p j), x.at_ (i.insertIdx p j))

/-- Every entry of the array, as (mask, value) pairs in row-major order. -/
def wholeLine {K : Type} (mask : Nd Bool) (x : Nd (Fl K)) : Line K :=
  (allIx x.shape).map fun j => (mask.at_ j, x.at_ j)

/-- The call succeeds with an array of shape `s` whose entry at each index `i` is `f i`. -/
def Returns {ε α : Type} (r : Except ε (Nd α)) (s : List Nat) (f : List Nat → α) : Prop :=
  ∃ y, r = .ok y ∧ y.shape = s ∧ ∀ i, Valid s i → y.at_ i = f i

end Verif.Spec
