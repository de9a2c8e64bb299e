import Verif.Model.Autodiff

/-! # Model: the gradient of EWMCov

`jnp.outer(a, b)` is the product of `a` broadcast along the columns and `b` broadcast along the rows: its cotangents are
`sum_j ct[i,j] * b[j]` and `sum_i a[i] * ct[i,j]`.  The three EWMA modules are differentiated as in `Model/Autodiff`; each has its own
parameter `logcom`. -/

namespace Verif.Model.Autodiff
variable {K : Type} [Field K] [LinearOrder K]

/-- The three trainable parameters, those of the modules named mean_xy, mean_x and mean_y: src/wax/modules/ewmcov.py:124-148. -/
structure CovParams (K : Type) where
  xy : K
  x : K
  y : K

/-- The gradient with respect to the three parameters and to the data. Used for the unrolled module, src/wax/unroll.py:71-93. -/
structure CovGrad (m n : Nat) (K : Type) where
  xy : Fl K
  x : Fl K
  y : Fl K
  xs : List (Fin m → Fl K)
  ys : List (Fin n → Fl K)

/-- The sum of an array. Used for src/wax/modules/ewmcov.py:131. -/
def sumFin {n : Nat} (f : Fin n → Fl K) : Fl K := (List.ofFn f).sum

/-- The configuration of an inner EWMA when its parameter is `l`: src/wax/modules/ewmcov.py:124-148, src/wax/modules/ewma.py:118-124. -/
def withLogcom (F : Fns K) (c : EWMACfg K) (l : K) : EWMACfg K := { c with com := F.exp l }

/-- The outputs of an inner EWMA on the stream of one element: src/wax/modules/ewmcov.py:124-148. `step` is `ewmaStep` or `flaxEwmaStep`. -/
def innerOutputs (F : Fns K) (step : EWMACfg K → EWMAState K → Fl K → EWMAOut K × EWMAState K) (c : EWMACfg K) (l : K)
    (xs : List (Fl K)) : List (Fl K) :=
  ((⟨⟨c.initial, Fl.fin 1, 0⟩, step (withLogcom F c l)⟩ : Mealy (EWMAState K) (Fl K) (EWMAOut K)).run xs).map (·.value)

/-- The outputs of the unrolled EWMCov for given parameters (src/wax/modules/ewmcov.py:112-152), step by step. -/
def covOutputs {m n : Nat} (F : Fns K) (step : EWMACfg K → EWMAState K → Fl K → EWMAOut K × EWMAState K) (c : EWMACfg K)
    (assumeCentered : Bool) (l : CovParams K) (ps : List ((Fin m → Fl K) × (Fin n → Fl K))) : List (Fin m → Fin n → Fl K) :=
  (List.range ps.length).map fun t i j =>
    let xy := look (innerOutputs F step c l.xy (ps.map fun p => p.1 i * p.2 j)) t
    if assumeCentered then xy
    else xy - look (innerOutputs F step c l.x (ps.map fun p => p.1 i)) t * look (innerOutputs F step c l.y (ps.map fun p => p.2 j)) t

/-- `jax.grad` through the unrolled EWMCov (src/wax/modules/ewmcov.py:112-152, src/wax/flax/modules/ewmcov.py:69-119), from the cotangents `gs` of the
outputs. -/
def ewmcovGrad {m n : Nat} (F : Fns K) (keep : Nat) (step : EWMACfg K → EWMAState K → Fl K → EWMAOut K × EWMAState K) (c : EWMACfg K)
    (assumeCentered : Bool) (l : CovParams K) (ps : List ((Fin m → Fl K) × (Fin n → Fl K))) (gs : List (Fin m → Fin n → Fl K)) :
    CovGrad m n K :=
  let back := fun lc (xs cts : List (Fl K)) => ewmaGrad F keep step (withLogcom F c lc) lc ⟨c.initial, Fl.fin 1, 0⟩ xs cts
  let xy := fun i j => back l.xy (ps.map fun p => p.1 i * p.2 j) (gs.map fun g => g i j)
  let steps := List.range ps.length
  let fromOuterX := fun t i => sumFin fun j => look (xy i j).xs t * (ps.map fun p => p.2 j).getD t .nan
  let fromOuterY := fun t j => sumFin fun i => (ps.map fun p => p.1 i).getD t .nan * look (xy i j).xs t
  let logXY := sumFin fun i => sumFin fun j => (xy i j).logcom
  if assumeCentered then
    ⟨logXY, Fl.fin 0, Fl.fin 0, steps.map fromOuterX, steps.map fromOuterY⟩
  else
    let mx := fun i => innerOutputs F step c l.x (ps.map fun p => p.1 i)
    let my := fun j => innerOutputs F step c l.y (ps.map fun p => p.2 j)
    let x := fun i => back l.x (ps.map fun p => p.1 i) (gs.mapIdx fun t g => sumFin fun j => -(g i j) * look (my j) t)
    let y := fun j => back l.y (ps.map fun p => p.2 j) (gs.mapIdx fun t g => sumFin fun i => look (mx i) t * -(g i j))
    ⟨logXY, sumFin fun i => (x i).logcom, sumFin fun j => (y j).logcom,
      steps.map fun t i => look (x i).xs t + fromOuterX t i, steps.map fun t j => look (y j).xs t + fromOuterY t j⟩

end Verif.Model.Autodiff
