import Verif.Base.Mealy
import Mathlib.Data.Matrix.Mul
import Mathlib.Data.Matrix.Basic
import Mathlib.Algebra.Field.Basic

/-!
# Online Newton step (src/wax/optim/newton.py)

One parameter leaf, flattened to a vector of `n` entries (src/wax/optim/newton.py:83-85, 92-94: every leaf is flattened, treated
separately and reshaped back, so a tree of parameters is a family of independent copies of this machine).
Simplification: exact arithmetic in a field instead of float32.
-/

namespace Verif.Model.Newton
open Matrix
variable {K : Type} [Field K] {n : Nat}

/-- src/wax/optim/newton.py:56-59 `sherman_morrison`. -/
def shermanMorrison (Ainv : Matrix (Fin n) (Fin n) K) (u v : Fin n → K) : Matrix (Fin n) (Fin n) K :=
  let den := 1 + (u ᵥ* Ainv) ⬝ᵥ v
  Ainv - den⁻¹ • (Ainv * vecMulVec u v * Ainv)

/-- src/wax/optim/newton.py:75-79 `init_fn`: `eye / eps`. -/
def hinv0 (eps : K) : Matrix (Fin n) (Fin n) K := eps⁻¹ • (1 : Matrix (Fin n) (Fin n) K)

/-- src/wax/optim/newton.py:62-101 `scale_by_newton` on one leaf: the inverse is updated first, then applied to the gradient. -/
def scaleByNewton (eps : K) : Mealy (Matrix (Fin n) (Fin n) K) (Fin n → K) (Fin n → K) where
  init := hinv0 eps
  step H g :=
    let H' := shermanMorrison H g g
    (H' *ᵥ g, H')

/-- src/wax/optim/newton.py:24-47 `newton`: `optax.chain(scale_by_newton(eps), scale_by_learning_rate(lr))`, for a constant learning
rate (`scale_by_learning_rate` multiplies by `-lr`). -/
def newton (lr eps : K) : Mealy (Matrix (Fin n) (Fin n) K) (Fin n → K) (Fin n → K) where
  init := hinv0 eps
  step H g :=
    let (u, H') := (scaleByNewton eps).step H g
    ((-lr) • u, H')

end Verif.Model.Newton
