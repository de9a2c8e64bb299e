import Verif.Model.AutodiffEvents

/-! # Model: gradients through modules called one after the other -/

namespace Verif.Model.Autodiff
variable {S₁ S₂ I J O CS₁ CS₂ CI CJ CO : Type}

/-- An unrolled function that calls two modules in a row, `lambda x: Second()(First()(x))`: src/wax/unroll.py:71-93. -/
def chain (m₁ : Mealy S₁ I J) (m₂ : Mealy S₂ J O) : Mealy (S₁ × S₂) I O where
  init := (m₁.init, m₂.init)
  step s x :=
    let y := m₁.step s.1 x
    let z := m₂.step s.2 y.1
    (z.1, (y.2, z.2))

/-- Reverse mode through one call of such a function: the pullback of the second module, then that of the first one.  Used for src/wax/unroll.py:71-93. -/
def Pulled.chain (d₁ : Pulled S₁ I J CS₁ CI CJ) (d₂ : Pulled S₂ J O CS₂ CJ CO) : Pulled (S₁ × S₂) I O (CS₁ × CS₂) CI CO where
  m := Autodiff.chain d₁.m d₂.m
  pull s x g c :=
    let p₂ := d₂.pull s.2 (d₁.m.step s.1 x).1 g c.2
    let p₁ := d₁.pull s.1 x p₂.2 c.1
    ((p₁.1, p₂.1), p₁.2)
  zeroS := (d₁.zeroS, d₂.zeroS)
  addS a b := (d₁.addS a.1 b.1, d₂.addS a.2 b.2)
  zeroI := d₁.zeroI
  zeroO := d₂.zeroO
  addO := d₂.addO

section
variable {K : Type} [Field K] [LinearOrder K]

/-- A module that returns several values, seen through one of them. Used for src/wax/modules/ewma.py:203-207. -/
def Pulled.project (d : Pulled S₁ I J CS₁ CI CJ) (f : J → O) : Pulled S₁ I O CS₁ CI CJ where
  m := ⟨d.m.init, fun s x => (f (d.m.step s x).1, (d.m.step s x).2)⟩
  pull := d.pull
  zeroS := d.zeroS
  addS := d.addS
  zeroI := d.zeroI
  zeroO := d.zeroO
  addO := d.addO

/-- `jax.grad` through the unrolled `lambda x: RollingMean(horizon, min_periods)(EWMA(...)(x))` (src/wax/modules/ewma.py:105-207,
src/wax/modules/rolling_mean.py:37-42), from fresh states: with respect to `logcom` and to the inputs. -/
def meanOfEwmaGrad (F : Fns K) (c : EWMACfg K) (logcom : K) (horizon minPeriods : Nat) (xs gs : List (Fl K)) : Fl K × List (Fl K) :=
  let d := ((ewmaPulled F 13 ewmaStep c logcom).project (·.value)).chain (rollingMeanPulled horizon minPeriods)
  let r := d.gradFrom d.m.init xs gs
  (r.1.1.2.2, r.2)

/-- `jax.grad` through the unrolled `lambda x: EWMA(...)(RollingMean(horizon, min_periods)(x))` (src/wax/modules/rolling_mean.py:37-42,
src/wax/modules/ewma.py:105-207), from fresh states: with respect to `logcom` and to the inputs. -/
def ewmaOfMeanGrad (F : Fns K) (c : EWMACfg K) (logcom : K) (horizon minPeriods : Nat) (xs gs : List (Fl K)) : Fl K × List (Fl K) :=
  let d := (rollingMeanPulled horizon minPeriods).chain ((ewmaPulled F 13 ewmaStep c logcom).project (·.value))
  let r := d.gradFrom d.m.init xs gs
  (r.1.2.2.2, r.2)

end

end Verif.Model.Autodiff
