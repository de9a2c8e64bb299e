import Verif.Model.EWMVar
import Verif.Model.Windows
import Verif.Model.Masks

/-! # Model: gradients

`jax.grad` traces a function into a list of primitive operations, then goes back through the list and adds up cotangents
(reverse-mode automatic differentiation).  The training code of wax-ml (src/wax/modules/online_optimizer.py:124-139,
src/wax/modules/func_optimizer.py:67-72) differentiates its modules this way, and the modules are written with it in mind
(src/wax/modules/ewma.py:137-139 "fillna by zero to avoid nans in gradient computations").

The rule of each primitive is the one of `jax/_src/lax/lax.py` (trusted).  Simplification: a cotangent that JAX knows to be zero
without computing it is the number 0 here. -/

namespace Verif.Model.Autodiff

/-- The functions on numbers that are not field operations (`jnp.exp`, `jnp.sqrt`). Used for src/wax/modules/ewma.py:124 and
src/wax/modules/mask_std.py:63-65. -/
structure Fns (K : Type) where
  exp : K → K
  root : K → K

/-- One operation of a trace; its operands are positions in the list of the values computed so far. `select p i j` is
`jnp.where(p, x_i, x_j)`, `sq` is `x ** 2` and `pow` is `x ** n` for a number `n` that is not
differentiated. Used for src/wax/modules/ewma.py:105-207. -/
inductive Prim (K : Type)
  | const (c : Fl K)
  | add (i j : Nat)
  | sub (i j : Nat)
  | mul (i j : Nat)
  | div (i j : Nat)
  | exp (i : Nat)
  | sqrt (i : Nat)
  | sq (i : Nat)
  | pow (i n : Nat)
  | select (p : Bool) (i j : Nat)
  | max (i j : Nat)
  | min (i j : Nat)

section
variable {K : Type} [Field K] [LinearOrder K]

/-- `jnp.exp`. Used for src/wax/modules/ewma.py:124. -/
def flExp (F : Fns K) : Fl K → Fl K
  | .fin a => .fin (F.exp a)
  | .pinf => .pinf
  | .ninf => .fin 0
  | .nan => .nan

/-- A value computed before. Used for src/wax/modules/ewma.py:105-207. -/
def look (env : List (Fl K)) (i : Nat) : Fl K := env.getD i .nan

/-- The value of an operation. Used for src/wax/modules/ewma.py:105-207. -/
def Prim.eval (F : Fns K) (env : List (Fl K)) : Prim K → Fl K
  | .const c => c
  | .add i j => look env i + look env j
  | .sub i j => look env i - look env j
  | .mul i j => look env i * look env j
  | .div i j => look env i / look env j
  | .exp i => flExp F (look env i)
  | .sqrt i => Fl.sqrt F.root (look env i)
  | .sq i => look env i * look env i
  | .pow i n => flPow (look env i) n
  | .select p i j => if p then look env i else look env j
  | .max i j => Fl.maximum (look env i) (look env j)
  | .min i j => Fl.minimum (look env i) (look env j)

/-- All the values of a trace: the inputs, then the value of each operation. Used for src/wax/modules/ewma.py:105-207. -/
def values (F : Fns K) : List (Prim K) → List (Fl K) → List (Fl K)
  | [], env => env
  | p :: ps, env => values F ps (env ++ [p.eval F env])

/-- `_balanced_eq(x, z, y)` of `jax/_src/lax/lax.py`: 1 where `x` is the extremum `z`, 1/2 when both operands are, else 0.
Used for `jnp.maximum` and `jnp.minimum`, src/wax/modules/ewma.py:158-161. -/
def balancedEq (x z y : Fl K) : Fl K :=
  (if Fl.feq x z then Fl.fin 1 else Fl.fin 0) / (if Fl.feq y z then Fl.fin 2 else Fl.fin 1)

/-- The cotangents an operation with value `v` and cotangent `ct` sends to its operands. Used for src/wax/modules/ewma.py:105-207. -/
def Prim.pull (env : List (Fl K)) (v ct : Fl K) : Prim K → List (Nat × Fl K)
  | .const _ => []
  | .add i j => [(i, ct), (j, ct)]
  | .sub i j => [(i, ct), (j, -ct)]
  | .mul i j => [(i, ct * look env j), (j, look env i * ct)]
  | .div i j => [(i, ct / look env j), (j, -((ct * (Fl.fin 1 / (look env j * look env j))) * look env i))]
  | .exp i => [(i, ct * v)]
  | .sqrt i => [(i, ct * (Fl.fin (1 / 2) / v))]
  | .sq i => [(i, ct * (Fl.fin 2 * look env i))]
  | .pow i n => [(i, ct * (Fl.fin (n : K) * flPow (look env i) (n - 1)))]
  | .select p i j => if p then [(i, ct), (j, Fl.fin 0)] else [(i, Fl.fin 0), (j, ct)]
  | .max i j => [(i, ct * balancedEq (look env i) v (look env j)), (j, ct * balancedEq (look env j) v (look env i))]
  | .min i j => [(i, ct * balancedEq (look env i) v (look env j)), (j, ct * balancedEq (look env j) v (look env i))]

/-- Adding cotangents to the positions they are for. Used for src/wax/modules/ewma.py:105-207. -/
def accumulate (cts : List (Fl K)) (l : List (Nat × Fl K)) : List (Fl K) :=
  l.foldl (fun cts e => cts.modify e.1 (· + e.2)) cts

/-- The backward pass: from the cotangents of all the values of the trace that come from outside the trace, the cotangents of its
inputs. Used for `jax.value_and_grad`, src/wax/modules/online_optimizer.py:124-139. -/
def backward (F : Fns K) : List (Prim K) → List (Fl K) → List (Fl K) → List (Fl K)
  | [], _, cts => cts
  | p :: ps, env, cts =>
    let cts := backward F ps (env ++ [p.eval F env]) cts
    let ct := look cts env.length
    accumulate (cts.take env.length) (p.pull env (p.eval F env) ct)

/-! ## The gradient of EWMA -/

/-- The beginning of the trace of src/wax/modules/ewma.py:118-146, from the inputs 0 `logcom`, 1 `mean`, 2 `old_wt`, 3 `x`:
4 is `com`, 10 is `nan_to_num(x)`, 13 is `nan_to_num(mean)`, 14 is 1, 16 is `alpha`. -/
def ewmaFront (big : K) (m x : Fl K) : List (Prim K) :=
  [.exp 0, .const (Fl.fin 0),
   .select x.isNan 5 3, .const (Fl.fin big), .select (Fl.feq x .pinf) 7 6, .const (Fl.fin (-big)), .select (Fl.feq x .ninf) 9 8,
   .select m.isNan 5 1, .select (Fl.feq m .pinf) 7 11, .select (Fl.feq m .ninf) 9 12,
   .const (Fl.fin 1), .add 14 4, .div 14 15]

/-- src/wax/modules/ewma.py:155-163: the factor of the old weight and the old weight; their positions and the next position. -/
def ewmaMode (adjust : Adjust) (isObs : Bool) : List (Prim K) × Nat × Nat × Nat :=
  if adjust = .linear then ([.sub 2 14, .div 17 2, .max 5 18, .select isObs 14 19, .min 2 4], 20, 21, 22)
  else ([.sub 14 16], 17, 2, 18)

/-- src/wax/modules/ewma.py:165-202: the rest of the trace, from position `n`. `keep` is the position of the mean kept when there is
no observation: 13 for Haiku (src/wax/modules/ewma.py:172), 1 for Flax (src/wax/flax/modules/ewma.py:125-129).  (`select true` stands
for no operation.) -/
def ewmaTail (c : EWMACfg K) (nobs : Nat) (isObs nanMean : Bool) (factor weight n keep : Nat) : List (Prim K) :=
  let nw := if c.adjust.truthy then 14 else 16
  [.mul weight factor, .select (!c.ignoreNa || isObs) n weight, .select nanMean 5 (n + 1),
   .mul (n + 2) 13, .mul nw 10, .add (n + 3) (n + 4), .add (n + 2) nw, .div (n + 5) (n + 6),
   .select isObs (n + 7) keep,
   (if c.adjust.truthy then .add (n + 2) nw else .const (Fl.fin 1)), .select isObs (n + 9) (n + 2),
   .const .nan, .select (!isObs && nanMean) (n + 11) (n + 8),
   .select (decide (c.minPeriods = 0) || decide (c.minPeriods ≤ nobs)) (n + 12) (n + 11)]

/-- src/wax/modules/ewma.py:105-207: the trace of one call; the new weight is at position `ewmaBase + 10`, the new mean at
`ewmaBase + 12`, the result at `ewmaBase + 13`. -/
def ewmaTrace (keep : Nat) (c : EWMACfg K) (s : EWMAState K) (x : Fl K) : List (Prim K) :=
  let mode := ewmaMode c.adjust (!x.isNan)
  ewmaFront c.big s.mean x ++ mode.1 ++
    ewmaTail c (if x.isNan then s.nobs else s.nobs + 1) (!x.isNan) s.mean.isNan mode.2.1 mode.2.2.1 mode.2.2.2 keep

/-- Where the last part of the trace begins, src/wax/modules/ewma.py:155-163. -/
def ewmaBase (c : EWMACfg K) : Nat := if c.adjust = .linear then 22 else 18

/-- The cotangents of the inputs of one call. Used for src/wax/modules/ewma.py:105-207. -/
structure StepGrad (K : Type) where
  logcom : Fl K
  mean : Fl K
  oldWt : Fl K
  x : Fl K

/-- src/wax/modules/ewma.py:105-207: the backward pass through one call, from the cotangents of the result, of the new mean and of the
new weight. -/
def ewmaPull (F : Fns K) (keep : Nat) (c : EWMACfg K) (logcom : K) (s : EWMAState K) (x g gMean gWt : Fl K) : StepGrad K :=
  let trace := ewmaTrace keep c s x
  let env := [Fl.fin logcom, s.mean, s.oldWt, x]
  let cts := (((List.replicate (env.length + trace.length) (Fl.fin 0)).set (ewmaBase c + 10) gWt).set (ewmaBase c + 12) gMean).set
    (ewmaBase c + 13) g
  let r := backward F trace env cts
  ⟨look r 0, look r 1, look r 2, look r 3⟩

/-- The gradient of a stream: with respect to `logcom`, to the initial mean and weight, and to each input. Used for the unrolled
module, src/wax/unroll.py:71-93. -/
structure StreamGrad (K : Type) where
  logcom : Fl K
  mean : Fl K
  oldWt : Fl K
  xs : List (Fl K)

/-- The backward pass through a whole stream: `gs` are the cotangents of the results, the final state is not used by the loss.
`step` is `ewmaStep` or `flaxEwmaStep`.  (src/wax/unroll.py:71-93 with src/wax/modules/ewma.py:105-207; the parameter is shared, so
its cotangents are added.) -/
def ewmaGrad (F : Fns K) (keep : Nat) (step : EWMACfg K → EWMAState K → Fl K → EWMAOut K × EWMAState K) (c : EWMACfg K) (logcom : K) :
    EWMAState K → List (Fl K) → List (Fl K) → StreamGrad K
  | s, x :: xs, g :: gs =>
    let r := ewmaGrad F keep step c logcom (step c s x).2 xs gs
    let p := ewmaPull F keep c logcom s x g r.mean r.oldWt
    ⟨p.logcom + r.logcom, p.mean, p.oldWt, p.x :: r.xs⟩
  | _, _, _ => ⟨Fl.fin 0, Fl.fin 0, Fl.fin 0, []⟩

/-- `jax.grad` through the unrolled Haiku EWMA (src/wax/modules/ewma.py:105-207) from a fresh state. -/
def haikuEwmaGrad (F : Fns K) (c : EWMACfg K) (logcom : K) (xs gs : List (Fl K)) : StreamGrad K :=
  ewmaGrad F 13 ewmaStep c logcom ⟨c.initial, Fl.fin 1, 0⟩ xs gs

/-- `jax.grad` through the Flax EWMA (src/wax/flax/modules/ewma.py:56-163) from fresh variables. -/
def flaxEwmaGrad (F : Fns K) (c : EWMACfg K) (logcom : K) (xs gs : List (Fl K)) : StreamGrad K :=
  ewmaGrad F 1 flaxEwmaStep c logcom ⟨c.initial, Fl.fin 1, 0⟩ xs gs

/-! ## The gradient of EWMVar -/

/-- src/wax/modules/ewmvar.py:79-80 and 101-106: from the inputs 0 `logcom`, 1 `mean`, 2 `variance`, 3 `x`: 4 is `com`, 5 is 1, 7 is
`alpha`, 8 and 10 are the mean and the variance after the initialisation. -/
def ewmvarFront (s : EWMVarState K) : List (Prim K) :=
  [.exp 0, .const (Fl.fin 1), .add 5 4, .div 5 6, .select s.mean.isNan 3 1, .const (Fl.fin 0), .select s.var.isNan 9 2]

/-- src/wax/modules/ewmvar.py:109-115: the operations of the adjustment of `alpha`, the position of the adjusted `alpha` and the next
position.  `com` is the value of `exp(logcom)`, it decides the branch of `adjust="linear"`. -/
def ewmvarMode (com : K) (adjust : Adjust) (nobs : Nat) : List (Prim K) × Nat × Nat :=
  match adjust with
  | .linear =>
    let tscale := Fl.fin 1 / (Fl.fin 1 / (Fl.fin 1 + Fl.fin com))
    let small := Fl.lt (Fl.fin (nobs : K)) tscale
    ([.div 5 7, .const (Fl.fin (nobs : K)), .select small 12 11, .div 5 13, .const .nan,
      .select (Fl.lt (Fl.fin 0) (if small then Fl.fin (nobs : K) else tscale)) 14 15], 16, 17)
  | .yes => ([.sub 5 7, .pow 11 nobs, .sub 5 12, .div 7 13], 14, 15)
  | .no => ([], 7, 11)

/-- src/wax/modules/ewmvar.py:117-122: the update, from position `n`; `alpha` is the position of the adjusted `alpha`. The new mean is
at `n + 3`, the new variance, which is the result, at `n + 8`. -/
def ewmvarTail (mask : Bool) (alpha n : Nat) : List (Prim K) :=
  [.sub 3 8, .mul alpha n, .add 8 (n + 1), .select mask (n + 2) 8,
   .sub 5 alpha, .mul n (n + 1), .add 10 (n + 5), .mul (n + 4) (n + 6), .select mask (n + 7) 10]

/-- src/wax/modules/ewmvar.py:64-128: the trace of one call (src/wax/flax/modules/ewmvar.py:51-113 is the same). -/
def ewmvarTrace (com : K) (adjust : Adjust) (s : EWMVarState K) (x : Fl K) : List (Prim K) :=
  let mode := ewmvarMode com adjust (if x.isNan then s.nobs else s.nobs + 1)
  ewmvarFront s ++ mode.1 ++ ewmvarTail (!x.isNan) mode.2.1 mode.2.2

/-- Where the last part of the trace begins, src/wax/modules/ewmvar.py:109-115. -/
def ewmvarBase : Adjust → Nat
  | .linear => 17
  | .yes => 15
  | .no => 11

/-- src/wax/modules/ewmvar.py:64-128: the backward pass through one call, from the cotangents of the result, of the new mean and of the
new variance. -/
def ewmvarPull (F : Fns K) (adjust : Adjust) (logcom : K) (s : EWMVarState K) (x g gMean gVar : Fl K) : StepGrad K :=
  let trace := ewmvarTrace (F.exp logcom) adjust s x
  let env := [Fl.fin logcom, s.mean, s.var, x]
  let r := backward F trace env (accumulate (List.replicate (env.length + trace.length) (Fl.fin 0))
    [(ewmvarBase adjust + 8, g), (ewmvarBase adjust + 3, gMean), (ewmvarBase adjust + 8, gVar)])
  ⟨look r 0, look r 1, look r 2, look r 3⟩

/-- The backward pass through a whole stream (`StreamGrad.oldWt` is the cotangent of the initial variance): src/wax/unroll.py:71-93 with
src/wax/modules/ewmvar.py:64-128. -/
def ewmvarGradFrom (F : Fns K) (adjust : Adjust) (logcom : K) : EWMVarState K → List (Fl K) → List (Fl K) → StreamGrad K
  | s, x :: xs, g :: gs =>
    let r := ewmvarGradFrom F adjust logcom (ewmvarStep (F.exp logcom) adjust s x).2 xs gs
    let p := ewmvarPull F adjust logcom s x g r.mean r.oldWt
    ⟨p.logcom + r.logcom, p.mean, p.oldWt, p.x :: r.xs⟩
  | _, _, _ => ⟨Fl.fin 0, Fl.fin 0, Fl.fin 0, []⟩

/-- `jax.grad` through the unrolled EWMVar from a fresh state: src/wax/modules/ewmvar.py:64-128. -/
def ewmvarGrad (F : Fns K) (adjust : Adjust) (logcom : K) (xs gs : List (Fl K)) : StreamGrad K :=
  ewmvarGradFrom F adjust logcom ⟨.nan, .nan, 0⟩ xs gs

/-! ## The gradient of PctChange -/

/-- src/wax/modules/pct_change.py:54-61: the trace from the inputs 0 `x` and 1 `previous_x`; the result is at position 6. -/
def pctTrace (fillnaZero : Bool) (x prev : Fl K) : List (Prim K) :=
  [.div 0 1, .const (Fl.fin 1), .sub 2 3, .const (Fl.fin 0), .select (fillnaZero && (x.isNan && !prev.isNan)) 5 4]

/-- src/wax/modules/pct_change.py:54-61 (and src/wax/flax/modules/pct_change.py:60-69): the cotangents of `x` and of `previous_x`. -/
def pctPull (F : Fns K) (fillnaZero : Bool) (x prev g : Fl K) : Fl K × Fl K :=
  let r := backward F (pctTrace fillnaZero x prev) [x, prev] [Fl.fin 0, Fl.fin 0, Fl.fin 0, Fl.fin 0, Fl.fin 0, Fl.fin 0, g]
  (look r 0, look r 1)

/-! ## The gradients of MaskStd and MaskNormalize

On arrays: the cotangent of `sum` is copied to every entry, the cotangents of a value broadcast to every entry are added. -/

/-- src/wax/modules/mask_std.py:55-58: `diff`, before it is masked (`assume_centered=False`). -/
def stdDiff (big : K) (l : Line K) : List (Fl K) := (maskFill big l).map fun v => v - maskMean big l

/-- src/wax/modules/mask_std.py:60: `diff`, masked. -/
def stdMasked (big : K) (l : Line K) : List (Fl K) :=
  List.zipWith (fun e d => if e.1 then d else Fl.fin 0) l (stdDiff big l)

/-- src/wax/modules/mask_std.py:63: `var`. -/
def stdVar (big : K) (l : Line K) : Fl K := ((stdMasked big l).map fun d => d * d).sum / Fl.fin (maskCount l : K)

/-- The cotangent through `jnp.nan_to_num`: kept where the value is a number. Used for src/wax/modules/mask_std.py:51 and
src/wax/modules/fill_nan_inf.py:37-44. -/
def keepNumber (x c : Fl K) : Fl K :=
  match x with
  | .fin _ => c
  | _ => Fl.fin 0

/-- src/wax/modules/mask_std.py:46-66: the cotangents of the entries, from the cotangent `ct` of the standard deviation. -/
def maskStdPull (F : Fns K) (eps big : K) (l : Line K) (ct : Fl K) : List (Fl K) :=
  let var := stdVar big l
  let n := Fl.fin (maskCount l : K)
  let cRoot := if Fl.lt (Fl.fin 0) var then ct else Fl.fin 0
  let cVar := cRoot * (Fl.fin (1 / 2) / Fl.sqrt F.root (Fl.fin eps + var))
  let cSum := cVar / n
  let cDiff := List.zipWith (fun e d => if e.1 then cSum * (Fl.fin 2 * d) else Fl.fin 0) l (stdMasked big l)
  let cMean := -cDiff.sum
  let cFill := cDiff.map fun c => c + cMean / n
  List.zipWith (fun e c => if e.1 then keepNumber e.2 c else Fl.fin 0) l cFill

/-- src/wax/modules/mask_normalize.py:46-49: the cotangents of the entries, from the cotangents `cts` of the normalised entries
(`FillNanInf` keeps the numbers and discards the rest). -/
def maskNormalizePull (F : Fns K) (eps big : K) (l : Line K) (cts : List (Fl K)) : List (Fl K) :=
  let std := maskStd F.root eps big false l
  let cQuot := List.zipWith (fun e c => keepNumber (e.2 / std) c) l cts
  let cStd := (List.zipWith (fun e c => -((c * (Fl.fin 1 / (std * std))) * e.2)) l cQuot).sum
  List.zipWith (fun c p => c / std + p) cQuot (maskStdPull F eps big l cStd)

end
end Verif.Model.Autodiff
