import Verif.Model.EWMA

/-! # Model: the pandas accessor of the numba EWMA, src/wax/numba/ewma_numba.py:190-264

`df.wax.ewm(...).mean(state)`.  Column names are strings, distinct in each frame (pandas raises when a state with duplicate names is
reindexed).  `DataFrame.reindex` returns a copy, so the caller's state is not modified: the functions here are pure. -/

namespace Verif.Model.NumbaFrame
open Verif.Model
variable {K D : Type} [Field K] [LinearOrder K]

/-- A `pd.DataFrame` of floats: its index and its named columns. Used for src/wax/numba/ewma_numba.py:209-246. -/
structure Frame (K D : Type) where
  index : List D
  cols : List (String × List (Fl K))
deriving DecidableEq, Repr

/-- One row of the state frame (columns `mean`, `old_wt`, `nobs`, src/wax/numba/ewma_numba.py:241).  `nobs = none` is NaN: reindexing
turns the integer column into floats when a name is missing. -/
structure ColState (K : Type) where
  mean : Fl K
  oldWt : Fl K
  nobs : Option Nat
deriving DecidableEq, Repr

/-- The state frame: one row per column name. Used for src/wax/numba/ewma_numba.py:222-228. -/
abbrev StateFrame (K : Type) := List (String × ColState K)

/-- src/wax/numba/ewma_numba.py:147-184: one row of one column, with a possibly NaN observation count: `NaN + 1` is NaN and
`NaN >= minimum_periods` is False, so the result is NaN. -/
def colStep (c : EWMACfg K) (s : ColState K) (cur : Fl K) : Fl K × ColState K :=
  let r := numbaStep c ⟨s.mean, s.oldWt, s.nobs.getD 0⟩ cur
  let nobs := s.nobs.map fun n => n + (if cur.isNan then 0 else 1)
  (match nobs with
    | some n => if c.minPeriods ≤ n then r.2.mean else Fl.nan
    | none => Fl.nan,
   ⟨r.2.mean, r.2.oldWt, nobs⟩)

/-- One column of `numba_apply` (128-187). Used for src/wax/numba/ewma_numba.py:209-246. -/
def colMachine (c : EWMACfg K) (s : ColState K) : Mealy (ColState K) (Fl K) (Fl K) := ⟨s, colStep c⟩

/-- src/wax/numba/ewma_numba.py:97-108 `init_ewma_state`. -/
def colInit (c : EWMACfg K) : ColState K := ⟨c.initial, Fl.fin 1, some 0⟩

/-- src/wax/numba/ewma_numba.py:222-228: `state.reindex(obj.columns)`: a name without a row gets NaN everywhere. -/
def reindexed (state : StateFrame K) (name : String) : ColState K :=
  (state.lookup name).getD ⟨.nan, .nan, none⟩

/-- src/wax/numba/ewma_numba.py:209-246 `_apply_ema`.  `com > 0` is asserted (line 92) before the data is read; without a
state, `values[0]` (line 98) raises on a frame without rows. -/
def frameMean (c : EWMACfg K) (state : Option (StateFrame K)) (obj : Frame K D) : Except Unit (Frame K D × StateFrame K) :=
  if 0 < c.com then
    match state with
    | none =>
      if obj.index = [] then .error ()
      else .ok (⟨obj.index, obj.cols.map fun kv => (kv.1, (colMachine c (colInit c)).run kv.2)⟩,
        obj.cols.map fun kv => (kv.1, (colMachine c (colInit c)).stateAfter kv.2))
    | some st =>
      .ok (⟨obj.index, obj.cols.map fun kv => (kv.1, (colMachine c (reindexed st kv.1)).run kv.2)⟩,
        obj.cols.map fun kv => (kv.1, (colMachine c (reindexed st kv.1)).stateAfter kv.2))
  else .error ()

/-- src/wax/numba/ewma_numba.py:251-261: a series is a frame with one column, named like the series. -/
def seriesMean (c : EWMACfg K) (state : Option (StateFrame K)) (index : List D) (name : String) (values : List (Fl K)) :
    Except Unit (List (Fl K) × StateFrame K) :=
  match frameMean c state ⟨index, [(name, values)]⟩ with
  | .error e => .error e
  | .ok (res, st) => .ok ((res.cols.head?.map (·.2)).getD [], st)

/-- Successive calls on successive chunks, each with the state returned by the one before (the documented use).
See src/wax/numba/ewma_numba.py:209-246. -/
def chunks (c : EWMACfg K) (state : Option (StateFrame K)) : List (Frame K D) → Except Unit (List (Frame K D))
  | [] => .ok []
  | f :: fs =>
    match frameMean c state f with
    | .error e => .error e
    | .ok (r, st) =>
      match chunks c (some st) fs with
      | .error e => .error e
      | .ok rs => .ok (r :: rs)

end Verif.Model.NumbaFrame
