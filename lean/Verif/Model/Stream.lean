import Verif.Model.Encode
import Verif.Base.Mealy

/-! # Model: synchronisation of data streams (src/wax/stream.py)

Times range over a linear order `T` (NaT is `none`), values over any type `V`; one observation carries a time and a value
(the dictionary of variables of that stream). -/

namespace Verif.Model.Stream
variable {T V W : Type} [LinearOrder T]

/-- `StreamObservation` (src/wax/stream.py:100-102); `time = none` is NaT. -/
structure Obs (T V : Type) where
  time : Option T
  value : V
deriving DecidableEq, Repr

/-- What a stream shows in one output record: one observation, or a buffer of them. Used for src/wax/stream.py:619-625. -/
inductive Out (T V : Type) where
  | single (o : Obs T V)
  | stacked (os : List (Obs T V))
deriving DecidableEq, Repr

/-- The settings of one stream: its embedding (`freqs`: `floor_datetime`, otherwise identity; src/wax/stream.py:661-670), `ffills`,
`buffer_maxlen`, and the missing value of its dtypes (`buffer_dtype_init_values`, 599-616). -/
structure SecCfg (T V : Type) where
  embed : T → T
  ffill : Bool
  maxlen : Option Nat
  init : V

/-- src/wax/stream.py:78-97 `timestamp_is_before_local` with the local time already embedded (comparisons with NaT are false). -/
def before (e : T) (o : Obs T V) : Bool :=
  match o.time with
  | none => false
  | some t => decide (t < e)

/-- src/wax/stream.py:609-616 `init_obs`. -/
def initObs (c : SecCfg T V) : Obs T V := ⟨none, c.init⟩

/-- src/wax/stream.py:241-248 `deque(maxlen).append`. -/
def dequePush (m : Nat) (b : List (Obs T V)) (x : Obs T V) : List (Obs T V) :=
  (b ++ [x]).drop ((b ++ [x]).length - m)

/-- src/wax/stream.py:255-281 `deque_to_list`, on times and values together. -/
def dequeToList (m : Nat) (fill : Obs T V) (b : List (Obs T V)) : List (Obs T V) :=
  List.replicate (m - b.length) fill ++ b

/-- src/wax/stream.py:619-625: the buffer transformation of a stream (identity without `buffer_maxlen`): new deque and output. -/
def bufTransform (c : SecCfg T V) (b : List (Obs T V)) (x : Obs T V) : List (Obs T V) × Out T V :=
  match c.maxlen with
  | none => (b, .single x)
  | some m => (dequePush m b x, .stacked (dequeToList m (initObs c) (dequePush m b x)))

/-- State of one stream inside `merge`: the pending observation (`stream_obs[dim]`, absent once the stream is deleted), the
rest of its generator, its deque, and `output_values[dim]`. Used for src/wax/stream.py:595-628. -/
structure SecState (T V : Type) where
  pend : Option (Obs T V)
  rest : List (Obs T V)
  buf : List (Obs T V)
  held : Out T V

/-- src/wax/stream.py:716-753 `start_dataset_stream`: the first observation is yielded, then all of them; an empty dataset raises
IndexError. -/
def startStream (xs : List (Obs T V)) : Except Unit (List (Obs T V)) :=
  match xs with
  | [] => .error ()
  | x :: xs => .ok (x :: x :: xs)

/-- src/wax/stream.py:595-628: initialisation of one stream in `merge`; `next` on an empty generator is an error (`maxlen = 0` too:
`deque_to_list` reads its first element). -/
def secInit (c : SecCfg T V) (gen : List (Obs T V)) : Except Unit (SecState T V) :=
  match gen with
  | [] => .error ()
  | o :: rest =>
    if c.maxlen = some 0 then .error ()
    else
      let r := bufTransform c [] (initObs c)
      .ok ⟨some o, rest, r.1, r.2⟩

/-- src/wax/stream.py:679-692: the `while` loop, entered with a pending observation already pushed. -/
def drain (c : SecCfg T V) (e : T) (rest : List (Obs T V)) (buf : List (Obs T V)) (out : Out T V) :
    Option (Obs T V) × List (Obs T V) × List (Obs T V) × Out T V :=
  match rest with
  | [] => (none, [], buf, out)
  | q :: rest =>
    if before e q then
      let r := bufTransform c buf q
      drain c e rest r.1 r.2
    else (some q, rest, buf, out)

/-- src/wax/stream.py:658-712: one secondary stream in one turn of the local loop, at local time `lo`. -/
def secStep (c : SecCfg T V) (s : SecState T V) (lo : T) : Out T V × SecState T V :=
  match s.pend with
  | none => (s.held, s)
  | some p =>
    let e := c.embed lo
    if before e p then
      let r := bufTransform c s.buf p
      let d := drain c e s.rest r.1 r.2
      (d.2.2.2, ⟨d.1, d.2.1, d.2.2.1, if c.ffill then d.2.2.2 else s.held⟩)
    else (s.held, s)

/-- One secondary stream as a machine driven by local times. See src/wax/stream.py:658-712. -/
def secMachine (c : SecCfg T V) (s0 : SecState T V) : Mealy (SecState T V) T (Out T V) := ⟨s0, secStep c⟩

/-- src/wax/stream.py:533-543 `get_local_time`: the given name, or the only stream. -/
def getLocalTime (localTime : String) (names : List String) : Except Unit String :=
  if localTime = "" then
    match names with
    | [n] => .ok n
    | _ => .error ()
  else .ok localTime

/-- src/wax/stream.py:637-714: one turn of the local loop, local observation `lo` with time `t`; `sts` are all streams in
dictionary order, with their settings. -/
def mergeStep (localName : String) (cfg : String → SecCfg T V) (sts : List (String × SecState T V))
    (lo : T × V) : List (String × Out T V) × List (String × SecState T V) :=
  let rs := sts.map fun ns =>
    if ns.1 = localName then (ns.1, Out.single ⟨some lo.1, lo.2⟩, ns.2)
    else
      let r := secStep (cfg ns.1) ns.2 lo.1
      (ns.1, r.1, r.2)
  (rs.map fun r => (r.1, r.2.1), rs.map fun r => (r.1, r.2.2))

/-- The local loop as a machine. Used for src/wax/stream.py:583-714. -/
def mergeMachine (localName : String) (cfg : String → SecCfg T V) (sts : List (String × SecState T V)) :
    Mealy (List (String × SecState T V)) (T × V) (List (String × Out T V)) := ⟨sts, mergeStep localName cfg⟩

/-- src/wax/stream.py:583-714 `merge`, on the generators started by `start_dataset_streams` from datasets: for each name the list
of its (time, value) pairs.  Returns all the records yielded.  The local generator has been advanced once by the
initialisation, so the loop sees each local observation once. -/
def merge (localTime : String) (cfg : String → SecCfg T V) (datasets : List (String × List (T × V))) :
    Except Unit (List (List (String × Out T V))) := do
  let sts ← datasets.mapM fun nd => do
    let gen ← startStream (nd.2.map fun p => (⟨some p.1, p.2⟩ : Obs T V))
    let s ← secInit (cfg nd.1) gen
    .ok (nd.1, s)
  let localName ← getLocalTime localTime (datasets.map (·.1))
  match datasets.lookup localName with
  | none => .error ()
  | some locals => .ok ((mergeMachine localName cfg sts).run locals)

/-- src/wax/stream.py:284-326 `unroll_stream` on a stream of records with the same leaves; `skip_first=False`. -/
def unrollStream {X : Type} (obs : List (List X)) : Except Unit (List (List X)) :=
  match obs with
  | [] => .error ()
  | first :: rest =>
    .ok (rest.foldl (fun outs o => List.zipWith (fun y x => y ++ [x]) outs o) (first.map fun x => [x]))

/-- src/wax/stream.py:304-326 `unroll_stream` with `skip_first=True`: `[[]] * num_leaves` is one list shared by all the leaves, so
each append is seen by all of them; `onp.stack` of an empty list (no further observation) raises. -/
def unrollStreamSkip {X : Type} (obs : List (List X)) : Except Unit (List (List X)) :=
  match obs with
  | [] => .error ()
  | first :: rest =>
    let shared := rest.foldl (fun shared o => shared ++ o) []
    if first ≠ [] ∧ shared = [] then .error () else .ok (List.replicate first.length shared)

/-- Indexing of a JAX array along its first axis: out-of-range indices are clamped (negative ones count from the end).
Used for src/wax/stream.py:351-366. -/
def jnpIndex [Inhabited V] (x : List V) (i : Int) : V :=
  let j := if i < 0 then i + x.length else i
  let j := max 0 (min j (x.length - 1))
  x.getD j.toNat default

/-- src/wax/stream.py:351-366 `access_data` for one index (`idx[step]` a scalar). -/
def accessData [Inhabited V] (init : V) (x : List V) (i : Int) : V :=
  if i < 0 then init else jnpIndex x i

/-- `onp.full_like` index for missing observations when tracing: `DTYPE_INIT_VALUES[int64]` (src/wax/stream.py:59-75). -/
def missingIndex : Int := -99999

/-- src/wax/stream.py:335-348 `np_select_item(trace=True)`: the traced dataset has the positions as values. -/
def traceDataset (xs : List (T × V)) : List (T × Int) :=
  xs.mapIdx fun i p => (p.1, (i : Int))

/-- src/wax/stream.py:351-366 for a buffer of indices (`idx[step]` of shape `(m,)`) and data with a feature axis (shape `(n, f)`):
`where` broadcasts the mask of shape `(m,)` along the *last* axis of the `(m, f)` result; an error unless `m = f`, `m = 1` or
`f = 1`. Rows are lists of length `f`. -/
def accessBuffered2 [Inhabited V] (init : V) (f : Nat) (x : List (List V)) (idx : List Int) :
    Except Unit (List (List V)) :=
  let g : List (List V) := idx.map fun i => jnpIndex x i
  if idx.length = f then
    .ok (g.map fun row => row.mapIdx fun j v => if idx.getD j 0 < 0 then init else v)
  else if idx.length = 1 then
    .ok (g.map fun row => row.map fun v => if idx.getD 0 0 < 0 then init else v)
  else if f = 1 then
    .ok (g.map fun row => idx.map fun i => if i < 0 then init else row.getD 0 default)
  else .error ()

/-- src/wax/stream.py:200-232 `get_dataset_index` for a variable without time dimension: the index of step `s`. -/
def constIndexScalar (s : Nat) : Int := s

/-- src/wax/stream.py:226-232: `outer(arange(n_steps), flat_idx)[s]` for an array variable with `n` entries. -/
def constIndexArray (n s : Nat) : List Int := (List.range n).map fun (i : Nat) => ((s * i : Nat) : Int)

end Verif.Model.Stream
