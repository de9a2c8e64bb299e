import Verif.Model.Events
import Mathlib.Algebra.Ring.Defs
import Mathlib.Data.List.Dedup

/-! # Model: advanced state patterns (src/wax/flax/core/advanced_state_patterns.py) -/

namespace Verif.Model.Patterns
variable {K V O D E I S : Type}

/-- Dictionaries `dependencies or {}` and `dependencies.get(state, [])`.
Used for src/wax/flax/core/advanced_state_patterns.py:91-95. -/
def depsOf (deps : List (String × List String)) (s : String) : List String := (deps.lookup s).getD []

/-- src/wax/flax/core/advanced_state_patterns.py:91-95: the states of `remaining` (iterated in some order) whose dependencies are met. -/
def readyStates (deps : List (String × List String)) (ordered remaining : List String) : List String :=
  remaining.filter fun s => (depsOf deps s).all fun d => decide (d ∈ ordered) || !decide (d ∈ remaining)

/-- src/wax/flax/core/advanced_state_patterns.py:88-102: the `while remaining` loop.  A Python set is a duplicate-free list together with an
iteration order, which the language does not specify: `iter k` is the order used at round `k` (`iter(remaining)` and the `for`
loop use the same).  `fuel` bounds the number of rounds; `none` means it was not enough (`C47` shows it always is). -/
def execLoop (deps : List (String × List String)) (iter : Nat → List String → List String) :
    Nat → Nat → List String → List String → Option (List String)
  | _, _, ordered, [] => some ordered
  | 0, _, _, _ :: _ => none
  | fuel + 1, k, ordered, remaining =>
    let it := iter k remaining
    let ready := readyStates deps ordered it
    let ready := if ready = [] then it.head?.toList else ready
    execLoop deps iter fuel (k + 1) (ordered ++ ready) (remaining.filter fun s => !decide (s ∈ ready))

/-- src/wax/flax/core/advanced_state_patterns.py:79-104 `get_execution_order`. -/
def executionOrder (deps : List (String × List String)) (iter : Nat → List String → List String) (active : List String) :
    Option (List String) :=
  execLoop deps iter active.dedup.length 0 [] active.dedup

/-- src/wax/flax/core/advanced_state_patterns.py:147-157 `get_depth` with its `visited` set; `fuel` bounds the recursion depth. -/
def getDepth (deps : List (String × List String)) : Nat → List String → String → Nat
  | 0, _, _ => 0
  | fuel + 1, visited, s =>
    if s ∈ visited then 0
    else
      let ds := depsOf deps s
      if ds = [] then 0
      else (ds.map fun d => getDepth deps fuel (s :: visited) d).foldl max 0 + 1

/-- The recursion visits distinct keys of `deps`, plus a last name without dependencies.
Used for src/wax/flax/core/advanced_state_patterns.py:142-165. -/
def depth (deps : List (String × List String)) (s : String) : Nat := getDepth deps (deps.length + 1) [] s

/-- src/wax/flax/core/advanced_state_patterns.py:142-165 `_get_hierarchy_levels`: the states of a level, in declaration order. -/
def levelStates (deps : List (String × List String)) (names : List String) (level : Nat) : List String :=
  names.filter fun s => depth deps s == level

/-- src/wax/flax/core/advanced_state_patterns.py:167-182 `_get_higher_level_states`. -/
def higherStates (deps : List (String × List String)) (names : List String) (s : String) : List String :=
  if s ∈ names then (List.range (depth deps s)).flatMap (levelStates deps names) else []

/-- src/wax/flax/core/advanced_state_patterns.py:184-205 `_apply_hierarchical_influence` on dictionaries of numbers (`w` is 0.1); values that are
not numbers, and outputs that are not dictionaries, are left alone (not modelled). -/
def applyInfluence [Ring K] (w : K) (lower higher : List (String × K)) : List (String × K) :=
  lower.map fun kv => (kv.1, match higher.lookup kv.1 with
    | some h => (1 - w) * kv.2 + w * h
    | none => kv.2)

/-- src/wax/flax/core/advanced_state_patterns.py:127-132: one higher state. -/
def influenceStep [Ring K] (w : K) (coordinated : List (String × List (String × K))) (out : List (String × K)) (h : String) :
    List (String × K) :=
  match coordinated.lookup h with
  | some ho => applyInfluence w out ho
  | none => out

/-- src/wax/flax/core/advanced_state_patterns.py:123-136: the output of one state, influenced by the coordinated higher states. -/
def influenced [Ring K] (w : K) (deps : List (String × List String)) (names : List String)
    (coordinated : List (String × List (String × K))) (s : String) (output : List (String × K)) : List (String × K) :=
  (higherStates deps names s).foldl (influenceStep w coordinated) output

/-- src/wax/flax/core/advanced_state_patterns.py:121-138: one state. -/
def coordStep [Ring K] (w : K) (deps : List (String × List String)) (names : List String)
    (outputs : List (String × List (String × K))) (coord : List (String × List (String × K))) (s : String) :
    List (String × List (String × K)) :=
  match outputs.lookup s with
  | some out => Events.dictSet coord s (influenced w deps names coord s out)
  | none => coord

/-- src/wax/flax/core/advanced_state_patterns.py:106-138 `coordinate_states`, strategy "hierarchical": levels in increasing order, states
of a level in declaration order.  No level exceeds `deps.length + 1` (`C66_depth_bound`); going through an empty level does
nothing. -/
def coordinate [Ring K] (w : K) (deps : List (String × List String)) (names : List String)
    (outputs : List (String × List (String × K))) : List (String × List (String × K)) :=
  ((List.range (deps.length + 2)).flatMap (levelStates deps names)).foldl (coordStep w deps names outputs) []

/-- src/wax/flax/core/advanced_state_patterns.py:221-228: the `try`. -/
def caught (fail : E → V) : Except E V → V
  | .ok v => v
  | .error e => fail e

/-- src/wax/flax/core/advanced_state_patterns.py:206-242 `__call__` with the sequential or parallel strategy: each state module runs on the
arguments of the call, in execution order; an exception is caught and recorded (`fail`).  Module states are not threaded
between modules, so within one call a module is a function of the arguments. -/
def hsmOutputs (mods : List (String × (I → Except E V))) (fail : E → V) (order : List String) (x : I) : List (String × V) :=
  order.foldl (fun outs s => match mods.lookup s with
    | some m => Events.dictSet outs s (caught fail (m x))
    | none => outs) []

/-! ## Attention history -/

/-- Buffer of `max_history_length` rows, pointer and size.
Used for src/wax/flax/core/advanced_state_patterns.py:269-275. -/
structure HistRing (V : Type) where
  buf : List V
  ptr : Nat
  size : Nat

/-- src/wax/flax/core/advanced_state_patterns.py:269-275. -/
def ringInit (m : Nat) (zero : V) : HistRing V := ⟨List.replicate m zero, 0, 0⟩

/-- src/wax/flax/core/advanced_state_patterns.py:276-288 `add_to_history`. -/
def ringAdd (m : Nat) (r : HistRing V) (x : V) : HistRing V := ⟨r.buf.set r.ptr x, (r.ptr + 1) % m, min (r.size + 1) m⟩

/-- src/wax/flax/core/advanced_state_patterns.py:326-331 and 376-381: the valid history. -/
def validHistory (m : Nat) (r : HistRing V) : List V :=
  if r.size < m then r.buf.take r.size else r.buf.drop r.ptr ++ r.buf.take r.ptr

/-- src/wax/flax/core/advanced_state_patterns.py:293-347 `get_relevant_states` (states only): the first `top_k` rows of the history. -/
def relevantStates (m topK : Nat) (zero : V) (r : HistRing V) : List V :=
  if r.size = 0 then [zero] else (validHistory m r).take (min topK (validHistory m r).length)

/-- src/wax/flax/core/advanced_state_patterns.py:349-418 `__call__` seen through `relevant_history`: the history before the current state, shown
only if it has more than one entry; then the current embedding is added.  The embedding is the input of the step. -/
def attention (m : Nat) (zero : V) (useAttention : Bool) : Mealy (HistRing V) V (List V) where
  init := ringInit m zero
  step := fun r x =>
    (if useAttention && r.size > 1 then validHistory m r else [zero], ringAdd m r x)

/-- src/wax/flax/core/advanced_state_patterns.py:296-314 and 352-369: padding or truncation to `n` entries. -/
def padOrTruncate (n : Nat) (zero : V) (v : List V) : List V :=
  if v.length > n then v.take n else v ++ List.replicate (n - v.length) zero

/-! ## Composite state manager -/

/-- Data flowing between patterns: a dictionary or anything else.
Used for src/wax/flax/core/advanced_state_patterns.py:453-457. -/
inductive Data (V : Type) where
  | dict (d : List (String × V))
  | leaf (v : V)

/-- src/wax/flax/core/advanced_state_patterns.py:453-457: what the next pattern receives. -/
def mergeData (cur out : Data V) : Data V :=
  match cur, out with
  | .dict c, .dict o => .dict (Events.dictUpdate c o)
  | _, o => o

/-- src/wax/flax/core/advanced_state_patterns.py:421-459 `CompositeStateManager`, strategy "pipeline": the patterns' states and outputs in
declaration order (names are distinct, so the output dictionary is the zip of the names with these). -/
def pipeline : List (Mealy S (Data V) (Data V)) → List S → Data V → List (Data V) × List S
  | m :: ms, s :: ss, x =>
    let r := m.step s x
    let rest := pipeline ms ss (mergeData x r.1)
    (r.1 :: rest.1, r.2 :: rest.2)
  | _, _, _ => ([], [])

/-- See src/wax/flax/core/advanced_state_patterns.py:421-459. -/
def pipelineM (ms : List (Mealy S (Data V) (Data V))) : Mealy (List S) (Data V) (List (Data V)) where
  init := ms.map Mealy.init
  step := fun ss x => pipeline ms ss x

/-- src/wax/flax/core/advanced_state_patterns.py:461-469, strategy "parallel". -/
def parallelM (ms : List (Mealy S D D)) : Mealy (List S) D (List D) where
  init := ms.map Mealy.init
  step := fun ss x => ((ms.zip ss).map fun p => (p.1.step p.2 x).1, (ms.zip ss).map fun p => (p.1.step p.2 x).2)

/-- src/wax/flax/core/advanced_state_patterns.py:471-486, strategy "hierarchical": the data is replaced by the entry "influence" of an output
dictionary that has one. -/
def influencePipe : List (Mealy S (Data V) (Data V)) → List S → Data V → List (Data V) × List S
  | m :: ms, s :: ss, x =>
    let r := m.step s x
    let x' := match r.1 with
      | .dict d => match d.lookup "influence" with
        | some v => .leaf v
        | none => x
      | .leaf _ => x
    let rest := influencePipe ms ss x'
    (r.1 :: rest.1, r.2 :: rest.2)
  | _, _, _ => ([], [])

/-- src/wax/flax/core/advanced_state_patterns.py:440-488: the strategies; any other name is a ValueError. -/
def knownStrategy (s : String) : Except Unit Unit :=
  if s = "pipeline" then .ok () else if s = "parallel" then .ok () else if s = "hierarchical" then .ok () else .error ()

end Verif.Model.Patterns
