import Verif.Model.Training
import Verif.Props.Optim

/-! # Properties C149–C151: which functions the online optimisers accept -/

set_option linter.unusedSectionVars false
set_option linter.unusedSimpArgs false

namespace Verif.Props
open Verif Verif.Model Verif.Model.Optim Verif.Model.Training

variable {K : Type} [Field K] [LinearOrder K] {S O X L A R V : Type}

/-! ## C149: Haiku -/

/-- C149 (that FuncOptimizer trains any function is false of the code): the Haiku `FuncOptimizer` (hence
`OnlineSupervisedLearner`) refuses every function with Haiku state, whatever its parameters, predicate and optimiser. -/
theorem C149_func_optimizer_stateful_partial (optInit : HkDict V → O) (pred : Option (String → String → V → Bool))
    (params0 : HkDict V) (state0 : HkDict R) (h : state0 ≠ []) :
    funcOptimizerInit optInit pred params0 state0 = .error .valueError := by
  cases state0 with
  | nil => exact absurd rfl h
  | cons a l => simp [funcOptimizerInit, getInitParams, bind, Except.bind]

/-- C149: on a function without state and with a predicate it starts from the predicate's partition of the initial parameters. -/
theorem C149_func_optimizer_stateless (c : FConfig (HkDict R) O X A V) (params0 : HkDict V) :
    funcOptimizerInit c.opt.init (some c.pred) params0 ([] : HkDict R) = .ok (funcInit c params0 []) := by
  simp [funcOptimizerInit, getInitParams, partitionOpt, funcInit, bind, Except.bind]

/-- C149: `OnlineOptimizer` accepts state. -/
theorem C149_online_optimizer_accepts (c : OConfig (HkDict R) O X L A V) (params0 : HkDict V) (state0 : HkDict R) :
    onlineOptimizerInit c.opt.init (some c.pred) params0 state0 = .ok (onlineInit c params0 state0) := by
  simp [onlineOptimizerInit, partitionOpt, onlineInit, bind, Except.bind]

/-- A leaf in a parameter structure. -/
theorem traverse_nonempty (d : HkDict V) (h : ∃ m n v, (m, n, v) ∈ traverse d) : (traverse d).isEmpty = false := by
  obtain ⟨m, n, v, hm⟩ := h
  cases ht : traverse d with
  | nil => rw [ht] at hm; cases hm
  | cons => rfl

/-- C149: `params_predicate=None` (allowed by the signature) is refused by both optimisers as soon as there is a parameter to
train. -/
theorem C149_predicate_none_partial (optInit : HkDict V → O) (params0 : HkDict V) (state0 : HkDict R)
    (h : ∃ m n v, (m, n, v) ∈ traverse params0) :
    onlineOptimizerInit optInit none params0 state0 = .error .typeError ∧
    funcOptimizerInit optInit none params0 ([] : HkDict R) = .error .typeError := by
  have ht := traverse_nonempty params0 h
  constructor
  · simp [onlineOptimizerInit, partitionOpt, ht, bind, Except.bind]
  · simp [funcOptimizerInit, getInitParams, partitionOpt, ht, bind, Except.bind]

/-! ## C150: Flax OnlineOptimizer -/

/-- C150 (that the Flax OnlineOptimizer trains stateful models is false of the code): a model that is a Flax module and writes
a variable in its call makes that call of the optimiser raise, whatever the parameters, the predicate and the optimiser. -/
theorem C150_flax_module_writes_partial (big : K) (c : NConfig S O X L (Aux S A) (Fl K))
    (call : Nested (Fl K) → S → X → Returned L A × Option S) (fresh : S) (st : NState S O (Fl K)) (x : X)
    (hw : ∀ p s, ((call p s x).2).isSome = true) :
    flaxTrainStep big c (.flaxModule call) fresh st x = .error .modifyScope := by
  have hm : ∀ p s, modelLoss (.flaxModule call) fresh p s x = .error .modifyScope := by
    intro p s
    have := hw p s
    unfold modelLoss
    cases hc : call p s x with
    | mk r w =>
      rw [hc] at this
      cases w with
      | none => simp at this
      | some w => simp [hc]
  simp [flaxTrainStep, hm, bind, Except.bind]

/-- C150: a plain function returning a pair (loss, aux) always raises. -/
theorem C150_plain_pair_partial (big : K) (c : NConfig S O X L (Aux S A) (Fl K))
    (call : Nested (Fl K) → S → X → Returned L A × S) (fresh : S) (st : NState S O (Fl K)) (x : X)
    (hp : ∀ p s, ∃ l a, (call p s x).1 = .pair l a) :
    flaxTrainStep big c (.plain call) fresh st x = .error .typeError := by
  have hm : ∀ p s, modelLoss (.plain call) fresh p s x = .error .typeError := by
    intro p s
    obtain ⟨l, a, h⟩ := hp p fresh
    unfold modelLoss
    cases hc : call p fresh x with
    | mk r w =>
      rw [hc] at h
      simp only at h
      subst h
      simp [hc]
  simp [flaxTrainStep, hm, bind, Except.bind]

/-- C150: a plain function returning its loss is trained as the stateless function obtained by starting it afresh at every call:
no history reaches it except through the parameters. -/
theorem C150_plain_restarts_partial (big : K) (c : NConfig S O X L (Aux S A) (Fl K))
    (call : Nested (Fl K) → S → X → Returned L A × S) (loss : Nested (Fl K) → S → X → L) (next : Nested (Fl K) → S → X → S)
    (hcall : ∀ p s x, call p s x = (.scalar (loss p s x), next p s x)) (fresh : S) (p0 : Nested (Fl K)) (s0 : S) (xs : List X) :
    let c' : NConfig S O X L (Aux S A) (Fl K) :=
      { c with model := fun p _ x => (loss p fresh x, .state (next p fresh x)) }
    flaxTrainRun big c (.plain call) fresh { params := p0, mstate := s0, opt := none } xs =
      .ok ((flaxOnline big c' p0 s0).run xs, (flaxOnline big c' p0 s0).stateAfter xs) := by
  intro c'
  have hstep : ∀ (st : NState S O (Fl K)) (x : X),
      flaxTrainStep big c (.plain call) fresh st x = .ok (flaxOnlineStep big c' st x) := by
    intro st x
    unfold flaxTrainStep modelLoss
    simp [hcall, bind, Except.bind, flaxOnlineStep, c']
  have key : ∀ (xs : List X) (st : NState S O (Fl K)),
      flaxTrainRun big c (.plain call) fresh st xs =
        .ok ((flaxOnline big c' p0 s0).outsFrom st xs, (flaxOnline big c' p0 s0).stateFrom st xs) := by
    intro xs
    induction xs with
    | nil => intro st; rfl
    | cons x xs ih =>
      intro st
      simp only [flaxTrainRun, hstep, ih, bind, Except.bind]
      rfl
  exact key xs _

/-- C150: a Flax module that writes nothing is trained as in `Model/Optim` (properties C53, C74, C84). -/
theorem C150_flax_module_stateless (big : K) (c : NConfig S O X L (Aux S A) (Fl K))
    (call : Nested (Fl K) → S → X → Returned L A × Option S) (loss : Nested (Fl K) → S → X → L) (aux : Nested (Fl K) → S → X → A)
    (hcall : ∀ p s x, call p s x = (.pair (loss p s x) (aux p s x), none)) (fresh : S) (p0 : Nested (Fl K)) (s0 : S) (xs : List X) :
    let c' : NConfig S O X L (Aux S A) (Fl K) := { c with model := fun p s x => (loss p s x, .own (aux p s x)) }
    flaxTrainRun big c (.flaxModule call) fresh { params := p0, mstate := s0, opt := none } xs =
      .ok ((flaxOnline big c' p0 s0).run xs, (flaxOnline big c' p0 s0).stateAfter xs) := by
  intro c'
  have hstep : ∀ (st : NState S O (Fl K)) (x : X),
      flaxTrainStep big c (.flaxModule call) fresh st x = .ok (flaxOnlineStep big c' st x) := by
    intro st x
    unfold flaxTrainStep modelLoss
    simp [hcall, bind, Except.bind, flaxOnlineStep, c']
  have key : ∀ (xs : List X) (st : NState S O (Fl K)),
      flaxTrainRun big c (.flaxModule call) fresh st xs =
        .ok ((flaxOnline big c' p0 s0).outsFrom st xs, (flaxOnline big c' p0 s0).stateFrom st xs) := by
    intro xs
    induction xs with
    | nil => intro st; rfl
    | cons x xs ih =>
      intro st
      simp only [flaxTrainRun, hstep, ih, bind, Except.bind]
      rfl
  exact key xs _

/-! ## C151: what the Flax FuncOptimizer's predicate sees -/

/-- The variables of a Flax module: every leaf lies under a collection name ("params", "state", ...), with plain keys. -/
def UnderCollections (cols : List Name) (d : Nested V) : Prop := Plain d ∧ ∀ pv ∈ d, pv.1.head? ∈ cols.map some

/-- C151 (that the predicate of the Flax FuncOptimizer receives module names, as in Haiku and in the Flax OnlineOptimizer, is
false of the code): its first argument is always the name of a variable collection, so the parts it makes are those made by
looking at the collection and the last key only; every collection, not only "params", is offered for training. -/
theorem C151_predicate_sees_collections_partial (cols : List Name) (pred pred' : Name → Name → V → Bool) (d : Nested V)
    (hd : UnderCollections cols d) (hagree : ∀ c ∈ cols, ∀ n v, pred c n v = pred' c n v) :
    nestedPartition pred d = nestedPartition pred' d := by
  unfold nestedPartition
  rw [plain_map d hd.1]
  have hh : ∀ pv ∈ d, pred (pv.1.headD []) (pv.1.getLastD []) pv.2 = pred' (pv.1.headD []) (pv.1.getLastD []) pv.2 := by
    intro pv hpv
    obtain ⟨c, hc, he⟩ := List.mem_map.1 (hd.2 pv hpv)
    cases hp : pv.1 with
    | nil => rw [hp] at he; simp at he
    | cons k ks =>
      rw [hp] at he
      simp only [List.head?_cons, Option.some.injEq] at he
      subst he
      exact hagree _ hc _ _
  simp only [Prod.mk.injEq]
  constructor
  · exact List.filter_congr hh
  · exact List.filter_congr fun pv hpv => by rw [hh pv hpv]

/-- C151: consequently a predicate selecting by module name, none of the collections bearing that name, trains nothing: the
function is evaluated, never updated. -/
theorem C151_module_name_predicate_trains_nothing_partial (cols : List Name) (c : FlaxFunc O X R (Fl K))
    (init : X → Nested (Fl K)) (hinit : c.init = some init) (hvars : ∀ x, UnderCollections cols (init x))
    (hpred : ∀ col ∈ cols, ∀ n v, c.pred col n v = false) (x : X) :
    (flaxFuncStep c { trainable := [], nonTrainable := none, opt := none } x).2.trainable = [] ∧
    (flaxFuncStep c { trainable := [], nonTrainable := none, opt := none } x).1 = (c.apply (init x) x, [], none) := by
  have hp : nestedPartition c.pred (init x) = ([], init x) := by
    rw [C151_predicate_sees_collections_partial cols c.pred (fun _ _ _ => false) (init x) (hvars x) hpred]
    unfold nestedPartition
    rw [plain_map _ (hvars x).1]
    simp
  have hprep : flaxFuncPrepare c { trainable := [], nonTrainable := none, opt := none } x =
      { trainable := [], nonTrainable := some (init x), opt := none } := by
    simp [flaxFuncPrepare, hinit, hp]
  unfold flaxFuncStep
  rw [hprep]
  simp only [List.isEmpty_nil, if_true, true_and]
  have : flaxFuncMerged ({ trainable := [], nonTrainable := some (init x), opt := none } : FlaxFuncState O (Fl K)) [] = init x := by
    unfold flaxFuncMerged mergeParams
    cases hi : init x <;> simp
  rw [this]

/-! ## Concrete cases -/

/-- A counter that adds its count to the loss and writes the new count. -/
def countingLoss : Nested (Fl ℚ) → Nat → ℚ → Returned ℚ Nat × Option Nat := fun _ s x => (.pair (x + s) s, some (s + 1))

example : ∀ p s, ((countingLoss p s 2).2).isSome = true := fun _ _ => rfl
example : funcOptimizerInit (O := Unit) (fun _ => ()) (some fun _ _ _ => true) [("linear", [("w", (1 : ℚ))])]
    [("counter", [("count", (0 : ℚ))])] = .error .valueError :=
  C149_func_optimizer_stateful_partial _ _ _ _ (by simp)
example : (("linear", "w", (1 : ℚ)) : String × String × ℚ) ∈ traverse [("linear", [("w", (1 : ℚ))])] := by
  simp [traverse]
example : UnderCollections ["params".toList] [(["params".toList, "w".toList], (1 : ℚ))] := by
  refine ⟨?_, by simp⟩
  intro p v hpv
  simp only [List.mem_singleton, Prod.mk.injEq] at hpv
  obtain ⟨rfl, rfl⟩ := hpv
  exact ⟨by simp, by decide⟩

end Verif.Props
