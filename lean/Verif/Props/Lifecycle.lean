import Verif.Model.Lifecycle
import Verif.Props.Events
import Mathlib.Data.List.Nodup

/-! # Property C148: which Flax modules of the library can be initialised, applied and nested -/

set_option linter.unusedSectionVars false
set_option linter.unusedSimpArgs false

namespace Verif.Props
open Verif Verif.Model Verif.Model.Lifecycle

variable {W I O : Type}

/-- The keyword arguments fit the parameters: no unknown keyword, no missing required parameter. -/
def ValidArgs (ps : List (String × Option (Option W))) (args : Attrs W) : Prop :=
  (∀ a ∈ args, a.1 ∈ ps.map Prod.fst) ∧ ∀ p ∈ ps, p.2 = none → ∃ v, args.lookup p.1 = some v

/-- The value a parameter ends up with: the argument if given, else its default. -/
def valueOf (ps : List (String × Option (Option W))) (args : Attrs W) (f : String) : Option (Option W) :=
  match args.lookup f with
  | some v => some v
  | none => (ps.lookup f).join

theorem bindArgs_spec (ps : List (String × Option (Option W))) (args : Attrs W) (hnd : (ps.map Prod.fst).Nodup)
    (h : ValidArgs ps args) :
    ∃ attrs, bindArgs ps args = .ok attrs ∧ attrs.map Prod.fst = ps.map Prod.fst ∧ ∀ f, attrs.lookup f = valueOf ps args f := by
  obtain ⟨hk, hr⟩ := h
  have hany : args.any (fun a => !(ps.map Prod.fst).contains a.1) = false := by
    rw [List.any_eq_false]
    intro a ha
    have := hk a ha
    simpa using this
  have hkey : ∀ (qs : List (String × Option (Option W))), (qs.map Prod.fst).Nodup →
      (∀ p ∈ qs, p.2 = none → ∃ v, args.lookup p.1 = some v) →
      ∃ attrs : Attrs W, qs.mapM (bindOne args) = .ok attrs ∧ attrs.map Prod.fst = qs.map Prod.fst ∧
        ∀ f ∈ qs.map Prod.fst, attrs.lookup f = valueOf qs args f := by
    intro qs
    induction qs with
    | nil => intro _ _; exact ⟨[], rfl, rfl, by simp⟩
    | cons q qs ih =>
      intro hnd hr
      obtain ⟨k, d⟩ := q
      obtain ⟨attrs, h1, h2, h3⟩ := ih (by simpa using (List.nodup_cons.1 hnd).2) (fun p hp => hr p (List.mem_cons_of_mem _ hp))
      have hnotin : k ∉ qs.map Prod.fst := (List.nodup_cons.1 hnd).1
      have hv : ∃ v, valueOf ((k, d) :: qs) args k = some v ∧
          bindOne args (k, d) = .ok (k, v) := by
        cases hl : args.lookup k with
        | some v => exact ⟨v, by simp [valueOf, hl], by simp [bindOne, hl]⟩
        | none =>
          cases d with
          | some d => exact ⟨d, by simp [valueOf, hl, List.lookup_cons], by simp [bindOne, hl]⟩
          | none =>
            obtain ⟨v, hv⟩ := hr (k, none) List.mem_cons_self rfl
            simp [hl] at hv
      obtain ⟨v, hv1, hv2⟩ := hv
      refine ⟨(k, v) :: attrs, ?_, by simp [h2], ?_⟩
      · rw [List.mapM_cons, h1]
        simp [hv2, bind, Except.bind, pure, Except.pure]
      · intro f hf
        by_cases hfk : f = k
        · subst hfk; rw [hv1]; simp [List.lookup_cons]
        · have hne : (f == k) = false := by simpa using hfk
          have hf' : f ∈ qs.map Prod.fst := by
            simp only [List.map_cons, List.mem_cons] at hf
            exact hf.resolve_left hfk
          rw [List.lookup_cons, hne]
          simp only
          rw [h3 f hf']
          simp [valueOf, List.lookup_cons, hne]
  obtain ⟨attrs, h1, h2, h3⟩ := hkey ps hnd hr
  refine ⟨attrs, ?_, h2, ?_⟩
  · unfold bindArgs; rw [hany]; simpa using h1
  · intro f
    by_cases hf : f ∈ ps.map Prod.fst
    · exact h3 f hf
    · have e1 : attrs.lookup f = none := by
        cases h : attrs.lookup f with
        | none => rfl
        | some v =>
          exact absurd (by rw [← h2]; exact List.mem_map.2 ⟨_, mem_of_lookup _ _ _ h, rfl⟩) hf
      have e2 : args.lookup f = none := by
        cases h : args.lookup f with
        | none => rfl
        | some v => exact absurd (hk _ (mem_of_lookup _ _ _ h)) hf
      have e3 : ps.lookup f = none := by
        cases h : ps.lookup f with
        | none => rfl
        | some v => exact absurd (List.mem_map.2 ⟨_, mem_of_lookup _ _ _ h, rfl⟩) hf
      rw [e1]; simp [valueOf, e2, e3]

/-- Every field of an instance reads back, and the clone's arguments are the fields' values. -/
theorem fieldValues_spec (c : ModuleClass W) (attrs : Attrs W) (hnd : (c.fields.map Prod.fst).Nodup)
    (hsub : ∀ f ∈ c.fields, ∃ v, attrs.lookup f.1 = some v) :
    ∃ kw, fieldValues c attrs = .ok kw ∧ kw.map Prod.fst = c.fields.map Prod.fst ∧
      ∀ f ∈ c.fields.map Prod.fst, kw.lookup f = attrs.lookup f := by
  unfold fieldValues
  generalize c.fields = fs at *
  induction fs with
  | nil => exact ⟨[], rfl, rfl, by simp⟩
  | cons f fs ih =>
    obtain ⟨kw, h1, h2, h3⟩ := ih (List.nodup_cons.1 hnd).2 (fun g hg => hsub g (List.mem_cons_of_mem _ hg))
    obtain ⟨v, hv⟩ := hsub f List.mem_cons_self
    refine ⟨(f.1, v) :: kw, ?_, by simp [h2], ?_⟩
    · rw [List.mapM_cons, h1]
      simp [readField, hv, bind, Except.bind, pure, Except.pure]
    · intro g hg
      by_cases hgf : g = f.1
      · subst hgf; simp [List.lookup_cons, hv]
      · have hne : (g == f.1) = false := by simpa using hgf
        rw [List.lookup_cons, hne]
        simp only
        exact h3 g (by simpa [hgf] using hg)

theorem valueOf_self (ps : List (String × Option (Option W))) (attrs : Attrs W) (hkeys : attrs.map Prod.fst = ps.map Prod.fst)
    (f : String) : valueOf ps attrs f = attrs.lookup f := by
  unfold valueOf
  cases h : attrs.lookup f with
  | some v => rfl
  | none =>
    have : ps.lookup f = none := by
      cases h' : ps.lookup f with
      | none => rfl
      | some v =>
        have hm : f ∈ attrs.map Prod.fst := by rw [hkeys]; exact List.mem_map.2 ⟨_, mem_of_lookup _ _ _ h', rfl⟩
        obtain ⟨w, hw⟩ := lookup_isSome_of_mem _ _ hm
        rw [hw] at h; cases h
    simp [this]

/-- The outcome of `setup` on an instance whose fields have the values `val`. -/
def setupOutcome (c : ModuleClass W) (val : String → Option (Option W)) : Except Err (List String) :=
  if ∃ a ∈ c.setup val, a ∈ c.fields.map Prod.fst then .error .fieldSetInSetup else .ok (c.setup val)

theorem runSetup_eq (c : ModuleClass W) (attrs : Attrs W) (val : String → Option (Option W))
    (h : ∀ f, attrs.lookup f = val f) : runSetup c attrs = setupOutcome c val := by
  have hfun : (fun f => attrs.lookup f) = val := funext h
  unfold runSetup setupOutcome
  rw [hfun]
  simp only
  by_cases hb : ∃ a ∈ c.setup val, a ∈ c.fields.map Prod.fst
  · rw [if_pos hb, if_pos]
    rw [List.any_eq_true]
    obtain ⟨a, ha, hf⟩ := hb
    exact ⟨a, ha, by simpa using hf⟩
  · rw [if_neg hb, if_neg]
    rw [List.any_eq_true]
    rintro ⟨a, ha, hf⟩
    exact hb ⟨a, ha, by simpa using hf⟩

/-- A class whose `__init__` is generated: whatever way an instance with valid arguments is used (initialised or applied at top
level, passed to another module, created in a compact method or in a `setup`), the outcome is that of its `setup`. -/
theorem generated_outcome (c : ModuleClass W) (args : Attrs W) (hinit : c.customInit = none)
    (hnd : (c.fields.map Prod.fst).Nodup) (hargs : ValidArgs c.fields args) :
    useTop c args = setupOutcome c (valueOf c.fields args) ∧ useField c args = setupOutcome c (valueOf c.fields args) ∧
    useCompact c args = setupOutcome c (valueOf c.fields args) ∧ useSetup c args = setupOutcome c (valueOf c.fields args) := by
  obtain ⟨attrs, h1, h2, h3⟩ := bindArgs_spec c.fields args hnd hargs
  have hread : ∀ f ∈ c.fields, ∃ v, attrs.lookup f.1 = some v := by
    intro f hf
    exact lookup_isSome_of_mem _ _ (by rw [h2]; exact List.mem_map.2 ⟨f, hf, rfl⟩)
  have hall : ∀ a : Attrs W, a.map Prod.fst = c.fields.map Prod.fst → postInit c .scope a = .ok true := by
    intro a ha
    unfold postInit
    simp only
    rw [if_pos]
    rw [List.all_eq_true]
    intro f hf
    obtain ⟨v, hv⟩ := lookup_isSome_of_mem a f.1 (by rw [ha]; exact List.mem_map.2 ⟨f, hf, rfl⟩)
    simp [hv]
  obtain ⟨kw, k1, k2, k3⟩ := fieldValues_spec c attrs hnd hread
  have kwargs : ValidArgs c.fields kw := by
    refine ⟨fun a ha => by rw [← k2]; exact List.mem_map.2 ⟨a, ha, rfl⟩, fun p hp _ => ?_⟩
    exact lookup_isSome_of_mem _ _ (by rw [k2]; exact List.mem_map.2 ⟨p, hp, rfl⟩)
  obtain ⟨attrs', h1', h2', h3'⟩ := bindArgs_spec c.fields kw hnd kwargs
  have hval : ∀ f, attrs'.lookup f = valueOf c.fields args f := by
    intro f
    rw [h3', valueOf_self _ _ k2]
    by_cases hf : f ∈ c.fields.map Prod.fst
    · rw [k3 f hf, h3]
    · have e1 : kw.lookup f = none := by
        cases h : kw.lookup f with
        | none => rfl
        | some v => exact absurd (by rw [← k2]; exact List.mem_map.2 ⟨_, mem_of_lookup _ _ _ h, rfl⟩) hf
      have e2 : attrs.lookup f = none := by
        cases h : attrs.lookup f with
        | none => rfl
        | some v => exact absurd (by rw [← h2]; exact List.mem_map.2 ⟨_, mem_of_lookup _ _ _ h, rfl⟩) hf
      rw [e1, ← h3, e2]
  have c1 : ∀ place extra, construct c place extra args = (postInit c place attrs).bind fun _ => .ok attrs := by
    intro place extra
    unfold construct
    rw [hinit]
    simp [h1, bind, Except.bind]
  have c2 : ∀ place extra, construct c place extra kw = (postInit c place attrs').bind fun _ => .ok attrs' := by
    intro place extra
    unfold construct
    rw [hinit]
    simp [h1', bind, Except.bind]
  have r1 := runSetup_eq c attrs _ h3
  have r2 := runSetup_eq c attrs' _ hval
  have p1 := hall attrs h2
  have p2 := hall attrs' h2'
  have t1 : ∀ a : Attrs W, postInit c .top a = .ok false := fun _ => rfl
  have t2 : ∀ a : Attrs W, postInit c .inSetup a = .ok false := fun _ => rfl
  refine ⟨?_, ?_, ?_, ?_⟩
  · simp [useTop, c1, c2, t1, bind, Except.bind, k1, p2, r2]
  · simp [useField, c1, c2, t1, bind, Except.bind, k1, p2, r2]
  · simp [useCompact, c1, bind, Except.bind, p1, r1]
  · simp [useSetup, c1, t2, bind, Except.bind, p1, r1]

/-- A class with a hand-written `__init__` that takes its fields but not flax's own keywords, with a field without class default:
only creation inside the `setup` of another module works. -/
theorem custom_outcome (c : ModuleClass W) (ps : List (String × Option (Option W))) (args : Attrs W)
    (hinit : c.customInit = some ps) (hkeys : ps.map Prod.fst = c.fields.map Prod.fst)
    (hnd : (c.fields.map Prod.fst).Nodup) (hparent : "parent" ∉ c.fields.map Prod.fst)
    (hreq : ∃ f, (f, none) ∈ c.fields) (hargs : ValidArgs ps args) :
    useTop c args = .error .typeError ∧ useField c args = .error .typeError ∧ useCompact c args = .error .attributeError ∧
    useSetup c args = setupOutcome c (valueOf ps args) := by
  obtain ⟨attrs, h1, h2, h3⟩ := bindArgs_spec ps args (by rw [hkeys]; exact hnd) hargs
  rw [hkeys] at h2
  obtain ⟨kw, k1, k2, k3⟩ := fieldValues_spec c attrs hnd (by
    intro f hf
    exact lookup_isSome_of_mem _ _ (by rw [h2]; exact List.mem_map.2 ⟨f, hf, rfl⟩))
  have hp : "parent" ∉ ps.map Prod.fst := by rw [hkeys]; exact hparent
  have hscope : postInit c .scope attrs = .ok true := by
    unfold postInit
    simp only
    rw [if_pos]
    rw [List.all_eq_true]
    intro f hf
    obtain ⟨v, hv⟩ := lookup_isSome_of_mem attrs f.1 (by rw [h2]; exact List.mem_map.2 ⟨f, hf, rfl⟩)
    simp [hv]
  obtain ⟨f, hf⟩ := hreq
  have hdef : (classDefaults c).lookup f = none := by
    cases h : (classDefaults c).lookup f with
    | none => rfl
    | some v =>
      have hm := mem_of_lookup _ _ _ h
      obtain ⟨g, hg, hgv⟩ := List.mem_filterMap.1 hm
      obtain ⟨g1, g2⟩ := g
      cases g2 with
      | none => simp at hgv
      | some d =>
        simp only [Option.map_some, Option.some.injEq, Prod.mk.injEq] at hgv
        obtain ⟨rfl, _⟩ := hgv
        have hinj := List.inj_on_of_nodup_map hnd hf hg rfl
        simp at hinj
  have hfail : postInit c .scope (classDefaults c) = .error .attributeError := by
    unfold postInit
    simp only
    rw [if_neg]
    rw [List.all_eq_true]
    intro hall
    have := hall _ hf
    simp [hdef] at this
  have e1 : ∀ (extra : List String) (a : Attrs W) place, "parent" ∈ extra → construct c place extra a = .error .typeError := by
    intro extra a place hex
    unfold construct
    rw [hinit]
    simp only
    rw [if_pos]
    rw [List.any_eq_true]
    exact ⟨"parent", hex, by simpa using hp⟩
  have e2 : ∀ place, construct c place [] args =
      (postInit c place (classDefaults c)).bind fun done => if done && !attrs.isEmpty then .error .frozen else .ok attrs := by
    intro place
    unfold construct
    rw [hinit]
    simp [h1, bind, Except.bind]
  have t1 : ∀ a : Attrs W, postInit c .top a = .ok false := fun _ => rfl
  have t2 : ∀ a : Attrs W, postInit c .inSetup a = .ok false := fun _ => rfl
  refine ⟨?_, ?_, ?_, ?_⟩
  · simp [useTop, e2, t1, e1, bind, Except.bind, k1]
  · simp [useField, e2, t1, e1, bind, Except.bind, k1]
  · simp [useCompact, e2, hfail, bind, Except.bind]
  · simp [useSetup, e2, t2, hscope, bind, Except.bind, runSetup_eq c attrs _ h3]

/-! ## The classes -/

/-- C148 (that the pattern classes are ordinary Flax modules is false of the code): a `HierarchicalState` cannot be initialised
or applied (`TypeError`), nor be handed to another module (`TypeError`), nor be created in a compact method
(`AttributeError`), whatever its modules and dependencies; created in the `setup` of another module it works, its `setup`
registering each module under its own attribute. -/
theorem C148_hierarchical_state_partial (names : List String) (modules : Option W) (deps : Option W) :
    let args := [("modules", modules), ("dependencies", deps)]
    useTop (hierarchicalState names) args = .error .typeError ∧ useField (hierarchicalState names) args = .error .typeError ∧
    useCompact (hierarchicalState names) args = .error .attributeError ∧
    useSetup (hierarchicalState names) args = .ok (names.map fun n => "module_" ++ n) := by
  intro args
  have h := custom_outcome (hierarchicalState names) [("modules", none), ("dependencies", some none)] args rfl rfl
    (by simp [hierarchicalState]) (by simp [hierarchicalState]) ⟨"modules", by simp [hierarchicalState]⟩
    ⟨by intro a ha; simp [args] at ha; rcases ha with rfl | rfl <;> simp, by
      intro p hp hn; simp at hp; rcases hp with rfl | rfl
      · exact ⟨modules, by simp [args, List.lookup_cons]⟩
      · simp at hn⟩
  refine ⟨h.1, h.2.1, h.2.2.1, ?_⟩
  rw [h.2.2.2, setupOutcome, if_neg]
  · rfl
  · rintro ⟨a, ha, hf⟩
    simp only [hierarchicalState, List.mem_map] at ha
    obtain ⟨n, _, rfl⟩ := ha
    simp only [hierarchicalState, List.map_cons, List.map_nil, List.mem_cons, List.not_mem_nil, or_false] at hf
    rcases hf with hf | hf
    · have := congrArg (fun s => s.toList[6]?) hf
      simp [String.toList_append] at this
    · have := congrArg (fun s => s.toList[0]?) hf
      simp [String.toList_append] at this

/-- C148: the same for `ConditionalStateUpdate`. -/
theorem C148_conditional_state_update_partial (false' : W) (module cond reset : Option W) :
    let args := [("module", module), ("condition_fn", cond), ("reset_on_condition", reset)]
    useTop (conditionalStateUpdateClass false') args = .error .typeError ∧
    useField (conditionalStateUpdateClass false') args = .error .typeError ∧
    useCompact (conditionalStateUpdateClass false') args = .error .attributeError ∧
    useSetup (conditionalStateUpdateClass false') args = .ok ["wrapped_module"] := by
  intro args
  have h := custom_outcome (conditionalStateUpdateClass false')
    [("module", none), ("condition_fn", none), ("reset_on_condition", some (some false'))] args rfl rfl
    (by simp [conditionalStateUpdateClass]) (by simp [conditionalStateUpdateClass]) ⟨"module", by simp [conditionalStateUpdateClass]⟩
    ⟨by intro a ha; simp [args] at ha; rcases ha with rfl | rfl | rfl <;> simp, by
      intro p hp hn; simp at hp; rcases hp with rfl | rfl | rfl
      · exact ⟨module, by simp [args, List.lookup_cons]⟩
      · exact ⟨cond, by simp [args, List.lookup_cons]⟩
      · simp at hn⟩
  refine ⟨h.1, h.2.1, h.2.2.1, ?_⟩
  rw [h.2.2.2, setupOutcome, if_neg]
  · rfl
  · simp [conditionalStateUpdateClass]

/-- C148: the same for `StreamingStateMachine`. -/
theorem C148_streaming_state_machine_partial (names : List String) (states transitions initial : Option W) :
    let args := [("states", states), ("transitions", transitions), ("initial_state", initial)]
    useTop (streamingStateMachine names) args = .error .typeError ∧
    useField (streamingStateMachine names) args = .error .typeError ∧
    useCompact (streamingStateMachine names) args = .error .attributeError ∧
    useSetup (streamingStateMachine names) args = .ok ((names.map fun n => "state_" ++ n) ++ ["current_state"]) := by
  intro args
  have h := custom_outcome (streamingStateMachine names)
    [("states", none), ("transitions", none), ("initial_state", none)] args rfl rfl
    (by simp [streamingStateMachine]) (by simp [streamingStateMachine]) ⟨"states", by simp [streamingStateMachine]⟩
    ⟨by intro a ha; simp [args] at ha; rcases ha with rfl | rfl | rfl <;> simp, by
      intro p hp hn; simp at hp; rcases hp with rfl | rfl | rfl
      · exact ⟨states, by simp [args, List.lookup_cons]⟩
      · exact ⟨transitions, by simp [args, List.lookup_cons]⟩
      · exact ⟨initial, by simp [args, List.lookup_cons]⟩⟩
  refine ⟨h.1, h.2.1, h.2.2.1, ?_⟩
  rw [h.2.2.2, setupOutcome, if_neg]
  · rfl
  · rintro ⟨a, ha, hf⟩
    simp only [streamingStateMachine, List.mem_append, List.mem_map, List.mem_singleton] at ha
    simp only [streamingStateMachine, List.map_cons, List.map_nil, List.mem_cons, List.not_mem_nil, or_false] at hf
    rcases ha with ⟨n, _, rfl⟩ | rfl
    · rcases hf with hf | hf | hf
      · have := congrArg (fun s => s.toList[5]?) hf
        simp [String.toList_append] at this
      · have := congrArg (fun s => s.toList[0]?) hf
        simp [String.toList_append] at this
      · have := congrArg (fun s => s.toList[0]?) hf
        simp [String.toList_append] at this
    · simp at hf

/-- C148: a Flax module with a generated `__init__` whose `setup` assigns only its own attributes works in all four ways. -/
theorem C148_generated (c : ModuleClass W) (args : Attrs W) (hinit : c.customInit = none)
    (hnd : (c.fields.map Prod.fst).Nodup) (hargs : ValidArgs c.fields args)
    (hset : ∀ a ∈ c.setup (valueOf c.fields args), a ∉ c.fields.map Prod.fst) :
    ∀ use ∈ [useTop, useField, useCompact, useSetup], use c args = .ok (c.setup (valueOf c.fields args)) := by
  have h := generated_outcome c args hinit hnd hargs
  have e : setupOutcome c (valueOf c.fields args) = .ok (c.setup (valueOf c.fields args)) := by
    rw [setupOutcome, if_neg]
    rintro ⟨a, ha, hf⟩
    exact hset a ha hf
  rw [e] at h
  intro use hu
  simp only [List.mem_cons, List.not_mem_nil, or_false] at hu
  rcases hu with rfl | rfl | rfl | rfl
  · exact h.1
  · exact h.2.1
  · exact h.2.2.1
  · exact h.2.2.2

/-- C148: and one whose `setup` assigns one of its fields works in none. -/
theorem C148_generated_field_assigned (c : ModuleClass W) (args : Attrs W) (hinit : c.customInit = none)
    (hnd : (c.fields.map Prod.fst).Nodup) (hargs : ValidArgs c.fields args) (a : String)
    (ha : a ∈ c.setup (valueOf c.fields args)) (hf : a ∈ c.fields.map Prod.fst) :
    ∀ use ∈ [useTop, useField, useCompact, useSetup], use c args = .error .fieldSetInSetup := by
  have h := generated_outcome c args hinit hnd hargs
  have e : setupOutcome c (valueOf c.fields args) = .error .fieldSetInSetup := by
    rw [setupOutcome, if_pos ⟨a, ha, hf⟩]
  rw [e] at h
  intro use hu
  simp only [List.mem_cons, List.not_mem_nil, or_false] at hu
  rcases hu with rfl | rfl | rfl | rfl
  · exact h.1
  · exact h.2.1
  · exact h.2.2.1
  · exact h.2.2.2

/-- C148 (that the documented default of `params_predicate` works is false of the code): a Flax `OnlineOptimizer` without an
explicit predicate (none given, or `None`) raises whatever the way it is used; with a predicate it is set up. -/
theorem C148_online_optimizer_default_partial (args : Attrs W) (hargs : ValidArgs (onlineOptimizerClass (W := W)).fields args) :
    ∀ use ∈ [useTop, useField, useCompact, useSetup], use onlineOptimizerClass args =
      match args.lookup "params_predicate" with
      | some (some _) => .ok ["optimizer"]
      | _ => .error .fieldSetInSetup := by
  have hnd : ((onlineOptimizerClass (W := W)).fields.map Prod.fst).Nodup := by simp [onlineOptimizerClass]
  intro use hu
  cases hl : args.lookup "params_predicate" with
  | none =>
    refine C148_generated_field_assigned _ args rfl hnd hargs "params_predicate" ?_ (by simp [onlineOptimizerClass]) use hu
    simp [onlineOptimizerClass, valueOf, hl, List.lookup_cons, isNoneValue]
  | some v =>
    cases v with
    | none =>
      refine C148_generated_field_assigned _ args rfl hnd hargs "params_predicate" ?_ (by simp [onlineOptimizerClass]) use hu
      simp [onlineOptimizerClass, valueOf, hl, isNoneValue]
    | some w =>
      have hs : (onlineOptimizerClass (W := W)).setup (valueOf (onlineOptimizerClass (W := W)).fields args) = ["optimizer"] := by
        simp [onlineOptimizerClass, valueOf, hl, isNoneValue]
      rw [C148_generated _ args rfl hnd hargs (by rw [hs]; simp [onlineOptimizerClass]) use hu, hs]

/-- C148: the same for the Flax `UpdateParams`. -/
theorem C148_update_params_default_partial (args : Attrs W) (hargs : ValidArgs (updateParamsClass (W := W)).fields args) :
    ∀ use ∈ [useTop, useField, useCompact, useSetup], use updateParamsClass args =
      match args.lookup "predicate" with
      | some (some _) => .ok []
      | _ => .error .fieldSetInSetup := by
  have hnd : ((updateParamsClass (W := W)).fields.map Prod.fst).Nodup := by simp [updateParamsClass]
  intro use hu
  cases hl : args.lookup "predicate" with
  | none =>
    refine C148_generated_field_assigned _ args rfl hnd hargs "predicate" ?_ (by simp [updateParamsClass]) use hu
    simp [updateParamsClass, valueOf, hl, List.lookup_cons, isNoneValue]
  | some v =>
    cases v with
    | none =>
      refine C148_generated_field_assigned _ args rfl hnd hargs "predicate" ?_ (by simp [updateParamsClass]) use hu
      simp [updateParamsClass, valueOf, hl, isNoneValue]
    | some w =>
      have hs : (updateParamsClass (W := W)).setup (valueOf (updateParamsClass (W := W)).fields args) = [] := by
        simp [updateParamsClass, valueOf, hl, isNoneValue]
      rw [C148_generated _ args rfl hnd hargs (by rw [hs]; simp [updateParamsClass]) use hu, hs]

/-- C148: a Flax `FuncOptimizer` of a Flax module (an object with `init`) needs an explicit predicate; one of a plain function
never does. -/
theorem C148_func_optimizer_default_partial (false' : W) (hasInit : Bool) (args : Attrs W)
    (hargs : ValidArgs (funcOptimizerClass false').fields args) :
    funcOptimizerCall false' hasInit args =
      match hasInit, args.lookup "params_predicate" with
      | false, _ => .ok ()
      | true, some (some _) => .ok ()
      | true, _ => .error .fieldSetInSetup := by
  have hnd : ((funcOptimizerClass false').fields.map Prod.fst).Nodup := by simp [funcOptimizerClass]
  have htop := C148_generated _ args rfl hnd hargs (by simp [funcOptimizerClass]) useTop (by simp)
  obtain ⟨attrs, h1, _, h3⟩ := bindArgs_spec _ args hnd hargs
  have hc : construct (funcOptimizerClass false') .top [] args = .ok attrs := by
    unfold construct
    have : (funcOptimizerClass false').customInit = none := rfl
    rw [this]
    simp [h1, bind, Except.bind, postInit]
  unfold funcOptimizerCall
  cases hasInit with
  | false => simp [htop, bind, Except.bind]
  | true =>
    simp only [htop, hc, bind, Except.bind, if_true]
    have hp : (attrs.lookup "params_predicate").join = (args.lookup "params_predicate").join := by
      rw [h3]
      unfold valueOf
      cases args.lookup "params_predicate" with
      | none => simp [funcOptimizerClass, List.lookup_cons]
      | some v => rfl
    rw [hp]
    have hu := C148_update_params_default_partial
      [("fun", (attrs.lookup "fun").join), ("predicate", (args.lookup "params_predicate").join)]
      ⟨by intro a ha; simp at ha; rcases ha with rfl | rfl <;> simp [updateParamsClass], by
        intro p hp hn; simp [updateParamsClass] at hp; rcases hp with rfl | rfl
        · exact ⟨_, by simp [List.lookup_cons]; rfl⟩
        · simp at hn⟩ useSetup (by simp)
    rw [hu]
    cases args.lookup "params_predicate" with
    | none => simp [List.lookup_cons]
    | some v => cases v <;> simp [List.lookup_cons]

/-- C148: a `HierarchicalStateMachine` works exactly when none of its states is called `modules` (the attribute of the state would
be the field `state_modules`). -/
theorem C148_hierarchical_machine_names (sequential : W) (names : List String) (args : Attrs W)
    (hargs : ValidArgs (hierarchicalStateMachineClass sequential names).fields args) :
    ∀ use ∈ [useTop, useField, useCompact, useSetup], use (hierarchicalStateMachineClass sequential names) args =
      if "modules" ∈ names then .error .fieldSetInSetup
      else .ok ((names.map fun n => "state_" ++ n) ++ ["coordination_state", "state_name_list"]) := by
  have hnd : ((hierarchicalStateMachineClass sequential names).fields.map Prod.fst).Nodup := by
    simp [hierarchicalStateMachineClass]
  intro use hu
  by_cases hm : "modules" ∈ names
  · rw [if_pos hm]
    exact C148_generated_field_assigned _ args rfl hnd hargs "state_modules"
      (by
        show "state_modules" ∈ (names.map fun n => "state_" ++ n) ++ _
        exact List.mem_append_left _ (List.mem_map.2 ⟨"modules", hm, by decide⟩))
      (by simp [hierarchicalStateMachineClass]) use hu
  · rw [if_neg hm]
    refine C148_generated _ args rfl hnd hargs ?_ use hu
    intro a ha hf
    simp only [hierarchicalStateMachineClass, List.mem_append, List.mem_map, List.mem_cons, List.not_mem_nil, or_false] at ha
    simp only [hierarchicalStateMachineClass, List.map_cons, List.map_nil, List.mem_cons, List.not_mem_nil, or_false] at hf
    rcases ha with ⟨n, hn, rfl⟩ | rfl | rfl
    · rcases hf with hf | hf | hf
      · have hl : n.toList = "modules".toList := by
          have := congrArg (fun s => s.toList.drop 6) hf
          simpa [String.toList_append] using this
        rw [String.toList_inj] at hl
        exact hm (hl ▸ hn)
      · have := congrArg (fun s => s.toList[0]?) hf
        simp [String.toList_append] at this
      · have := congrArg (fun s => s.toList[0]?) hf
        simp [String.toList_append] at this
    · simp at hf
    · simp at hf

/-- C148: a `CompositeStateManager` works whatever the names of its patterns. -/
theorem C148_composite_manager (pipeline : W) (names : List String) (args : Attrs W)
    (hargs : ValidArgs (compositeStateManagerClass pipeline names).fields args) :
    ∀ use ∈ [useTop, useField, useCompact, useSetup], use (compositeStateManagerClass pipeline names) args =
      .ok (names.map fun n => "pattern_" ++ n) := by
  have hnd : ((compositeStateManagerClass pipeline names).fields.map Prod.fst).Nodup := by
    simp [compositeStateManagerClass]
  intro use hu
  refine C148_generated _ args rfl hnd hargs ?_ use hu
  intro a ha hf
  simp only [compositeStateManagerClass, List.mem_map] at ha
  obtain ⟨n, _, rfl⟩ := ha
  simp only [compositeStateManagerClass, List.map_cons, List.map_nil, List.mem_cons, List.not_mem_nil, or_false] at hf
  rcases hf with hf | hf
  · have := congrArg (fun s => s.toList[0]?) hf
    simp [String.toList_append] at this
  · have := congrArg (fun s => s.toList[0]?) hf
    simp [String.toList_append] at this

/-! ## Decorators and unattached instances -/

/-- C148: a function decorated with `hierarchical_composition`, `conditional_update` or `state_machine` raises `AttributeError`
on every `init` and `apply`, whatever the decorated function, the modules and the arguments: its body is never reached. -/
theorem C148_decorators_raise_partial (names : List String) (modules : W) (body : List (String × W) → Except Err O)
    (kwargs : List (String × W)) (false' module conditionFn reset states transitions initial : W)
    (body' : I → Except Err O) (x : I) :
    hierarchicalCompositionCall names modules body kwargs = .error .attributeError ∧
    conditionalUpdateCall false' module conditionFn reset body' x = .error .attributeError ∧
    stateMachineCall names states transitions initial body' x = .error .attributeError := by
  refine ⟨?_, ?_, ?_⟩
  · rfl
  · have := (C148_conditional_state_update_partial false' (some module) (some conditionFn) (some reset)).2.2.1
    simp [conditionalUpdateCall, this, bind, Except.bind]
  · have := (C148_streaming_state_machine_partial names (some states) (some transitions) (some initial)).2.2.1
    simp [stateMachineCall, this, bind, Except.bind]

/-- C148: an instance created at top level and called directly has its fields but not the attributes set by `setup`: a
`ConditionalStateUpdate` answers only when its condition fails, a `StreamingStateMachine` never. -/
theorem C148_unattached_calls_partial (false' : W) (module cond reset states transitions initial : Option W)
    (names : List String) (holds : I → Bool) (call run : Option W → I → Except Err O) (arg0 : I → O) (x : I) :
    (∃ m, construct (conditionalStateUpdateClass false') .top []
        [("module", module), ("condition_fn", cond), ("reset_on_condition", reset)] = .ok m ∧
      conditionalUnboundCall m holds call arg0 x = if holds x then .error .attributeError else .ok (arg0 x)) ∧
    ∃ m, construct (streamingStateMachine names) .top []
        [("states", states), ("transitions", transitions), ("initial_state", initial)] = .ok m ∧
      stateMachineUnboundCall m run x = .error .attributeError := by
  refine ⟨⟨[("module", module), ("condition_fn", cond), ("reset_on_condition", reset)], rfl, ?_⟩,
    ⟨[("states", states), ("transitions", transitions), ("initial_state", initial)], rfl, rfl⟩⟩
  unfold conditionalUnboundCall
  split <;> rfl

example : useSetup (hierarchicalState (W := Nat) ["a", "b"]) [("modules", some 1)] = .ok ["module_a", "module_b"] := by decide
example : useTop (hierarchicalState (W := Nat) ["a", "b"]) [("modules", some 1)] = .error .typeError := by decide
example : useTop (onlineOptimizerClass (W := Nat)) [("model", some 1), ("opt", some 2), ("params_predicate", some 3)] =
    .ok ["optimizer"] := by decide
example : useTop (onlineOptimizerClass (W := Nat)) [("model", some 1), ("opt", some 2)] = .error .fieldSetInSetup := by decide
example : ValidArgs (onlineOptimizerClass (W := Nat)).fields [("model", some 1), ("opt", some 2)] :=
  ⟨by simp [onlineOptimizerClass], by simp [onlineOptimizerClass, List.lookup_cons]⟩
example : useField (hierarchicalStateMachineClass (W := Nat) 0 ["market", "modules"]) [("state_modules", some 1)] =
    .error .fieldSetInSetup := by decide

end Verif.Props
