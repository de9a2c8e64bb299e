import Verif.Model.Decorators

/-! # Properties C156, C157: stacking the debugging decorators -/

set_option linter.unusedSectionVars false
set_option linter.unusedSimpArgs false

namespace Verif.Props
open Model.Decorators

section decorators
variable {A V E : Type}

/-- A module name was given: not None, not empty. -/
def named (g : Option String) : Bool := (g.getD "") != ""

/-- The name of a wrapper around something without a name. -/
def wrapperName : Tool → String
  | .debug => "debug_wrapped"
  | .profile => "profile_wrapped"
  | .memory => "memory_wrapped"

/-- What a decorator records on entry: the tracker takes a snapshot. -/
def onEntry (d : Tool × String) : List Entry := if d.1 = .memory then [⟨.memory, d.2, .before⟩] else []

/-- What a decorator records when the call returns: the debugger a step, the profiler a record of duration zero and the timed one,
the tracker a second snapshot. -/
def onReturn (d : Tool × String) : List Entry :=
  match d with
  | (.debug, n) => [⟨.debug, n, .step⟩]
  | (.profile, n) => [⟨.profile, n, .zero⟩, ⟨.profile, n, .timed⟩]
  | (.memory, n) => [⟨.memory, n, .after⟩]

/-- What a decorator records when the call raises: the profiler its timed record. -/
def onRaise (d : Tool × String) : List Entry := if d.1 = .profile then [⟨.profile, d.2, .timed⟩] else []

theorem wrapperName_eq (t : Tool) : t.fallback = wrapperName t := by cases t <;> rfl
theorem onEntry_eq (t : Tool) (n : String) : t.pre n = onEntry (t, n) := by cases t <;> rfl
theorem onReturn_eq (t : Tool) (n : String) : t.post n = onReturn (t, n) := by cases t <;> rfl
theorem onRaise_eq (t : Tool) (n : String) : t.fail n = onRaise (t, n) := by cases t <;> rfl

/-- The names used by the decorators of a stack (outermost first) over an object without a name whose innermost decorator is
`t`: the given one, or the fallback name of `t`'s wrapper. -/
def namesUsed (t : Tool) (ds : List (Tool × Option String)) : List (Tool × String) :=
  ds.map fun d => (d.1, if named d.2 then d.2.getD "" else wrapperName t)

theorem moduleName_spec (g n : Option String) :
    moduleName g n = if named g then .ok (g.getD "") else match n with | some n => .ok n | none => .error () := by
  cases g with
  | none => cases n <;> rfl
  | some g =>
    by_cases h : g = ""
    · subst h; cases n <;> rfl
    · simp [moduleName, named, h]

/-- C157: a decorator refuses (AttributeError) exactly the objects without `__name__` when it is given no module name; the
results of `streaming_transform_with_state` and of `flax_transform_with_state` are such objects. -/
theorem C157_name_required_partial (t : Tool) (g : Option String) (o : Obj A V E) :
    (decorate t g o = .error () ↔ named g = false ∧ o.name = none) ∧
    (∀ scan (f : A → Except E V), (transform scan f).name = none) := by
  refine ⟨?_, fun _ _ => rfl⟩
  unfold decorate
  rw [moduleName_spec]
  cases hg : named g <;> cases o.name <;> simp [Except.map]

/-- C157: a stack over a transform can be built exactly when its innermost decorator is given a module name. -/
theorem C157_stack_builds_partial (ds : List (Tool × Option String)) (t : Tool) (g : Option String) (scan : Bool)
    (f : A → Except E V) :
    (∃ o, stack (ds ++ [(t, g)]) (transform scan f) = .ok o) ↔ named g = true := by
  have inner : stack [(t, g)] (transform scan f) = decorate t g (transform scan f) := rfl
  have step : ∀ (ds : List (Tool × Option String)), (named g = false →
        stack (ds ++ [(t, g)]) (transform scan f) = .error ()) ∧
      (named g = true → ∃ o, stack (ds ++ [(t, g)]) (transform scan f) = .ok o ∧ o.name.isSome = true) := by
    intro ds
    induction ds with
    | nil =>
      constructor
      · intro h
        rw [List.nil_append, inner]
        exact ((C157_name_required_partial t g _).1).2 ⟨h, rfl⟩
      · intro h
        rw [List.nil_append, inner]
        unfold decorate
        rw [moduleName_spec]
        simp [h, Except.map, transform]
    | cons d ds ih =>
      constructor
      · intro h
        rw [List.cons_append]
        unfold stack
        rw [ih.1 h]; rfl
      · intro h
        obtain ⟨o, ho, hn⟩ := ih.2 h
        rw [List.cons_append]
        unfold stack
        rw [ho]
        obtain ⟨n, hn'⟩ := Option.isSome_iff_exists.1 hn
        simp only [Except.bind, decorate, moduleName_spec, hn']
        cases named d.2 <;> simp [Except.map]
  constructor
  · rintro ⟨o, ho⟩
    cases hg : named g with
    | true => rfl
    | false => rw [(step ds).1 hg] at ho; cases ho
  · intro h
    obtain ⟨o, ho, _⟩ := (step ds).2 h
    exact ⟨o, ho⟩

/-- C156: decorating is transparent: whatever the stack, the decorated `apply` returns or raises what the function returns or
raises.  Each decorator records once per call, in nesting order: on entry from the outermost to the innermost, on return from
the innermost to the outermost; when the function raises, only the profilers (timed records) and the trackers' snapshots
taken on entry remain.  Recordings carry the given module name, or the fallback name of the *innermost* wrapper.  `init` is
kept and `scan` is lost. -/
theorem C156_transparent (ds : List (Tool × Option String)) (t : Tool) (g : Option String) (scan : Bool)
    (f : A → Except E V) (o : Obj A V E) (h : stack (ds ++ [(t, g)]) (transform scan f) = .ok o) :
    o.name = some (wrapperName t) ∧ o.init = true ∧ o.scan = false ∧
    ∀ a : A, (o.apply a).1 = f a ∧
      (o.apply a).2 = (namesUsed t (ds ++ [(t, g)])).flatMap onEntry ++
        (namesUsed t (ds ++ [(t, g)])).reverse.flatMap
          (match f a with
          | .ok _ => onReturn
          | .error _ => onRaise) := by
  have hg : named g = true := (C157_stack_builds_partial ds t g scan f).1 ⟨o, h⟩
  induction ds generalizing o with
  | nil =>
    have e : stack ([] ++ [(t, g)]) (transform scan f) = decorate t g (transform scan f) := rfl
    rw [e] at h
    simp only [decorate, moduleName_spec, hg, if_true, Except.map, Except.ok.injEq, wrapperName_eq] at h
    subst h
    refine ⟨rfl, rfl, rfl, fun a => ⟨rfl, ?_⟩⟩
    simp [wrapApply, transform, namesUsed, hg, onEntry_eq, onReturn_eq, onRaise_eq]
    cases f a <;> rfl
  | cons d ds ih =>
    rw [List.cons_append] at h
    unfold stack at h
    cases hs : stack (ds ++ [(t, g)]) (transform scan f) with
    | error e => rw [hs] at h; cases h
    | ok o' =>
      obtain ⟨h1, h2, h3, h4⟩ := ih o' hs
      rw [hs] at h
      simp only [Except.bind, decorate, moduleName_spec, h1] at h
      have hn : (if named d.2 = true then (Except.ok (d.2.getD "") : Except Unit String) else .ok (wrapperName t)) =
          .ok (if named d.2 then d.2.getD "" else wrapperName t) := by cases named d.2 <;> rfl
      rw [hn] at h
      simp only [Except.map, Except.ok.injEq] at h
      subst h
      refine ⟨rfl, h2, rfl, fun a => ⟨(h4 a).1, ?_⟩⟩
      have e : namesUsed t (d :: ds ++ [(t, g)]) =
          (d.1, if named d.2 then d.2.getD "" else wrapperName t) :: namesUsed t (ds ++ [(t, g)]) := rfl
      simp only [wrapApply, onEntry_eq, onReturn_eq, onRaise_eq, (h4 a).1, (h4 a).2, e, List.reverse_cons, List.flatMap_append, List.flatMap_cons,
        List.flatMap_nil, List.append_nil, List.append_assoc]
      cases f a <;> rfl

/-- C157: no decorated transform has `scan`, even when the transform does. -/
theorem C157_scan_lost_partial (ds : List (Tool × Option String)) (hne : ds ≠ []) (f : A → Except E V) (o : Obj A V E)
    (h : stack ds (transform true f) = .ok o) : (transform true f).scan = true ∧ o.scan = false := by
  refine ⟨rfl, ?_⟩
  obtain ⟨ds', d, rfl⟩ : ∃ ds' d, ds = ds' ++ [d] := ⟨ds.dropLast, ds.getLast hne, (List.dropLast_concat_getLast hne).symm⟩
  exact (C156_transparent ds' d.1 d.2 true f o h).2.2.1

example : ∃ o, stack [(.debug, none), (.memory, some "m")] (transform true fun (x : Nat) => (.ok (x + 1) : Except Unit Nat)) =
    .ok o ∧ o.apply 3 = (.ok 4, [⟨.memory, "m", .before⟩, ⟨.memory, "m", .after⟩, ⟨.debug, "memory_wrapped", .step⟩]) :=
  ⟨_, rfl, rfl⟩

example : stack [(.debug, some "d"), (.memory, none)] (transform true fun (x : Nat) => (.ok (x + 1) : Except Unit Nat)) =
    .error () := rfl

end decorators
end Verif.Props
