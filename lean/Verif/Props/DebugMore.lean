import Verif.Props.Debug

/-! # Properties C58, C59, C79, continued: the dictionary of hooks, idle hooks, absent fields, tracked functions -/

set_option linter.unusedSectionVars false
set_option linter.unusedSimpArgs false

namespace Verif.Props
open Model.Debug

section hooks
variable {C St In Out H : Type}

/-- C58: a hook that is switched off or has no condition is never triggered: no step changes it. -/
theorem C58_idle_hook (h : Hook C St In Out) (hidle : h.enabled = false ∨ h.condition = none) (e : Event St In Out) :
    h.onStep e = h := by
  have hc : h.check e = (false, h) := by
    unfold Hook.check
    rcases hidle with h1 | h1
    · simp [h1]
    · cases h.enabled <;> simp [h1]
  unfold Hook.onStep
  rw [hc]
  rfl

/-- C58: after `add_hook(name, h)` the hook of that name is `h`, whether or not one existed, every other hook is what it was, and
the order is that of a dictionary: an existing name keeps its place, a new one comes last. Nothing else changes. -/
theorem C58_add_hook (d : Debugger C St In Out H) (name : String) (h : Hook C St In Out) :
    (d.addHook name h).hooks.lookup name = some h ∧
    (∀ other, other ≠ name → (d.addHook name h).hooks.lookup other = d.hooks.lookup other) ∧
    (d.addHook name h).hooks.map (·.1) =
      (if name ∈ d.hooks.map (·.1) then d.hooks.map (·.1) else d.hooks.map (·.1) ++ [name]) ∧
    (d.addHook name h).stateHistory = d.stateHistory ∧ (d.addHook name h).execTimes = d.execTimes ∧
    (d.addHook name h).execSteps = d.execSteps ∧ (d.addHook name h).currentStep = d.currentStep ∧
    (d.addHook name h).enabled = d.enabled := by
  have hmem : d.hooks.any (·.1 == name) = true ↔ name ∈ d.hooks.map (·.1) := by
    rw [List.any_eq_true, List.mem_map]
    simp only [beq_iff_eq]
  refine ⟨?_, fun other ho => lookup_addHook d name other h (Ne.symm ho), ?_, rfl, rfl, rfl, rfl, rfl⟩
  · unfold Debugger.addHook
    simp only
    split
    · next hex =>
      rw [hmem] at hex
      generalize d.hooks = l at hex
      induction l with
      | nil => simp at hex
      | cons a l ih =>
        obtain ⟨k, v⟩ := a
        rw [List.map_cons]
        by_cases hk : k = name
        · subst hk; simp [List.lookup_cons]
        · have h1 : (k == name) = false := by simp [hk]
          have h2 : (name == k) = false := by simp [Ne.symm hk]
          simp only [h1, Bool.false_eq_true, if_false, List.lookup_cons, h2]
          exact ih (by simpa [Ne.symm hk] using hex)
    · next hex =>
      have hno : d.hooks.lookup name = none := by
        rw [hmem] at hex
        generalize d.hooks = l at hex
        induction l with
        | nil => rfl
        | cons a l ih =>
          obtain ⟨k, v⟩ := a
          simp only [List.map_cons, List.mem_cons, not_or] at hex
          have h2 : (name == k) = false := by simp [hex.1]
          simp only [List.lookup_cons, h2]
          exact ih hex.2
      rw [List.lookup_append, hno]
      simp [List.lookup_cons]
  · unfold Debugger.addHook
    simp only
    split
    · next hex =>
      rw [if_pos (hmem.1 hex), List.map_map]
      apply List.map_congr_left
      intro p _
      simp only [Function.comp]
      split <;> rfl
    · next hex =>
      rw [if_neg (fun hm => hex (hmem.2 hm)), List.map_append]
      rfl

/-- C58: after `remove_hook(name)` there is no hook of that name; the other hooks are what they were, in the same order. -/
theorem C58_remove_hook (d : Debugger C St In Out H) (name : String) :
    (d.removeHook name).hooks.lookup name = none ∧
    (∀ other, other ≠ name → (d.removeHook name).hooks.lookup other = d.hooks.lookup other) ∧
    (d.removeHook name).hooks.map (·.1) = (d.hooks.map (·.1)).filter (· ≠ name) := by
  refine ⟨?_, fun other ho => lookup_removeHook d name other (Ne.symm ho), ?_⟩
  · unfold Debugger.removeHook
    simp only
    generalize d.hooks = l
    induction l with
    | nil => rfl
    | cons a l ih =>
      obtain ⟨k, v⟩ := a
      rw [List.filter_cons]
      by_cases hk : k = name
      · subst hk; simpa using ih
      · have h1 : (k == name) = false := by simp [hk]
        have h2 : (name == k) = false := by simp [Ne.symm hk]
        simp only [h1, Bool.not_false, if_true, List.lookup_cons, h2, ih]
  · unfold Debugger.removeHook
    simp only [List.filter_map]
    congr 1
    apply List.filter_congr
    intro p _
    by_cases hp : p.1 = name <;> simp [hp]

example : ∃ d : Debugger Unit Nat Nat Nat Nat,
    ((d.addHook "a" ⟨none, (), 1, [], true, 0⟩).addHook "b" ⟨none, (), 1, [], true, 0⟩).hooks.map (·.1) = ["a", "b"] :=
  ⟨⟨[], [], [], [], 0, true⟩, by decide +kernel⟩

end hooks

section absent
variable {K : Type} [Field K] [LinearOrder K] [IsStrictOrderedRing K]

/-- The detector as a machine on the successive states, in which the watched field may be absent. -/
def detectorOpt (tol : K) : Mealy (Option K) (Option K) (Option Bool) :=
  ⟨none, fun last v => stateChange (In := Unit) (Out := Unit) id tol last ⟨0, "", v, (), ()⟩⟩

/-- C79: a state without the watched field is never reported, and the answers on the other states are those of the detector on
these states only. -/
theorem C79_absent_field (tol : K) (vs : List (Option K)) :
    ((detectorOpt tol).run vs).length = vs.length ∧
    (∀ t : Nat, vs[t]? = some none → ((detectorOpt tol).run vs)[t]? = some (some false)) ∧
    ((vs.zip ((detectorOpt tol).run vs)).filterMap fun p => p.1.map fun _ => p.2) = (detector tol).run (vs.filterMap id) := by
  have gen : ∀ (vs : List (Option K)) (last : Option K),
      ((detectorOpt tol).outsFrom last vs).length = vs.length ∧
      (∀ t : Nat, vs[t]? = some none → ((detectorOpt tol).outsFrom last vs)[t]? = some (some false)) ∧
      ((vs.zip ((detectorOpt tol).outsFrom last vs)).filterMap fun p => p.1.map fun _ => p.2) =
        (detector tol).outsFrom last (vs.filterMap id) := by
    intro vs
    induction vs with
    | nil => intro last; exact ⟨rfl, by simp, rfl⟩
    | cons v vs ih =>
      intro last
      rw [Mealy.outsFrom_cons]
      obtain ⟨h1, h2, h3⟩ := ih ((detectorOpt tol).step last v).2
      refine ⟨by simp [h1], ?_, ?_⟩
      · intro t ht
        cases t with
        | zero =>
          simp only [List.getElem?_cons_zero, Option.some.injEq] at ht
          subst ht
          simp [detectorOpt, stateChange]
        | succ t =>
          simp only [List.getElem?_cons_succ] at ht ⊢
          exact h2 t ht
      · rw [List.zip_cons_cons]
        cases v with
        | none =>
          simp only [List.filterMap_cons, Option.map_none, id]
          rw [h3]
          rfl
        | some v =>
          simp only [List.filterMap_cons, Option.map_some, id]
          rw [h3, Mealy.outsFrom_cons]
          rfl
  exact gen vs none

example : (detectorOpt (2 : ℚ)).run [none, some 0, none, some 3, none, some 4] =
    [some false, some false, some false, some true, some false, some false] := by decide +kernel

end absent

section tracked
variable {K : Type} [Field K] [LinearOrder K] [IsStrictOrderedRing K]

/-- The calls of `take_snapshot` made by a tracked function that is called with the given results and memory readings: one
before each call, and one after each call that returns; none is forced. -/
def trackedCalls {E V : Type} (name : String) (calls : List (Except E V × K × K)) : List (Call K) :=
  calls.flatMap fun c => match c.1 with
    | .ok _ => [(name, c.2.1, false), (name, c.2.2, false)]
    | .error _ => [(name, c.2.1, false)]

/-- C59: any sequence of calls of a tracked function (some of which raise) leaves the tracker as the corresponding unforced
calls of `take_snapshot` do: every `interval`-th of them takes a snapshot, and after `n` calls that all return the steps of the
snapshots are the multiples of the interval up to `2 n`. -/
theorem C59_tracked_function {P S R In' E V : Type} (interval : Nat) (thr : K) (maxS : Nat) (name : String)
    (apply : P → S → R → In' → Except E V) (p : P) (s : S) (rng : R) (xs : List (In' × K × K)) :
    let t := xs.foldl (fun t x => (memoryApply interval thr maxS name apply t p s rng x.1 x.2.1 x.2.2).2) Tracker.init
    t = takeAll interval thr maxS Tracker.init (trackedCalls name (xs.map fun x => (apply p s rng x.1, x.2))) ∧
    ((∀ x ∈ xs, ∃ v, apply p s rng x.1 = .ok v) → 2 * xs.length ≤ maxS →
      t.snapshots.map (·.step) = ((List.range (2 * xs.length)).map (· + 1)).filter (fun k => decide (interval ∣ k))) := by
  have h1 : ∀ (xs : List (In' × K × K)) (t : Tracker K),
      xs.foldl (fun t x => (memoryApply interval thr maxS name apply t p s rng x.1 x.2.1 x.2.2).2) t =
        takeAll interval thr maxS t (trackedCalls name (xs.map fun x => (apply p s rng x.1, x.2))) := by
    intro xs
    induction xs with
    | nil => intro t; rfl
    | cons x xs ih =>
      intro t
      rw [List.foldl_cons, ih]
      simp only [trackedCalls, List.map_cons, List.flatMap_cons, takeAll, List.foldl_append]
      unfold memoryApply
      cases apply p s rng x.1 <;> rfl
  intro t
  have ht : t = takeAll interval thr maxS Tracker.init (trackedCalls name (xs.map fun x => (apply p s rng x.1, x.2))) :=
    h1 xs _
  refine ⟨ht, ?_⟩
  intro hok hlen
  have hsn := C59_snapshots interval thr maxS (trackedCalls name (xs.map fun x => (apply p s rng x.1, x.2)))
  rw [← ht] at hsn
  have hcalls : (trackedCalls name (xs.map fun x => (apply p s rng x.1, x.2))).length = 2 * xs.length ∧
      ∀ c ∈ trackedCalls name (xs.map fun x => (apply p s rng x.1, x.2)), c.2.2 = false := by
    clear hsn ht t hlen
    induction xs with
    | nil => simp [trackedCalls]
    | cons x xs ih =>
      obtain ⟨v, hv⟩ := hok x (by simp)
      obtain ⟨i1, i2⟩ := ih fun y hy => hok y (by simp [hy])
      have e : trackedCalls name ((x :: xs).map fun x => (apply p s rng x.1, x.2)) =
          (name, x.2.1, false) :: (name, x.2.2, false) :: trackedCalls name (xs.map fun x => (apply p s rng x.1, x.2)) := by
        simp [trackedCalls, hv]
      rw [e]
      constructor
      · simp [i1]; omega
      · intro c hc
        rcases List.mem_cons.1 hc with rfl | hc
        · rfl
        · rcases List.mem_cons.1 hc with rfl | hc
          · rfl
          · exact i2 c hc
  have hs : ∀ (cs : List (Call K)) (n : Nat), (∀ c ∈ cs, c.2.2 = false) →
      (sampled interval n cs).map (·.1) =
        ((List.range cs.length).map (fun k => n + k + 1)).filter (fun k => decide (interval ∣ k)) := by
    intro cs
    induction cs with
    | nil => intro n _; rfl
    | cons c cs ih =>
      intro n hc
      have hr : (List.range (c :: cs).length).map (fun k => n + k + 1) =
          (n + 1) :: (List.range cs.length).map (fun k => n + 1 + k + 1) := by
        rw [List.length_cons, List.range_succ_eq_map, List.map_cons, List.map_map]
        congr 1
        apply List.map_congr_left
        intro k _
        simp only [Function.comp]
        omega
      rw [hr, List.filter_cons, sampled]
      have hf := hc c (by simp)
      simp only [hf, Bool.false_eq_true, false_or, decide_eq_true_eq]
      have ih' := ih (n + 1) fun d hd => hc d (by simp [hd])
      split
      · rw [List.map_cons, ih']
      · exact ih'
  have hmap := congrArg (List.map (·.1)) hsn
  rw [List.map_map] at hmap
  have hle : (sampled interval 0 (trackedCalls name (xs.map fun x => (apply p s rng x.1, x.2)))).length ≤ maxS := by
    have := congrArg List.length (hs _ 0 hcalls.2)
    rw [List.length_map] at this
    rw [this]
    refine le_trans (List.length_filter_le _ _) ?_
    simp [hcalls.1, hlen]
  rw [latest_self hle, hs _ 0 hcalls.2, hcalls.1] at hmap
  have e1 : t.snapshots.map ((fun x : Nat × String × K => x.1) ∘ fun s => (s.step, s.moduleName, s.memory)) =
      t.snapshots.map (·.step) := rfl
  rw [e1] at hmap
  rw [hmap]
  simp only [Nat.zero_add]

example : ((List.range (2 * 3)).map (· + 1)).filter (fun k => decide (4 ∣ k)) = [4] := by decide

end tracked

end Verif.Props
