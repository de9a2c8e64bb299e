import Verif.Model.Events
import Verif.Props.Unroll
import Mathlib.Data.List.Basic

/-! # Properties C43–C46, C62–C64: event-driven computation and streaming patterns -/

namespace Verif.Props
open Model.Unroll Model.Events
variable {P S R I O V : Type}

/-! ## C43 -/

/-- The inputs of the steps at which an event occurs. -/
def eventInputs (xs : List (Bool × I)) : List I := (xs.filter fun x => x.1).map fun x => x.2

theorem uoe_step_event (m : Mealy S I O) (fill : O → O) (s : S) (c : Option O) (x : I) :
    (updateOnEvent m fill).step (s, c) (true, x) = ((m.step s x).1, ((m.step s x).2, some (m.step s x).1)) := rfl

theorem uoe_step_no (m : Mealy S I O) (fill : O → O) (s : S) (c : Option O) (x : I) :
    (updateOnEvent m fill).step (s, c) (false, x) =
      (c.getD (fill (m.step s x).1), (s, some (c.getD (fill (m.step s x).1)))) := rfl

/-- C43 (state): after any history the inner module is in the state reached by the event inputs alone. -/
theorem C43_update_on_event_state (m : Mealy S I O) (fill : O → O) (xs : List (Bool × I)) :
    ((updateOnEvent m fill).stateAfter xs).1 = m.stateAfter (eventInputs xs) := by
  induction xs using List.reverseRecOn with
  | nil => rfl
  | append_singleton xs x ih =>
    rw [Mealy.stateAfter_append_singleton]
    generalize (updateOnEvent m fill).stateAfter xs = st at *
    obtain ⟨s, c⟩ := st
    obtain ⟨e, x⟩ := x
    simp only at ih
    cases e
    · rw [uoe_step_no, ih]; simp [eventInputs]
    · have : eventInputs (xs ++ [(true, x)]) = eventInputs xs ++ [x] := by simp [eventInputs]
      rw [uoe_step_event, this, Mealy.stateAfter_append_singleton, ih]

/-- C43 (output): the output at step `t` is the last output of the inner module run on the event inputs up to `t`, and the
initial value before the first event. -/
theorem C43_update_on_event_output (m : Mealy S I O) (v : O) :
    (updateOnEvent m (fun _ => v)).Computes fun hist => ((m.run (eventInputs hist)).getLast?).getD v := by
  apply Mealy.computes_of_step
  intro xs x
  have hst := C43_update_on_event_state m (fun _ => v) xs
  have hc : ∀ xs, ((updateOnEvent m (fun _ => v)).stateAfter xs).2.getD v =
      ((m.run (eventInputs xs)).getLast?).getD v := by
    intro xs
    induction xs using List.reverseRecOn with
    | nil => rfl
    | append_singleton xs y ih =>
      rw [Mealy.stateAfter_append_singleton]
      have hst := C43_update_on_event_state m (fun _ => v) xs
      generalize (updateOnEvent m fun _ => v).stateAfter xs = st at *
      obtain ⟨s, c⟩ := st
      obtain ⟨e, y⟩ := y
      simp only at ih hst
      cases e
      · have : eventInputs (xs ++ [(false, y)]) = eventInputs xs := by simp [eventInputs]
        rw [uoe_step_no, this, ← ih]; rfl
      · have : eventInputs (xs ++ [(true, y)]) = eventInputs xs ++ [y] := by simp [eventInputs]
        rw [uoe_step_event, this, Mealy.run_append_singleton, ← hst]; simp
  specialize hc xs
  generalize (updateOnEvent m fun _ => v).stateAfter xs = st at *
  obtain ⟨s, c⟩ := st
  obtain ⟨e, x⟩ := x
  simp only at hc hst
  cases e
  · have : eventInputs (xs ++ [(false, x)]) = eventInputs xs := by simp [eventInputs]
    rw [uoe_step_no, this, ← hc]
  · have : eventInputs (xs ++ [(true, x)]) = eventInputs xs ++ [x] := by simp [eventInputs]
    rw [uoe_step_event, this, Mealy.run_append_singleton, ← hst]; simp

/-- C43: what the inputs are between events has no influence on anything. -/
theorem C43_non_event_inputs_irrelevant (m : Mealy S I O) (v : O) (xs ys : List (Bool × I))
    (hlen : xs.length = ys.length)
    (h : ∀ t (hx : t < xs.length) (hy : t < ys.length), (xs[t].1 = ys[t].1) ∧ (xs[t].1 = true → xs[t].2 = ys[t].2)) :
    (updateOnEvent m (fun _ => v)).run xs = (updateOnEvent m (fun _ => v)).run ys ∧
    ((updateOnEvent m (fun _ => v)).stateAfter xs).1 = ((updateOnEvent m (fun _ => v)).stateAfter ys).1 := by
  have hev : ∀ (xs ys : List (Bool × I)), xs.length = ys.length →
      (∀ t (hx : t < xs.length) (hy : t < ys.length), (xs[t].1 = ys[t].1) ∧ (xs[t].1 = true → xs[t].2 = ys[t].2)) →
      eventInputs xs = eventInputs ys := by
    intro xs
    induction xs with
    | nil => intro ys hl _; cases ys with
      | nil => rfl
      | cons => simp at hl
    | cons x xs ih =>
      intro ys hl h
      cases ys with
      | nil => simp at hl
      | cons y ys =>
        have h0 := h 0 (by simp) (by simp)
        have ht := ih ys (by simpa using hl) (fun t hx hy => by
          have := h (t + 1) (by simpa using hx) (by simpa using hy)
          simpa using this)
        simp only [List.getElem_cons_zero] at h0
        obtain ⟨e, x⟩ := x
        obtain ⟨e', y⟩ := y
        simp only at h0
        obtain ⟨rfl, h0⟩ := h0
        unfold eventInputs at ht ⊢
        cases e
        · simpa using ht
        · simpa using ⟨h0 rfl, ht⟩
  refine ⟨?_, by rw [C43_update_on_event_state, C43_update_on_event_state, hev xs ys hlen h]⟩
  apply List.ext_getElem?
  intro t
  by_cases ht : t < xs.length
  · rw [C43_update_on_event_output m v xs t ht, C43_update_on_event_output m v ys t (hlen ▸ ht)]
    beta_reduce
    rw [hev (xs.take (t + 1)) (ys.take (t + 1)) (by simp [hlen]) (fun i hx hy => by
      have := h i (by simp at hx; omega) (by simp at hy; omega)
      simpa using this)]
  · rw [List.getElem?_eq_none (by simp; omega), List.getElem?_eq_none (by simp; omega)]

example : (updateOnEvent (⟨0, fun s x => (s + x, s + x)⟩ : Mealy Nat Nat Nat) (fun _ => 99)).run
    [(false, 1), (true, 2), (false, 50), (true, 3)] = [99, 2, 2, 5] := by decide

/-! ## C44 -/

theorem cc_state (m : Mealy S I O) (fill : O → O) (ev : Option (I → Bool)) (xs : List I) :
    ((conditionalComputation m fill ev).stateAfter xs).1 = m.stateAfter xs := by
  induction xs using List.reverseRecOn with
  | nil => rfl
  | append_singleton xs x ih =>
    rw [Mealy.stateAfter_append_singleton, Mealy.stateAfter_append_singleton, ← ih]
    cases ev <;> rfl

/-- C44 (state): the inner state advances at every step, event or not. -/
theorem C44_conditional_state (m : Mealy S I O) (fill : O → O) (ev : Option (I → Bool)) (xs : List I) :
    ((conditionalComputation m fill ev).stateAfter xs).1 = m.stateAfter xs := cc_state m fill ev xs

/-- The last output paired with an input satisfying the event. -/
def lastEventOutput (m : Mealy S I O) (event : I → Bool) (v : O) (hist : List I) : O :=
  match ((hist.zip (m.run hist)).filter fun p => event p.1).getLast? with
  | some p => p.2
  | none => v

theorem lastEventOutput_snoc (m : Mealy S I O) (event : I → Bool) (v : O) (xs : List I) (x : I) :
    lastEventOutput m event v (xs ++ [x]) =
      if event x then (m.step (m.stateAfter xs) x).1 else lastEventOutput m event v xs := by
  unfold lastEventOutput
  rw [Mealy.run_append_singleton, List.zip_append (by simp), List.filter_append]
  by_cases h : event x <;> simp [h]

/-- C44 (output): the output at each step is the output of the last event step — of the module run on the *whole* stream — and
the initial value before the first event. -/
theorem C44_conditional_output (m : Mealy S I O) (v : O) (event : I → Bool) :
    (conditionalComputation m (fun _ => v) (some event)).Computes (lastEventOutput m event v) := by
  have hc : ∀ xs, ((conditionalComputation m (fun _ => v) (some event)).stateAfter xs).2.getD v =
      lastEventOutput m event v xs := by
    intro xs
    induction xs using List.reverseRecOn with
    | nil => rfl
    | append_singleton xs x ih =>
      rw [Mealy.stateAfter_append_singleton, lastEventOutput_snoc, ← ih,
        ← cc_state m (fun _ => v) (some event) xs]
      generalize (conditionalComputation m (fun _ => v) (some event)).stateAfter xs = st
      rfl
  apply Mealy.computes_of_step
  intro xs x
  rw [lastEventOutput_snoc, ← hc xs, ← cc_state m (fun _ => v) (some event) xs]
  generalize (conditionalComputation m (fun _ => v) (some event)).stateAfter xs = st
  rfl

/-- C44: without an event function the wrapper is transparent. -/
theorem C44_conditional_no_event (m : Mealy S I O) (fill : O → O) (xs : List I) :
    (conditionalComputation m fill none).run xs = m.run xs := by
  apply Mealy.run_eq_of_sim _ _ (fun s s' => s.1 = s') rfl
  rintro ⟨s, c⟩ s' x rfl
  exact ⟨rfl, rfl⟩

/-- C44: the Flax and Haiku wrappers agree when every step is an event, and differ in general: an event after a non-event
shows the state advanced in between. -/
theorem C44_conditional_differs_from_haiku :
    let m : Mealy Nat Nat Nat := ⟨0, fun s x => (s + x, s + x)⟩
    let event : Nat → Bool := fun x => x > 1
    (conditionalComputation m (fun _ => 99) (some event)).run [1, 2, 1, 3] = [99, 3, 3, 7] ∧
    (updateOnEvent m (fun _ => 99)).run ([1, 2, 1, 3].map fun x => (event x, x)) = [99, 2, 2, 5] := by
  decide

/-! ## C45 -/

theorem scanBody_segment (f : Transformed P S R I O) (reset : I → Bool) (p : P) (s0 : S) (rng : Option R) (s : S)
    (seg : List I) (h : ∀ x ∈ seg, reset x = false) (k : Nat) :
    laxScan (scanBody f (some reset) true p s0 rng) s seg =
      ((stepwise f p (fun _ => rng) k s seg).2, (stepwise f p (fun _ => rng) k s seg).1) := by
  induction seg generalizing s k with
  | nil => rfl
  | cons x seg ih =>
    have hx := h x (by simp)
    have := ih (f.apply p s rng x).2 (fun y hy => h y (by simp [hy])) (k + 1)
    simp only [laxScan, stepwise, scanBody, hx, if_true, Bool.false_eq_true, if_false] at this ⊢
    rw [this]

/-- A segment: its last element, and only it, asks for a reset. -/
def IsSegment (reset : I → Bool) (seg : List I) : Prop :=
  ∃ pre x, seg = pre ++ [x] ∧ reset x = true ∧ ∀ y ∈ pre, reset y = false

theorem stepwise_append (f : Transformed P S R I O) (p : P) (rng : Option R) (s : S) (k k' : Nat) (xs ys : List I) :
    stepwise f p (fun _ => rng) k s (xs ++ ys) =
      ((stepwise f p (fun _ => rng) k s xs).1 ++ (stepwise f p (fun _ => rng) k' (stepwise f p (fun _ => rng) k s xs).2 ys).1,
        (stepwise f p (fun _ => rng) k' (stepwise f p (fun _ => rng) k s xs).2 ys).2) := by
  have hk : ∀ (k k' : Nat) (s : S) (xs : List I), stepwise f p (fun _ => rng) k s xs = stepwise f p (fun _ => rng) k' s xs := by
    intro k k' s xs
    induction xs generalizing k k' s with
    | nil => rfl
    | cons x xs ih => simp only [stepwise]; rw [ih (k + 1) (k' + 1)]
  induction xs generalizing k s with
  | nil => simp [stepwise, hk k k']
  | cons x xs ih => simp only [List.cons_append, stepwise, ih]

/-- C45: with `reset_on` and `preserve_state=True`, a stream made of segments (each ended by its reset element) followed by a
tail without reset is processed segment by segment, each from the state the scan was given; the final state is the tail's. -/
theorem C45_streaming_scan_segments (f : Transformed P S R I O) (key0 : R) (reset : I → Bool) (p : P) (s : S)
    (rng : Option R) (segs : List (List I)) (tail : List I) (hsegs : ∀ seg ∈ segs, IsSegment reset seg)
    (htail : ∀ x ∈ tail, reset x = false) :
    scanApply f key0 (some reset) true (some p) (some s) rng (segs.flatten ++ tail) =
      .ok ((segs.map fun seg => (stepwise f p (fun _ => rng) 0 s seg).1).flatten ++
        (stepwise f p (fun _ => rng) 0 s tail).1, (stepwise f p (fun _ => rng) 0 s tail).2) := by
  simp only [scanApply, scanInit, bind, Except.bind]
  have key : ∀ segs : List (List I), (∀ seg ∈ segs, IsSegment reset seg) →
      laxScan (scanBody f (some reset) true p s rng) s (segs.flatten ++ tail) =
        ((stepwise f p (fun _ => rng) 0 s tail).2, (segs.map fun seg => (stepwise f p (fun _ => rng) 0 s seg).1).flatten ++
          (stepwise f p (fun _ => rng) 0 s tail).1) := by
    intro segs
    induction segs with
    | nil => intro _; exact scanBody_segment f reset p s rng s tail htail 0
    | cons seg segs ih =>
      intro hsegs
      obtain ⟨pre, x, rfl, hx, hpre⟩ := hsegs seg (by simp)
      have ih := ih (fun g hg => hsegs g (by simp [hg]))
      have e1 : laxScan (scanBody f (some reset) true p s rng) s (pre ++ [x]) =
          (s, (stepwise f p (fun _ => rng) 0 s (pre ++ [x])).1) := by
        rw [laxScan_append, scanBody_segment f reset p s rng s pre hpre 0, stepwise_append f p rng s 0 0]
        simp only [laxScan, scanBody, hx, if_true, stepwise]
      rw [List.flatten_cons, List.append_assoc, laxScan_append, e1]
      simp only [ih, List.map_cons, List.flatten_cons, List.append_assoc]
  rw [key segs hsegs]

/-- C45: every stream is such a sequence of segments. -/
theorem C45_segments_exist (reset : I → Bool) (xs : List I) :
    ∃ (segs : List (List I)) (tail : List I), xs = segs.flatten ++ tail ∧ (∀ seg ∈ segs, IsSegment reset seg) ∧ (∀ x ∈ tail, reset x = false) := by
  induction xs using List.reverseRecOn with
  | nil => exact ⟨[], [], rfl, by simp, by simp⟩
  | append_singleton xs x ih =>
    obtain ⟨segs, tail, rfl, h1, h2⟩ := ih
    by_cases hx : reset x = true
    · refine ⟨segs ++ [tail ++ [x]], [], by simp, ?_, by simp⟩
      intro seg hseg
      rw [List.mem_append, List.mem_singleton] at hseg
      rcases hseg with h | rfl
      · exact h1 seg h
      · exact ⟨tail, x, rfl, hx, h2⟩
    · refine ⟨segs, tail ++ [x], by simp, h1, ?_⟩
      intro y hy
      rw [List.mem_append, List.mem_singleton] at hy
      rcases hy with h | rfl
      · exact h2 y h
      · simpa using hx

/-- C45: without `reset_on`, or with `preserve_state=False` (which disables resets altogether), the scan is step-by-step
application over the whole stream. -/
theorem C45_streaming_scan_no_reset (f : Transformed P S R I O) (key0 : R) (reset : Option (I → Bool)) (preserve : Bool)
    (h : reset = none ∨ preserve = false) (p : P) (s : S) (rng : Option R) (xs : List I) :
    scanApply f key0 reset preserve (some p) (some s) rng xs = .ok (stepwise f p (fun _ => rng) 0 s xs) := by
  have hb : ∀ (k : Nat) (c : S) (xs : List I), laxScan (scanBody f reset preserve p s rng) c xs =
      ((stepwise f p (fun _ => rng) k c xs).2, (stepwise f p (fun _ => rng) k c xs).1) := by
    intro k c xs
    induction xs generalizing k c with
    | nil => rfl
    | cons x xs ih =>
      have hs : scanBody f reset preserve p s rng c x = ((f.apply p c rng x).2, (f.apply p c rng x).1) := by
        rcases h with rfl | rfl
        · rfl
        · cases reset <;> rfl
      simp only [laxScan, hs, stepwise, ih (k + 1)]
  simp only [scanApply, scanInit, bind, Except.bind, hb 0 s xs]

/-- C45: `StreamingTransform.scan` is step-by-step application, with the same key at every step. -/
theorem C45_transform_scan (f : Transformed P S R I O) (p : P) (s : S) (rng : Option R) (xs : List I) :
    transformScan f p s rng xs = stepwise f p (fun _ => rng) 0 s xs := by
  have hb : ∀ (k : Nat) (c : S) (xs : List I), laxScan (fun c x => let r := f.apply p c rng x; (r.2, r.1)) c xs =
      ((stepwise f p (fun _ => rng) k c xs).2, (stepwise f p (fun _ => rng) k c xs).1) := by
    intro k c xs
    induction xs generalizing k c with
    | nil => rfl
    | cons x xs ih => simp only [laxScan, stepwise, ih (k + 1)]
  simp only [transformScan, hb 0 s xs]

/-- C45, without a given state: initialisation has already consumed the first element, so the stream *and every segment after
a reset* start from a state that has seen it: a running sum over 1, 2(reset), 3. -/
theorem C45_streaming_scan_default_state_witness :
    let m : Mealy Nat Nat Nat := ⟨0, fun s x => (s + x, s + x)⟩
    scanApply (R := Nat) (flaxTransformed m) 0 (some fun x => x == 2) true none none none [1, 2, 3] =
      .ok ([2, 4, 4], 4) := by rfl

/-- C45: giving a key but no state raises. -/
theorem C45_streaming_scan_key_raises (f : Transformed P S R I O) (key0 r : R) (reset : Option (I → Bool)) (preserve : Bool)
    (params : Option P) (xs : List I) : scanApply f key0 reset preserve params none (some r) xs = .error () := by
  cases params <;> cases xs <;> rfl

example : ∀ seg ∈ [[1, 2, 10], [11]], IsSegment (fun x : Nat => x > 9) seg := by
  intro seg h
  simp only [List.mem_cons, List.not_mem_nil, or_false] at h
  rcases h with rfl | rfl
  · exact ⟨[1, 2], 10, rfl, rfl, by decide⟩
  · exact ⟨[], 11, rfl, rfl, by decide⟩

/-! ## C46 -/

/-- C46: the machine moves to the target of the first transition, in declaration order, whose condition holds. -/
theorem C46_next_state_first (transitions : List (String × List (String × (I → Bool)))) (cur : String) (x : I)
    (pre post : List (String × (I → Bool))) (tgt : String) (cond : I → Bool)
    (hl : transitions.lookup cur = some (pre ++ (tgt, cond) :: post)) (hpre : ∀ tr ∈ pre, tr.2 x = false)
    (hc : cond x = true) : nextState transitions cur x = tgt := by
  unfold nextState
  rw [hl]
  have : (pre ++ (tgt, cond) :: post).find? (fun tr => tr.2 x) = some (tgt, cond) := by
    rw [List.find?_append, List.find?_eq_none.2 (by intro tr htr; simp [hpre tr htr])]
    simp [hc]
  simp [this]

/-- C46: it stays when it has no transition or none of their conditions holds. -/
theorem C46_next_state_stay (transitions : List (String × List (String × (I → Bool)))) (cur : String) (x : I)
    (h : ∀ trs, transitions.lookup cur = some trs → ∀ tr ∈ trs, tr.2 x = false) : nextState transitions cur x = cur := by
  unfold nextState
  cases hl : transitions.lookup cur with
  | none => rfl
  | some trs =>
    have : trs.find? (fun tr => tr.2 x) = none := List.find?_eq_none.2 (by intro tr htr; simp [h trs hl tr htr])
    simp [this]

/-- The current state before each step, from the inputs alone. -/
def smCurrent (transitions : List (String × List (String × (I → Bool)))) (init : String) (hist : List I) : String :=
  hist.foldl (fun c x => nextState transitions c x) init

/-- The inputs delivered while the machine was in state `n`. -/
def smInputs (transitions : List (String × List (String × (I → Bool)))) (init n : String) : List I → List I
  | [] => []
  | x :: xs => (if init = n then [x] else []) ++ smInputs transitions (nextState transitions init x) n xs

theorem lookup_isSome_of_mem {β : Type} (l : List (String × β)) (n : String) (h : n ∈ l.map Prod.fst) :
    ∃ v, l.lookup n = some v := by
  induction l with
  | nil => simp at h
  | cons p l ih =>
    obtain ⟨k, v⟩ := p
    rw [List.lookup_cons]
    by_cases hk : n = k
    · exact ⟨v, by simp [hk]⟩
    · have hne : (n == k) = false := by simpa using hk
      rw [hne]
      simp only [List.map_cons, List.mem_cons] at h
      exact ih (h.resolve_left hk)

theorem mem_of_lookup {β : Type} (l : List (String × β)) (n : String) (v : β) (h : l.lookup n = some v) :
    (n, v) ∈ l := by
  induction l with
  | nil => simp at h
  | cons p l ih =>
    obtain ⟨k, w⟩ := p
    rw [List.lookup_cons] at h
    by_cases hk : n = k
    · simp [hk] at h; simp [hk, h]
    · have hne : (n == k) = false := by simpa using hk
      rw [hne] at h
      exact List.mem_cons_of_mem _ (ih h)

theorem nextState_declared {M : Type} (states : List (String × M)) (transitions : List (String × List (String × (I → Bool))))
    (htgt : ∀ c trs, (c, trs) ∈ transitions → ∀ tr ∈ trs, tr.1 ∈ states.map Prod.fst) (cur : String)
    (hcur : cur ∈ states.map Prod.fst) (x : I) : nextState transitions cur x ∈ states.map Prod.fst := by
  unfold nextState
  cases hl : transitions.lookup cur with
  | none => exact hcur
  | some trs =>
    simp only
    cases hf : trs.find? (fun tr => tr.2 x) with
    | none => exact hcur
    | some tr => exact htgt cur trs (mem_of_lookup _ _ _ hl) tr (List.mem_of_find?_eq_some hf)

/-- C46: if the initial state and all the targets are declared, no history makes the machine fail; the state names it reports
follow the transition table, and its current state is always declared. -/
theorem C46_state_machine_total (states : List (String × Mealy S I O))
    (transitions : List (String × List (String × (I → Bool)))) (init : String) (mem : String → S)
    (hinit : init ∈ states.map Prod.fst)
    (htgt : ∀ c trs, (c, trs) ∈ transitions → ∀ tr ∈ trs, tr.1 ∈ states.map Prod.fst) (xs : List I) :
    ∃ os st, stateMachineRun states transitions (init, mem) xs = some (os, st) ∧ os.length = xs.length ∧
      st.1 = smCurrent transitions init xs ∧ st.1 ∈ states.map Prod.fst ∧
      ∀ t, t < xs.length → (os[t]?).map Prod.snd = some (smCurrent transitions init (xs.take (t + 1))) := by
  induction xs generalizing init mem with
  | nil => exact ⟨[], (init, mem), rfl, rfl, rfl, hinit, by simp⟩
  | cons x xs ih =>
    obtain ⟨m, hm⟩ := lookup_isSome_of_mem states init hinit
    obtain ⟨os, st, h1, h2, h3, h4, h5⟩ := ih (nextState transitions init x)
      (fun n => if n = init then (m.step (mem init) x).2 else mem n)
      (nextState_declared states transitions htgt init hinit x)
    refine ⟨((m.step (mem init) x).1, nextState transitions init x) :: os, st, ?_, by simp [h2], ?_, h4, ?_⟩
    · simp only [stateMachineRun, stateMachineStep, hm]
      rw [h1]
    · rw [h3]; rfl
    · intro t ht
      cases t with
      | zero => rfl
      | succ t => exact h5 t (by simpa using ht)

/-- C46: each declared state's module consumes exactly the inputs delivered while the machine is in that state. -/
theorem C46_state_machine_modules (states : List (String × Mealy S I O))
    (transitions : List (String × List (String × (I → Bool)))) (init : String) (mem : String → S) (xs : List I)
    (os : List (O × String)) (st : String × (String → S))
    (h : stateMachineRun states transitions (init, mem) xs = some (os, st)) (n : String) (m : Mealy S I O)
    (hm : states.lookup n = some m) : st.2 n = m.stateFrom (mem n) (smInputs transitions init n xs) := by
  induction xs generalizing init mem os with
  | nil =>
    simp only [stateMachineRun, Option.some.injEq, Prod.mk.injEq] at h
    rw [← h.2]; rfl
  | cons x xs ih =>
    simp only [stateMachineRun, stateMachineStep] at h
    cases hl : states.lookup init with
    | none => simp [hl] at h
    | some m' =>
      simp only [hl] at h
      split at h
      · simp at h
      · rename_i os' st' heq
        simp only [Option.some.injEq, Prod.mk.injEq] at h
        obtain ⟨_, rfl⟩ := h
        rw [ih _ _ _ heq]
        by_cases hn : n = init
        · subst hn
          rw [hl] at hm
          obtain rfl := Option.some.inj hm
          simp [smInputs]
        · have : ¬ init = n := fun e => hn e.symm
          simp [smInputs, hn, this]

/-- C46: the output at a step is the one of the current state's module, in the state given by the inputs delivered to it. -/
theorem C46_state_machine_output (states : List (String × Mealy S I O))
    (transitions : List (String × List (String × (I → Bool)))) (init : String) (mem : String → S) (xs : List I) (x : I)
    (os : List (O × String)) (st : String × (String → S))
    (h : stateMachineRun states transitions (init, mem) (xs ++ [x]) = some (os, st)) :
    ∃ m, states.lookup (smCurrent transitions init xs) = some m ∧ os.getLast? =
      some ((m.step (m.stateFrom (mem (smCurrent transitions init xs))
        (smInputs transitions init (smCurrent transitions init xs) xs)) x).1,
        nextState transitions (smCurrent transitions init xs) x) := by
  induction xs generalizing init mem os with
  | nil =>
    simp only [List.nil_append, stateMachineRun, stateMachineStep] at h
    cases hl : states.lookup init with
    | none => simp [hl] at h
    | some m =>
      simp only [hl, Option.some.injEq, Prod.mk.injEq] at h
      exact ⟨m, hl, by rw [← h.1]; rfl⟩
  | cons y xs ih =>
    simp only [List.cons_append, stateMachineRun, stateMachineStep] at h
    cases hl : states.lookup init with
    | none => simp [hl] at h
    | some m' =>
      simp only [hl] at h
      split at h
      · simp at h
      · rename_i os' st' heq
        simp only [Option.some.injEq, Prod.mk.injEq] at h
        obtain ⟨rfl, rfl⟩ := h
        obtain ⟨m, hm, ho⟩ := ih _ _ _ heq
        refine ⟨m, hm, ?_⟩
        have hne : os' ≠ [] := by intro e; rw [e] at ho; simp at ho
        rw [List.getLast?_cons_of_ne_nil hne, ho]
        have hcur : smCurrent transitions (nextState transitions init y) xs = smCurrent transitions init (y :: xs) := rfl
        rw [hcur] at hm ⊢
        generalize smCurrent transitions init (y :: xs) = n at *
        by_cases hn : n = init
        · subst hn
          rw [hl] at hm
          obtain rfl := Option.some.inj hm
          simp [smInputs]
        · have : ¬ init = n := fun e => hn e.symm
          simp [smInputs, hn, this]

/-- C46: an undeclared target makes the *next* call fail, not the transition. -/
theorem C46_undeclared_target_witness :
    let states : List (String × Mealy Nat Nat Nat) := [("a", ⟨0, fun s x => (s + x, s + x)⟩)]
    let tr : List (String × List (String × (Nat → Bool))) := [("a", [("b", fun x => x > 1)])]
    (stateMachineRun states tr ("a", fun _ => 0) [1, 2]).map (fun r => r.1) = some [(1, "a"), (3, "b")] ∧
    (stateMachineRun states tr ("a", fun _ => 0) [1, 2, 3]).map (fun r => r.1) = none := by
  constructor <;> rfl

example : ∃ r, stateMachineRun [("a", (⟨0, fun s x => (s + x, s + x)⟩ : Mealy Nat Nat Nat)), ("b", ⟨0, fun s x => (x, s)⟩)]
    [("a", [("b", fun x => x > 1)])] ("a", fun _ => 0) [1, 2, 3] = some r := ⟨_, rfl⟩

/-! ## C62: ConditionalStateUpdate -/

/-- C62: the wrapped module only sees the inputs satisfying the condition; on them the output is the module's, on the others it
is the first argument; `reset_on_condition` changes nothing. -/
theorem C62_conditional_state_update (m : Mealy S I O) (cond : I → Bool) (reset : Bool) (arg0 : I → O) (xs : List I) :
    (conditionalStateUpdate m cond reset arg0).stateAfter xs = m.stateAfter (xs.filter cond) ∧
    ∀ t (ht : t < xs.length), ((conditionalStateUpdate m cond reset arg0).run xs)[t]? =
      if cond xs[t] then (m.run ((xs.take (t + 1)).filter cond)).getLast? else some (arg0 xs[t]) := by
  have hs : ∀ xs, (conditionalStateUpdate m cond reset arg0).stateAfter xs = m.stateAfter (xs.filter cond) := by
    intro xs
    induction xs using List.reverseRecOn with
    | nil => rfl
    | append_singleton xs x ih =>
      rw [Mealy.stateAfter_append_singleton, ih, List.filter_append]
      by_cases hc : cond x = true
      · simp [conditionalStateUpdate, hc, Mealy.stateAfter_append_singleton]
      · simp [conditionalStateUpdate, hc]
  refine ⟨hs xs, ?_⟩
  intro t ht
  rw [Mealy.run, Mealy.outsFrom_getElem?, List.getElem?_eq_getElem ht]
  simp only [Option.map_some]
  have := hs (xs.take t)
  rw [Mealy.stateAfter] at this
  rw [this, ← List.take_append_getElem ht, List.filter_append]
  by_cases hc : cond xs[t] = true
  · simp [conditionalStateUpdate, hc, Mealy.run_append_singleton]
  · simp [conditionalStateUpdate, hc]

example : (conditionalStateUpdate (⟨0, fun s x => (s + x, s + x)⟩ : Mealy Nat Nat Nat) (fun x => x > 1) true id).run
    [1, 2, 0, 3] = [1, 2, 0, 5] := by decide

/-! ## C63: HierarchicalState -/

theorem dictSet_lookup (d : List (String × V)) (k k' : String) (v : V) :
    (dictSet d k v).lookup k' = if k' = k then some v else d.lookup k' := by
  induction d with
  | nil =>
    by_cases h : k' = k
    · simp [dictSet, h]
    · have : (k' == k) = false := by simpa using h
      simp [dictSet, List.lookup_cons, h, this]
  | cons p d ih =>
    obtain ⟨a, b⟩ := p
    unfold dictSet
    by_cases ha : a = k
    · subst ha
      by_cases h : k' = a
      · simp [h]
      · have : (k' == a) = false := by simpa using h
        simp [List.lookup_cons, h, this]
    · rw [if_neg ha, List.lookup_cons, List.lookup_cons, ih]
      by_cases h : k' = a
      · subst h; simp [ha]
      · have : (k' == a) = false := by simpa using h
        simp [this]

/-- The value of a key in the last of the pairs carrying it. -/
theorem dictUpdate_lookup (d e : List (String × V)) (k : String) :
    (dictUpdate d e).lookup k = (e.reverse.lookup k).or (d.lookup k) := by
  unfold dictUpdate
  induction e using List.reverseRecOn with
  | nil => simp
  | append_singleton e p ih =>
    obtain ⟨a, b⟩ := p
    rw [List.foldl_append, List.foldl_cons, List.foldl_nil, dictSet_lookup, ih]
    simp only [List.reverse_append, List.reverse_cons, List.reverse_nil, List.nil_append, List.singleton_append,
      List.lookup_cons]
    by_cases h : k = a
    · simp [h]
    · have : (k == a) = false := by simpa using h
      simp [h, this]

theorem deps_fold_lookup (computed : List (String × V)) (ds : List String) (acc : List (String × V)) (k : String) :
    (ds.foldl (addDep computed) acc).lookup k =
    if k ∈ ds then (computed.lookup k).or (acc.lookup k) else acc.lookup k := by
  induction ds generalizing acc with
  | nil => simp
  | cons d ds ih =>
    rw [List.foldl_cons, ih, addDep]
    cases hd : computed.lookup d with
    | none =>
      simp only [List.mem_cons]
      by_cases h : k = d
      · subst h; simp [hd]
      · simp [h]
    | some v =>
      simp only [dictSet_lookup, List.mem_cons]
      by_cases h : k = d
      · subst h; simp [hd]
      · simp [h]

/-- C63: a module's keyword inputs are the call's own keywords, and, for names that are not keywords of the call, the outputs
already computed of the modules it depends on. -/
theorem C63_module_inputs (deps : List (String × List String)) (name : String) (inputs computed : List (String × V))
    (hnd : (inputs.map Prod.fst).Nodup) (k : String) :
    (moduleInputs deps name inputs computed).lookup k =
      (inputs.lookup k).or (if k ∈ (deps.lookup name).getD [] then computed.lookup k else none) := by
  have hrev : ∀ l : List (String × V), (l.map Prod.fst).Nodup → l.reverse.lookup k = l.lookup k := by
    intro l hl
    induction l with
    | nil => rfl
    | cons p l ih =>
      obtain ⟨a, b⟩ := p
      simp only [List.map_cons, List.nodup_cons] at hl
      rw [List.reverse_cons, List.lookup_append, ih hl.2, List.lookup_cons]
      by_cases h : k = a
      · subst h
        have : l.lookup k = none := by
          rw [List.lookup_eq_none_iff]
          intro p hp
          simp only [bne_iff_ne, ne_eq]
          intro e
          exact hl.1 (by rw [e]; exact List.mem_map_of_mem hp)
        simp [this]
      · have : (k == a) = false := by simpa using h
        simp [List.lookup_cons, this]
  unfold moduleInputs
  simp only [dictUpdate_lookup, hrev inputs hnd]
  cases deps.lookup name with
  | none => simp
  | some ds => simp only [deps_fold_lookup, Option.getD_some, List.lookup_nil, Option.or_none]

theorem executeInOrder_lookup_other (deps : List (String × List String)) (inputs : List (String × V))
    (mods : List (String × (List (String × V) → V))) (out : List (String × V)) (k : String)
    (hk : k ∉ mods.map Prod.fst) : (executeInOrder deps inputs mods out).lookup k = out.lookup k := by
  induction mods generalizing out with
  | nil => rfl
  | cons p mods ih =>
    obtain ⟨n, m⟩ := p
    simp only [List.map_cons, List.mem_cons, not_or] at hk
    rw [executeInOrder, ih _ hk.2, dictSet_lookup, if_neg hk.1]

/-- C63: if the modules are declared in dependency order (each depends only on modules declared before it), every module's
output is its function of the call's keywords and of the *final* outputs of all its dependencies. -/
theorem C63_hierarchical_in_order (deps : List (String × List String)) (inputs : List (String × V))
    (pre post : List (String × (List (String × V) → V))) (name : String) (m : List (String × V) → V)
    (hnd : ((pre ++ (name, m) :: post).map Prod.fst).Nodup) (hin : (inputs.map Prod.fst).Nodup)
    (hdeps : ∀ d ∈ (deps.lookup name).getD [], d ∈ pre.map Prod.fst) :
    let outs := executeInOrder deps inputs (pre ++ (name, m) :: post) []
    ∃ args : List (String × V), outs.lookup name = some (m args) ∧
      ∀ k, args.lookup k = (inputs.lookup k).or (if k ∈ (deps.lookup name).getD [] then outs.lookup k else none) := by
  intro outs
  have hsplit : ∀ (a b : List (String × (List (String × V) → V))) (o : List (String × V)),
      executeInOrder deps inputs (a ++ b) o = executeInOrder deps inputs b (executeInOrder deps inputs a o) := by
    intro a b
    induction a with
    | nil => intro o; rfl
    | cons p a ih => intro o; obtain ⟨n, f⟩ := p; simp only [List.cons_append, executeInOrder, ih]
  simp only [List.map_append, List.map_cons] at hnd
  obtain ⟨_, h2, h3⟩ := List.nodup_append.1 hnd
  obtain ⟨h4, _⟩ := List.nodup_cons.1 h2
  have houts : outs = executeInOrder deps inputs post (dictSet (executeInOrder deps inputs pre []) name
      (m (moduleInputs deps name inputs (executeInOrder deps inputs pre [])))) := by
    show executeInOrder deps inputs (pre ++ (name, m) :: post) [] = _
    rw [hsplit]; rfl
  refine ⟨moduleInputs deps name inputs (executeInOrder deps inputs pre []), ?_, ?_⟩
  · rw [houts, executeInOrder_lookup_other _ _ _ _ _ h4, dictSet_lookup, if_pos rfl]
  · intro k
    rw [C63_module_inputs _ _ _ _ hin]
    by_cases hk : k ∈ (deps.lookup name).getD []
    · rw [if_pos hk, if_pos hk, houts]
      have hkp := hdeps k hk
      have hkn : k ≠ name := fun e => h3 k hkp name (by simp) e
      have hkpost : k ∉ post.map Prod.fst := fun hp => h3 k hkp k (by simp [hp]) rfl
      rw [executeInOrder_lookup_other _ _ _ _ _ hkpost, dictSet_lookup, if_neg hkn]
    · rw [if_neg hk, if_neg hk]

/-- C63: otherwise the dependency is silently left out: the order of declaration, not the dependency graph, decides. -/
theorem C63_hierarchical_out_of_order_witness :
    let count : List (String × Nat) → Nat := fun args => args.length
    executeInOrder [("a", ["b"])] [("x", 1)] [("a", count), ("b", count)] [] = [("a", 1), ("b", 1)] ∧
    executeInOrder [("a", ["b"])] [("x", 1)] [("b", count), ("a", count)] [] = [("b", 1), ("a", 2)] := by
  decide

/-! ## C64: parameters and state of a Flax module -/

/-- C64: splitting what was combined gives back the parameters and every state collection, provided no state collection is
called "params". -/
theorem C64_split_combine (empty params : V) (state : List (String × V)) (hnd : (state.map Prod.fst).Nodup)
    (hp : "params" ∉ state.map Prod.fst) :
    splitVariables empty (combineVariables params state) = (params, state) := by
  have key : ∀ state : List (String × V), (state.map Prod.fst).Nodup → "params" ∉ state.map Prod.fst →
      combineVariables params state = ("params", params) :: state := by
    intro state
    induction state using List.reverseRecOn with
    | nil => intros; rfl
    | append_singleton l p ih =>
      obtain ⟨a, b⟩ := p
      intro hnd hp
      simp only [List.map_append, List.map_cons, List.map_nil, List.mem_append, List.mem_singleton, not_or] at hnd hp
      have hnd' := List.nodup_append.1 hnd
      have := ih hnd'.1 hp.1
      unfold combineVariables dictUpdate at this ⊢
      rw [List.foldl_append, this]
      simp only [List.foldl_cons, List.foldl_nil, dictSet, if_neg hp.2]
      congr 1
      have ha : a ∉ l.map Prod.fst := fun h => hnd'.2.2 a h a (by simp) rfl
      clear this hnd hp hnd' ih
      induction l with
      | nil => rfl
      | cons q l ih =>
        simp only [List.map_cons, List.mem_cons, not_or] at ha
        simp only [dictSet, List.cons_append]
        rw [if_neg (fun e => ha.1 e.symm), ih ha.2]
  unfold splitVariables
  rw [key state hnd hp]
  simp only [List.lookup_cons, beq_self_eq_true, Option.getD_some, List.filter_cons]
  congr 1
  rw [if_neg (by simp)]
  apply List.filter_eq_self.2
  intro p hpm
  simp only [bne_iff_ne, ne_eq]
  intro e
  exact hp (by rw [← e]; exact List.mem_map_of_mem hpm)

/-- C64: and combining what was split preserves every collection's value. -/
theorem C64_combine_split (empty : V) (vars : List (String × V)) (hnd : (vars.map Prod.fst).Nodup)
    (hp : "params" ∈ vars.map Prod.fst) (k : String) :
    (combineVariables (splitVariables empty vars).1 (splitVariables empty vars).2).lookup k = vars.lookup k := by
  unfold combineVariables
  rw [dictUpdate_lookup]
  have hl : ∀ l : List (String × V), (l.map Prod.fst).Nodup →
      (l.filter fun kv => kv.1 != "params").reverse.lookup k = if k = "params" then none else l.lookup k := by
    intro l hl
    induction l with
    | nil => simp
    | cons p l ih =>
      obtain ⟨a, b⟩ := p
      simp only [List.map_cons, List.nodup_cons] at hl
      have ih := ih hl.2
      by_cases ha : a = "params"
      · subst ha
        rw [List.filter_cons_of_neg (by simp), ih, List.lookup_cons]
        by_cases hk : k = "params"
        · simp [hk]
        · have : (k == "params") = false := by simpa using hk
          simp [hk, this]
      · rw [List.filter_cons_of_pos (by simpa using ha), List.reverse_cons, List.lookup_append, ih, List.lookup_cons]
        by_cases hk : k = a
        · subst hk
          have : l.lookup k = none := by
            rw [List.lookup_eq_none_iff]
            intro p hp
            simp only [bne_iff_ne, ne_eq]
            intro e
            exact hl.1 (by rw [e]; exact List.mem_map_of_mem hp)
          simp [this, ha]
        · have : (k == a) = false := by simpa using hk
          simp [List.lookup_cons, this]
  have h2 := hl vars hnd
  simp only [splitVariables]
  rw [h2]
  by_cases hk : k = "params"
  · subst hk
    obtain ⟨v, hv⟩ := lookup_isSome_of_mem vars "params" hp
    simp [hv]
  · have : (k == "params") = false := by simpa using hk
    simp [hk, List.lookup_cons, this]

/-- C64: `apply` never returns changed parameters: whatever the module does to its "params" collection is dropped, everything
else is returned. -/
theorem C64_apply_state (run : List (String × V) → O × List (String × V)) (params : V) (state : List (String × V)) (k : String) :
    ((flaxApply run params state).2.lookup k = if k = "params" then none else
      (run (combineVariables params state)).2.lookup k) ∧
    (flaxApply run params state).1 = (run (combineVariables params state)).1 := by
  refine ⟨?_, rfl⟩
  unfold flaxApply
  simp only
  generalize (run (combineVariables params state)).2 = l
  induction l with
  | nil => simp
  | cons p l ih =>
    obtain ⟨a, b⟩ := p
    by_cases ha : a = "params"
    · subst ha
      rw [List.filter_cons_of_neg (by simp), ih, List.lookup_cons]
      by_cases hk : k = "params"
      · simp [hk]
      · have : (k == "params") = false := by simpa using hk
        simp [hk, this]
    · rw [List.filter_cons_of_pos (by simpa using ha), List.lookup_cons, List.lookup_cons, ih]
      by_cases hk : k = a
      · subst hk; simp [ha]
      · have : (k == a) = false := by simpa using hk
        simp [this]

/-- C64: a state collection named "params" would replace the parameters. -/
theorem C64_params_collision_witness : splitVariables 0 (combineVariables 1 [("params", 2)]) = (2, []) := by decide

example : splitVariables 0 (combineVariables 1 [("batch_stats", 2), ("cache", 3)]) = (1, [("batch_stats", 2), ("cache", 3)]) := by
  decide

end Verif.Props
