import Verif.Model.Unroll
import Mathlib.Data.List.Basic
import Mathlib.Tactic.Set

/-! # Properties C37–C42, C61: unrolling -/

namespace Verif.Props
open Model.Unroll
variable {P S R I O C X Y : Type}

/-! ## Facts on scans -/

theorem laxScan_append (f : C → X → C × Y) (c : C) (xs ys : List X) :
    laxScan f c (xs ++ ys) = ((laxScan f (laxScan f c xs).1 ys).1,
      (laxScan f c xs).2 ++ (laxScan f (laxScan f c xs).1 ys).2) := by
  induction xs generalizing c with
  | nil => rfl
  | cons x xs ih => simp [laxScan, ih]

theorem laxScan_length (f : C → X → C × Y) (c : C) (xs : List X) : (laxScan f c xs).2.length = xs.length := by
  induction xs generalizing c with
  | nil => rfl
  | cons x xs ih => simp [laxScan, ih]

theorem laxScan_getElem? (f : C → X → C × Y) (c : C) (xs : List X) (t : Nat) :
    (laxScan f c xs).2[t]? = xs[t]?.map fun x => (f (laxScan f c (xs.take t)).1 x).2 := by
  induction xs generalizing c t with
  | nil => simp [laxScan]
  | cons x xs ih =>
    cases t with
    | zero => simp [laxScan]
    | succ t => simp [laxScan, ih]

theorem staticLoop_eq (f : C → X → C × Y) (c : C) (ys : Option (List Y)) (xs : List X) :
    staticLoop f c ys xs = ((laxScan f c xs).1,
      if xs = [] then ys else some (ys.getD [] ++ (laxScan f c xs).2)) := by
  induction xs generalizing c ys with
  | nil => rfl
  | cons x xs ih =>
    simp only [staticLoop, ih, laxScan]
    cases xs <;> simp [laxScan]

theorem staticScan_eq (f : C → X → C × Y) (c : C) (xs : List X) :
    staticScan f c xs = if xs = [] then .error () else .ok (laxScan f c xs) := by
  unfold staticScan
  rw [staticLoop_eq]
  cases xs <;> simp

/-! ## C37 -/

/-- Step-by-step application with the same key handling: feed the inputs one at a time, carrying the state. -/
def stepwise (f : Transformed P S R I O) (p : P) (key : Nat → Option R) : Nat → S → List I → List O × S
  | _, s, [] => ([], s)
  | k, s, x :: xs =>
    let r := f.apply p s (key k) x
    let rest := stepwise f p key (k + 1) r.2 xs
    (r.1 :: rest.1, rest.2)

theorem laxScan_none (f : Transformed P S R I O) (split : R → R × R) (p : P) (s : S) (k : Nat) (xs : List I) :
    laxScan (scanF f split p) (s, none) xs =
      (((stepwise f p (fun _ => none) k s xs).2, none), (stepwise f p (fun _ => none) k s xs).1) := by
  induction xs generalizing s k with
  | nil => rfl
  | cons x xs ih =>
    have := ih (f.apply p s none x).2 (k + 1)
    simp only [laxScan, stepwise]
    simp only [scanF] at this ⊢
    rw [this]

/-- C37: without a key, unrolling equals applying the function step by step. -/
theorem C37_unroll_stepwise (f : Transformed P S R I O) (split : R → R × R) (p : P) (s : S) (xs : List I) :
    unrollApply f split false true p s none xs = .ok (stepwise f p (fun _ => none) 0 s xs) := by
  simp only [unrollApply, laxScan_none f split p s 0 xs, Bool.false_eq_true, if_false, if_true]

/-- C37: unrolling can be stopped anywhere and resumed from the returned state. -/
theorem C37_unroll_resume (f : Transformed P S R I O) (split : R → R × R) (p : P) (s : S) (xs ys : List I) :
    ∃ o1 s1 o2 s2, unrollApply f split false true p s none xs = .ok (o1, s1) ∧
      unrollApply f split false true p s1 none ys = .ok (o2, s2) ∧
      unrollApply f split false true p s none (xs ++ ys) = .ok (o1 ++ o2, s2) := by
  refine ⟨_, _, _, _, rfl, rfl, ?_⟩
  simp only [unrollApply, Bool.false_eq_true, if_false, if_true]
  rw [laxScan_append]
  have h : (laxScan (scanF f split p) (s, none) xs).1 =
      ((laxScan (scanF f split p) (s, none) xs).1.1, none) := by
    rw [laxScan_none f split p s 0 xs]
  rw [← h]

/-- C37: one output per input, and the outputs on a prefix do not depend on what follows (with or without a key). -/
theorem C37_unroll_causal (f : Transformed P S R I O) (split : R → R × R) (p : P) (s : S) (rng : Option R)
    (xs ys : List I) :
    ∃ o1 s1 o2 s2, unrollApply f split false true p s rng xs = .ok (o1, s1) ∧ o1.length = xs.length ∧
      unrollApply f split false true p s rng (xs ++ ys) = .ok (o2, s2) ∧ o2.length = (xs ++ ys).length ∧
      o2.take xs.length = o1 := by
  refine ⟨_, _, _, _, rfl, laxScan_length _ _ _, rfl, laxScan_length _ _ _, ?_⟩
  simp only [Bool.false_eq_true, if_false]
  rw [laxScan_append, List.take_left' (laxScan_length _ _ _)]

/-- C37: `unroll` initialises on the first element, then applies; given parameters and state take precedence, and an empty
sequence is an error. -/
theorem C37_unroll_init (f : Transformed P S R I O) (split : R → R × R) (skip dyn : Bool) (rng : Option R)
    (params : Option P) (state : Option S) (xs : List I) :
    unroll f split skip dyn rng params state xs = match xs with
      | [] => .error ()
      | x :: _ => unrollApply f split skip dyn (params.getD (f.init rng x).1) (state.getD (f.init rng x).2) rng xs := by
  cases xs with
  | nil => rfl
  | cons x xs => rfl

theorem laxScan_mealy (m : Mealy S I O) (s : S) (xs : List I) :
    laxScan (fun s x => ((m.step s x).2, (m.step s x).1)) s xs = (m.stateFrom s xs, m.outsFrom s xs) := by
  induction xs generalizing s with
  | nil => rfl
  | cons x xs ih => simp [laxScan, ih]

theorem scanF_mealy (m : Mealy S I O) (split : R → R × R) (f : Transformed Unit S R I O)
    (hf : f.apply = fun _ s _ x => m.step s x) (s : S) (rng : Option R) (xs : List I) :
    (laxScan (scanF f split ()) (s, rng) xs).2 = m.outsFrom s xs ∧
    (laxScan (scanF f split ()) (s, rng) xs).1.1 = m.stateFrom s xs := by
  induction xs generalizing s rng with
  | nil => exact ⟨rfl, rfl⟩
  | cons x xs ih =>
    have h1 : ((scanF f split () (s, rng) x).1).1 = (m.step s x).2 := by simp only [scanF, hf]
    have h2 : (scanF f split () (s, rng) x).2 = (m.step s x).1 := by simp only [scanF, hf]
    obtain ⟨ih1, ih2⟩ := ih (scanF f split () (s, rng) x).1.1 (scanF f split () (s, rng) x).1.2
    simp only [laxScan, Mealy.outsFrom_cons, Mealy.stateFrom_cons]
    rw [← h1, ← h2]
    exact ⟨by rw [← ih1], by rw [← ih2]⟩

/-- C37: a Haiku module unrolled over a non-empty stream returns what the fresh module returns when fed the stream one by
one, and its final state — whatever the key. -/
theorem C37_unroll_haiku_module (m : Mealy S I O) (split : R → R × R) (rng : Option R) (xs : List I) (h : xs ≠ []) :
    unroll (haikuTransformed m) split false true rng none none xs = .ok (m.run xs, m.stateAfter xs) := by
  cases xs with
  | nil => exact absurd rfl h
  | cons x xs =>
    have := scanF_mealy m split (haikuTransformed m) rfl m.init rng (x :: xs)
    rw [C37_unroll_init]
    simp only [unrollApply, Bool.false_eq_true, if_false, if_true, Option.getD_none]
    have e1 : ((haikuTransformed m : Transformed Unit S R I O).init rng x) = ((), m.init) := rfl
    rw [e1, this.1, this.2]
    rfl

/-- C37: the lifted unroll (`unroll_lift_with_state`) keeps its state between calls: calling it on successive chunks gives
the inner module's outputs on the concatenated stream. -/
theorem C37_unroll_lift_chunks (m : Mealy S I O) (chunks : List (List I)) :
    ((unrollLift m false).run chunks).flatten = m.run chunks.flatten ∧
    (unrollLift m false).stateAfter chunks = m.stateAfter chunks.flatten := by
  have key : ∀ (chunks : List (List I)) (s : S),
      ((unrollLift m false).outsFrom s chunks).flatten = m.outsFrom s chunks.flatten ∧
      (unrollLift m false).stateFrom s chunks = m.stateFrom s chunks.flatten := by
    intro chunks
    induction chunks with
    | nil => intro s; exact ⟨rfl, rfl⟩
    | cons c cs ih =>
      intro s
      have hstep : (unrollLift m false).step s c = (m.outsFrom s c, m.stateFrom s c) := by
        simp only [unrollLift, Bool.false_eq_true, if_false, laxScan_mealy]
      obtain ⟨ih1, ih2⟩ := ih (m.stateFrom s c)
      simp only [Mealy.outsFrom_cons, Mealy.stateFrom_cons, hstep, List.flatten_cons, ih1, ih2,
        Mealy.outsFrom_append, Mealy.stateFrom_append]
      exact ⟨trivial, trivial⟩
  exact key chunks m.init

example : unrollApply (P := Unit) (R := Nat) ⟨fun _ _ => ((), 0), fun _ s _ x => (s + x, s + x)⟩ (fun r => (r, r)) false true
    () 0 none [1, 2, 3] = .ok ([1, 3, 6], 6) := by decide

/-! ## C38 -/

/-- C38: the Python loop and `lax.scan` give the same outputs and state on every non-empty sequence (after dropping the first
element if asked); on an empty one the Python loop raises while the scan returns nothing and the given state. -/
theorem C38_static_dynamic (f : Transformed P S R I O) (split : R → R × R) (skip : Bool) (p : P) (s : S)
    (rng : Option R) (xs : List I) :
    (xs.drop (if skip then 1 else 0) ≠ [] →
      unrollApply f split skip false p s rng xs = unrollApply f split skip true p s rng xs) ∧
    (xs.drop (if skip then 1 else 0) = [] →
      unrollApply f split skip false p s rng xs = .error () ∧
      unrollApply f split skip true p s rng xs = .ok ([], s)) := by
  have hx : (if skip then xs.drop 1 else xs) = xs.drop (if skip then 1 else 0) := by cases skip <;> simp
  simp only [unrollApply, hx, Bool.false_eq_true, if_false, if_true, staticScan_eq]
  constructor
  · intro h; simp [h]
  · intro h; simp [h, laxScan]

/-- C38: `skip_first=True` is dropping the first element. -/
theorem C38_skip_first (f : Transformed P S R I O) (split : R → R × R) (dyn : Bool) (p : P) (s : S)
    (rng : Option R) (x : I) (xs : List I) :
    unrollApply f split true dyn p s rng (x :: xs) = unrollApply f split false dyn p s rng xs := rfl

example : ([1, 2, 3].drop (if true then 1 else 0) : List Nat) ≠ [] := by decide

/-! ## C39 -/

/-- The key chain: the carried key after `t` splits, and the key handed to step `t`. -/
def carried (split : R → R × R) (r : R) : Nat → R
  | 0 => r
  | t + 1 => (split (carried split r t)).1

def stepKey (split : R → R × R) (r : R) (t : Nat) : R := (split (carried split r t)).2

theorem carried_shift (split : R → R × R) (r : R) (t : Nat) :
    carried split (split r).1 t = carried split r (t + 1) := by
  induction t with
  | zero => rfl
  | succ t ih => simp only [carried] at *; rw [ih]

theorem laxScan_keys (f : Transformed P S R I O) (split : R → R × R) (p : P) (s : S) (r : R) (k : Nat) (xs : List I) :
    laxScan (scanF f split p) (s, some (carried split r k)) xs =
      (((stepwise f p (fun t => some (stepKey split r t)) k s xs).2, some (carried split r (k + xs.length))),
        (stepwise f p (fun t => some (stepKey split r t)) k s xs).1) := by
  induction xs generalizing s k with
  | nil => rfl
  | cons x xs ih =>
    have := ih (f.apply p s (some (stepKey split r k)) x).2 (k + 1)
    simp only [laxScan, stepwise]
    simp only [scanF] at this ⊢
    have hc : (split (carried split r k)).1 = carried split r (k + 1) := rfl
    have hk : (split (carried split r k)).2 = stepKey split r k := rfl
    simp only [hc, hk]
    rw [this]
    simp only [List.length_cons]
    have : k + 1 + xs.length = k + (xs.length + 1) := by omega
    rw [this]

/-- C39: step `t` receives the second half of the `(t+1)`-th split of the chain; the chain depends only on the initial key,
never on the inputs or the state. -/
theorem C39_step_keys (f : Transformed P S R I O) (split : R → R × R) (p : P) (s : S) (r : R) (xs : List I) :
    unrollApply f split false true p s (some r) xs = .ok (stepwise f p (fun t => some (stepKey split r t)) 0 s xs) := by
  have := laxScan_keys f split p s r 0 xs
  simp only [carried] at this
  simp only [unrollApply, this, Bool.false_eq_true, if_false, if_true]

/-- C39: hence a resumed unroll given the same key repeats the same keys from the start (the final key is not returned): it
does not continue the key chain. -/
theorem C39_resume_repeats_keys (split : R → R × R) (r : R) (f : Transformed P S R I O) (p : P) (s : S) (xs ys : List I) :
    ∃ o1 s1, unrollApply f split false true p s (some r) xs = .ok (o1, s1) ∧
      unrollApply f split false true p s1 (some r) ys =
        .ok (stepwise f p (fun t => some (stepKey split r t)) 0 s1 ys) :=
  ⟨_, _, rfl, C39_step_keys f split p _ r ys⟩

theorem fori_fold (f : Transformed P S R I O) (p : P) (rng : Option R) (k : Nat) (xs : List I) (s : S) (pre seq : List O)
    (hl : seq.length = xs.length) (hp : pre.length = k) :
    (xs.zipIdx k).foldl (fun (st : S × List O) (xi : I × Nat) =>
      ((f.apply p st.1 rng xi.1).2, st.2.set xi.2 (f.apply p st.1 rng xi.1).1)) (s, pre ++ seq) =
    ((stepwise f p (fun _ => rng) k s xs).2, pre ++ (stepwise f p (fun _ => rng) k s xs).1) := by
  induction xs generalizing k s pre seq with
  | nil =>
    have : seq = [] := List.eq_nil_of_length_eq_zero hl
    subst this; rfl
  | cons x xs ih =>
    cases seq with
    | nil => simp at hl
    | cons q seq =>
      simp only [List.zipIdx_cons, List.foldl_cons, stepwise]
      have hset : (pre ++ q :: seq).set k (f.apply p s rng x).1 = (pre ++ [(f.apply p s rng x).1]) ++ seq := by
        rw [← hp, List.set_append_right _ _ (Nat.le_refl _)]
        simp
      rw [hset, ih (k + 1) _ (pre ++ [(f.apply p s rng x).1]) seq (by simpa using hl) (by simp [hp])]
      simp

/-- C39: `dynamic_unroll_fori_loop` hands the *same* key to every step; all its output entries are written. -/
theorem C39_fori_same_key (f : Transformed P S R I O) (nanLike : O → O) (rng : Option R) (p : P) (s : S) (x : I)
    (xs : List I) :
    foriUnroll f nanLike false (some p) (some s) rng (x :: xs) =
      .ok (stepwise f p (fun _ => rng) 0 s (x :: xs)) := by
  have := fori_fold f p rng 0 (x :: xs) s [] (List.replicate (x :: xs).length (nanLike (f.apply p s rng x).1))
    (by simp) rfl
  simp only [List.nil_append] at this
  simp only [foriUnroll, unrollInit, bind, Except.bind, Option.getD_some, Bool.false_eq_true, if_false]
  rw [this]

/-- C39: `dynamic_unroll_fori_loop` refuses a sequence without any step left. -/
theorem C39_fori_empty (f : Transformed P S R I O) (nanLike : O → O) (skip : Bool) (params : Option P) (state : Option S)
    (rng : Option R) (xs : List I) (h : xs.drop (if skip then 1 else 0) = []) :
    foriUnroll f nanLike skip params state rng xs = .error () := by
  cases xs with
  | nil => rfl
  | cons x xs =>
    cases skip with
    | false => simp at h
    | true =>
      have hx : xs = [] := by simpa using h
      subst hx; rfl

/-- C39: with `skip_first` it runs on the sequence without its first entry. -/
theorem C39_fori_skip (f : Transformed P S R I O) (nanLike : O → O) (rng : Option R) (p : P) (s : S) (x y : I)
    (xs : List I) :
    foriUnroll f nanLike true (some p) (some s) rng (x :: y :: xs) =
      .ok (stepwise f p (fun _ => rng) 0 s (y :: xs)) := by
  rw [← C39_fori_same_key f nanLike rng p s y xs]; rfl

/-- C39: so it agrees with `unroll` on every function that ignores its key. -/
theorem C39_fori_agrees (f : Transformed P S R I O) (nanLike : O → O) (split : R → R × R) (rng : Option R) (p : P)
    (s : S) (x : I) (xs : List I) (hf : ∀ p s k k' x, f.apply p s k x = f.apply p s k' x) :
    foriUnroll f nanLike false (some p) (some s) rng (x :: xs) = unrollApply f split false true p s rng (x :: xs) := by
  have hsw : ∀ (key key' : Nat → Option R) (k : Nat) (s : S) (xs : List I),
      stepwise f p key k s xs = stepwise f p key' k s xs := by
    intro key key' k s xs
    induction xs generalizing k s with
    | nil => rfl
    | cons x xs ih => simp only [stepwise, hf p s (key k) (key' k) x, ih]
  rw [C39_fori_same_key]
  cases rng with
  | none => rw [C37_unroll_stepwise]
  | some r => rw [C39_step_keys, hsw]

/-- C39: and differs otherwise: a function returning its key. -/
theorem C39_fori_differs_witness :
    let f : Transformed Unit Unit Nat Unit Nat := ⟨fun _ _ => ((), ()), fun _ _ k _ => (k.getD 0, ())⟩
    let split : Nat → Nat × Nat := fun r => (2 * r, 2 * r + 1)
    foriUnroll f id false none none (some 1) [(), ()] = .ok ([1, 1], ()) ∧
    unroll f split false true (some 1) none none [(), ()] = .ok ([3, 5], ()) := by
  constructor <;> rfl

example : ∀ p s k k' x, (haikuTransformed (R := Nat) (⟨0, fun s x => (s + x, s + x)⟩ : Mealy Nat Nat Nat)).apply
    p s k x = (haikuTransformed (R := Nat) (⟨0, fun s x => (s + x, s + x)⟩ : Mealy Nat Nat Nat)).apply p s k' x := fun _ _ _ _ _ => rfl

/-! ## C40 -/

/-- C40, what holds: `flax_unroll` over `x :: xs` returns the outputs of a fresh module on `x :: x :: xs`, without the
first: initialisation has already consumed `x`. -/
theorem C40_flax_unroll_actual_partial (m : Mealy S I O) (split : R → R × R) (rng : Option R) (x : I) (xs : List I) :
    flaxUnroll (flaxTransformed m) split false true rng none none (x :: xs) =
      .ok ((m.run (x :: x :: xs)).drop 1, m.stateAfter (x :: x :: xs)) := by
  have := scanF_mealy m split (flaxTransformed m) rfl (m.step m.init x).2 rng (x :: xs)
  simp only [flaxUnroll, unrollInit, bind, Except.bind, unrollApply, Bool.false_eq_true, if_false, if_true,
    Option.getD_none]
  change Except.ok ((laxScan (scanF (flaxTransformed m) split ()) ((m.step m.init x).2, rng) (x :: xs)).2,
    (laxScan (scanF (flaxTransformed m) split ()) ((m.step m.init x).2, rng) (x :: xs)).1.1) = _
  rw [this.1, this.2]
  rfl

/-- C40: with `skip_first=True` the outputs are exactly the fresh module's outputs from step 1 on, and the final state is the
fresh module's. -/
theorem C40_flax_unroll_skip_first_partial (m : Mealy S I O) (split : R → R × R) (rng : Option R) (x : I) (xs : List I) :
    flaxUnroll (flaxTransformed m) split true true rng none none (x :: xs) =
      .ok ((m.run (x :: xs)).drop 1, m.stateAfter (x :: xs)) := by
  have := scanF_mealy m split (flaxTransformed m) rfl (m.step m.init x).2 rng xs
  simp only [flaxUnroll, unrollInit, bind, Except.bind, unrollApply, if_true, Option.getD_none]
  change Except.ok ((laxScan (scanF (flaxTransformed m) split ()) ((m.step m.init x).2, rng) xs).2,
    (laxScan (scanF (flaxTransformed m) split ()) ((m.step m.init x).2, rng) xs).1.1) = _
  rw [this.1, this.2]
  rfl

/-- C40: with parameters and state given, `flax_unroll` is the unroll of the Haiku version from them, whatever the other
arguments; in particular the module is not initialised. -/
theorem C40_flax_unroll_given (f : Transformed P S R I O) (split : R → R × R) (skip dyn : Bool) (rng : Option R) (p : P)
    (s : S) (x : I) (xs : List I) :
    flaxUnroll f split skip dyn rng (some p) (some s) (x :: xs) = unroll f split skip dyn rng (some p) (some s) (x :: xs) :=
  rfl

/-- C40: and `skip_first` then drops the first entry without running the module on it. -/
theorem C40_flax_unroll_given_skip (m : Mealy S I O) (split : R → R × R) (rng : Option R) (s : S) (x : I) (xs : List I) :
    flaxUnroll (flaxTransformed m) split true true rng (some ()) (some s) (x :: xs) =
      .ok (m.outsFrom s xs, m.stateFrom s xs) := by
  have := scanF_mealy m split (flaxTransformed m) rfl s rng xs
  simp only [flaxUnroll, unrollApply, if_true, List.drop_one, List.tail_cons]
  rw [this.1, this.2]

/-- C40: with the fresh state (and parameters) passed in, `flax_unroll` is step-by-step application from a fresh module. -/
theorem C40_flax_unroll_given_state_partial (m : Mealy S I O) (split : R → R × R) (rng : Option R) (xs : List I) :
    flaxUnroll (flaxTransformed m) split false true rng (some ()) (some m.init) xs =
      .ok (m.run xs, m.stateAfter xs) := by
  have := scanF_mealy m split (flaxTransformed m) rfl m.init rng xs
  simp only [flaxUnroll, unrollApply, Bool.false_eq_true, if_false, if_true]
  rw [this.1, this.2]
  rfl

/-- C40 is false: a running sum starting from 0 returns 2, 4 on the stream 1, 2 (the first element is counted twice). -/
theorem C40_flax_unroll_counts_first_twice :
    let m : Mealy Nat Nat Nat := ⟨0, fun s x => (s + x, s + x)⟩
    flaxUnroll (R := Nat) (flaxTransformed m) (fun r => (r, r)) false true none none none [1, 2] = .ok ([2, 4], 4) ∧
    unroll (R := Nat) (haikuTransformed m) (fun r => (r, r)) false true none none none [1, 2] = .ok ([1, 3], 3) := by
  constructor <;> rfl

/-! ## C41 -/

theorem gymLoop_eq (f : Transformed P S R I O) (keys : Nat → R) (p : P) (s : S) (k : Nat) (ys : Option (List O))
    (xs : List I) :
    gymLoop f keys p s k ys xs = ((stepwise f p (fun t => some (keys t)) k s xs).2,
      if xs = [] then ys else some (ys.getD [] ++ (stepwise f p (fun t => some (keys t)) k s xs).1)) := by
  induction xs generalizing s k ys with
  | nil => rfl
  | cons x xs ih =>
    simp only [gymLoop, ih, stepwise]
    cases xs <;> simp [stepwise]

theorem stepwise_length (f : Transformed P S R I O) (p : P) (key : Nat → Option R) (k : Nat) (s : S) (xs : List I) :
    (stepwise f p key k s xs).1.length = xs.length := by
  induction xs generalizing k s with
  | nil => rfl
  | cons x xs ih => simp [stepwise, ih]

/-- C41, what holds: with `skip_first=False`, on at least two observations, the outputs returned are those of the steps
after the first one: the first output is computed (the state advances, key 1 is used) but not returned. -/
theorem C41_gym_static_unroll_actual_partial (f : Transformed P S R I O) (keys : Nat → R) (p : P) (s : S) (x y : I)
    (xs : List I) :
    ∃ o s', gymStaticUnroll f keys (some p) (some s) false (x :: y :: xs) = .ok (o, s') ∧
      (stepwise f p (fun t => some (keys (t + 1))) 0 s (x :: y :: xs)).1.drop 1 = o ∧
      (stepwise f p (fun t => some (keys (t + 1))) 0 s (x :: y :: xs)).2 = s' ∧
      o.length + 1 = (x :: y :: xs).length := by
  have hshift : ∀ (k : Nat) (s : S) (xs : List I), stepwise f p (fun t => some (keys (t + 1))) k s xs =
      stepwise f p (fun t => some (keys t)) (k + 1) s xs := by
    intro k s xs
    induction xs generalizing k s with
    | nil => rfl
    | cons x xs ih => simp only [stepwise, ih]
  set s1 := (f.apply p s (some (keys 1)) x).2 with hs1
  refine ⟨(stepwise f p (fun t => some (keys t)) 2 s1 (y :: xs)).1,
    (stepwise f p (fun t => some (keys t)) 2 s1 (y :: xs)).2, ?_, ?_, ?_, ?_⟩
  · simp only [gymStaticUnroll, Option.getD_some, Bool.false_eq_true, if_false, gymLoop_eq, ← hs1]
    simp [stepwise]
  · rw [hshift]; simp only [stepwise, List.drop_succ_cons, List.drop_zero]; rfl
  · rw [hshift]; simp only [stepwise]; rfl
  · rw [stepwise_length]; simp

/-- C41 is false: never one output per observation with `skip_first=False`; a single observation is even an error. -/
theorem C41_gym_static_unroll_loses_first (f : Transformed P S R I O) (keys : Nat → R) (params : Option P)
    (state : Option S) (data : List I) (o : List O) (s' : S)
    (h : gymStaticUnroll f keys params state false data = .ok (o, s')) : o.length + 1 = data.length := by
  cases data with
  | nil => simp [gymStaticUnroll] at h
  | cons x xs =>
    simp only [gymStaticUnroll, Bool.false_eq_true, if_false, gymLoop_eq] at h
    cases xs with
    | nil => simp at h
    | cons y xs =>
      simp only [List.cons_ne_nil, if_false, Option.getD_some, List.nil_append] at h
      split at h
      · simp at h
      · simp at h
      · rename_i heq
        simp only [Prod.mk.injEq, Option.some.injEq] at heq
        simp only [Except.ok.injEq, Prod.mk.injEq] at h
        rw [← h.1, ← heq.2, stepwise_length]; simp

/-- C41: with `skip_first=True` all observations but the first are processed and returned. -/
theorem C41_gym_static_unroll_skip (f : Transformed P S R I O) (keys : Nat → R) (p : P) (s : S) (x y : I)
    (xs : List I) :
    gymStaticUnroll f keys (some p) (some s) true (x :: y :: xs) =
      .ok (stepwise f p (fun t => some (keys t)) 1 s (y :: xs)) := by
  simp only [gymStaticUnroll, Option.getD_some, if_true, gymLoop_eq]
  simp [stepwise]

example : gymStaticUnroll (P := Unit) (S := Nat) (R := Nat) ⟨fun _ _ => ((), 0), fun _ s _ x => (s + x, s + x)⟩ id none none
    false [1, 2, 3] = .ok ([3, 6], 6) := by rfl

/-! ## C42 -/

theorem vmap_state (m : Mealy S I O) (n : Nat) (hist : List (Fin n → I)) (s : Fin n → S) (b : Fin n) :
    (vmapLift m n).stateFrom s hist b = m.stateFrom (s b) (hist.map fun x => x b) := by
  induction hist generalizing s with
  | nil => rfl
  | cons x hist ih => simp only [Mealy.stateFrom_cons, List.map_cons, ih]; rfl

/-- C42: batch index `b` of the vectorised module behaves as the module alone on the inputs of index `b`: same outputs, same
state, for every history and batch size. -/
theorem C42_vmap_independent (m : Mealy S I O) (n : Nat) (hist : List (Fin n → I)) (b : Fin n) :
    ((vmapLift m n).run hist).map (fun o => o b) = m.run (hist.map fun x => x b) ∧
    (vmapLift m n).stateAfter hist b = m.stateAfter (hist.map fun x => x b) := by
  constructor
  · have key : ∀ (hist : List (Fin n → I)) (s : Fin n → S),
        ((vmapLift m n).outsFrom s hist).map (fun o => o b) = m.outsFrom (s b) (hist.map fun x => x b) := by
      intro hist
      induction hist with
      | nil => intro s; rfl
      | cons x hist ih => intro s; simp only [Mealy.outsFrom_cons, List.map_cons, ih]; rfl
    exact key hist _
  · exact vmap_state m n hist _ b

/-- C42: changing the inputs of other indices changes nothing at index `b`. -/
theorem C42_vmap_no_crosstalk (m : Mealy S I O) (n : Nat) (hist hist' : List (Fin n → I)) (b : Fin n)
    (h : hist.map (fun x => x b) = hist'.map (fun x => x b)) :
    ((vmapLift m n).run hist).map (fun o => o b) = ((vmapLift m n).run hist').map (fun o => o b) := by
  rw [(C42_vmap_independent m n hist b).1, (C42_vmap_independent m n hist' b).1, h]

/-- C42: the only refused combination of options is `split_rng` without `init_rng`. -/
theorem C42_lift_args (splitRng initRng : Bool) :
    liftArgs splitRng initRng = .error () ↔ splitRng = true ∧ initRng = false := by
  cases splitRng <;> cases initRng <;> simp [liftArgs]

example : ((vmapLift (⟨0, fun s x => (s + x, s + x)⟩ : Mealy Nat Nat Nat) 2).run
    [fun b => if b = 0 then 1 else 10, fun b => if b = 0 then 2 else 20]).map (fun o => o 1) =
    [10, 30] := by decide

/-! ## C61 -/

theorem batch_scan (f : Transformed P S R I O) (p : P) (s : S) (key : Option R) (k : Nat) (xs : List I) :
    laxScan (batchScanF f) (p, s, key) xs =
      ((p, (stepwise f p (fun _ => key) k s xs).2, key), (stepwise f p (fun _ => key) k s xs).1) := by
  induction xs generalizing s k with
  | nil => rfl
  | cons x xs ih =>
    have := ih (f.apply p s key x).2 (k + 1)
    simp only [laxScan, stepwise]
    simp only [batchScanF] at this ⊢
    rw [this]

/-- C61: the static batch transform uses the key given to `apply` at every step. -/
theorem C61_batch_static_key (f : Transformed P S R I O) (p : P) (s : S) (k0 key : Option R) (xs : List I) (h : xs ≠ []) :
    batchApplyStatic f false (p, s, k0) key xs =
      .ok ((stepwise f p (fun _ => key) 0 s xs).1, (p, (stepwise f p (fun _ => key) 0 s xs).2, key)) := by
  simp only [batchApplyStatic, Bool.false_eq_true, if_false, staticScan_eq, h, batch_scan f p s key 0 xs]

/-- C61, false for the `lax.scan` version: the key given to `apply` is ignored, the one of `init` is used. -/
theorem C61_batch_ignores_key (f : Transformed P S R I O) (p : P) (s : S) (k0 key : Option R) (xs : List I) :
    batchApply f false (p, s, k0) key xs =
      ((stepwise f p (fun _ => k0) 0 s xs).1, (p, (stepwise f p (fun _ => k0) 0 s xs).2, k0)) := by
  simp only [batchApply, Bool.false_eq_true, if_false, batch_scan f p s k0 0 xs]

/-- C61: the two versions agree when the key of `init` is passed again to `apply` (non-empty batch). -/
theorem C61_batch_agree_partial (f : Transformed P S R I O) (key : Option R) (x : I) (xs : List I) :
    ∃ st, batchInit f key (x :: xs) = .ok st ∧
      batchApplyStatic f false st key (x :: xs) = .ok (batchApply f false st key (x :: xs)) := by
  refine ⟨_, rfl, ?_⟩
  rw [C61_batch_static_key _ _ _ _ _ _ (by simp), C61_batch_ignores_key]

/-- C61: a function returning its key tells the two versions apart. -/
theorem C61_batch_differ_witness :
    let f : Transformed Unit Unit Nat Unit Nat := ⟨fun _ _ => ((), ()), fun _ _ k _ => (k.getD 0, ())⟩
    (batchApply f false ((), (), some 1) (some 2) [(), ()]).1 = [1, 1] ∧
    batchApplyStatic f false ((), (), some 1) (some 2) [(), ()] = .ok ([2, 2], ((), (), some 2)) := by
  constructor <;> rfl

/-- C61: `data_unroll` collects all observations in order; an empty generator is an error. -/
theorem C61_data_unroll (obs : List X) : dataUnroll obs = if obs = [] then .error () else .ok obs := by
  have key : ∀ (obs : List X) (acc : Option (List X)),
      obs.foldl (fun (acc : Option (List X)) x => some (acc.getD [] ++ [x])) acc =
        if obs = [] then acc else some (acc.getD [] ++ obs) := by
    intro obs
    induction obs with
    | nil => intro acc; rfl
    | cons x obs ih =>
      intro acc
      rw [List.foldl_cons, ih]
      cases obs <;> simp
  unfold dataUnroll
  rw [key]
  cases obs <;> simp

end Verif.Props
