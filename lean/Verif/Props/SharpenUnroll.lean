import Verif.Props.Unroll
import Verif.Props.Stream
import Verif.Props.Reports

/-! # Sharper statements, second part: `skip_first`, keys of `gym_static_unroll`, buffered accesses, export -/

set_option linter.unusedSectionVars false

namespace Verif.Props
open Verif Model Spec Lemmas

section
open Model.Unroll
variable {P S R I O : Type}

/-- C37: with `skip_first` the lifted module does not see the first observation of each sequence: it returns the outputs, and keeps the
state, of the module on the sequences without them. -/
theorem C37_lift_skip_first (m : Mealy S I O) (chunks : List (List I)) :
    ((unrollLift m true).run chunks).flatten = m.run (chunks.map List.tail).flatten ∧
    (unrollLift m true).stateAfter chunks = m.stateAfter (chunks.map List.tail).flatten ∧
    ((unrollLift m true).run chunks).map List.length = chunks.map fun c => c.length - 1 := by
  have hstep : ∀ s c, (unrollLift m true).step s c = (unrollLift m false).step s c.tail := by
    intro s c
    simp only [unrollLift, if_true, Bool.false_eq_true, if_false, List.drop_one]
  have key : ∀ (chunks : List (List I)) (s : S), (unrollLift m true).outsFrom s chunks = (unrollLift m false).outsFrom s (chunks.map List.tail) ∧
      (unrollLift m true).stateFrom s chunks = (unrollLift m false).stateFrom s (chunks.map List.tail) := by
    intro chunks
    induction chunks with
    | nil => intro s; exact ⟨rfl, rfl⟩
    | cons c cs ih =>
      intro s
      simp only [List.map_cons, Mealy.outsFrom_cons, Mealy.stateFrom_cons, hstep]
      exact ⟨by rw [(ih _).1], (ih _).2⟩
  have h := C37_unroll_lift_chunks m (chunks.map List.tail)
  refine ⟨?_, ?_, ?_⟩
  · rw [← h.1]; exact congrArg List.flatten (key chunks m.init).1
  · rw [← h.2]; exact (key chunks m.init).2
  · have hl : ∀ (cs : List (List I)) (s : S), ((unrollLift m false).outsFrom s cs).map List.length = cs.map List.length := by
      intro cs
      induction cs with
      | nil => intro s; rfl
      | cons c cs ih =>
        intro s
        have hc : ((unrollLift m false).step s c).1.length = c.length := by
          simp only [unrollLift, Bool.false_eq_true, if_false, laxScan_mealy]
          simp
        simp only [Mealy.outsFrom_cons, List.map_cons, ih, hc]
    have := (key chunks m.init).1
    show ((unrollLift m true).outsFrom m.init chunks).map List.length = _
    rw [this, hl, List.map_map]
    apply List.map_congr_left
    intro c _
    simp

/-- C61: with `skip_first` the batch transforms apply the module to all observations but the first, from the same state. -/
theorem C61_batch_skip_first (f : Transformed P S R I O) (p : P) (s : S) (k0 key : Option R) (x : I) (xs : List I) :
    batchApply f true (p, s, k0) key (x :: xs) =
      ((stepwise f p (fun _ => k0) 0 s xs).1, (p, (stepwise f p (fun _ => k0) 0 s xs).2, k0)) ∧
    (xs ≠ [] → batchApplyStatic f true (p, s, k0) key (x :: xs) =
      .ok ((stepwise f p (fun _ => key) 0 s xs).1, (p, (stepwise f p (fun _ => key) 0 s xs).2, key))) ∧
    batchApplyStatic f true (p, s, k0) key [x] = .error () := by
  refine ⟨?_, fun h => ?_, ?_⟩
  · have := C61_batch_ignores_key f p s k0 key xs
    simpa [batchApply] using this
  · have := C61_batch_static_key f p s k0 key xs h
    simpa [batchApplyStatic] using this
  · simp [batchApplyStatic, staticScan_eq]

/-- C41: parameters and states that are not given come from `init` on the first observation with the first key. -/
theorem C41_gym_static_unroll_init_partial (f : Transformed P S R I O) (keys : Nat → R) (params : Option P) (state : Option S) (skip : Bool)
    (x : I) (xs : List I) :
    gymStaticUnroll f keys params state skip (x :: xs) =
      gymStaticUnroll f keys (some (params.getD (f.init (some (keys 0)) x).1)) (some (state.getD (f.init (some (keys 0)) x).2)) skip (x :: xs) := by
  simp only [gymStaticUnroll, Option.getD_some]

end

section
open Model.Stream
variable {V : Type}

/-- C36: the access is right for a buffer of one slot: the initial value everywhere if the slot is missing, its row otherwise. -/
theorem C36_buffered_one_slot [Inhabited V] (init : V) (f : Nat) (x : List (List V)) (hx : x ≠ []) (hr : ∀ r ∈ x, r.length = f)
    (i : Int) (hi : i < x.length) :
    (i < 0 → accessBuffered2 init f x [i] = .ok [List.replicate f init]) ∧
    (∀ n : Nat, i = n → accessBuffered2 init f x [i] = .ok [x.getD n []]) := by
  have hrow : ∃ r ∈ x, jnpIndex x i = r := by
    unfold jnpIndex
    have hpos := List.length_pos_of_ne_nil hx
    have hlt : (max 0 (min (if i < 0 then i + x.length else i) ((x.length : Int) - 1))).toNat < x.length := by
      split <;> omega
    exact ⟨x[_]'hlt, List.getElem_mem _, by rw [List.getD_eq_getElem?_getD, List.getElem?_eq_getElem hlt]; rfl⟩
  obtain ⟨r, hrx, hrow⟩ := hrow
  have hrl := hr r hrx
  have hrep : ∀ l : List V, l.map (fun _ => init) = List.replicate l.length init := by
    intro l; simp
  constructor
  · intro h0
    unfold accessBuffered2
    by_cases hf : ([i] : List Int).length = f
    · rw [if_pos hf]
      simp only [List.map_cons, List.map_nil, hrow]
      obtain ⟨v, rfl⟩ := List.length_eq_one_iff.1 (hrl.trans hf.symm)
      simp at hf
      subst hf
      simp [h0]
    · rw [if_neg hf, if_pos (by simp : ([i] : List Int).length = 1)]
      simp only [List.map_cons, List.map_nil, hrow, List.getD_cons_zero, h0, if_true]
      rw [hrep, hrl]
  · intro n hn
    have hn' : n < x.length := by omega
    have hacc : jnpIndex x i = x[n] := by
      have := accessData_index (V := List V) [] x n hn'
      unfold accessData at this
      rw [if_neg (by omega)] at this
      rw [hn]; exact this
    have hgd : x.getD n [] = x[n] := by rw [List.getD_eq_getElem?_getD, List.getElem?_eq_getElem hn']; rfl
    have hneg : ¬ i < 0 := by omega
    unfold accessBuffered2
    by_cases hf : ([i] : List Int).length = f
    · rw [if_pos hf]
      simp only [List.map_cons, List.map_nil, hacc, hgd]
      have h1 := hr x[n] (List.getElem_mem _)
      obtain ⟨v, hv⟩ := List.length_eq_one_iff.1 (h1.trans hf.symm)
      rw [hv]
      simp [hneg]
    · rw [if_neg hf, if_pos (by simp : ([i] : List Int).length = 1)]
      simp only [List.map_cons, List.map_nil, hacc, hgd, List.getD_cons_zero, hneg, if_false, List.map_id']

/-- C36, what the buffered access returns for data with one feature and a buffer of several slots: not the `m × 1` column but an
`m × m` matrix: its entry `(k, j)` is the initial value if slot `j` is missing, and the value of slot `k` otherwise. -/
theorem C36_buffered_one_feature_partial [Inhabited V] (init : V) (x : List V) (idx : List Int) (hm : 2 ≤ idx.length) :
    ∃ out, accessBuffered2 init 1 (x.map fun v => [v]) idx = .ok out ∧
      out = idx.map fun (ik : Int) => idx.map fun ij => if ij < 0 then init else (jnpIndex (x.map fun v => [v]) ik).getD 0 default := by
  unfold accessBuffered2
  rw [if_neg (by omega), if_neg (by omega), if_pos rfl]
  refine ⟨_, rfl, ?_⟩
  rw [List.map_map]
  rfl

/-- Non-vacuity: a missing and a present slot. -/
example : accessBuffered2 (V := Nat) 99 1 [[1], [2]] [missingIndex, 1] = .ok [[99, 1], [99, 2]] ∧
    accessBuffered2 (V := Nat) 99 2 [[1, 2]] [missingIndex] = .ok [[99, 99]] := by decide

end

section
open Model.Debug Model.Reports
variable {K : Type} [Field K] [LinearOrder K] {C St In Out H : Type}

/-- C124: the error raised for another format names it. -/
theorem C124_export_error (unit : Nat → K) (d : Debugger C St In Out H) (format : String) (h : format ≠ "dict") :
    exportEvents unit d format = .error ("Unsupported export format: " ++ format) := by
  simp [exportEvents, h]

end

end Verif.Props
