import Verif.Model.Columns
import Verif.Props.Unroll

/-! # Properties C152, C153: unrolling nested data column by column -/

set_option linter.unusedSectionVars false
set_option linter.unusedSimpArgs false

namespace Verif.Props
open Verif Verif.Model Verif.Model.Unroll Verif.Model.Columns

variable {P S R C X Y : Type}

/-- The step `t` of a structure: entry `t` of every leaf (leaves that are too short contribute nothing). -/
def stepAt (cols : List (Column X)) (t : Nat) : List X := cols.filterMap fun c => c.data[t]?

/-- The steps of a structure whose leaves have `n` entries. -/
def stepsOf (n : Nat) (cols : List (Column X)) : List (List X) := (List.range n).map fun (t : Nat) => stepAt cols t

theorem mapM_ok_map {A B : Type} (f : A → Except Unit B) (g : A → B) (l : List A) (h : ∀ a ∈ l, f a = .ok (g a)) :
    l.mapM f = .ok (l.map g) := by
  induction l with
  | nil => rfl
  | cons a l ih =>
    rw [List.mapM_cons, h a List.mem_cons_self, ih fun b hb => h b (List.mem_cons_of_mem _ hb)]
    rfl

theorem mapM_error_of {A B : Type} (f : A → Except Unit B) (l : List A) (a : A) (ha : a ∈ l) (h : f a = .error ()) :
    l.mapM f = .error () := by
  induction l with
  | nil => cases ha
  | cons b l ih =>
    rw [List.mapM_cons]
    cases hb : f b with
    | error e => rfl
    | ok v =>
      have : a ∈ l := by
        rcases List.mem_cons.1 ha with rfl | h'
        · rw [h] at hb; cases hb
        · exact h'
      rw [ih this]; rfl

theorem colGet_lt (c : Column X) (t : Nat) (h : t < c.data.length) : colGet c t = .ok c.data[t] := by
  unfold colGet
  rw [List.getElem?_eq_getElem h]

theorem rowAt_lt (cols : List (Column X)) (t : Nat) (h : ∀ c ∈ cols, t < c.data.length) :
    rowAt cols t = .ok (stepAt cols t) := by
  unfold rowAt stepAt
  induction cols with
  | nil => rfl
  | cons c cols ih =>
    have hc := h c List.mem_cons_self
    rw [List.mapM_cons, colGet_lt c t hc, ih fun d hd => h d (List.mem_cons_of_mem _ hd)]
    simp [List.filterMap_cons, List.getElem?_eq_getElem hc, bind, Except.bind, pure, Except.pure]

theorem iterRows_eq (c : Column X) (cols : List (Column X)) (n : Nat) (h : ∀ d ∈ c :: cols, d.data.length = n) :
    iterRows (c :: cols) = .ok (stepsOf n (c :: cols)) := by
  unfold iterRows stepsOf
  simp only
  rw [h c List.mem_cons_self]
  refine mapM_ok_map _ _ _ fun t ht => rowAt_lt _ _ fun d hd => ?_
  rw [h d hd]
  exact List.mem_range.1 ht

theorem appendEach_getElem? (cs : List (List Y)) (ys : List Y) (j : Nat) :
    (appendEach cs ys)[j]? = (cs[j]?).map fun c => match ys[j]? with | some y => c ++ [y] | none => c := by
  induction cs generalizing ys j with
  | nil => simp [appendEach]
  | cons c cs ih =>
    cases ys with
    | nil => cases h : (c :: cs)[j]? <;> simp [appendEach, h]
    | cons y ys =>
      cases j with
      | zero => simp [appendEach]
      | succ j => simp [appendEach, ih]

theorem toColumns_getElem? (k : Nat) (outs : List (List Y)) (j : Nat) :
    (toColumns k outs)[j]? = if j < k then some (outs.filterMap fun o => o[j]?) else none := by
  unfold toColumns
  by_cases h : j < k
  · simp [h]
  · simp [h]

theorem appendEach_toColumns (k : Nat) (outs : List (List Y)) (y : List Y) (h : y.length = k) :
    appendEach (toColumns k outs) y = toColumns k (outs ++ [y]) := by
  apply List.ext_getElem?
  intro j
  rw [appendEach_getElem?, toColumns_getElem?, toColumns_getElem?]
  by_cases hj : j < k
  · rw [if_pos hj, if_pos hj]
    have : j < y.length := by omega
    simp [List.getElem?_eq_getElem this, List.filterMap_append, List.filterMap_cons]
  · rw [if_neg hj, if_neg hj]; rfl

theorem staticLoopCols_some (k : Nat) (f : C → List X → C × List Y) (hk : ∀ c x, (f c x).2.length = k) (c : C)
    (outs : List (List Y)) (last : Nat) (rows : List (List X)) :
    staticLoopCols f c (some (toColumns k outs)) last rows =
      ((laxScan f c rows).1, some (toColumns k (outs ++ (laxScan f c rows).2)), if rows = [] then last else k) := by
  induction rows generalizing c outs last with
  | nil => simp [staticLoopCols, laxScan]
  | cons x rows ih =>
    simp only [staticLoopCols, Option.getD_some, appendEach_toColumns k outs _ (hk c x), ih, laxScan, hk]
    cases rows <;> simp

theorem staticScanCols_eq (k : Nat) (f : C → List X → C × List Y) (hk : ∀ c x, (f c x).2.length = k) (init : C)
    (cols : List (Column X)) (rows : List (List X)) (hrows : iterRows cols = .ok rows) :
    staticScanCols f init cols =
      if rows = [] then .error () else .ok ((laxScan f init rows).1, toColumns k (laxScan f init rows).2) := by
  unfold staticScanCols
  rw [hrows]
  cases rows with
  | nil => simp [staticLoopCols, bind, Except.bind]
  | cons x rows =>
    have h0 : ((f init x).2.map fun _ => ([] : List Y)) = toColumns k [] := by
      apply List.ext_getElem?
      intro j
      rw [toColumns_getElem?]
      by_cases hj : j < k
      · have : j < (f init x).2.length := by rw [hk]; exact hj
        rw [if_pos hj, List.getElem?_map, List.getElem?_eq_getElem this]; simp
      · have : (f init x).2.length ≤ j := by rw [hk]; omega
        simp [hj, this]
    have h1 : staticLoopCols f init none 0 (x :: rows) =
        staticLoopCols f init (some (toColumns k [])) 0 (x :: rows) := by
      simp [staticLoopCols, h0]
    simp only [bind, Except.bind, h1, staticLoopCols_some k f hk]
    simp [toColumns]

/-- Outputs stacked leaf by leaf, with the final state. -/
def stacked (k : Nat) (r : Except Unit (List (List Y) × S)) : Except Unit (List (List Y) × S) :=
  r.map fun os => (toColumns k os.1, os.2)

theorem laxScanCols_eq (k : Nat) (f : C → List X → C × List Y) (init : C) (c : Column X) (cols : List (Column X)) (n : Nat)
    (h : ∀ d ∈ c :: cols, d.data.length = n) :
    laxScanCols k f init (c :: cols) =
      .ok ((laxScan f init (stepsOf n (c :: cols))).1, toColumns k (laxScan f init (stepsOf n (c :: cols))).2) := by
  unfold laxScanCols
  simp only
  rw [if_pos, iterRows_eq c cols n h]
  · rfl
  · rw [List.all_eq_true]
    intro d hd
    rw [h d hd, h c List.mem_cons_self]
    simp

theorem stepsOf_drop (n : Nat) (cols : List (Column X)) : stepsOf (n - 1) (dropFirst cols) = (stepsOf n cols).drop 1 := by
  apply List.ext_getElem?
  intro t
  unfold stepsOf
  rw [List.getElem?_drop, List.getElem?_map, List.getElem?_map]
  by_cases ht : t < n - 1
  · rw [List.getElem?_range ht, List.getElem?_range (by omega)]
    simp [stepAt, dropFirst, List.filterMap_map, Function.comp_def, Nat.add_comm]
  · rw [List.getElem?_eq_none (by simp; omega), List.getElem?_eq_none (by simp; omega)]
    rfl

/-- C152: on nested data whose leaves all have the same length, the code's cutting of every leaf, one scan over the pieces and the
stacking of every output leaf give exactly what the unroll of the list of steps gives (C37–C39), output leaf by output leaf:
the same errors, outputs and final state, for both scans, with and without `skip_first`, given parameters or not. -/
theorem C152_columns (k : Nat) (f : Transformed P S R (List X) (List Y)) (hk : ∀ p s r x, (f.apply p s r x).1.length = k)
    (split : R → R × R) (skip dyn : Bool) (rng : Option R) (params : Option P) (state : Option S) (cols : List (Column X))
    (n : Nat) (hne : cols ≠ []) (hlen : ∀ c ∈ cols, c.data.length = n) :
    unrollCols k f split skip dyn rng params state cols =
      stacked k (unroll f split skip dyn rng params state (stepsOf n cols)) := by
  obtain ⟨c, cs, rfl⟩ := List.exists_cons_of_ne_nil hne
  have hscan : ∀ p c x, (scanF f split p c x).2.length = k := by
    intro p c x
    unfold scanF
    cases c.2 <;> exact hk _ _ _ _
  have happly : ∀ p s, unrollApplyCols k f split skip dyn p s rng (c :: cs) =
      stacked k (unrollApply f split skip dyn p s rng (stepsOf n (c :: cs))) := by
    intro p s
    have main : ∀ (d : Column X) (ds : List (Column X)) (m : Nat), (∀ e ∈ d :: ds, e.data.length = m) →
        (scanCols k dyn (scanF f split p) (s, rng) (d :: ds)).map (fun r => (r.2, r.1.1)) =
        stacked k (unrollApply f split false dyn p s rng (stepsOf m (d :: ds))) := by
      intro d ds m hm
      unfold scanCols unrollApply
      cases dyn with
      | true => simp [laxScanCols_eq k _ _ d ds m hm, stacked, bind, Except.bind, Except.map]
      | false =>
        simp only [Bool.false_eq_true, if_false]
        rw [staticScanCols_eq k _ (hscan p) _ _ _ (iterRows_eq d ds m hm), staticScan_eq]
        by_cases h0 : stepsOf m (d :: ds) = []
        · simp [h0, stacked, bind, Except.bind, Except.map]
        · simp [h0, stacked, bind, Except.bind, Except.map]
    have hskip : unrollApply f split true dyn p s rng (stepsOf n (c :: cs)) =
        unrollApply f split false dyn p s rng ((stepsOf n (c :: cs)).drop 1) := rfl
    unfold unrollApplyCols
    cases skip with
    | false => exact main c cs n hlen
    | true =>
      rw [hskip, ← stepsOf_drop]
      have hd : dropFirst (c :: cs) = { c with data := c.data.drop 1 } :: dropFirst cs := rfl
      rw [if_pos rfl, hd]
      refine main _ _ (n - 1) ?_
      intro e he
      rw [← hd] at he
      unfold dropFirst at he
      obtain ⟨d, hd', rfl⟩ := List.mem_map.1 he
      simp [hlen d hd']
  unfold unrollCols unroll unrollInitCols unrollInit
  cases n with
  | zero =>
    have hc : c.data = [] := List.length_eq_zero_iff.1 (hlen c List.mem_cons_self)
    have : rowAt (c :: cs) 0 = .error () := by
      refine mapM_error_of _ _ c List.mem_cons_self ?_
      unfold colGet
      rw [hc]
      cases c.kind <;> rfl
    simp [this, stepsOf, stacked, bind, Except.bind, Except.map]
  | succ n =>
    have hr : rowAt (c :: cs) 0 = .ok (stepAt (c :: cs) 0) := rowAt_lt _ _ fun d hd => by rw [hlen d hd]; omega
    have hs : stepsOf (n + 1) (c :: cs) =
        stepAt (c :: cs) 0 :: (List.range n).map (fun (t : Nat) => stepAt (c :: cs) (t + 1)) := by
      unfold stepsOf
      rw [List.range_succ_eq_map]
      simp [Function.comp_def]
    simp only [hr, bind, Except.bind]
    rw [happly, hs]

/-- C153: leaves of different lengths make the dynamic unroll (and `jax.lax.scan`) raise. -/
theorem C153_dynamic_lengths (k : Nat) (f : C → List X → C × List Y) (init : C) (cols : List (Column X))
    (h : ¬ ∃ n, ∀ c ∈ cols, c.data.length = n) : laxScanCols k f init cols = .error () := by
  unfold laxScanCols
  cases cols with
  | nil => rfl
  | cons c cols =>
    simp only
    rw [if_neg]
    intro hall
    rw [List.all_eq_true] at hall
    exact h ⟨c.data.length, fun d hd => by simpa using hall d hd⟩

/-- A leaf cut or extended to `n` entries: longer ones are cut, shorter JAX ones are extended with their last entry. -/
def fit (n : Nat) (c : Column X) : Column X :=
  { c with data := c.data.take n ++ (match c.data.getLast? with
    | some v => List.replicate (n - c.data.length) v
    | none => []) }

/-- C153 (that both scans agree on all inputs is false of the code): `static_scan` takes its length from the first leaf; it
raises if a later NumPy leaf (or an empty one) is shorter, and otherwise silently cuts the longer leaves and repeats the last
entry of the shorter JAX leaves. -/
theorem C153_static_lengths_partial (f : C → List X → C × List Y) (init : C) (c : Column X) (cols : List (Column X)) :
    staticScanCols f init (c :: cols) =
      if ∃ d ∈ cols, d.data.length < c.data.length ∧ (d.kind = .numpy ∨ d.data = []) then .error ()
      else staticScanCols f init (c :: cols.map (fit c.data.length)) := by
  have hit : iterRows (c :: cols) =
      if ∃ d ∈ cols, d.data.length < c.data.length ∧ (d.kind = .numpy ∨ d.data = []) then .error ()
      else iterRows (c :: cols.map (fit c.data.length)) := by
    split
    · rename_i hb
      obtain ⟨d, hd, hlt, hk⟩ := hb
      unfold iterRows
      simp only
      refine mapM_error_of _ _ d.data.length (List.mem_range.2 hlt) ?_
      refine mapM_error_of _ _ d (List.mem_cons_of_mem _ hd) ?_
      unfold colGet
      rw [List.getElem?_eq_none (Nat.le_refl _)]
      rcases hk with hk | hk
      · rw [hk]
      · rw [hk]; cases d.kind <;> rfl
    · rename_i hb
      unfold iterRows
      simp only
      have hcol : ∀ t < c.data.length, ∀ d ∈ cols, colGet d t = colGet (fit c.data.length d) t := by
        intro t ht d hd
        unfold colGet fit
        by_cases hlt : t < d.data.length
        · have : t < (d.data.take c.data.length).length := by simp; omega
          simp only [List.getElem?_append_left this, List.getElem?_take_of_lt ht, List.getElem?_eq_getElem hlt]
        · have hshort : d.data.length < c.data.length := by omega
          have hnb : ¬ (d.kind = .numpy ∨ d.data = []) := fun hk => hb ⟨d, hd, hshort, hk⟩
          push Not at hnb
          have hk : d.kind = .jax := by cases hd' : d.kind with
            | jax => rfl
            | numpy => exact absurd hd' hnb.1
          obtain ⟨v, hv⟩ : ∃ v, d.data.getLast? = some v := by
            cases hg : d.data.getLast? with
            | none => exact absurd (List.getLast?_eq_none_iff.1 hg) hnb.2
            | some v => exact ⟨v, rfl⟩
          have htake : d.data.take c.data.length = d.data := List.take_of_length_le (by omega)
          simp only [hv, htake, hk]
          rw [List.getElem?_eq_none (by omega), List.getElem?_append_right (by omega),
            List.getElem?_replicate_of_lt (by omega)]
      have hrow : ∀ t ∈ List.range c.data.length, rowAt (c :: cols) t = rowAt (c :: cols.map (fit c.data.length)) t := by
        intro t ht
        unfold rowAt
        rw [List.mapM_cons, List.mapM_cons]
        have : (cols.mapM fun c => colGet c t) = (cols.map (fit c.data.length)).mapM fun c => colGet c t := by
          have ht' := List.mem_range.1 ht
          clear ht hb
          induction cols with
          | nil => rfl
          | cons d ds ih =>
            rw [List.map_cons, List.mapM_cons, List.mapM_cons, hcol t ht' d List.mem_cons_self,
              ih fun t ht e he => hcol t ht e (List.mem_cons_of_mem _ he)]
        rw [this]
      generalize List.range c.data.length = ts at hrow
      clear hcol
      induction ts with
      | nil => rfl
      | cons t ts ih =>
        rw [List.mapM_cons, List.mapM_cons, hrow t List.mem_cons_self, ih fun t ht => hrow t (List.mem_cons_of_mem _ ht)]
  unfold staticScanCols
  rw [hit]
  split <;> rfl

/-- C153 (a documented use of `static_scan` is false of the code): `static_scan(f, init, length=n)` without `xs` raises whatever
`f`, `init` and `n`. -/
theorem C153_static_scan_without_xs_partial (f : C → List X → C × List Y) (init : C) (n : Nat) :
    staticScanArg f init none n = .error () := rfl

/-- C152: `unroll` of an already unrolled pair keeps the pair's options, whatever those passed to `unroll`. -/
theorem C152_unrolled_options (k : Nat) (f : Transformed P S R (List X) (List Y)) (split : R → R × R)
    (skip dyn skip' dyn' : Bool) (rng : Option R) (params : Option P) (state : Option S) (cols : List (Column X)) :
    unrollOf k (.unrolled f skip dyn) split skip' dyn' rng params state cols =
      unrollOf k (.fn f) split skip dyn rng params state cols := rfl

/-- Running sums of two columns, used below. -/
def pairSum : Transformed Unit Nat Unit (List Nat) (List Nat) where
  init := fun _ _ => ((), 0)
  apply := fun _ s _ x => ([s + x.sum, x.length], s + x.sum)

example : unrollCols 2 pairSum (fun r => (r, r)) false true none none none [⟨.jax, [1, 2, 3]⟩, ⟨.numpy, [10, 20, 30]⟩] =
    .ok ([[11, 33, 66], [2, 2, 2]], 66) := by decide
example : stepsOf 3 [(⟨.jax, [1, 2, 3]⟩ : Column Nat), ⟨.numpy, [10, 20, 30]⟩] = [[1, 10], [2, 20], [3, 30]] := by decide
example : unrollCols 2 pairSum (fun r => (r, r)) false false none none none [⟨.jax, [1, 2, 3]⟩, ⟨.jax, [10, 20]⟩] =
    .ok ([[11, 33, 56], [2, 2, 2]], 56) := by decide
example : unrollCols 2 pairSum (fun r => (r, r)) false true none none none [⟨.jax, [1, 2, 3]⟩, ⟨.jax, [10, 20]⟩] =
    .error () := by decide

end Verif.Props
