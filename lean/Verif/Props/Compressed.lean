import Verif.Model.Compressed
import Verif.Lemmas.Windows
import Mathlib.Algebra.Order.Ring.Rat
import Mathlib.Data.Rat.Floor
import Mathlib.Algebra.BigOperators.Group.List.Basic
import Mathlib.Data.List.Sort
import Mathlib.Tactic.Linarith
import Mathlib.Tactic.Ring
import Mathlib.Algebra.Ring.Nat

/-! # Properties C49, C50, C69–C71: compressed buffers -/

namespace Verif.Props
open Model Model.Compressed Spec
variable {V : Type}
set_option linter.unusedSectionVars false

/-! ## C49 -/

/-- The inputs of the steps `0, n, 2n, …`. -/
def everyNth (n : Nat) (xs : List V) : List V := (xs.zipIdx.filter fun p => p.2 % n = 0).map Prod.fst

theorem everyNth_snoc (n : Nat) (xs : List V) (x : V) :
    everyNth n (xs ++ [x]) = everyNth n xs ++ if xs.length % n = 0 then [x] else [] := by
  unfold everyNth
  rw [List.zipIdx_append, List.filter_append, List.map_append]
  by_cases h : xs.length % n = 0 <;> simp [h]

theorem everyNth_length_le (n : Nat) (xs : List V) : (everyNth n xs).length ≤ xs.length := by
  unfold everyNth
  rw [List.length_map]
  exact Nat.le_trans (List.length_filter_le _ _) (by simp)

theorem downsample_state (maxlen factor : Nat) (fill : V) (xs : List V) :
    (downsample maxlen factor fill).stateAfter xs =
      ((circBuffer (compressedMaxlen maxlen factor) fill).stateAfter (everyNth factor xs), xs.length) := by
  induction xs using List.reverseRecOn with
  | nil => rfl
  | append_singleton xs x ih =>
    rw [Mealy.stateAfter_append_singleton, ih, everyNth_snoc]
    by_cases h : xs.length % factor = 0
    · simp only [downsample, h, if_true, Mealy.stateAfter_append_singleton, List.length_append, List.length_cons,
        List.length_nil]
    · simp only [downsample, h, if_false, List.append_nil, List.length_append, List.length_cons, List.length_nil]

/-- C49: the stored array always has `max(1, maxlen // factor)` entries and holds, up to a rotation, the last recorded values:
the inputs of the steps whose index is a multiple of the factor. -/
theorem C49_downsample_storage (maxlen factor : Nat) (fill : V) (xs : List V)
    (hm : max 1 (maxlen / factor) ≤ 2 ^ 30) (hlen : xs.length < 2 ^ 31) :
    ((downsample maxlen factor fill).stateAfter xs).1.buffer.length = max 1 (maxlen / factor) ∧
    ∃ k, ((downsample maxlen factor fill).stateAfter xs).1.buffer.rotate k =
      window (max 1 (maxlen / factor)) fill (everyNth factor xs) := by
  rw [downsample_state]
  have hl := everyNth_length_le factor xs
  obtain ⟨phys, h1, h2, h3⟩ := circ_stateAfter (compressedMaxlen maxlen factor) (by unfold compressedMaxlen; omega) hm fill
    (everyNth factor xs) (by omega)
  simp only [h1]
  exact ⟨h2, _, h3⟩

/-- C49: at the steps that record (index multiple of the factor) the output is the window of the recorded inputs, oldest
first; at the other steps it is the same values, rotated. -/
theorem C49_downsample_output (maxlen factor : Nat) (fill : V) (xs : List V) (t : Nat)
    (ht : t < xs.length) (hm : max 1 (maxlen / factor) ≤ 2 ^ 30) (hlen : xs.length < 2 ^ 31) :
    ∃ out, ((downsample maxlen factor fill).run xs)[t]? = some out ∧
      (t % factor = 0 → out = window (max 1 (maxlen / factor)) fill (everyNth factor (xs.take (t + 1)))) ∧
      ∃ k, out.rotate k = window (max 1 (maxlen / factor)) fill (everyNth factor (xs.take (t + 1))) := by
  have hst := downsample_state maxlen factor fill (xs.take t)
  have hstore := C49_downsample_storage maxlen factor fill (xs.take t) hm (by rw [List.length_take]; omega)
  rw [Mealy.run, Mealy.outsFrom_getElem?, List.getElem?_eq_getElem ht]
  simp only [Option.map_some]
  refine ⟨_, rfl, ?_⟩
  rw [Mealy.stateAfter] at hst hstore
  rw [hst] at hstore ⊢
  have hlt : (xs.take t).length = t := by rw [List.length_take]; omega
  rw [← List.take_append_getElem ht, everyNth_snoc, hlt]
  have hl := everyNth_length_le factor (xs.take t)
  rw [hlt] at hl
  by_cases h : t % factor = 0
  · have hout := circ_step_out (compressedMaxlen maxlen factor) (by unfold compressedMaxlen; omega) hm fill
      (everyNth factor (xs.take t)) xs[t] (by omega)
    have hf : ((downsample maxlen factor fill).step
        ((circBuffer (compressedMaxlen maxlen factor) fill).stateAfter (everyNth factor (xs.take t)), t) xs[t]).1 =
        window (max 1 (maxlen / factor)) fill (everyNth factor (xs.take t) ++ [xs[t]]) := by
      simp only [downsample, h, if_true, hout]
      rfl
    rw [if_pos h, hf]
    exact ⟨fun _ => rfl, 0, by simp⟩
  · refine ⟨fun h' => absurd h' h, ?_⟩
    rw [if_neg h, List.append_nil]
    obtain ⟨k, hk⟩ := hstore.2
    refine ⟨k, ?_⟩
    simp only [downsample, h, if_false]
    exact hk

/-- C49: at a step that does not record, the output is not in order of arrival. -/
theorem C49_downsample_order_witness :
    ((downsample 4 2 0).run [1, 2, 3, 4, 5, 6]) = [[0, 1], [1, 0], [1, 3], [1, 3], [3, 5], [5, 3]] := by
  decide

example : max 1 (1000 / 4) ≤ 2 ^ 30 := by decide

/-! ## C50 -/

theorem sketchUpdate_row (nh nb : Nat) (sk : List (List Nat)) (x : Int) (i : Nat) :
    (sketchUpdate nh nb sk x)[i]? =
      if i < nh then (sk[i]?).map fun row => row.modify (bucket nh nb i x) f32succ else sk[i]? := by
  unfold sketchUpdate
  have key : ∀ n, ((List.range n).foldl (fun sk i => sk.modify i fun row => row.modify (bucket nh nb i x) f32succ) sk)[i]? =
      if i < n then (sk[i]?).map fun row => row.modify (bucket nh nb i x) f32succ else sk[i]? := by
    intro n
    induction n with
    | zero => simp
    | succ n ih =>
      rw [List.range_succ, List.foldl_append, List.foldl_cons, List.foldl_nil, List.getElem?_modify, ih]
      by_cases h1 : i < n
      · rw [if_pos h1, if_pos (by omega)]
        have : ¬ n = i := by omega
        simp [this]
      · rw [if_neg h1]
        by_cases h2 : n = i
        · subst h2; simp
        · rw [if_neg (by omega)]; simp [h2]
  exact key nh

theorem f32succ_min (c : Nat) : f32succ (min c (2 ^ 24)) = min (c + 1) (2 ^ 24) := by
  unfold f32succ
  split <;> omega

/-- C50 (exact): cell `b` of row `i` counts the items hashed there by hash `i` (a float32 counter stops at 2^24). -/
theorem C50_sketch_cells (nh nb : Nat) (toInt : V → Int) (hist : List V) (i b : Nat) (hi : i < nh) (hb : b < nb) :
    ∃ row, ((sketching nh nb toInt).stateAfter hist)[i]? = some row ∧ row.length = nb ∧
      row[b]? = some (min (hist.countP fun y => bucket nh nb i (toInt y) = b) (2 ^ 24)) := by
  induction hist using List.reverseRecOn with
  | nil =>
    refine ⟨List.replicate nb 0, ?_, by simp, ?_⟩
    · show (List.replicate nh (List.replicate nb 0))[i]? = _
      rw [List.getElem?_replicate, if_pos hi]
    · rw [List.getElem?_replicate, if_pos hb]; simp
  | append_singleton hist x ih =>
    obtain ⟨row, h1, h2, h3⟩ := ih
    refine ⟨row.modify (bucket nh nb i (toInt x)) f32succ, ?_, by simp [h2], ?_⟩
    · rw [Mealy.stateAfter_append_singleton]
      show (sketchUpdate nh nb _ _)[i]? = _
      rw [sketchUpdate_row, if_pos hi, h1]; rfl
    · rw [List.getElem?_modify, h3, List.countP_append]
      by_cases hx : bucket nh nb i (toInt x) = b
      · have := f32succ_min (List.countP (fun y => decide (bucket nh nb i (toInt y) = b)) hist)
        norm_num at this
        simp [hx, this]
      · simp [hx]

/-- C50: the four hashes really differ: with more than 14 buckets the item 0 falls in pairwise distinct buckets of the
(at most four) first rows. -/
theorem C50_hashes_differ (nh nb i j : Nat) (hij : i < j) (hj : j < nh) (h4 : j < 4) (hnb : 14 < nb) :
    bucket nh nb i 0 ≠ bucket nh nb j 0 := by
  have hp : ∀ k, k < nh → k < 4 → hashParam nh k = hashParams.getD k (0, 0) := by
    intro k hk hk4
    have : min k (min nh 4 - 1) = k := by omega
    unfold hashParam
    rw [this, List.getD_eq_getElem?_getD, List.getD_eq_getElem?_getD, List.getElem?_take, if_pos hk]
  have hb : ∀ k, k < nh → k < 4 → bucket nh nb k 0 = ((hashParams.getD k (0, 0)).2 % (nb : Int)).toNat := by
    intro k hk hk4
    unfold bucket
    rw [hp k hk hk4]
    have : i32 (i32 ((hashParams.getD k (0, 0)).1 * 0) + (hashParams.getD k (0, 0)).2) = (hashParams.getD k (0, 0)).2 := by
      obtain rfl | rfl | rfl | rfl : k = 0 ∨ k = 1 ∨ k = 2 ∨ k = 3 := by omega
      all_goals decide
    simp only [this]
  rw [hb i (by omega) (by omega), hb j hj h4]
  have h : ∀ a b : Int, a < b → b - a < 15 → a % (nb : Int) ≠ b % (nb : Int) := by
    intro a b hab hb he
    have hd : (nb : Int) ∣ b - a := Int.dvd_of_emod_eq_zero (Int.emod_emod_of_dvd _ (dvd_refl _) ▸ by
      rw [Int.sub_emod, he]; simp)
    have := Int.le_of_dvd (by omega) hd
    omega
  have hn : ∀ a : Int, 0 ≤ a % (nb : Int) := fun a => Int.emod_nonneg a (by omega)
  have fin : ∀ a b : Int, a < b → b - a < 15 → (a % (nb : Int)).toNat ≠ (b % (nb : Int)).toNat := by
    intro a b h1 h2 he
    exact h a b h1 h2 (by have := hn a; have := hn b; omega)
  obtain ⟨rfl, rfl⟩ | ⟨rfl, rfl⟩ | ⟨rfl, rfl⟩ | ⟨rfl, rfl⟩ | ⟨rfl, rfl⟩ | ⟨rfl, rfl⟩ :
      (i = 0 ∧ j = 1) ∨ (i = 0 ∧ j = 2) ∨ (i = 0 ∧ j = 3) ∨ (i = 1 ∧ j = 2) ∨ (i = 1 ∧ j = 3) ∨ (i = 2 ∧ j = 3) := by omega
  all_goals exact fin _ _ (by decide) (by decide)

/-- C50: rows beyond the fourth repeat the fourth one, so more than four hashes never sharpen an estimate. -/
theorem C50_extra_hashes_useless (nh nb i : Nat) (h3 : 3 ≤ i) (hi : i < nh) (x : Int) :
    bucket nh nb i x = bucket nh nb 3 x := by
  have : hashParam nh i = hashParam nh 3 := by
    unfold hashParam
    have h1 : min i (min nh 4 - 1) = 3 := by omega
    have h2 : min 3 (min nh 4 - 1) = 3 := by omega
    rw [h1, h2]
  unfold bucket
  rw [this]

/-- C50: no row undercounts an item (up to the float32 limit), so neither does the minimum over its own buckets. -/
theorem C50_never_undercounts (nh nb : Nat) (toInt : V → Int) [DecidableEq V] (hist : List V) (x : V) (i : Nat) (hi : i < nh)
    (hnb : 0 < nb) (hlen : hist.count x ≤ 2 ^ 24) :
    ∃ row c, ((sketching nh nb toInt).stateAfter hist)[i]? = some row ∧ row[bucket nh nb i (toInt x)]? = some c ∧
      hist.count x ≤ c := by
  have hb : bucket nh nb i (toInt x) < nb := by
    unfold bucket
    have := Int.emod_lt_of_pos (i32 (i32 ((hashParam nh i).1 * toInt x) + (hashParam nh i).2)) (Int.ofNat_lt.2 hnb)
    have := Int.emod_nonneg (i32 (i32 ((hashParam nh i).1 * toInt x) + (hashParam nh i).2))
      (by omega : ((nb : Nat) : Int) ≠ 0)
    simp only
    omega
  obtain ⟨row, h1, _, h3⟩ := C50_sketch_cells nh nb toInt hist i _ hi hb
  refine ⟨row, _, h1, h3, ?_⟩
  have : hist.count x ≤ hist.countP fun y => decide (bucket nh nb i (toInt y) = bucket nh nb i (toInt x)) := by
    rw [List.count]
    apply List.countP_mono_left
    intro y _ hy
    have : y = x := by simpa using hy
    simp [this]
  omega

theorem sum_countP_buckets {α : Type} (f : α → Nat) (n : Nat) (l : List α) (h : ∀ y ∈ l, f y < n) :
    ((List.range n).map fun b => l.countP fun y => decide (f y = b)).sum = l.length := by
  induction l with
  | nil => simp
  | cons y l ih =>
    have ih := ih (fun z hz => h z (by simp [hz]))
    have hy := h y (by simp)
    have : ((List.range n).map fun b => (y :: l).countP fun z => decide (f z = b)) =
        (List.range n).map fun b => (l.countP fun z => decide (f z = b)) + if f y = b then 1 else 0 := by
      apply List.map_congr_left
      intro b _
      rw [List.countP_cons]
      simp
    rw [this, List.sum_map_add, ih, List.length_cons]
    congr 1
    clear this ih h
    have : ∀ n, ((List.range n).map fun b => if f y = b then 1 else 0).sum = if f y < n then 1 else 0 := by
      intro n
      induction n with
      | zero => simp
      | succ n ihn =>
        rw [List.range_succ, List.map_append, List.sum_append, ihn]
        by_cases h1 : f y < n
        · have h2 : ¬ f y = n := by omega
          have h3 : f y < n + 1 := by omega
          simp [h1, h2, h3]
        · by_cases h2 : f y = n
          · simp [h2]
          · have h3 : ¬ f y < n + 1 := by omega
            simp [h1, h2, h3]
    rw [this, if_pos hy]

/-- C50: every row sums to the number of items seen (up to the float32 limit). -/
theorem C50_row_sums (nh nb : Nat) (toInt : V → Int) (hist : List V) (i : Nat) (hi : i < nh) (hnb : 0 < nb)
    (hlen : hist.length ≤ 2 ^ 24) :
    ∃ row, ((sketching nh nb toInt).stateAfter hist)[i]? = some row ∧ row.sum = hist.length := by
  obtain ⟨row, h1, h2, _⟩ := C50_sketch_cells nh nb toInt hist i 0 hi hnb
  refine ⟨row, h1, ?_⟩
  have hrow : row = (List.range nb).map fun b => hist.countP fun y => decide (bucket nh nb i (toInt y) = b) := by
    apply List.ext_getElem?
    intro b
    by_cases hb : b < nb
    · obtain ⟨row', h1', _, h3'⟩ := C50_sketch_cells nh nb toInt hist i b hi hb
      rw [h1] at h1'
      obtain rfl := Option.some.inj h1'
      rw [h3', List.getElem?_map, List.getElem?_range hb]
      have := List.countP_le_length (l := hist) (p := fun y => decide (bucket nh nb i (toInt y) = b))
      simp only [Option.map_some, Option.some.injEq]
      omega
    · rw [List.getElem?_eq_none (by omega), List.getElem?_eq_none (by simp; omega)]
  rw [hrow]
  apply sum_countP_buckets
  intro y _
  unfold bucket
  have := Int.emod_lt_of_pos (i32 (i32 ((hashParam nh i).1 * toInt y) + (hashParam nh i).2)) (Int.ofNat_lt.2 hnb)
  have := Int.emod_nonneg (i32 (i32 ((hashParam nh i).1 * toInt y) + (hashParam nh i).2))
    (by omega : ((nb : Nat) : Int) ≠ 0)
  simp only
  omega

/-- C50: what the call *returns*, the minimum of the rows bucket by bucket, is no frequency estimate: after one item it is zero
everywhere, because the hashes send the item to different buckets. -/
theorem C50_output_no_estimate_witness : ((sketching 4 64 (fun x : Int => x)).run [1, 1, 1]).all (fun o => o.all (· == 0)) := by
  decide

theorem foldl_min_spec {α : Type} (f : α → Nat) (l : List α) (m : Nat) :
    (∀ a ∈ l, l.foldl (fun m a => min m (f a)) m ≤ f a) ∧ l.foldl (fun m a => min m (f a)) m ≤ m ∧
    (l.foldl (fun m a => min m (f a)) m = m ∨ ∃ a ∈ l, l.foldl (fun m a => min m (f a)) m = f a) := by
  induction l generalizing m with
  | nil => simp
  | cons b l ih =>
    obtain ⟨h1, h2, h3⟩ := ih (min m (f b))
    simp only [List.foldl_cons, List.mem_cons, forall_eq_or_imp, exists_eq_or_imp]
    refine ⟨⟨le_trans h2 (Nat.min_le_right _ _), h1⟩, le_trans h2 (Nat.min_le_left _ _), ?_⟩
    rcases h3 with h3 | h3
    · rcases Nat.le_total m (f b) with h | h
      · left; rw [h3, Nat.min_eq_left h]
      · right; left; rw [h3, Nat.min_eq_right h]
    · exact .inr (.inr h3)

/-- C50 (exact): what a call returns for bucket `b` is the least, over the hashes, of the number of items hashed to `b` so far
(saturated counters). -/
theorem C50_sketch_output (nh nb : Nat) (toInt : V → Int) (hist : List V) (x : V) (b : Nat) (hnh : 0 < nh) (hb : b < nb) :
    ∃ out v, ((sketching nh nb toInt).run (hist ++ [x])).getLast? = some out ∧ out.length = nb ∧ out[b]? = some v ∧
      (∀ i, i < nh → v ≤ min ((hist ++ [x]).countP fun y => bucket nh nb i (toInt y) = b) (2 ^ 24)) ∧
      ∃ i, i < nh ∧ v = min ((hist ++ [x]).countP fun y => bucket nh nb i (toInt y) = b) (2 ^ 24) := by
  have hout : ((sketching nh nb toInt).run (hist ++ [x])).getLast? =
      some (sketchMin nb ((sketching nh nb toInt).stateAfter (hist ++ [x]))) := by
    rw [Mealy.run_append_singleton, List.getLast?_append, Mealy.stateAfter_append_singleton]
    rfl
  have hcells := fun i (hi : i < nh) => C50_sketch_cells nh nb toInt (hist ++ [x]) i b hi hb
  have hlen : ((sketching nh nb toInt).stateAfter (hist ++ [x])).length = nh := by
    have : ∀ (n : Nat) (sk : List (List Nat)) (xi : Int),
        ((List.range n).foldl (fun sk i => sk.modify i fun row => row.modify (bucket nh nb i xi) f32succ) sk).length =
          sk.length := by
      intro n sk xi
      induction n with
      | zero => rfl
      | succ n ih => rw [List.range_succ, List.foldl_append]; simp [ih]
    have hinv : ∀ h : List V, ((sketching nh nb toInt).stateAfter h).length = nh := by
      intro h
      induction h using List.reverseRecOn with
      | nil => exact List.length_replicate
      | append_singleton h y ih => rw [Mealy.stateAfter_append_singleton]; exact (this _ _ _).trans ih
    exact hinv _
  generalize (sketching nh nb toInt).stateAfter (hist ++ [x]) = st at hout hcells hlen
  have hval : ∀ (rows : List (List Nat)) (i : Nat) (r : List Nat), rows[i]? = some r → r ∈ rows :=
    fun rows i r h => List.mem_of_getElem? h
  cases st with
  | nil => simp at hlen; omega
  | cons row rows =>
    refine ⟨_, rows.foldl (fun m r => min m (r.getD b 0)) (row.getD b 0), hout, by simp [sketchMin], ?_, ?_, ?_⟩
    · simp [sketchMin, hb]
    · intro i hi
      obtain ⟨r, hr1, _, hr3⟩ := hcells i hi
      obtain ⟨h1, h2, _⟩ := foldl_min_spec (fun r : List Nat => r.getD b 0) rows (row.getD b 0)
      have hrv : r.getD b 0 = min ((hist ++ [x]).countP fun y => bucket nh nb i (toInt y) = b) (2 ^ 24) := by
        rw [List.getD_eq_getElem?_getD, hr3]; rfl
      rw [← hrv]
      rcases List.mem_cons.1 (hval _ _ _ hr1) with rfl | hm
      · exact h2
      · exact h1 r hm
    · obtain ⟨_, _, h3⟩ := foldl_min_spec (fun r : List Nat => r.getD b 0) rows (row.getD b 0)
      have key : ∃ i, i < nh ∧ ∃ r, (row :: rows)[i]? = some r ∧
          rows.foldl (fun m r => min m (r.getD b 0)) (row.getD b 0) = r.getD b 0 := by
        rcases h3 with h3 | ⟨r, hr, h3⟩
        · exact ⟨0, hnh, row, rfl, h3⟩
        · obtain ⟨k, hk, hkr⟩ := List.mem_iff_getElem.1 hr
          refine ⟨k + 1, by simp at hlen; omega, r, ?_, h3⟩
          simp [List.getElem?_eq_getElem hk, hkr]
      obtain ⟨i, hi, r, hr, hv⟩ := key
      obtain ⟨r', hr1, _, hr3⟩ := hcells i hi
      rw [hr] at hr1
      cases hr1
      exact ⟨i, hi, by rw [hv, List.getD_eq_getElem?_getD, hr3]; rfl⟩

/-- C50: the hashes are `x ↦ (31 x + 17)`, `(37 x + 23)`, `(41 x + 29)`, `(43 x + 31)` in wrapping 32-bit arithmetic, modulo the
number of buckets; the bucket is the one of the mathematical residue of a 32-bit integer congruent to `a x + b`. -/
theorem C50_hash_functions (nh nb i : Nat) (hi : i < nh) (hnb : 0 < nb) (x : Int) :
    ∃ w : Int, -(2 ^ 31) ≤ w ∧ w < 2 ^ 31 ∧ (2 : Int) ^ 32 ∣ w - ([31, 37, 41, 43].getD (min i (min nh 4 - 1)) 0 * x +
        [17, 23, 29, 31].getD (min i (min nh 4 - 1)) 0) ∧
      (nb : Int) ∣ w - (bucket nh nb i x : Int) ∧ bucket nh nb i x < nb := by
  have hp : hashParam nh i = ([31, 37, 41, 43].getD (min i (min nh 4 - 1)) 0, [17, 23, 29, 31].getD (min i (min nh 4 - 1)) 0) := by
    unfold hashParam hashParams
    have hk : min i (min nh 4 - 1) < nh ∧ min i (min nh 4 - 1) < 4 := by omega
    generalize min i (min nh 4 - 1) = k at hk
    obtain ⟨h1, h2⟩ := hk
    rw [List.getD_eq_getElem?_getD, List.getElem?_take, if_pos h1]
    have : k = 0 ∨ k = 1 ∨ k = 2 ∨ k = 3 := by omega
    rcases this with rfl | rfl | rfl | rfl <;> rfl
  have hw : ∀ y : Int, -(2 ^ 31) ≤ i32 y ∧ i32 y < 2 ^ 31 ∧ (2 : Int) ^ 32 ∣ i32 y - y := by
    intro y
    unfold i32
    have h1 := Int.le_bmod (x := y) (m := 2 ^ 32) (by decide)
    have h2 := Int.bmod_lt (x := y) (m := 2 ^ 32) (by decide)
    have h3 : ((2 ^ 32 : Nat) : Int) ∣ y - y.bmod (2 ^ 32) := Int.dvd_self_sub_bmod
    have e : y.bmod (2 ^ 32) - y = -(y - y.bmod (2 ^ 32)) := by omega
    refine ⟨by omega, by omega, ?_⟩
    rw [e]
    exact Int.dvd_neg.2 h3
  refine ⟨i32 (i32 ((hashParam nh i).1 * x) + (hashParam nh i).2), (hw _).1, (hw _).2.1, ?_, ?_, ?_⟩
  · have h1 := (hw ((hashParam nh i).1 * x)).2.2
    have h2 := (hw (i32 ((hashParam nh i).1 * x) + (hashParam nh i).2)).2.2
    rw [hp] at h1 h2 ⊢
    have := Int.dvd_add h2 h1
    have e : ∀ a b c d : Int, a - (b + c) + (b - d) = a - (d + c) := by intros; omega
    rwa [e] at this
  · have h0 := Int.emod_nonneg (i32 (i32 ((hashParam nh i).1 * x) + (hashParam nh i).2)) (by omega : (nb : Int) ≠ 0)
    unfold bucket
    simp only []
    rw [Int.toNat_of_nonneg h0]
    exact Int.dvd_self_sub_emod
  · have h0 := Int.emod_nonneg (i32 (i32 ((hashParam nh i).1 * x) + (hashParam nh i).2)) (by omega : (nb : Int) ≠ 0)
    have h1 := Int.emod_lt_of_pos (i32 (i32 ((hashParam nh i).1 * x) + (hashParam nh i).2)) (by omega : (0 : Int) < nb)
    unfold bucket
    simp only []
    omega

/-- C50: beyond 2^24 occurrences the counters stop: the estimate is too low. -/
theorem C50_saturates_witness (nh nb : Nat) (toInt : V → Int) (x : V) (n : Nat) (i b : Nat) (hi : i < nh) (hb : b < nb) :
    ∃ row c, ((sketching nh nb toInt).stateAfter (List.replicate n x))[i]? = some row ∧ row[b]? = some c ∧ c ≤ 2 ^ 24 := by
  obtain ⟨row, h1, _, h3⟩ := C50_sketch_cells nh nb toInt (List.replicate n x) i b hi hb
  exact ⟨row, _, h1, h3, Nat.min_le_right _ _⟩

example : (1 : Nat) < 4 ∧ 0 < 1024 ∧ [3, 5, 3].count 3 ≤ 2 ^ 24 := by decide

/-! ## C69 -/

section Quantile
variable {K : Type} [Field K] [LinearOrder K] [IsStrictOrderedRing K] [FloorRing K]

theorem jnpGet_inrange (l : List K) (i : Int) (h0 : 0 ≤ i) (h1 : i < l.length) :
    ∃ h : i.toNat < l.length, jnpGet l i = l[i.toNat] := by
  have h : i.toNat < l.length := by omega
  refine ⟨h, ?_⟩
  unfold jnpGet
  rw [if_neg (by omega)]
  have : (min (max i 0) ((l.length : Int) - 1)).toNat = i.toNat := by omega
  simp only [this]
  rw [List.getD_eq_getElem _ _ h]

theorem sorted_get_le (l : List K) (hs : l.Pairwise (· ≤ ·)) (i j : Nat) (hij : i ≤ j) (hj : j < l.length) :
    l[i]'(by omega) ≤ l[j] := by
  rcases Nat.lt_or_eq_of_le hij with h | h
  · exact List.pairwise_iff_getElem.1 hs i j _ _ h
  · subst h; exact le_refl _

theorem idx_bounds (n : Nat) (hn : 0 < n) (p : K) (h0 : 0 ≤ p) (h1 : p ≤ 1) :
    0 ≤ ⌊p * ((n : K) - 1)⌋ ∧ ⌊p * ((n : K) - 1)⌋ ≤ ⌈p * ((n : K) - 1)⌉ ∧ ⌈p * ((n : K) - 1)⌉ < n := by
  have hn1 : (0 : K) ≤ (n : K) - 1 := by
    have : (1 : K) ≤ n := by exact_mod_cast hn
    linarith
  refine ⟨Int.floor_nonneg.2 (mul_nonneg h0 hn1), Int.floor_le_ceil _, ?_⟩
  have : ⌈p * ((n : K) - 1)⌉ ≤ (n : Int) - 1 := by
    rw [Int.ceil_le]
    push_cast
    calc p * ((n : K) - 1) ≤ 1 * ((n : K) - 1) := mul_le_mul_of_nonneg_right h1 hn1
      _ = (n : K) - 1 := one_mul _
  omega

/-- The interpolated value lies between the sorted values around its index. -/
theorem quantile_between (l : List K) (hs : l.Pairwise (· ≤ ·)) (hne : l ≠ []) (p : K) (h0 : 0 ≤ p) (h1 : p ≤ 1) :
    jnpGet l ⌊p * ((l.length : K) - 1)⌋ ≤ quantile l p ∧ quantile l p ≤ jnpGet l ⌈p * ((l.length : K) - 1)⌉ := by
  have hn := List.length_pos_of_ne_nil hne
  obtain ⟨b1, b2, b3⟩ := idx_bounds l.length hn p h0 h1
  obtain ⟨g1, e1⟩ := jnpGet_inrange l ⌊p * ((l.length : K) - 1)⌋ b1 (by omega)
  obtain ⟨g2, e2⟩ := jnpGet_inrange l ⌈p * ((l.length : K) - 1)⌉ (by omega) b3
  have hle : jnpGet l ⌊p * ((l.length : K) - 1)⌋ ≤ jnpGet l ⌈p * ((l.length : K) - 1)⌉ := by
    rw [e1, e2]
    exact sorted_get_le l hs _ _ (by omega) g2
  have hw0 : 0 ≤ p * ((l.length : K) - 1) - (⌊p * ((l.length : K) - 1)⌋ : Int) := sub_nonneg.2 (Int.floor_le _)
  have hw1 : p * ((l.length : K) - 1) - (⌊p * ((l.length : K) - 1)⌋ : Int) ≤ 1 := by
    have := Int.lt_floor_add_one (p * ((l.length : K) - 1))
    linarith
  unfold quantile
  simp only
  generalize p * ((l.length : K) - 1) - (⌊p * ((l.length : K) - 1)⌋ : Int) = w at hw0 hw1
  generalize jnpGet l ⌊p * ((l.length : K) - 1)⌋ = a at hle
  generalize jnpGet l ⌈p * ((l.length : K) - 1)⌉ = b at hle
  have hd : 0 ≤ b - a := sub_nonneg.2 hle
  constructor
  · have := mul_nonneg hw0 hd; linarith
  · have := mul_le_mul_of_nonneg_right hw1 hd; linarith

/-- C69: quantiles of a sample are monotone in the fraction. -/
theorem C69_quantile_monotone (l : List K) (hs : l.Pairwise (· ≤ ·)) (hne : l ≠ []) (p q : K) (h0 : 0 ≤ p) (hpq : p ≤ q)
    (h1 : q ≤ 1) : quantile l p ≤ quantile l q := by
  have hn := List.length_pos_of_ne_nil hne
  have hn1 : (0 : K) ≤ (l.length : K) - 1 := by
    have : (1 : K) ≤ l.length := by exact_mod_cast hn
    linarith
  have hidx : p * ((l.length : K) - 1) ≤ q * ((l.length : K) - 1) := mul_le_mul_of_nonneg_right hpq hn1
  obtain ⟨_, hp2⟩ := quantile_between l hs hne p h0 (le_trans hpq h1)
  obtain ⟨hq1, _⟩ := quantile_between l hs hne q (le_trans h0 hpq) h1
  obtain ⟨a1, a2, a3⟩ := idx_bounds l.length hn p h0 (le_trans hpq h1)
  obtain ⟨b1, b2, b3⟩ := idx_bounds l.length hn q (le_trans h0 hpq) h1
  have hfl : ⌊p * ((l.length : K) - 1)⌋ ≤ ⌊q * ((l.length : K) - 1)⌋ := Int.floor_mono hidx
  have hcl : ⌈p * ((l.length : K) - 1)⌉ ≤ ⌈q * ((l.length : K) - 1)⌉ := Int.ceil_mono hidx
  by_cases hc : ⌈p * ((l.length : K) - 1)⌉ ≤ ⌊q * ((l.length : K) - 1)⌋
  · obtain ⟨g1, e1⟩ := jnpGet_inrange l ⌈p * ((l.length : K) - 1)⌉ (by omega) a3
    obtain ⟨g2, e2⟩ := jnpGet_inrange l ⌊q * ((l.length : K) - 1)⌋ b1 (by omega)
    have := sorted_get_le l hs _ _ (by omega : (⌈p * ((l.length : K) - 1)⌉).toNat ≤ (⌊q * ((l.length : K) - 1)⌋).toNat) g2
    rw [e1] at hp2
    rw [e2] at hq1
    exact le_trans hp2 (le_trans this hq1)
  · -- same cell
    have c1 : ⌈p * ((l.length : K) - 1)⌉ ≤ ⌊p * ((l.length : K) - 1)⌋ + 1 := Int.ceil_le_floor_add_one _
    have c2 : ⌈q * ((l.length : K) - 1)⌉ ≤ ⌊q * ((l.length : K) - 1)⌋ + 1 := Int.ceil_le_floor_add_one _
    have ef : ⌊p * ((l.length : K) - 1)⌋ = ⌊q * ((l.length : K) - 1)⌋ := by omega
    have ec : ⌈p * ((l.length : K) - 1)⌉ = ⌈q * ((l.length : K) - 1)⌉ := by omega
    obtain ⟨g1, e1⟩ := jnpGet_inrange l ⌊q * ((l.length : K) - 1)⌋ b1 (by omega)
    obtain ⟨g2, e2⟩ := jnpGet_inrange l ⌈q * ((l.length : K) - 1)⌉ (by omega) b3
    have hle := sorted_get_le l hs _ _ (by omega : (⌊q * ((l.length : K) - 1)⌋).toNat ≤ (⌈q * ((l.length : K) - 1)⌉).toNat) g2
    rw [← e1, ← e2] at hle
    unfold quantile
    simp only
    rw [ef, ec]
    have hd := sub_nonneg.2 hle
    have := mul_le_mul_of_nonneg_right (sub_le_sub_right hidx ((⌊q * ((l.length : K) - 1)⌋ : Int) : K)) hd
    linarith

/-- C69: they run from the least to the greatest value: the fractions 0 and 1 are the minimum and the maximum. -/
theorem C69_quantile_ends (l : List K) (hne : l ≠ []) :
    quantile l 0 = l.head hne ∧ quantile l 1 = l.getLast hne := by
  have hn := List.length_pos_of_ne_nil hne
  constructor
  · unfold quantile
    obtain ⟨g, e⟩ := jnpGet_inrange l 0 (by omega) (by omega)
    simp only [zero_mul, Int.floor_zero, Int.ceil_zero, Int.cast_zero, sub_self, add_zero]
    rw [e]
    cases l with
    | nil => exact absurd rfl hne
    | cons a l => rfl
  · unfold quantile
    have e1 : (1 : K) * ((l.length : K) - 1) = ((l.length : Int) - 1 : Int) := by push_cast; ring
    simp only [e1, Int.floor_intCast, Int.ceil_intCast, sub_self, zero_mul, add_zero]
    obtain ⟨g, e⟩ := jnpGet_inrange l ((l.length : Int) - 1) (by omega) (by omega)
    rw [e, List.getLast_eq_getElem]
    congr 1
    omega

theorem quantile_state_buffer (maxlen : Nat) (ps : List K) (fill : Option K) (xs : List (Option K)) :
    ((quantileCompress maxlen ps fill).stateAfter xs).1 = (circBuffer (min maxlen 1000) fill).stateAfter xs ∧
    ((quantileCompress maxlen ps fill).stateAfter xs).2.2 = xs.length := by
  induction xs using List.reverseRecOn with
  | nil => exact ⟨rfl, rfl⟩
  | append_singleton xs x ih =>
    rw [Mealy.stateAfter_append_singleton, Mealy.stateAfter_append_singleton]
    rw [← ih.1]
    refine ⟨rfl, ?_⟩
    rw [List.length_append, List.length_singleton, ← ih.2]
    rfl

/-- C69: at the calls number 0, 10, 20, … the estimates are the quantiles of the valid values of the window (fill values that
are numbers count as valid); at the other calls, or when the window has no valid value, they are those of the previous call. -/
theorem C69_quantile_estimates (maxlen : Nat) (hm : 0 < maxlen) (ps : List K) (fill : Option K) (xs : List (Option K))
    (t : Nat) (ht : t < xs.length) (hlen : xs.length < 2 ^ 31) :
    let valid := (window (min maxlen 1000) fill (xs.take (t + 1))).filterMap id
    ((quantileCompress maxlen ps fill).run xs)[t]? =
      if t % 10 = 0 ∧ valid ≠ [] then
        some (ps.map fun p => some (quantile (valid.mergeSort fun a b => decide (a ≤ b)) p))
      else if t = 0 then some (List.replicate ps.length fill)
      else ((quantileCompress maxlen ps fill).run xs)[t - 1]? := by
  intro valid
  have hst := quantile_state_buffer maxlen ps fill (xs.take t)
  -- the stored estimates are the last output
  have hest : ∀ ys : List (Option K), ((quantileCompress maxlen ps fill).stateAfter ys).2.1 =
      ((quantileCompress maxlen ps fill).run ys).getLast?.getD (List.replicate ps.length fill) := by
    intro ys
    induction ys using List.reverseRecOn with
    | nil => rfl
    | append_singleton ys y _ =>
      rw [Mealy.stateAfter_append_singleton, Mealy.run_append_singleton]
      simp only [List.getLast?_append, List.getLast?_singleton, Option.some_or, Option.getD_some]
      rfl
  have hlt : (xs.take t).length = t := by rw [List.length_take]; omega
  have hout := circ_step_out (min maxlen 1000) (by omega) (by omega) fill (xs.take t) xs[t] (by omega)
  have hv : valid = (window (min maxlen 1000) fill (xs.take t ++ [xs[t]])).filterMap id := by
    show (window (min maxlen 1000) fill (xs.take (t + 1))).filterMap id = _
    rw [List.take_append_getElem ht]
  have hprev : ((quantileCompress maxlen ps fill).stateAfter (xs.take t)).2.1 =
      if t = 0 then List.replicate ps.length fill
      else (((quantileCompress maxlen ps fill).run xs)[t - 1]?).getD (List.replicate ps.length fill) := by
    rw [hest, ← Mealy.run_take, List.getLast?_take]
    by_cases h : t = 0
    · simp [h]
    · simp only [h, if_false]
      have hl : t - 1 < ((quantileCompress maxlen ps fill).run xs).length := by rw [Mealy.run_length]; omega
      rw [List.getElem?_eq_getElem hl]; rfl
  have hsome : t ≠ 0 → ∃ o, ((quantileCompress maxlen ps fill).run xs)[t - 1]? = some o := by
    intro h
    have hl : t - 1 < ((quantileCompress maxlen ps fill).run xs).length := by rw [Mealy.run_length]; omega
    exact ⟨_, List.getElem?_eq_getElem hl⟩
  have hrun : ((quantileCompress maxlen ps fill).run xs)[t]? =
      some ((quantileCompress maxlen ps fill).step ((quantileCompress maxlen ps fill).stateAfter (xs.take t)) xs[t]).1 := by
    rw [Mealy.run, Mealy.outsFrom_getElem?, List.getElem?_eq_getElem ht]; rfl
  rw [hrun]
  generalize hS : (quantileCompress maxlen ps fill).stateAfter (xs.take t) = S at *
  obtain ⟨B, est, cnt⟩ := S
  simp only at hst hprev
  have hstep : ((quantileCompress maxlen ps fill).step (B, est, cnt) xs[t]).1 =
      if t % 10 = 0 then
        if valid = [] then est
        else ps.map fun p => some (quantile (valid.mergeSort fun a b => decide (a ≤ b)) p)
      else est := by
    simp only [quantileCompress]
    rw [hst.1, hst.2, hlt, hout]
    simp only
    rw [← hv]
  rw [hstep, hprev]
  by_cases h1 : t % 10 = 0
  · by_cases h2 : valid = []
    · simp only [h1, h2, if_true, ne_eq, not_true_eq_false, and_false, if_false]
      by_cases h3 : t = 0
      · simp [h3]
      · obtain ⟨o, ho⟩ := hsome h3
        simp [h3, ho]
    · simp [h1, h2]
  · simp only [h1, if_false, false_and]
    have h3 : t ≠ 0 := by intro e; rw [e] at h1; exact h1 rfl
    obtain ⟨o, ho⟩ := hsome h3
    simp [h3, ho]

/-- C69: with the default fill value 0 the estimates are biased towards 0 until the window is full: the median of a first
observation 10 in a window of 3 is 0. -/
theorem C69_fill_bias_witness : ((quantileCompress (K := ℚ) 3 [1 / 2] (some 0)).run [some 10]) = [[some 0]] := by
  have h := C69_quantile_estimates (K := ℚ) 3 (by decide) [1 / 2] (some 0) [some 10] 0 (by decide) (by decide)
  have hs : ([0, 0, 10] : List ℚ).mergeSort (fun a b => decide (a ≤ b)) = [0, 0, 10] := by
    apply List.mergeSort_of_pairwise
    decide +kernel
  have hw : (window (min 3 1000) (some (0 : ℚ)) (([some 10] : List (Option ℚ)).take (0 + 1))).filterMap id = [0, 0, 10] := by
    decide +kernel
  simp only [hw, hs] at h
  have hq : quantile ([0, 0, 10] : List ℚ) (1 / 2) = 0 := by decide +kernel
  have hl : ((quantileCompress (K := ℚ) 3 [1 / 2] (some 0)).run [some 10]).length = 1 := by rw [Mealy.run_length]; rfl
  apply List.ext_getElem?
  intro i
  cases i with
  | zero => rw [h, if_pos (by simp)]; simp only [List.map_cons, List.map_nil, hq]; rfl
  | succ i => rw [List.getElem?_eq_none (by omega)]; rfl

example : ([0, 1, 10] : List ℚ).Pairwise (· ≤ ·) := by decide +kernel

end Quantile

/-! ## C70 -/

/-- C70: the total of the memory report is the sum of its parts (plus the counter for the quantile strategy). -/
theorem C70_memory_total (maxlen nP factor nh nb : Nat) (s : Strategy) :
    (memoryUsage maxlen nP factor nh nb s).2 =
      (memoryUsage maxlen nP factor nh nb s).1.sum + if s = .quantile then 4 else 0 := by
  cases s <;> simp [memoryUsage]

/-- C70, downsample: the report is 8 bytes per stored entry provided the factor does not exceed `maxlen`; otherwise it says
0 although one entry is stored. -/
theorem C70_memory_downsample_partial (maxlen nP factor nh nb : Nat) (hf : 0 < factor) :
    ((memoryUsage maxlen nP factor nh nb .downsample).1.head? = some (8 * compressedMaxlen maxlen factor) ↔ factor ≤ maxlen) ∧
    (maxlen < factor → (memoryUsage maxlen nP factor nh nb .downsample).1.head? = some 0 ∧
      compressedMaxlen maxlen factor = 1) := by
  have hdiv : factor ≤ maxlen ↔ 1 ≤ maxlen / factor := by
    rw [Nat.le_div_iff_mul_le hf]; omega
  simp only [memoryUsage, compressedMaxlen, List.head?_cons, Option.some.injEq]
  constructor
  · rw [hdiv]; omega
  · intro h
    have : maxlen / factor = 0 := Nat.div_eq_of_lt h
    omega

/-- C70: the number of entries the memory report of the other strategies counts is the number of entries stored. -/
theorem C70_memory_storage (maxlen nP factor nh nb : Nat) (fill : V) (toInt : V → Int) (hist : List V) :
    (memoryUsage maxlen nP factor nh nb .sketching).1.head? =
      some (8 * (((sketching nh nb toInt).stateAfter hist).map List.length).sum) ∧
    (memoryUsage maxlen nP factor nh nb .none).1.head? =
      some (8 * ((circBuffer maxlen fill).stateAfter hist).buffer.length) := by
  constructor
  · have hl : (((sketching nh nb toInt).stateAfter hist).map List.length) = List.replicate nh nb := by
      apply List.ext_getElem?
      intro i
      by_cases hi : i < nh
      · rcases Nat.eq_zero_or_pos nb with h0 | h0
        · subst h0
          -- rows are empty
          have : ∀ hist : List V, ((sketching nh 0 toInt).stateAfter hist).map List.length = List.replicate nh 0 := by
            intro hist
            induction hist using List.reverseRecOn with
            | nil =>
              show (List.replicate nh (List.replicate 0 0)).map List.length = _
              simp
            | append_singleton hist x ih =>
              rw [Mealy.stateAfter_append_singleton]
              show (sketchUpdate nh 0 _ _).map List.length = _
              apply List.ext_getElem?
              intro j
              have := congrArg (fun l => l[j]?) ih
              simp only [List.getElem?_map] at this ⊢
              rw [sketchUpdate_row]
              split
              · rw [← this, Option.map_map]
                congr 1
                funext r; simp
              · exact this
          rw [this]
        · obtain ⟨row, h1, h2, _⟩ := C50_sketch_cells nh nb toInt hist i 0 hi h0
          rw [List.getElem?_map, h1, List.getElem?_replicate, if_pos hi, ← h2]; rfl
      · have hlen : ∀ hist : List V, ((sketching nh nb toInt).stateAfter hist).length = nh := by
          intro hist
          induction hist using List.reverseRecOn with
          | nil =>
            show (List.replicate nh (List.replicate nb 0)).length = _
            simp
          | append_singleton hist x ih =>
            rw [Mealy.stateAfter_append_singleton]
            show (sketchUpdate nh nb _ _).length = _
            unfold sketchUpdate
            generalize List.range nh = l
            have : ∀ (l : List Nat) (sk : List (List Nat)), (l.foldl (fun sk i => sk.modify i fun row =>
                row.modify (bucket nh nb i (toInt x)) f32succ) sk).length = sk.length := by
              intro l
              induction l with
              | nil => intro sk; rfl
              | cons a l ihl => intro sk; rw [List.foldl_cons, ihl, List.length_modify]
            rw [this, ih]
        rw [List.getElem?_eq_none (by rw [List.length_map, hlen]; omega), List.getElem?_eq_none (by simp; omega)]
    rw [hl]
    simp only [memoryUsage, List.head?_cons, List.sum_replicate, nsmul_eq_mul, Nat.cast_id, Option.some.injEq]
    ring
  · have : ∀ hist : List V, ((circBuffer maxlen fill).stateAfter hist).buffer.length = maxlen := by
      intro hist
      induction hist using List.reverseRecOn with
      | nil =>
        show (List.replicate maxlen fill).length = _
        simp
      | append_singleton hist x ih =>
        rw [Mealy.stateAfter_append_singleton]
        show (List.set _ _ _).length = _
        rw [List.length_set, ih]
    rw [this]
    simp only [memoryUsage, List.head?_cons, Option.some.injEq]
    ring

/-- C70 (exact): the bytes the hierarchical buffer reports for a level are those the level itself reports (five percentiles,
factor 2, four hashes, 1024 buckets: the defaults it is built with), except for a sketching level, for which it reports
`8 * maxlen` whereas the level stores 4 * 1024 counters and 8 hash parameters: they agree only for `maxlen = 4100`. -/
theorem C70_level_usage_partial (maxlen : Nat) (s : Strategy) :
    levelUsage maxlen s = (memoryUsage maxlen 5 2 4 1024 s).2 ↔ (s = .sketching → maxlen = 4100) := by
  cases s <;> simp [levelUsage, memoryUsage]
  omega

/-- C70: the report of the hierarchical buffer: eight bytes per recent entry, the two levels, their sum, and the ratio of
`8 * (recent + medium + long)` to that sum (1 if the sum is 0, that is if nothing is stored). -/
theorem C70_total_usage (recent medium long : Nat) (mc lc : Strategy) :
    ∃ m l num den, totalUsage recent medium long mc lc = (8 * recent, m, l, 8 * recent + m + l, num, den) ∧
      (mc ≠ .sketching → m = (memoryUsage medium 5 2 4 1024 mc).2) ∧ (lc ≠ .sketching → l = (memoryUsage long 5 2 4 1024 lc).2) ∧
      (mc = .sketching → m = 8 * medium) ∧ (lc = .sketching → l = 8 * long) ∧
      (if 8 * recent + m + l = 0 then num = 1 ∧ den = 1
        else num = 8 * (recent + medium + long) ∧ den = 8 * recent + m + l) := by
  refine ⟨levelUsage medium mc, levelUsage long lc,
    if 0 < 8 * recent + levelUsage medium mc + levelUsage long lc then 8 * (recent + medium + long) else 1,
    if 0 < 8 * recent + levelUsage medium mc + levelUsage long lc then
      8 * recent + levelUsage medium mc + levelUsage long lc else 1, ?_, ?_, ?_, ?_, ?_, ?_⟩
  · unfold totalUsage
    simp only [Nat.mul_comm _ 8]
    split <;> rfl
  · intro h; exact (C70_level_usage_partial medium mc).2 fun h' => absurd h' h
  · intro h; exact (C70_level_usage_partial long lc).2 fun h' => absurd h' h
  · rintro rfl; simp [levelUsage]; omega
  · rintro rfl; simp [levelUsage]; omega
  · split
    · rw [if_neg (by omega), if_neg (by omega)]; exact ⟨rfl, rfl⟩
    · rw [if_pos (by omega), if_pos (by omega)]; exact ⟨rfl, rfl⟩

example : totalUsage 100 1000 10000 .ewma .quantile = (800, 12, 8044, 8856, 88800, 8856) := by decide

/-- C70: exactly the five strategy names are accepted. -/
theorem C70_strategies (s : String) :
    (∃ st, strategyOf s = .ok st) ↔ s ∈ ["ewma", "quantile", "downsample", "sketching", "none"] := by
  unfold strategyOf
  simp only [List.mem_cons, List.not_mem_nil, or_false]
  by_cases h1 : s = "ewma"
  · simp [h1]
  · by_cases h2 : s = "quantile"
    · simp [h2]
    · by_cases h3 : s = "downsample"
      · simp [h3]
      · by_cases h4 : s = "sketching"
        · simp [h4]
        · by_cases h5 : s = "none"
          · simp [h5]
          · simp [h1, h2, h3, h4, h5]

/-! ## C71 -/

section Levels
variable {S O : Type}

theorem level_state (period : Nat) (keeps : Bool) (zero : O) (m : Mealy S V O) (xs : List V) :
    (level period keeps zero m).stateAfter xs =
      (m.stateAfter (everyNth period xs), (m.run (everyNth period xs)).getLast?, xs.length) := by
  induction xs using List.reverseRecOn with
  | nil => rfl
  | append_singleton xs x ih =>
    rw [Mealy.stateAfter_append_singleton, ih, everyNth_snoc]
    by_cases h : xs.length % period = 0
    · simp [level, h, Mealy.stateAfter_append_singleton, Mealy.run_append_singleton]
    · simp [level, h]

/-- C71: a level called every `period` steps processes exactly the inputs of the steps that are multiples of the period; a
level keeping its output shows the last one at every step (the first step always updates). -/
theorem C71_level_kept (period : Nat) (zero : O) (m : Mealy S V O) (xs : List V) (t : Nat) (ht : t < xs.length) :
    ((level period true zero m).run xs)[t]? = (m.run (everyNth period (xs.take (t + 1)))).getLast? := by
  have hst := level_state period true zero m (xs.take t)
  rw [Mealy.stateAfter] at hst
  have hlt : (xs.take t).length = t := by rw [List.length_take]; omega
  rw [Mealy.run, Mealy.outsFrom_getElem?, List.getElem?_eq_getElem ht, hst, ← List.take_append_getElem ht, everyNth_snoc, hlt]
  simp only [Option.map_some]
  by_cases h : t % period = 0
  · simp [level, h, Mealy.run_append_singleton]
  · have h0 : t ≠ 0 := by intro e; rw [e] at h; simp at h
    have hne : everyNth period (xs.take t) ≠ [] := by
      cases xs with
      | nil => simp at ht
      | cons x xs =>
        cases t with
        | zero => exact absurd rfl h0
        | succ t => simp [everyNth, List.zipIdx_cons]
    have hr : m.run (everyNth period (xs.take t)) ≠ [] := by
      intro e
      have := congrArg List.length e
      rw [Mealy.run_length, List.length_nil] at this
      exact hne (List.eq_nil_of_length_eq_zero this)
    obtain ⟨o, ho⟩ : ∃ o, (m.run (everyNth period (xs.take t))).getLast? = some o :=
      ⟨_, List.getLast?_eq_some_getLast hr⟩
    simp [level, h, ho]

/-- C71: a level of any other strategy shows the scalar 0 between its updates (not its content). -/
theorem C71_level_not_kept (period : Nat) (zero : O) (m : Mealy S V O) (xs : List V) (t : Nat) (ht : t < xs.length) :
    ((level period false zero m).run xs)[t]? =
      if t % period = 0 then (m.run (everyNth period (xs.take (t + 1)))).getLast? else some zero := by
  have hst := level_state period false zero m (xs.take t)
  rw [Mealy.stateAfter] at hst
  have hlt : (xs.take t).length = t := by rw [List.length_take]; omega
  rw [Mealy.run, Mealy.outsFrom_getElem?, List.getElem?_eq_getElem ht, hst, ← List.take_append_getElem ht, everyNth_snoc, hlt]
  simp only [Option.map_some]
  by_cases h : t % period = 0
  · simp [level, h, Mealy.run_append_singleton]
  · simp [level, h]

/-- C71: the hierarchical buffer's outputs are those of its three levels, each on the whole stream: the recent window, the
medium level every 5 steps, the long level every 50. -/
theorem C71_hierarchical_levels {S' : Type} (recent : Nat) (hr : 0 < recent) (hr2 : recent ≤ 2 ^ 30) (fill : V) (mk lk : Bool)
    (zero : O) (mm : Mealy S V O) (ml : Mealy S' V O) (xs : List V) (hlen : xs.length < 2 ^ 31) (t : Nat) (ht : t < xs.length) :
    ∃ md lg, ((level 5 mk zero mm).run xs)[t]? = some md ∧ ((level 50 lk zero ml).run xs)[t]? = some lg ∧
      ((hierarchical recent fill mk lk zero mm ml).run xs)[t]? =
        some (window recent fill (xs.take (t + 1)), md, lg, xs[t]) := by
  have hst : ∀ xs, (hierarchical recent fill mk lk zero mm ml).stateAfter xs =
      ((circBuffer recent fill).stateAfter xs, (level 5 mk zero mm).stateAfter xs, (level 50 lk zero ml).stateAfter xs) := by
    intro xs
    induction xs using List.reverseRecOn with
    | nil => rfl
    | append_singleton xs x ih => simp only [Mealy.stateAfter_append_singleton, ih]; rfl
  have h0 := hst (xs.take t)
  have hlt : (xs.take t).length = t := by rw [List.length_take]; omega
  have hout := circ_step_out recent hr hr2 fill (xs.take t) xs[t] (by omega)
  refine ⟨((level 5 mk zero mm).step ((level 5 mk zero mm).stateAfter (xs.take t)) xs[t]).1,
    ((level 50 lk zero ml).step ((level 50 lk zero ml).stateAfter (xs.take t)) xs[t]).1, ?_, ?_, ?_⟩
  · rw [Mealy.run, Mealy.outsFrom_getElem?, List.getElem?_eq_getElem ht]; rfl
  · rw [Mealy.run, Mealy.outsFrom_getElem?, List.getElem?_eq_getElem ht]; rfl
  · rw [Mealy.run, Mealy.outsFrom_getElem?, List.getElem?_eq_getElem ht, Option.map_some]
    rw [Mealy.stateAfter] at h0
    rw [h0]
    simp only [hierarchical, hout, ← List.take_append_getElem ht]

/-- C71: the EWMA strategy is the EWMA module itself; the stored value is its last output and the counter counts the calls. -/
theorem C71_ewma_strategy (m : Mealy S V O) (xs : List V) :
    (ewmaCompress m).run xs = m.run xs ∧
    (ewmaCompress m).stateAfter xs = (m.stateAfter xs, (m.run xs).getLast?, xs.length) := by
  constructor
  · apply Mealy.run_eq_of_sim _ _ (fun s s' => s.1 = s') rfl
    rintro ⟨s, c⟩ s' x rfl
    exact ⟨rfl, rfl⟩
  · induction xs using List.reverseRecOn with
    | nil => rfl
    | append_singleton xs x ih =>
      rw [Mealy.stateAfter_append_singleton, ih, Mealy.stateAfter_append_singleton, Mealy.run_append_singleton]
      simp [ewmaCompress]

example : ((level 2 true 0 (⟨0, fun s x => (s + x, s + x)⟩ : Mealy Nat Nat Nat)).run [1, 2, 3, 4]) = [1, 1, 4, 4] := by decide

end Levels

end Verif.Props
