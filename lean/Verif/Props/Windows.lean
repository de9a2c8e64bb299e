import Verif.Lemmas.Windows
import Mathlib.Algebra.Order.BigOperators.Group.List
import Mathlib.Algebra.Order.Ring.Rat
import Mathlib.Tactic.FieldSimp
import Mathlib.Tactic.NormNum

/-!
# Properties C01–C10: windows, lags, differences, fills, counters
-/

set_option linter.unusedSectionVars false

namespace Verif.Props
open Model Spec

/-! ## C01 -/

/-- C01: at every step the buffer is the last `maxlen` inputs, oldest first, left-padded with the
fill value; `len_buffer = min(n, maxlen)` and `i_start = maxlen - len_buffer`, where `n` counts the
calls so far. -/
theorem C01_buffer_window {α : Type} (maxlen : Nat) (fill : α) :
    (buffer maxlen fill).Computes fun hist =>
      (window maxlen fill hist,
        { buffer := window maxlen fill hist
          lenBuffer := min hist.length maxlen
          iStart := maxlen - min hist.length maxlen }) := by
  apply Mealy.computes_of_step
  intro xs x
  rw [buffer_stateAfter]
  simp only [buffer, bufferApply_window]

/-- C01: `buffer[i_start:]` is exactly the recorded data (the last `maxlen` inputs, no padding), and
everything before `i_start` is padding. -/
theorem C01_buffer_istart {α : Type} (maxlen : Nat) (fill : α) (xs : List α) (t : Nat)
    (ht : t < xs.length) :
    ∃ b s, ((buffer maxlen fill).run xs)[t]? = some (b, s) ∧ s.buffer = b ∧ b.length = maxlen ∧
      b.drop s.iStart = (xs.take (t + 1)).drop (t + 1 - maxlen) ∧
      (∀ y ∈ b.take s.iStart, y = fill) ∧ s.iStart + s.lenBuffer = maxlen ∧
      s.lenBuffer = min (t + 1) maxlen := by
  refine ⟨_, _, C01_buffer_window maxlen fill xs t ht, rfl, by simp, ?_, ?_, ?_, ?_⟩
  · have hl : (xs.take (t + 1)).length = t + 1 := by simp; omega
    simp only [window, hl]
    rw [List.drop_append, List.length_replicate, List.drop_replicate]
    have e1 : maxlen - (t + 1) - (maxlen - min (t + 1) maxlen) = 0 := by omega
    have e2 : maxlen - min (t + 1) maxlen - (maxlen - (t + 1)) = 0 := by omega
    simp [e1, e2]
  · have hl : (xs.take (t + 1)).length = t + 1 := by simp; omega
    simp only [window, hl]
    intro y hy
    rw [List.take_append, List.length_replicate] at hy
    have e2 : maxlen - min (t + 1) maxlen - (maxlen - (t + 1)) = 0 := by omega
    rw [e2] at hy
    simp only [List.take_zero, List.append_nil, List.take_replicate] at hy
    exact (List.mem_replicate.mp hy).2
  · simp
  · simp; omega

/-- Entry `i` of the window is the input given `maxlen - 1 - i` calls ago (the newest is last). -/
theorem C01_buffer_entries {α : Type} (maxlen : Nat) (fill : α) (xs : List α) (t i : Nat)
    (ht : t < xs.length) (hi : i < maxlen) :
    ((((buffer maxlen fill).run xs)[t]?).bind fun o => o.1[i]?) =
      some (ago (maxlen - 1 - i) fill (xs.take (t + 1))) := by
  rw [C01_buffer_window maxlen fill xs t ht]
  simp only [Option.bind_some]
  exact window_ago _ _ _ _ hi

example : ((buffer 3 0).run [5, 6, 7, 8]).map (·.1) = [[0, 0, 5], [0, 5, 6], [5, 6, 7], [6, 7, 8]] := by
  decide
example : (2 : Nat) < [5, 6, 7, 8].length ∧ (1 : Nat) < 3 := by decide

/-! ## C02 -/

/-- C02 (what holds): while fewer than `2^31` items have been written, the Flax circular buffer returns
the same arrays and lengths as the Haiku buffer, and its write index is the number of writes. -/
theorem C02_flax_buffer_refines {α : Type} (maxlen : Nat) (h0 : 0 < maxlen)
    (h1 : maxlen ≤ 2 ^ 30) (fill : α) (xs : List α) (hx : xs.length < 2 ^ 31) :
    ((circBuffer maxlen fill).run xs).map (fun o => (o.1, o.2.1)) =
      ((buffer maxlen fill).run xs).map (fun o => (o.1, (o.2.lenBuffer : Int))) := by
  apply List.ext_getElem?
  intro t
  rw [List.getElem?_map, List.getElem?_map]
  by_cases ht : t < xs.length
  · rw [C01_buffer_window maxlen fill xs t ht, Mealy.run, Mealy.outsFrom_getElem?,
      List.getElem?_eq_getElem ht]
    have hl : (xs.take t).length = t := by simp; omega
    have := circ_step_out maxlen h0 h1 fill (xs.take t) xs[t] (by omega)
    rw [Mealy.stateAfter] at this
    simp only [Option.map_some, this, List.take_append_getElem ht, hl]
    simp; omega
  · rw [List.getElem?_eq_none (by simp; omega), List.getElem?_eq_none (by simp; omega)]
    rfl

example : (0 < 3 ∧ 3 ≤ 2 ^ 30 ∧ [5, 6, 7, 8, 9].length < 2 ^ 31) := by decide
example : ((circBuffer 3 0).run [5, 6, 7, 8, 9]).map (·.1) =
    [[0, 0, 5], [0, 5, 6], [5, 6, 7], [6, 7, 8], [7, 8, 9]] := by decide

/-- C02 for ever: when `maxlen` is a power of two the int32 wrap-around of the write index is harmless and
the two buffers return the same arrays and lengths on streams of any length. -/
theorem C02_flax_buffer_pow2 {α : Type} (k : Nat) (hk : k ≤ 30) (fill : α) (xs : List α) :
    ((circBuffer (2 ^ k) fill).run xs).map (fun o => (o.1, o.2.1)) =
      ((buffer (2 ^ k) fill).run xs).map (fun o => (o.1, (o.2.lenBuffer : Int))) := by
  have h0 : 0 < 2 ^ k := Nat.two_pow_pos k
  have h1 : 2 ^ k ≤ 2 ^ 30 := Nat.pow_le_pow_right (by omega) hk
  have hd : ∀ x : Int, i32 x % ((2 ^ k : Nat) : Int) = x % ((2 ^ k : Nat) : Int) :=
    fun x => i32_emod x _ (Nat.pow_dvd_pow 2 (by omega))
  generalize 2 ^ k = maxlen at *
  apply List.ext_getElem?
  intro t
  rw [List.getElem?_map, List.getElem?_map]
  by_cases ht : t < xs.length
  · rw [C01_buffer_window maxlen fill xs t ht, Mealy.run, Mealy.outsFrom_getElem?,
      List.getElem?_eq_getElem ht]
    have hl : (xs.take t).length = t := by simp; omega
    have := circ_step_out_dvd maxlen h0 h1 hd fill (xs.take t) xs[t]
    rw [Mealy.stateAfter] at this
    simp only [Option.map_some, this, List.take_append_getElem ht, hl]
    simp; omega
  · rw [List.getElem?_eq_none (by simp; omega), List.getElem?_eq_none (by simp; omega)]
    rfl

/-- The bound of `C02_flax_buffer_refines` is needed for every other size: if `maxlen` does not divide
`2^32`, at the write number `2^31` the int32 write index wraps to `-2^31` and the returned array is no
longer in logical order. -/
theorem C02_flax_buffer_wrap_breaks (maxlen : Nat) (h0 : 0 < maxlen) (h1 : maxlen ≤ 2 ^ 30)
    (hd : ¬ maxlen ∣ 2 ^ 32) :
    ∃ (xs : List Nat), xs.length = 2 ^ 31 ∧ ((circBuffer maxlen 0).run xs).map (fun o => o.1) ≠
      ((buffer maxlen 0).run xs).map (fun o => o.1) := by
  obtain ⟨h, hl⟩ : ∃ h : List Nat, h = List.replicate (2 ^ 31 - 1) 0 := ⟨_, rfl⟩
  have hlen : h.length = 2 ^ 31 - 1 := by rw [hl, List.length_replicate]
  have hmem : ∀ y ∈ h, y = 0 := by rw [hl]; intro y hy; exact (List.mem_replicate.mp hy).2
  clear hl
  refine ⟨h ++ [1], by simp [hlen], fun heq => ?_⟩
  have hlast := congrArg List.getLast? heq
  simp only [Mealy.run_append_singleton, List.map_append, List.map_cons, List.map_nil,
    List.getLast?_append, List.getLast?_singleton, Option.some_or] at hlast
  have hw : ((buffer maxlen 0).step ((buffer maxlen 0).stateAfter h) 1).1.1 = window maxlen 0 (h ++ [1]) := by
    rw [buffer_stateAfter]; simp only [buffer, bufferApply_window]
  obtain ⟨phys, p1, p2, p3⟩ := circ_stateAfter maxlen h0 h1 0 h (by omega)
  obtain ⟨r, hr⟩ : ∃ r, r = ((-2 ^ 31 : Int) % (maxlen : Int)).toNat := ⟨_, rfl⟩
  have hc : ((circBuffer maxlen 0).step ((circBuffer maxlen 0).stateAfter h) 1).1.1 =
      (phys.set ((2 ^ 31 - 1) % maxlen) 1).rotate r := by
    rw [p1]
    simp only [circBuffer, circStep]
    rw [ordered_eq_rotate maxlen h0 h1 _ (by simp [p2]), hlen, emod_toNat, hr]
    have : i32 (((2 ^ 31 - 1 : Nat) : Int) + 1) = -2 ^ 31 := by
      unfold i32; rw [Int.bmod_def]; omega
    rw [this]
  rw [hw, hc] at hlast
  have hlast := Option.some.inj hlast
  have hr0 : r < maxlen := by
    have := Int.emod_lt_of_pos (-2 ^ 31 : Int) (b := (maxlen : Int)) (by omega)
    have := Int.emod_nonneg (-2 ^ 31 : Int) (b := (maxlen : Int)) (by omega)
    omega
  -- the newest slot of the window holds the item just written
  have e1 : (window maxlen 0 (h ++ [1]))[maxlen - 1]? = some 1 := by
    rw [window_ago _ _ _ _ (by omega)]
    simp [ago]
  rw [← hlast, List.getElem?_rotate (by simp [p2]; omega)] at e1
  simp only [List.length_set, p2] at e1
  have hq : (2 ^ 31 - 1) % maxlen < maxlen := Nat.mod_lt _ h0
  have hs : (maxlen - 1 + r) % maxlen < maxlen := Nat.mod_lt _ h0
  by_cases hpos : (maxlen - 1 + r) % maxlen = (2 ^ 31 - 1) % maxlen
  · -- the positions agree only if the size divides 2^32
    apply hd
    have a1 : ((maxlen - 1 + r + 1) % maxlen) = ((2 ^ 31 - 1 + 1) % maxlen) := by
      rw [Nat.add_mod, hpos, ← Nat.add_mod]
    have a2 : maxlen - 1 + r + 1 = maxlen + r := by omega
    rw [a2, Nat.add_mod_left] at a1
    have a3 : (r : Int) % (maxlen : Int) = (2 ^ 31 : Int) % (maxlen : Int) := by
      exact_mod_cast a1
    have a4 : (r : Int) = (-2 ^ 31 : Int) % (maxlen : Int) := by
      rw [hr]; exact Int.toNat_of_nonneg (Int.emod_nonneg _ (by omega))
    rw [a4, Int.emod_emod_of_dvd _ (Int.dvd_refl _)] at a3
    have a5 : ((maxlen : Nat) : Int) ∣ (2 ^ 31 : Int) - (-2 ^ 31) := (Int.emod_eq_emod_iff_emod_sub_eq_zero.mp a3.symm) |> Int.dvd_of_emod_eq_zero
    have a6 : ((maxlen : Nat) : Int) ∣ ((2 ^ 32 : Nat) : Int) := by
      have : (2 ^ 31 : Int) - (-2 ^ 31) = ((2 ^ 32 : Nat) : Int) := by norm_num
      rw [← this]; exact a5
    exact Int.natCast_dvd_natCast.mp a6
  · rw [List.getElem?_set_ne (fun h' => hpos h'.symm)] at e1
    have : (1 : Nat) ∈ phys := List.mem_of_getElem? e1
    have : (1 : Nat) ∈ window maxlen 0 h := by rw [← p3]; exact List.mem_rotate.mpr this
    unfold window at this
    rcases List.mem_append.mp this with h' | h'
    · exact absurd (List.mem_replicate.mp h').2 (by decide)
    · exact absurd (hmem _ (List.mem_of_mem_drop h')) (by decide)

example : (0 < 3 ∧ 3 ≤ 2 ^ 30 ∧ ¬ 3 ∣ 2 ^ 32) := by decide

/-! ## C03 -/

/-- C03: `Lag(k)` returns at each step the input given `k` steps before, the fill value when there is
none (in particular the read is never out of range). -/
theorem C03_lag {α : Type} (k : Nat) (fill : α) :
    (lag k fill).Computes fun hist => some (ago k fill hist) := by
  apply Mealy.computes_of_step
  intro xs x
  have hs : (lag k fill).stateAfter xs = (buffer (k + 1) fill).stateAfter xs := rfl
  rw [hs, buffer_stateAfter]
  simp only [lag, buffer, bufferApply_window]
  rw [window_ago _ _ _ _ (by omega)]
  simp

/-- C03 in terms of positions: the output at step `t` is the input at step `t - k`. -/
theorem C03_lag_positions {α : Type} (k : Nat) (fill : α) (xs : List α) (t : Nat)
    (ht : t < xs.length) :
    ((lag k fill).run xs)[t]? = some (if k ≤ t then xs[t - k]? else some fill) := by
  rw [C03_lag k fill xs t ht]
  congr 1
  have hl : (xs.take (t + 1)).length = t + 1 := by simp; omega
  show some (ago k fill (xs.take (t + 1))) = _
  unfold ago
  split
  · rw [List.getD_eq_getElem?_getD, List.getElem?_reverse (by omega), hl, List.getElem?_take,
      if_pos (by omega)]
    have : t + 1 - 1 - k = t - k := by omega
    rw [this, List.getElem?_eq_getElem (by omega)]
    rfl
  · rw [List.getD_eq_default]; simp; omega

/-- C03: `Lag(0)` is the identity. -/
theorem C03_lag_zero {α : Type} (fill : α) (xs : List α) :
    (lag 0 fill).run xs = xs.map some := by
  apply List.ext_getElem?
  intro t
  by_cases ht : t < xs.length
  · rw [C03_lag_positions 0 fill xs t ht]
    simp [ht]
  · rw [List.getElem?_eq_none (by simp; omega), List.getElem?_eq_none (by simp; omega)]

/-- C03: the Flax `Lag` agrees with the Haiku `Lag` (fewer than `2^31` steps). -/
theorem C03_flax_lag {α : Type} (k : Nat) (hk : k + 1 ≤ 2 ^ 30) (fill : α) (xs : List α)
    (hx : xs.length < 2 ^ 31) : (flaxLag k fill).run xs = (lag k fill).run xs := by
  have := Mealy.run_eq_of_steps (flaxLag k fill) (lag k fill) id xs (fun t ht => by
    have hs : (lag k fill).stateAfter (xs.take t) = (buffer (k + 1) fill).stateAfter (xs.take t) := rfl
    have hs' : (flaxLag k fill).stateAfter (xs.take t) =
      (circBuffer (k + 1) fill).stateAfter (xs.take t) := rfl
    have hl : (xs.take t).length = t := by simp; omega
    have h1 := circ_step_out (k + 1) (by omega) hk fill (xs.take t) xs[t] (by omega)
    rw [hs, hs', buffer_stateAfter]
    simp only [lag, flaxLag, h1, buffer, bufferApply_window, id])
  simpa using this

example : (lag 2 0).run [5, 6, 7, 8] = [some 0, some 0, some 5, some 6] := by decide
example : (2 + 1 ≤ 2 ^ 30) ∧ [5, 6, 7, 8].length < 2 ^ 31 ∧ 3 < [5, 6, 7, 8].length := by decide

/-- C03, recorded defect: with `return_state=True` the Haiku `Lag` returns the whole buffer in place of
the delayed value. -/
theorem C03_lag_return_state_defect {α : Type} (k : Nat) (fill : α) :
    (lagReturnState k fill).Computes fun hist => window (k + 1) fill hist := by
  apply Mealy.computes_of_step
  intro xs x
  have hs : (lagReturnState k fill).stateAfter xs = (buffer (k + 1) fill).stateAfter xs := rfl
  rw [hs, buffer_stateAfter]
  simp only [lagReturnState, buffer, bufferApply_window]

section Numeric
variable {K : Type} [Field K] [LinearOrder K]

/-! ## C04 -/

/-- C04: `Diff` returns the current input minus the previous one; before the first input there is a
NaN, so the first output is NaN. -/
theorem C04_diff : (diff (K := K)).Computes fun hist =>
    some (ago 0 Fl.nan hist - ago 1 Fl.nan hist) := by
  apply Mealy.computes_of_step
  intro xs x
  have hs : (diff (K := K)).stateAfter xs = (buffer 2 Fl.nan).stateAfter xs := rfl
  rw [hs, buffer_stateAfter]
  simp only [diff, buffer, bufferApply_window]
  have h0 := window_ago 2 Fl.nan (xs ++ [x]) 0 (by omega)
  have h1 := window_ago 2 Fl.nan (xs ++ [x]) 1 (by omega)
  have hg : (window 2 Fl.nan (xs ++ [x])).getLast? = (window 2 Fl.nan (xs ++ [x]))[1]? := by
    rw [List.getLast?_eq_getElem?]; simp
  rw [hg, h0, h1]
  rfl

/-- C04: the first output is NaN. -/
theorem C04_diff_first (x : Fl K) (xs : List (Fl K)) :
    ((diff (K := K)).run (x :: xs))[0]? = some (some Fl.nan) := by
  rw [C04_diff (x :: xs) 0 (by simp)]; simp [ago]

/-- C04: later outputs are `x[t+1] - x[t]`. -/
theorem C04_diff_positions (xs : List (Fl K)) (t : Nat) (ht : t + 1 < xs.length) :
    ((diff (K := K)).run xs)[t + 1]? = some (some (xs[t + 1] - xs[t])) := by
  rw [C04_diff xs (t + 1) ht]
  have h0 := C03_lag 0 (Fl.nan (K := K)) xs (t + 1) ht
  rw [C03_lag_positions 0 _ xs (t + 1) ht] at h0
  have h1 := C03_lag 1 (Fl.nan (K := K)) xs (t + 1) ht
  rw [C03_lag_positions 1 _ xs (t + 1) ht] at h1
  simp only [Nat.zero_le, if_true, Nat.sub_zero, List.getElem?_eq_getElem ht, Option.some.injEq] at h0
  have ht' : t < xs.length := by omega
  simp only [Nat.le_add_left, if_true, Nat.add_sub_cancel, List.getElem?_eq_getElem ht',
    Option.some.injEq] at h1
  simp only [← h0, ← h1]

/-- C04: on a finite stream the outputs after the first one add up to `x[last] - x[0]`. -/
theorem C04_diff_telescopes (k0 : K) (ks : List K) :
    ∃ ds : List K, (diff (K := K)).run ((k0 :: ks).map Fl.fin) =
        some Fl.nan :: ds.map (fun d => some (Fl.fin d)) ∧
      k0 + ds.sum = (k0 :: ks).getLast (by simp) := by
  induction ks using List.reverseRecOn with
  | nil =>
    refine ⟨[], ?_, by simp⟩
    apply List.ext_getElem?
    intro t
    rcases t with _ | t
    · rw [C04_diff _ 0 (by simp)]; simp [ago]
    · simp [Mealy.run]
  | append_singleton ks k ih =>
    obtain ⟨ds, h1, h2⟩ := ih
    refine ⟨ds ++ [k - (k0 :: ks).getLast (by simp)], ?_, ?_⟩
    · have e : (k0 :: (ks ++ [k])).map Fl.fin = (k0 :: ks).map Fl.fin ++ [Fl.fin k] := by simp
      rw [e, Mealy.run_append_singleton, h1]
      simp only [List.map_append, List.map_cons, List.map_nil, List.cons_append]
      congr 3
      have := C04_diff_positions (K := K) ((k0 :: ks).map Fl.fin ++ [Fl.fin k]) ks.length (by simp)
      rw [Mealy.run_append_singleton] at this
      rw [List.getElem?_append_right (by simp)] at this
      simp only [Mealy.run_length, List.length_map, List.length_cons, Nat.sub_self,
        List.getElem?_cons_zero, Option.some.injEq] at this
      simp only [List.map_cons] at this
      rw [this]
      congr 1
      rw [List.getElem_append_right (by simp), List.getElem_append_left (by simp)]
      simp only [List.length_cons, List.length_map, Nat.sub_self, List.getElem_cons_zero]
      rw [← Fl.fin_sub]
      congr 1
      have : (k0 :: ks).getLast (by simp) = (k0 :: ks)[ks.length]'(by simp) := by
        rw [List.getLast_eq_getElem]; simp
      rw [this, ← List.getElem_map Fl.fin (l := k0 :: ks) (h := by simp)]
      simp
    · rw [List.sum_append, List.sum_singleton]
      have : (k0 :: (ks ++ [k])).getLast (by simp) = k := by
        simp
      rw [this, ← h2]; ring

/-- C04: the Flax `Diff` agrees with the Haiku one (fewer than `2^31` steps). -/
theorem C04_flax_diff (xs : List (Fl K)) (hx : xs.length < 2 ^ 31) :
    (flaxDiff (K := K)).run xs = (diff (K := K)).run xs := by
  have := Mealy.run_eq_of_steps (flaxDiff (K := K)) (diff (K := K)) id xs (fun t ht => by
    have hs : (diff (K := K)).stateAfter (xs.take t) = (buffer 2 Fl.nan).stateAfter (xs.take t) := rfl
    have hs' : (flaxDiff (K := K)).stateAfter (xs.take t) =
      (circBuffer 2 Fl.nan).stateAfter (xs.take t) := rfl
    have hl : (xs.take t).length = t := by simp; omega
    have h1 := circ_step_out 2 (by omega) (by omega) Fl.nan (xs.take t) xs[t] (by omega)
    rw [hs, hs', buffer_stateAfter]
    simp only [diff, flaxDiff, h1, buffer, bufferApply_window, id])
  simpa using this

example : (diff (K := ℚ)).run [.fin 1, .fin 4, .nan, .fin 2] =
    [some .nan, some (.fin 3), some .nan, some .nan] := by decide +kernel

/-! ## C06 -/

/-- C06: `Ffill` returns the most recent non-NaN input. -/
theorem C06_ffill : (ffill (K := K)).Computes lastValid := by
  apply Mealy.computes_of_step
  intro xs x
  rw [ffill_stateAfter, lastValid_snoc]
  rfl

/-- C06: the output is NaN exactly when all inputs so far are NaN. -/
theorem C06_ffill_nan_iff (xs : List (Fl K)) (t : Nat) (ht : t < xs.length) :
    ((ffill (K := K)).run xs)[t]? = some Fl.nan ↔ ∀ x ∈ xs.take (t + 1), x = Fl.nan := by
  rw [C06_ffill xs t ht]
  simp only [Option.some.injEq]
  generalize xs.take (t + 1) = h
  induction h using List.reverseRecOn with
  | nil => simp [lastValid, valid]
  | append_singleton h x ih =>
    rw [lastValid_snoc]
    cases x <;> simp [ih, or_imp, forall_and]

/-- C06: the output at `t` is one of the inputs seen so far, with only NaN inputs after it. -/
theorem C06_ffill_most_recent (xs : List (Fl K)) (t : Nat) (ht : t < xs.length) (y : Fl K)
    (hy : ((ffill (K := K)).run xs)[t]? = some y) (hn : y ≠ Fl.nan) :
    ∃ s ≤ t, xs[s]? = some y ∧ ∀ u, s < u → u ≤ t → xs[u]? = some Fl.nan := by
  rw [C06_ffill xs t ht] at hy
  simp only [Option.some.injEq] at hy
  induction t generalizing y with
  | zero =>
    cases xs with
    | nil => simp at ht
    | cons x xs =>
      refine ⟨0, le_refl _, ?_, fun u h1 h2 => absurd h2 (by omega)⟩
      simp only [List.take_succ_cons, List.take_zero] at hy
      rw [← List.nil_append [x], lastValid_snoc] at hy
      split at hy
      · simp [lastValid, valid] at hy; exact absurd hy.symm hn
      · simp [hy]
  | succ t ih =>
    rw [← List.take_append_getElem ht, lastValid_snoc] at hy
    split at hy
    · rename_i hnan
      obtain ⟨s, h1, h2, h3⟩ := ih (by omega) y hn hy
      refine ⟨s, by omega, h2, fun u hu1 hu2 => ?_⟩
      rcases Nat.lt_or_ge t u with h | h
      · have : u = t + 1 := by omega
        subst this
        rw [List.getElem?_eq_getElem ht, (Fl.isNan_iff _).mp hnan]
      · exact h3 u hu1 h
    · exact ⟨t + 1, le_refl _, by rw [List.getElem?_eq_getElem ht, hy], fun u h1 h2 =>
        absurd h2 (by omega)⟩

/-- C06: forward filling twice is the same as once. -/
theorem C06_ffill_idempotent (xs : List (Fl K)) :
    (ffill (K := K)).run ((ffill (K := K)).run xs) = (ffill (K := K)).run xs := by
  have key : ∀ (xs : List (Fl K)) (v w : Fl K), w.isNan = true ∨ w = v →
      (ffill (K := K)).outsFrom w ((ffill (K := K)).outsFrom v xs) =
        (ffill (K := K)).outsFrom v xs ∨ v.isNan = false ∧ w.isNan = true ∧
        (ffill (K := K)).outsFrom w ((ffill (K := K)).outsFrom v xs) =
        (ffill (K := K)).outsFrom v xs := by
    intro xs
    induction xs with
    | nil => intros; simp
    | cons x xs ih =>
      intro v w hw
      left
      simp only [Mealy.outsFrom_cons, ffill]
      generalize hy : (if x.isNan = true then v else x) = y
      have hstep : (if y.isNan = true then w else y) = y := by
        split
        · rename_i hn
          rw [(Fl.isNan_iff y).mp hn]
          rcases hw with hw | hw
          · exact (Fl.isNan_iff w).mp hw
          · subst hw
            by_cases hx : x.isNan
            · simp [hx] at hy; rw [hy]; exact (Fl.isNan_iff y).mp hn
            · simp [hx] at hy; rw [← hy] at hn; exact absurd hn hx
        · rfl
      rw [hstep]
      congr 1
      rcases ih y y (Or.inr rfl) with h | h
      · exact h
      · exact h.2.2
  rcases key xs Fl.nan Fl.nan (Or.inr rfl) with h | h
  · exact h
  · exact h.2.2

example : (ffill (K := ℚ)).run [.nan, .fin 1, .nan, .fin 2, .nan] =
    [.nan, .fin 1, .fin 1, .fin 2, .fin 2] := by decide +kernel

/-! ## C05 -/

/-- C05 (specification): relative change of `x` with respect to `prev`; a missing current value counts as
"no change" when `fillnaZero` and there is a previous value. -/
def pctSpec (fillnaZero : Bool) (x prev : Fl K) : Fl K :=
  match x with
  | .nan => if fillnaZero then (if prev = .nan then .nan else .fin 0) else .nan
  | x => x / prev - .fin 1

theorem pctValue_eq (fz : Bool) (x prev : Fl K) : pctValue fz x prev = pctSpec fz x prev := by
  cases x <;> cases prev <;> cases fz <;> simp [pctValue, pctSpec]

theorem pctChange_stateAfter (fz : Bool) (xs : List (Fl K)) :
    (pctChange fz).stateAfter xs =
      (lastValid xs, (buffer 2 Fl.nan).stateAfter ((ffill (K := K)).run xs)) := by
  induction xs using List.reverseRecOn with
  | nil => rfl
  | append_singleton xs x ih =>
    rw [Mealy.stateAfter_append_singleton, ih, Mealy.run_append_singleton,
      Mealy.stateAfter_append_singleton, ffill_stateAfter, lastValid_snoc]
    rfl

/-- C05: with `pad`, `PctChange` at each step is the relative change from the most recent non-NaN input
strictly before (NaN if there is none). -/
theorem C05_pct_change (fz : Bool) (xs : List (Fl K)) (t : Nat) (ht : t < xs.length) :
    ((pctChange fz).run xs)[t]? = some (some (pctSpec fz xs[t] (lastValid (xs.take t)))) := by
  rw [Mealy.run, Mealy.outsFrom_getElem?, List.getElem?_eq_getElem ht]
  simp only [Option.map_some, Option.some.injEq]
  have hs := pctChange_stateAfter fz (xs.take t)
  rw [Mealy.stateAfter] at hs
  rw [hs]
  simp only [pctChange, lag]
  have hf : (ffill.step (lastValid (xs.take t)) xs[t]).1 = lastValid (xs.take t ++ [xs[t]]) := by
    rw [lastValid_snoc]; rfl
  rw [hf, buffer_stateAfter]
  simp only [buffer, Nat.reduceAdd, bufferApply_window]
  rw [window_ago _ _ _ _ (by omega)]
  simp only [Option.map_some, Option.some.injEq]
  rw [pctValue_eq]
  congr 1
  unfold ago
  simp only [List.reverse_append, List.reverse_cons, List.reverse_nil, List.nil_append,
    List.cons_append]
  show List.getD _ 1 Fl.nan = _
  simp only [List.getD_cons_succ]
  rcases List.eq_nil_or_concat (xs.take t) with h | ⟨l, a, h⟩
  · rw [h]; simp [lastValid, valid, Mealy.run]
  · rw [h, List.concat_eq_append, Mealy.run_append_singleton, ffill_stateAfter]
    simp [lastValid_snoc, ffill]

theorem lastValid_map_fin (ks : List K) : lastValid (ks.map Fl.fin) = (ks.getLast?.map Fl.fin).getD .nan := by
  unfold lastValid valid
  rw [List.filter_eq_self.mpr (by simp)]
  simp

/-- C05: on finite non-zero data, compounding `1 + output` over the steps after the first recovers the
ratio of the last to the first value. -/
theorem C05_pct_change_compounds (fz : Bool) (k0 : K) (ks : List K) (h0 : k0 ≠ 0)
    (hk : ∀ k ∈ ks, k ≠ 0) :
    ∃ rs : List K, (pctChange fz).run ((k0 :: ks).map Fl.fin) =
        some Fl.nan :: rs.map (fun r => some (Fl.fin r)) ∧
      k0 * (rs.map (fun r => 1 + r)).prod = (k0 :: ks).getLast (by simp) := by
  induction ks using List.reverseRecOn with
  | nil =>
    refine ⟨[], ?_, by simp⟩
    apply List.ext_getElem?
    intro t
    rcases t with _ | t
    · rw [C05_pct_change fz _ 0 (by simp)]; simp [lastValid, valid, pctSpec]
    · simp [Mealy.run]
  | append_singleton ks k ih =>
    obtain ⟨rs, h1, h2⟩ := ih (fun k hk' => hk k (by simp [hk']))
    have hlast : (k0 :: ks).getLast (by simp) ≠ 0 := by
      have := List.getLast_mem (l := k0 :: ks) (by simp)
      rcases List.mem_cons.mp this with h | h
      · rw [h]; exact h0
      · exact hk _ (by simp [h])
    refine ⟨rs ++ [k / (k0 :: ks).getLast (by simp) - 1], ?_, ?_⟩
    · have e : (k0 :: (ks ++ [k])).map Fl.fin = (k0 :: ks).map Fl.fin ++ [Fl.fin k] := by simp
      have := C05_pct_change (K := K) fz ((k0 :: ks).map Fl.fin ++ [Fl.fin k]) (ks.length + 1) (by simp)
      rw [e, Mealy.run_append_singleton, h1]
      rw [Mealy.run_append_singleton, List.getElem?_append_right (by simp)] at this
      simp only [Mealy.run_length, List.length_map, List.length_cons, Nat.sub_self,
        List.getElem?_cons_zero, Option.some.injEq] at this
      rw [this]
      rw [List.getElem_append_right (by simp)]
      have ht : ((k0 :: ks).map Fl.fin ++ [Fl.fin k]).take (ks.length + 1) = (k0 :: ks).map Fl.fin := by
        rw [List.take_left' (by simp)]
      rw [ht, lastValid_map_fin, List.getLast?_eq_getLast_of_ne_nil (by simp)]
      simp [pctSpec, hlast]
    · have : (k0 :: (ks ++ [k])).getLast (by simp) = k := by
        simp
      rw [this]
      simp only [List.map_append, List.map_cons, List.map_nil, List.prod_append, List.prod_singleton]
      rw [← mul_assoc, h2]
      field_simp
      ring

/-- C05: the Flax `PctChange` with `pad` agrees with the Haiku one (fewer than `2^31` steps). -/
theorem C05_flax_pct_change (fz : Bool) (xs : List (Fl K)) (hx : xs.length < 2 ^ 31) :
    (flaxPctChange true fz).run xs = (pctChange fz).run xs := by
  have hst : ∀ ys : List (Fl K), (flaxPctChange true fz).stateAfter ys =
      (lastValid ys, (circBuffer 2 Fl.nan).stateAfter ((ffill (K := K)).run ys)) := by
    intro ys
    induction ys using List.reverseRecOn with
    | nil => rfl
    | append_singleton xs x ih =>
      rw [Mealy.stateAfter_append_singleton, ih, Mealy.run_append_singleton,
        Mealy.stateAfter_append_singleton, ffill_stateAfter, lastValid_snoc]
      rfl
  have := Mealy.run_eq_of_steps (flaxPctChange true fz) (pctChange fz) id xs (fun t ht => by
    have hl : (xs.take t).length = t := by simp; omega
    rw [hst, pctChange_stateAfter]
    have h1 := circ_step_out 2 (by omega) (by omega) Fl.nan ((ffill (K := K)).run (xs.take t))
      (ffill.step (lastValid (xs.take t)) xs[t]).1 (by simp; omega)
    simp only [flaxPctChange, flaxLag, if_true, h1, pctChange, lag, Nat.reduceAdd, buffer_stateAfter]
    simp only [buffer, bufferApply_window, id])
  simpa using this

/-- C05: the Flax `PctChange` without padding is the relative change from the previous input, NaN or not (NaN at the first step);
fewer than `2^31` steps. -/
theorem C05_flax_pct_change_no_pad (fz : Bool) (xs : List (Fl K)) (hx : xs.length < 2 ^ 31) (t : Nat) (ht : t < xs.length) :
    ((flaxPctChange false fz).run xs)[t]? = some (some (pctSpec fz xs[t] (if 0 < t then xs.getD (t - 1) Fl.nan else Fl.nan))) := by
  have hst : ∀ ys : List (Fl K), (flaxPctChange false fz).stateAfter ys = (Fl.nan, (circBuffer 2 Fl.nan).stateAfter ys) := by
    intro ys
    induction ys using List.reverseRecOn with
    | nil => rfl
    | append_singleton xs x ih =>
      rw [Mealy.stateAfter_append_singleton, ih, Mealy.stateAfter_append_singleton]
      rfl
  rw [Mealy.run, Mealy.outsFrom_getElem?, List.getElem?_eq_getElem ht]
  have hs := hst (xs.take t)
  rw [Mealy.stateAfter] at hs
  simp only [Option.map_some, Option.some.injEq]
  rw [hs]
  have hl : (xs.take t).length = t := by simp; omega
  have h1 := circ_step_out 2 (by omega) (by omega) Fl.nan (xs.take t) xs[t] (by omega)
  simp only [flaxPctChange, flaxLag, Bool.false_eq_true, if_false, Nat.reduceAdd, h1]
  rw [window_ago _ _ _ _ (by omega), Option.map_some, pctValue_eq]
  congr 2
  unfold ago
  simp only [List.reverse_append, List.reverse_cons, List.reverse_nil, List.nil_append, List.singleton_append]
  cases t with
  | zero => simp
  | succ t =>
    have ht' : t < xs.length := by omega
    have : (xs.take (t + 1)).reverse = xs[t] :: (xs.take t).reverse := by
      rw [← List.take_append_getElem ht', List.reverse_append]; rfl
    rw [this]
    simp [ht']

example : (pctChange (K := ℚ) true).run [.nan, .fin 2, .nan, .fin 3] =
    [some .nan, some .nan, some (.fin 0), some (.fin (1 / 2))] := by decide +kernel
example : (pctChange (K := ℚ) false).run [.nan, .fin 2, .nan, .fin 3] =
    [some .nan, some .nan, some .nan, some (.fin (1 / 2))] := by decide +kernel

/-! ## C07 -/

section RollingMean
variable [IsStrictOrderedRing K]

/-- C07: `RollingMean` at each step is the mean of the values among the last `horizon` inputs that are
not NaN, provided there are at least `max(min_periods, 1)` of them, and NaN otherwise.  (This form also
covers infinities: the sum is then the IEEE sum.) -/
theorem C07_rolling_mean (horizon minPeriods : Nat) :
    (rollingMean (K := K) horizon minPeriods).Computes fun hist =>
      let vs := valid (hist.drop (hist.length - horizon))
      if max minPeriods 1 ≤ vs.length then vs.sum / Fl.fin (vs.length : K) else Fl.nan := by
  apply Mealy.computes_of_step
  intro xs x
  have hs : (rollingMean (K := K) horizon minPeriods).stateAfter xs =
    (buffer horizon Fl.nan).stateAfter xs := rfl
  rw [hs, buffer_stateAfter]
  simp only [rollingMean, buffer, bufferApply_window]
  generalize xs ++ [x] = h
  have hsum : ∀ l : List (Fl K),
      (l.map fun v => if v.isNan then (0 : Fl K) else v).sum = (valid l).sum ∧
      (l.map fun v => if v.isNan then 0 else 1).sum = (valid l).length := by
    intro l
    induction l with
    | nil => exact ⟨rfl, rfl⟩
    | cons a l ih =>
      simp only [List.map_cons, List.sum_cons, ih.1, ih.2]
      cases ha : a.isNan
      · simp [valid, ha, Nat.add_comm]
      · have e : valid (a :: l) = valid l := by simp [valid, ha]
        rw [e]
        simp [Fl.fin_zero_add]
  have hw : valid (window horizon Fl.nan h) = valid (h.drop (h.length - horizon)) := by
    rw [window, valid_append]
    have : valid (List.replicate (horizon - h.length) (Fl.nan (K := K))) = [] := by
      simp [valid]
    rw [this, List.nil_append]
  simp only [windowMean, (hsum _).1, (hsum _).2, hw]
  generalize valid (h.drop (h.length - horizon)) = vs
  rcases vs with _ | ⟨v, vs⟩
  · simp [Fl.fin_div, Fl.infSign]
  · simp

/-- A stream without infinities. -/
def NoInf (xs : List (Fl K)) : Prop := ∀ x ∈ xs, x ≠ Fl.pinf ∧ x ≠ Fl.ninf

theorem valid_eq_map_fins {xs : List (Fl K)} (h : NoInf xs) : valid xs = (fins xs).map Fl.fin := by
  induction xs with
  | nil => rfl
  | cons x xs ih =>
    have h1 := h x (by simp)
    have h2 := ih (fun y hy => h y (by simp [hy]))
    cases x <;> simp_all [valid, fins]

theorem sum_bounds (l : List K) (lo hi : K) (h : ∀ k ∈ l, lo ≤ k ∧ k ≤ hi) :
    l.length * lo ≤ l.sum ∧ l.sum ≤ l.length * hi := by
  induction l with
  | nil => simp
  | cons a l ih =>
    have h1 := h a (by simp)
    have h2 := ih (fun k hk => h k (by simp [hk]))
    simp only [List.sum_cons, List.length_cons, Nat.cast_add, Nat.cast_one]
    constructor <;> nlinarith [h1.1, h1.2, h2.1, h2.2]

/-- C07: without infinities the output is the arithmetic mean of the finite values in the window, and it
lies between any bounds on these values. -/
theorem C07_rolling_mean_bounds (horizon minPeriods : Nat) (xs : List (Fl K)) (hx : NoInf xs) (t : Nat)
    (ht : t < xs.length) :
    let vs := fins ((xs.take (t + 1)).drop (t + 1 - horizon))
    (max minPeriods 1 ≤ vs.length →
      ((rollingMean horizon minPeriods).run xs)[t]? = some (Fl.fin (mean vs)) ∧
        ∀ lo hi, (∀ k ∈ vs, lo ≤ k ∧ k ≤ hi) → lo ≤ mean vs ∧ mean vs ≤ hi) ∧
    (vs.length < max minPeriods 1 →
      ((rollingMean horizon minPeriods).run xs)[t]? = some Fl.nan) := by
  intro vs
  have hl : (xs.take (t + 1)).length = t + 1 := by simp; omega
  have hv : valid ((xs.take (t + 1)).drop ((xs.take (t + 1)).length - horizon)) = vs.map Fl.fin := by
    rw [hl]
    apply valid_eq_map_fins
    intro x hx'
    exact hx x (List.mem_of_mem_take (List.mem_of_mem_drop hx'))
  rw [C07_rolling_mean horizon minPeriods xs t ht]
  simp only [hv, List.length_map, Fl.sum_map_fin]
  constructor
  · intro hc
    have hpos : 0 < vs.length := by omega
    have hne : (vs.length : K) ≠ 0 := by positivity
    refine ⟨by rw [if_pos hc, Fl.fin_div_of_ne _ hne]; rfl, ?_⟩
    intro lo hi hb
    have hp : (0 : K) < vs.length := by positivity
    obtain ⟨b1, b2⟩ := sum_bounds vs lo hi hb
    unfold mean
    exact ⟨by rw [le_div_iff₀ hp]; linarith, by rw [div_le_iff₀ hp]; linarith⟩
  · intro hc
    rw [if_neg (by omega)]

/-- C07: the Flax `RollingMean` agrees with the Haiku one (fewer than `2^31` steps). -/
theorem C07_flax_rolling_mean (horizon minPeriods : Nat) (h0 : 0 < horizon) (h1 : horizon ≤ 2 ^ 30)
    (xs : List (Fl K)) (hx : xs.length < 2 ^ 31) :
    (flaxRollingMean horizon minPeriods).run xs = (rollingMean horizon minPeriods).run xs := by
  have := Mealy.run_eq_of_steps (flaxRollingMean horizon minPeriods) (rollingMean horizon minPeriods)
    id xs (fun t ht => by
    have hs : (rollingMean (K := K) horizon minPeriods).stateAfter (xs.take t) =
      (buffer horizon Fl.nan).stateAfter (xs.take t) := rfl
    have hs' : (flaxRollingMean (K := K) horizon minPeriods).stateAfter (xs.take t) =
      (circBuffer horizon Fl.nan).stateAfter (xs.take t) := rfl
    have hl : (xs.take t).length = t := by simp; omega
    have h1 := circ_step_out horizon h0 h1 Fl.nan (xs.take t) xs[t] (by omega)
    rw [hs, hs', buffer_stateAfter]
    simp only [rollingMean, flaxRollingMean, h1, buffer, bufferApply_window, id])
  simpa using this

example : (rollingMean (K := ℚ) 2 1).run [.nan, .fin 1, .fin 3, .nan, .nan] =
    [.nan, .fin 1, .fin 2, .fin 3, .nan] := by decide +kernel
example : NoInf ([.nan, .fin 1, .fin 3, .nan, .nan] : List (Fl ℚ)) := by simp [NoInf]
example : max 1 1 ≤ (fins (([.nan, .fin 1, .fin 3] : List (Fl ℚ)).drop 1)).length := by decide

end RollingMean

/-! ## C10 -/

/-- C10: `FillNanInf` keeps every finite entry and puts the fill value at every other one. -/
theorem C10_fill_nan_inf (fill : Fl K) (xs : List (Fl K)) :
    (fillNanInf fill xs).length = xs.length ∧
    ∀ (i : Nat) (hi : i < xs.length), (fillNanInf fill xs)[i]? =
      some (match xs[i] with | .fin k => .fin k | _ => fill) := by
  refine ⟨by simp [fillNanInf], fun i hi => ?_⟩
  simp only [fillNanInf, List.getElem?_map, List.getElem?_eq_getElem hi, Option.map_some]
  cases xs[i] <;> rfl

/-- C10: with a finite fill value nothing non-finite is left; applying it twice changes nothing more. -/
theorem C10_fill_nan_inf_finite (fill : Fl K) (xs : List (Fl K)) :
    (fill.isFin = true → ∀ y ∈ fillNanInf fill xs, y.isFin = true) ∧
    fillNanInf fill (fillNanInf fill xs) = fillNanInf fill xs := by
  constructor
  · intro hf y hy
    simp only [fillNanInf, List.mem_map] at hy
    obtain ⟨x, _, rfl⟩ := hy
    cases x <;> simp [Fl.nanToNum, hf]
  · simp only [fillNanInf, List.map_map]
    congr 1
    funext x
    cases x <;> cases fill <;> rfl

example : fillNanInf (K := ℚ) (.fin 7) [.nan, .fin 1, .pinf, .ninf] =
    [.fin 7, .fin 1, .fin 7, .fin 7] := by decide +kernel

end Numeric

/-! ## C08 -/

/-- C08: call number `t + 1` of `Counter` returns `(t + 1) mod 2^32`. -/
theorem C08_counter (n t : Nat) (ht : t < n) :
    (counter.run (List.replicate n ()))[t]?.map BitVec.toNat = some ((t + 1) % 2 ^ 32) := by
  have hs : ∀ xs : List Unit, counter.stateAfter xs = BitVec.ofNat 32 xs.length := by
    apply Mealy.stateAfter_eq _ (fun xs : List Unit => BitVec.ofNat 32 xs.length)
    · rfl
    · intro xs x
      simp [counter, BitVec.ofNat_add]
  rw [Mealy.run, Mealy.outsFrom_getElem?]
  have := hs ((List.replicate n ()).take t)
  rw [Mealy.stateAfter] at this
  rw [this]
  have ht2 : (List.replicate n ())[t]? = some () := by simp [ht]
  rw [ht2]
  have hl : ((List.replicate n ()).take t).length = t := by simp; omega
  rw [hl]
  simp [counter, BitVec.toNat_add]

/-- C08: counts are exact up to `2^32 - 1` calls; call `2^32` returns 0. -/
theorem C08_counter_exact (n t : Nat) (ht : t < n) :
    (t + 1 < 2 ^ 32 → (counter.run (List.replicate n ()))[t]?.map BitVec.toNat = some (t + 1)) ∧
    (t + 1 = 2 ^ 32 → (counter.run (List.replicate n ()))[t]?.map BitVec.toNat = some 0) := by
  rw [C08_counter n t ht]
  constructor
  · intro h; rw [Nat.mod_eq_of_lt h]
  · intro h; rw [h, Nat.mod_self]

example : (counter.run [(), (), ()]).map BitVec.toNat = [1, 2, 3] := by decide

/-! ## C09 -/

section HasChanged
variable {K : Type} [Field K] [LinearOrder K]

/-- All calls have the same shape and dtype. -/
def SameKind (d : DType) (n : Nat) (xs : List (List (Scalar K))) : Prop :=
  ∀ x ∈ xs, x.length = n ∧ ∀ e ∈ x, e.dtype = d

theorem zip_ne_false (d : DType) (x p : List (Scalar K)) (hl : x.length = p.length)
    (hx : ∀ e ∈ x, e.dtype = d) (hp : ∀ e ∈ p, e.dtype = d) :
    (List.zipWith Scalar.ne x p).any id = false ↔ x = p ∧ ∀ e ∈ x, e ≠ Scalar.f Fl.nan := by
  induction x generalizing p with
  | nil =>
    cases p with
    | nil => simp
    | cons b p => simp at hl
  | cons a x ih =>
    cases p with
    | nil => simp at hl
    | cons b p =>
      have := ih p (by simpa using hl) (fun e he => hx e (by simp [he])) (fun e he => hp e (by simp [he]))
      have ha := hx a (by simp)
      have hb := hp b (by simp)
      have hab : Scalar.ne a b = false ↔ a = b ∧ a ≠ Scalar.f Fl.nan := by
        cases a <;> cases b <;> simp_all [Scalar.ne, Scalar.dtype, Fl.feq_iff]
      simp only [List.zipWith_cons_cons, List.any_cons, Bool.or_eq_false_iff, id, this, hab,
        List.mem_cons, List.cons.injEq]
      constructor
      · rintro ⟨⟨h1, h2⟩, h3, h4⟩
        exact ⟨⟨h1, h3⟩, fun e he => by rcases he with rfl | he; exacts [h2, h4 e he]⟩
      · rintro ⟨⟨h1, h2⟩, h3⟩
        exact ⟨⟨h1, h3 a (Or.inl rfl)⟩, h2, fun e he => h3 e (Or.inr he)⟩

/-- C09: from the second step on, `HasChanged` returns False exactly when the input equals the previous
one and contains no NaN. -/
theorem C09_has_changed (d : DType) (n : Nat) (xs : List (List (Scalar K))) (hk : SameKind d n xs)
    (t : Nat) (ht : t + 1 < xs.length) :
    ((hasChanged d).run xs)[t + 1]? = some false ↔
      xs[t + 1] = xs[t] ∧ ∀ e ∈ xs[t + 1], e ≠ Scalar.f Fl.nan := by
  rw [Mealy.run, Mealy.outsFrom_getElem?, List.getElem?_eq_getElem ht]
  have ht' : t < xs.length := by omega
  have hs : (hasChanged d).stateFrom (hasChanged d).init (xs.take (t + 1)) = some xs[t] := by
    rw [← List.take_append_getElem ht', Mealy.stateFrom_append]; rfl
  rw [hs]
  have h1 := hk xs[t + 1] (List.getElem_mem _)
  have h2 := hk xs[t] (List.getElem_mem _)
  rw [← zip_ne_false d xs[t + 1] xs[t] (by rw [h1.1, h2.1]) h1.2 h2.2]
  simp [hasChanged]

/-- C09: at the first step it returns False exactly when every element is the dtype's missing value and
that value is not NaN; so for a non-empty float input the first step always reports a change. -/
theorem C09_has_changed_first (d : DType) (n : Nat) (x : List (Scalar K)) (xs : List (List (Scalar K)))
    (hk : SameKind d n (x :: xs)) :
    (((hasChanged d).run (x :: xs))[0]? = some false ↔
      (∀ e ∈ x, e = initValue d) ∧ (d = .float → x = [])) := by
  have hx := hk x (by simp)
  have hd : (initValue (K := K) d).dtype = d := by cases d <;> rfl
  have : ((hasChanged d).run (x :: xs))[0]? =
      some ((List.zipWith Scalar.ne x (List.replicate x.length (initValue d))).any id) := rfl
  rw [this, Option.some.injEq, zip_ne_false d x _ (by simp) hx.2
    (fun e he => by rw [(List.mem_replicate.mp he).2, hd])]
  rw [List.eq_replicate_iff]
  simp only [true_and]
  constructor
  · rintro ⟨h1, h2⟩
    refine ⟨h1, fun hf => ?_⟩
    subst hf
    rcases x with _ | ⟨e, x⟩
    · rfl
    · exact absurd (h1 e (by simp)) (h2 e (by simp))
  · rintro ⟨h1, h2⟩
    refine ⟨h1, fun e he hn => ?_⟩
    have h3 := hx.2 e he
    rw [hn] at h3
    have : x = [] := h2 h3.symm
    subst this
    simp at he

/-- C09: the missing values spelled out: a first input of integers is "unchanged" only if all are -99999, of unsigned integers
only if all are 0, of booleans only if all are False, of floats only if it is empty. -/
theorem C09_has_changed_first_values (n : Nat) :
    (∀ x : List Int, x.length = n →
      (((hasChanged (K := K) .int).run [x.map Scalar.i])[0]? = some false ↔ ∀ e ∈ x, e = -99999)) ∧
    (∀ x : List Nat, x.length = n →
      (((hasChanged (K := K) .uint).run [x.map Scalar.u])[0]? = some false ↔ ∀ e ∈ x, e = 0)) ∧
    (∀ x : List Bool, x.length = n →
      (((hasChanged (K := K) .bool).run [x.map Scalar.b])[0]? = some false ↔ ∀ e ∈ x, e = false)) ∧
    (∀ x : List (Fl K), x.length = n →
      (((hasChanged (K := K) .float).run [x.map Scalar.f])[0]? = some false ↔ x = [])) := by
  refine ⟨fun x hx => ?_, fun x hx => ?_, fun x hx => ?_, fun x hx => ?_⟩ <;>
    rw [C09_has_changed_first _ n _ [] (by
      intro y hy
      rw [List.mem_singleton.1 hy]
      refine ⟨by simp [hx], fun e he => ?_⟩
      obtain ⟨a, _, rfl⟩ := List.mem_map.1 he
      rfl)]
  · simp [initValue]
  · simp [initValue]
  · rw [List.forall_mem_map]; simp [initValue]
  · constructor
    · rintro ⟨_, h⟩; simpa using h rfl
    · rintro rfl; simp

/-- C09: a NaN element reports a change at every step. -/
theorem C09_has_changed_nan (d : DType) (n : Nat) (xs : List (List (Scalar K))) (hk : SameKind d n xs)
    (t : Nat) (ht : t + 1 < xs.length) (hn : Scalar.f Fl.nan ∈ xs[t + 1]) :
    ((hasChanged d).run xs)[t + 1]? = some true := by
  have h := C09_has_changed d n xs hk t ht
  have hlt : t + 1 < ((hasChanged d).run xs).length := by simpa using ht
  rw [List.getElem?_eq_getElem hlt] at *
  cases hb : ((hasChanged d).run xs)[t + 1] with
  | true => rfl
  | false =>
    rw [hb] at h
    exact absurd rfl ((h.mp rfl).2 _ hn)

example : (hasChanged (K := ℚ) .int).run [[.i 1, .i 2], [.i 1, .i 2], [.i 1, .i 3], [.i 1, .i 3]] =
    [true, false, true, false] := by decide +kernel
example : SameKind (K := ℚ) .int 2 [[.i 1, .i 2], [.i 1, .i 2], [.i 1, .i 3]] := by
  simp [SameKind, Scalar.dtype]
example : (hasChanged (K := ℚ) .float).run [[.f .nan], [.f .nan], [.f (.fin 1)], [.f (.fin 1)]] =
    [true, true, true, false] := by decide +kernel

end HasChanged
end Verif.Props
