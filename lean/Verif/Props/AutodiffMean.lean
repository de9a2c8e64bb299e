import Verif.Model.AutodiffMean
import Verif.Props.Windows
import Verif.Props.RoundedMean

/-! # C198: gradients through RollingMean -/

namespace Verif.Props
open Verif Verif.Spec Verif.Model Verif.Model.Autodiff
set_option linter.unusedSectionVars false
variable {K : Type} [Field K] [LinearOrder K]

/-- The share of each observed value in the rolling mean at step `s`: 1 divided by the number of values observed in the last `horizon` inputs,
0 when there are fewer than `min_periods` (or none). -/
def share (horizon minPeriods : Nat) (xs : List (Fl K)) (s : Nat) : K :=
  let n := (valid ((xs.take (s + 1)).drop (s + 1 - horizon))).length
  if max minPeriods 1 ≤ n then 1 / (n : K) else 0

/-- Number of rows that are not NaN. -/
def filledRows (b : List (Fl K)) : Nat := b.countP fun v => !v.isNan

/-- The share of each row of a buffer. -/
def rowShare (minPeriods : Nat) (b : List (Fl K)) : K :=
  if max minPeriods 1 ≤ filledRows b then 1 / (filledRows b : K) else 0

theorem filledRows_eq (b : List (Fl K)) : (b.map fun v => if v.isNan then 0 else 1).sum = filledRows b := by
  induction b with
  | nil => rfl
  | cons v b ih =>
    rw [List.map_cons, List.sum_cons, ih, filledRows, filledRows, List.countP_cons]
    cases v.isNan <;> simp [Nat.add_comm]

variable [IsStrictOrderedRing K]

theorem meanPull_eq (minPeriods : Nat) (b : List (Fl K)) (g : K) :
    meanPull minPeriods b (.fin g) = b.map fun v => Fl.fin (if v.isNan then 0 else rowShare minPeriods b * g) := by
  unfold meanPull
  rw [filledRows_eq]
  refine List.map_congr_left fun v hv => ?_
  cases hn : v.isNan with
  | true => rfl
  | false =>
    have hpos : 1 ≤ filledRows b := List.countP_pos_iff.mpr ⟨v, hv, by simp [hn]⟩
    have hne : (filledRows b : K) ≠ 0 := by positivity
    simp only [Bool.false_eq_true, if_false]
    unfold rowShare
    by_cases hm : minPeriods ≤ filledRows b
    · rw [if_pos hm, if_pos (by omega), Fl.fin_div_of_ne _ hne]; congr 1; ring
    · rw [if_neg hm, if_neg (by omega), Fl.fin_div_of_ne _ hne]; congr 1; ring

/-- The products `share * cotangent` along a stream, from a given buffer. -/
def sharesFrom (minPeriods : Nat) : List (Fl K) → List (Fl K) → List K → List K
  | b, x :: xs, g :: gs => rowShare minPeriods (b.drop 1 ++ [x]) * g :: sharesFrom minPeriods (b.drop 1 ++ [x]) xs gs
  | _, _, _ => []

theorem bufferApply_push (horizon : Nat) (h0 : 0 < horizon) (s : BufState (Fl K)) (hs : s.buffer.length = horizon) (x : Fl K) :
    (bufferApply horizon x s).1 = s.buffer.drop 1 ++ [x] ∧ (bufferApply horizon x s).2.buffer = s.buffer.drop 1 ++ [x] := by
  have : ((s.buffer.drop 1 ++ s.buffer.take 1).set ((s.buffer.drop 1 ++ s.buffer.take 1).length - 1) x) = s.buffer.drop 1 ++ [x] := by
    obtain ⟨b, l, i⟩ := s
    simp only at hs ⊢
    cases b with
    | nil => simp at hs; omega
    | cons a b => simp
  exact ⟨this, this⟩

theorem take_succ_sum (a : K) (l : List K) (j : Nat) : ((a :: l).take (j + 1)).sum = a + (l.take j).sum := by simp

/-- The backward pass from any buffer. -/
theorem grad_from (horizon minPeriods : Nat) (h0 : 0 < horizon) (xs : List (Fl K)) :
    ∀ (s : BufState (Fl K)) (gs : List K), s.buffer.length = horizon → xs.length = gs.length →
      (rollingMeanGradFrom horizon minPeriods s xs (gs.map Fl.fin)).1 =
        s.buffer.mapIdx (fun j v => Fl.fin (if v.isNan then 0 else ((sharesFrom minPeriods s.buffer xs gs).take j).sum)) ∧
      (rollingMeanGradFrom horizon minPeriods s xs (gs.map Fl.fin)).2 =
        xs.mapIdx (fun t x => Fl.fin (if x.isNan then 0 else (((sharesFrom minPeriods s.buffer xs gs).drop t).take horizon).sum)) := by
  induction xs with
  | nil =>
    intro s gs hs hl
    have : gs = [] := List.length_eq_zero_iff.mp (by simpa using hl.symm)
    subst this
    refine ⟨?_, rfl⟩
    simp only [rollingMeanGradFrom, sharesFrom, List.take_nil, List.sum_nil, ite_self]
    apply List.ext_getElem <;> simp
  | cons x xs ih =>
    intro s gs hs hl
    cases gs with
    | nil => simp at hl
    | cons g gs =>
      obtain ⟨p1, p2⟩ := bufferApply_push horizon h0 s hs x
      have hlen : (s.buffer.drop 1 ++ [x]).length = horizon := by simp; omega
      obtain ⟨i1, i2⟩ := ih (bufferApply horizon x s).2 gs (by rw [p2]; exact hlen) (by simpa using hl)
      rw [p2] at i1 i2
      -- the cotangents of the new buffer
      have hcts : List.zipWith (· + ·) (meanPull minPeriods (bufferApply horizon x s).1 (.fin g))
          (rollingMeanGradFrom horizon minPeriods (bufferApply horizon x s).2 xs (gs.map Fl.fin)).1 =
          (s.buffer.drop 1 ++ [x]).mapIdx fun j v => Fl.fin (if v.isNan then 0 else
            ((sharesFrom minPeriods s.buffer (x :: xs) (g :: gs)).take (j + 1)).sum) := by
        rw [p1, i1, meanPull_eq]
        apply List.ext_getElem
        · simp
        · intro j h1 h2
          simp only [List.getElem_zipWith, List.getElem_map, List.getElem_mapIdx, sharesFrom, take_succ_sum, Fl.fin_add]
          split <;> simp
      have hstep : rollingMeanGradFrom horizon minPeriods s (x :: xs) ((g :: gs).map Fl.fin) =
          ((bufferPull (List.zipWith (· + ·) (meanPull minPeriods (bufferApply horizon x s).1 (.fin g))
            (rollingMeanGradFrom horizon minPeriods (bufferApply horizon x s).2 xs (gs.map Fl.fin)).1)).1,
           (bufferPull (List.zipWith (· + ·) (meanPull minPeriods (bufferApply horizon x s).1 (.fin g))
            (rollingMeanGradFrom horizon minPeriods (bufferApply horizon x s).2 xs (gs.map Fl.fin)).1)).2 ::
            (rollingMeanGradFrom horizon minPeriods (bufferApply horizon x s).2 xs (gs.map Fl.fin)).2) := rfl
      rw [hstep, hcts, i2]
      generalize hS : sharesFrom minPeriods s.buffer (x :: xs) (g :: gs) = S
      have hS' : S = rowShare minPeriods (s.buffer.drop 1 ++ [x]) * g :: sharesFrom minPeriods (s.buffer.drop 1 ++ [x]) xs gs := hS.symm
      constructor
      · -- the old buffer
        apply List.ext_getElem
        · simp [bufferPull]; omega
        · intro j h1 h2
          simp only [bufferPull, List.length_mapIdx, List.length_set, hlen]
          rw [List.getElem_mapIdx]
          rcases j with _ | j
          · rw [List.getElem_append_left (by simp; omega)]
            simp
          · rw [List.getElem_append_right (by simp; omega)]
            have hj : j + 1 < horizon := by simpa [hs] using h2
            simp only [List.getElem_take]
            rw [List.getElem_set_ne (by simp; omega)]
            simp only [List.getElem_mapIdx]
            have hdrop : j + 1 - (horizon - (horizon - 1)) = j := by omega
            simp only [List.length_drop, List.length_set, List.length_mapIdx, hlen]
            have hg : (s.buffer.drop 1 ++ [x])[j]'(by rw [hlen]; omega) = s.buffer[j + 1] := by
              rw [List.getElem_append_left (by simp; omega)]; simp
            simp only [hdrop, hg]
      · -- the inputs
        rw [List.mapIdx_cons]
        refine congrArg₂ List.cons ?_ ?_
        · simp only [bufferPull, look, List.length_mapIdx, hlen]
          rw [List.getD_eq_getElem _ _ (by simp; omega), List.getElem_mapIdx]
          have hg : (s.buffer.drop 1 ++ [x])[horizon - 1]'(by rw [hlen]; omega) = x := by
            rw [List.getElem_append_right (by simp; omega)]; simp
          rw [hg, Nat.sub_add_cancel h0, List.drop_zero]
        · apply List.ext_getElem
          · simp
          · intro t h1 h2
            simp only [List.getElem_mapIdx]
            have hd : S.drop (t + 1) = (sharesFrom minPeriods (s.buffer.drop 1 ++ [x]) xs gs).drop t := by rw [hS']; rfl
            rw [hd]

theorem filledRows_window (horizon : Nat) (h : List (Fl K)) :
    filledRows (window horizon .nan h) = (valid (h.drop (h.length - horizon))).length := by
  unfold filledRows window valid
  rw [List.countP_append, List.countP_replicate, ← List.countP_eq_length_filter]
  simp

theorem sharesFrom_eq (horizon minPeriods : Nat) (h0 : 0 < horizon) (xs : List (Fl K)) :
    ∀ (hist : List (Fl K)) (gs : List K), xs.length = gs.length →
      sharesFrom minPeriods (window horizon .nan hist) xs gs =
        gs.mapIdx fun s g => share horizon minPeriods (hist ++ xs) (hist.length + s) * g := by
  induction xs with
  | nil =>
    intro hist gs hl
    have : gs = [] := List.length_eq_zero_iff.mp (by simpa using hl.symm)
    subst this; rfl
  | cons x xs ih =>
    intro hist gs hl
    cases gs with
    | nil => simp at hl
    | cons g gs =>
      rw [sharesFrom, ← window_snoc horizon h0, ih (hist ++ [x]) gs (by simpa using hl), List.mapIdx_cons]
      refine congrArg₂ List.cons ?_ ?_
      · congr 1
        unfold rowShare share
        rw [filledRows_window]
        have e1 : (hist ++ x :: xs).take (hist.length + 0 + 1) = hist ++ [x] := by
          rw [show hist.length + 0 + 1 = (hist ++ [x]).length by simp, show hist ++ x :: xs = (hist ++ [x]) ++ xs by simp, List.take_left']
          rfl
        have e2 : hist.length + 0 + 1 - horizon = (hist ++ [x]).length - horizon := by simp
        rw [e1, e2]
      · refine congrArg (fun f => gs.mapIdx f) ?_
        funext s g
        rw [List.append_assoc, List.length_append]
        simp only [List.length_singleton, List.singleton_append]
        rw [Nat.add_assoc, Nat.add_comm 1 s]

/-- **C198**: the gradient through the unrolled RollingMean, on every stream (NaN and infinities allowed) and for every finite output cotangents `gs`: each
gradient is a number, 0 for a missing input, otherwise the sum over the steps whose window contains the input of `gs` times the share
of one value in the mean. -/
theorem C198_rolling_mean_gradient (horizon minPeriods : Nat) (h0 : 0 < horizon) (xs : List (Fl K)) (gs : List K) (hl : xs.length = gs.length)
    (t : Nat) (x : Fl K) (hx : xs[t]? = some x) :
    (rollingMeanGrad horizon minPeriods xs (gs.map Fl.fin))[t]? =
      some (.fin (if x.isNan then 0 else
        (((List.range gs.length).filter fun s => decide (t ≤ s ∧ s < t + horizon)).map fun s =>
          share horizon minPeriods xs s * gs.getD s 0).sum)) := by
  unfold rollingMeanGrad
  have hb : (bufferInit horizon (Fl.nan : Fl K)).buffer = window horizon .nan [] := by
    rw [window_nil]; rfl
  rw [(grad_from horizon minPeriods h0 xs (bufferInit horizon .nan) gs (by simp [bufferInit]) hl).2, hb,
    sharesFrom_eq horizon minPeriods h0 xs [] gs hl, List.getElem?_mapIdx, hx, Option.map_some]
  simp only [List.nil_append, List.length_nil, Nat.zero_add]
  have key : ∀ (l : List K) (f : Nat → K → K), (((l.mapIdx f).drop t).take horizon) =
      ((List.range l.length).filter fun s => decide (t ≤ s ∧ s < t + horizon)).map fun s => f s (l.getD s 0) := by
    intro l f
    have e1 : l.mapIdx f = (List.range l.length).map fun s => f s (l.getD s 0) := by
      apply List.ext_getElem
      · simp
      · intro i h1 h2
        simp at h1 h2
        simp [h1]
    have e2 : ∀ n : Nat, ((List.range n).drop t).take horizon = (List.range n).filter fun s => decide (t ≤ s ∧ s < t + horizon) := by
      intro n
      have p1 : (((List.range n).drop t).take horizon).Pairwise (· < ·) :=
        ((List.pairwise_lt_range (n := n)).drop).take
      have p2 : ((List.range n).filter fun s => decide (t ≤ s ∧ s < t + horizon)).Pairwise (· < ·) :=
        (List.pairwise_lt_range (n := n)).filter _
      refine List.Perm.eq_of_pairwise (fun a b _ _ h1 h2 => absurd h1 (by omega)) p1 p2 ?_
      refine (List.perm_ext_iff_of_nodup (p1.imp (fun h => by omega)) (p2.imp (fun h => by omega))).mpr fun a => ?_
      rw [List.mem_filter, List.mem_range, decide_eq_true_iff, List.mem_iff_getElem?]
      constructor
      · rintro ⟨i, hi⟩
        rw [List.getElem?_take] at hi
        split at hi
        · rw [List.getElem?_drop] at hi
          obtain ⟨hlt, he⟩ := List.getElem?_eq_some_iff.mp hi
          simp at hlt he
          omega
        · simp at hi
      · rintro ⟨h1, h2, h3⟩
        refine ⟨a - t, ?_⟩
        rw [List.getElem?_take, if_pos (by omega), List.getElem?_drop, show t + (a - t) = a by omega]
        simp [h1]
    rw [e1, ← List.map_drop, ← List.map_take, e2]
  rw [key gs fun s g => share horizon minPeriods xs s * g]

/-- The loss: the weighted sum of the outputs that are numbers. -/
def weightedOutputs (horizon minPeriods : Nat) (xs : List (Fl K)) (gs : List K) : K :=
  ((List.range gs.length).map fun s =>
    gs.getD s 0 * numOf (((rollingMean horizon minPeriods).run xs).getD s .nan)).sum

theorem fins_sum (l : List (Fl K)) : (fins l).sum = (l.map numOf).sum := by
  induction l with
  | nil => rfl
  | cons x l ih =>
    cases x <;> simp [fins, numOf] at ih ⊢ <;> exact ih

theorem set_sum (l : List (Fl K)) (t : Nat) (a d : K) (h : l[t]? = some (.fin a)) :
    ((l.set t (.fin (a + d))).map numOf).sum = (l.map numOf).sum + d := by
  induction l generalizing t with
  | nil => simp at h
  | cons x l ih =>
    cases t with
    | zero =>
      simp only [List.getElem?_cons_zero, Option.some.injEq] at h
      subst h
      simp only [List.set_cons_zero, List.map_cons, List.sum_cons, numOf]
      ring
    | succ t =>
      simp only [List.set_cons_succ, List.map_cons, List.sum_cons]
      rw [ih t (by simpa using h)]; ring

/-- The rows of a window after the change of input `t`. -/
theorem window_set (xs : List (Fl K)) (horizon s t : Nat) (y : Fl K) :
    ((xs.set t y).take (s + 1)).drop (s + 1 - horizon) =
      if s + 1 - horizon ≤ t then ((xs.take (s + 1)).drop (s + 1 - horizon)).set (t - (s + 1 - horizon)) y
      else (xs.take (s + 1)).drop (s + 1 - horizon) := by
  rw [List.take_set, List.drop_set]
  split
  · rw [if_neg (by omega)]
  · rw [if_pos (by omega)]

theorem valid_set (l : List (Fl K)) (t : Nat) (a b : K) (h : l[t]? = some (.fin a)) :
    (valid (l.set t (.fin b))).length = (valid l).length := by
  induction l generalizing t with
  | nil => rfl
  | cons x l ih =>
    cases t with
    | zero =>
      simp only [List.getElem?_cons_zero, Option.some.injEq] at h
      subst h
      rfl
    | succ t =>
      have := ih t (by simpa using h)
      cases x <;> simp [valid, Fl.isNan] at this ⊢ <;> exact this

/-- A number output is `share` times the sum of the observed values. -/
theorem output_share (horizon minPeriods : Nat) (xs : List (Fl K)) (hx : NoInf xs) (s : Nat) (hs : s < xs.length) :
    numOf (((rollingMean horizon minPeriods).run xs).getD s .nan) =
      share horizon minPeriods xs s * (((xs.take (s + 1)).drop (s + 1 - horizon)).map numOf).sum := by
  have h := C07_rolling_mean_bounds horizon minPeriods xs hx s hs
  simp only at h
  have hv : (valid ((xs.take (s + 1)).drop (s + 1 - horizon))).length = (fins ((xs.take (s + 1)).drop (s + 1 - horizon))).length := by
    rw [valid_eq_map_fins, List.length_map]
    intro x hx'
    exact hx x (List.mem_of_mem_take (List.mem_of_mem_drop hx'))
  unfold share
  simp only [hv]
  by_cases hc : max minPeriods 1 ≤ (fins ((xs.take (s + 1)).drop (s + 1 - horizon))).length
  · rw [if_pos hc, List.getD_eq_getElem?_getD, (h.1 hc).1, Option.getD_some, numOf, mean, fins_sum]
    ring
  · rw [if_neg hc, List.getD_eq_getElem?_getD, h.2 (by omega), Option.getD_some]
    show (0 : K) = 0 * _
    ring

/-- **C198**: what `jax.grad` returns through the unrolled RollingMean is the derivative, for every stream without infinities, whatever the missing
values: changing input `t` from `a` to `a + δ` changes the weighted sum of the outputs by exactly `δ` times the gradient. -/
theorem C198_true_derivative (horizon minPeriods : Nat) (h0 : 0 < horizon) (xs : List (Fl K)) (hx : NoInf xs) (gs : List K)
    (hl : xs.length = gs.length) (t : Nat) (a : K) (ht : xs[t]? = some (.fin a)) :
    ∃ grad : K, (rollingMeanGrad horizon minPeriods xs (gs.map Fl.fin))[t]? = some (.fin grad) ∧
      ∀ δ : K, weightedOutputs horizon minPeriods (xs.set t (.fin (a + δ))) gs = weightedOutputs horizon minPeriods xs gs + δ * grad := by
  refine ⟨_, C198_rolling_mean_gradient horizon minPeriods h0 xs gs hl t _ ht, fun δ => ?_⟩
  simp only [Fl.isNan, Bool.false_eq_true, if_false]
  obtain ⟨htl, _⟩ := List.getElem?_eq_some_iff.mp ht
  have hx' : NoInf (xs.set t (.fin (a + δ))) := by
    intro y hy
    rcases List.mem_or_eq_of_mem_set hy with h | h
    · exact hx y h
    · subst h; exact ⟨by simp, by simp⟩
  have term : ∀ s ∈ List.range gs.length,
      gs.getD s 0 * numOf (((rollingMean horizon minPeriods).run (xs.set t (.fin (a + δ)))).getD s .nan) =
        gs.getD s 0 * numOf (((rollingMean horizon minPeriods).run xs).getD s .nan) +
          δ * (if t ≤ s ∧ s < t + horizon then share horizon minPeriods xs s * gs.getD s 0 else 0) := by
    intro s hs
    have hs' : s < xs.length := by rw [hl]; exact List.mem_range.mp hs
    rw [output_share _ _ _ hx' s (by simpa using hs'), output_share _ _ _ hx s hs']
    by_cases hin : t ≤ s ∧ s < t + horizon
    · have hget : ((xs.take (s + 1)).drop (s + 1 - horizon))[t - (s + 1 - horizon)]? = some (.fin a) := by
        rw [List.getElem?_drop, show s + 1 - horizon + (t - (s + 1 - horizon)) = t by omega, List.getElem?_take, if_pos (by omega), ht]
      have hw1 := (window_set xs horizon s t (.fin (a + δ))).trans (if_pos (by omega))
      have hshare : share horizon minPeriods (xs.set t (.fin (a + δ))) s = share horizon minPeriods xs s := by
        unfold share
        rw [hw1, valid_set _ _ a _ hget]
      rw [hshare, hw1, set_sum _ _ a δ hget, if_pos hin]
      ring
    · have hw : ((xs.set t (.fin (a + δ))).take (s + 1)).drop (s + 1 - horizon) = (xs.take (s + 1)).drop (s + 1 - horizon) := by
        rw [window_set]
        split
        · rw [List.set_eq_of_length_le]
          simp; omega
        · rfl
      have hshare : share horizon minPeriods (xs.set t (.fin (a + δ))) s = share horizon minPeriods xs s := by
        unfold share
        rw [hw]
      rw [hshare, hw, if_neg hin]
      ring
  unfold weightedOutputs
  rw [List.map_congr_left term]
  generalize List.range gs.length = R
  induction R with
  | nil => simp
  | cons s R ih =>
    rw [List.map_cons, List.sum_cons, ih, List.map_cons, List.sum_cons, List.filter_cons]
    by_cases hin : t ≤ s ∧ s < t + horizon
    · rw [if_pos hin, if_pos (by simpa using hin), List.map_cons, List.sum_cons]; ring
    · rw [if_neg hin, if_neg (by simpa using hin)]; ring

/-- **C198**, where NaN is missing: a missing input receives the gradient 0, not NaN. -/
theorem C198_missing_gradient (horizon minPeriods : Nat) (h0 : 0 < horizon) (xs : List (Fl K)) (gs : List K) (hl : xs.length = gs.length)
    (t : Nat) (ht : xs[t]? = some .nan) :
    (rollingMeanGrad horizon minPeriods xs (gs.map Fl.fin))[t]? = some (.fin 0) := by
  rw [C198_rolling_mean_gradient horizon minPeriods h0 xs gs hl t _ ht]
  simp [Fl.isNan]

/-- Window 2, one required value: input 0 counts in full at step 0 and for one half at step 1, where it is averaged with input 1. -/
example : rollingMeanGrad (K := ℚ) 2 1 [.fin 3, .fin 5, .nan, .fin 7] ([1, 1, 1, 1].map Fl.fin) = [.fin (3/2), .fin (3/2), .fin 0, .fin 1] := by
  decide +kernel

/-- Two required values: the steps with a NaN output contribute nothing. -/
example : rollingMeanGrad (K := ℚ) 2 2 [.fin 3, .fin 5, .nan, .fin 7] ([1, 1, 1, 1].map Fl.fin) = [.fin (1/2), .fin (1/2), .fin 0, .fin 0] := by
  decide +kernel

example : ∃ grad : ℚ, (rollingMeanGrad (K := ℚ) 2 1 [.fin 3, .fin 5, .nan, .fin 7] (([1, 1, 1, 1] : List ℚ).map Fl.fin))[1]? = some (.fin grad) ∧
    ∀ δ : ℚ, weightedOutputs (K := ℚ) 2 1 ([.fin 3, .fin 5, .nan, .fin 7].set 1 (.fin (5 + δ))) [1, 1, 1, 1] =
      weightedOutputs (K := ℚ) 2 1 [.fin 3, .fin 5, .nan, .fin 7] [1, 1, 1, 1] + δ * grad :=
  C198_true_derivative (K := ℚ) 2 1 (by norm_num) _ (by intro x hx; simp at hx; rcases hx with h | h | h | h <;> subst h <;> simp) [1, 1, 1, 1] rfl 1 5 rfl

end Verif.Props
