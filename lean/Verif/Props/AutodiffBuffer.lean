import Verif.Model.AutodiffBuffer
import Verif.Props.AutodiffFlax
import Mathlib.Algebra.BigOperators.Fin

/-! # C206: gradients through Buffer, Lag, Diff and Ffill -/

namespace Verif.Props
open Verif Verif.Spec Verif.Model Verif.Model.Autodiff
set_option linter.unusedSectionVars false
variable {K C : Type} [Field K] [LinearOrder K] [IsStrictOrderedRing K]

/-- The write position does not matter for the gradient: unrolled from the same logical buffer, the two modules have the same backward pass. -/
theorem flax_buffer_grad_from (m : Nat) (P : List (Fl K) → C → List (Fl K)) (hm : 0 < m) (hm2 : m ≤ 2 ^ 30) (xs : List (Fl K)) :
    ∀ (w : Nat) (s : CircState (Fl K)) (s' : BufState (Fl K)) (gs : List C),
      (∀ k : Nat, k ≤ w + xs.length → (i32 (k : Int)) % (m : Int) = (k : Int) % (m : Int)) →
      (∀ b, b.length = m → ∀ g ∈ gs, (P b g).length = m) → s.writeIdx = i32 (w : Int) → s.buffer.length = m → s'.buffer = s.buffer.rotate w →
      (flaxBufferGradFrom m P s xs gs).1.length = m ∧
      (flaxBufferGradFrom m P s xs gs).1.rotate w = (bufferGradFrom m P s' xs gs).1 ∧
      (flaxBufferGradFrom m P s xs gs).2 = (bufferGradFrom m P s' xs gs).2 := by
  have stop : ∀ (w : Nat) (s : CircState (Fl K)) (s' : BufState (Fl K)), s.buffer.length = m → s'.buffer = s.buffer.rotate w →
      (s.buffer.map fun _ => Fl.fin (0 : K)).length = m ∧
      (s.buffer.map fun _ => Fl.fin (0 : K)).rotate w = s'.buffer.map fun _ => Fl.fin (0 : K) := by
    intro w s s' hl hb
    refine ⟨by simp [hl], ?_⟩
    rw [hb, List.map_rotate]
  induction xs with
  | nil =>
    intro w s s' gs hw hP hi hl hb
    obtain ⟨h1, h2⟩ := stop w s s' hl hb
    exact ⟨h1, h2, rfl⟩
  | cons x xs ih =>
    intro w s s' gs hw hP hi hl hb
    cases gs with
    | nil =>
      obtain ⟨h1, h2⟩ := stop w s s' hl hb
      exact ⟨h1, h2, rfl⟩
    | cons g gs =>
      have hl' : s'.buffer.length = m := by rw [hb, List.length_rotate, hl]
      obtain ⟨p1, p2⟩ := bufferApply_push m hm s' hl' x
      have hpos : w % m < m := Nat.mod_lt _ hm
      have ew : (s.writeIdx % (m : Int)).toNat = w % m := by
        rw [hi, hw w (by omega)]; exact emod_toNat _ _
      have ei : i32 (s.writeIdx + 1) = i32 ((w + 1 : Nat) : Int) := by
        rw [hi, i32_succ]; rfl
      have est : i32 (s.writeIdx + 1) % (m : Int) = (((w + 1) % m : Nat) : Int) := by
        rw [ei, hw (w + 1) (by simp)]; simp
      -- the new buffers
      have hU : (circStep m s x).2.buffer = s.buffer.set (w % m) x := by
        simp only [circStep, ew]
      have hUi : (circStep m s x).2.writeIdx = i32 ((w + 1 : Nat) : Int) := by
        simp only [circStep, ei]
      have hrot : (s.buffer.set (w % m) x).rotate (w + 1) = s'.buffer.drop 1 ++ [x] := by
        have hr := rotate_set_succ s.buffer (w % m) (by omega) x
        rw [hb, ← List.rotate_mod s.buffer w, hl, ← hr, ← List.rotate_mod, ← List.rotate_mod (s.buffer.set _ x) (w % m + 1)]
        simp only [List.length_set, hl]
        congr 1
        simp [Nat.add_mod]
      have hord : (circStep m s x).1.1 = s'.buffer.drop 1 ++ [x] := by
        have ho := ordered_eq_rotate m hm hm2 (s.buffer.set (w % m) x) (by simp [hl]) (i32 (s.writeIdx + 1))
        have : (circStep m s x).1.1 = ((List.range m).filterMap fun (i : Nat) =>
            (s.buffer.set (w % m) x)[((i32 ((i : Int) + i32 (s.writeIdx + 1) % (m : Int))) % (m : Int)).toNat]?) := by
          simp only [circStep, ew]
        rw [this, ho, est, Int.toNat_natCast, ← hrot, ← List.rotate_mod (s.buffer.set _ x) (w + 1)]
        simp [hl]
      obtain ⟨j1, j2, j3⟩ := ih (w + 1) (circStep m s x).2 (bufferApply m x s').2 gs
        (fun k hk => hw k (by simp at hk ⊢; omega)) (fun b hb g hg => hP b hb g (List.mem_cons_of_mem _ hg)) hUi (by rw [hU]; simp [hl]) (by rw [p2, hU, hrot])
      -- the positions read
      have hidx : ((List.range m).map fun (i : Nat) => ((i32 ((i : Int) + i32 (s.writeIdx + 1) % (m : Int))) % (m : Int)).toNat) =
          (List.range m).map fun i => (i + (w + 1)) % m := by
        refine List.map_congr_left fun i hi' => ?_
        have hi'' := List.mem_range.mp hi'
        have hp1 : (w + 1) % m < m := Nat.mod_lt _ hm
        rw [est, i32_id (by omega) (by omega), ← Int.natCast_add, emod_toNat, Nat.add_mod_mod]
      have hmp : (P (circStep m s x).1.1 g).length = m := by
        exact hP _ (by rw [hord]; simp [hl']; omega) g List.mem_cons_self
      obtain ⟨g1, g2⟩ := gatherPull_rotate m (w + 1) hm (P (circStep m s x).1.1 g) hmp
      -- the cotangents of the updated buffer
      obtain ⟨U, hUdef⟩ : ∃ U, U = List.zipWith (· + ·) (gatherPull m ((List.range m).map fun i => (i + (w + 1)) % m)
        (P (circStep m s x).1.1 g)) (flaxBufferGradFrom m P (circStep m s x).2 xs gs).1 := ⟨_, rfl⟩
      have hUl : U.length = m := by rw [hUdef]; simp [g1, j1]
      have hUr : U.rotate (w + 1) = List.zipWith (· + ·) (P (bufferApply m x s').1 g)
          (bufferGradFrom m P (bufferApply m x s').2 xs gs).1 := by
        rw [hUdef, zipWith_rotate _ _ _ (by rw [g1, j1]), g2, j2, hord, p1]
      have e1 : flaxBufferGradFrom m P s (x :: xs) (g :: gs) =
          (U.set (w % m) (Fl.fin 0), look U (w % m) :: (flaxBufferGradFrom m P (circStep m s x).2 xs gs).2) := by
        simp only [flaxBufferGradFrom, circPull, ew, hidx, ← hUdef]
      have e2 : bufferGradFrom m P s' (x :: xs) (g :: gs) =
          ((bufferPull (U.rotate (w + 1))).1, (bufferPull (U.rotate (w + 1))).2 ::
            (bufferGradFrom m P (bufferApply m x s').2 xs gs).2) := by
        rw [hUr]; rfl
      rw [e1, e2, j3]
      have hlast : look (U.rotate (w + 1)) ((U.rotate (w + 1)).length - 1) = look U (w % m) := by
        simp only [look, List.length_rotate, hUl]
        rw [List.getD_eq_getElem _ _ (by simp [hUl]; omega), List.getD_eq_getElem _ _ (by omega), List.getElem_rotate]
        congr 1
        rw [hUl, show m - 1 + (w + 1) = w + m by omega, Nat.add_mod_right]
      refine ⟨by simp [hUl], ?_, by simp only [bufferPull, hlast]⟩
      show (U.set (w % m) (Fl.fin 0)).rotate w = _
      apply List.ext_getElem
      · simp [bufferPull, hUl]
      · intro i h1 h2
        have him : i < m := by simpa [hUl] using h1
        rw [List.getElem_rotate]
        simp only [bufferPull, List.length_set, List.length_rotate, hUl]
        rcases i with _ | i
        · rw [List.getElem_append_left (by simp [hUl]; omega)]
          simp
        · rw [List.getElem_append_right (by simp [hUl]; omega)]
          simp only [List.getElem_take]
          have hne : (i + 1 + w) % m ≠ w % m := by
            intro he
            have h3 : Nat.ModEq m (i + 1 + w) (0 + w) := by rw [Nat.zero_add]; exact he
            have h4 := Nat.ModEq.eq_of_lt_of_lt (Nat.ModEq.add_right_cancel' w h3) him hm
            omega
          have hd : i + 1 - (m - (m - 1)) = i := by omega
          simp only [List.length_drop, List.length_set, List.length_rotate, hUl, hd]
          rw [List.getElem_set_ne (by omega), List.getElem_set_ne (by omega), List.getElem_rotate]
          congr 1
          rw [hUl, show i + 1 + w = i + (w + 1) by omega]

/-- **C206**, any module that reads a Buffer: with cotangents `weights d` of the `maxlen` rows at a step whose output has cotangent `e d`, the gradient in the input of step `t`
is the sum of what it weighs in each of the `maxlen` windows that hold it. -/
theorem C206_reads (maxlen : Nat) (h0 : 0 < maxlen) {D : Type} (read : List (Fl K) → C → List (Fl K)) (e : D → C) (weights : D → List K)
    (xs : List (Fl K)) : ∀ (s : BufState (Fl K)) (gs : List D), s.buffer.length = maxlen → xs.length = gs.length →
      (∀ d ∈ gs, (weights d).length = maxlen ∧ ∀ b, b.length = maxlen → read b (e d) = (weights d).map Fl.fin) →
      (bufferGradFrom maxlen read s xs (gs.map e)).1 = (List.range maxlen).map (fun i => Fl.fin (∑ j ∈ Finset.range i,
        ((gs.map weights).getD j []).getD (i - 1 - j) 0)) ∧
      (bufferGradFrom maxlen read s xs (gs.map e)).2 = (List.range xs.length).map fun t => Fl.fin (∑ j ∈ Finset.range maxlen,
        ((gs.map weights).getD (t + j) []).getD (maxlen - 1 - j) 0) := by
  induction xs with
  | nil =>
    intro s gs hs hl hr
    have : gs = [] := List.length_eq_zero_iff.mp (by simpa using hl.symm)
    subst this
    refine ⟨?_, rfl⟩
    apply List.ext_getElem
    · simp [bufferGradFrom, hs]
    · intro i h1 h2
      simp [bufferGradFrom]
  | cons x xs ih =>
    intro s gs hs hl hr
    cases gs with
    | nil => simp at hl
    | cons g gs =>
      obtain ⟨p1, p2⟩ := bufferApply_push maxlen h0 s hs x
      have hlen : (s.buffer.drop 1 ++ [x]).length = maxlen := by simp; omega
      obtain ⟨i1, i2⟩ := ih (bufferApply maxlen x s).2 gs (by rw [p2]; exact hlen) (by simpa using hl) (fun d hd => hr d (List.mem_cons_of_mem _ hd))
      obtain ⟨hw, hr⟩ := hr g List.mem_cons_self
      have hcts : List.zipWith (· + ·) (read (bufferApply maxlen x s).1 (e g)) (bufferGradFrom maxlen read (bufferApply maxlen x s).2 xs (gs.map e)).1 =
          (List.range maxlen).map fun i => Fl.fin (∑ j ∈ Finset.range (i + 1), (((g :: gs).map weights).getD j []).getD (i - j) 0) := by
        rw [i1, hr _ (by rw [p1]; exact hlen)]
        apply List.ext_getElem
        · simp [hw]
        · intro i h1 h2
          have hi : i < maxlen := by simpa using h2
          simp only [List.getElem_zipWith, List.getElem_map, List.getElem_range, Fl.fin_add, Finset.sum_range_succ', List.map_cons,
            List.getD_cons_succ, List.getD_cons_zero, Nat.sub_zero]
          congr 1
          rw [add_comm]
          congr 1
          · refine Finset.sum_congr rfl fun j hj => ?_
            congr 1; omega
          · rw [List.getD_eq_getElem _ _ (by rw [hw]; exact hi)]
      have hstep : bufferGradFrom maxlen read s (x :: xs) ((g :: gs).map e) =
          ((bufferPull (List.zipWith (· + ·) (read (bufferApply maxlen x s).1 (e g)) (bufferGradFrom maxlen read (bufferApply maxlen x s).2 xs (gs.map e)).1)).1,
           (bufferPull (List.zipWith (· + ·) (read (bufferApply maxlen x s).1 (e g)) (bufferGradFrom maxlen read (bufferApply maxlen x s).2 xs (gs.map e)).1)).2 ::
            (bufferGradFrom maxlen read (bufferApply maxlen x s).2 xs (gs.map e)).2) := rfl
      rw [hstep, hcts, i2]
      constructor
      · apply List.ext_getElem
        · simp [bufferPull]
        · intro i h1 h2
          have hi : i < maxlen := by simpa using h2
          simp only [bufferPull, List.length_map, List.length_range, List.length_set]
          rcases i with _ | i
          · rw [List.getElem_append_left (by simp; omega)]
            simp
          · rw [List.getElem_append_right (by simp; omega)]
            simp only [List.getElem_take]
            rw [List.getElem_set_ne (by simp; omega)]
            have hd : i + 1 - (maxlen - (maxlen - 1)) = i := by omega
            simp only [List.length_drop, List.length_set, List.length_map, List.length_range, hd, List.getElem_map, List.getElem_range]
            congr 1
      · rw [List.length_cons, List.range_succ_eq_map]
        refine congrArg₂ List.cons ?_ ?_
        · simp only [bufferPull, look, List.length_map, List.length_range]
          rw [List.getD_eq_getElem _ _ (by simp; omega), List.getElem_map, List.getElem_range, Nat.sub_add_cancel h0]
          simp only [Nat.zero_add]
        · rw [List.map_map]
          refine List.map_congr_left fun t _ => ?_
          simp only [Function.comp, Nat.succ_eq_add_one, List.map_cons]
          congr 1
          refine Finset.sum_congr rfl fun j _ => ?_
          rw [show t + 1 + j = (t + j) + 1 by omega, List.getD_cons_succ]

/-- **C206**, Buffer: the gradient in the input of step `t` is the sum of the weights of its places in the next `maxlen` windows. -/
theorem C206_buffer (maxlen : Nat) (h0 : 0 < maxlen) (fill : Fl K) (xs : List (Fl K)) (ws : List (List K)) (hw : ∀ w ∈ ws, w.length = maxlen)
    (hl : xs.length = ws.length) :
    bufferGrad maxlen fill xs (ws.map (·.map Fl.fin)) = (List.range xs.length).map fun t => Fl.fin (∑ j ∈ Finset.range maxlen,
      (ws.getD (t + j) []).getD (maxlen - 1 - j) 0) := by
  have h := (C206_reads maxlen h0 (fun _ g => g) (fun w : List K => w.map Fl.fin) id xs (bufferInit maxlen fill) ws (by simp [bufferInit]) hl
    (fun d hd => ⟨hw d hd, fun _ _ => rfl⟩)).2
  rw [List.map_id] at h
  exact h

/-- **C206**, Lag: the gradient in the input of step `t` is the weight of the output of step `t + k`, the only one that shows it. -/
theorem C206_lag (k : Nat) (fill : Fl K) (xs : List (Fl K)) (gs : List K) (hl : xs.length = gs.length) :
    lagGrad k fill xs (gs.map Fl.fin) = (List.range xs.length).map fun t => Fl.fin (gs.getD (t + k) 0) := by
  have h := (C206_reads (k + 1) (by omega) lagPull Fl.fin (fun g : K => g :: List.replicate k 0) xs (bufferInit (k + 1) fill) gs (by simp [bufferInit]) hl
    (fun d _ => ⟨by simp, fun b hb => by
      unfold lagPull rowPull
      rw [List.map_const', hb, List.replicate_succ, List.set_cons_zero, List.map_cons, List.map_replicate]⟩)).2
  refine h.trans (List.map_congr_left fun t _ => ?_)
  congr 1
  rw [Finset.sum_range_succ, Finset.sum_eq_zero, zero_add]
  · simp only [List.getD_eq_getElem?_getD, List.getElem?_map]
    cases gs[t + k]? <;> simp
  · intro j hj
    have hj := Finset.mem_range.mp hj
    simp only [List.getD_eq_getElem?_getD, List.getElem?_map]
    cases gs[t + j]? with
    | none => simp
    | some v =>
      obtain ⟨i, hi⟩ : ∃ i, k + 1 - 1 - j = i + 1 := ⟨k - 1 - j, by omega⟩
      rw [hi]
      simp only [Option.map_some, Option.getD_some, List.getElem?_cons_succ, List.getElem?_replicate]
      by_cases hk : i < k <;> simp [hk]

/-- **C206**, Diff: the weight of the step where the input arrives minus the weight of the next one. -/
theorem C206_diff (xs : List (Fl K)) (gs : List K) (hl : xs.length = gs.length) :
    diffGrad xs (gs.map Fl.fin) = (List.range xs.length).map fun t => Fl.fin (gs.getD t 0 - gs.getD (t + 1) 0) := by
  have h := (C206_reads 2 (by omega) diffPull Fl.fin (fun g : K => [-g, g]) xs (bufferInit 2 Fl.nan) gs (by simp [bufferInit]) hl
    (fun d _ => ⟨by simp, fun b hb => by
      obtain ⟨p, q, rfl⟩ := List.length_eq_two.mp hb
      simp [diffPull, rowPull]⟩)).2
  refine h.trans (List.map_congr_left fun t _ => ?_)
  congr 1
  rw [Finset.sum_range_succ, Finset.sum_range_succ, Finset.sum_range_zero, zero_add, sub_eq_add_neg]
  simp only [List.getD_eq_getElem?_getD, List.getElem?_map, Nat.add_zero]
  congr 1
  · cases gs[t]? <;> simp
  · cases gs[t + 1]? <;> simp

/-- **C206**, Flax: with fewer than `2^31` steps the Flax Buffer (circular), Lag and Diff have the gradients of the Haiku ones. -/
theorem C206_flax (maxlen : Nat) (h0 : 0 < maxlen) (h1 : maxlen ≤ 2 ^ 30) (fill : Fl K) (xs : List (Fl K)) (hx : xs.length < 2 ^ 31) :
    (∀ ws : List (List (Fl K)), (∀ w ∈ ws, w.length = maxlen) → flaxBufferGrad maxlen fill xs ws = bufferGrad maxlen fill xs ws) ∧
    (∀ k gs, k + 1 = maxlen → flaxLagGrad k fill xs gs = lagGrad k fill xs gs) ∧
    ∀ gs, flaxDiffGrad xs gs = diffGrad xs gs := by
  have base : ∀ m : Nat, 0 < m → m ≤ 2 ^ 30 → ∀ (C : Type) (P : List (Fl K) → C → List (Fl K)) (f : Fl K) (gs : List C),
      (∀ b, b.length = m → ∀ g ∈ gs, (P b g).length = m) →
      (flaxBufferGradFrom m P (circBuffer m f).init xs gs).2 = (bufferGradFrom m P (bufferInit m f) xs gs).2 := by
    intro m hm hm2 C P f gs hP
    refine (flax_buffer_grad_from m P hm hm2 xs 0 _ (bufferInit m f) gs (fun k hk => ?_) hP (by rfl)
      (by simp [circBuffer]) (by simp [circBuffer, bufferInit])).2.2
    rw [i32_id (by omega) (by omega)]
  refine ⟨fun ws hw => base maxlen h0 h1 _ _ fill ws (fun _ _ g hg => hw g hg), fun k gs hk => ?_, fun gs => ?_⟩
  · subst hk
    exact base (k + 1) h0 h1 _ _ fill gs (fun b hb g _ => by simp [lagPull, rowPull, hb])
  · exact base 2 (by norm_num) (by norm_num) _ _ .nan gs (fun b hb g _ => by simp [diffPull, rowPull, hb])

/-- How many missing values a list starts with. -/
def leadingMissing (xs : List (Fl K)) : Nat := (xs.takeWhile fun x => x.isNan).length

theorem ffill_grad_from (xs : List (Fl K)) : ∀ gs : List K, xs.length = gs.length →
    (ffillGradFrom xs (gs.map Fl.fin)).1 = .fin (gs.take (leadingMissing xs)).sum ∧
    (ffillGradFrom xs (gs.map Fl.fin)).2 = (List.range xs.length).map fun t =>
      if (xs.getD t .nan).isNan then .fin 0 else .fin ((gs.drop t).take (leadingMissing (xs.drop (t + 1)) + 1)).sum := by
  induction xs with
  | nil => intro gs _; cases gs <;> exact ⟨rfl, rfl⟩
  | cons x xs ih =>
    intro gs hl
    cases gs with
    | nil => simp at hl
    | cons g gs =>
      obtain ⟨i1, i2⟩ := ih gs (by simpa using hl)
      have e : ffillGradFrom (x :: xs) ((g :: gs).map Fl.fin) =
          (if x.isNan then Fl.fin g + (ffillGradFrom xs (gs.map Fl.fin)).1 else Fl.fin 0,
           (if x.isNan then Fl.fin 0 else Fl.fin g + (ffillGradFrom xs (gs.map Fl.fin)).1) :: (ffillGradFrom xs (gs.map Fl.fin)).2) := rfl
      rw [e, i1, i2, List.length_cons, List.range_succ_eq_map]
      refine ⟨?_, congrArg₂ List.cons ?_ ?_⟩
      · cases hx : x.isNan
        · simp [leadingMissing, List.takeWhile_cons, hx]
        · simp [leadingMissing, List.takeWhile_cons, hx]
      · cases hx : x.isNan <;> simp [hx]
      · rw [List.map_map]
        refine List.map_congr_left fun t _ => ?_
        simp [Function.comp]

/-- **C206**, Ffill: the gradient in an input that is there is the sum of the weights of the outputs that repeat it, up to the next value; 0 in a missing input. -/
theorem C206_ffill (xs : List (Fl K)) (gs : List K) (hl : xs.length = gs.length) :
    ffillGrad xs (gs.map Fl.fin) = (List.range xs.length).map fun t =>
      if (xs.getD t .nan).isNan then .fin 0 else .fin ((gs.drop t).take (leadingMissing (xs.drop (t + 1)) + 1)).sum :=
  (ffill_grad_from xs gs hl).2

/-- The loss: the weighted sum of the outputs that are numbers. -/
def lossOf (gs : List K) (ys : List (Fl K)) : K := (List.zipWith (fun g y => g * numOf y) gs ys).sum

theorem lossOf_set (gs : List K) : ∀ (ys : List (Fl K)) (t : Nat) (y : Fl K), ys.length = gs.length →
    lossOf gs (ys.set t y) = lossOf gs ys + gs.getD t 0 * (if t < ys.length then numOf y - numOf (ys.getD t .nan) else 0) := by
  induction gs with
  | nil => intro ys t y h; obtain rfl := List.length_eq_zero_iff.mp (by simpa using h); simp [lossOf]
  | cons g gs ih =>
    intro ys t y h
    cases ys with
    | nil => simp at h
    | cons z ys =>
      cases t with
      | zero => simp [lossOf]; ring
      | succ t =>
        have := ih ys t y (by simpa using h)
        simp only [lossOf] at this ⊢
        simp only [List.set_cons_succ, List.zipWith_cons_cons, List.sum_cons, this, List.getD_cons_succ, List.length_cons, Nat.add_lt_add_iff_right]
        ring

/-- What Ffill forwards, weighted. -/
theorem ffill_loss (xs : List (Fl K)) : ∀ (v : Fl K) (gs : List K), xs.length = gs.length →
    lossOf gs ((ffill (K := K)).outsFrom v xs) = numOf v * (gs.take (leadingMissing xs)).sum +
      (List.zipWith (fun x y => numOf x * numOf y) xs (ffillGradFrom xs (gs.map Fl.fin)).2).sum := by
  induction xs with
  | nil => intro v gs h; simp [lossOf, Mealy.outsFrom, leadingMissing]
  | cons x xs ih =>
    intro v gs h
    cases gs with
    | nil => simp at h
    | cons g gs =>
      have hl : xs.length = gs.length := by simpa using h
      have i := ih (if x.isNan then v else x) gs hl
      have i1 := (ffill_grad_from xs gs hl).1
      have e : ffillGradFrom (x :: xs) ((g :: gs).map Fl.fin) =
          (if x.isNan then Fl.fin g + (ffillGradFrom xs (gs.map Fl.fin)).1 else Fl.fin 0,
           (if x.isNan then Fl.fin 0 else Fl.fin g + (ffillGradFrom xs (gs.map Fl.fin)).1) :: (ffillGradFrom xs (gs.map Fl.fin)).2) := rfl
      have eo : (ffill (K := K)).outsFrom v (x :: xs) = (if x.isNan then v else x) :: (ffill (K := K)).outsFrom (if x.isNan then v else x) xs := rfl
      rw [e, eo, i1]
      unfold lossOf at i ⊢
      rw [List.zipWith_cons_cons, List.sum_cons, i, List.zipWith_cons_cons, List.sum_cons]
      cases hx : x.isNan
      · simp [leadingMissing, List.takeWhile_cons, hx, numOf]; ring
      · simp [leadingMissing, List.takeWhile_cons, hx, numOf]; ring

theorem ffillGrad_pattern (xs : List (Fl K)) : ∀ (ys gs : List (Fl K)), ys.map Fl.isNan = xs.map Fl.isNan → ffillGradFrom ys gs = ffillGradFrom xs gs := by
  induction xs with
  | nil => intro ys gs h; obtain rfl := List.map_eq_nil_iff.mp h; rfl
  | cons x xs ih =>
    intro ys gs h
    cases ys with
    | nil => simp at h
    | cons y ys =>
      simp only [List.map_cons, List.cons.injEq] at h
      cases gs with
      | nil => rfl
      | cons g gs => simp only [ffillGradFrom, h.1, ih ys gs h.2]

theorem zip_set (f : Fl K → K) : ∀ (xs G : List (Fl K)) (t : Nat) (y x g : Fl K), xs[t]? = some x → G[t]? = some g →
    (List.zipWith (fun x y => f x * numOf y) (xs.set t y) G).sum = (List.zipWith (fun x y => f x * numOf y) xs G).sum + (f y - f x) * numOf g := by
  intro xs
  induction xs with
  | nil => intro G t y x g h; simp at h
  | cons z xs ih =>
    intro G t y x g h1 h2
    cases G with
    | nil => simp at h2
    | cons w G =>
      cases t with
      | zero =>
        simp only [List.getElem?_cons_zero, Option.some.injEq] at h1 h2
        subst h1; subst h2
        simp only [List.set_cons_zero, List.zipWith_cons_cons, List.sum_cons]
        ring
      | succ t =>
        simp only [List.getElem?_cons_succ] at h1 h2
        simp only [List.set_cons_succ, List.zipWith_cons_cons, List.sum_cons, ih G t y x g h1 h2]
        ring

/-- **C206**, Ffill: it is the derivative of the weighted sum of the outputs, in every input that is there: the loss is affine in it. -/
theorem C206_ffill_true_derivative (xs : List (Fl K)) (gs : List K) (hl : xs.length = gs.length) (t : Nat) (a : K) (ht : xs[t]? = some (.fin a)) :
    ∃ grad : K, (ffillGrad xs (gs.map Fl.fin))[t]? = some (.fin grad) ∧
      ∀ δ : K, lossOf gs ((ffill (K := K)).run (xs.set t (.fin (a + δ)))) = lossOf gs ((ffill (K := K)).run xs) + δ * grad := by
  have hlt : t < xs.length := by
    by_contra h
    rw [List.getElem?_eq_none (by omega)] at ht; simp at ht
  refine ⟨((gs.drop t).take (leadingMissing (xs.drop (t + 1)) + 1)).sum, ?_, ?_⟩
  · rw [C206_ffill xs gs hl, List.getElem?_map, List.getElem?_range hlt, Option.map_some, List.getD_eq_getElem?_getD, ht]
    rfl
  · intro δ
    have hp : (xs.set t (.fin (a + δ))).map Fl.isNan = xs.map Fl.isNan := by
      apply List.ext_getElem?
      intro i
      rw [List.getElem?_map, List.getElem?_map, List.getElem?_set]
      by_cases hi : t = i
      · subst hi; rw [if_pos rfl, if_pos hlt, ht]; rfl
      · rw [if_neg hi]
    have hg : (ffillGradFrom xs (gs.map Fl.fin)).2[t]? = some (.fin ((gs.drop t).take (leadingMissing (xs.drop (t + 1)) + 1)).sum) := by
      rw [(ffill_grad_from xs gs hl).2, List.getElem?_map, List.getElem?_range hlt, Option.map_some, List.getD_eq_getElem?_getD, ht]
      rfl
    have h1 := ffill_loss (xs.set t (.fin (a + δ))) .nan gs (by simpa using hl)
    have h2 := ffill_loss xs .nan gs hl
    rw [ffillGrad_pattern xs _ _ hp, zip_set numOf xs _ t _ _ _ ht hg] at h1
    change lossOf gs ((ffill (K := K)).outsFrom .nan _) = lossOf gs ((ffill (K := K)).outsFrom .nan _) + _
    rw [h1, h2]
    simp only [numOf]
    ring

/-- **C206**, Lag: it is the derivative, in every input. -/
theorem C206_lag_true_derivative (k : Nat) (fill : Fl K) (xs : List (Fl K)) (gs : List K) (hl : xs.length = gs.length) (t : Nat) (a : K)
    (ht : xs[t]? = some (.fin a)) :
    ∃ grad : K, (lagGrad k fill xs (gs.map Fl.fin))[t]? = some (.fin grad) ∧
      ∀ δ : K, lossOf gs (((lag k fill).run (xs.set t (.fin (a + δ)))).map (·.getD .nan)) =
        lossOf gs (((lag k fill).run xs).map (·.getD .nan)) + δ * grad := by
  have hlt : t < xs.length := by
    by_contra h
    rw [List.getElem?_eq_none (by omega)] at ht; simp at ht
  refine ⟨gs.getD (t + k) 0, ?_, fun δ => ?_⟩
  · rw [C206_lag k fill xs gs hl, List.getElem?_map, List.getElem?_range hlt]; rfl
  · have hrun : ((lag k fill).run (xs.set t (.fin (a + δ)))).map (·.getD .nan) =
        (((lag k fill).run xs).map (·.getD .nan)).set (t + k) (.fin (a + δ)) := by
      apply List.ext_getElem?
      intro s
      rw [List.getElem?_map, List.getElem?_set, List.getElem?_map, List.length_map, Mealy.run_length]
      by_cases hs : s < xs.length
      · rw [C03_lag_positions k fill xs s hs, C03_lag_positions k fill _ s (by simpa using hs), List.getElem?_set]
        by_cases hk : k ≤ s
        · by_cases h : t + k = s
          · simp [← h, hlt, show t + k < xs.length by omega]
          · simp [hk, h, show ¬ t = s - k by omega]
        · simp [hk, show ¬ t + k = s by omega]
      · rw [List.getElem?_eq_none (by simp; omega), List.getElem?_eq_none (by simp; omega)]
        by_cases h : t + k = s <;> simp [h, hs]
    rw [hrun, lossOf_set _ _ _ _ (by simp [hl]), List.length_map, Mealy.run_length]
    by_cases hk : t + k < xs.length
    · have e : (((lag k fill).run xs).map (·.getD .nan)).getD (t + k) .nan = .fin a := by
        rw [List.getD_eq_getElem?_getD, List.getElem?_map, C03_lag_positions k fill xs (t + k) hk, if_pos (by omega), Nat.add_sub_cancel, ht]; rfl
      rw [if_pos hk, e]
      simp only [numOf]
      ring
    · rw [if_neg hk, List.getD_eq_default _ _ (by omega)]; ring

/-- The outputs of Diff: NaN, then the differences. -/
theorem diff_outputs (xs : List (Fl K)) (s : Nat) : ((((diff (K := K)).run xs).map (·.getD .nan)))[s]? =
    if s < xs.length then some (if s = 0 then .nan else xs.getD s .nan - xs.getD (s - 1) .nan) else none := by
  rw [List.getElem?_map]
  by_cases hs : s < xs.length
  · rw [if_pos hs]
    rcases s with _ | s
    · cases xs with
      | nil => simp at hs
      | cons x xs => rw [C04_diff_first]; rfl
    · rw [C04_diff_positions xs s hs, List.getD_eq_getElem _ _ hs, Nat.add_sub_cancel, List.getD_eq_getElem _ _ (by omega)]; rfl
  · rw [if_neg hs, List.getElem?_eq_none (by simp; omega)]; rfl

/-- **C206**, Diff: it is the derivative, in every input, when the outputs that are not numbers (the first one, those next to a missing value) have weight 0, as in a
loss that skips them. -/
theorem C206_diff_true_derivative (xs : List (Fl K)) (gs : List K) (hl : xs.length = gs.length)
    (hg : ∀ s, (∀ v, (((diff (K := K)).run xs).map (·.getD .nan)).getD s .nan ≠ .fin v) → gs.getD s 0 = 0) (t : Nat) (a : K) (ht : xs[t]? = some (.fin a)) :
    ∃ grad : K, (diffGrad xs (gs.map Fl.fin))[t]? = some (.fin grad) ∧
      ∀ δ : K, lossOf gs (((diff (K := K)).run (xs.set t (.fin (a + δ)))).map (·.getD .nan)) =
        lossOf gs (((diff (K := K)).run xs).map (·.getD .nan)) + δ * grad := by
  have hlt : t < xs.length := by
    by_contra h
    rw [List.getElem?_eq_none (by omega)] at ht; simp at ht
  have hxt : xs.getD t .nan = .fin a := by rw [List.getD_eq_getElem?_getD, ht]; rfl
  refine ⟨gs.getD t 0 - gs.getD (t + 1) 0, ?_, fun δ => ?_⟩
  · rw [C206_diff xs gs hl, List.getElem?_map, List.getElem?_range hlt]; rfl
  · obtain ⟨o, ho⟩ : ∃ o, o = ((diff (K := K)).run xs).map (·.getD .nan) := ⟨_, rfl⟩
    have hol : o.length = xs.length := by rw [ho]; simp
    have hos : ∀ s, s < xs.length → o.getD s .nan = if s = 0 then .nan else xs.getD s .nan - xs.getD (s - 1) .nan := by
      intro s hs
      rw [List.getD_eq_getElem?_getD, ho, diff_outputs, if_pos hs]; rfl
    have hset : ∀ s, (xs.set t (.fin (a + δ))).getD s .nan = if s = t then .fin (a + δ) else xs.getD s .nan := by
      intro s
      simp only [List.getD_eq_getElem?_getD, List.getElem?_set]
      by_cases h : t = s
      · subst h; simp [hlt]
      · rw [if_neg h, if_neg (fun h' => h h'.symm)]
    have hrun : ((diff (K := K)).run (xs.set t (.fin (a + δ)))).map (·.getD .nan) =
        (o.set t (if t = 0 then .nan else .fin (a + δ) - xs.getD (t - 1) .nan)).set (t + 1) (xs.getD (t + 1) .nan - .fin (a + δ)) := by
      apply List.ext_getElem?
      intro s
      rw [diff_outputs, List.length_set, List.getElem?_set, List.getElem?_set, List.length_set, hol, ho, diff_outputs, hset s, hset (s - 1)]
      by_cases hs : s < xs.length
      · by_cases h1 : t + 1 = s
        · subst h1
          simp [hs]
        · by_cases h2 : t = s
          · subst h2
            by_cases h0 : t = 0
            · simp [h0, h0 ▸ hlt]
            · simp [hlt, h0, show ¬ t - 1 = t by omega]
          · by_cases h0 : s = 0
            · have : ¬ t = 0 := by omega
              simp [h0, this, h0 ▸ hs]
            · simp [hs, h1, h2, show ¬ s = t by omega, show ¬ s - 1 = t by omega]
      · by_cases h1 : t + 1 = s
        · simp [h1, hs]
        · have : ¬ t = s := by omega
          simp [h1, this, hs]
    rw [hrun, ← ho, lossOf_set _ _ _ _ (by simp [hol, hl]), lossOf_set _ _ _ _ (by rw [hol, hl]), List.length_set, hol, if_pos hlt, hos t hlt]
    have hne : (o.set t (if t = 0 then .nan else .fin (a + δ) - xs.getD (t - 1) .nan)).getD (t + 1) .nan = o.getD (t + 1) .nan := by
      simp only [List.getD_eq_getElem?_getD, List.getElem?_set]
      rw [if_neg (by omega)]
    rw [hne]
    have c1 : gs.getD t 0 * (numOf (if t = 0 then (.nan : Fl K) else .fin (a + δ) - xs.getD (t - 1) .nan) -
        numOf (if t = 0 then (.nan : Fl K) else xs.getD t .nan - xs.getD (t - 1) .nan)) = gs.getD t 0 * δ := by
      by_cases hv : ∃ v, o.getD t .nan = .fin v
      · obtain ⟨v, hv⟩ := hv
        rw [hos t hlt, hxt] at hv
        by_cases h0 : t = 0
        · rw [if_pos h0] at hv; simp at hv
        · rw [if_neg h0] at hv
          rw [if_neg h0, if_neg h0, hxt]
          cases hp : xs.getD (t - 1) .nan with
          | fin p => simp only [Fl.fin_sub, numOf]; ring
          | nan => rw [hp] at hv; exact absurd hv (by rintro ⟨⟩)
          | pinf => rw [hp] at hv; exact absurd hv (by rintro ⟨⟩)
          | ninf => rw [hp] at hv; exact absurd hv (by rintro ⟨⟩)
      · rw [hg t (by intro v h; exact hv ⟨v, by rw [ho]; exact h⟩)]; ring
    have c2 : gs.getD (t + 1) 0 * (if t + 1 < xs.length then numOf (xs.getD (t + 1) .nan - Fl.fin (a + δ)) - numOf (o.getD (t + 1) .nan) else 0) =
        - (gs.getD (t + 1) 0 * δ) := by
      by_cases h1 : t + 1 < xs.length
      · rw [if_pos h1]
        by_cases hv : ∃ v, o.getD (t + 1) .nan = .fin v
        · obtain ⟨v, hv⟩ := hv
          rw [hos (t + 1) h1, if_neg (by omega), Nat.add_sub_cancel, hxt] at hv
          rw [hos (t + 1) h1, if_neg (by omega), Nat.add_sub_cancel, hxt]
          cases hp : xs.getD (t + 1) .nan with
          | fin p => simp only [Fl.fin_sub, numOf]; ring
          | nan => rw [hp] at hv; exact absurd hv (by rintro ⟨⟩)
          | pinf => rw [hp] at hv; exact absurd hv (by rintro ⟨⟩)
          | ninf => rw [hp] at hv; exact absurd hv (by rintro ⟨⟩)
        · rw [hg (t + 1) (by intro v h; exact hv ⟨v, by rw [ho]; exact h⟩)]; ring
      · rw [List.getD_eq_default _ _ (by omega)]; ring
    rw [c1, c2]
    ring

/-! Concrete cases: Lag 2, Diff, Ffill, Buffer. -/
example : lagGrad (K := ℚ) 2 .nan [.fin 3, .fin 7, .nan, .fin 5] ([1, 10, 100, 1000].map Fl.fin) = [.fin 100, .fin 1000, .fin 0, .fin 0] := by decide +kernel
example : flaxLagGrad (K := ℚ) 2 .nan [.fin 3, .fin 7, .nan, .fin 5] ([1, 10, 100, 1000].map Fl.fin) = [.fin 100, .fin 1000, .fin 0, .fin 0] := by
  decide +kernel
example : diffGrad (K := ℚ) [.fin 3, .fin 7, .fin 4] ([0, 10, 100].map Fl.fin) = [.fin (-10), .fin (-90), .fin 100] := by decide +kernel
example : ffillGrad (K := ℚ) [.nan, .fin 3, .nan, .fin 5] ([1, 10, 100, 1000].map Fl.fin) = [.fin 0, .fin 110, .fin 0, .fin 1000] := by decide +kernel
example : bufferGrad (K := ℚ) 2 .nan [.fin 3, .fin 7] ([[1, 10], [100, 1000]].map (·.map Fl.fin)) = [.fin 110, .fin 1000] := by decide +kernel

/-- The condition of `C206_diff_true_derivative` is met: the first output is NaN and has weight 0. -/
example : ∃ grad : ℚ, (diffGrad (K := ℚ) [.fin 3, .fin 7, .fin 4] ([0, 10, 100].map Fl.fin))[1]? = some (.fin grad) ∧ grad = -90 := by
  obtain ⟨g, h, -⟩ := C206_diff_true_derivative (K := ℚ) [.fin 3, .fin 7, .fin 4] [0, 10, 100] rfl (by
    intro s
    rcases s with _ | _ | _ | s
    · intro _; rfl
    · intro h; exact absurd (by decide +kernel) (h 4)
    · intro h; exact absurd (by decide +kernel) (h (-3))
    · intro _; rfl) 1 7 rfl
  refine ⟨g, h, ?_⟩
  have e : (diffGrad (K := ℚ) [.fin 3, .fin 7, .fin 4] ([0, 10, 100].map Fl.fin))[1]? = some (.fin (-90)) := by decide +kernel
  rw [h] at e
  simpa using e

end Verif.Props
