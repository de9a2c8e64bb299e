import Verif.Props.AutodiffMean
import Mathlib.Data.List.Rotate
import Mathlib.Data.Nat.ModEq

/-! # C200: gradients through the Flax RollingMean -/

namespace Verif.Props
open Verif Verif.Spec Verif.Model Verif.Model.Autodiff
set_option linter.unusedSectionVars false
variable {K : Type} [Field K] [LinearOrder K]

/-- The additions of a scatter, where the positions are distinct. -/
theorem scatter_look (L : List (Nat × Fl K)) :
    ∀ acc : List (Fl K), (L.map (·.1)).Nodup → (∀ p ∈ L, p.1 < acc.length) →
      (L.foldl (fun acc p => acc.set p.1 (look acc p.1 + p.2)) acc).length = acc.length ∧
      (∀ j, j ∉ L.map (·.1) → look (L.foldl (fun acc p => acc.set p.1 (look acc p.1 + p.2)) acc) j = look acc j) ∧
      ∀ p ∈ L, look (L.foldl (fun acc p => acc.set p.1 (look acc p.1 + p.2)) acc) p.1 = look acc p.1 + p.2 := by
  induction L with
  | nil => intro acc _ _; simp
  | cons q L ih =>
    intro acc hn hb
    rw [List.map_cons, List.nodup_cons] at hn
    obtain ⟨i1, i2, i3⟩ := ih (acc.set q.1 (look acc q.1 + q.2)) hn.2
      (fun p hp => by rw [List.length_set]; exact hb p (List.mem_cons_of_mem _ hp))
    have hq := hb q List.mem_cons_self
    rw [List.foldl_cons]
    refine ⟨by rw [i1, List.length_set], fun j hj => ?_, fun p hp => ?_⟩
    · rw [List.map_cons, List.mem_cons, not_or] at hj
      rw [i2 j hj.2]
      simp only [look, List.getD_eq_getElem?_getD]
      rw [List.getElem?_set_ne (fun h => hj.1 h.symm)]
    · rcases List.mem_cons.mp hp with h | h
      · subst h
        rw [i2 p.1 hn.1]
        simp only [look, List.getD_eq_getElem?_getD]
        rw [List.getElem?_set_self hq]
        rfl
      · rw [i3 p h]
        have : q.1 ≠ p.1 := fun he => hn.1 (he ▸ List.mem_map_of_mem h)
        simp only [look, List.getD_eq_getElem?_getD]
        rw [List.getElem?_set_ne this]

variable [IsStrictOrderedRing K]

theorem zero_add_fl (c : Fl K) : Fl.fin 0 + c = c := by
  cases c <;> first | rfl | (rw [Fl.fin_add]; simp)

theorem gatherPull_rotate (m p : Nat) (hm : 0 < m) (cts : List (Fl K)) (hc : cts.length = m) :
    (gatherPull m ((List.range m).map fun i => (i + p) % m) cts).length = m ∧
      (gatherPull m ((List.range m).map fun i => (i + p) % m) cts).rotate p = cts := by
  have hfst : (List.zip ((List.range m).map fun i => (i + p) % m) cts).map (·.1) = (List.range m).map fun i => (i + p) % m := by
    rw [List.map_fst_zip]
    simp [hc]
  have hnd : ((List.zip ((List.range m).map fun i => (i + p) % m) cts).map (·.1)).Nodup := by
    rw [hfst]
    refine List.Nodup.map_on (fun a ha b hb h => ?_) List.nodup_range
    have h' : Nat.ModEq m (a + p) (b + p) := h
    exact Nat.ModEq.eq_of_lt_of_lt (Nat.ModEq.add_right_cancel' p h') (List.mem_range.mp ha) (List.mem_range.mp hb)
  have hbound : ∀ q ∈ List.zip ((List.range m).map fun i => (i + p) % m) cts, q.1 < (List.replicate m (Fl.fin (0 : K))).length := by
    intro q hq
    have := (List.of_mem_zip hq).1
    obtain ⟨i, _, hi⟩ := List.mem_map.mp this
    rw [List.length_replicate, ← hi]
    exact Nat.mod_lt _ hm
  obtain ⟨i1, _, i3⟩ := scatter_look _ _ hnd hbound
  have hlen : (gatherPull m ((List.range m).map fun i => (i + p) % m) cts).length = m := by
    unfold gatherPull; rw [i1, List.length_replicate]
  refine ⟨hlen, ?_⟩
  apply List.ext_getElem
  · rw [List.length_rotate, hlen, hc]
  · intro i h1 h2
    have hi : i < m := by rw [← hc]; exact h2
    rw [List.getElem_rotate]
    have hmem : ((i + p) % m, cts[i]) ∈ List.zip ((List.range m).map fun i => (i + p) % m) cts := by
      rw [List.mem_iff_getElem]
      exact ⟨i, by simp [hc, hi], by simp⟩
    have h3 := i3 _ hmem
    have hlt : (i + p) % m < m := Nat.mod_lt _ hm
    simp only [hlen]
    have h4 : look (gatherPull m ((List.range m).map fun i => (i + p) % m) cts) ((i + p) % m) = cts[i] := by
      unfold gatherPull
      rw [h3]
      simp only [look]
      rw [List.getD_eq_getElem _ _ (by simpa using hlt), List.getElem_replicate, zero_add_fl]
    rw [look, List.getD_eq_getElem _ _ (by rw [hlen]; exact hlt)] at h4
    exact h4

theorem zipWith_rotate (a b : List (Fl K)) (p : Nat) (h : a.length = b.length) :
    (List.zipWith (· + ·) a b).rotate p = List.zipWith (· + ·) (a.rotate p) (b.rotate p) := by
  apply List.ext_getElem
  · simp [h]
  · intro i h1 h2
    simp [List.getElem_rotate, h]

/-- The write position does not matter for the gradient: unrolled from the same logical buffer, the two modules have the same backward pass. -/
theorem flax_grad_from (m minPeriods : Nat) (hm : 0 < m) (hm2 : m ≤ 2 ^ 30) (xs : List (Fl K)) :
    ∀ (w : Nat) (s : CircState (Fl K)) (s' : BufState (Fl K)) (gs : List (Fl K)),
      (∀ k : Nat, k ≤ w + xs.length → (i32 (k : Int)) % (m : Int) = (k : Int) % (m : Int)) →
      s.writeIdx = i32 (w : Int) → s.buffer.length = m → s'.buffer = s.buffer.rotate w →
      (flaxRollingMeanGradFrom m minPeriods s xs gs).1.length = m ∧
      (flaxRollingMeanGradFrom m minPeriods s xs gs).1.rotate w = (rollingMeanGradFrom m minPeriods s' xs gs).1 ∧
      (flaxRollingMeanGradFrom m minPeriods s xs gs).2 = (rollingMeanGradFrom m minPeriods s' xs gs).2 := by
  have stop : ∀ (w : Nat) (s : CircState (Fl K)) (s' : BufState (Fl K)), s.buffer.length = m → s'.buffer = s.buffer.rotate w →
      (s.buffer.map fun _ => Fl.fin (0 : K)).length = m ∧
      (s.buffer.map fun _ => Fl.fin (0 : K)).rotate w = s'.buffer.map fun _ => Fl.fin (0 : K) := by
    intro w s s' hl hb
    refine ⟨by simp [hl], ?_⟩
    rw [hb, List.map_rotate]
  induction xs with
  | nil =>
    intro w s s' gs hw hi hl hb
    obtain ⟨h1, h2⟩ := stop w s s' hl hb
    exact ⟨h1, h2, rfl⟩
  | cons x xs ih =>
    intro w s s' gs hw hi hl hb
    cases gs with
    | nil =>
      obtain ⟨h1, h2⟩ := stop w s s' hl hb
      exact ⟨h1, h2, rfl⟩
    | cons g gs =>
      have hl' : s'.buffer.length = m := by rw [hb, List.length_rotate, hl]
      obtain ⟨p1, p2⟩ := bufferApply_push m hm s' hl' x
      have hpos : w % m < m := Nat.mod_lt _ hm
      have ew : (s.writeIdx % (m : Int)).toNat = w % m := by
        rw [hi, hw w (by omega)]; exact emod_toNat _ _
      have ei : i32 (s.writeIdx + 1) = i32 ((w + 1 : Nat) : Int) := by
        rw [hi, i32_succ]; rfl
      have est : i32 (s.writeIdx + 1) % (m : Int) = (((w + 1) % m : Nat) : Int) := by
        rw [ei, hw (w + 1) (by simp)]; simp
      -- the new buffers
      have hU : (circStep m s x).2.buffer = s.buffer.set (w % m) x := by
        simp only [circStep, ew]
      have hUi : (circStep m s x).2.writeIdx = i32 ((w + 1 : Nat) : Int) := by
        simp only [circStep, ei]
      have hrot : (s.buffer.set (w % m) x).rotate (w + 1) = s'.buffer.drop 1 ++ [x] := by
        have hr := rotate_set_succ s.buffer (w % m) (by omega) x
        rw [hb, ← List.rotate_mod s.buffer w, hl, ← hr, ← List.rotate_mod, ← List.rotate_mod (s.buffer.set _ x) (w % m + 1)]
        simp only [List.length_set, hl]
        congr 1
        simp [Nat.add_mod]
      have hord : (circStep m s x).1.1 = s'.buffer.drop 1 ++ [x] := by
        have ho := ordered_eq_rotate m hm hm2 (s.buffer.set (w % m) x) (by simp [hl]) (i32 (s.writeIdx + 1))
        have : (circStep m s x).1.1 = ((List.range m).filterMap fun (i : Nat) =>
            (s.buffer.set (w % m) x)[((i32 ((i : Int) + i32 (s.writeIdx + 1) % (m : Int))) % (m : Int)).toNat]?) := by
          simp only [circStep, ew]
        rw [this, ho, est, Int.toNat_natCast, ← hrot, ← List.rotate_mod (s.buffer.set _ x) (w + 1)]
        simp [hl]
      obtain ⟨j1, j2, j3⟩ := ih (w + 1) (circStep m s x).2 (bufferApply m x s').2 gs
        (fun k hk => hw k (by simp at hk ⊢; omega)) hUi (by rw [hU]; simp [hl]) (by rw [p2, hU, hrot])
      -- the positions read
      have hidx : ((List.range m).map fun (i : Nat) => ((i32 ((i : Int) + i32 (s.writeIdx + 1) % (m : Int))) % (m : Int)).toNat) =
          (List.range m).map fun i => (i + (w + 1)) % m := by
        refine List.map_congr_left fun i hi' => ?_
        have hi'' := List.mem_range.mp hi'
        have hp1 : (w + 1) % m < m := Nat.mod_lt _ hm
        rw [est, i32_id (by omega) (by omega), ← Int.natCast_add, emod_toNat, Nat.add_mod_mod]
      have hmp : (meanPull minPeriods (circStep m s x).1.1 g).length = m := by
        rw [hord]; unfold meanPull; simp [hl']; omega
      obtain ⟨g1, g2⟩ := gatherPull_rotate m (w + 1) hm (meanPull minPeriods (circStep m s x).1.1 g) hmp
      -- the cotangents of the updated buffer
      obtain ⟨U, hUdef⟩ : ∃ U, U = List.zipWith (· + ·) (gatherPull m ((List.range m).map fun i => (i + (w + 1)) % m)
        (meanPull minPeriods (circStep m s x).1.1 g)) (flaxRollingMeanGradFrom m minPeriods (circStep m s x).2 xs gs).1 := ⟨_, rfl⟩
      have hUl : U.length = m := by rw [hUdef]; simp [g1, j1]
      have hUr : U.rotate (w + 1) = List.zipWith (· + ·) (meanPull minPeriods (bufferApply m x s').1 g)
          (rollingMeanGradFrom m minPeriods (bufferApply m x s').2 xs gs).1 := by
        rw [hUdef, zipWith_rotate _ _ _ (by rw [g1, j1]), g2, j2, hord, p1]
      have e1 : flaxRollingMeanGradFrom m minPeriods s (x :: xs) (g :: gs) =
          (U.set (w % m) (Fl.fin 0), look U (w % m) :: (flaxRollingMeanGradFrom m minPeriods (circStep m s x).2 xs gs).2) := by
        simp only [flaxRollingMeanGradFrom, circPull, ew, hidx, ← hUdef]
      have e2 : rollingMeanGradFrom m minPeriods s' (x :: xs) (g :: gs) =
          ((bufferPull (U.rotate (w + 1))).1, (bufferPull (U.rotate (w + 1))).2 ::
            (rollingMeanGradFrom m minPeriods (bufferApply m x s').2 xs gs).2) := by
        rw [hUr]; rfl
      rw [e1, e2, j3]
      have hlast : look (U.rotate (w + 1)) ((U.rotate (w + 1)).length - 1) = look U (w % m) := by
        simp only [look, List.length_rotate, hUl]
        rw [List.getD_eq_getElem _ _ (by simp [hUl]; omega), List.getD_eq_getElem _ _ (by omega), List.getElem_rotate]
        congr 1
        rw [hUl, show m - 1 + (w + 1) = w + m by omega, Nat.add_mod_right]
      refine ⟨by simp [hUl], ?_, by simp only [bufferPull, hlast]⟩
      show (U.set (w % m) (Fl.fin 0)).rotate w = _
      apply List.ext_getElem
      · simp [bufferPull, hUl]
      · intro i h1 h2
        have him : i < m := by simpa [hUl] using h1
        rw [List.getElem_rotate]
        simp only [bufferPull, List.length_set, List.length_rotate, hUl]
        rcases i with _ | i
        · rw [List.getElem_append_left (by simp [hUl]; omega)]
          simp
        · rw [List.getElem_append_right (by simp [hUl]; omega)]
          simp only [List.getElem_take]
          have hne : (i + 1 + w) % m ≠ w % m := by
            intro he
            have h3 : Nat.ModEq m (i + 1 + w) (0 + w) := by rw [Nat.zero_add]; exact he
            have h4 := Nat.ModEq.eq_of_lt_of_lt (Nat.ModEq.add_right_cancel' w h3) him hm
            omega
          have hd : i + 1 - (m - (m - 1)) = i := by omega
          simp only [List.length_drop, List.length_set, List.length_rotate, hUl, hd]
          rw [List.getElem_set_ne (by omega), List.getElem_set_ne (by omega), List.getElem_rotate]
          congr 1
          rw [hUl, show i + 1 + w = i + (w + 1) by omega]

/-- **C200**: with fewer than `2^31` steps, what `jax.grad` returns through the unrolled Flax RollingMean (circular buffer, gather of the ordered window)
is what it returns through the Haiku one (shifted buffer), for every stream and every output cotangents, missing and infinite values included. -/
theorem C200_flax_gradient (horizon minPeriods : Nat) (h0 : 0 < horizon) (h1 : horizon ≤ 2 ^ 30) (xs gs : List (Fl K)) (hx : xs.length < 2 ^ 31) :
    flaxRollingMeanGrad horizon minPeriods xs gs = rollingMeanGrad horizon minPeriods xs gs := by
  refine (flax_grad_from horizon minPeriods h0 h1 xs 0 _ (bufferInit horizon Fl.nan) gs (fun k hk => ?_) (by rfl)
    (by simp [circBuffer]) (by simp [circBuffer, bufferInit])).2.2
  rw [i32_id (by omega) (by omega)]

/-- **C200** for ever: with a horizon that is a power of two, on streams of every length. -/
theorem C200_flax_gradient_pow2 (k minPeriods : Nat) (hk : k ≤ 30) (xs gs : List (Fl K)) :
    flaxRollingMeanGrad (2 ^ k) minPeriods xs gs = rollingMeanGrad (2 ^ k) minPeriods xs gs := by
  refine (flax_grad_from (2 ^ k) minPeriods (Nat.two_pow_pos k) (Nat.pow_le_pow_right (by omega) hk) xs 0 _ (bufferInit (2 ^ k) Fl.nan) gs
    (fun n _ => i32_emod _ _ (Nat.pow_dvd_pow 2 (by omega))) (by rfl) (by simp [circBuffer]) (by simp [circBuffer, bufferInit])).2.2

/-- **C200**: so the gradient through the Flax module is the derivative of its outputs. -/
theorem C200_flax_true_derivative (horizon minPeriods : Nat) (h0 : 0 < horizon) (h1 : horizon ≤ 2 ^ 30) (xs : List (Fl K)) (hx : NoInf xs)
    (hn : xs.length < 2 ^ 31) (gs : List K) (hl : xs.length = gs.length) (t : Nat) (a : K) (ht : xs[t]? = some (.fin a)) :
    ∃ grad : K, (flaxRollingMeanGrad horizon minPeriods xs (gs.map Fl.fin))[t]? = some (.fin grad) ∧
      ∀ δ : K, ((List.range gs.length).map fun s =>
          gs.getD s 0 * numOf (((flaxRollingMean horizon minPeriods).run (xs.set t (.fin (a + δ)))).getD s .nan)).sum =
        ((List.range gs.length).map fun s => gs.getD s 0 * numOf (((flaxRollingMean horizon minPeriods).run xs).getD s .nan)).sum + δ * grad := by
  obtain ⟨grad, e1, e2⟩ := C198_true_derivative horizon minPeriods h0 xs hx gs hl t a ht
  refine ⟨grad, by rw [C200_flax_gradient horizon minPeriods h0 h1 _ _ hn]; exact e1, fun δ => ?_⟩
  rw [C07_flax_rolling_mean horizon minPeriods h0 h1 _ (by simpa using hn), C07_flax_rolling_mean horizon minPeriods h0 h1 _ hn]
  exact e2 δ

/-- Window 3 over 5 inputs: the write position wraps; input 1 (7) is read at steps 1, 2 and 3. -/
example : flaxRollingMeanGrad (K := ℚ) 3 1 [.fin 3, .fin 7, .nan, .fin 5, .fin 1] ([1, 10, 100, 1000, 10000].map Fl.fin) =
    [.fin 56, .fin 555, .fin 0, .fin 5500, .fin 5000] := by
  decide +kernel

example : ∃ grad : ℚ, (flaxRollingMeanGrad (K := ℚ) 3 1 [.fin 3, .fin 7, .nan, .fin 5] (([1, 1, 1, 1] : List ℚ).map Fl.fin))[1]? = some (.fin grad) ∧
    ∀ δ : ℚ, ((List.range 4).map fun s => ([1, 1, 1, 1] : List ℚ).getD s 0 * numOf (((flaxRollingMean (K := ℚ) 3 1).run
        ([.fin 3, .fin 7, .nan, .fin 5].set 1 (.fin (7 + δ)))).getD s .nan)).sum =
      ((List.range 4).map fun s => ([1, 1, 1, 1] : List ℚ).getD s 0 * numOf (((flaxRollingMean (K := ℚ) 3 1).run
        [.fin 3, .fin 7, .nan, .fin 5]).getD s .nan)).sum + δ * grad :=
  C200_flax_true_derivative (K := ℚ) 3 1 (by norm_num) (by norm_num) _
    (by intro x hx; simp at hx; rcases hx with h | h | h | h <;> subst h <;> simp) (by norm_num) [1, 1, 1, 1] rfl 1 7 rfl

end Verif.Props
