import Verif.Model.Newton
import Mathlib.Algebra.Order.Field.Basic
import Mathlib.Algebra.Order.BigOperators.Ring.Finset
import Mathlib.LinearAlgebra.Matrix.NonsingularInverse
import Mathlib.Tactic.Linarith
import Mathlib.Tactic.Ring
import Mathlib.Tactic.FieldSimp
import Mathlib.Tactic.Abel

/-! # Property C51: the online Newton preconditioner -/

namespace Verif.Props
open Model.Newton Matrix
set_option linter.unusedSectionVars false

variable {K : Type} [Field K] [LinearOrder K] [IsStrictOrderedRing K] {n : Nat}

/-- Specification: the regularised sum of outer products `eps * I + Σ g gᵀ` of a gradient history. -/
def gram (eps : K) (gs : List (Fin n → K)) : Matrix (Fin n) (Fin n) K :=
  fun i j => (if i = j then eps else 0) + (gs.map fun g => g i * g j).sum

theorem gram_nil (eps : K) : gram eps ([] : List (Fin n → K)) = eps • (1 : Matrix (Fin n) (Fin n) K) := by
  ext i j
  simp [gram, Matrix.one_apply]

theorem gram_snoc (eps : K) (gs : List (Fin n → K)) (g : Fin n → K) :
    gram eps (gs ++ [g]) = gram eps gs + vecMulVec g g := by
  ext i j
  simp [gram, vecMulVec_apply, add_assoc]

/-- The quadratic form of the Gram matrix is non-negative. -/
theorem gram_nonneg (eps : K) (he : 0 < eps) (gs : List (Fin n → K)) (w : Fin n → K) :
    0 ≤ w ⬝ᵥ (gram eps gs *ᵥ w) := by
  induction gs using List.reverseRecOn with
  | nil =>
    rw [gram_nil, smul_mulVec, one_mulVec, dotProduct_smul, smul_eq_mul]
    apply mul_nonneg he.le
    exact Finset.sum_nonneg fun i _ => mul_self_nonneg _
  | append_singleton gs g ih =>
    rw [gram_snoc, add_mulVec, dotProduct_add]
    apply add_nonneg ih
    rw [vecMulVec_mulVec, dotProduct_smul]
    have h : w ⬝ᵥ g = g ⬝ᵥ w := dotProduct_comm _ _
    rw [h]
    simpa using mul_self_nonneg (g ⬝ᵥ w)

theorem gram_symm (eps : K) (gs : List (Fin n → K)) : (gram eps gs)ᵀ = gram eps gs := by
  ext i j
  simp [gram, transpose_apply, eq_comm, mul_comm]

/-- If `H` is the inverse of `gram`, the Sherman–Morrison denominator is at least 1. -/
theorem den_ge_one (eps : K) (he : 0 < eps) (gs : List (Fin n → K)) (H : Matrix (Fin n) (Fin n) K)
    (h2 : gram eps gs * H = 1) (g : Fin n → K) : 1 ≤ 1 + (g ᵥ* H) ⬝ᵥ g := by
  have hq := gram_nonneg eps he gs (H *ᵥ g)
  rw [mulVec_mulVec, h2, one_mulVec] at hq
  have hcomm : (H *ᵥ g) ⬝ᵥ g = (g ᵥ* H) ⬝ᵥ g := by
    rw [dotProduct_comm, dotProduct_mulVec]
  rw [hcomm] at hq
  linarith

theorem sherman_inverse (A H : Matrix (Fin n) (Fin n) K) (g : Fin n → K) (h1 : H * A = 1)
    (hd : 1 + (g ᵥ* H) ⬝ᵥ g ≠ 0) :
    shermanMorrison H g g * (A + vecMulVec g g) = 1 ∧ (A + vecMulVec g g) * shermanMorrison H g g = 1 := by
  set den := 1 + (g ᵥ* H) ⬝ᵥ g with hden
  have key : vecMulVec g g * H * vecMulVec g g = (den - 1) • vecMulVec g g := by
    rw [vecMulVec_mul, vecMulVec_mul_vecMulVec, hden]
    ext i j
    simp [vecMulVec_apply]
    ring
  have hleft : shermanMorrison H g g * (A + vecMulVec g g) = 1 := by
    unfold shermanMorrison
    simp only [← hden]
    rw [Matrix.mul_add, Matrix.sub_mul, Matrix.sub_mul, h1, smul_mul, smul_mul, Matrix.mul_assoc _ H A, h1, Matrix.mul_one,
      Matrix.mul_assoc H, Matrix.mul_assoc H, key, Matrix.mul_smul, smul_smul]
    have : den⁻¹ * (den - 1) = 1 - den⁻¹ := by field_simp
    rw [this, sub_smul, one_smul]
    abel
  exact ⟨hleft, mul_eq_one_comm.1 hleft⟩

theorem newton_state (eps : K) (he : 0 < eps) (gs : List (Fin n → K)) :
    (scaleByNewton eps).stateAfter gs * gram eps gs = 1 ∧ gram eps gs * (scaleByNewton eps).stateAfter gs = 1 := by
  induction gs using List.reverseRecOn with
  | nil =>
    show hinv0 eps * gram eps [] = 1 ∧ gram eps [] * hinv0 eps = 1
    rw [gram_nil]
    unfold hinv0
    have : eps ≠ 0 := he.ne'
    constructor <;> simp [smul_smul, this]
  | append_singleton gs g ih =>
    rw [Mealy.stateAfter_append_singleton, gram_snoc]
    show shermanMorrison _ g g * _ = 1 ∧ _ * shermanMorrison _ g g = 1
    exact sherman_inverse _ _ g ih.1 (by
      have := den_ge_one eps he gs _ ih.2 g
      intro h
      rw [h] at this
      linarith)

/-- C51: after any sequence of gradients the stored matrix is the (two-sided) inverse of `eps * I + Σ g gᵀ`. -/
theorem C51_newton_inverse (eps : K) (he : 0 < eps) (gs : List (Fin n → K)) :
    (scaleByNewton eps).stateAfter gs * gram eps gs = 1 ∧ gram eps gs * (scaleByNewton eps).stateAfter gs = 1 :=
  newton_state eps he gs

/-- C51: the Sherman–Morrison denominator met at any step is at least 1: no division by a small number. -/
theorem C51_newton_denominator (eps : K) (he : 0 < eps) (gs : List (Fin n → K)) (g : Fin n → K) :
    1 ≤ 1 + (g ᵥ* (scaleByNewton eps).stateAfter gs) ⬝ᵥ g :=
  den_ge_one eps he gs _ (newton_state eps he gs).2 g

/-- C51: the stored matrix stays symmetric. -/
theorem C51_newton_symmetric (eps : K) (he : 0 < eps) (gs : List (Fin n → K)) :
    ((scaleByNewton eps).stateAfter gs)ᵀ = (scaleByNewton eps).stateAfter gs := by
  have h := newton_state eps he gs
  have h3 : ((scaleByNewton eps).stateAfter gs)ᵀ * gram eps gs = 1 := by
    have := congrArg transpose h.2
    rwa [transpose_mul, gram_symm, transpose_one] at this
  calc ((scaleByNewton eps).stateAfter gs)ᵀ
      = ((scaleByNewton eps).stateAfter gs)ᵀ * (gram eps gs * (scaleByNewton eps).stateAfter gs) := by
        rw [h.2, Matrix.mul_one]
    _ = (scaleByNewton eps).stateAfter gs := by rw [← Matrix.mul_assoc, h3, Matrix.one_mul]

/-- C51: the update emitted at step `t` is `-lr` times the solution `u` of `(eps * I + Σ_{s ≤ t} g_s g_sᵀ) u = g_t`
(the current gradient is included in the sum); that solution is unique. -/
theorem C51_newton_update (lr eps : K) (he : 0 < eps) (gs : List (Fin n → K)) (t : Nat) (ht : t < gs.length) :
    ∃ u, ((newton lr eps).run gs)[t]? = some ((-lr) • u) ∧ gram eps (gs.take (t + 1)) *ᵥ u = gs[t] ∧
      ∀ w, gram eps (gs.take (t + 1)) *ᵥ w = gs[t] → w = u := by
  have hs : ∀ l : List (Fin n → K), (newton lr eps).stateAfter l = (scaleByNewton eps).stateAfter l := by
    intro l
    induction l using List.reverseRecOn with
    | nil => rfl
    | append_singleton l g ih =>
      rw [Mealy.stateAfter_append_singleton, Mealy.stateAfter_append_singleton, ih]; rfl
  have hinv := newton_state eps he (gs.take (t + 1))
  rw [← List.take_append_getElem ht, Mealy.stateAfter_append_singleton] at hinv
  rw [Mealy.run, Mealy.outsFrom_getElem?, List.getElem?_eq_getElem ht]
  refine ⟨shermanMorrison ((scaleByNewton eps).stateAfter (gs.take t)) gs[t] gs[t] *ᵥ gs[t], ?_, ?_, ?_⟩
  · have := hs (gs.take t)
    rw [Mealy.stateAfter] at this
    simp only [Option.map_some]
    rw [this]
    rfl
  · rw [← List.take_append_getElem ht, mulVec_mulVec]
    have := hinv.2
    change _ * shermanMorrison _ _ _ = 1 at this
    rw [this, one_mulVec]
  · intro w hw
    rw [← List.take_append_getElem ht] at hw
    have := hinv.1
    change shermanMorrison _ _ _ * _ = 1 at this
    have h2 := congrArg (shermanMorrison ((scaleByNewton eps).stateAfter (gs.take t)) gs[t] gs[t] *ᵥ ·) hw
    simp only [mulVec_mulVec] at h2
    rwa [this, one_mulVec] at h2

/-- C51: Newton's update never points away from the gradient: `g · u ≥ 0` for the preconditioned gradient `u`. -/
theorem C51_newton_descent (eps : K) (he : 0 < eps) (gs : List (Fin n → K)) (t : Nat) (ht : t < gs.length) (u : Fin n → K)
    (hu : ((scaleByNewton eps).run gs)[t]? = some u) : 0 ≤ gs[t] ⬝ᵥ u := by
  obtain ⟨w, hw, hg, _⟩ := C51_newton_update (-1) eps he gs t ht
  have : u = w := by
    have hrun : (newton (-1) eps).run gs = ((scaleByNewton eps).run gs) := by
      apply Mealy.run_eq_of_sim (R := fun a b => a = b)
      · rfl
      · intro a b x hab; subst hab; exact ⟨by simp [newton], rfl⟩
    rw [hrun, hu] at hw
    simpa using hw
  subst this
  have := gram_nonneg eps he (gs.take (t + 1)) u
  rw [hg, dotProduct_comm] at this
  exact this

example : (0 : ℚ) < 1 / 100000 := by norm_num

end Verif.Props
