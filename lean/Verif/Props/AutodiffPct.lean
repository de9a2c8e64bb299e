import Verif.Model.AutodiffPct
import Verif.Props.AutodiffFlax
import Mathlib.Analysis.Calculus.Deriv.Inv
import Mathlib.Analysis.Calculus.Deriv.Add
import Mathlib.Analysis.Calculus.Deriv.Mul

/-! # C201: gradients through PctChange -/

namespace Verif.Props
open Verif Verif.Spec Verif.Model Verif.Model.Autodiff
set_option linter.unusedSectionVars false

section
variable {K : Type} [Field K] [LinearOrder K] [IsStrictOrderedRing K]

theorem add_zero_fl (c : Fl K) : c + Fl.fin 0 = c := by
  cases c <;> first | rfl | (rw [Fl.fin_add]; simp)

/-- The cotangents of `x` and of the previous value, from that of `x / prev - 1`. -/
def pctCotangents (fz : Bool) (x prev g : Fl K) : Fl K × Fl K :=
  let c := if fz && (x.isNan && !prev.isNan) then Fl.fin 0 else g
  (c / prev, -(c * (Fl.fin 1 / (prev * prev)) * x))

theorem pctPull_eq (F : Fns K) (fz : Bool) (x prev g : Fl K) : pctPull F fz x prev g = pctCotangents fz x prev g := by
  unfold pctPull pctTrace pctCotangents
  cases hc : (fz && (x.isNan && !prev.isNan)) <;>
    simp [backward, accumulate, Prim.pull, Prim.eval, look, zero_add_fl]

/-- What the steps `xs` send back to the last value observed before them. -/
def demand (fz : Bool) : Fl K → List (Fl K) → List (Fl K) → Fl K
  | v, x :: xs, g :: gs => (pctCotangents fz x v g).2 + (if x.isNan then demand fz v xs gs else Fl.fin 0)
  | _, _, _ => Fl.fin 0

/-- The gradient of one input. -/
def pctHead (fz : Bool) (v x g : Fl K) (xs gs : List (Fl K)) : Fl K :=
  (pctCotangents fz x v g).1 + (if x.isNan then Fl.fin 0 else demand fz x xs gs)

/-- The gradients of all the inputs. -/
def pctGrads (fz : Bool) : Fl K → List (Fl K) → List (Fl K) → List (Fl K)
  | v, x :: xs, g :: gs => pctHead fz v x g xs gs :: pctGrads fz (if x.isNan then v else x) xs gs
  | _, _, _ => []

theorem pct_grad_from (F : Fns K) (fz : Bool) (xs : List (Fl K)) : ∀ (v : Fl K) (s : BufState (Fl K)) (gs : List (Fl K)) (b0 : Fl K),
    s.buffer = [b0, v] → xs.length = gs.length →
    ∃ c, (pctChangeGradFrom F fz v s xs gs).2.1 = [Fl.fin 0, c] ∧ c + (pctChangeGradFrom F fz v s xs gs).1 = demand fz v xs gs ∧
      (pctChangeGradFrom F fz v s xs gs).2.2 = pctGrads fz v xs gs := by
  induction xs with
  | nil =>
    intro v s gs b0 hs hl
    have : gs = [] := List.length_eq_zero_iff.mp (by simpa using hl.symm)
    subst this
    refine ⟨Fl.fin 0, ?_, ?_, rfl⟩
    · simp [pctChangeGradFrom, hs]
    · simp [pctChangeGradFrom, demand]
  | cons x xs ih =>
    intro v s gs b0 hs hl
    cases gs with
    | nil => simp at hl
    | cons g gs =>
      obtain ⟨p1, p2⟩ := bufferApply_push 2 (by omega) s (by rw [hs]; rfl) (if x.isNan then v else x)
      have p1' : (bufferApply 2 (if x.isNan then v else x) s).1 = [v, if x.isNan then v else x] := by rw [p1, hs]; rfl
      have p2' : (bufferApply 2 (if x.isNan then v else x) s).2.buffer = [v, if x.isNan then v else x] := by rw [p2, hs]; rfl
      obtain ⟨c, i1, i2, i3⟩ := ih (if x.isNan then v else x) (bufferApply 2 (if x.isNan then v else x) s).2 gs v p2' (by simpa using hl)
      simp only [pctChangeGradFrom, pctPull_eq, i1, i3, p1', look, List.getD_cons_zero, List.set_cons_zero, bufferPull, List.length_cons, List.length_nil,
        demand, pctGrads, pctHead]
      refine ⟨(pctCotangents fz x v g).2, ?_, ?_, ?_⟩
      · simp [add_zero_fl]
      · simp only [Nat.zero_add, Nat.reduceAdd, Nat.reduceSub, List.getD_cons_succ, List.getD_cons_zero, i2]
        cases hx : x.isNan <;> simp
      · simp only [Nat.zero_add, Nat.reduceAdd, Nat.reduceSub, List.getD_cons_succ, List.getD_cons_zero, i2]
        cases hx : x.isNan <;> simp

theorem pctChangeGrad_eq (F : Fns K) (fz : Bool) (xs gs : List (Fl K)) (hl : xs.length = gs.length) :
    pctChangeGrad F fz xs gs = pctGrads fz .nan xs gs := by
  obtain ⟨_, _, _, h⟩ := pct_grad_from F fz xs .nan (bufferInit 2 .nan) gs .nan rfl hl
  exact h

theorem pctGrads_at (fz : Bool) (xs : List (Fl K)) : ∀ (hist : List (Fl K)) (gs : List (Fl K)) (t : Nat) (x g : Fl K),
    xs[t]? = some x → gs[t]? = some g →
    (pctGrads fz (lastValid hist) xs gs)[t]? = some (pctHead fz (lastValid (hist ++ xs.take t)) x g (xs.drop (t + 1)) (gs.drop (t + 1))) := by
  induction xs with
  | nil => intro hist gs t x g hx; simp at hx
  | cons y xs ih =>
    intro hist gs t x g hx hg
    cases gs with
    | nil => simp at hg
    | cons k gs =>
      cases t with
      | zero =>
        simp only [List.getElem?_cons_zero, Option.some.injEq] at hx hg
        subst hx; subst hg
        simp [pctGrads]
      | succ t =>
        rw [pctGrads, ← lastValid_snoc, List.getElem?_cons_succ, ih (hist ++ [y]) gs t x g (by simpa using hx) (by simpa using hg)]
        simp

/-- The gradient of the input `t`, in terms of the last value observed before it. -/
theorem pctChangeGrad_at (F : Fns K) (fz : Bool) (xs gs : List (Fl K)) (hl : xs.length = gs.length) (t : Nat) (x g : Fl K) (hx : xs[t]? = some x)
    (hg : gs[t]? = some g) :
    (pctChangeGrad F fz xs gs)[t]? = some (pctHead fz (lastValid (xs.take t)) x g (xs.drop (t + 1)) (gs.drop (t + 1))) := by
  rw [pctChangeGrad_eq F fz xs gs hl]
  exact pctGrads_at fz xs [] gs t x g hx hg

/-- **C201**, what fails, 1: whatever the stream, the weights of the outputs and the options, the gradient of the first input is NaN, and so are
those of the inputs up to the first observed one, this one included: even when the loss ignores the NaN outputs (weight 0). -/
theorem C201_first_input_nan_partial (F : Fns K) (fz : Bool) (xs gs : List (Fl K)) (hl : xs.length = gs.length) (t : Nat) (ht : t < xs.length)
    (hv : ∀ x ∈ xs.take t, x = .nan) : (pctChangeGrad F fz xs gs)[t]? = some .nan := by
  have hlv : lastValid (xs.take t) = .nan := by
    have : valid (xs.take t) = [] := by
      unfold valid
      rw [List.filter_eq_nil_iff]
      intro x hx
      rw [hv x hx]; simp [Fl.isNan]
    unfold lastValid
    rw [this]; rfl
  rw [pctChangeGrad_at F fz xs gs hl t xs[t] (gs[t]'(by omega)) (List.getElem?_eq_getElem ht) (List.getElem?_eq_getElem (by omega)), hlv]
  simp [pctHead, pctCotangents]

theorem demand_missing (fz : Bool) (v g : Fl K) (xs gs : List (Fl K)) : demand fz v (.nan :: xs) (g :: gs) = .nan := by
  simp only [demand, pctCotangents]
  rw [Fl.mul_nan]
  simp [Neg.neg, Fl.neg]

/-- **C201**, what fails, 2: when an observed value is followed by a missing one, its gradient is NaN (`0 * NaN` in the derivative of the quotient), with or
without `fillna_zero`, whatever the weights. -/
theorem C201_before_missing_nan_partial (F : Fns K) (fz : Bool) (xs gs : List (Fl K)) (hl : xs.length = gs.length) (t : Nat) (x : Fl K)
    (hx : xs[t]? = some x) (hx' : x ≠ .nan) (hn : xs[t + 1]? = some .nan) : (pctChangeGrad F fz xs gs)[t]? = some .nan := by
  obtain ⟨h1, _⟩ := List.getElem?_eq_some_iff.mp hn
  have e1 : xs.drop (t + 1) = .nan :: xs.drop (t + 2) := by
    rw [List.getElem?_eq_getElem h1] at hn
    rw [List.drop_eq_getElem_cons h1, Option.some.inj hn]
  have e2 : gs.drop (t + 1) = (gs[t + 1]'(by omega)) :: gs.drop (t + 2) := List.drop_eq_getElem_cons (by omega)
  rw [pctChangeGrad_at F fz xs gs hl t x (gs[t]'(by omega)) hx (List.getElem?_eq_getElem (by omega)), pctHead, e1, e2, demand_missing]
  have : x.isNan = false := by cases x <;> simp_all [Fl.isNan]
  simp [this]

/-- **C201**, missing inputs: the gradient of a missing input is 0 with `fillna_zero`, after an observed non-zero value. -/
theorem C201_missing_gradient (F : Fns K) (xs : List (Fl K)) (gs : List K) (hl : xs.length = gs.length) (t : Nat) (hx : xs[t]? = some .nan)
    (p : K) (hp : lastValid (xs.take t) = .fin p) (h0 : p ≠ 0) :
    (pctChangeGrad F true xs (gs.map Fl.fin))[t]? = some (.fin 0) := by
  obtain ⟨h1, _⟩ := List.getElem?_eq_some_iff.mp hx
  rw [pctChangeGrad_at F true xs _ (by simpa using hl) t .nan (.fin (gs[t]'(by omega))) hx (by simp), hp]
  simp [pctHead, pctCotangents, Fl.isNan, h0]

/-- The gradient where the next value (if any) is observed too. -/
theorem pct_gradient (F : Fns K) (fz : Bool) (xs : List (Fl K)) (gs : List K) (hl : xs.length = gs.length) (t : Nat) (a : K) (hx : xs[t]? = some (.fin a)) (ha : a ≠ 0)
    (p : K) (hp : lastValid (xs.take t) = .fin p) (h0 : p ≠ 0) (hn : t + 1 = xs.length ∨ ∃ b : K, xs[t + 1]? = some (.fin b)) :
    (pctChangeGrad F fz xs (gs.map Fl.fin))[t]? =
      some (.fin (gs.getD t 0 / p - gs.getD (t + 1) 0 * numOf (xs.getD (t + 1) .nan) / (a * a))) := by
  obtain ⟨h1, _⟩ := List.getElem?_eq_some_iff.mp hx
  rw [pctChangeGrad_at F fz xs _ (by simpa using hl) t (.fin a) (.fin (gs[t]'(by omega))) hx (by simp), hp]
  have g1 : gs.getD t 0 = gs[t]'(by omega) := by rw [List.getD_eq_getElem]
  rw [g1]
  rcases hn with hn | ⟨b, hb⟩
  · have e1 : xs.drop (t + 1) = [] := List.drop_eq_nil_of_le (by omega)
    have e2 : gs.getD (t + 1) 0 = 0 := by rw [List.getD_eq_default]; omega
    rw [e1, e2]
    simp [pctHead, pctCotangents, Fl.isNan, h0, demand]
  · obtain ⟨h2, h3⟩ := List.getElem?_eq_some_iff.mp hb
    have e1 : xs.drop (t + 1) = .fin b :: xs.drop (t + 2) := by
      rw [List.drop_eq_getElem_cons h2, h3]
    have e2 : (gs.map Fl.fin).drop (t + 1) = .fin (gs[t + 1]'(by omega)) :: (gs.map Fl.fin).drop (t + 2) := by
      rw [List.drop_eq_getElem_cons (by simp; omega)]; simp
    have e3 : gs.getD (t + 1) 0 = gs[t + 1]'(by omega) := by rw [List.getD_eq_getElem]
    have e4 : xs.getD (t + 1) .nan = .fin b := by rw [List.getD_eq_getElem _ _ h2, h3]
    have haa : a * a ≠ 0 := mul_ne_zero ha ha
    rw [e1, e2, e3, e4]
    simp only [pctHead, pctCotangents, Fl.isNan, demand, numOf, Bool.and_false, Bool.false_and, Bool.false_eq_true, if_false, Fl.fin_mul, Fl.fin_div_of_ne _ h0, Fl.fin_div_of_ne _ haa, Fl.neg_fin, Fl.fin_add]
    congr 2
    field_simp
    ring

end

/-! ## The derivative -/

/-- Output `s` as a number, 0 when it is not one. -/
noncomputable def pctOutput (fz : Bool) (xs : List (Fl ℝ)) (s : Nat) : ℝ := numOf ((((pctChange fz).run xs).getD s none).getD .nan)

/-- The loss: the weighted sum of the outputs that are numbers. -/
noncomputable def pctLoss (fz : Bool) (xs : List (Fl ℝ)) (gs : List ℝ) : ℝ := ((List.range gs.length).map fun s => gs.getD s 0 * pctOutput fz xs s).sum

/-- The reciprocal of a number, 0 for NaN. -/
noncomputable def reciprocal : Fl ℝ → ℝ
  | .fin p => 1 / p
  | _ => 0

/-- The derivative of output `s` with respect to the input `t`, equal to `a`: the reciprocal of the previous observed value for `s = t`, minus
`x_s / a²` when `t` is the last observed value before `s`, 0 otherwise. -/
noncomputable def outputSlope (xs : List (Fl ℝ)) (t : Nat) (a : ℝ) (s : Nat) : ℝ :=
  open Classical in
  if s = t then reciprocal (lastValid (xs.take t))
  else if t < s ∧ ∀ u, t < u → u < s → xs[u]? = some .nan then -(numOf (xs.getD s .nan) / (a * a)) else 0

theorem pctOutput_eq (fz : Bool) (xs : List (Fl ℝ)) (s : Nat) (hs : s < xs.length) :
    pctOutput fz xs s = numOf (pctSpec fz xs[s] (lastValid (xs.take s))) := by
  unfold pctOutput
  rw [List.getD_eq_getElem?_getD, C05_pct_change fz xs s hs]
  rfl

theorem lastValid_mem (h : List (Fl ℝ)) : lastValid h = .nan ∨ lastValid h ∈ h := by
  unfold lastValid
  rcases hl : (valid h).getLast? with _ | v
  · left; rfl
  · right
    have := List.mem_of_getLast? hl
    exact (List.mem_filter.mp this).1

/-- The last observed value once the input `t` is changed. -/
theorem lastValid_append (A B : List (Fl ℝ)) :
    ((∀ x ∈ B, x = .nan) ∧ lastValid (A ++ B) = lastValid A) ∨ ((∃ x ∈ B, x ≠ .nan) ∧ lastValid (A ++ B) = lastValid B) := by
  induction B using List.reverseRecOn with
  | nil => left; simp
  | append_singleton B x ih =>
    rw [← List.append_assoc, lastValid_snoc, lastValid_snoc]
    cases hx : x.isNan with
    | true =>
      have : x = .nan := (Fl.isNan_iff x).mp hx
      subst this
      rcases ih with ⟨h1, h2⟩ | ⟨⟨y, h1, h3⟩, h2⟩
      · left
        refine ⟨fun y hy => ?_, by simpa using h2⟩
        rcases List.mem_append.mp hy with h | h
        · exact h1 y h
        · simpa using h
      · right
        exact ⟨⟨y, List.mem_append_left _ h1, h3⟩, by simpa using h2⟩
    | false =>
      right
      refine ⟨⟨x, by simp, fun h => by subst h; simp [Fl.isNan] at hx⟩, by simp⟩

theorem take_set_split (xs : List (Fl ℝ)) (t s : Nat) (y : Fl ℝ) (hts : t < s) (hs : s ≤ xs.length) :
    (xs.set t y).take s = xs.take t ++ [y] ++ (xs.take s).drop (t + 1) := by
  apply List.ext_getElem?
  intro i
  rw [List.getElem?_take]
  by_cases his : i < s
  · rw [if_pos his]
    rcases lt_trichotomy i t with h | h | h
    · rw [List.getElem?_set_ne (by omega), List.append_assoc, List.getElem?_append_left (by simp; omega), List.getElem?_take, if_pos h]
    · subst h
      rw [List.getElem?_set_self (by omega), List.getElem?_append_left (by simp; omega), List.getElem?_append_right (by simp)]
      have : i - (xs.take i).length = 0 := by rw [List.length_take]; omega
      rw [this]; rfl
    · rw [List.getElem?_set_ne (by omega), List.getElem?_append_right (by simp; omega), List.getElem?_drop, List.getElem?_take, if_pos (by simp; omega)]
      congr 1
      simp; omega
  · rw [if_neg his, List.getElem?_eq_none]
    simp; omega

/-- Each output is differentiable in the input. -/
theorem output_deriv (fz : Bool) (xs : List (Fl ℝ)) (hx : NoInf xs) (t s : Nat) (a : ℝ) (ht : xs[t]? = some (.fin a)) (ha : a ≠ 0)
    (hs : s < xs.length) : HasDerivAt (fun y => pctOutput fz (xs.set t (.fin y)) s) (outputSlope xs t a s) a := by
  obtain ⟨htl, hta⟩ := List.getElem?_eq_some_iff.mp ht
  have hout : ∀ y, pctOutput fz (xs.set t (.fin y)) s =
      numOf (pctSpec fz ((xs.set t (.fin y))[s]'(by simpa using hs)) (lastValid ((xs.set t (.fin y)).take s))) :=
    fun y => pctOutput_eq fz _ s (by simpa using hs)
  simp only [hout]
  unfold outputSlope
  rcases lt_trichotomy s t with h | h | h
  · -- before
    rw [if_neg (by omega), if_neg (by omega)]
    have : ∀ y, numOf (pctSpec fz ((xs.set t (.fin y))[s]'(by simpa using hs)) (lastValid ((xs.set t (.fin y)).take s))) =
        numOf (pctSpec fz xs[s] (lastValid (xs.take s))) := by
      intro y
      rw [List.getElem_set_ne (by omega), List.take_set_of_le (by omega)]
    simp only [this]
    exact hasDerivAt_const a _
  · subst h
    rw [if_pos rfl]
    have : ∀ y, numOf (pctSpec fz ((xs.set s (.fin y))[s]'(by simpa using hs)) (lastValid ((xs.set s (.fin y)).take s))) =
        numOf (Fl.fin y / lastValid (xs.take s) - .fin 1) := by
      intro y
      rw [List.getElem_set_self, List.take_set_of_le (by omega)]
      rfl
    simp only [this]
    have hmem := lastValid_mem (xs.take s)
    generalize lastValid (xs.take s) = prev at *
    cases prev with
    | nan =>
      have : ∀ y : ℝ, numOf (Fl.fin y / Fl.nan - .fin 1) = 0 := by intro y; rw [Fl.div_nan]; rfl
      simp only [this, reciprocal]
      exact hasDerivAt_const a _
    | fin p =>
      by_cases hp : p = 0
      · subst hp
        have : ∀ y : ℝ, numOf (Fl.fin y / Fl.fin 0 - .fin 1) = 0 := by
          intro y
          rw [Fl.fin_div, if_pos rfl]
          unfold Fl.infSign
          split
          · rfl
          · split <;> rfl
        simp only [this, reciprocal, div_zero]
        exact hasDerivAt_const a _
      · have : ∀ y : ℝ, numOf (Fl.fin y / Fl.fin p - .fin 1) = y / p - 1 := by
          intro y; rw [Fl.fin_div_of_ne _ hp, Fl.fin_sub]; rfl
        simp only [this, reciprocal]
        exact ((hasDerivAt_id a).div_const p).sub_const 1
    | pinf =>
      rcases hmem with h | h
      · simp at h
      · exact absurd rfl (hx _ (List.mem_of_mem_take h)).1
    | ninf =>
      rcases hmem with h | h
      · simp at h
      · exact absurd rfl (hx _ (List.mem_of_mem_take h)).2
  · -- after
    rw [if_neg (by omega)]
    have hsplit := fun y : ℝ => take_set_split xs t s (.fin y) h (by omega)
    have hget : ∀ y : ℝ, (xs.set t (.fin y))[s]'(by simpa using hs) = xs[s] := fun y => List.getElem_set_ne (by omega) _
    have hcond : (∀ u, t < u → u < s → xs[u]? = some .nan) ↔ ∀ x ∈ (xs.take s).drop (t + 1), x = .nan := by
      constructor
      · intro hu x hxm
        obtain ⟨i, hi⟩ := List.mem_iff_getElem?.mp hxm
        rw [List.getElem?_drop, List.getElem?_take] at hi
        split at hi
        · have := hu (t + 1 + i) (by omega) (by omega)
          rw [this] at hi
          exact (Option.some.inj hi).symm
        · simp at hi
      · intro hu u h1 h2
        have hlt : u < xs.length := by omega
        rw [List.getElem?_eq_getElem hlt]
        congr 1
        refine hu _ (List.mem_iff_getElem?.mpr ⟨u - (t + 1), ?_⟩)
        rw [List.getElem?_drop, List.getElem?_take, show t + 1 + (u - (t + 1)) = u by omega, if_pos h2, List.getElem?_eq_getElem hlt]
    by_cases hall : ∀ x ∈ (xs.take s).drop (t + 1), x = .nan
    · rw [if_pos ⟨h, hcond.mpr hall⟩]
      have hlv : ∀ y : ℝ, lastValid ((xs.set t (.fin y)).take s) = .fin y := by
        intro y
        rw [hsplit]
        rcases lastValid_append (xs.take t ++ [.fin y]) ((xs.take s).drop (t + 1)) with ⟨_, h2⟩ | ⟨⟨x, h1, h2⟩, _⟩
        · rw [h2, lastValid_snoc]; simp [Fl.isNan]
        · exact absurd (hall x h1) h2
      simp only [hget, hlv]
      rw [List.getD_eq_getElem _ _ hs]
      have hni := hx _ (List.getElem_mem hs)
      generalize xs[s] = b at *
      cases b with
      | nan =>
        have : ∀ y : ℝ, numOf (pctSpec fz .nan (.fin y)) = 0 := by intro y; cases fz <;> simp [pctSpec, numOf]
        rw [funext this]
        simp only [numOf, zero_div, neg_zero]
        exact hasDerivAt_const a _
      | fin b =>
        have hev : (fun y : ℝ => numOf (pctSpec fz (.fin b) (.fin y))) =ᶠ[nhds a] fun y => b * y⁻¹ - 1 := by
          filter_upwards [isOpen_ne.mem_nhds ha] with y hy
          simp only [pctSpec]
          rw [Fl.fin_div_of_ne _ hy, Fl.fin_sub]
          simp [numOf, div_eq_mul_inv]
        have hd := (((hasDerivAt_inv ha).const_mul b).sub_const 1).congr_of_eventuallyEq hev
        exact hd.congr_deriv (show b * -(a ^ 2)⁻¹ = -(b / (a * a)) by field_simp)
      | pinf => exact absurd rfl hni.1
      | ninf => exact absurd rfl hni.2
    · rw [if_neg (fun hc => hall (hcond.mp hc.2))]
      have hlv : ∀ y : ℝ, lastValid ((xs.set t (.fin y)).take s) = lastValid ((xs.take s).drop (t + 1)) := by
        intro y
        rw [hsplit]
        rcases lastValid_append (xs.take t ++ [.fin y]) ((xs.take s).drop (t + 1)) with ⟨h1, _⟩ | ⟨_, h2⟩
        · exact absurd h1 hall
        · exact h2
      simp only [hget, hlv]
      exact hasDerivAt_const a _

/-- **C201**: the loss is differentiable in every observed non-zero input, whatever the missing values, and here is its derivative. -/
theorem C201_loss_differentiable (fz : Bool) (xs : List (Fl ℝ)) (hx : NoInf xs) (gs : List ℝ) (hl : xs.length = gs.length) (t : Nat) (a : ℝ)
    (ht : xs[t]? = some (.fin a)) (ha : a ≠ 0) :
    HasDerivAt (fun y => pctLoss fz (xs.set t (.fin y)) gs) (((List.range gs.length).map fun s => gs.getD s 0 * outputSlope xs t a s).sum) a := by
  unfold pctLoss
  have key : ∀ R : List Nat, (∀ s ∈ R, s < xs.length) →
      HasDerivAt (fun y => (R.map fun s => gs.getD s 0 * pctOutput fz (xs.set t (.fin y)) s).sum) ((R.map fun s => gs.getD s 0 * outputSlope xs t a s).sum) a := by
    intro R
    induction R with
    | nil => intro _; exact hasDerivAt_const a _
    | cons s R ih =>
      intro hR
      simp only [List.map_cons, List.sum_cons]
      exact ((output_deriv fz xs hx t s a ht ha (hR s List.mem_cons_self)).const_mul _).fun_add (ih fun u hu => hR u (List.mem_cons_of_mem _ hu))
  exact key _ fun s hs => by rw [hl]; exact List.mem_range.mp hs

/-- **C201**, what holds: for an observed input that follows an observed one (with or without missing values in between) and is followed by an observed one or
ends the stream, what `jax.grad` returns is the derivative of the loss. -/
theorem C201_true_derivative_partial (F : Fns ℝ) (fz : Bool) (xs : List (Fl ℝ)) (hx : NoInf xs) (gs : List ℝ) (hl : xs.length = gs.length) (t : Nat) (a : ℝ)
    (ht : xs[t]? = some (.fin a)) (ha : a ≠ 0) (p : ℝ) (hp : lastValid (xs.take t) = .fin p) (h0 : p ≠ 0)
    (hn : t + 1 = xs.length ∨ ∃ b : ℝ, xs[t + 1]? = some (.fin b)) :
    ∃ grad : ℝ, (pctChangeGrad F fz xs (gs.map Fl.fin))[t]? = some (.fin grad) ∧
      HasDerivAt (fun y => pctLoss fz (xs.set t (.fin y)) gs) grad a := by
  refine ⟨_, pct_gradient F fz xs gs hl t a ht ha p hp h0 hn, ?_⟩
  convert C201_loss_differentiable fz xs hx gs hl t a ht ha using 1
  obtain ⟨htl, _⟩ := List.getElem?_eq_some_iff.mp ht
  -- only the steps t and t + 1 contribute
  have hterm : ∀ s ∈ List.range gs.length, gs.getD s 0 * outputSlope xs t a s =
      (if s = t then gs.getD t 0 / p else 0) + (if s = t + 1 then -(gs.getD (t + 1) 0 * numOf (xs.getD (t + 1) .nan) / (a * a)) else 0) := by
    intro s hs
    have hs' : s < xs.length := by rw [hl]; exact List.mem_range.mp hs
    unfold outputSlope
    by_cases h1 : s = t
    · subst h1
      rw [if_pos rfl, if_pos rfl, if_neg (by omega), hp, reciprocal]
      ring
    · rw [if_neg h1, if_neg h1]
      by_cases h2 : s = t + 1
      · subst h2
        rw [if_pos ⟨by omega, fun u h3 h4 => by omega⟩, if_pos rfl]
        ring
      · rw [if_neg h2, if_neg]
        · ring
        · rintro ⟨h3, h4⟩
          have h5 := h4 (t + 1) (by omega) (by omega)
          rcases hn with h | ⟨b, hb⟩
          · omega
          · rw [hb] at h5; simp at h5
  rw [List.map_congr_left hterm, List.sum_map_add]
  have hone : ∀ (n k : Nat) (c : ℝ), ((List.range n).map fun s => if s = k then c else 0).sum = if k < n then c else 0 := by
    intro n k c
    induction n with
    | zero => simp
    | succ n ih =>
      rw [List.range_succ, List.map_append, List.sum_append, ih]
      simp only [List.map_cons, List.map_nil, List.sum_cons, List.sum_nil, add_zero]
      rcases lt_trichotomy n k with h | h | h
      · rw [if_neg (by omega), if_neg (by omega), if_neg (by omega)]; ring
      · subst h; simp
      · rw [if_pos h, if_neg (by omega), if_pos (by omega)]; ring
  rw [hone, hone, if_pos (by omega)]
  by_cases h : t + 1 < gs.length
  · rw [if_pos h]; ring
  · rw [if_neg h, List.getD_eq_default (l := gs) (n := t + 1) _ (by omega)]
    simp

/-- Five prices, the last two weights on a gap: input 0 has NaN (nothing before), input 1 a number (its neighbours are observed), input 2 is NaN (followed by a
missing value), the missing input 3 has 0, input 4 a number. -/
example : pctChangeGrad (K := ℚ) ⟨fun _ => 1, id⟩ true [.fin 2, .fin 4, .fin 5, .nan, .fin 8] ([0, 1, 1, 1, 1].map Fl.fin) =
    [.nan, .fin (1 / 2 - 5 / 16), .nan, .fin 0, .fin (1 / 5)] := by
  decide +kernel

example (F : Fns ℝ) : ∃ grad : ℝ, (pctChangeGrad F true [.fin 2, .fin 4, .fin 5, .nan] (([0, 1, 1, 1] : List ℝ).map Fl.fin))[1]? = some (.fin grad) ∧
    HasDerivAt (fun y => pctLoss true ([.fin 2, .fin 4, .fin 5, .nan].set 1 (.fin y)) [0, 1, 1, 1]) grad 4 :=
  C201_true_derivative_partial F true _ (by intro x hx; simp at hx; rcases hx with h | h | h | h <;> subst h <;> simp) [0, 1, 1, 1] rfl 1 4 rfl (by norm_num)
    2 rfl (by norm_num) (Or.inr ⟨5, rfl⟩)

end Verif.Props
