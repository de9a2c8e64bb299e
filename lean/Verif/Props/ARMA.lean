import Verif.Model.ARMA
import Verif.Props.Windows

/-! # Properties C24–C26: ARMA filters and SNARIMAX -/

set_option linter.unusedSectionVars false

namespace Verif.Props
open Model Spec
variable {K : Type} [Field K] [LinearOrder K]

theorem window_succ_drop {α : Type} (n : Nat) (fill : α) (h : List α) :
    (window (n + 1) fill h).drop 1 = window n fill h := by
  apply List.ext_getElem?
  intro i
  rw [List.getElem?_drop]
  by_cases hi : i < n
  · rw [window_ago _ _ _ _ (by omega), window_ago _ _ _ _ hi]
    congr 2; omega
  · rw [List.getElem?_eq_none (by simp; omega), List.getElem?_eq_none (by simp; omega)]

theorem window_snoc_dropLast {α : Type} (n : Nat) (fill : α) (h : List α) (x : α) :
    (window (n + 1) fill (h ++ [x])).dropLast = window n fill h := by
  rw [window_snoc _ (by omega), List.dropLast_concat, window_succ_drop]

/-! ## C24 -/

theorem arma_state (alpha beta : List K) (xs : List (Fl K)) :
    let s := (arma alpha beta).stateAfter xs
    s.eps = (buffer (beta.length + 1) (Fl.fin 0)).stateAfter xs ∧
    s.yBuf = (buffer alpha.length (Fl.fin 0)).stateAfter ((arma alpha beta).run xs) ∧
    s.y = window alpha.length (Fl.fin 0) ((arma alpha beta).run xs) := by
  induction xs using List.reverseRecOn with
  | nil => exact ⟨rfl, rfl, (window_nil _ _).symm⟩
  | append_singleton xs x ih =>
    obtain ⟨h1, h2, h3⟩ := ih
    simp only [Mealy.stateAfter_append_singleton, Mealy.run_append_singleton]
    generalize (arma alpha beta).run xs = ys at *
    generalize (arma alpha beta).stateAfter xs = s at *
    refine ⟨by simp [arma, armaStep, h1], by simp [arma, armaStep, h2], ?_⟩
    simp only [arma, armaStep, h2, buffer_stateAfter]
    simp only [buffer, bufferApply_window]

/-- C24: the ARMA recurrence in IEEE arithmetic, for every stream and every pair of coefficient vectors: output `t`
is `alpha · (last p outputs, oldest first) + beta · (last q innovations before t, oldest first) + eps[t]`, NaN and
infinities replaced by 0, values before the start being 0. -/
theorem C24_arma_recurrence (alpha beta : List K) (xs : List (Fl K)) (t : Nat) (ht : t < xs.length) :
    let ys := (arma alpha beta).run xs
    ys[t]? = some (Fl.nanToNum (Fl.fin 0) (Fl.fin 0) (Fl.fin 0)
      (dot alpha (window alpha.length (Fl.fin 0) (ys.take t)) +
        dot beta (window beta.length (Fl.fin 0) (xs.take t)) + xs[t])) := by
  intro ys
  obtain ⟨h1, _, h3⟩ := arma_state alpha beta (xs.take t)
  have : ys[t]? = some ((arma alpha beta).step ((arma alpha beta).stateAfter (xs.take t)) xs[t]).1 := by
    simp only [ys, Mealy.run, Mealy.outsFrom_getElem?, List.getElem?_eq_getElem ht]
    rfl
  rw [this, Mealy.run_take]
  generalize (arma alpha beta).run (xs.take t) = zs at *
  generalize (arma alpha beta).stateAfter (xs.take t) = s at *
  simp only [arma, armaStep, h1, h3, buffer_stateAfter, fill0]
  simp only [buffer, bufferApply_window, window_snoc_dropLast]

theorem dot_fin (a y : List K) : dot a (y.map Fl.fin) = Fl.fin (List.zipWith (· * ·) a y).sum := by
  unfold dot
  induction a generalizing y with
  | nil => rfl
  | cons a as ih =>
    cases y with
    | nil => rfl
    | cons y ys => simp [ih]

theorem window_map {α β : Type} (f : α → β) (n : Nat) (fill : α) (h : List α) :
    window n (f fill) (h.map f) = (window n fill h).map f := by
  simp [window]

theorem zipWith_window_sum (a : List K) (h : List K) :
    (List.zipWith (· * ·) a (window a.length 0 h)).sum =
      ((List.range a.length).map fun (i : Nat) => a.getD (a.length - 1 - i) 0 * ago i 0 h).sum := by
  have e : List.zipWith (· * ·) a (window a.length 0 h) =
      (List.range a.length).map fun (i : Nat) => a.getD i 0 * ago (a.length - 1 - i) 0 h := by
    apply List.ext_getElem?
    intro i
    rw [List.getElem?_zipWith, List.getElem?_map]
    by_cases hi : i < a.length
    · rw [window_ago _ _ _ _ hi, List.getElem?_range hi, List.getElem?_eq_getElem hi]
      simp [List.getD_eq_getElem?_getD, List.getElem?_eq_getElem hi]
    · have h1 : a[i]? = none := List.getElem?_eq_none (by omega)
      have h2 : (List.range a.length)[i]? = none := List.getElem?_eq_none (by simp; omega)
      rw [h1, h2]; simp
  rw [e, ← List.sum_reverse, ← List.map_reverse]
  have hr : (List.range a.length).reverse = (List.range a.length).map fun (i : Nat) => a.length - 1 - i := by
    apply List.ext_getElem?
    intro i
    by_cases hi : i < a.length
    · rw [List.getElem?_reverse (by simpa using hi), List.getElem?_map, List.getElem?_range hi]
      simp only [List.length_range]
      rw [List.getElem?_range (by omega)]
      rfl
    · rw [List.getElem?_eq_none (by simp; omega), List.getElem?_eq_none (by simp; omega)]
  rw [hr, List.map_map]
  congr 1
  apply List.map_congr_left
  intro i hi
  have hi := List.mem_range.mp hi
  simp only [Function.comp]
  congr 2
  omega

/-- C24: on finite innovations the outputs are finite and satisfy
`y[t] = eps[t] + Σ_{i<p} alpha[p-1-i]·y[t-1-i] + Σ_{j<q} beta[q-1-j]·eps[t-1-j]`, with zeros before the start: the
*last* coefficient multiplies the most recent value. -/
theorem C24_arma_finite (alpha beta : List K) (es : List K) :
    ∃ ys : List K, (arma alpha beta).run (es.map Fl.fin) = ys.map Fl.fin ∧ ys.length = es.length ∧
      ∀ t (ht : t < es.length), ys[t]? = some (es[t] +
        ((List.range alpha.length).map fun (i : Nat) =>
          alpha.getD (alpha.length - 1 - i) 0 * ago i 0 (ys.take t)).sum +
        ((List.range beta.length).map fun (j : Nat) =>
          beta.getD (beta.length - 1 - j) 0 * ago j 0 (es.take t)).sum) := by
  have hfin : ∀ es : List K, ∃ ys : List K, (arma alpha beta).run (es.map Fl.fin) = ys.map Fl.fin := by
    intro es
    have hall : ∀ o ∈ (arma alpha beta).run (es.map Fl.fin), ∃ k, o = Fl.fin k := by
      intro o ho
      obtain ⟨t, ht, hto⟩ := List.mem_iff_getElem.mp ho
      have := C24_arma_recurrence alpha beta (es.map Fl.fin) t (by simpa using ht)
      simp only at this
      rw [List.getElem?_eq_getElem ht, hto] at this
      rw [Option.some.injEq] at this
      rw [this]
      generalize dot alpha _ + dot beta _ + _ = v
      cases v <;> exact ⟨_, rfl⟩
    generalize (arma alpha beta).run (es.map Fl.fin) = l at hall
    clear es
    induction l with
    | nil => exact ⟨[], rfl⟩
    | cons o l ih =>
      obtain ⟨k, rfl⟩ := hall o (by simp)
      obtain ⟨ys, rfl⟩ := ih (fun o ho => hall o (by simp [ho]))
      exact ⟨k :: ys, rfl⟩
  obtain ⟨ys, hy⟩ := hfin es
  have hlen : ys.length = es.length := by
    have := congrArg List.length hy; simpa using this.symm
  refine ⟨ys, hy, hlen, fun t ht => ?_⟩
  have h := C24_arma_recurrence alpha beta (es.map Fl.fin) t (by simpa using ht)
  simp only [hy, List.getElem_map, ← List.map_take, List.getElem?_map] at h
  rw [window_map, window_map, dot_fin, dot_fin, zipWith_window_sum, zipWith_window_sum] at h
  simp only [Fl.fin_add, Fl.nanToNum_fin] at h
  cases hyt : ys[t]? with
  | none => rw [hyt] at h; simp at h
  | some y =>
    rw [hyt] at h
    simp only [Option.map_some, Option.some.injEq, Fl.fin.injEq] at h
    rw [h]
    congr 1
    ring

/-- C24: the outputs are finite on every stream, even with NaN or infinite innovations. -/
theorem C24_arma_outputs_finite (alpha beta : List K) (xs : List (Fl K)) :
    ∀ y ∈ (arma alpha beta).run xs, ∃ k, y = Fl.fin k := by
  intro y hy
  obtain ⟨t, ht, hty⟩ := List.mem_iff_getElem.mp hy
  have := C24_arma_recurrence alpha beta xs t (by simpa using ht)
  simp only at this
  rw [List.getElem?_eq_getElem ht, hty, Option.some.injEq] at this
  rw [this]
  generalize dot alpha _ + dot beta _ + _ = v
  cases v <;> exact ⟨_, rfl⟩

example : (arma (K := ℚ) [1, 2] [3]).run [.fin 1, .fin 0, .nan, .fin 0] =
    [.fin 1, .fin 5, .fin 0, .fin 0] := by decide +kernel

/-! ## C25 -/

/-- The values pushed into the AR buffer of the Flax module: a zero before each output. -/
def interleave0 (ys : List (Fl K)) : List (Fl K) := ys.flatMap fun y => [Fl.fin 0, y]

theorem interleave0_snoc (ys : List (Fl K)) (y : Fl K) :
    interleave0 (ys ++ [y]) = interleave0 ys ++ [Fl.fin 0] ++ [y] := by simp [interleave0]

theorem interleave0_length (ys : List (Fl K)) : (interleave0 ys).length = 2 * ys.length := by
  induction ys with
  | nil => rfl
  | cons y ys ih =>
    have : interleave0 (y :: ys) = Fl.fin 0 :: y :: interleave0 ys := rfl
    rw [this]; simp [ih]; omega

theorem add_fin_zero (x : Fl K) : x + Fl.fin 0 = x := by
  rw [Fl.add_comm', Fl.fin_zero_add]

theorem dot_nil (l : List (Fl K)) : dot ([] : List K) l = Fl.fin 0 := rfl

theorem flaxArma_state (alpha beta : List K) (ha : alpha.length ≤ 2 ^ 30) (hb : beta.length ≤ 2 ^ 30)
    (xs : List (Fl K)) (hx : 2 * xs.length < 2 ^ 31) :
    ∃ raw : List (Fl K), raw.length = xs.length ∧
      (0 < alpha.length → ((flaxArma alpha beta).stateAfter xs).1 =
        (circBuffer alpha.length (Fl.fin 0)).stateAfter (interleave0 raw)) ∧
      (0 < beta.length → ((flaxArma alpha beta).stateAfter xs).2 =
        (circBuffer beta.length (Fl.fin 0)).stateAfter xs) ∧
      (flaxArma alpha beta).run xs = raw.map fill0 ∧
      ∀ t (ht : t < xs.length), raw[t]? = some (xs[t] +
        dot alpha (window alpha.length (Fl.fin 0) (interleave0 (raw.take t) ++ [Fl.fin 0])) +
        dot beta (window beta.length (Fl.fin 0) (xs.take (t + 1)))) := by
  induction xs using List.reverseRecOn with
  | nil => exact ⟨[], rfl, fun _ => rfl, fun _ => rfl, rfl, fun t ht => by simp at ht⟩
  | append_singleton xs x ih =>
    simp only [List.length_append, List.length_singleton] at hx
    obtain ⟨raw, hl, h1, h2, h3, h4⟩ := ih (by omega)
    set v := x + dot alpha (window alpha.length (Fl.fin 0) (interleave0 raw ++ [Fl.fin 0])) +
      dot beta (window beta.length (Fl.fin 0) (xs ++ [x])) with hv
    have hstep : let r := (flaxArma alpha beta).step ((flaxArma alpha beta).stateAfter xs) x
        r.1 = fill0 v ∧
        (0 < alpha.length → r.2.1 = (circBuffer alpha.length (Fl.fin 0)).stateAfter (interleave0 (raw ++ [v]))) ∧
        (0 < beta.length → r.2.2 = (circBuffer beta.length (Fl.fin 0)).stateAfter (xs ++ [x])) := by
      generalize (flaxArma alpha beta).stateAfter xs = s at *
      have ea : ∀ (h0 : 0 < alpha.length), (circBuffer alpha.length (Fl.fin 0)).step s.1 (Fl.fin 0) =
          ((window alpha.length (Fl.fin 0) (interleave0 raw ++ [Fl.fin 0]),
            ((min ((interleave0 raw).length + 1) alpha.length : Nat) : Int),
              (((interleave0 raw).length + 1 : Nat) : Int)),
            (circBuffer alpha.length (Fl.fin 0)).stateAfter (interleave0 raw ++ [Fl.fin 0])) := by
        intro h0
        rw [h1 h0, Mealy.stateAfter_append_singleton]
        exact Prod.ext (circ_step_out _ h0 ha _ _ _ (by rw [interleave0_length]; omega)) rfl
      have eb : ∀ (h0 : 0 < beta.length), (circBuffer beta.length (Fl.fin 0)).step s.2 x =
          ((window beta.length (Fl.fin 0) (xs ++ [x]), ((min (xs.length + 1) beta.length : Nat) : Int),
            ((xs.length + 1 : Nat) : Int)),
            (circBuffer beta.length (Fl.fin 0)).stateAfter (xs ++ [x])) := by
        intro h0
        rw [h2 h0, Mealy.stateAfter_append_singleton]
        exact Prod.ext (circ_step_out _ h0 hb _ _ _ (by omega)) rfl
      simp only [flaxArma, flaxArmaStep]
      rw [interleave0_snoc, Mealy.stateAfter_append_singleton]
      by_cases hA : 0 < alpha.length
      · simp only [hA, if_true, ea hA]
        by_cases hB : 0 < beta.length
        · simp only [hB, if_true, eb hB]
          exact ⟨rfl, fun _ => rfl, by simp⟩
        · have : beta = [] := List.length_eq_zero_iff.mp (by omega)
          subst this
          simp only [List.length_nil, lt_irrefl, if_false]
          have hv' : v = x + dot alpha (window alpha.length (Fl.fin 0) (interleave0 raw ++ [Fl.fin 0])) := by
            rw [hv, dot_nil, add_fin_zero]
          rw [hv']
          exact ⟨rfl, fun _ => rfl, by simp⟩
      · have : alpha = [] := List.length_eq_zero_iff.mp (by omega)
        subst this
        simp only [List.length_nil, lt_irrefl, if_false]
        have hv0 : v = x + dot beta (window beta.length (Fl.fin 0) (xs ++ [x])) := by
          rw [hv, dot_nil, add_fin_zero]
        by_cases hB : 0 < beta.length
        · simp only [hB, if_true, eb hB]
          rw [hv0]
          exact ⟨rfl, by simp, by simp⟩
        · have : beta = [] := List.length_eq_zero_iff.mp (by omega)
          subst this
          simp only [List.length_nil, lt_irrefl, if_false]
          rw [hv0, dot_nil, add_fin_zero]
          exact ⟨rfl, by simp, by simp⟩
    obtain ⟨k1, k2, k3⟩ := hstep
    refine ⟨raw ++ [v], by simp [hl], ?_, ?_, ?_, ?_⟩
    · intro h0; rw [Mealy.stateAfter_append_singleton]; exact k2 h0
    · intro h0; rw [Mealy.stateAfter_append_singleton]; exact k3 h0
    · rw [Mealy.run_append_singleton, h3, k1]; simp
    · intro t ht
      simp only [List.length_append, List.length_singleton] at ht
      by_cases hlt : t < xs.length
      · rw [List.getElem?_append_left (by omega), h4 t hlt, List.getElem_append_left hlt,
          List.take_append_of_le_length (by omega), List.take_append_of_le_length (by omega)]
      · have : t = xs.length := by omega
        subst this
        have e1 : (raw ++ [v])[xs.length]? = some v := by rw [← hl]; exact List.getElem?_concat_length
        have e2 : (raw ++ [v]).take xs.length = raw := by rw [← hl]; exact List.take_left
        have e3 : (xs ++ [x]).take (xs.length + 1) = xs ++ [x] := List.take_of_length_le (by simp)
        rw [e1, e2, e3, List.getElem_concat_length, hv]
        rfl

/-- C25: what the Flax module computes instead of its documentation: the AR coefficients are applied to the last `p`
entries of `0, y0, 0, y1, …, y[t-1], 0` and the MA coefficients to a window that already contains `eps[t]`. -/
theorem C25_flax_arma_actual_partial (alpha beta : List K) (ha : alpha.length ≤ 2 ^ 30) (hb : beta.length ≤ 2 ^ 30)
    (xs : List (Fl K)) (hx : 2 * xs.length < 2 ^ 31) :
    ∃ raw : List (Fl K), raw.length = xs.length ∧ (flaxArma alpha beta).run xs = raw.map fill0 ∧
      ∀ t (ht : t < xs.length), raw[t]? = some (xs[t] +
        dot alpha (window alpha.length (Fl.fin 0) (interleave0 (raw.take t) ++ [Fl.fin 0])) +
        dot beta (window beta.length (Fl.fin 0) (xs.take (t + 1)))) := by
  obtain ⟨raw, h1, _, _, h2, h3⟩ := flaxArma_state alpha beta ha hb xs hx
  exact ⟨raw, h1, h2, h3⟩

/-- C25, the documented recurrence is false: an AR(1) Flax module returns its input, whatever its coefficient. -/
theorem C25_flax_arma_ar1_is_identity (a : K) (es : List K) (hx : 2 * es.length < 2 ^ 31) :
    (flaxArma [a] []).run (es.map Fl.fin) = es.map Fl.fin := by
  obtain ⟨raw, h1, h2, h3⟩ := C25_flax_arma_actual_partial [a] [] (by simp) (by simp) (es.map Fl.fin)
    (by simpa using hx)
  rw [h2]
  apply List.ext_getElem?
  intro t
  rw [List.getElem?_map, List.getElem?_map]
  by_cases ht : t < es.length
  · rw [h3 t (by simpa using ht), List.getElem?_eq_getElem ht]
    have : window 1 (Fl.fin (0:K)) (interleave0 (raw.take t) ++ [Fl.fin 0]) = [Fl.fin 0] := by
      rw [window_snoc 1 (by omega)]
      have : (window 1 (Fl.fin (0:K)) (interleave0 (raw.take t))).drop 1 = [] :=
        List.drop_eq_nil_of_le (by simp)
      rw [this]; rfl
    simp only [List.length_singleton, this, dot]
    simp [fill0]
  · simp at h1
    rw [List.getElem?_eq_none (by omega), List.getElem?_eq_none (by omega)]
    rfl

/-- C25: so on the impulse `1, 0` the documented second output `a·1 + 0` is not returned, for any `a ≠ 0`; the Haiku
module does return it. -/
theorem C25_flax_arma_differs (a : K) (h : a ≠ 0) :
    (flaxArma [a] []).run [.fin 1, .fin 0] ≠ [.fin 1, .fin a] ∧
    (arma [a] []).run [.fin 1, .fin 0] = [.fin 1, .fin a] := by
  constructor
  · have := C25_flax_arma_ar1_is_identity a [1, 0] (by simp)
    simp only [List.map_cons, List.map_nil] at this
    rw [this]
    simp [Ne.symm h]
  · simp [arma, armaStep, Mealy.run, dot, buffer, bufferApply, bufferInit, fill0, List.replicate]

/-! ## C26 -/

theorem snarimax_state {R : Type} (p q : Nat) (reg : Mealy R (List (Fl K)) (Fl K))
    (is : List (Fl K × Option (List (Fl K)))) :
    let s := (snarimax p q reg).stateAfter is
    let preds := (snarimax p q reg).run is
    let errs := List.zipWith (fun (i : Fl K × Option (List (Fl K))) yp => i.1 - yp) is preds
    s.yTrues = (buffer (p + 1) Fl.nan).stateAfter (is.map (·.1)) ∧
    s.errLag = (buffer (q + 1) Fl.nan).stateAfter errs ∧
    s.errp.map fill0 = (window q Fl.nan errs).map fill0 := by
  induction is using List.reverseRecOn with
  | nil =>
    refine ⟨rfl, rfl, ?_⟩
    simp [Mealy.stateAfter, snarimax, window, fill0]
  | append_singleton is i ih =>
    obtain ⟨h1, h2, h3⟩ := ih
    simp only [Mealy.stateAfter_append_singleton, Mealy.run_append_singleton]
    have hlen : ((snarimax p q reg).run is).length = is.length := by simp
    generalize (snarimax p q reg).run is = preds at *
    generalize (snarimax p q reg).stateAfter is = s at *
    rw [List.zipWith_append hlen.symm]
    simp only [List.zipWith_cons_cons, List.zipWith_nil_left, List.map_append, List.map_cons, List.map_nil,
      Mealy.stateAfter_append_singleton, ← h1, ← h2]
    refine ⟨rfl, rfl, ?_⟩
    simp only [snarimax, snarimaxStep, h2, buffer_stateAfter]
    simp only [buffer, bufferApply_window, window_succ_drop]

/-- prediction errors. -/
def snErrs (is : List (Fl K × Option (List (Fl K)))) (preds : List (Fl K)) : List (Fl K) :=
  List.zipWith (fun (i : Fl K × Option (List (Fl K))) yp => i.1 - yp) is preds

/-- The feature vector of step `t`: the exogenous variables, the last `q` prediction errors strictly before `t` (oldest
first), the last `p` targets up to *and including* `t`; NaN, infinities and missing values replaced by 0. -/
def snFeatures (p q : Nat) (is : List (Fl K × Option (List (Fl K)))) (preds : List (Fl K)) (t : Nat) : List (Fl K) :=
  (((is[t]?.bind (·.2)).getD []) ++ window q Fl.nan ((snErrs is preds).take t) ++
      window p Fl.nan ((is.map (·.1)).take (t + 1))).map fill0

theorem snarimax_features_aux {R : Type} (p q : Nat) (reg : Mealy R (List (Fl K)) (Fl K))
    (is : List (Fl K × Option (List (Fl K)))) :
    let preds := (snarimax p q reg).run is
    preds = reg.run ((List.range is.length).map (snFeatures p q is preds)) ∧
    ((snarimax p q reg).stateAfter is).reg =
      reg.stateAfter ((List.range is.length).map (snFeatures p q is preds)) := by
  induction is using List.reverseRecOn with
  | nil => exact ⟨rfl, rfl⟩
  | append_singleton is i ih =>
    obtain ⟨h1, h2⟩ := ih
    obtain ⟨s1, _, s3⟩ := snarimax_state p q reg is
    simp only [Mealy.stateAfter_append_singleton, Mealy.run_append_singleton, List.length_append,
      List.length_singleton, List.range_succ, List.map_append, List.map_cons, List.map_nil]
    have hlen : ((snarimax p q reg).run is).length = is.length := by simp
    generalize ho : ((snarimax p q reg).step ((snarimax p q reg).stateAfter is) i).1 = o
    have hstab : (List.range is.length).map (snFeatures p q (is ++ [i]) ((snarimax p q reg).run is ++ [o])) =
        (List.range is.length).map (snFeatures p q is ((snarimax p q reg).run is)) := by
      apply List.map_congr_left
      intro t ht
      have ht := List.mem_range.mp ht
      have e : (is ++ [i]).map (·.1) = is.map (·.1) ++ [i.1] := by simp
      simp only [snFeatures, snErrs]
      rw [e, List.getElem?_append_left ht, List.zipWith_append hlen.symm,
        List.take_append_of_le_length (by simp; omega),
        List.take_append_of_le_length (by simp; omega)]
    have hlast : snFeatures p q (is ++ [i]) ((snarimax p q reg).run is ++ [o]) is.length =
        (i.2.getD [] ++ ((snarimax p q reg).stateAfter is).errp ++
          window p Fl.nan (is.map (·.1) ++ [i.1])).map fill0 := by
      simp only [snFeatures, snErrs, List.map_append, s3]
      rw [List.getElem?_concat_length, List.zipWith_append hlen.symm, List.take_left' (by simp),
        List.take_of_length_le (by simp)]
      rfl
    rw [hstab, ← h1, ← h2, hlast, ← ho]
    generalize (snarimax p q reg).stateAfter is = s at *
    have : (snarimax p q reg).step s i = (let r := reg.step s.reg ((i.2.getD [] ++ s.errp ++
        window p Fl.nan (is.map (·.1) ++ [i.1])).map fill0);
        (r.1, ((snarimax p q reg).step s i).2)) ∧ ((snarimax p q reg).step s i).2.reg =
          (reg.step s.reg ((i.2.getD [] ++ s.errp ++ window p Fl.nan (is.map (·.1) ++ [i.1])).map fill0)).2 := by
      simp only [snarimax, snarimaxStep, s1, buffer_stateAfter]
      simp only [buffer, bufferApply_window, window_succ_drop]
      simp
    exact ⟨by rw [this.1], this.2⟩

/-- C26: for every stream, orders `p`, `q` and regressor module, the predictions are the regressor's outputs on the
stream of feature vectors; the MA features are the `q` latest prediction errors strictly before `t`, but the AR features
contain the current target. -/
theorem C26_snarimax_features {R : Type} (p q : Nat) (reg : Mealy R (List (Fl K)) (Fl K))
    (is : List (Fl K × Option (List (Fl K)))) :
    let preds := (snarimax p q reg).run is
    preds = reg.run ((List.range is.length).map (snFeatures p q is preds)) :=
  (snarimax_features_aux p q reg is).1

/-- C26, the part that holds: with `p = 0` the prediction at `t` does not depend on the target at `t` (nor later). -/
theorem C26_snarimax_p0_no_lookahead_partial {R : Type} (q : Nat) (reg : Mealy R (List (Fl K)) (Fl K))
    (past : List (Fl K × Option (List (Fl K)))) (X : Option (List (Fl K))) (y y' : Fl K)
    (fut fut' : List (Fl K × Option (List (Fl K)))) :
    ((snarimax 0 q reg).run (past ++ [(y, X)] ++ fut))[past.length]? =
      ((snarimax 0 q reg).run (past ++ [(y', X)] ++ fut'))[past.length]? := by
  simp only [Mealy.run, Mealy.outsFrom_getElem?]
  simp only [List.append_assoc, List.take_left, List.singleton_append]
  rw [List.getElem?_append_right (le_refl _), List.getElem?_append_right (le_refl _), ← Mealy.stateAfter]
  simp only [Nat.sub_self, List.getElem?_cons_zero, Option.map_some]
  obtain ⟨s1, _, _⟩ := snarimax_state 0 q reg past
  generalize (snarimax 0 q reg).stateAfter past = s at *
  simp only [snarimax, snarimaxStep, s1, buffer_stateAfter]
  simp only [buffer, bufferApply_window, window_succ_drop]
  have w0 : ∀ h : List (Fl K), window 0 Fl.nan h = [] := fun h =>
    List.eq_nil_of_length_eq_zero (by simp)
  rw [w0, w0]

/-- C26, look-ahead: for every `p ≥ 1` there is a regressor (reading its last feature) with which the module "predicts"
every finite target exactly, before it could be known. -/
theorem C26_snarimax_lookahead (p q : Nat) (hp : 0 < p) (ys : List K) :
    let reg : Mealy Unit (List (Fl K)) (Fl K) := ⟨(), fun _ X => (X.getLast?.getD Fl.nan, ())⟩
    (snarimax p q reg).run (ys.map fun y => (Fl.fin y, none)) = ys.map Fl.fin := by
  intro reg
  apply List.ext_getElem?
  intro t
  rw [List.getElem?_map, Mealy.run, Mealy.outsFrom_getElem?, ← Mealy.stateAfter, List.getElem?_map]
  cases hy : ys[t]? with
  | none => rfl
  | some y =>
    simp only [Option.map_some, Option.some.injEq]
    obtain ⟨s1, _, _⟩ := snarimax_state p q reg ((ys.map fun y => (Fl.fin y, none)).take t)
    generalize (snarimax p q reg).stateAfter _ = s at *
    simp only [snarimax, snarimaxStep, s1, buffer_stateAfter]
    simp only [buffer, bufferApply_window, window_succ_drop]
    rw [window_snoc p hp]
    simp [reg, fill0]

/-- C26: unsupported orders are rejected at construction, and only those. -/
theorem C26_snarimax_orders (d sp sd sq : Nat) :
    snarimaxNew d sp sd sq = .ok () ↔ d = 0 ∧ sp = 0 ∧ sd = 0 ∧ sq = 0 := by
  unfold snarimaxNew
  split <;> simp <;> omega

/-- What the regressor of the Flax SNARIMAX receives at call `t` of the history `is`: the `lags_x` latest `x` (the current one
included, zeros before the start), then, if a target was given, the `lags_y` latest values of `y - x` (the current one
included, calls without a target not counted), then `x`. -/
def flaxSnFeatures (lagsX lagsY : Nat) (is : List (Fl K × Option (Fl K))) (t : Nat) : List (Fl K) :=
  window lagsX (Fl.fin 0) ((is.take (t + 1)).map (·.1)) ++
  (match is[t]? with
    | some (_, some _) => window lagsY (Fl.fin 0) ((is.take (t + 1)).filterMap fun i => i.2.map fun y => y - i.1)
    | _ => []) ++
  (is[t]?.map (·.1)).toList

theorem flaxSnarimax_state {R : Type} (lagsX lagsY : Nat) (reg : Mealy R (List (Fl K)) (Fl K))
    (is : List (Fl K × Option (Fl K))) :
    (0 < lagsX → ((flaxSnarimax lagsX lagsY reg).stateAfter is).1 =
      (circBuffer lagsX (Fl.fin 0)).stateAfter (is.map (·.1))) ∧
    (0 < lagsY → ((flaxSnarimax lagsX lagsY reg).stateAfter is).2.1 =
      (circBuffer lagsY (Fl.fin 0)).stateAfter (is.filterMap fun i => i.2.map fun y => y - i.1)) := by
  induction is using List.reverseRecOn with
  | nil => exact ⟨fun _ => rfl, fun _ => rfl⟩
  | append_singleton is i ih =>
    rw [Mealy.stateAfter_append_singleton, List.map_append, List.map_singleton, Mealy.stateAfter_append_singleton]
    obtain ⟨x, y⟩ := i
    constructor
    · intro hx
      rw [← ih.1 hx]
      simp only [flaxSnarimax, flaxSnarimaxStep, hx, if_true]
    · intro hy
      cases y with
      | none =>
        simp only [List.filterMap_append, List.filterMap_cons, List.filterMap_nil, Option.map_none, List.append_nil]
        rw [← ih.2 hy]
        simp only [flaxSnarimax, flaxSnarimaxStep]
      | some y =>
        simp only [List.filterMap_append, List.filterMap_cons, List.filterMap_nil, Option.map_some]
        rw [Mealy.stateAfter_append_singleton, ← ih.2 hy]
        simp only [flaxSnarimax, flaxSnarimaxStep, hy, if_true]

theorem flaxSnarimax_step {R : Type} (lagsX lagsY : Nat) (hx2 : lagsX ≤ 2 ^ 30) (hy2 : lagsY ≤ 2 ^ 30)
    (reg : Mealy R (List (Fl K)) (Fl K)) (is : List (Fl K × Option (Fl K))) (i : Fl K × Option (Fl K))
    (hl : is.length + 1 < 2 ^ 31) :
    let s := (flaxSnarimax lagsX lagsY reg).stateAfter is
    let r := reg.step s.2.2 (flaxSnFeatures lagsX lagsY (is ++ [i]) is.length)
    ((flaxSnarimax lagsX lagsY reg).step s i).1 = fill0 r.1 ∧ ((flaxSnarimax lagsX lagsY reg).step s i).2.2.2 = r.2 := by
  obtain ⟨sx, sy⟩ := flaxSnarimax_state lagsX lagsY reg is
  obtain ⟨x, y⟩ := i
  intro s r
  have w0 : ∀ h : List (Fl K), window 0 (Fl.fin 0) h = [] := fun h => List.eq_nil_of_length_eq_zero (by simp)
  have hfm : (is.filterMap fun i => i.2.map fun y => y - i.1).length ≤ is.length := List.length_filterMap_le _ _
  have hf : flaxSnFeatures lagsX lagsY (is ++ [(x, y)]) is.length =
      window lagsX (Fl.fin 0) (is.map (·.1) ++ [x]) ++
      (match y with
        | some y => window lagsY (Fl.fin 0) ((is.filterMap fun i => i.2.map fun y => y - i.1) ++ [y - x])
        | none => []) ++ [x] := by
    simp only [flaxSnFeatures, List.getElem?_concat_length, Option.map_some, Option.toList_some]
    rw [List.take_of_length_le (by simp)]
    cases y <;> simp [List.filterMap_append]
  have h1 : (0 < lagsX) → ((circBuffer lagsX (Fl.fin 0)).step s.1 x).1.1 =
      window lagsX (Fl.fin 0) (is.map (·.1) ++ [x]) := fun hx => by
    rw [sx hx, circ_step_out lagsX hx hx2 (Fl.fin 0) _ x (by simpa using hl)]
  have h2 : (0 < lagsY) → ∀ y : Fl K, ((circBuffer lagsY (Fl.fin 0)).step s.2.1 (y - x)).1.1 =
      window lagsY (Fl.fin 0) ((is.filterMap fun i => i.2.map fun y => y - i.1) ++ [y - x]) := fun hy y => by
    rw [sy hy, circ_step_out lagsY hy hy2 (Fl.fin 0) _ (y - x) (by omega)]
  have hfx : (if 0 < lagsX then ((circBuffer lagsX (Fl.fin 0)).step s.1 x).1.1 else []) =
      window lagsX (Fl.fin 0) (is.map (·.1) ++ [x]) := by
    split
    · next h => exact h1 h
    · next h => rw [show lagsX = 0 by omega, w0]
  have hfy : ∀ y : Fl K, (if 0 < lagsY then ((circBuffer lagsY (Fl.fin 0)).step s.2.1 (y - x)).1.1 else []) =
      window lagsY (Fl.fin 0) ((is.filterMap fun i => i.2.map fun y => y - i.1) ++ [y - x]) := by
    intro y
    split
    · next h => exact h2 h y
    · next h => rw [show lagsY = 0 by omega, w0]
  simp only [r, hf]
  rw [← hfx]
  cases y with
  | none =>
    simp only [flaxSnarimax, flaxSnarimaxStep]
    split <;> exact ⟨rfl, rfl⟩
  | some y =>
    simp only []
    rw [← hfy y]
    simp only [flaxSnarimax, flaxSnarimaxStep]
    split <;> split <;> exact ⟨rfl, rfl⟩

/-- C26: for every history of calls, with or without targets, the predictions of the Flax SNARIMAX are the (cleaned) outputs
of the regressor on the stream of feature vectors `flaxSnFeatures`. -/
theorem C26_flax_snarimax_features {R : Type} (lagsX lagsY : Nat) (hx2 : lagsX ≤ 2 ^ 30) (hy2 : lagsY ≤ 2 ^ 30)
    (reg : Mealy R (List (Fl K)) (Fl K)) (is : List (Fl K × Option (Fl K))) (hl : is.length < 2 ^ 31) :
    (flaxSnarimax lagsX lagsY reg).run is =
      (reg.run ((List.range is.length).map (flaxSnFeatures lagsX lagsY is))).map fill0 := by
  have key : ∀ is : List (Fl K × Option (Fl K)), is.length < 2 ^ 31 →
      (flaxSnarimax lagsX lagsY reg).run is =
        (reg.run ((List.range is.length).map (flaxSnFeatures lagsX lagsY is))).map fill0 ∧
      ((flaxSnarimax lagsX lagsY reg).stateAfter is).2.2 =
        reg.stateAfter ((List.range is.length).map (flaxSnFeatures lagsX lagsY is)) := by
    intro is
    induction is using List.reverseRecOn with
    | nil => intro _; exact ⟨rfl, rfl⟩
    | append_singleton is i ih =>
      intro hl
      rw [List.length_append, List.length_singleton] at hl
      obtain ⟨i1, i2⟩ := ih (by omega)
      have hstab : (List.range is.length).map (flaxSnFeatures lagsX lagsY (is ++ [i])) =
          (List.range is.length).map (flaxSnFeatures lagsX lagsY is) := by
        apply List.map_congr_left
        intro t ht
        rw [List.mem_range] at ht
        simp only [flaxSnFeatures]
        rw [List.take_append_of_le_length (by omega), List.getElem?_append_left ht]
      obtain ⟨h1, h2⟩ := flaxSnarimax_step lagsX lagsY hx2 hy2 reg is i hl
      rw [List.length_append, List.length_singleton, List.range_succ, List.map_append, List.map_singleton, hstab,
        Mealy.run_append_singleton, Mealy.run_append_singleton, Mealy.stateAfter_append_singleton,
        Mealy.stateAfter_append_singleton, List.map_append, List.map_singleton, ← i1, ← i2, h1]
      exact ⟨rfl, h2⟩
  exact (key is hl).1

/-- C26: the Flax SNARIMAX has the same look-ahead: with `lags_y ≥ 1` a regressor returning "`x` plus the last error
feature" returns the target of the same call. -/
theorem C26_flax_snarimax_lookahead (lagsX lagsY : Nat) (hx2 : lagsX ≤ 2 ^ 30) (hy : 0 < lagsY) (hy2 : lagsY ≤ 2 ^ 30)
    (xy : List (K × K)) (hl : xy.length < 2 ^ 31) :
    let reg : Mealy Unit (List (Fl K)) (Fl K) :=
      ⟨(), fun _ X => (X.getLast?.getD Fl.nan + X.dropLast.getLast?.getD Fl.nan, ())⟩
    (flaxSnarimax lagsX lagsY reg).run (xy.map fun p => (Fl.fin p.1, some (Fl.fin p.2))) =
      xy.map fun p => Fl.fin p.2 := by
  intro reg
  rw [C26_flax_snarimax_features lagsX lagsY hx2 hy2 reg _ (by simpa using hl)]
  apply List.ext_getElem?
  intro t
  rw [List.getElem?_map, Mealy.run, Mealy.outsFrom_getElem?, List.getElem?_map, List.length_map, List.getElem?_map]
  by_cases ht : t < xy.length
  · rw [List.getElem?_range ht, List.getElem?_eq_getElem ht]
    simp only [Option.map_some, Option.some.injEq, reg]
    have hfm : (xy.map fun p => (Fl.fin p.1, some (Fl.fin p.2)))[t]? = some (Fl.fin xy[t].1, some (Fl.fin xy[t].2)) := by
      rw [List.getElem?_map, List.getElem?_eq_getElem ht]; rfl
    have htake : (xy.map fun p => (Fl.fin p.1, some (Fl.fin p.2))).take (t + 1) =
        (xy.map fun p => (Fl.fin p.1, some (Fl.fin p.2))).take t ++ [(Fl.fin xy[t].1, some (Fl.fin xy[t].2))] := by
      rw [List.take_add_one, hfm]; rfl
    simp only [flaxSnFeatures, hfm, htake, Option.map_some, Option.toList_some, List.getLast?_concat, List.dropLast_concat,
      Option.getD_some, List.filterMap_append, List.filterMap_cons, List.filterMap_nil]
    rw [window_snoc lagsY hy, ← List.append_assoc, List.getLast?_concat]
    simp [fill0]
  · rw [List.getElem?_eq_none (by simpa using ht), List.getElem?_eq_none (by simpa using ht)]
    rfl

example : (flaxSnarimax (K := ℚ) (R := Unit) 2 2 ⟨(), fun _ X => (X.foldl (fun a v => a * .fin 10 + v) (.fin 0), ())⟩).run
    [(.fin 1, some (.fin 3)), (.fin 4, none), (.fin 5, some (.fin 6))] = [.fin 1021, .fin 144, .fin 45215] := by
  decide +kernel

example : (snarimax (K := ℚ) (R := Unit) 1 1 ⟨(), fun _ X => (X.headD .nan, ())⟩).run
    [(.fin 1, none), (.fin 5, none), (.fin 7, none)] = [.fin 0, .fin 1, .fin 4] := by decide +kernel
example : (2 : Nat) * [1, 2, 3].length < 2 ^ 31 := by decide

end Verif.Props
