import Verif.Props.EWMA
import Verif.Model.EWMVar
import Mathlib.Tactic.LinearCombination
import Mathlib.Algebra.BigOperators.Ring.Finset
import Mathlib.Data.Fintype.BigOperators

/-! # Properties C22–C23: exponentially weighted variance and covariance -/

set_option linter.unusedSectionVars false

namespace Verif.Props
open Model Spec Lemmas
variable {K : Type} [Field K] [LinearOrder K] [IsStrictOrderedRing K]

/-! ## the recursive mean -/

theorem recMean_snd {β : Type} (a : Nat → K) (f : β → K) (l : List β) :
    (l.foldl (fun (p : K × Nat) x =>
    (if p.2 = 0 then f x else (1 - a (p.2 + 1)) * p.1 + a (p.2 + 1) * f x, p.2 + 1)) (0, 0)).2 = l.length := by
  induction l using List.reverseRecOn with
  | nil => rfl
  | append_singleton l x ih => rw [List.foldl_append]; simp [ih]

theorem recMean_snoc {β : Type} (a : Nat → K) (f : β → K) (l : List β) (x : β) :
    recMean a f (l ++ [x]) = if l = [] then f x
      else (1 - a (l.length + 1)) * recMean a f l + a (l.length + 1) * f x := by
  unfold recMean
  rw [List.foldl_append]
  simp [recMean_snd, List.length_eq_zero_iff]

theorem recMean_linear {β : Type} (a : Nat → K) (f g : β → K) (u v : K) (l : List β) :
    recMean a (fun x => u * f x + v * g x) l = u * recMean a f l + v * recMean a g l := by
  induction l using List.reverseRecOn with
  | nil => simp [recMean]
  | append_singleton l x ih =>
    simp only [recMean_snoc, ih]
    split
    · rfl
    · ring

/-- Jensen: the recursive mean of squares dominates the square of the recursive mean. -/
theorem recMean_sq {β : Type} (a : Nat → K) (ha : ∀ n, 0 ≤ a n ∧ a n ≤ 1) (f : β → K) (l : List β) :
    recMean a f l * recMean a f l ≤ recMean a (fun x => f x * f x) l := by
  induction l using List.reverseRecOn with
  | nil => simp [recMean]
  | append_singleton l x ih =>
    simp only [recMean_snoc]
    split
    · exact le_refl _
    · obtain ⟨h0, h1⟩ := ha (l.length + 1)
      generalize recMean a f l = m at *
      generalize recMean a (fun x => f x * f x) l = q at *
      generalize a (l.length + 1) = b at *
      have e : (1 - b) * q + b * (f x * f x) - ((1 - b) * m + b * f x) * ((1 - b) * m + b * f x) =
          (1 - b) * (q - m * m) + (1 - b) * b * ((m - f x) * (m - f x)) := by ring
      have h2 : 0 ≤ (1 - b) * (q - m * m) := mul_nonneg (by linarith) (by linarith)
      have h3 : 0 ≤ (1 - b) * b * ((m - f x) * (m - f x)) :=
        mul_nonneg (mul_nonneg (by linarith) h0) (mul_self_nonneg _)
      linarith

/-! ## C22 -/

/-- gains of EWMVar. -/
def varGain (com : K) (adjust : Adjust) (n : Nat) : K :=
  let α := 1 / (1 + com)
  match adjust with
  | .linear => if (n : K) < 1 + com then 1 / (n : K) else α
  | .yes => α / (1 - (1 - α) ^ n)
  | .no => α

theorem flPow_fin (a : K) (n : Nat) : flPow (Fl.fin a) n = Fl.fin (a ^ n) := by
  induction n with
  | zero => simp [flPow]
  | succ n ih => simp [flPow, ih, pow_succ]

theorem alpha_range (com : K) (hc : 0 ≤ com) : (0:K) < 1 / (1 + com) ∧ 1 / (1 + com) ≤ 1 := by
  refine ⟨by positivity, ?_⟩
  rw [div_le_one (by positivity)]; linarith

theorem geo_pos (α : K) (h0 : 0 < α) (h1 : α ≤ 1) (n : Nat) : α ≤ 1 - (1 - α) ^ (n + 1) := by
  have : (1 - α) ^ (n + 1) ≤ (1 - α) := by
    have := pow_le_one₀ (n := n) (show 0 ≤ 1 - α by linarith) (show 1 - α ≤ 1 by linarith)
    rw [pow_succ]
    have h2 : 0 ≤ 1 - α := by linarith
    nlinarith
  linarith

theorem varAlpha_eq (com : K) (hc : 0 ≤ com) (adjust : Adjust) (n : Nat) :
    ewmvarAlpha com adjust (n + 1) = Fl.fin (varGain com adjust (n + 1)) := by
  obtain ⟨h0, h1⟩ := alpha_range com hc
  have hne : 1 + com ≠ 0 := by positivity
  unfold ewmvarAlpha varGain
  rw [Fl.fin_add, Fl.fin_div_of_ne _ hne]
  cases adjust with
  | no => rfl
  | yes =>
    have := geo_pos _ h0 h1 n
    have hn : 1 - (1 - 1 / (1 + com)) ^ (n + 1) ≠ 0 := by linarith
    simp only [Fl.fin_sub, flPow_fin, Fl.fin_div_of_ne _ hn]
  | linear =>
    have e : (1 : K) / (1 / (1 + com)) = 1 + com := by field_simp
    simp only [Fl.fin_div_of_ne _ h0.ne', e, Fl.lt_fin, decide_eq_true_eq]
    have hn : ((n + 1 : Nat) : K) ≠ 0 := by positivity
    have hn0 : (0 : K) < ((n + 1 : Nat) : K) := by positivity
    have hcp : (0 : K) < 1 + com := by positivity
    by_cases hlt : ((n + 1 : Nat) : K) < 1 + com
    · rw [if_pos hlt, if_pos hlt]
      simp only [Fl.lt_fin, hn0, decide_true, if_true, Fl.fin_div_of_ne _ hn]
    · rw [if_neg hlt, if_neg hlt]
      simp only [Fl.lt_fin, hcp, decide_true, if_true, Fl.fin_div_of_ne _ hne]

theorem varGain_range (com : K) (hc : 0 ≤ com) (adjust : Adjust) (n : Nat) :
    0 ≤ varGain com adjust (n + 1) ∧ varGain com adjust (n + 1) ≤ 1 := by
  obtain ⟨h0, h1⟩ := alpha_range com hc
  unfold varGain
  cases adjust with
  | no => exact ⟨h0.le, h1⟩
  | yes =>
    have := geo_pos _ h0 h1 n
    have hp : 0 < 1 - (1 - 1 / (1 + com)) ^ (n + 1) := by linarith
    exact ⟨div_nonneg h0.le hp.le, (div_le_one hp).mpr this⟩
  | linear =>
    have hn0 : (1 : K) ≤ ((n + 1 : Nat) : K) := by push_cast; linarith [Nat.cast_nonneg (α := K) n]
    simp only
    split
    · exact ⟨by positivity, by rw [div_le_one (by linarith)]; exact hn0⟩
    · exact ⟨h0.le, h1⟩

/-- State of EWMVar after any stream without infinities. -/
theorem ewmvar_stateAfter (com : K) (hc : 0 ≤ com) (adjust : Adjust) (xs : List (Fl K)) (hx : NoInf xs) :
    let s := (ewmvar com adjust).stateAfter xs
    let l := fins xs
    let m := recMean (varGain com adjust) id l
    s.nobs = l.length ∧
    (l = [] → s.mean = .nan ∧ s.var = if xs = [] then .nan else .fin 0) ∧
    (l ≠ [] → s.mean = .fin m ∧ s.var = .fin (recMean (varGain com adjust) (fun x => x * x) l - m * m)) := by
  induction xs using List.reverseRecOn with
  | nil => simp [Mealy.stateAfter, ewmvar, fins]
  | append_singleton xs x ih =>
    have ih := ih (fun y hy => hx y (by simp [hy]))
    have hxx := hx x (by simp)
    obtain ⟨i1, i2, i3⟩ := ih
    simp only [Mealy.stateAfter_append_singleton]
    generalize (ewmvar com adjust).stateAfter xs = s at *
    cases x with
    | pinf => exact absurd rfl hxx.1
    | ninf => exact absurd rfl hxx.2
    | nan =>
      have hf : fins (xs ++ [Fl.nan]) = fins xs := by simp [fins]
      rw [hf]
      refine ⟨by simpa [ewmvar, ewmvarStep] using i1, fun h => ?_, fun h => ?_⟩
      · obtain ⟨h1, h2⟩ := i2 h
        simp only [ewmvar, ewmvarStep, h1, h2]
        by_cases hxs : xs = [] <;> simp [hxs]
      · obtain ⟨h1, h2⟩ := i3 h
        simp [ewmvar, ewmvarStep, h1, h2]
    | fin k =>
      have hf : fins (xs ++ [Fl.fin k]) = fins xs ++ [k] := by simp [fins]
      rw [hf]
      refine ⟨by simp [ewmvar, ewmvarStep, i1], fun h => by simp at h, fun _ => ?_⟩
      simp only [recMean_snoc]
      by_cases hl : fins xs = []
      · obtain ⟨h1, h2⟩ := i2 hl
        simp only [hl, if_true, id]
        have hv : (if s.var.isNan = true then Fl.fin (0:K) else s.var) = Fl.fin 0 := by
          rw [h2]; by_cases hxs : xs = [] <;> simp [hxs]
        simp only [ewmvar, ewmvarStep, h1, hv, Fl.isNan_nan, Fl.isNan_fin, if_true, Bool.not_false,
          varAlpha_eq com hc, Fl.fin_sub, Fl.fin_mul, Fl.fin_add, Fl.fin.injEq]
        constructor <;> ring
      · obtain ⟨h1, h2⟩ := i3 hl
        rw [if_neg hl, if_neg hl]
        simp only [ewmvar, ewmvarStep, h1, h2, Fl.isNan_fin, Bool.false_eq_true, if_false, Bool.not_false, if_true,
          i1, varAlpha_eq com hc, Fl.fin_sub, Fl.fin_mul, Fl.fin_add, Fl.fin.injEq, id]
        constructor <;> ring

theorem ewmvar_out (com : K) (adjust : Adjust) (xs : List (Fl K)) (t : Nat) (ht : t < xs.length) :
    ((ewmvar com adjust).run xs)[t]? = some ((ewmvar com adjust).stateAfter (xs.take (t + 1))).var := by
  rw [Mealy.run, Mealy.outsFrom_getElem?, List.getElem?_eq_getElem ht, ← List.take_append_getElem ht,
    Mealy.stateAfter_append_singleton]
  rfl

theorem NoInf_take {xs : List (Fl K)} (h : NoInf xs) (n : Nat) : NoInf (xs.take n) :=
  fun x hx => h x (List.mem_of_mem_take hx)

/-- C22: in every mode and on every stream without infinities, every variance output is a non-negative finite
number: `E[x²] - E[x]²` for one and the same recursive mean `E` of the observations so far (0 when there is
none yet). -/
theorem C22_ewmvar_nonneg (com : K) (hc : 0 ≤ com) (adjust : Adjust) (xs : List (Fl K)) (hx : NoInf xs)
    (t : Nat) (ht : t < xs.length) :
    ∃ v, ((ewmvar com adjust).run xs)[t]? = some (.fin v) ∧ 0 ≤ v ∧
      v = recMean (varGain com adjust) (fun x => x * x) (fins (xs.take (t + 1))) -
        recMean (varGain com adjust) id (fins (xs.take (t + 1))) *
          recMean (varGain com adjust) id (fins (xs.take (t + 1))) := by
  obtain ⟨_, h2, h3⟩ := ewmvar_stateAfter com hc adjust (xs.take (t + 1)) (NoInf_take hx _)
  rw [ewmvar_out com adjust xs t ht]
  have hne : xs.take (t + 1) ≠ [] := by
    intro h; have := congrArg List.length h; rw [List.length_take, List.length_nil] at this; omega
  by_cases hl : fins (xs.take (t + 1)) = []
  · refine ⟨0, by rw [(h2 hl).2, if_neg hne], le_refl _, by simp [hl, recMean]⟩
  · refine ⟨_, by rw [(h3 hl).2], ?_, rfl⟩
    have hj : ∀ (l : List K), recMean (varGain com adjust) id l * recMean (varGain com adjust) id l ≤
        recMean (varGain com adjust) (fun x => x * x) l := by
      intro l
      have h := recMean_sq (fun n => if n = 0 then 0 else varGain com adjust n) (fun n => by
        cases n with
        | zero => simp
        | succ n => simpa using varGain_range com hc adjust n) id l
      have e : ∀ f : K → K, recMean (fun n => if n = 0 then 0 else varGain com adjust n) f l =
          recMean (varGain com adjust) f l := by
        intro f
        unfold recMean
        simp
      rwa [e, e] at h
    linarith [hj (fins (xs.take (t + 1)))]

/-- C22: the variance is 0 on constant streams (with NaNs anywhere). -/
theorem C22_ewmvar_constant (com : K) (hc : 0 ≤ com) (adjust : Adjust) (k : K) (xs : List (Fl K))
    (hx : ∀ x ∈ xs, x = .nan ∨ x = .fin k) :
    (ewmvar com adjust).run xs = List.replicate xs.length (.fin 0) := by
  have hrec : ∀ (f : K → K) (l : List K), l ≠ [] → (∀ y ∈ l, y = k) → recMean (varGain com adjust) f l = f k := by
    intro f l
    induction l using List.reverseRecOn with
    | nil => intro h; exact absurd rfl h
    | append_singleton l y ih =>
      intro _ hy
      rw [recMean_snoc, hy y (by simp)]
      split
      · rfl
      · next hl => rw [ih hl (fun z hz => hy z (by simp [hz]))]; ring
  have hni : NoInf xs := by
    intro x h; rcases hx x h with rfl | rfl <;> simp
  apply List.ext_getElem?
  intro t
  by_cases ht : t < xs.length
  · obtain ⟨v, h1, _, h3⟩ := C22_ewmvar_nonneg com hc adjust xs hni t ht
    rw [h1, List.getElem?_replicate, if_pos ht, h3]
    by_cases hl : fins (xs.take (t + 1)) = []
    · simp [hl, recMean]
    · have hk : ∀ y ∈ fins (xs.take (t + 1)), y = k := by
        intro y hy
        simp only [fins, List.mem_filterMap] at hy
        obtain ⟨z, hz, hzy⟩ := hy
        rcases hx z (List.mem_of_mem_take hz) with rfl | rfl
        · simp at hzy
        · simpa using hzy.symm
      rw [hrec _ _ hl hk, hrec _ _ hl hk]
      simp
  · rw [List.getElem?_eq_none (by simp; omega), List.getElem?_eq_none (by simp; omega)]

theorem recMean_exp (com : K) (hc : 0 ≤ com) (l : List K) (hl : l ≠ []) :
    let r := 1 - 1 / (1 + com)
    let W := weightedSum (r ^ ·) (fun _ => 1) (l.map some)
    0 < W ∧ W * (1 / (1 + com)) = 1 - r ^ l.length ∧
    ∀ f, recMean (varGain com .yes) f l * W = weightedSum (r ^ ·) f (l.map some) := by
  obtain ⟨h0, h1⟩ := alpha_range com hc
  intro r
  have hr : 1 / (1 + com) = 1 - r := by simp [r]
  have hr0 : 0 ≤ r := by simp only [r]; linarith
  have hr1 : 0 < 1 - r := by rw [← hr]; exact h0
  have hg : ∀ n, varGain com .yes n = (1 - r) / (1 - r ^ n) := by intro n; simp [varGain, r]
  rw [hr]
  clear_value r
  induction l using List.reverseRecOn with
  | nil => exact absurd rfl hl
  | append_singleton l x ih =>
    simp only [List.map_append, List.map_cons, List.map_nil, weightedSum_snoc, recMean_snoc, List.length_append,
      List.length_singleton]
    by_cases hle : l = []
    · subst hle
      simp [weightedSum]
    · obtain ⟨i1, i2, i3⟩ := ih hle
      simp only [if_neg hle]
      generalize weightedSum (fun x => r ^ x) (fun _ => 1) (l.map some) = W at *
      have hW' : (r * W + 1) * (1 - r) = 1 - r ^ (l.length + 1) := by
        rw [pow_succ]; linear_combination r * i2
      have hWp : 0 < r * W + 1 := by positivity
      have hgain : varGain com .yes (l.length + 1) = 1 / (r * W + 1) := by
        rw [hg, ← hW']
        have := hr1.ne'
        have := hWp.ne'
        field_simp
      refine ⟨hWp, hW', fun f => ?_⟩
      rw [hgain, ← i3 f]
      have := hWp.ne'
      field_simp
      ring

theorem weightedSum_sqdev (r m : K) (h : List (Option K)) :
    weightedSum (r ^ ·) (fun x => (x - m) * (x - m)) h =
      weightedSum (r ^ ·) (fun x => x * x) h - 2 * m * weightedSum (r ^ ·) id h +
        m * m * weightedSum (r ^ ·) (fun _ => 1) h := by
  induction h using List.reverseRecOn with
  | nil => simp [weightedSum]
  | append_singleton h o ih =>
    simp only [weightedSum_snoc, ih]
    cases o <;> simp <;> ring

/-- C22: `adjust=True`: the weighted variance of the observations around their weighted mean, with weights
`(1-alpha)^age`, the age counting observations. -/
theorem C22_ewmvar_adjust (com : K) (hc : 0 ≤ com) (xs : List (Fl K)) (hx : NoInf xs) (t : Nat)
    (ht : t < xs.length) (hne : fins (xs.take (t + 1)) ≠ []) :
    ((ewmvar com .yes).run xs)[t]? = some (.fin (expVar (1 - 1 / (1 + com)) (fins (xs.take (t + 1))))) := by
  obtain ⟨_, _, h3⟩ := ewmvar_stateAfter com hc .yes (xs.take (t + 1)) (NoInf_take hx _)
  rw [ewmvar_out com .yes xs t ht, (h3 hne).2]
  obtain ⟨hW, _, hS⟩ := recMean_exp com hc _ hne
  unfold expVar
  simp only
  have e1 := hS (fun x => x * x)
  have e2 := hS id
  rw [weightedSum_sqdev, ← e1, ← e2]
  have := hW.ne'
  clear hS h3 e1 e2
  generalize recMean (varGain com Adjust.yes) (fun x => x * x) _ = q
  generalize recMean (varGain com Adjust.yes) id _ = m
  generalize weightedSum (fun x => (1 - 1 / (1 + com)) ^ x) (fun _ => 1) _ = W at *
  congr 2
  field_simp
  ring

/-- C22: `adjust=False`: second moment minus squared first moment of the recursive filter with constant gain
`alpha`. -/
theorem C22_ewmvar_no_adjust (com : K) (hc : 0 ≤ com) (xs : List (Fl K)) (hx : NoInf xs) (t : Nat)
    (ht : t < xs.length) (hne : fins (xs.take (t + 1)) ≠ []) :
    let l := fins (xs.take (t + 1))
    let E := fun f => recMean (fun _ => 1 / (1 + com)) f l
    ((ewmvar com .no).run xs)[t]? = some (.fin (E (fun x => x * x) - E id * E id)) := by
  obtain ⟨_, _, h3⟩ := ewmvar_stateAfter com hc .no (xs.take (t + 1)) (NoInf_take hx _)
  rw [ewmvar_out com .no xs t ht, (h3 hne).2]
  rfl

/-- C22: `adjust="linear"`: while `n ≤ 1 + com`, the population variance of the observations. -/
theorem C22_ewmvar_linear (com : K) (hc : 0 ≤ com) (xs : List (Fl K)) (hx : NoInf xs) (t : Nat)
    (ht : t < xs.length) :
    let l := fins (xs.take (t + 1))
    l ≠ [] → (l.length : K) ≤ 1 + com →
    ((ewmvar com .linear).run xs)[t]? =
      some (.fin (mean (l.map fun x => (x - mean l) * (x - mean l)))) := by
  intro l hne hle
  obtain ⟨_, _, h3⟩ := ewmvar_stateAfter com hc .linear (xs.take (t + 1)) (NoInf_take hx _)
  rw [ewmvar_out com .linear xs t ht, (h3 hne).2]
  have hrec : ∀ (f : K → K) (l : List K), l ≠ [] → (l.length : K) ≤ 1 + com →
      recMean (varGain com .linear) f l = mean (l.map f) := by
    intro f l
    induction l using List.reverseRecOn with
    | nil => intro h; exact absurd rfl h
    | append_singleton l y ih =>
      intro _ hle
      simp only [List.length_append, List.length_singleton, Nat.cast_add, Nat.cast_one] at hle
      rw [recMean_snoc]
      split
      · next hl => simp [hl, mean]
      · next hl =>
        rw [ih hl (by linarith)]
        have hp : (0 : K) < l.length := by exact_mod_cast List.length_pos_of_ne_nil hl
        have hg : varGain com .linear (l.length + 1) = 1 / ((l.length : K) + 1) := by
          simp only [varGain, Nat.cast_add, Nat.cast_one]
          split
          · rfl
          · next hlt => rw [le_antisymm hle (not_lt.mp hlt)]
        rw [hg]
        simp only [mean, List.map_append, List.map_cons, List.map_nil, List.sum_append, List.sum_singleton,
          List.length_append, List.length_map, List.length_singleton, Nat.cast_add, Nat.cast_one]
        have := hp.ne'
        have : (l.length : K) + 1 ≠ 0 := by positivity
        field_simp
        ring
  rw [hrec _ l hne hle, hrec _ l hne hle]
  have hp : (l.length : K) ≠ 0 := by
    have : (0 : K) < l.length := by exact_mod_cast List.length_pos_of_ne_nil hne
    exact this.ne'
  have hs : ∀ (l : List K) (m : K), (l.map fun x => (x - m) * (x - m)).sum =
      (l.map fun x => x * x).sum - 2 * m * l.sum + m * m * l.length := by
    intro l m
    induction l with
    | nil => simp
    | cons a l ih => simp only [List.map_cons, List.sum_cons, ih, List.length_cons]; push_cast; ring
  congr 2
  simp only [mean, List.map_id, List.length_map, hs]
  field_simp
  ring

/-- C22, recorded quirk: a leading NaN gives variance 0, not NaN. -/
theorem C22_ewmvar_leading_nan (com : K) (adjust : Adjust) :
    (ewmvar com adjust).run [.nan] = [.fin 0] := by
  simp [ewmvar, ewmvarStep, Mealy.run]

example : NoInf ([.fin 1, .nan, .fin 4] : List (Fl ℚ)) := by simp [NoInf]
example : (ewmvar (K := ℚ) 2 .yes).run [.nan, .fin 1, .nan, .fin 4] =
    [.fin 0, .fin 0, .fin 0, .fin (expVar (2 / 3) [1, 4])] := by decide +kernel
example : (ewmvar (K := ℚ) 5 .linear).run [.fin 1, .fin 4, .fin 7] = [.fin 0, .fin (9 / 4), .fin 6] := by
  decide +kernel

/-! ## C23 -/

section Cov
variable {ι κ : Type}

/-- A covariance machine over a given scalar average. -/
def covMachine (step : EWMACfg K → EWMAState K → Fl K → EWMAOut K × EWMAState K) (ini : EWMAState K)
    (ι κ : Type) (c : EWMACfg K) (ac : Bool) : Mealy (CovState ι κ K) ((ι → Fl K) × (κ → Fl K)) (ι → κ → Fl K) where
  init := ⟨fun _ _ => ini, fun _ => ini, fun _ => ini⟩
  step := ewmcovStep step c ac

theorem cov_at (step : EWMACfg K → EWMAState K → Fl K → EWMAOut K × EWMAState K) (ini : EWMAState K)
    (c : EWMACfg K) (ac : Bool) (ps : List ((ι → Fl K) × (κ → Fl K))) (t : Nat) (ht : t < ps.length) :
    let M : Mealy (EWMAState K) (Fl K) (EWMAOut K) := ⟨ini, step c⟩
    ∃ C, ((covMachine step ini ι κ c ac).run ps)[t]? = some C ∧ ∀ i j, ∃ a b d,
      (M.run (ps.map fun p => p.1 i * p.2 j))[t]? = some a ∧
      (M.run (ps.map fun p => p.1 i))[t]? = some b ∧
      (M.run (ps.map fun p => p.2 j))[t]? = some d ∧
      C i j = if ac then a.value else a.value - b.value * d.value := by
  intro M
  have hs : ∀ ps : List ((ι → Fl K) × (κ → Fl K)), let s := (covMachine step ini ι κ c ac).stateAfter ps
      s.xy = (fun i j => M.stateAfter (ps.map fun p => p.1 i * p.2 j)) ∧
      (ac = false → s.x = (fun i => M.stateAfter (ps.map fun p => p.1 i)) ∧
        s.y = fun j => M.stateAfter (ps.map fun p => p.2 j)) := by
    intro ps
    induction ps using List.reverseRecOn with
    | nil => exact ⟨rfl, fun _ => ⟨rfl, rfl⟩⟩
    | append_singleton ps p ih =>
      obtain ⟨h1, h2⟩ := ih
      simp only [Mealy.stateAfter_append_singleton, List.map_append, List.map_cons, List.map_nil]
      generalize (covMachine step ini ι κ c ac).stateAfter ps = s at *
      cases ac with
      | true => exact ⟨by simp [covMachine, ewmcovStep, h1, M], fun h => by simp at h⟩
      | false =>
        obtain ⟨h3, h4⟩ := h2 rfl
        exact ⟨by simp [covMachine, ewmcovStep, h1, M], fun _ => by simp [covMachine, ewmcovStep, h3, h4, M]⟩
  obtain ⟨h1, h2⟩ := hs (ps.take t)
  rw [Mealy.run, Mealy.outsFrom_getElem?, List.getElem?_eq_getElem ht]
  refine ⟨_, rfl, fun i j => ?_⟩
  simp only [Mealy.run, Mealy.outsFrom_getElem?, List.getElem?_map, List.getElem?_eq_getElem ht,
    Option.map_some, ← List.map_take]
  refine ⟨_, _, _, rfl, rfl, rfl, ?_⟩
  rw [← Mealy.stateAfter, ← Mealy.stateAfter, ← Mealy.stateAfter, ← Mealy.stateAfter]
  generalize (covMachine step ini ι κ c ac).stateAfter (ps.take t) = s at *
  cases ac with
  | true => simp [covMachine, ewmcovStep, h1, M]
  | false =>
    obtain ⟨h3, h4⟩ := h2 rfl
    simp [covMachine, ewmcovStep, h1, h3, h4, M]

/-- C23: entry `(i, j)` of the output is EWMA of the products minus the product of the EWMAs, each on the stream
of the components `x[i]`, `y[j]` alone (just EWMA of the products if `assume_centered`). -/
theorem C23_ewmcov_entry (c : EWMACfg K) (ac : Bool) (ps : List ((ι → Fl K) × (κ → Fl K))) (t : Nat)
    (ht : t < ps.length) :
    ∃ C, ((ewmcov ι κ c ac).run ps)[t]? = some C ∧ ∀ i j, ∃ a b d,
      ((ewma c).run (ps.map fun p => p.1 i * p.2 j))[t]? = some a ∧
      ((ewma c).run (ps.map fun p => p.1 i))[t]? = some b ∧
      ((ewma c).run (ps.map fun p => p.2 j))[t]? = some d ∧
      C i j = if ac then a.value else a.value - b.value * d.value :=
  cov_at ewmaStep (ewma c).init c ac ps t ht

/-- C23: swapping the two arguments transposes the output, on every stream. -/
theorem C23_ewmcov_transpose (c : EWMACfg K) (ac : Bool) (ps : List ((ι → Fl K) × (κ → Fl K))) (t : Nat)
    (ht : t < ps.length) :
    ∃ C D, ((ewmcov ι κ c ac).run ps)[t]? = some C ∧
      ((ewmcov κ ι c ac).run (ps.map fun p => (p.2, p.1)))[t]? = some D ∧ ∀ i j, C i j = D j i := by
  obtain ⟨C, h1, h2⟩ := C23_ewmcov_entry c ac ps t ht
  obtain ⟨D, h3, h4⟩ := C23_ewmcov_entry c ac (ps.map fun p => (p.2, p.1)) t (by simpa using ht)
  refine ⟨C, D, h1, h3, fun i j => ?_⟩
  obtain ⟨a, b, d, e1, e2, e3, e4⟩ := h2 i j
  obtain ⟨a', b', d', f1, f2, f3, f4⟩ := h4 j i
  simp only [List.map_map, Function.comp_def] at f1 f2 f3
  have hc : (fun p : (ι → Fl K) × (κ → Fl K) => p.2 j * p.1 i) = fun p => p.1 i * p.2 j := by
    funext p; exact Fl.mul_comm' _ _
  rw [hc, e1] at f1
  rw [e3] at f2
  rw [e2] at f3
  simp only [Option.some.injEq] at f1 f2 f3
  subst f1 f2 f3
  rw [e4, f4, Fl.mul_comm']

/-- C23: `EWMCov(x, x)` is symmetric at every step, on every stream. -/
theorem C23_ewmcov_symm (c : EWMACfg K) (ac : Bool) (xs : List (ι → Fl K)) (t : Nat) (ht : t < xs.length) :
    ∃ C, ((ewmcov ι ι c ac).run (xs.map fun x => (x, x)))[t]? = some C ∧ ∀ i j, C i j = C j i := by
  obtain ⟨C, D, h1, h2, h3⟩ := C23_ewmcov_transpose c ac (xs.map fun x => (x, x)) t (by simpa using ht)
  rw [List.map_map] at h2
  have : ((fun p : (ι → Fl K) × (ι → Fl K) => (p.2, p.1)) ∘ fun x => (x, x)) = fun x => (x, x) := rfl
  rw [this, h1] at h2
  simp only [Option.some.injEq] at h2
  subst h2
  exact ⟨C, h1, h3⟩

/-- weights of EWMA after `n` observations without gaps. -/
def gapFreeWt (c : EWMACfg K) : Nat → K
  | 0 => 1
  | 1 => 1
  | n + 2 => if c.adjust.truthy then aWt c true (gapFreeWt c (n + 1)) + nw c else 1

/-- the gain of the `n`-th observation. -/
def gapFreeGain (c : EWMACfg K) (n : Nat) : K := nw c / (aWt c true (gapFreeWt c (n - 1)) + nw c)

theorem gapFreeWt_nonneg (c : EWMACfg K) (hc : 0 ≤ c.com) (n : Nat) : 0 ≤ gapFreeWt c n := by
  have h1 := nw_pos c hc
  induction n with
  | zero => exact zero_le_one
  | succ n ih =>
    cases n with
    | zero => exact zero_le_one
    | succ n =>
      have := aWt_nonneg c hc true _ ih
      simp only [gapFreeWt]
      split
      · positivity
      · exact zero_le_one

theorem gapFreeGain_range (c : EWMACfg K) (hc : 0 ≤ c.com) (n : Nat) : 0 ≤ gapFreeGain c n ∧ gapFreeGain c n ≤ 1 := by
  have h1 := nw_pos c hc
  have h2 := aWt_nonneg c hc true _ (gapFreeWt_nonneg c hc (n - 1))
  unfold gapFreeGain
  exact ⟨by positivity, by rw [div_le_one (by positivity)]; linarith⟩

theorem aRun_gapFree (c : EWMACfg K) (hc : 0 ≤ c.com) (l : List K) (hl : l ≠ []) :
    aRun c (l.map some) = (some (recMean (gapFreeGain c) id l), gapFreeWt c l.length) := by
  induction l using List.reverseRecOn with
  | nil => exact absurd rfl hl
  | append_singleton l x ih =>
    rw [List.map_append, List.map_cons, List.map_nil, aRun_snoc, recMean_snoc]
    by_cases hle : l = []
    · subst hle
      simp [aRun, aStep, gapFreeWt]
    · rw [ih hle, if_neg hle]
      obtain ⟨n, hn⟩ : ∃ n, l.length = n + 1 := ⟨l.length - 1, by
        have := List.length_pos_of_ne_nil hle; omega⟩
      simp only [List.length_append, List.length_singleton, hn]
      have h1 := nw_pos c hc
      have h2 := aWt_nonneg c hc true _ (gapFreeWt_nonneg c hc (n + 1))
      have hne : aWt c true (gapFreeWt c (n + 1)) + nw c ≠ 0 := by positivity
      simp only [aStep, gapFreeWt, gapFreeGain, id, Nat.add_sub_cancel]
      congr 2
      field_simp
      ring

theorem ewma_gapFree (c : EWMACfg K) (hc : 0 ≤ c.com) (hini : c.initial = .nan) (l : List K) (t : Nat)
    (ht : t < l.length) (hm : c.minPeriods ≤ t + 1) :
    ∃ o, ((ewma c).run (l.map Fl.fin))[t]? = some o ∧
      o.value = .fin (recMean (gapFreeGain c) id (l.take (t + 1))) := by
  obtain ⟨o, e1, _, e3, _⟩ := ewma_at c hc (l.map Fl.fin) t (by simpa using ht)
  refine ⟨o, e1, ?_⟩
  have hr : readings c.big c.initial ((l.map Fl.fin).take (t + 1)) = (l.take (t + 1)).map some := by
    rw [hini, ← List.map_take]; simp only [readings, reading, List.map_map, List.nil_append]; rfl
  have hlen : (observed (((l.map Fl.fin).take (t + 1)).map (reading c.big))).length = t + 1 := by
    rw [← List.map_take, List.map_map]
    have : (l.take (t + 1)).map (reading c.big ∘ Fl.fin) = (l.take (t + 1)).map some := rfl
    rw [this, observed_map_some, List.length_take]; omega
  have hne : l.take (t + 1) ≠ [] := by
    intro h; have := congrArg List.length h; rw [List.length_take, List.length_nil] at this; omega
  rw [e3, hlen, if_pos hm, hr, aRun_gapFree c hc _ hne]
  rfl

theorem recMean_map {β γ : Type} (a : Nat → K) (f : γ → K) (g : β → γ) (l : List β) :
    recMean a f (l.map g) = recMean a (fun x => f (g x)) l := by
  simp [recMean, List.foldl_map]

theorem recMean_sum {β : Type} [Fintype ι] (a : Nat → K) (f : ι → β → K) (l : List β) :
    recMean a (fun x => ∑ i, f i x) l = ∑ i, recMean a (f i) l := by
  induction l using List.reverseRecOn with
  | nil => simp [recMean]
  | append_singleton l x ih =>
    simp only [recMean_snoc, ih]
    split
    · rfl
    · rw [Finset.mul_sum, Finset.mul_sum, ← Finset.sum_add_distrib]

theorem recMean_smul {β : Type} (a : Nat → K) (u : K) (f : β → K) (l : List β) :
    recMean a (fun x => u * f x) l = u * recMean a f l := by
  have := recMean_linear a f f u 0 l
  simpa using this

/-- C23: on a stream of finite vectors (no NaN), with `initial_value = NaN` and once `min_periods` is reached,
`EWMCov(x, x)` is a positive semi-definite matrix; in particular its diagonal is non-negative. -/
theorem C23_ewmcov_psd [Fintype ι] (c : EWMACfg K) (hc : 0 ≤ c.com) (hini : c.initial = .nan) (ac : Bool)
    (xs : List (ι → K)) (t : Nat) (ht : t < xs.length) (hm : c.minPeriods ≤ t + 1) :
    ∃ C : ι → ι → K, ((ewmcov ι ι c ac).run (xs.map fun x => (fun i => .fin (x i), fun i => .fin (x i))))[t]? =
        some (fun i j => .fin (C i j)) ∧
      (∀ u : ι → K, 0 ≤ ∑ i, ∑ j, u i * C i j * u j) ∧ (∀ i j, C i j = C j i) ∧ ∀ i, 0 ≤ C i i := by
  obtain ⟨C, h1, h2⟩ := C23_ewmcov_entry (ι := ι) (κ := ι) c ac
    (xs.map fun x => (fun i => Fl.fin (x i), fun i => Fl.fin (x i))) t (by simpa using ht)
  set E : ((ι → K) → K) → K := fun f => recMean (gapFreeGain c) f (xs.take (t + 1)) with hE
  have hone : ∀ f : (ι → K) → K, ∃ o, ((ewma c).run (xs.map fun x => Fl.fin (f x)))[t]? = some o ∧
      o.value = .fin (E f) := by
    intro f
    obtain ⟨o, e1, e2⟩ := ewma_gapFree c hc hini (xs.map f) t (by simpa using ht) hm
    rw [List.map_map] at e1
    refine ⟨o, e1, ?_⟩
    rw [e2, ← List.map_take, recMean_map]
    rfl
  have hC : C = fun i j => .fin (if ac then E (fun x => x i * x j)
      else E (fun x => x i * x j) - E (fun x => x i) * E (fun x => x j)) := by
    funext i j
    obtain ⟨a, b, d, f1, f2, f3, f4⟩ := h2 i j
    simp only [List.map_map, Function.comp_def, Fl.fin_mul] at f1 f2 f3
    obtain ⟨o1, g1, g2⟩ := hone (fun x => x i * x j)
    obtain ⟨o2, g3, g4⟩ := hone (fun x => x i)
    obtain ⟨o3, g5, g6⟩ := hone (fun x => x j)
    rw [g1, Option.some.injEq] at f1
    rw [g3, Option.some.injEq] at f2
    rw [g5, Option.some.injEq] at f3
    subst f1 f2 f3
    rw [f4, g2, g4, g6]
    cases ac <;> simp
  have hpsd : ∀ u : ι → K, 0 ≤ ∑ i, ∑ j, u i * (if ac then E (fun x => x i * x j)
      else E (fun x => x i * x j) - E (fun x => x i) * E (fun x => x j)) * u j := by
    intro u
    have hj := recMean_sq (gapFreeGain c) (gapFreeGain_range c hc) (fun x : ι → K => ∑ i, u i * x i)
      (xs.take (t + 1))
    have q1 : recMean (gapFreeGain c) (fun x : ι → K => ∑ i, u i * x i) (xs.take (t + 1)) =
        ∑ i, u i * E (fun x => x i) := by
      rw [recMean_sum (gapFreeGain c) (fun i (x : ι → K) => u i * x i)]
      exact Finset.sum_congr rfl fun i _ => recMean_smul _ _ _ _
    have q2 : recMean (gapFreeGain c) (fun x : ι → K => (∑ i, u i * x i) * ∑ i, u i * x i) (xs.take (t + 1)) =
        ∑ i, ∑ j, u i * E (fun x => x i * x j) * u j := by
      have : (fun x : ι → K => (∑ i, u i * x i) * ∑ i, u i * x i) =
          fun x => ∑ i, ∑ j, u i * u j * (x i * x j) := by
        funext x
        rw [Finset.sum_mul_sum]
        exact Finset.sum_congr rfl fun i _ => Finset.sum_congr rfl fun j _ => by ring
      rw [this, recMean_sum (gapFreeGain c) (fun i (x : ι → K) => ∑ j, u i * u j * (x i * x j))]
      refine Finset.sum_congr rfl fun i _ => ?_
      rw [recMean_sum (gapFreeGain c) (fun j (x : ι → K) => u i * u j * (x i * x j))]
      refine Finset.sum_congr rfl fun j _ => ?_
      rw [recMean_smul]
      simp only [hE]; ring
    rw [q1, q2] at hj
    have q3 : (∑ i, u i * E (fun x => x i)) * (∑ i, u i * E (fun x => x i)) =
        ∑ i, ∑ j, u i * (E (fun x => x i) * E (fun x => x j)) * u j := by
      rw [Finset.sum_mul_sum]
      exact Finset.sum_congr rfl fun i _ => Finset.sum_congr rfl fun j _ => by ring
    cases ac with
    | true =>
      simp only [if_true]
      exact le_trans (mul_self_nonneg _) hj
    | false =>
      simp only [Bool.false_eq_true, if_false]
      have : ∀ i j, u i * (E (fun x => x i * x j) - E (fun x => x i) * E (fun x => x j)) * u j =
          u i * E (fun x => x i * x j) * u j - u i * (E (fun x => x i) * E (fun x => x j)) * u j := by
        intro i j; ring
      simp only [this, Finset.sum_sub_distrib]
      rw [← q3]
      linarith
  refine ⟨_, by rw [h1, hC], hpsd, ?_, ?_⟩
  · intro i j
    have : (fun x : ι → K => x i * x j) = fun x => x j * x i := by funext x; ring
    rw [this, mul_comm (E fun x => x i)]
  · intro i
    classical
    have := hpsd (fun k => if k = i then 1 else 0)
    simpa using this

/-- C23: the Flax EWMCov (same `min_periods`, no infinite initial value) returns the same matrices, and its detour
through `alpha` gives the same `com`. -/
theorem C23_flax_ewmcov_agrees (c : EWMACfg K) (hc : 0 ≤ c.com) (hi : c.initial ≠ .pinf ∧ c.initial ≠ .ninf)
    (ac : Bool) (ps : List ((ι → Fl K) × (κ → Fl K))) :
    (flaxEwmcov ι κ c ac).run ps = (ewmcov ι κ c ac).run ps := by
  apply List.ext_getElem?
  intro t
  by_cases ht : t < ps.length
  · obtain ⟨C, h1, h2⟩ := C23_ewmcov_entry (ι := ι) (κ := κ) c ac ps t ht
    obtain ⟨D, h3, h4⟩ := cov_at (ι := ι) (κ := κ) flaxEwmaStep (flaxEwma c).init c ac ps t ht
    change ((covMachine flaxEwmaStep (flaxEwma c).init ι κ c ac).run ps)[t]? = _
    rw [h1, h3]
    congr 1
    funext i j
    obtain ⟨a, b, d, e1, e2, e3, e4⟩ := h2 i j
    obtain ⟨a', b', d', f1, f2, f3, f4⟩ := h4 i j
    have hM : (⟨(flaxEwma c).init, flaxEwmaStep c⟩ : Mealy (EWMAState K) (Fl K) (EWMAOut K)) = flaxEwma c := rfl
    rw [hM, C16_flax_ewma_agrees c hc hi] at f1 f2 f3
    rw [e1, Option.some.injEq] at f1
    rw [e2, Option.some.injEq] at f2
    rw [e3, Option.some.injEq] at f3
    rw [e4, f4, f1, f2, f3]
  · rw [List.getElem?_eq_none (by simp; omega), List.getElem?_eq_none (by simp; omega)]

theorem C23_flax_com (com alpha : Option K) (h : ∀ v, com = some v → 0 ≤ v) :
    flaxCovCom com alpha = ewmaCom com alpha := by
  rcases com with _ | v <;> rcases alpha with _ | a <;> simp only [flaxCovCom, ewmaCom]
  have := h v rfl
  have : 1 + v ≠ 0 := by positivity
  congr 1
  field_simp
  ring

/-- C23, recorded limit: a given `initial_value` breaks non-negativity (it initialises `E[x]` and `E[xy]` alike):
with initial value 2 and `x = 2` the variance is negative. -/
theorem C23_ewmcov_initial_value_negative :
    ((ewmcov Unit Unit (K := ℚ) ⟨1, .yes, false, 0, .fin 2, 1000⟩ false).run
      [(fun _ => .fin 2, fun _ => .fin 2)]).map (fun C => C () ()) = [.fin (-2 / 3)] := by decide +kernel

example : ((ewmcov (Fin 2) (Fin 2) (K := ℚ) ⟨1, .yes, false, 0, .nan, 1000⟩ false).run
    [(fun i => .fin i, fun i => .fin i), (fun _ => .fin 4, fun _ => .fin 4)]).map (fun C => C 0 1) =
    [.fin 0, .fin (8 / 3)] := by decide +kernel

end Cov

end Verif.Props
