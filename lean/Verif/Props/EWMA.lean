import Verif.Lemmas.EWMA
import Verif.Props.Windows
import Mathlib.Algebra.BigOperators.Ring.List

/-! # Properties C16–C21: exponential moving averages -/

set_option linter.unusedSectionVars false

namespace Verif.Props
open Model Spec Lemmas
variable {K : Type} [Field K] [LinearOrder K] [IsStrictOrderedRing K]

/-- The value returned by the last call on the stream `xs`. -/
def lastValue (c : EWMACfg K) (xs : List (Fl K)) : Option (Fl K) :=
  ((ewma c).run xs).getLast?.map (·.value)

theorem lastValue_snoc (c : EWMACfg K) (xs : List (Fl K)) (x : Fl K) :
    lastValue c (xs ++ [x]) = some ((ewma c).step ((ewma c).stateAfter xs) x).1.value := by
  simp [lastValue, Mealy.run_append_singleton]

/-! ## C16 -/

theorem weightedSum_snoc (r : K) (f : K → K) (h : List (Option K)) (o : Option K) :
    weightedSum (r ^ ·) f (h ++ [o]) = r * weightedSum (r ^ ·) f h + (match o with | some x => f x | none => 0) := by
  unfold weightedSum
  rw [List.length_append, List.length_singleton, List.range_succ, List.map_append, List.sum_append]
  congr 1
  · rw [← List.sum_map_mul_left]
    congr 1
    apply List.map_congr_left
    intro i hi
    have hi : i < h.length := List.mem_range.mp hi
    rw [List.getElem?_append_left hi]
    have e : h.length + 1 - 1 - i = (h.length - 1 - i) + 1 := by omega
    rw [e]
    cases h' : h[i]? with
    | none => simp
    | some v => cases v <;> simp [pow_succ]; ring
  · simp
    cases o <;> simp

/-- The history that determines the weights: all steps, or only the observed ones. -/
def effective (ignoreNa : Bool) (h : List (Option K)) : List (Option K) :=
  if ignoreNa then (observed h).map some else h

theorem observed_snoc (h : List (Option K)) (o : Option K) : observed (h ++ [o]) = observed h ++ o.toList := by
  simp [observed, List.filterMap_append]
  cases o <;> simp

theorem observed_map_some (l : List K) : observed (l.map some) = l := by
  simp [observed]

theorem effective_snoc (b : Bool) (h : List (Option K)) (o : Option K) :
    effective b (h ++ [o]) = effective b h ++ (if b then o.toList.map some else [o]) := by
  cases b <;> simp [effective, observed_snoc]

theorem observed_effective (b : Bool) (h : List (Option K)) : observed (effective b h) = observed h := by
  unfold effective; split
  · exact observed_map_some _
  · rfl

theorem weightedSum_empty (r : K) (f : K → K) (h : List (Option K)) (ho : observed h = []) :
    weightedSum (r ^ ·) f h = 0 := by
  induction h using List.reverseRecOn with
  | nil => simp [weightedSum]
  | append_singleton h o ih =>
    rw [observed_snoc] at ho
    obtain ⟨h1, h2⟩ := List.append_eq_nil_iff.mp ho
    cases o with
    | none => rw [weightedSum_snoc, ih h1]; simp
    | some x => simp at h2

/-- Closed form of the state for `adjust=True`. -/
theorem aRun_adjust (c : EWMACfg K) (hc : 0 < c.com) (ha : c.adjust = .yes) (h : List (Option K)) :
    let e := effective c.ignoreNa h
    let r := 1 - 1 / (1 + c.com)
    let N := weightedSum (r ^ ·) id e
    let W := weightedSum (r ^ ·) (fun _ => 1) e
    (observed h = [] → (aRun c h).1 = none) ∧
    (observed h ≠ [] → 0 < W ∧ aRun c h = (some (N / W), W)) := by
  have hr : (0 : K) < 1 - 1 / (1 + c.com) := by
    have : 1 / (1 + c.com) < 1 := by rw [div_lt_one (by positivity)]; linarith
    linarith
  have hw : ∀ b w, aWt c b w = if b || !c.ignoreNa then w * (1 - 1 / (1 + c.com)) else w := by
    intro b w; simp [aWt, ha, al]
  have hn : nw c = 1 := by simp [nw, ha, Adjust.truthy]
  simp only
  generalize (1 : K) - 1 / (1 + c.com) = r at hr hw
  induction h using List.reverseRecOn with
  | nil => simp [observed, aRun]
  | append_singleton h o ih =>
    rw [aRun_snoc, effective_snoc, observed_snoc]
    cases o with
    | none =>
      simp only [Option.toList_none, List.append_nil]
      by_cases ho : observed h = []
      · refine ⟨fun _ => ?_, fun h => absurd ho h⟩
        have := ih.1 ho
        generalize aRun c h = q at *
        obtain ⟨m, w⟩ := q
        simpa [aStep] using this
      · refine ⟨fun h => absurd h ho, fun _ => ?_⟩
        obtain ⟨h1, h2⟩ := ih.2 ho
        rw [h2]
        cases hi : c.ignoreNa
        · rw [hi] at h1
          simp only [Bool.false_eq_true, if_false, weightedSum_snoc, add_zero, aStep, hw, hi]
          refine ⟨by positivity, ?_⟩
          have h1' := h1.ne'
          have hr' := hr.ne'
          simp only [Option.isNone_some, Bool.false_eq_true, if_false, Bool.not_false, Bool.or_true, if_true]
          rw [Prod.mk.injEq]
          exact ⟨by congr 1; field_simp, by ring⟩
        · rw [hi] at h1
          simp only [if_true, List.map_nil, List.append_nil, aStep, hw, hi]
          exact ⟨h1, by simp⟩
    | some x =>
      refine ⟨fun h => by simp at h, fun _ => ?_⟩
      have e1 : (if c.ignoreNa = true then List.map some (some x).toList else [some x]) = [some x] := by
        split <;> rfl
      rw [e1]
      simp only [weightedSum_snoc]
      by_cases ho : observed h = []
      · rw [weightedSum_empty r _ _ (by rw [observed_effective, ho]),
          weightedSum_empty r _ _ (by rw [observed_effective, ho])]
        have := ih.1 ho
        generalize aRun c h = q at *
        obtain ⟨m, w⟩ := q
        simp only at this
        subst this
        simp [aStep]
      · obtain ⟨h1, h2⟩ := ih.2 ho
        rw [h2]
        generalize weightedSum (fun x => r ^ x) id (effective c.ignoreNa h) = N at *
        generalize weightedSum (fun x => r ^ x) (fun _ => (1:K)) (effective c.ignoreNa h) = W at *
        refine ⟨by positivity, ?_⟩
        simp only [aStep, hw, hn, ha, Adjust.truthy, if_true, Bool.true_or, id]
        have h1' := h1.ne'
        have : r * W + 1 ≠ 0 := by positivity
        congr 2
        · rw [mul_comm W r]
          congr 1
          field_simp
        · ring

theorem aRun_adjust_mean (c : EWMACfg K) (hc : 0 < c.com) (ha : c.adjust = .yes) (h : List (Option K)) :
    (aRun c h).1 = expMean (1 - 1 / (1 + c.com)) (effective c.ignoreNa h) := by
  obtain ⟨h1, h2⟩ := aRun_adjust c hc ha h
  unfold expMean
  rw [observed_effective]
  split
  · next ho => exact h1 ho
  · next ho => rw [(h2 ho).2]

/-- C16: with `adjust=True` and `0 < alpha < 1`, the output after every step of every stream is the mean of
the observations weighted by `(1-alpha)^age`, where the age counts all steps (`ignore_na=False`) or only
observed steps (`ignore_na=True`); NaN before the first observation and while fewer than `min_periods`
observations were made.  An initial value counts as one more, oldest, observation. -/
theorem C16_ewma_adjust (c : EWMACfg K) (α : K) (h0 : 0 < α) (h1 : α < 1)
    (hcom : ewmaCom none (some α) = .ok c.com) (ha : c.adjust = .yes) (xs : List (Fl K)) (t : Nat)
    (ht : t < xs.length) :
    let hist := readings c.big c.initial (xs.take (t + 1))
    let n := (observed ((xs.take (t + 1)).map (reading c.big))).length
    ∃ o, ((ewma c).run xs)[t]? = some o ∧ o.nobs = n ∧
      o.value = if n < c.minPeriods then .nan
        else toFl (expMean (1 - α) (if c.ignoreNa then (observed hist).map some else hist)) := by
  have hc : c.com = 1 / α - 1 := by simpa [ewmaCom] using hcom.symm
  have hcp : 0 < c.com := by
    rw [hc]; have : 1 < 1 / α := by rw [lt_div_iff₀ h0]; linarith
    linarith
  have hal : 1 - α = 1 - 1 / (1 + c.com) := by rw [hc]; field_simp; ring
  intro hist n
  obtain ⟨o, e1, e2, e3, _⟩ := ewma_at c hcp.le xs t ht
  refine ⟨o, e1, e2, ?_⟩
  rw [e3, aRun_adjust_mean c hcp ha, ← hal]
  by_cases hm : n < c.minPeriods
  · rw [if_neg (by exact not_le.mpr hm), if_pos hm]
  · rw [if_pos (not_lt.mp hm), if_neg hm]; rfl

/-- C16: `com` and `alpha` are two ways to give the same parameter; giving both or none is rejected. -/
theorem C16_alpha_com (com alpha : Option K) :
    (∀ v, ewmaCom com alpha = .ok v ↔
      (com = some v ∧ alpha = none) ∨ (∃ a, com = none ∧ alpha = some a ∧ v = 1 / a - 1)) := by
  intro v
  rcases com with _ | com <;> rcases alpha with _ | a <;> simp [ewmaCom, eq_comm]

/-- C16: a NaN input after an observation returns the previous mean (every mode, no `min_periods`). -/
theorem C16_ewma_nan_keeps (c : EWMACfg K) (hc : 0 ≤ c.com) (hp : c.minPeriods = 0)
    (xs : List (Fl K)) (x : Fl K) :
    lastValue c (xs ++ [x] ++ [.nan]) = lastValue c (xs ++ [x]) := by
  rw [lastValue_snoc, lastValue_snoc, ewma_out c hc, ewma_out c hc, hp]
  simp only [Nat.zero_le, if_true]
  rw [readings_snoc, aRun_snoc]
  rfl

/-- C16: the Flax EWMA returns the same outputs (any configuration, any stream) unless the initial value is
an infinity. -/
theorem C16_flax_ewma_agrees (c : EWMACfg K) (hc : 0 ≤ c.com)
    (hi : c.initial ≠ .pinf ∧ c.initial ≠ .ninf) (xs : List (Fl K)) :
    (flaxEwma c).run xs = (ewma c).run xs := by
  apply Mealy.run_eq_of_sim _ _ (fun s s' => s = s' ∧ (∃ w, 0 ≤ w ∧ s.oldWt = .fin w) ∧
    s.mean ≠ .pinf ∧ s.mean ≠ .ninf)
  · exact ⟨rfl, ⟨1, zero_le_one, rfl⟩, hi⟩
  · rintro s _ x ⟨rfl, ⟨w, hw, hs⟩, hm⟩
    have e : (flaxEwma c).step s x = (ewma c).step s x := by
      simp only [flaxEwma, ewma, flaxEwmaStep, ewmaStep]
      cases hx : x.isNan with
      | false => rfl
      | true =>
        cases hmm : s.mean with
        | nan => rfl
        | fin k => rfl
        | pinf => exact absurd hmm hm.1
        | ninf => exact absurd hmm hm.2
    rw [e]
    refine ⟨rfl, rfl, ?_⟩
    change (∃ w, 0 ≤ w ∧ (ewmaStep c s x).2.oldWt = .fin w) ∧ (ewmaStep c s x).2.mean ≠ _ ∧ (ewmaStep c s x).2.mean ≠ _
    rw [ewmaStep_eq c hc s w hw hs x]
    refine ⟨⟨_, aStep_wt_nonneg c hc _ _ hw _, rfl⟩, ?_⟩
    simp only
    generalize (aStep c _ _).1 = m
    cases m <;> simp [toFl]

example : (0 : ℚ) < 1 / 3 ∧ (1 : ℚ) / 3 < 1 ∧ ewmaCom none (some (1 / 3 : ℚ)) = .ok 2 := by decide +kernel
example : ((ewma (K := ℚ) ⟨2, .yes, false, 1, .nan, 1000⟩).run [.nan, .fin 1, .nan, .fin 4]).map (·.value) =
    [.nan, .fin 1, .fin 1, .fin (40 / 13)] := by decide +kernel
example : toFl (expMean (2 / 3 : ℚ) [none, some 1, none, some 4]) = .fin (40 / 13) := by decide +kernel

/-! ## C17 -/

/-- C17: the output is NaN before the first observation (every mode). -/
theorem C17_ewma_start_nan (c : EWMACfg K) (hc : 0 ≤ c.com) (hi : c.initial = .nan) (g : Nat) :
    lastValue c (List.replicate (g + 1) .nan) = some .nan := by
  rw [List.replicate_succ', lastValue_snoc, ewma_out c hc]
  have : (aRun c (List.replicate (g + 1) none)).1 = none := by
    induction g with
    | zero => rfl
    | succ g ih =>
      rw [List.replicate_succ', aRun_snoc]
      generalize aRun c (List.replicate (g + 1) none) = q at *
      obtain ⟨m, w⟩ := q
      exact ih
  rw [hi, ← readings_snoc, ← List.replicate_succ']
  have e : readings c.big .nan (List.replicate (g + 1) .nan) = List.replicate (g + 1) none := by
    simp [readings, reading]
  rw [e, this]
  simp [toFl]

theorem aRun_gap (c : EWMACfg K) (h : List (Option K)) (g : Nat) (m w : K) (he : aRun c h = (some m, w))
    (ha : c.adjust = .no) :
    aRun c (h ++ List.replicate g none) = (some m, if c.ignoreNa then w else w * (1 - al c) ^ g) := by
  induction g with
  | zero => simp [he]
  | succ g ih =>
    rw [List.replicate_succ', ← List.append_assoc, aRun_snoc, ih]
    simp only [aStep, aWt, ha]
    cases c.ignoreNa <;> simp [pow_succ, mul_assoc]

theorem readings_append (big : K) (i : Fl K) (xs ys : List (Fl K)) :
    readings big i (xs ++ ys) = readings big i xs ++ ys.map (reading big) := by simp [readings]

/-- C17: `adjust=False` is a recursive filter.  For every history ending with an observation, with output
`y`: any number `g` of NaN steps leaves the output unchanged, and an observation `b` after them gives
`(ρ y + alpha b)/(ρ + alpha)` with `ρ = (1-alpha)^(g+1)`, or `ρ = 1-alpha` whatever the gap if `ignore_na`. -/
theorem C17_ewma_filter (c : EWMACfg K) (α : K) (h0 : 0 < α) (h1 : α ≤ 1)
    (hcom : ewmaCom none (some α) = .ok c.com) (ha : c.adjust = .no) (hp : c.minPeriods = 0)
    (xs : List (Fl K)) (a : K) :
    ∃ y, lastValue c (xs ++ [.fin a]) = some (.fin y) ∧ ∀ (g : Nat) (b : K),
      lastValue c (xs ++ [.fin a] ++ List.replicate g .nan) = some (.fin y) ∧
      let ρ := if c.ignoreNa then 1 - α else (1 - α) ^ (g + 1)
      lastValue c (xs ++ [.fin a] ++ List.replicate g .nan ++ [.fin b]) =
        some (.fin ((ρ * y + α * b) / (ρ + α))) := by
  have hcc : c.com = 1 / α - 1 := by simpa [ewmaCom] using hcom.symm
  have hc : 0 ≤ c.com := by
    rw [hcc]; have : 1 ≤ 1 / α := by rw [le_div_iff₀ h0]; linarith
    linarith
  have hal : al c = α := by unfold al; rw [hcc]; field_simp; ring
  have hlast : ∀ ys y, lastValue c (ys ++ [y]) = some (toFl (aRun c (readings c.big c.initial (ys ++ [y]))).1) := by
    intro ys y
    rw [lastValue_snoc, ewma_out c hc, hp]
    simp [readings_snoc]
  have hw1 : ∃ y, aRun c (readings c.big c.initial (xs ++ [.fin a])) = (some y, 1) := by
    rw [readings_snoc, aRun_snoc]
    generalize aRun c (readings c.big c.initial xs) = q
    obtain ⟨m, w⟩ := q
    cases m <;> simp [aStep, reading, ha, Adjust.truthy]
  obtain ⟨y, hy⟩ := hw1
  refine ⟨y, by rw [hlast, hy]; rfl, fun g b => ?_⟩
  have hg : aRun c (readings c.big c.initial (xs ++ [.fin a] ++ List.replicate g .nan)) =
      (some y, if c.ignoreNa then 1 else (1 - α) ^ g) := by
    rw [readings_append, List.map_replicate]
    have := aRun_gap c _ g y 1 hy ha
    rw [hal, one_mul] at this
    exact this
  constructor
  · cases g with
    | zero => rw [List.replicate_zero, List.append_nil, hlast, hy]; rfl
    | succ g =>
      rw [List.replicate_succ', ← List.append_assoc] at hg ⊢
      rw [hlast, hg]; rfl
  · intro ρ
    rw [hlast, readings_snoc, aRun_snoc, hg]
    have e : aWt c true (if c.ignoreNa then 1 else (1 - α) ^ g) = ρ := by
      simp only [aWt, ha, hal, ρ]
      cases c.ignoreNa <;> simp [pow_succ]
    have e2 : nw c = α := by simp [nw, ha, Adjust.truthy, hal]
    simp only [reading, aStep, e, e2, toFl]

/-- C17: on gap-free data `y[t] = (1-alpha) y[t-1] + alpha x[t]`, starting at the first observation. -/
theorem C17_ewma_recursive (c : EWMACfg K) (α : K) (h0 : 0 < α) (h1 : α ≤ 1)
    (hcom : ewmaCom none (some α) = .ok c.com) (ha : c.adjust = .no) (hp : c.minPeriods = 0)
    (xs : List (Fl K)) (a b : K) :
    (∀ g, c.initial = .nan → lastValue c (List.replicate g .nan ++ [.fin a]) = some (.fin a)) ∧
    ∃ y, lastValue c (xs ++ [.fin a]) = some (.fin y) ∧
      lastValue c (xs ++ [.fin a] ++ [.fin b]) = some (.fin ((1 - α) * y + α * b)) := by
  have hcc : c.com = 1 / α - 1 := by simpa [ewmaCom] using hcom.symm
  have hc : 0 ≤ c.com := by
    rw [hcc]; have : 1 ≤ 1 / α := by rw [le_div_iff₀ h0]; linarith
    linarith
  constructor
  · intro g hi
    rw [lastValue_snoc, ewma_out c hc, hp, hi, aRun_snoc]
    have e : readings c.big .nan (List.replicate g .nan) = List.replicate g none := by
      simp [readings, reading]
    rw [e]
    have : (aRun c (List.replicate g none)).1 = none := by
      induction g with
      | zero => rfl
      | succ g ih =>
        rw [List.replicate_succ', aRun_snoc]
        generalize aRun c (List.replicate g none) = q at *
        obtain ⟨m, w⟩ := q
        exact ih (by simp [readings, reading])
    generalize aRun c (List.replicate g none) = q at *
    obtain ⟨m, w⟩ := q
    simp only at this
    subst this
    simp [aStep, reading, toFl]
  · obtain ⟨y, hy, h⟩ := C17_ewma_filter c α h0 h1 hcom ha hp xs a
    refine ⟨y, hy, ?_⟩
    have := (h 0 b).2
    simp only [List.replicate_zero, List.append_nil, zero_add, pow_one, ite_self] at this
    rw [this]
    simp

theorem lastValue_eq (c : EWMACfg K) (hc : 0 ≤ c.com) (hp : c.minPeriods = 0) (xs : List (Fl K))
    (hne : xs ≠ []) : lastValue c xs = some (toFl (aRun c (readings c.big c.initial xs)).1) := by
  rcases List.eq_nil_or_concat xs with rfl | ⟨ys, y, rfl⟩
  · exact absurd rfl hne
  · rw [List.concat_eq_append, lastValue_snoc, ewma_out c hc, hp]
    simp [readings_snoc]

/-- equality of states up to the capping of the weight. -/
def capEq (c : EWMACfg K) (q q' : Option K × K) : Prop :=
  q.1 = q'.1 ∧ (q.1 ≠ none → if c.adjust = .linear then min q.2 c.com = min q'.2 c.com else q.2 = q'.2)

theorem capEq_some (c : EWMACfg K) (q q' : Option K × K) (h : capEq c q q') (x : K) :
    capEq c (aStep c q (some x)) (aStep c q' (some x)) := by
  obtain ⟨m, w⟩ := q; obtain ⟨m', w'⟩ := q'
  obtain ⟨h1, h2⟩ := h
  simp only at h1 h2
  subst h1
  cases m with
  | none => exact ⟨rfl, fun _ => by simp [aStep]⟩
  | some m =>
    have : aWt c true w = aWt c true w' := by
      have h2 := h2 (by simp)
      unfold aWt
      by_cases hl : c.adjust = .linear
      · simpa [hl] using h2
      · simp only [hl, if_false] at h2 ⊢; rw [h2]
    refine ⟨by simp [aStep, this], fun _ => ?_⟩
    simp only [aStep, this]
    split <;> trivial

theorem capEq_none (c : EWMACfg K) (hi : c.ignoreNa = true) (q q' : Option K × K) (h : capEq c q q') :
    capEq c (aStep c q none) q' := by
  obtain ⟨m, w⟩ := q; obtain ⟨m', w'⟩ := q'
  obtain ⟨h1, h2⟩ := h
  simp only at h1 h2
  subst h1
  refine ⟨rfl, fun hm => ?_⟩
  have h2 := h2 (by simpa [aStep] using hm)
  cases m with
  | none => exact absurd rfl hm
  | some m =>
    simp only [aStep, aWt, hi]
    by_cases hl : c.adjust = .linear
    · simpa [hl] using h2
    · simpa [hl] using h2

theorem aRun_ignore (c : EWMACfg K) (hi : c.ignoreNa = true) (h : List (Option K)) :
    capEq c (aRun c h) (aRun c ((observed h).map some)) := by
  induction h using List.reverseRecOn with
  | nil => exact ⟨rfl, fun h => absurd rfl h⟩
  | append_singleton h o ih =>
    rw [aRun_snoc, observed_snoc]
    cases o with
    | none => simpa using capEq_none c hi _ _ ih
    | some x =>
      simp only [Option.toList_some, List.map_append, List.map_cons, List.map_nil]
      rw [aRun_snoc]
      exact capEq_some c _ _ ih x

theorem readings_valid (big : K) (i : Fl K) (xs : List (Fl K)) :
    readings big i (valid xs) = (observed (readings big i xs)).map some := by
  have : (valid xs).map (reading big) = (observed (xs.map (reading big))).map some := by
    induction xs with
    | nil => rfl
    | cons x xs ih =>
      simp only [valid, observed, List.filter_cons, List.map_cons, List.filterMap_cons] at ih ⊢
      cases x <;> simp [reading, ih]
  unfold readings
  rw [this]
  cases reading big i <;> simp [observed]

/-- C17/C16: with `ignore_na=True` (any `adjust`) dropping the NaN steps does not change the last output. -/
theorem C17_ewma_ignore_na (c : EWMACfg K) (hc : 0 ≤ c.com) (hi : c.ignoreNa = true) (hp : c.minPeriods = 0)
    (xs : List (Fl K)) (hne : valid xs ≠ []) :
    lastValue c xs = lastValue c (valid xs) := by
  have hx : xs ≠ [] := by rintro rfl; exact hne rfl
  rw [lastValue_eq c hc hp _ hx, lastValue_eq c hc hp _ hne, readings_valid, (aRun_ignore c hi _).1]

example : (0:ℚ) < 1/4 ∧ (1:ℚ)/4 ≤ 1 ∧ ewmaCom none (some (1 / 4 : ℚ)) = .ok 3 := by decide +kernel
example : lastValue (K := ℚ) ⟨3, .no, false, 0, .nan, 1000⟩ [.nan, .fin 1, .nan, .fin 4] =
    some (.fin ((9 / 16 * 1 + 1 / 4 * 4) / (9 / 16 + 1 / 4))) := by decide +kernel
example : valid ([.nan, .fin 1, .nan, .fin 4] : List (Fl ℚ)) ≠ [] := by decide +kernel

/-! ## C18 -/

theorem wavg_bounds (v n m x lo hi : K) (hv : 0 ≤ v) (hn : 0 < n) (h1 : lo ≤ m) (h2 : m ≤ hi) (h3 : lo ≤ x)
    (h4 : x ≤ hi) : lo ≤ (v * m + n * x) / (v + n) ∧ (v * m + n * x) / (v + n) ≤ hi := by
  have hp : 0 < v + n := by linarith
  constructor
  · rw [le_div_iff₀ hp]
    nlinarith [mul_nonneg hv (sub_nonneg.mpr h1), mul_nonneg hn.le (sub_nonneg.mpr h3)]
  · rw [div_le_iff₀ hp]
    nlinarith [mul_nonneg hv (sub_nonneg.mpr h2), mul_nonneg hn.le (sub_nonneg.mpr h4)]

theorem aRun_range (c : EWMACfg K) (hc : 0 ≤ c.com) (lo hi : K) (h : List (Option K))
    (hb : ∀ k ∈ observed h, lo ≤ k ∧ k ≤ hi) :
    ((aRun c h).1 = none ↔ observed h = []) ∧ ∀ m, (aRun c h).1 = some m → lo ≤ m ∧ m ≤ hi := by
  induction h using List.reverseRecOn with
  | nil => simp [aRun, observed]
  | append_singleton h o ih =>
    rw [observed_snoc] at hb ⊢
    rw [aRun_snoc]
    have hw := aRun_wt_nonneg c hc h
    have ih := ih (fun k hk => hb k (List.mem_append_left _ hk))
    generalize aRun c h = q at *
    obtain ⟨m, w⟩ := q
    cases o with
    | none => simpa [aStep] using ih
    | some x =>
      have hx := hb x (by simp)
      cases m with
      | none =>
        refine ⟨by simp [aStep], fun m hm => ?_⟩
        simp only [aStep, Option.some.injEq] at hm
        subst hm; exact hx
      | some m0 =>
        refine ⟨by simp [aStep], fun m hm => ?_⟩
        simp only [aStep, Option.some.injEq] at hm
        subst hm
        have hm0 := ih.2 m0 rfl
        exact wavg_bounds _ _ _ _ _ _ (aWt_nonneg c hc true w hw) (nw_pos c hc) hm0.1 hm0.2 hx.1 hx.2

/-- C18: in every mode, an output is NaN exactly when fewer than `min_periods` observations were made or
nothing was observed (and there is no initial value); otherwise it is a finite number between any bounds of
the observations so far (initial value included). -/
theorem C18_ewma_range (c : EWMACfg K) (hc : 0 ≤ c.com) (xs : List (Fl K)) (t : Nat) (ht : t < xs.length)
    (lo hi : K)
    (hb : ∀ k ∈ observed (readings c.big c.initial (xs.take (t + 1))), lo ≤ k ∧ k ≤ hi) :
    let n := (observed ((xs.take (t + 1)).map (reading c.big))).length
    ∃ o, ((ewma c).run xs)[t]? = some o ∧ o.nobs = n ∧
      (o.value = .nan ↔ n < c.minPeriods ∨ observed (readings c.big c.initial (xs.take (t + 1))) = []) ∧
      (o.value ≠ .nan → ∃ v, o.value = .fin v ∧ lo ≤ v ∧ v ≤ hi) := by
  intro n
  obtain ⟨o, e1, e2, e3, _⟩ := ewma_at c hc xs t ht
  obtain ⟨h1, h2⟩ := aRun_range c hc lo hi _ hb
  refine ⟨o, e1, e2, ?_⟩
  rw [e3, ← h1]
  by_cases hm : c.minPeriods ≤ n
  · rw [if_pos hm]
    cases hq : (aRun c (readings c.big c.initial (xs.take (t + 1)))).1 with
    | none => simp [toFl]
    | some v =>
      have := h2 v hq
      simp only [toFl, reduceCtorEq, or_false, false_iff, not_lt, ne_eq, not_false_eq_true, Fl.fin.injEq,
        exists_eq_left', forall_const]
      exact ⟨hm, this⟩
  · rw [if_neg hm]
    simp only [ne_eq, not_true_eq_false, false_implies, and_true, true_iff]
    exact Or.inl (not_le.mp hm)

/-- C18: `min_periods` only turns outputs into NaN. -/
theorem C18_ewma_min_periods (c : EWMACfg K) (xs : List (Fl K)) :
    (ewma c).run xs = ((ewma { c with minPeriods := 0 }).run xs).map fun o =>
      { o with value := if o.nobs < c.minPeriods then .nan else o.value } := by
  have e : ∀ xs, (ewma c).stateAfter xs = (ewma { c with minPeriods := 0 }).stateAfter xs := by
    intro xs
    induction xs using List.reverseRecOn with
    | nil => rfl
    | append_singleton xs x ih =>
      rw [Mealy.stateAfter_append_singleton, Mealy.stateAfter_append_singleton, ih]; rfl
  apply Mealy.run_eq_of_steps
  intro t ht
  rw [e]
  generalize (ewma { c with minPeriods := 0 }).stateAfter (xs.take t) = s
  simp only [ewma, ewmaStep]
  congr 1
  generalize (if (!(xs[t]).isNan) = true then s.nobs + 1 else s.nobs) = n
  by_cases h0 : c.minPeriods = 0
  · simp [h0]; rfl
  · simp only [h0, ne_eq, not_false_eq_true, if_true, not_true_eq_false, if_false]
    by_cases hn : c.minPeriods ≤ n
    · rw [if_pos hn, if_neg (show ¬ n < c.minPeriods by omega)]; rfl
    · rw [if_neg hn, if_pos (show n < c.minPeriods by omega)]

example : ∀ k ∈ observed (readings (1000:ℚ) .nan ([.fin 3, .nan, .fin 5].take 3)), 3 ≤ k ∧ k ≤ 5 := by
  decide +kernel

/-! ## C19 -/

theorem aRun_linear (c : EWMACfg K) (ha : c.adjust = .linear) (hi : c.ignoreNa = true)
    (h : List (Option K)) :
    (observed h = [] → (aRun c h).1 = none) ∧
    (observed h ≠ [] → ∃ m, (aRun c h).1 = some m ∧
      min (aRun c h).2 c.com = min ((observed h).length : K) c.com ∧
      (((observed h).length : K) - 1 ≤ c.com → m = mean (observed h))) := by
  have hw : ∀ b w, aWt c b w = min w c.com := by intro b w; simp [aWt, ha, hi]
  have hn : nw c = 1 := by simp [nw, ha, Adjust.truthy]
  induction h using List.reverseRecOn with
  | nil => simp [observed, aRun]
  | append_singleton h o ih =>
    rw [aRun_snoc, observed_snoc]
    generalize aRun c h = q at *
    obtain ⟨m, w⟩ := q
    simp only at ih
    cases o with
    | none =>
      simp only [Option.toList_none, List.append_nil, aStep]
      refine ⟨ih.1, fun ho => ?_⟩
      obtain ⟨m', h1, h2, h3⟩ := ih.2 ho
      refine ⟨m', h1, ?_, h3⟩
      rw [h1]
      simp [hw, h2]
    | some x =>
      refine ⟨fun h => by simp at h, fun _ => ?_⟩
      by_cases ho : observed h = []
      · have := ih.1 ho
        subst this
        exact ⟨x, by simp [aStep], by simp [aStep, ho], fun _ => by simp [ho, mean]⟩
      · obtain ⟨m', h1, h2, h3⟩ := ih.2 ho
        subst h1
        refine ⟨_, rfl, ?_, ?_⟩
        · simp only [aStep, hw, hn, ha, Adjust.truthy, if_true, h2, Option.toList_some, List.length_append,
            List.length_singleton, Nat.cast_add, Nat.cast_one]
          rcases le_total ((observed h).length : K) c.com with hle | hle
          · rw [min_eq_left hle]
          · rw [min_eq_right hle, min_eq_right (by linarith), min_eq_right (by linarith)]
        · simp only [Option.toList_some, List.length_append, List.length_singleton, Nat.cast_add, Nat.cast_one,
            add_sub_cancel_right]
          intro hle
          have hl : (0 : K) < (observed h).length := by
            exact_mod_cast List.length_pos_of_ne_nil ho
          have hm := h3 (by linarith)
          rw [hw, h2, min_eq_left hle, hn, hm]
          unfold mean
          simp only [List.sum_append, List.sum_singleton, List.length_append, List.length_singleton,
            Nat.cast_add, Nat.cast_one]
          rw [mul_div_cancel₀ _ hl.ne', one_mul]

/-- C19: with `adjust="linear"` (`ignore_na=True`, no initial value), after `n ≥ 1` observations with
`n - 1 ≤ com` the output is their arithmetic mean. -/
theorem C19_ewma_linear_mean (c : EWMACfg K) (hc : 0 ≤ c.com) (ha : c.adjust = .linear)
    (hi : c.ignoreNa = true) (hini : c.initial = .nan) (hp : c.minPeriods = 0) (xs : List (Fl K)) (t : Nat)
    (ht : t < xs.length) :
    let seen := observed ((xs.take (t + 1)).map (reading c.big))
    seen ≠ [] → (seen.length : K) - 1 ≤ c.com →
      ∃ o, ((ewma c).run xs)[t]? = some o ∧ o.value = .fin (mean seen) := by
  intro seen hne hle
  obtain ⟨o, e1, _, e3, _⟩ := ewma_at c hc xs t ht
  have hr : readings c.big c.initial (xs.take (t + 1)) = (xs.take (t + 1)).map (reading c.big) := by
    rw [hini]; rfl
  rw [hr] at e3
  obtain ⟨m, h1, _, h3⟩ := (aRun_linear c ha hi _).2 hne
  refine ⟨o, e1, ?_⟩
  rw [e3, hp, h1, h3 hle]
  simp [toFl, seen]

/-- C19: the effective centre of mass at an observed step is `min(n-1, com)` (growing by one per observation
up to the nominal value), and from then on the step is the recursive filter with constant weight
`alpha = 1/(1+com)`. -/
theorem C19_ewma_linear_filter (c : EWMACfg K) (hc : 0 ≤ c.com) (ha : c.adjust = .linear)
    (hi : c.ignoreNa = true) (hini : c.initial = .nan) (hp : c.minPeriods = 0) (xs : List (Fl K)) (x : Fl K)
    (k : K) (hx : reading c.big x = some k) :
    let before := observed (xs.map (reading c.big))
    (∃ o, ((ewma c).run (xs ++ [x]))[xs.length]? = some o ∧ o.comEff = .fin (min (before.length : K) c.com)) ∧
    (before ≠ [] → c.com ≤ (before.length : K) → ∃ y, lastValue c xs = some (.fin y) ∧
      lastValue c (xs ++ [x]) = some (.fin ((1 - 1 / (1 + c.com)) * y + 1 / (1 + c.com) * k))) := by
  intro before
  have hr : ∀ ys, readings c.big c.initial ys = ys.map (reading c.big) := by intro ys; rw [hini]; rfl
  have hn : nw c = 1 := by simp [nw, ha, Adjust.truthy]
  have hw : ∀ b w, aWt c b w = min w c.com := by intro b w; simp [aWt, ha, hi]
  constructor
  · obtain ⟨o, e1, _, _, e4⟩ := ewma_at c hc (xs ++ [x]) xs.length (by simp)
    refine ⟨o, e1, ?_⟩
    rw [e4]
    simp only [List.take_left, hr, hn, hw, div_one]
    obtain ⟨h1, h2⟩ := aRun_linear c ha hi (xs.map (reading c.big))
    by_cases ho : before = []
    · rw [h1 ho]; simp [ho, hc]
    · obtain ⟨m, e1, e2, _⟩ := h2 ho
      rw [e1, e2]; simp [before]
  · intro hb hle
    have hxs : xs ≠ [] := by rintro rfl; exact hb rfl
    obtain ⟨m, e1, e2, _⟩ := (aRun_linear c ha hi (xs.map (reading c.big))).2 hb
    refine ⟨m, ?_, ?_⟩
    · rw [lastValue_eq c hc hp _ hxs, hr, e1]; rfl
    · rw [lastValue_eq c hc hp _ (by simp), readings_snoc, aRun_snoc, hr, hx]
      generalize aRun c (xs.map (reading c.big)) = q at *
      obtain ⟨m', w⟩ := q
      simp only at e1 e2
      subst e1
      simp only [aStep, hw, hn, toFl, Option.some.injEq, Fl.fin.injEq, e2]
      change (min (before.length : K) c.com * m + 1 * k) / (min (before.length : K) c.com + 1) = _
      rw [min_eq_right hle]
      have : 1 + c.com ≠ 0 := by positivity
      have : c.com + 1 ≠ 0 := by positivity
      field_simp
      ring

example : ((ewma (K := ℚ) ⟨3, .linear, true, 0, .nan, 1000⟩).run
    [.fin 1, .nan, .fin 5, .fin 6, .fin 8, .fin 9]).map (·.value) =
    [.fin 1, .fin 1, .fin 3, .fin 4, .fin 5, .fin 6] := by decide +kernel
example : (reading (1000:ℚ) (.fin 9) = some 9) ∧
    (3:ℚ) ≤ ((observed (([.fin 1, .nan, .fin 5, .fin 6, .fin 8] : List (Fl ℚ)).map (reading 1000))).length : ℚ) := by
  decide +kernel

/-! ## C20 -/

/-- C20: on every stream without infinities, the numba EWMA returns the same outputs as the module
(`com > 0` is asserted by the numba version; the initial value is finite or NaN). -/
theorem C20_numba_ewma_agrees_partial (c : EWMACfg K) (hc : 0 < c.com)
    (hini : c.initial ≠ .pinf ∧ c.initial ≠ .ninf) (xs : List (Fl K)) (hx : NoInf xs) :
    (numbaEwma c).run xs = ((ewma c).run xs).map (·.value) := by
  have hn := nw_pos c hc.le
  have hn' := hn.ne'
  have key : ∀ (xs : List (Fl K)), NoInf xs → ∀ (s s' : EWMAState K) (m : Option K) (w w' : K),
      0 ≤ w → 0 ≤ w' → s.mean = toFl m → s'.mean = toFl m → s.oldWt = .fin w → s'.oldWt = .fin w' →
      (m ≠ none → w = w') → (m = none → w = 1) → s.nobs = s'.nobs →
      (numbaEwma c).outsFrom s xs = ((ewma c).outsFrom s' xs).map (·.value) := by
    intro xs
    induction xs with
    | nil => intros; rfl
    | cons x xs ih =>
      intro hx s s' m w w' hw hw' hm hm' ho ho' hww hw1 hnn
      have hxx := hx x (by simp)
      have hxs : NoInf xs := fun y hy => hx y (by simp [hy])
      obtain ⟨o, hox⟩ : ∃ o, x = toFl o := by
        cases x with
        | nan => exact ⟨none, rfl⟩
        | fin k => exact ⟨some k, rfl⟩
        | pinf => exact absurd rfl hxx.1
        | ninf => exact absurd rfl hxx.2
      have hr : reading c.big s'.mean = m := by rw [hm']; simp
      have hrx : reading c.big x = o := by rw [hox]; simp
      have he := ewmaStep_eq c hc.le s' w' hw' ho' x
      simp only [hr, hrx] at he
      -- the numba step
      have hnum : (numbaEwma c).step s x =
          (if c.minPeriods ≤ s.nobs + (if o.isSome then 1 else 0) then toFl (aStep c (m, w) o).1 else .nan,
            ⟨toFl (aStep c (m, w) o).1, .fin (if m = none then 1 else (aStep c (m, w) o).2),
              s.nobs + (if o.isSome then 1 else 0)⟩) := by
        have hgd : (if Fl.lt (Fl.fin 0) (Fl.fin w) then Fl.maximum (Fl.fin 0) ((Fl.fin w - Fl.fin 1) / Fl.fin w)
            else Fl.fin 0) = Fl.fin (max 0 ((w - 1) / w)) := by
          rw [max_factor w hw]
          by_cases h0 : 0 < w
          · simp [h0]
          · have : w = 0 := le_antisymm (not_lt.mp h0) hw
            simp [this]
        simp only [numbaEwma, numbaStep, hm, ho, hox, isNan_toFl, min_fin, hgd, alpha_eq c hc.le,
          newWt_eq c hc.le]
        rcases m with _ | m
        · rw [hw1 rfl]
          rcases o with _ | o <;> simp [toFl, aStep]
        · rcases o with _ | o
          · cases hi : c.ignoreNa <;> cases ha : c.adjust <;> simp [toFl, aStep, aWt, hi, ha]
          · have hd : aWt c true w + nw c ≠ 0 := by
              have := aWt_nonneg c hc.le true w hw; positivity
            have hsame : (aWt c true w * o + nw c * o) / (aWt c true w + nw c) = o := by
              rw [← add_mul, mul_div_assoc, mul_div_cancel₀ _ hd]
            have hA : (if c.adjust = .linear then (Fl.fin (1:K), Fl.fin (min w c.com))
                else (Fl.fin (1 - al c), Fl.fin w)).2 * (if c.adjust = .linear then
                  (Fl.fin (1:K), Fl.fin (min w c.com)) else (Fl.fin (1 - al c), Fl.fin w)).1 = Fl.fin (aWt c true w) := by
              by_cases hl : c.adjust = .linear <;> simp [aWt, hl]
            simp only [toFl, Option.isNone_some, Bool.not_false, Bool.true_or, if_true, Fl.fin_sub, hA,
              Fl.feq_fin, decide_eq_true_eq, aStep, Fl.fin_mul, Fl.fin_add, Fl.fin_div_of_ne _ hd,
              Option.isSome_some, reduceCtorEq, if_false]
            by_cases hmo : m = o
            · subst hmo
              rw [hsame]
              cases ht : c.adjust.truthy <;> simp
            · cases ht : c.adjust.truthy <;> simp [hmo]
      have hA : m ≠ none → aStep c (m, w) o = aStep c (m, w') o := fun h => by rw [hww h]
      have hB : (aStep c (m, w) o).1 = (aStep c (m, w') o).1 := by
        by_cases h : m = none
        · subst h; cases o <;> rfl
        · rw [hA h]
      rw [Mealy.outsFrom_cons, Mealy.outsFrom_cons, List.map_cons, hnum]
      change _ = (ewmaStep c s' x).1.value :: List.map _ ((ewma c).outsFrom (ewmaStep c s' x).2 xs)
      rw [he, hnn, hB]
      refine congrArg₂ _ rfl ?_
      apply ih hxs _ _ (aStep c (m, w') o).1 (if m = none then 1 else (aStep c (m, w) o).2) (aStep c (m, w') o).2
      · split
        · exact zero_le_one
        · exact aStep_wt_nonneg c hc.le _ _ hw _
      · exact aStep_wt_nonneg c hc.le _ _ hw' _
      · rfl
      · rfl
      · rfl
      · rfl
      · intro h
        by_cases hm0 : m = none
        · subst hm0
          cases o with
          | none => exact absurd rfl h
          | some k => simp [aStep]
        · rw [if_neg hm0, hA hm0]
      · intro h
        by_cases hm0 : m = none
        · rw [if_pos hm0]
        · rcases m with _ | m
          · exact absurd rfl hm0
          · cases o <;> simp [aStep] at h
      · rfl
  obtain ⟨m, hm⟩ : ∃ m, c.initial = toFl m := by
    cases hcc : c.initial with
    | nan => exact ⟨none, rfl⟩
    | fin k => exact ⟨some k, rfl⟩
    | pinf => exact absurd hcc hini.1
    | ninf => exact absurd hcc hini.2
  exact key xs hx _ _ m 1 1 zero_le_one zero_le_one hm hm rfl rfl (fun _ => rfl) (fun _ => rfl) rfl

/-- C20, why "without infinities": on a stream with an infinity the two differ (numba propagates it, the
module replaces it by the largest finite float). -/
theorem C20_numba_ewma_inf_differs (c : EWMACfg K) (hc : 0 < c.com) (hini : c.initial = .nan)
    (hp : c.minPeriods = 0) :
    (numbaEwma c).run [.pinf] = [.pinf] ∧ ((ewma c).run [.pinf]).map (·.value) = [.fin c.big] := by
  constructor
  · simp [numbaEwma, Mealy.run, numbaStep, hini, hp]
  · have h := lastValue_eq c hc.le hp [.pinf] (by simp)
    have hr : readings c.big c.initial [.pinf] = [some c.big] := by rw [hini]; rfl
    rw [hr] at h
    have : (aRun c [some c.big]).1 = some c.big := rfl
    rw [this] at h
    simpa [lastValue, Mealy.run, toFl] using h

example : NoInf ([.fin 1, .nan, .fin 4] : List (Fl ℚ)) := by
  simp [NoInf]
example : (numbaEwma (K := ℚ) ⟨2, .yes, false, 1, .nan, 1000⟩).run [.nan, .fin 1, .nan, .fin 4] =
    [.nan, .fin 1, .fin 1, .fin (40 / 13)] := by decide +kernel

/-! ## C21 -/

/-- C21: running on `xs` and then on `ys` with the returned state gives the outputs of one run on `xs ++ ys`,
and leaves the same values in the returned state. -/
theorem C21_numba_resume (c : EWMACfg K) (h : Heap K) (fresh : Nat) (xs ys : List (Fl K)) (st : Option Nat) :
    let whole := numbaApply c h fresh (xs ++ ys) st
    let first := numbaApply c h fresh xs st
    let second := numbaApply c first.2.2 (fresh + 1) ys (some first.2.1)
    whole.1 = first.1 ++ second.1 ∧ whole.2.1 = second.2.1 ∧
      whole.2.2 whole.2.1 = second.2.2 second.2.1 := by
  intro whole first second
  cases st with
  | none =>
    simp [whole, first, second, numbaApply, Mealy.outsFrom_append, Mealy.stateFrom_append]
  | some a =>
    simp [whole, first, second, numbaApply, Mealy.outsFrom_append, Mealy.stateFrom_append]

/-- C21: what a call does to memory: without a state argument nothing the caller holds is changed; with one,
every other object is unchanged. -/
theorem C21_numba_frame_partial (c : EWMACfg K) (h : Heap K) (fresh : Nat) (xs : List (Fl K))
    (st : Option Nat) (b : Nat) (hb : b ≠ fresh) (hst : st ≠ some b) :
    (numbaApply c h fresh xs st).2.2 b = h b := by
  cases st with
  | none => simp [numbaApply, Function.update, hb]
  | some a =>
    have : b ≠ a := fun e => hst (by rw [e])
    simp [numbaApply, Function.update, this]

/-- C21, the part that is false of the code: the state passed in is overwritten by the call: it then holds the
final state, whatever was saved in it. -/
theorem C21_numba_overwrites_saved_state (c : EWMACfg K) (h : Heap K) (fresh a : Nat) (xs : List (Fl K)) :
    let r := numbaApply c h fresh xs (some a)
    r.2.1 = a ∧ r.2.2 a = (numbaEwma c).stateFrom (h a) xs := by
  simp [numbaApply]

/-- C21: so restarting twice from the same saved state does not give the same result twice. -/
theorem C21_numba_replay_differs :
    let c : EWMACfg ℚ := ⟨1, .no, false, 0, .nan, 1000⟩
    let h0 : Heap ℚ := fun _ => ⟨.nan, .nan, 0⟩
    let saved := numbaApply c h0 0 [.fin 0] none
    let once := numbaApply c saved.2.2 1 [.fin 8] (some saved.2.1)
    let twice := numbaApply c once.2.2 1 [.fin 8] (some saved.2.1)
    once.1 = [.fin 4] ∧ twice.1 = [.fin 6] := by decide +kernel

example : (1 : Nat) ≠ 5 ∧ (some 3 : Option Nat) ≠ some 1 := by decide

end Verif.Props
