import Verif.Props.AutodiffChain

/-! # C209: a NaN cotangent spreads: `PctChange` on the outputs of `EWMA` makes the gradient of the parameter NaN -/

namespace Verif.Props
open Verif Verif.Spec Verif.Model Verif.Model.Autodiff
set_option linter.unusedSectionVars false

section
variable {K : Type} [Field K] [LinearOrder K]

/-- The operands of an operation that surely get the cotangent NaN when its value has the cotangent NaN. -/
def nanPull : Prim K → List Nat
  | .const _ => []
  | .add i j | .sub i j | .mul i j | .div i j | .max i j | .min i j => [i, j]
  | .exp i | .sqrt i | .sq i | .pow i _ => [i]
  | .select p i j => if p then [i] else [j]

/-- The positions that surely get the cotangent NaN in the backward pass. -/
def nanBack : List (Prim K) → Nat → List Nat → List Nat
  | [], _, bs => bs
  | p :: ps, n, bs =>
    let bs := nanBack ps (n + 1) bs
    (bs.filter (· < n)) ++ (if bs.contains n then (nanPull p) else [])

theorem nan_pull (env : List (Fl K)) (v : Fl K) (p : Prim K) (i : Nat) (hi : i ∈ nanPull p) : (i, Fl.nan) ∈ p.pull env v .nan := by
  have ng : -(Fl.nan : Fl K) = .nan := rfl
  cases p with
  | select p i j => cases p <;> simp_all [nanPull, Prim.pull]
  | _ => simp_all [nanPull, Prim.pull]

theorem accumulate_nan (l : List (Nat × Fl K)) : ∀ (cts : List (Fl K)) (i : Nat), (look cts i = .nan ∨ (i, Fl.nan) ∈ l) → look (accumulate cts l) i = .nan := by
  induction l with
  | nil => intro cts i h; simpa [accumulate] using h
  | cons e l ih =>
    intro cts i h
    have e1 : accumulate cts (e :: l) = accumulate (cts.modify e.1 (· + e.2)) l := rfl
    rw [e1]
    refine ih _ i ?_
    by_cases hl : i < cts.length
    · have hg : look (cts.modify e.1 (· + e.2)) i = if e.1 = i then look cts i + e.2 else look cts i := by
        unfold look
        rw [List.getD_eq_getElem _ _ (by simpa using hl), List.getD_eq_getElem _ _ hl, List.getElem_modify]
      rcases h with h | h
      · left; rw [hg, h]; split <;> simp
      · rcases List.mem_cons.mp h with h | h
        · left; rw [hg, ← h]; simp
        · right; exact h
    · left
      unfold look
      rw [List.getD_eq_default _ _ (by simpa using hl)]

/-- The positions marked get NaN. -/
theorem nanBack_sound (F : Fns K) (ps : List (Prim K)) : ∀ (env cts : List (Fl K)) (bs : List Nat), (∀ i ∈ bs, look cts i = .nan) →
    ∀ i ∈ nanBack ps env.length bs, look (backward F ps env cts) i = .nan := by
  induction ps with
  | nil => intro env cts bs h i hi; exact h i hi
  | cons p ps ih =>
    intro env cts bs h i hi
    have h2 := ih (env ++ [p.eval F env]) cts bs h
    rw [List.length_append, List.length_singleton] at h2
    rw [nanBack] at hi
    rw [backward]
    refine accumulate_nan _ _ i ?_
    rcases List.mem_append.mp hi with hi | hi
    · left
      have hm := List.mem_filter.mp hi
      have hlt : i < env.length := by simpa using hm.2
      have := h2 i hm.1
      unfold look at this ⊢
      rw [List.getD_eq_getElem?_getD, List.getElem?_take_of_lt hlt, ← List.getD_eq_getElem?_getD]
      exact this
    · right
      split at hi
      · rename_i hc
        rw [h2 env.length (by simpa using hc)]
        exact nan_pull env _ p i hi
      · exact absurd hi (by simp)

/-- The trace of a call of EWMA with `adjust=False` on an observed value: a NaN cotangent of the output reaches `logcom`. -/
theorem ewma_trace_nan (keep : Nat) (c : EWMACfg K) (ha : c.adjust = .no) (s : EWMAState K) (x : Fl K) (hx : x.isNan = false)
    (hn : c.minPeriods ≤ s.nobs + 1) : 0 ∈ nanBack (ewmaTrace keep c s x) 4 [31] := by
  have e : (decide (c.minPeriods = 0) || decide (c.minPeriods ≤ s.nobs + 1)) = true := by simp [hn]
  unfold ewmaTrace ewmaMode ewmaTail ewmaFront
  simp only [ha, hx, e, Adjust.truthy, Bool.not_false, Bool.or_true, reduceCtorEq, if_false, Bool.false_eq_true]
  generalize s.mean.isNan = b1
  generalize Fl.feq x .pinf = b2
  generalize Fl.feq x .ninf = b3
  generalize Fl.feq s.mean .pinf = b4
  generalize Fl.feq s.mean .ninf = b5
  cases b1 <;> cases b2 <;> cases b3 <;> cases b4 <;> cases b5 <;> simp [nanBack, nanPull]

set_option maxHeartbeats 1600000 in
/-- The same with any `adjust` once the mean is a number: then the old weight matters. -/
theorem ewma_trace_nan' (keep : Nat) (c : EWMACfg K) (s : EWMAState K) (x : Fl K) (hx : x.isNan = false) (hm : s.mean.isNan = false)
    (hn : c.minPeriods ≤ s.nobs + 1) : 0 ∈ nanBack (ewmaTrace keep c s x) 4 [ewmaBase c + 13] := by
  have e : (decide (c.minPeriods = 0) || decide (c.minPeriods ≤ s.nobs + 1)) = true := by simp [hn]
  unfold ewmaTrace ewmaMode ewmaTail ewmaFront ewmaBase
  simp only [hx, e, hm, Bool.not_false, Bool.or_true, if_false, Bool.false_eq_true]
  generalize Fl.feq x .pinf = b2
  generalize Fl.feq x .ninf = b3
  generalize Fl.feq s.mean .pinf = b4
  generalize Fl.feq s.mean .ninf = b5
  cases c.adjust <;> cases b2 <;> cases b3 <;> cases b4 <;> cases b5 <;> simp [nanBack, nanPull, Adjust.truthy]

theorem trace_length (keep : Nat) (c : EWMACfg K) (s : EWMAState K) (x : Fl K) : 4 + (ewmaTrace keep c s x).length = ewmaBase c + 14 := by
  unfold ewmaTrace ewmaMode ewmaTail ewmaFront ewmaBase
  by_cases h : c.adjust = .linear <;> simp [h]

theorem ewma_pull_nan (F : Fns K) (keep : Nat) (c : EWMACfg K) (l : K) (s : EWMAState K) (x gMean gWt : Fl K)
    (h : 0 ∈ nanBack (ewmaTrace keep c s x) 4 [ewmaBase c + 13]) : (ewmaPull F keep c l s x .nan gMean gWt).logcom = .nan := by
  unfold ewmaPull
  refine nanBack_sound F _ [Fl.fin l, s.mean, s.oldWt, x] _ [ewmaBase c + 13] ?_ 0 h
  intro i hi
  rw [List.mem_singleton.mp hi]
  unfold look
  rw [List.getD_eq_getElem]
  · simp
  · have := trace_length keep c s x
    simp only [List.length_set, List.length_replicate, List.length_cons, List.length_nil]
    omega

/-- The number of observed values. -/
def observedCount (xs : List (Fl K)) : Nat := (valid xs).length

theorem ewma_grad_nan (F : Fns K) (keep : Nat) (step : EWMACfg K → EWMAState K → Fl K → EWMAOut K × EWMAState K) (c : EWMACfg K)
    (hstep : ∀ s x, (step c s x).2.nobs = if x.isNan then s.nobs else s.nobs + 1) (ha : c.adjust = .no) (l : K) (xs : List (Fl K)) :
    ∀ (s : EWMAState K) (gs : List (Fl K)) (t : Nat) (x : Fl K), xs[t]? = some x → gs[t]? = some .nan → x.isNan = false →
    c.minPeriods ≤ s.nobs + observedCount (xs.take (t + 1)) → (ewmaGrad F keep step c l s xs gs).logcom = .nan := by
  induction xs with
  | nil => intro s gs t x hx; simp at hx
  | cons y xs ih =>
    intro s gs t x hx hg ho hn
    cases gs with
    | nil => simp at hg
    | cons g gs =>
      cases t with
      | zero =>
        simp only [List.getElem?_cons_zero, Option.some.injEq] at hx hg
        subst hx; subst hg
        have h := ewma_pull_nan F keep c l s y (ewmaGrad F keep step c l (step c s y).2 xs gs).mean
          (ewmaGrad F keep step c l (step c s y).2 xs gs).oldWt (by
            have := ewma_trace_nan keep c ha s y ho (by simpa [observedCount, valid, ho] using hn)
            simpa [ewmaBase, ha] using this)
        simp only [ewmaGrad, h, Fl.nan_add]
      | succ t =>
        have h := ih (step c s y).2 gs t x (by simpa using hx) (by simpa using hg) ho (by
          rw [hstep]
          rw [List.take_succ_cons] at hn
          cases hy : y.isNan <;> simp [observedCount, valid, hy] at hn ⊢ <;> omega)
        simp only [ewmaGrad, h, Fl.add_nan]

theorem haiku_nobs (c : EWMACfg K) (s : EWMAState K) (x : Fl K) : (ewmaStep c s x).2.nobs = if x.isNan then s.nobs else s.nobs + 1 := by
  simp only [ewmaStep]; cases x.isNan <;> rfl

theorem flax_nobs (c : EWMACfg K) (s : EWMAState K) (x : Fl K) : (flaxEwmaStep c s x).2.nobs = if x.isNan then s.nobs else s.nobs + 1 := by
  simp only [flaxEwmaStep]; cases x.isNan <;> rfl

/-- **C209**, 1 (Haiku EWMA): with `adjust=False`, one NaN among the weights of the outputs, at an observed value from which `min_periods` is reached, and the gradient
of `logcom` is NaN; whatever the values, the other weights and the functions `exp` and `root`. -/
theorem C209_one_nan_weight_partial (F : Fns K) (c : EWMACfg K) (ha : c.adjust = .no) (l : K) (xs gs : List (Fl K)) (t : Nat) (x : Fl K)
    (hx : xs[t]? = some x) (ho : x ≠ .nan) (hn : c.minPeriods ≤ (valid (xs.take (t + 1))).length) (hg : gs[t]? = some .nan) :
    (haikuEwmaGrad F c l xs gs).logcom = .nan ∧ (flaxEwmaGrad F c l xs gs).logcom = .nan := by
  have hx' : x.isNan = false := by cases x <;> simp_all [Fl.isNan]
  exact ⟨ewma_grad_nan F 13 ewmaStep c (haiku_nobs c) ha l xs _ gs t x hx hg hx' (by simpa [observedCount] using hn),
    ewma_grad_nan F 1 flaxEwmaStep c (flax_nobs c) ha l xs _ gs t x hx hg hx' (by simpa [observedCount] using hn)⟩

theorem ewma_grad_nan' (F : Fns K) (keep : Nat) (step : EWMACfg K → EWMAState K → Fl K → EWMAOut K × EWMAState K) (c : EWMACfg K)
    (hval : ∀ s x, (step c s x).1.value ≠ .nan → (step c s x).2.mean.isNan = false ∧ c.minPeriods ≤ (step c s x).2.nobs) (l : K)
    (s₀ : EWMAState K) (xs : List (Fl K)) :
    ∀ (s : EWMAState K) (gs : List (Fl K)) (t : Nat) (x : Fl K) (o : EWMAOut K),
    ((⟨s₀, step c⟩ : Mealy (EWMAState K) (Fl K) (EWMAOut K)).outsFrom s xs)[t]? = some o → o.value ≠ .nan → xs[t + 1]? = some x → x.isNan = false →
    gs[t + 1]? = some .nan → (ewmaGrad F keep step c l s xs gs).logcom = .nan := by
  induction xs with
  | nil => intro s gs t x o ho; simp [Mealy.outsFrom] at ho
  | cons y xs ih =>
    intro s gs t x o ho hv hx hxo hg
    cases gs with
    | nil => simp at hg
    | cons g gs =>
      rw [List.getElem?_cons_succ] at hx hg
      rw [ewmaGrad]
      cases t with
      | zero =>
        have ho' : (step c s y).1 = o := by simpa [Mealy.outsFrom] using ho
        obtain ⟨h1, h2⟩ := hval s y (by rw [ho']; exact hv)
        cases xs with
        | nil => simp at hx
        | cons z xs =>
          cases gs with
          | nil => simp at hg
          | cons g' gs =>
            simp only [List.getElem?_cons_zero, Option.some.injEq] at hx hg
            subst hx; subst hg
            have h := ewma_pull_nan F keep c l (step c s y).2 z (ewmaGrad F keep step c l (step c (step c s y).2 z).2 xs gs).mean
              (ewmaGrad F keep step c l (step c (step c s y).2 z).2 xs gs).oldWt
              (ewma_trace_nan' keep c (step c s y).2 z hxo h1 (by omega))
            rw [ewmaGrad]
            simp only [h, Fl.nan_add, Fl.add_nan]
      | succ t =>
        have h := ih (step c s y).2 gs t x o (by simpa [Mealy.outsFrom] using ho) hv hx hxo hg
        simp only [h, Fl.add_nan]

theorem haiku_value (c : EWMACfg K) (s : EWMAState K) (x : Fl K) (h : (ewmaStep c s x).1.value ≠ .nan) :
    (ewmaStep c s x).2.mean.isNan = false ∧ c.minPeriods ≤ (ewmaStep c s x).2.nobs := by
  have e : (ewmaStep c s x).1.value = if c.minPeriods ≠ 0 then (if c.minPeriods ≤ (ewmaStep c s x).2.nobs then (ewmaStep c s x).2.mean else .nan)
    else (ewmaStep c s x).2.mean := rfl
  rw [e] at h
  have nn : ∀ v : Fl K, v ≠ .nan → v.isNan = false := by intro v hv; cases v <;> simp_all [Fl.isNan]
  split at h
  · split at h
    · exact ⟨nn _ h, by assumption⟩
    · exact absurd rfl h
  · exact ⟨nn _ h, by omega⟩

theorem flax_value (c : EWMACfg K) (s : EWMAState K) (x : Fl K) (h : (flaxEwmaStep c s x).1.value ≠ .nan) :
    (flaxEwmaStep c s x).2.mean.isNan = false ∧ c.minPeriods ≤ (flaxEwmaStep c s x).2.nobs := by
  have e : (flaxEwmaStep c s x).1.value = if c.minPeriods ≠ 0 then (if c.minPeriods ≤ (flaxEwmaStep c s x).2.nobs then (flaxEwmaStep c s x).2.mean else .nan)
    else (flaxEwmaStep c s x).2.mean := rfl
  rw [e] at h
  have nn : ∀ v : Fl K, v ≠ .nan → v.isNan = false := by intro v hv; cases v <;> simp_all [Fl.isNan]
  split at h
  · split at h
    · exact ⟨nn _ h, by assumption⟩
    · exact absurd rfl h
  · exact ⟨nn _ h, by omega⟩

/-- **C209**, 2: with every `adjust` (`True`, `False`, `"linear"`), Haiku and Flax: a NaN among the weights of the outputs, at an observed value just after an output that is a number,
makes the gradient of `logcom` NaN. -/
theorem C209_later_nan_weight_partial (F : Fns K) (c : EWMACfg K) (l : K) (xs gs : List (Fl K)) (t : Nat) (x : Fl K) (o : EWMAOut K) (hv : o.value ≠ .nan)
    (hx : xs[t + 1]? = some x) (ho : x ≠ .nan) (hg : gs[t + 1]? = some .nan) :
    (((ewma c).run xs)[t]? = some o → (haikuEwmaGrad F c l xs gs).logcom = .nan) ∧
    (((flaxEwma c).run xs)[t]? = some o → (flaxEwmaGrad F c l xs gs).logcom = .nan) := by
  have hx' : x.isNan = false := by cases x <;> simp_all [Fl.isNan]
  exact ⟨fun h => ewma_grad_nan' F 13 ewmaStep c (haiku_value c) l _ xs _ gs t x o h hv hx hx' hg,
    fun h => ewma_grad_nan' F 1 flaxEwmaStep c (flax_value c) l _ xs _ gs t x o h hv hx hx' hg⟩

/-- The outputs before enough values are observed are missing. -/
theorem ewma_early (c : EWMACfg K) (xs : List (Fl K)) : ∀ (s₀ s : EWMAState K), (s.nobs = 0 → s.mean = .nan) → s.nobs + observedCount xs < max 1 c.minPeriods →
    ∀ v ∈ ((⟨s₀, ewmaStep c⟩ : Mealy (EWMAState K) (Fl K) (EWMAOut K)).outsFrom s xs).map (·.value), v = .nan := by
  induction xs with
  | nil => intro s₀ s _ _ v hv; simp [Mealy.outsFrom] at hv
  | cons x xs ih =>
    intro s₀ s hm hs v hv
    have hk : observedCount (x :: xs) = (if x.isNan then 0 else 1) + observedCount xs := by
      cases hx : x.isNan <;> simp [observedCount, valid, hx]; omega
    have hno := haiku_nobs c s x
    have hv' : v = (ewmaStep c s x).1.value ∨ v ∈ ((⟨s₀, ewmaStep c⟩ : Mealy (EWMAState K) (Fl K) (EWMAOut K)).outsFrom (ewmaStep c s x).2 xs).map (·.value) := by
      simpa [Mealy.outsFrom] using hv
    rcases hv' with h | h
    · rw [h]
      simp only [ewmaStep]
      cases hx : x.isNan
      · simp only [hx, Bool.false_eq_true, if_false] at hk
        have : c.minPeriods ≠ 0 := by omega
        simp only [Bool.not_false, if_true, if_pos this]
        rw [if_neg (by omega)]
      · by_cases hc : c.minPeriods = 0
        · have hz : s.nobs = 0 := by omega
          simp [hc, hm hz, Fl.isNan]
        · simp only [Bool.not_true, Bool.false_eq_true, if_false, ne_eq, hc, not_false_eq_true, if_true]
          split
          · have : s.nobs = 0 := by omega
            omega
          · rfl
    · refine ih s₀ (ewmaStep c s x).2 ?_ ?_ v h
      · intro hz
        rw [hno] at hz
        cases hx : x.isNan
        · simp [hx] at hz
        · simp only [hx, if_true] at hz
          simp only [ewmaStep, hx, hm hz]
          rfl
      · rw [hno, ← Nat.add_comm (observedCount xs)]
        rw [hk] at hs
        cases hx : x.isNan <;> simp [hx] at hs ⊢ <;> omega

/-- **C209**, 3: `PctChange` of an `EWMA(adjust=False)`, the returns of a smoothed series: as soon as `min_periods` values (one at least) are observed the gradient of
`logcom` is NaN, whatever the values, the weights and the options: the parameter cannot be trained. -/
theorem C209_pct_of_ewma_nan_partial [IsStrictOrderedRing K] (F : Fns K) (c : EWMACfg K) (ha : c.adjust = .no) (hi : c.initial = .nan) (l : K) (fz : Bool) (xs gs : List (Fl K))
    (hl : xs.length = gs.length) (hn : max 1 c.minPeriods ≤ (valid xs).length) :
    let d := ((ewmaPulled F 13 ewmaStep c l).project (·.value)).chain (pctChangePulled F fz)
    (d.gradFrom d.m.init xs gs).1.1.2.2 = .nan := by
  intro d
  have hch := C205_chain_rule ((ewmaPulled F 13 ewmaStep c l).project (·.value)) (pctChangePulled F fz) xs gs hl
  have hd : d.gradFrom d.m.init xs gs = _ := hch
  rw [hd, (project_grad _ _ _ _ _).1, ewmaPulled_grad]
  obtain ⟨ys, hys⟩ : ∃ ys, ys = ((ewmaPulled F 13 ewmaStep c l).project (·.value)).m.run xs := ⟨_, rfl⟩
  rw [← hys]
  have hys' : ys = ((ewmaPulled F 13 ewmaStep c l).m.outsFrom ⟨c.initial, Fl.fin 1, 0⟩ xs).map (·.value) := by
    rw [hys]; exact (project_grad (ewmaPulled F 13 ewmaStep c l) (·.value) xs _ []).2
  have hpct := pctPulled_grad F fz ys (.nan, bufferInit 2 .nan) gs rfl
  have hpct' : (pctChangePulled F fz).gradFrom (pctChangePulled F fz).m.init ys gs = _ := hpct
  rw [hpct']
  have hyl : ys.length = xs.length := by rw [hys']; simp
  have hex : ∃ t, max 1 c.minPeriods ≤ observedCount (xs.take (t + 1)) := ⟨xs.length, by rw [List.take_of_length_le (by omega)]; exact hn⟩
  classical
  obtain ⟨t, ht, hmin⟩ : ∃ t, max 1 c.minPeriods ≤ observedCount (xs.take (t + 1)) ∧ observedCount (xs.take t) < max 1 c.minPeriods := by
    refine ⟨Nat.find hex, Nat.find_spec hex, ?_⟩
    cases hf : Nat.find hex with
    | zero => simp [observedCount, valid]
    | succ u =>
      have := Nat.find_min hex (m := u) (by omega)
      omega
  have htl : t < xs.length := by
    by_contra hge
    rw [List.take_of_length_le (by omega)] at ht hmin
    omega
  have hsnoc : xs.take (t + 1) = xs.take t ++ [xs[t]] := by rw [List.take_succ_eq_append_getElem htl]
  have hobs : xs[t].isNan = false := by
    cases h : xs[t].isNan
    · rfl
    · have hs : observedCount (xs.take (t + 1)) = observedCount (xs.take t) := by
        rw [hsnoc]
        unfold observedCount valid
        have hz : List.filter (fun y : Fl K => !y.isNan) [xs[t]] = [] := by simp [h]
        rw [List.filter_append, hz, List.append_nil]
      omega
  have hearly : ∀ v ∈ ys.take t, v = .nan := by
    have h := ewma_early c (xs.take t) ⟨c.initial, Fl.fin 1, 0⟩ ⟨c.initial, Fl.fin 1, 0⟩ (fun _ => hi) (by simpa using hmin)
    have e : ys.take t = ((ewmaPulled F 13 ewmaStep c l).m.run (xs.take t)).map (·.value) := by
      rw [← Mealy.run_take, List.map_take, hys']
      rfl
    intro v hv
    rw [e] at hv
    exact h v hv
  have hnan := C201_first_input_nan_partial F fz ys gs (by omega) t (by omega) hearly
  exact ewma_grad_nan F 13 ewmaStep c (haiku_nobs c) ha l xs _ _ t xs[t] (List.getElem?_eq_getElem htl) hnan hobs (by
    have := le_trans (le_max_right 1 c.minPeriods) ht
    refine le_trans this (le_of_eq ?_)
    exact (Nat.zero_add _).symm)

end

section Cases

/-- Concrete instance of C209 (`C209_one_nan_weight_partial`, the NaN is needed): with ordinary weights the gradient is a number, with one NaN at the second observed value
it is NaN. -/
def exC209 : EWMACfg ℚ := ⟨1, .no, true, 0, .nan, 10 ^ 30⟩
def exC209F : Fns ℚ := ⟨fun _ => 1, id⟩
example : (haikuEwmaGrad exC209F exC209 0 [.fin 1, .nan, .fin 3] [.fin 1, .fin 1, .fin 1]).logcom = .fin (-1 / 2) := by decide +kernel
example : (haikuEwmaGrad exC209F exC209 0 [.fin 1, .nan, .fin 3] [.fin 1, .fin 1, .nan]).logcom = .nan :=
  (C209_one_nan_weight_partial exC209F exC209 rfl 0 [.fin 1, .nan, .fin 3] [.fin 1, .fin 1, .nan] 2 (.fin 3) rfl (by simp) (by decide +kernel) rfl).1

/-- Concrete instance of C209 (`C209_later_nan_weight_partial`): the default `adjust=True`, the second output is a number, the third weight is NaN; a NaN weight at the first value only
leaves a number. -/
example : (haikuEwmaGrad exC209F { exC209 with adjust := .yes } 0 [.fin 1, .fin 2, .fin 3] [.fin 1, .fin 1, .nan]).logcom = .nan :=
  (C209_later_nan_weight_partial exC209F { exC209 with adjust := .yes } 0 [.fin 1, .fin 2, .fin 3] [.fin 1, .fin 1, .nan] 1 (.fin 3)
    ⟨.fin (5 / 3), .fin (1 / 2), 2⟩ (by simp) rfl (by simp) rfl).1 (by decide +kernel)
example : (haikuEwmaGrad exC209F { exC209 with adjust := .yes } 0 [.fin 1, .fin 2, .fin 3] [.nan, .fin 1, .fin 1]).logcom ≠ .nan := by decide +kernel

/-- Concrete instance of C209 (`C209_pct_of_ewma_nan_partial`): the hypotheses hold of a stream of three values; with `adjust=True` the gradient of the same stream is a number, so
`adjust=False` matters. -/
example : let d := ((ewmaPulled exC209F 13 ewmaStep exC209 0).project (·.value)).chain (pctChangePulled exC209F true)
    (d.gradFrom d.m.init [.fin 1, .fin 2, .fin 4] [.fin 0, .fin 1, .fin 1]).1.1.2.2 = .nan :=
  C209_pct_of_ewma_nan_partial exC209F exC209 rfl rfl 0 true [.fin 1, .fin 2, .fin 4] [.fin 0, .fin 1, .fin 1] rfl (by decide +kernel)
example : let d := ((ewmaPulled exC209F 13 ewmaStep { exC209 with adjust := .yes } 0).project (·.value)).chain (pctChangePulled exC209F true)
    (d.gradFrom d.m.init [.fin 1, .fin 2, .fin 4] [.fin 0, .fin 1, .fin 1]).1.1.2.2 ≠ .nan := by decide +kernel
end Cases

end Verif.Props
