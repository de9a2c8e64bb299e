import Verif.Model.EWMA
import Verif.Spec.EWMA
import Mathlib.Data.List.Induction
import Mathlib.Tactic.FieldSimp
import Mathlib.Tactic.Positivity

/-! # EWMA: from floats to the field -/

set_option linter.unusedSectionVars false
set_option linter.unusedSimpArgs false
set_option linter.unnecessarySeqFocus false

namespace Verif.Lemmas
open Model Spec
variable {K : Type} [Field K] [LinearOrder K] [IsStrictOrderedRing K]

/-- `alpha` as a field element. -/
def al (c : EWMACfg K) : K := 1 / (1 + c.com)

/-- weight of a new observation. -/
def nw (c : EWMACfg K) : K := if c.adjust.truthy then 1 else al c

/-- weight of the old mean at a step. -/
def aWt (c : EWMACfg K) (isObs : Bool) (w : K) : K :=
  if c.adjust = .linear then
    (if isObs then min w c.com else if c.ignoreNa then min w c.com
      else min w c.com * max 0 ((w - 1) / w))
  else if isObs || !c.ignoreNa then w * (1 - al c) else w

/-- the step on field elements. -/
def aStep (c : EWMACfg K) : Option K × K → Option K → Option K × K
  | (m, w), none => (m, if m.isNone then 0 else aWt c false w)
  | (none, _), some x => (some x, 1)
  | (some m, w), some x =>
    (some ((aWt c true w * m + nw c * x) / (aWt c true w + nw c)),
      if c.adjust.truthy then aWt c true w + nw c else 1)

theorem al_pos (c : EWMACfg K) (h : 0 ≤ c.com) : 0 < al c := by unfold al; positivity
theorem al_le_one (c : EWMACfg K) (h : 0 ≤ c.com) : al c ≤ 1 := by
  unfold al; rw [div_le_one (by positivity)]; linarith
theorem nw_pos (c : EWMACfg K) (h : 0 ≤ c.com) : 0 < nw c := by
  unfold nw; split
  · exact one_pos
  · exact al_pos c h

theorem alpha_eq (c : EWMACfg K) (h : 0 ≤ c.com) : c.alpha = Fl.fin (al c) := by
  have : (1 + c.com) ≠ 0 := by positivity
  simp [EWMACfg.alpha, al, this]

theorem newWt_eq (c : EWMACfg K) (h : 0 ≤ c.com) : c.newWt = Fl.fin (nw c) := by
  unfold EWMACfg.newWt nw
  split
  · rfl
  · exact alpha_eq c h

theorem aWt_nonneg (c : EWMACfg K) (h : 0 ≤ c.com) (b : Bool) (w : K) (hw : 0 ≤ w) : 0 ≤ aWt c b w := by
  have h1 := al_le_one c h
  have h2 : 0 ≤ min w c.com := le_min hw h
  unfold aWt
  split_ifs
  · exact h2
  · exact h2
  · exact mul_nonneg h2 (le_max_left _ _)
  · exact mul_nonneg hw (by linarith)
  · exact hw

theorem max_factor (w : K) (hw : 0 ≤ w) :
    Fl.maximum (Fl.fin 0) ((Fl.fin w - Fl.fin 1) / Fl.fin w) = Fl.fin (max 0 ((w - 1) / w)) := by
  by_cases h : w = 0
  · subst h
    have : ¬ ((0:K) < -1) := by
      have : (0:K) < 1 := one_pos
      intro h; linarith
    simp [Fl.fin_div, Fl.infSign, this, Fl.maximum, Fl.lt]
  · rw [Fl.fin_sub, Fl.fin_div_of_ne _ h]
    simp only [Fl.maximum, Fl.isNan_fin, Bool.or_self, Bool.false_eq_true, if_false, Fl.lt_fin,
      decide_eq_true_eq]
    split_ifs with h1
    · rw [max_eq_right h1.le]
    · rw [max_eq_left (not_lt.mp h1)]

theorem min_fin (a b : K) : Fl.minimum (Fl.fin a) (Fl.fin b) = Fl.fin (min a b) := by
  simp only [Fl.minimum, Fl.isNan_fin, Bool.or_self, Bool.false_eq_true, if_false, Fl.lt_fin,
    decide_eq_true_eq]
  split_ifs with h1
  · rw [min_eq_right h1.le]
  · rw [min_eq_left (not_lt.mp h1)]

theorem ewmaOldWt_eq (c : EWMACfg K) (h : 0 ≤ c.com) (b nanM : Bool) (w : K) (hw : 0 ≤ w) :
    ewmaOldWt c b nanM (Fl.fin w) = Fl.fin (if nanM then 0 else aWt c b w) := by
  unfold ewmaOldWt ewmaFactor aWt
  rw [max_factor w hw, min_fin, alpha_eq c h]
  cases nanM <;> cases b <;> cases hi : c.ignoreNa <;> cases ha : c.adjust <;> simp

theorem isNan_of_reading {big : K} {x : Fl K} : x.isNan = (reading big x).isNone := by
  cases x <;> rfl

theorem nanToNum_of_reading {big : K} {x : Fl K} : nanToNumDefault big x = Fl.fin ((reading big x).getD 0) := by
  cases x <;> rfl

theorem isNan_toFl (m : Option K) : (toFl m).isNan = m.isNone := by cases m <;> rfl
@[simp] theorem reading_toFl (big : K) (m : Option K) : reading big (toFl m) = m := by cases m <;> rfl

/-- One float step is one field step. -/
theorem ewmaStep_eq (c : EWMACfg K) (hc : 0 ≤ c.com) (s : EWMAState K) (w : K) (hw : 0 ≤ w)
    (hs : s.oldWt = Fl.fin w) (x : Fl K) :
    let m := reading c.big s.mean
    let o := reading c.big x
    let r := aStep c (m, w) o
    let n := s.nobs + (if o.isSome then 1 else 0)
    ewmaStep c s x =
      (⟨if c.minPeriods ≤ n then toFl r.1 else .nan,
        .fin ((if m.isNone then 0 else aWt c o.isSome w) / nw c), n⟩,
        ⟨toFl r.1, .fin r.2, n⟩) := by
  intro m o r n
  have hn := nw_pos c hc
  have key : ∀ (mean : Fl K), (if c.minPeriods ≠ 0 then (if c.minPeriods ≤ n then mean else Fl.nan) else mean)
      = if c.minPeriods ≤ n then mean else Fl.nan := by
    intro mean
    by_cases h : c.minPeriods = 0 <;> simp [h]
  have e1 : (!x.isNan) = o.isSome := by
    rw [isNan_of_reading (big := c.big)]; cases h : o <;> simp [o] at h <;> simp [h]
  have e2 : s.mean.isNan = m.isNone := isNan_of_reading
  have e3 : (if (!x.isNan) = true then s.nobs + 1 else s.nobs) = n := by
    rw [e1]; simp only [n]; split <;> rfl
  unfold ewmaStep
  simp only [e3, key]
  rw [e1, e2, hs, ewmaOldWt_eq c hc _ _ _ hw, newWt_eq c hc, nanToNum_of_reading, nanToNum_of_reading]
  have hn' := hn.ne'
  clear e1 e2 e3
  have hm : reading c.big s.mean = m := rfl
  have ho : reading c.big x = o := rfl
  have hr : r = aStep c (m, w) o := rfl
  have hd : ∀ b, aWt c b w + nw c ≠ 0 := fun b => by
    have := aWt_nonneg c hc b w hw; positivity
  rw [hm, ho, hr]
  clear_value m o n r
  clear hr hm ho key
  rcases m with _ | m <;> rcases o with _ | o <;> cases ht : c.adjust.truthy <;>
    simp [aStep, toFl, hn', hd, ht] <;> simp [nw, ht]

/-- The field machine: fold over readings. -/
def aRun (c : EWMACfg K) (h : List (Option K)) : Option K × K := h.foldl (aStep c) (none, 1)

theorem aRun_snoc (c : EWMACfg K) (h : List (Option K)) (o : Option K) :
    aRun c (h ++ [o]) = aStep c (aRun c h) o := by simp [aRun]

theorem aStep_wt_nonneg (c : EWMACfg K) (hc : 0 ≤ c.com) (m : Option K) (w : K) (hw : 0 ≤ w) (o : Option K) :
    0 ≤ (aStep c (m, w) o).2 := by
  have h1 := nw_pos c hc
  rcases m with _ | m <;> rcases o with _ | o <;> simp only [aStep]
  · simp
  · exact zero_le_one
  · simpa using aWt_nonneg c hc _ w hw
  · have := aWt_nonneg c hc true w hw
    split
    · positivity
    · exact zero_le_one

theorem aRun_wt_nonneg (c : EWMACfg K) (hc : 0 ≤ c.com) (h : List (Option K)) : 0 ≤ (aRun c h).2 := by
  induction h using List.reverseRecOn with
  | nil => exact zero_le_one
  | append_singleton h o ih =>
    rw [aRun_snoc]
    exact aStep_wt_nonneg c hc _ _ ih o

theorem readings_snoc (big : K) (i : Fl K) (xs : List (Fl K)) (x : Fl K) :
    readings big i (xs ++ [x]) = readings big i xs ++ [reading big x] := by
  simp [readings]

/-- The state of EWMA after any stream. -/
theorem ewma_stateAfter (c : EWMACfg K) (hc : 0 ≤ c.com) (xs : List (Fl K)) :
    let s := (ewma c).stateAfter xs
    let r := aRun c (readings c.big c.initial xs)
    reading c.big s.mean = r.1 ∧ s.oldWt = .fin r.2 ∧
      s.nobs = (observed (xs.map (reading c.big))).length := by
  induction xs using List.reverseRecOn with
  | nil =>
    simp only [Mealy.stateAfter, Mealy.stateFrom_nil, ewma, readings, List.map_nil, List.append_nil]
    cases h : reading c.big c.initial <;> simp [aRun, aStep, observed]
  | append_singleton xs x ih =>
    obtain ⟨h1, h2, h3⟩ := ih
    simp only [Mealy.stateAfter_append_singleton]
    have hw := aRun_wt_nonneg c hc (readings c.big c.initial xs)
    have he := ewmaStep_eq c hc ((ewma c).stateAfter xs) _ hw h2 x
    have hr : readings c.big c.initial (xs ++ [x]) = readings c.big c.initial xs ++ [reading c.big x] := by
      simp [readings]
    rw [hr, aRun_snoc]
    change (reading c.big (ewmaStep c _ x).2.mean = _ ∧ (ewmaStep c _ x).2.oldWt = _ ∧
      (ewmaStep c _ x).2.nobs = _)
    rw [he, h1, h3]
    refine ⟨reading_toFl _ _, rfl, ?_⟩
    simp only [observed, List.map_append, List.map_cons, List.map_nil, List.filterMap_append,
      List.length_append]
    cases reading c.big x <;> simp

/-- The output of EWMA at every step, in terms of the field machine. -/
theorem ewma_out (c : EWMACfg K) (hc : 0 ≤ c.com) (xs : List (Fl K)) (x : Fl K) :
    let h := readings c.big c.initial xs
    let o := reading c.big x
    let n := (observed ((xs ++ [x]).map (reading c.big))).length
    ((ewma c).step ((ewma c).stateAfter xs) x).1 =
      ⟨if c.minPeriods ≤ n then toFl (aRun c (h ++ [o])).1 else .nan,
       .fin ((if (aRun c h).1.isNone then 0 else aWt c o.isSome (aRun c h).2) / nw c), n⟩ := by
  intro h o n
  obtain ⟨h1, h2, h3⟩ := ewma_stateAfter c hc xs
  have hw := aRun_wt_nonneg c hc h
  have he := ewmaStep_eq c hc ((ewma c).stateAfter xs) _ hw h2 x
  have hn : n = (observed (xs.map (reading c.big))).length + (if o.isSome then 1 else 0) := by
    simp only [n, observed, List.map_append, List.map_cons, List.map_nil, List.filterMap_append,
      List.length_append]
    cases ho : o <;> simp only [o] at ho <;> simp [ho]
  change (ewmaStep c _ x).1 = _
  rw [he, h1, h3, ← hn, aRun_snoc]

theorem ewma_at (c : EWMACfg K) (hc : 0 ≤ c.com) (xs : List (Fl K)) (t : Nat) (ht : t < xs.length) :
    let n := (observed ((xs.take (t + 1)).map (reading c.big))).length
    ∃ o, ((ewma c).run xs)[t]? = some o ∧ o.nobs = n ∧
      o.value = (if c.minPeriods ≤ n then toFl (aRun c (readings c.big c.initial (xs.take (t + 1)))).1 else .nan) ∧
      o.comEff = .fin ((if (aRun c (readings c.big c.initial (xs.take t))).1.isNone then 0
        else aWt c (reading c.big xs[t]).isSome (aRun c (readings c.big c.initial (xs.take t))).2) / nw c) := by
  intro n
  have hx : xs.take (t + 1) = xs.take t ++ [xs[t]] := (List.take_append_getElem ht).symm
  rw [Mealy.run, Mealy.outsFrom_getElem?, List.getElem?_eq_getElem ht]
  simp only [Option.map_some]
  refine ⟨_, rfl, ?_⟩
  have := ewma_out c hc (xs.take t) xs[t]
  rw [Mealy.stateAfter] at this
  simp only [← hx, ← readings_snoc] at this
  rw [this]
  exact ⟨rfl, rfl, rfl⟩

end Verif.Lemmas
