import Verif.Model.Counters
import Verif.Props.EWMA
import Verif.Props.RoundedVar
import Mathlib.Algebra.Order.Ring.Pow

/-! # C195, C196: observation counters as machine numbers -/

namespace Verif.Props
open Verif Verif.Spec Verif.Model Verif.Model.Counters
set_option linter.unusedSectionVars false
set_option linter.unusedSimpArgs false
variable {K : Type} [Field K] [LinearOrder K]

/-- How many of the first `t + 1` inputs are not NaN. -/
def seenBy (xs : List (Fl K)) (t : Nat) : Nat := (xs.take (t + 1)).countP fun x => !x.isNan

/-- What a counting step of EWMA does with its counter: it neither reads it nor `min_periods` to compute the mean. -/
structure Counting (core : EWMACfg K → EWMAState K → Fl K → EWMAOut K × EWMAState K) : Prop where
  nobs : ∀ c s x, (core c s x).2.nobs = if x.isNan then s.nobs else s.nobs + 1
  outNobs : ∀ c s x, (core c s x).1.nobs = (core c s x).2.nobs
  mean : ∀ (c : EWMACfg K) s x, (core { c with minPeriods := 0 } ⟨s.mean, s.oldWt, 0⟩ x).2.mean = (core c s x).2.mean
  oldWt : ∀ (c : EWMACfg K) s x, (core { c with minPeriods := 0 } ⟨s.mean, s.oldWt, 0⟩ x).2.oldWt = (core c s x).2.oldWt
  value : ∀ (c : EWMACfg K) s x, (core c s x).1.value =
    if c.minPeriods ≤ (core c s x).2.nobs then (core { c with minPeriods := 0 } ⟨s.mean, s.oldWt, 0⟩ x).1.value else .nan

theorem haiku_counting : Counting (K := K) ewmaStep where
  nobs c s x := by unfold ewmaStep; cases x.isNan <;> rfl
  outNobs c s x := rfl
  mean c s x := rfl
  oldWt c s x := rfl
  value c s x := by
    unfold ewmaStep
    by_cases h : c.minPeriods = 0
    · simp only [h, ne_eq, not_true_eq_false, if_false, Nat.zero_le, if_true]; rfl
    · simp only [h, ne_eq, not_false_eq_true, if_true, not_true_eq_false, if_false]; rfl

theorem flax_counting : Counting (K := K) flaxEwmaStep where
  nobs c s x := by unfold flaxEwmaStep; cases x.isNan <;> rfl
  outNobs c s x := rfl
  mean c s x := rfl
  oldWt c s x := rfl
  value c s x := by
    unfold flaxEwmaStep
    by_cases h : c.minPeriods = 0
    · simp only [h, ne_eq, not_true_eq_false, if_false, Nat.zero_le, if_true]; rfl
    · simp only [h, ne_eq, not_false_eq_true, if_true, not_true_eq_false, if_false]; rfl

theorem i32_succ (n : Nat) : i32 (i32 (n : Int) + 1) = i32 ((n + 1 : Nat) : Int) := by
  unfold i32; push_cast; rw [Int.bmod_add_bmod]

theorem i64_add (n k : Nat) : i64 (i64 (n : Int) + k) = i64 ((n + k : Nat) : Int) := by
  unfold i64; push_cast; rw [Int.bmod_add_bmod]

/-- The machine whose step is a counting `core`. -/
def plainOf (core : EWMACfg K → EWMAState K → Fl K → EWMAOut K × EWMAState K) (c : EWMACfg K) :
    Mealy (EWMAState K) (Fl K) (EWMAOut K) := ⟨⟨c.initial, .fin 1, 0⟩, core c⟩

/-- The machine with the int32 counter whose step is a counting `core`. -/
def machineOf (core : EWMACfg K → EWMAState K → Fl K → EWMAOut K × EWMAState K) (c : EWMACfg K) :
    Mealy (EWMAMachine K) (Fl K) (Fl K × Int) := ⟨⟨c.initial, .fin 1, 0⟩, ewmaMachineStep i32 core c⟩

section generic
variable {core : EWMACfg K → EWMAState K → Fl K → EWMAOut K × EWMAState K} (hc : Counting core)
include hc

theorem plain_nobs (c : EWMACfg K) (xs : List (Fl K)) :
    ((plainOf core c).stateAfter xs).nobs = xs.countP fun x => !x.isNan := by
  induction xs using List.reverseRecOn with
  | nil => rfl
  | append_singleton xs x ih =>
    rw [Mealy.stateAfter_append_singleton, List.countP_append]
    change (core c _ x).2.nobs = _
    rw [hc.nobs, ih]
    cases hx : x.isNan <;> simp [hx]

theorem machine_state (c : EWMACfg K) (xs : List (Fl K)) :
    (machineOf core c).stateAfter xs =
      ⟨((plainOf core c).stateAfter xs).mean, ((plainOf core c).stateAfter xs).oldWt, i32 ((xs.countP fun x => !x.isNan : Nat) : Int)⟩ := by
  induction xs using List.reverseRecOn with
  | nil =>
    have : i32 ((List.countP (fun x : Fl K => !x.isNan) [] : Nat) : Int) = 0 := by simp [i32]
    rw [this]; rfl
  | append_singleton xs x ih =>
    rw [Mealy.stateAfter_append_singleton, ih, Mealy.stateAfter_append_singleton]
    change (ewmaMachineStep i32 core c _ x).2 = ⟨(core c _ x).2.mean, (core c _ x).2.oldWt, _⟩
    unfold ewmaMachineStep
    simp only [hc.mean, hc.oldWt, EWMAMachine.mk.injEq, true_and]
    rw [List.countP_append]
    cases hx : x.isNan with
    | true => simp [hx]
    | false => simp only [Bool.false_eq_true, if_false, List.countP_singleton, hx, Bool.not_false, if_true]; exact i32_succ _

/-- Exactly what the int32 counter does, for every stream. -/
theorem machine_exact (c : EWMACfg K) (xs : List (Fl K)) (t : Nat) (ht : t < xs.length) :
    ∃ o, ((plainOf core { c with minPeriods := 0 }).run xs)[t]? = some o ∧ o.nobs = seenBy xs t ∧
      ((machineOf core c).run xs)[t]? =
        some (if c.minPeriods ≠ 0 ∧ i32 (seenBy xs t) < c.minPeriods then .nan else o.value, i32 (seenBy xs t)) := by
  have e : ∀ ys, ((plainOf core c).stateAfter ys) = ((plainOf core { c with minPeriods := 0 }).stateAfter ys) := by
    intro ys
    induction ys using List.reverseRecOn with
    | nil => rfl
    | append_singleton ys y ih =>
      rw [Mealy.stateAfter_append_singleton, Mealy.stateAfter_append_singleton, ih]
      change (core c _ y).2 = (core { c with minPeriods := 0 } _ y).2
      generalize (plainOf core { c with minPeriods := 0 }).stateAfter ys = s
      have h1 := hc.mean c s y
      have h2 := hc.oldWt c s y
      have h3 := hc.nobs c s y
      have h4 := hc.mean { c with minPeriods := 0 } s y
      have h5 := hc.oldWt { c with minPeriods := 0 } s y
      have h6 := hc.nobs { c with minPeriods := 0 } s y
      simp only at h4 h5
      have q1 := h1.symm.trans h4
      have q2 := h2.symm.trans h5
      have q3 := h3.trans h6.symm
      revert q1 q2 q3
      generalize (core c s y).2 = a
      generalize (core { c with minPeriods := 0 } s y).2 = b
      obtain ⟨a1, a2, a3⟩ := a
      obtain ⟨b1, b2, b3⟩ := b
      rintro rfl rfl rfl; rfl
  have hseen : seenBy xs t = ((xs.take t).countP fun x => !x.isNan) + if xs[t].isNan then 0 else 1 := by
    unfold seenBy
    rw [← List.take_append_getElem ht, List.countP_append, List.countP_singleton]
    cases xs[t].isNan <;> rfl
  refine ⟨(core { c with minPeriods := 0 } ((plainOf core { c with minPeriods := 0 }).stateAfter (xs.take t)) xs[t]).1, ?_, ?_, ?_⟩
  · rw [Mealy.run, Mealy.outsFrom_getElem?, List.getElem?_eq_getElem ht]; rfl
  · rw [hc.outNobs, hc.nobs, plain_nobs hc, hseen]
    cases xs[t].isNan <;> simp
  · rw [Mealy.run, Mealy.outsFrom_getElem?, List.getElem?_eq_getElem ht]
    change some (ewmaMachineStep i32 core c ((machineOf core c).stateAfter (xs.take t)) xs[t]).1 = _
    rw [machine_state hc, ← e]
    have hv := hc.value { c with minPeriods := 0 } ((plainOf core c).stateAfter (xs.take t)) xs[t]
    simp only [Nat.zero_le, if_true] at hv
    unfold ewmaMachineStep
    rw [hv]
    have hn : (if xs[t].isNan then i32 (((xs.take t).countP fun x => !x.isNan : Nat) : Int)
        else i32 (i32 (((xs.take t).countP fun x => !x.isNan : Nat) : Int) + 1)) = i32 (seenBy xs t) := by
      rw [hseen]
      cases xs[t].isNan with
      | true => simp
      | false => simp only [Bool.false_eq_true, if_false]; exact i32_succ _
    simp only [hn]
    by_cases h0 : c.minPeriods = 0
    · simp [h0]
    · by_cases hl : i32 (seenBy xs t) < c.minPeriods
      · simp [h0, hl, not_le.mpr hl]
      · simp [h0, hl, not_lt.mp hl]

end generic

theorem i32_small (n : Nat) (h : n < 2 ^ 31) : i32 (n : Int) = n := by unfold i32; rw [Int.bmod_eq_of_le] <;> omega

/-- **C195**, what the counter does: on every stream, the output of the EWMA with its int32 counter is the mean of all the readings (that of the
EWMA without `min_periods`), hidden when the number of observations, taken as an int32, is below `min_periods`.  Haiku and Flax. -/
theorem C195_exact (c : EWMACfg K) (xs : List (Fl K)) (t : Nat) (ht : t < xs.length) :
    (∃ o, ((ewma { c with minPeriods := 0 }).run xs)[t]? = some o ∧ o.nobs = seenBy xs t ∧
      ((ewma32 c).run xs)[t]? =
        some (if c.minPeriods ≠ 0 ∧ Int.bmod (seenBy xs t) (2 ^ 32) < c.minPeriods then .nan else o.value, Int.bmod (seenBy xs t) (2 ^ 32))) ∧
    (∃ o, ((flaxEwma { c with minPeriods := 0 }).run xs)[t]? = some o ∧ o.nobs = seenBy xs t ∧
      ((flaxEwma32 c).run xs)[t]? =
        some (if c.minPeriods ≠ 0 ∧ Int.bmod (seenBy xs t) (2 ^ 32) < c.minPeriods then .nan else o.value, Int.bmod (seenBy xs t) (2 ^ 32))) :=
  ⟨machine_exact haiku_counting c xs t ht, machine_exact flax_counting c xs t ht⟩

/-- **C195**, short streams: as long as fewer than `2^31` observations were made, the machine counter is the count: outputs and counters are
those of the EWMA of C16-C19. -/
theorem C195_short (c : EWMACfg K) (xs : List (Fl K)) (h : (xs.countP fun x => !x.isNan) < 2 ^ 31) :
    (ewma32 c).run xs = ((ewma c).run xs).map (fun o => (o.value, (o.nobs : Int))) ∧
    (flaxEwma32 c).run xs = ((flaxEwma c).run xs).map (fun o => (o.value, (o.nobs : Int))) := by
  have gen : ∀ core : EWMACfg K → EWMAState K → Fl K → EWMAOut K × EWMAState K, Counting core →
      (machineOf core c).run xs = ((plainOf core c).run xs).map (fun o => (o.value, (o.nobs : Int))) := by
    intro core hc
    refine Mealy.run_eq_of_steps _ _ _ xs fun t ht => ?_
    rw [machine_state hc]
    change (ewmaMachineStep i32 core c _ _).1 = ((core c _ _).1.value, (((core c _ _).1.nobs : Nat) : Int))
    have hk := List.countP_append (p := fun x : Fl K => !x.isNan) (l₁ := xs.take (t + 1)) (l₂ := xs.drop (t + 1))
    rw [List.take_append_drop, ← List.take_append_getElem ht, List.countP_append, List.countP_singleton] at hk
    rw [hc.outNobs, hc.value, hc.nobs, plain_nobs hc]
    unfold ewmaMachineStep
    generalize ((plainOf core c).stateAfter (xs.take t)) = s
    generalize hn : ((xs.take t).countP fun x => !x.isNan) = n at *
    have e : (if xs[t].isNan then i32 (n : Int) else i32 (i32 (n : Int) + 1)) = ((if xs[t].isNan then n else n + 1 : Nat) : Int) := by
      cases hx : xs[t].isNan with
      | true => simp only [if_true]; exact i32_small n (by omega)
      | false =>
        simp only [hx, Bool.not_false, if_true] at hk
        simp only [Bool.false_eq_true, if_false]; rw [i32_succ]; exact i32_small _ (by omega)
    simp only [e]
    generalize (if xs[t].isNan then n else n + 1) = m
    by_cases h0 : c.minPeriods = 0
    · simp [h0]
    · simp [h0]
  exact ⟨gen _ haiku_counting, gen _ flax_counting⟩

/-- **C195**: without `min_periods` the counter has no effect on the averages, however long the stream. -/
theorem C195_no_min_periods (c : EWMACfg K) (h : c.minPeriods = 0) (xs : List (Fl K)) :
    ((ewma32 c).run xs).map Prod.fst = ((ewma c).run xs).map (·.value) ∧
    ((flaxEwma32 c).run xs).map Prod.fst = ((flaxEwma c).run xs).map (·.value) := by
  have hc : { c with minPeriods := 0 } = c := by cases c; simp only at h; subst h; rfl
  constructor
  all_goals
    apply List.ext_getElem?
    intro t
    rw [List.getElem?_map, List.getElem?_map]
    by_cases ht : t < xs.length
    · obtain ⟨⟨o, e1, _, e2⟩, ⟨o', e1', _, e2'⟩⟩ := C195_exact c xs t ht
      rw [hc] at e1 e1'
      first
        | (rw [e1, e2]; simp [h])
        | (rw [e1', e2']; simp [h])
    · rw [List.getElem?_eq_none (by simpa using ht), List.getElem?_eq_none (by simpa using ht)]; rfl

/-- **C195**, the defect: with `min_periods ≥ 1`, between `2^31` and `2^32` observations every output is NaN. -/
theorem C195_goes_silent_partial (c : EWMACfg K) (hm : 1 ≤ c.minPeriods) (xs : List (Fl K)) (t : Nat) (ht : t < xs.length)
    (h1 : 2 ^ 31 ≤ seenBy xs t) (h2 : seenBy xs t < 2 ^ 32) :
    (((ewma32 c).run xs)[t]?).map Prod.fst = some .nan ∧ (((flaxEwma32 c).run xs)[t]?).map Prod.fst = some .nan := by
  obtain ⟨⟨o, _, _, e2⟩, ⟨o', _, _, e2'⟩⟩ := C195_exact c xs t ht
  have hneg : Int.bmod (seenBy xs t) (2 ^ 32) < c.minPeriods := by
    have := Int.bmod_lt (x := (seenBy xs t : Int)) (m := 2 ^ 32) (by norm_num)
    have e : Int.bmod (seenBy xs t : Int) (2 ^ 32) = (seenBy xs t : Int) - 2 ^ 32 := by
      rw [Int.bmod_def, Int.emod_eq_of_lt (by omega) (by exact_mod_cast h2), if_neg (by push_cast; omega)]; norm_num
    rw [e]; omega
  have h0 : c.minPeriods ≠ 0 := by omega
  rw [e2, e2', if_pos ⟨h0, hneg⟩, if_pos ⟨h0, hneg⟩]
  exact ⟨rfl, rfl⟩

theorem seenBy_replicate (v : K) (n t : Nat) (h : t < n) : seenBy (List.replicate n (Fl.fin v)) t = t + 1 := by
  unfold seenBy
  rw [List.take_replicate, List.countP_replicate, Nat.min_eq_left (by omega)]; rfl

/-- **C195**, the defect on a concrete family of streams: feed `2^31` times the value `v` to an EWMA that needs at least one observation.  The last
but one output is `v`, the last one NaN. -/
theorem C195_constant_stream_partial [IsStrictOrderedRing K] (c : EWMACfg K) (hc : 0 ≤ c.com) (hi : c.initial = .nan) (hm : 1 ≤ c.minPeriods)
    (hm2 : c.minPeriods < 2 ^ 31) (v : K) :
    (((ewma32 c).run (List.replicate (2 ^ 31) (.fin v)))[2 ^ 31 - 2]?).map Prod.fst = some (.fin v) ∧
    (((ewma32 c).run (List.replicate (2 ^ 31) (.fin v)))[2 ^ 31 - 1]?).map Prod.fst = some .nan := by
  have big : ∀ N : Nat, N = 2 ^ 31 →
      (((ewma32 c).run (List.replicate N (.fin v)))[N - 2]?).map Prod.fst = some (.fin v) ∧
      (((ewma32 c).run (List.replicate N (.fin v)))[N - 1]?).map Prod.fst = some .nan := by
    intro N hN
    have hNb : 2 ≤ N := by rw [hN]; norm_num
    constructor
    · have ht : N - 2 < (List.replicate N (Fl.fin v)).length := by rw [List.length_replicate]; omega
      obtain ⟨⟨o, e1, e3, e2⟩, -⟩ := C195_exact c _ _ ht
      rw [seenBy_replicate v N _ (by omega)] at e2 e3
      have hlt : ¬ (c.minPeriods ≠ 0 ∧ Int.bmod ((N - 2 + 1 : Nat) : Int) (2 ^ 32) < c.minPeriods) := by
        have := i32_small (N - 2 + 1) (by omega)
        unfold i32 at this
        rw [this]; omega
      rw [e2, if_neg hlt]
      have hr : readings c.big c.initial ((List.replicate N (Fl.fin v)).take (N - 2 + 1)) = List.replicate (N - 1) (some v) := by
        rw [hi, List.take_replicate, Nat.min_eq_left (by omega)]
        simp only [readings, reading, List.nil_append, List.map_replicate]
        congr 1
        omega
      have ho : observed (List.replicate (N - 1) (some v)) = List.replicate (N - 1) v := by
        simp [observed, List.filterMap_replicate]
      obtain ⟨o', f1, f2, f3, f4⟩ := C18_ewma_range { c with minPeriods := 0 } hc _ _ ht v v
        (by change ∀ k ∈ observed (readings c.big c.initial _), _
            rw [hr, ho]; intro k hk; obtain rfl := List.eq_of_mem_replicate hk; exact ⟨le_rfl, le_rfl⟩)
      rw [e1] at f1
      obtain rfl := Option.some.inj f1
      have hnn : o.value ≠ .nan := by
        intro hv
        rcases f3.mp hv with h | h
        · simp at h
        · change observed (readings c.big c.initial _) = [] at h
          rw [hr, ho, List.replicate_eq_nil_iff] at h; omega
      obtain ⟨w, hw, hw1, hw2⟩ := f4 hnn
      rw [Option.map_some, hw, le_antisymm hw2 hw1]
    · exact (C195_goes_silent_partial c hm _ _ (by rw [List.length_replicate]; omega)
        (by rw [seenBy_replicate v N _ (by omega)]; omega) (by rw [seenBy_replicate v N _ (by omega)]; omega)).1
  exact big _ rfl

theorem numba_counting (c : EWMACfg K) (s : EWMAState K) (x : Fl K) :
    numbaStep { c with minPeriods := 0 } ⟨s.mean, s.oldWt, 0⟩ x =
      ((numbaStep c s x).2.mean, ⟨(numbaStep c s x).2.mean, (numbaStep c s x).2.oldWt, if x.isNan then 0 else 1⟩) ∧
    (numbaStep c s x).2.nobs = s.nobs + (if x.isNan then 0 else 1) ∧
    (numbaStep c s x).1 = if c.minPeriods ≤ (numbaStep c s x).2.nobs then (numbaStep c s x).2.mean else .nan := by
  unfold numbaStep
  refine ⟨?_, ?_, rfl⟩
  · simp only [Nat.zero_le, if_true]
    refine Prod.ext rfl ?_
    simp only [EWMAState.mk.injEq]
    refine ⟨rfl, rfl, ?_⟩
    cases x.isNan <;> rfl
  · cases x.isNan <;> rfl

theorem numba_nobs (c : EWMACfg K) (ys : List (Fl K)) : ((numbaEwma c).stateAfter ys).nobs = ys.countP fun x => !x.isNan := by
  induction ys using List.reverseRecOn with
  | nil => rfl
  | append_singleton ys y ih =>
    rw [Mealy.stateAfter_append_singleton, List.countP_append, List.countP_singleton]
    change (numbaStep c _ y).2.nobs = _
    rw [(numba_counting c _ y).2.1, ih]
    cases y.isNan <;> rfl

theorem numba64_state (c : EWMACfg K) (ys : List (Fl K)) : (numbaEwma64 c).stateAfter ys =
    ⟨((numbaEwma c).stateAfter ys).mean, ((numbaEwma c).stateAfter ys).oldWt, i64 ((ys.countP fun x => !x.isNan : Nat) : Int)⟩ := by
  induction ys using List.reverseRecOn with
  | nil =>
    have : i64 ((List.countP (fun x : Fl K => !x.isNan) [] : Nat) : Int) = 0 := by simp [i64]
    rw [this]; rfl
  | append_singleton ys y ih =>
    rw [Mealy.stateAfter_append_singleton, ih, Mealy.stateAfter_append_singleton]
    simp only [numbaEwma64, (numba_counting c _ y).1]
    simp only [EWMAMachine.mk.injEq]
    refine ⟨rfl, rfl, ?_⟩
    rw [List.countP_append, List.countP_singleton]
    have := i64_add (ys.countP fun x => !x.isNan) (if y.isNan then 0 else 1)
    cases hy : y.isNan <;> rw [hy] at this <;> exact this

theorem numba_mean_plain (c : EWMACfg K) (ys : List (Fl K)) :
    ((numbaEwma c).stateAfter ys).mean = ((numbaEwma { c with minPeriods := 0 }).stateAfter ys).mean ∧
    ((numbaEwma c).stateAfter ys).oldWt = ((numbaEwma { c with minPeriods := 0 }).stateAfter ys).oldWt := by
  induction ys using List.reverseRecOn with
  | nil => exact ⟨rfl, rfl⟩
  | append_singleton ys y ih =>
    rw [Mealy.stateAfter_append_singleton, Mealy.stateAfter_append_singleton]
    have h1 := (numba_counting c ((numbaEwma c).stateAfter ys) y).1
    have h2 := (numba_counting { c with minPeriods := 0 } ((numbaEwma { c with minPeriods := 0 }).stateAfter ys) y).1
    rw [ih.1, ih.2] at h1
    have e : ((numbaStep c ((numbaEwma c).stateAfter ys) y).2.mean, (numbaStep c ((numbaEwma c).stateAfter ys) y).2.oldWt) =
        ((numbaStep { c with minPeriods := 0 } ((numbaEwma { c with minPeriods := 0 }).stateAfter ys) y).2.mean,
          (numbaStep { c with minPeriods := 0 } ((numbaEwma { c with minPeriods := 0 }).stateAfter ys) y).2.oldWt) := by
      have := h1.symm.trans h2
      simp only [Prod.mk.injEq, EWMAState.mk.injEq] at this
      exact Prod.ext this.1 this.2.2.1
    exact ⟨congrArg Prod.fst e, congrArg Prod.snd e⟩

/-- **C195**, numba, exactly: after `n` observations the counter is `n` as an int64, and the output is NaN exactly when that is below `min_periods` (otherwise
it is the output of an EWMA without `min_periods`). -/
theorem C195_numba_exact (c : EWMACfg K) (xs : List (Fl K)) (t : Nat) (ht : t < xs.length) :
    ∃ y : Fl K, ((numbaEwma { c with minPeriods := 0 }).run xs)[t]? = some y ∧
      ((numbaEwma64 c).run xs)[t]? =
        some (if Int.bmod (seenBy xs t) (2 ^ 64) < c.minPeriods then .nan else y, Int.bmod (seenBy xs t) (2 ^ 64)) := by
  refine ⟨_, by rw [Mealy.run, Mealy.outsFrom_getElem?, List.getElem?_eq_getElem ht]; rfl, ?_⟩
  rw [Mealy.run, Mealy.outsFrom_getElem?, List.getElem?_eq_getElem ht]
  simp only [Option.map_some]
  change some ((numbaEwma64 c).step ((numbaEwma64 c).stateAfter (xs.take t)) xs[t]).1 =
    some (if _ then _ else (numbaStep { c with minPeriods := 0 } ((numbaEwma { c with minPeriods := 0 }).stateAfter (xs.take t)) xs[t]).1, _)
  have h2 := numba_counting { c with minPeriods := 0 } ((numbaEwma { c with minPeriods := 0 }).stateAfter (xs.take t)) xs[t]
  have h3 := h2.2.2
  simp only [Nat.zero_le, if_true] at h3
  rw [numba64_state, (numba_mean_plain c _).1, (numba_mean_plain c _).2, h3]
  simp only [numbaEwma64]
  have h1 := h2.1
  simp only at h1
  rw [h1]
  have e : i64 (i64 (((xs.take t).countP fun x => !x.isNan : Nat) : Int) + if xs[t].isNan then 0 else 1) =
      Int.bmod (seenBy xs t) (2 ^ 64) := by
    have g := i64_add ((xs.take t).countP fun x => !x.isNan) (if xs[t].isNan then 0 else 1)
    unfold seenBy
    rw [← List.take_append_getElem ht, List.countP_append, List.countP_singleton]
    cases hx : xs[t].isNan <;> rw [hx] at g <;> exact g
  simp only [e]
  by_cases hm : (c.minPeriods : Int) ≤ Int.bmod (seenBy xs t) (2 ^ 64)
  · rw [if_pos hm, if_neg (by omega)]
  · rw [if_neg hm, if_pos (by omega)]

/-- **C195**, numba, the defect: between `2^63` and `2^64` observations every output is NaN, even without `min_periods`. -/
theorem C195_numba_goes_silent_partial (c : EWMACfg K) (xs : List (Fl K)) (t : Nat) (ht : t < xs.length)
    (h1 : 2 ^ 63 ≤ seenBy xs t) (h2 : seenBy xs t < 2 ^ 64) : (((numbaEwma64 c).run xs)[t]?).map Prod.fst = some .nan := by
  obtain ⟨y, -, e⟩ := C195_numba_exact c xs t ht
  have hneg : Int.bmod (seenBy xs t) (2 ^ 64) < c.minPeriods := by
    have e : Int.bmod (seenBy xs t : Int) (2 ^ 64) = (seenBy xs t : Int) - 2 ^ 64 := by
      rw [Int.bmod_def, Int.emod_eq_of_lt (by omega) (by exact_mod_cast h2), if_neg (by push_cast; omega)]; norm_num
    rw [e]; omega
  rw [e, if_pos hneg]; rfl

/-- **C195**, numba: the int64 counter is the count as long as fewer than `2^63` observations were made. -/
theorem C195_numba (c : EWMACfg K) (xs : List (Fl K)) (h : (xs.countP fun x => !x.isNan) < 2 ^ 63) :
    ((numbaEwma64 c).run xs).map Prod.fst = (numbaEwma c).run xs := by
  apply List.ext_getElem?
  intro t
  rw [List.getElem?_map, Mealy.run, Mealy.run, Mealy.outsFrom_getElem?, Mealy.outsFrom_getElem?]
  by_cases ht : t < xs.length
  · rw [List.getElem?_eq_getElem ht]
    simp only [Option.map_some]
    congr 1
    change ((numbaEwma64 c).step ((numbaEwma64 c).stateAfter (xs.take t)) xs[t]).1.1 = (numbaStep c ((numbaEwma c).stateAfter (xs.take t)) xs[t]).1
    have hk := List.countP_append (p := fun x : Fl K => !x.isNan) (l₁ := xs.take (t + 1)) (l₂ := xs.drop (t + 1))
    rw [List.take_append_drop, ← List.take_append_getElem ht, List.countP_append, List.countP_singleton] at hk
    rw [numba64_state, (numba_counting c _ _).2.2, (numba_counting c _ _).2.1, numba_nobs]
    simp only [numbaEwma64, (numba_counting c _ _).1]
    have e : i64 (i64 (((xs.take t).countP fun x => !x.isNan : Nat) : Int) + if xs[t].isNan then 0 else 1) =
        (((xs.take t).countP fun x => !x.isNan) + if xs[t].isNan then 0 else 1 : Nat) := by
      have h1 := i64_add ((xs.take t).countP fun x => !x.isNan) (if xs[t].isNan then 0 else 1)
      have h2 : ∀ n : Nat, n < 2 ^ 63 → i64 (n : Int) = n := by
        intro n hn; unfold i64; rw [Int.bmod_eq_of_le] <;> omega
      cases hx : xs[t].isNan
      · rw [hx] at h1 hk
        simp only [Bool.not_false, if_true, Bool.false_eq_true, if_false] at h1 hk ⊢
        rw [show (1 : Int) = ((1 : Nat) : Int) from rfl, h1]; exact h2 _ (by omega)
      · rw [hx] at h1 hk
        simp only [Bool.not_true, if_true, Bool.false_eq_true, if_false] at h1 hk ⊢
        rw [show (0 : Int) = ((0 : Nat) : Int) from rfl, h1]; exact h2 _ (by omega)
    rw [e]
    by_cases hm : c.minPeriods ≤ ((xs.take t).countP fun x => !x.isNan) + if xs[t].isNan then 0 else 1
    · rw [if_pos hm, if_pos (by exact_mod_cast hm)]
    · rw [if_neg hm, if_neg (by exact_mod_cast hm)]
  · rw [List.getElem?_eq_none (by omega)]; rfl

/-! The hypotheses are met: a stream with a missing value, and a `min_periods` of 2. -/
example : ((ewma32 (⟨1, .yes, false, 2, .nan, 1000⟩ : EWMACfg ℚ)).run [.fin 3, .nan, .fin 6]) =
    [(.nan, 1), (.nan, 1), (.fin (27 / 5), 2)] := by decide +kernel
example : (([.fin 3, .nan, .fin 6] : List (Fl ℚ)).countP fun x => !x.isNan) < 2 ^ 31 := by decide +kernel
example : ∃ xs : List (Fl ℚ), 2 ^ 31 - 1 < xs.length ∧ 2 ^ 31 ≤ seenBy xs (2 ^ 31 - 1) ∧ seenBy xs (2 ^ 31 - 1) < 2 ^ 32 := by
  have gen : ∀ N : Nat, N = 2 ^ 31 →
      ∃ xs : List (Fl ℚ), N - 1 < xs.length ∧ N ≤ seenBy xs (N - 1) ∧ seenBy xs (N - 1) < 2 ^ 32 := by
    intro N hN
    refine ⟨List.replicate N (.fin 1), by rw [List.length_replicate]; omega, ?_, ?_⟩ <;> rw [seenBy_replicate _ _ _ (by omega)] <;> omega
  exact gen _ rfl

/-! ## C196: the float counter of EWMVar -/

section var
variable {R : K → Fl K} {N : Nat}

/-- A format whose integers are exact up to `N`, where adding 1 has no effect any more (`2^24` in float32). -/
structure StopsAt (R : K → Fl K) (N : Nat) : Prop where
  exact : ∀ n : Nat, n < N → R ((n : K) + 1) = .fin ((n : K) + 1)
  stop : R ((N : K) + 1) = .fin (N : K)

theorem count_succ (h : StopsAt R N) (n : Nat) : Rounded.add R (.fin ((min n N : Nat) : K)) (.fin 1) = .fin ((min (n + 1) N : Nat) : K) := by
  rw [Rounded.add, Fl.fin_add]
  change R _ = _
  by_cases hn : n < N
  · rw [Nat.min_eq_left hn.le, Nat.min_eq_left hn, h.exact n hn]; push_cast; rfl
  · rw [Nat.min_eq_right (by omega), Nat.min_eq_right (by omega), h.stop]

/-- **C196**, in general: if the smoothing factor no longer changes after `N` observations, the float counter, which stops at `N`, gives the same
variances as an ideal counter on every stream. -/
theorem C196_stopped_counter (h : StopsAt R N) (pw : Fl K → Fl K → Fl K) (com : K) (adjust : Adjust)
    (hα : ∀ n : Nat, N ≤ n → Rounded.varAlpha R (fun a n => pw a (.fin (n : K))) com adjust n =
      Rounded.varAlpha R (fun a n => pw a (.fin (n : K))) com adjust N) (xs : List (Fl K)) :
    (ewmvarMachine R pw com adjust).run xs = (Rounded.ewmvar R (fun a n => pw a (.fin (n : K))) com adjust).run xs := by
  refine Mealy.run_eq_of_sim _ _ (fun s s' => s.mean = s'.mean ∧ s.var = s'.var ∧ s.nobs = .fin ((min s'.nobs N : Nat) : K))
    ⟨rfl, rfl, by simp [ewmvarMachine, Rounded.ewmvar]⟩ ?_ xs
  rintro ⟨m, v, k⟩ ⟨m', v', k'⟩ x ⟨h1, h2, h3⟩
  simp only at h1 h2 h3
  subst h1 h2 h3
  have hcount : (if (!x.isNan) = true then Rounded.add R (.fin ((min k' N : Nat) : K)) (.fin 1) else .fin ((min k' N : Nat) : K)) =
      .fin ((min (if (!x.isNan) = true then k' + 1 else k') N : Nat) : K) := by
    cases x.isNan with
    | true => rfl
    | false => simpa using count_succ h k'
  have hA : ∀ n : Nat, varAlphaMachine R pw com adjust (.fin ((min n N : Nat) : K)) =
      Rounded.varAlpha R (fun a n => pw a (.fin (n : K))) com adjust n := by
    intro n
    have e : ∀ j : Nat, varAlphaMachine R pw com adjust (.fin (j : K)) = Rounded.varAlpha R (fun a n => pw a (.fin (n : K))) com adjust j := by
      intro j; cases adjust <;> rfl
    rw [e]
    by_cases hn : n ≤ N
    · rw [Nat.min_eq_left hn]
    · rw [Nat.min_eq_right (by omega), hα n (by omega)]
  simp only [ewmvarMachine, Rounded.ewmvar, ewmvarMachineStep, Rounded.ewmvarStep, hcount, hA]
  exact ⟨trivial, trivial, trivial, trivial⟩

/-- **C196**: up to `N` observations there is nothing to assume of the smoothing. -/
theorem C196_short (h : StopsAt R N) (pw : Fl K → Fl K → Fl K) (com : K) (adjust : Adjust) (xs : List (Fl K))
    (hx : (xs.countP fun x => !x.isNan) ≤ N) :
    (ewmvarMachine R pw com adjust).run xs = (Rounded.ewmvar R (fun a n => pw a (.fin (n : K))) com adjust).run xs := by
  have gen : ∀ (xs : List (Fl K)) (s : EWMVarMachine K) (s' : EWMVarState K), s.mean = s'.mean → s.var = s'.var → s.nobs = .fin (s'.nobs : K) →
      s'.nobs + (xs.countP fun x => !x.isNan) ≤ N →
      (ewmvarMachine R pw com adjust).outsFrom s xs = (Rounded.ewmvar R (fun a n => pw a (.fin (n : K))) com adjust).outsFrom s' xs := by
    intro xs
    induction xs with
    | nil => intros; rfl
    | cons x xs ih =>
      rintro ⟨m, v, k⟩ ⟨m', v', k'⟩ h1 h2 h3 h4
      simp only at h1 h2 h3 h4
      subst h1 h2 h3
      rw [List.countP_cons] at h4
      have hcount : (if (!x.isNan) = true then Rounded.add R (.fin (k' : K)) (.fin 1) else .fin (k' : K)) =
          .fin ((if (!x.isNan) = true then k' + 1 else k' : Nat) : K) := by
        cases hn : x.isNan with
        | true => rfl
        | false =>
          rw [hn] at h4
          simp only [Bool.not_false, if_true] at h4 ⊢
          rw [Rounded.add, Fl.fin_add]
          change R _ = _
          rw [h.exact k' (by omega)]; push_cast; rfl
      have e : ∀ j : Nat, varAlphaMachine R pw com adjust (.fin (j : K)) =
          Rounded.varAlpha R (fun a n => pw a (.fin (n : K))) com adjust j := by
        intro j; cases adjust <;> rfl
      rw [Mealy.outsFrom_cons, Mealy.outsFrom_cons]
      congr 1
      · simp only [ewmvarMachine, Rounded.ewmvar, ewmvarMachineStep, Rounded.ewmvarStep, hcount, e]
      · refine ih _ _ ?_ ?_ ?_ ?_
        · simp only [ewmvarMachine, Rounded.ewmvar, ewmvarMachineStep, Rounded.ewmvarStep, hcount, e]
        · simp only [ewmvarMachine, Rounded.ewmvar, ewmvarMachineStep, Rounded.ewmvarStep, hcount, e]
        · simp only [ewmvarMachine, Rounded.ewmvar, ewmvarMachineStep, Rounded.ewmvarStep, hcount]
        · simp only [Rounded.ewmvar, Rounded.ewmvarStep]
          cases hn : x.isNan <;> simp [hn] at h4 ⊢ <;> omega
  exact gen xs _ _ rfl rfl (by simp [ewmvarMachine, Rounded.ewmvar]) (by simpa [Rounded.ewmvar] using hx)

end var

theorem float32_integer (n : Nat) (h : n ≤ 2 ^ 24) : float32.round (n : ℚ) = .fin (n : ℚ) := by
  have hn : float32.nearest (n : ℚ) = n := by
    rcases Nat.eq_zero_or_pos n with rfl | hp
    · simpa using nearest_zero float32
    rcases Nat.lt_or_eq_of_le h with hlt | rfl
    · have hlog : Int.log 2 |(n : ℚ)| ≤ 23 := by
        have h0 : (0 : ℚ) < |(n : ℚ)| := abs_pos.mpr (by positivity)
        have := (Int.lt_zpow_iff_log_lt (b := 2) (by norm_num) h0 (x := 24)).mp
          (by rw [abs_of_nonneg (by positivity)]; exact_mod_cast hlt)
        omega
      have hq : float32.quantum (n : ℚ) ≤ 0 := by
        unfold Format.quantum; change max (-126) _ - (24 : Int) + 1 ≤ 0
        have := max_le (by norm_num : (-126 : Int) ≤ 23) hlog; omega
      obtain ⟨k, hk⟩ := pow_multiple _ _ hq
      rw [zpow_zero] at hk
      have : (n : ℚ) / 2 ^ float32.quantum (n : ℚ) = ((n * k : Int) : ℚ) := by
        rw [div_eq_iff (quantum_pos float32 _).ne']; push_cast
        rw [mul_assoc, ← hk, mul_one]
      unfold Format.nearest
      rw [this, nearestEven_int]
      push_cast
      rw [mul_assoc, ← hk, mul_one]
    · decide +kernel
  unfold Format.round
  have hb : (n : ℚ) ≤ 2 ^ 24 := by exact_mod_cast h
  have e : (2 : ℚ) ^ (float32.emax + 1) = 2 ^ 128 := by decide +kernel
  have h0 : (0 : ℚ) ≤ n := by positivity
  rw [hn, e, if_neg (by norm_num at hb ⊢; linarith), if_neg (by norm_num at hb ⊢; linarith)]

theorem float32_stops : StopsAt float32.round (2 ^ 24) where
  exact n hn := by have := float32_integer (n + 1) (by omega); push_cast at this; exact this
  stop := by push_cast; decide +kernel

/-- **C196**, float32: for `com` up to `2^18 - 1` and correctly rounded powers the float counter is harmless: on streams of any length the variances are
those computed with an ideal counter (the objects of C179 and C184). -/
theorem C196_float32 (com : ℚ) (hc : 0 ≤ com) (hc2 : 1 + com ≤ 2 ^ 18) (adjust : Adjust) (pw : Fl ℚ → Fl ℚ → Fl ℚ)
    (hpw : ∀ a (n : Nat), pw a (.fin (n : ℚ)) = powRounded float32.round a n) (xs : List (Fl ℚ)) :
    (ewmvarMachine float32.round pw com adjust).run xs = (Rounded.ewmvar float32.round (powRounded float32.round) com adjust).run xs := by
  have hM := round_monotone float32 float32_ok
  have hF := (C179_ieee float32 float32_ok).toIsRounding
  have e1 : (1 / 2 ^ float32.prec : ℚ) = 1 / 2 ^ 24 := rfl
  have e2 : (2 ^ float32.emin : ℚ) = 1 / 2 ^ 126 := by decide +kernel
  have e3 : float32.largest = 2 ^ 128 - 2 ^ 104 := by decide +kernel
  rw [e1, e2, e3] at hF
  have hp : (fun a (n : Nat) => pw a (.fin (n : ℚ))) = powRounded float32.round := by funext a n; exact hpw a n
  rw [← hp]
  refine C196_stopped_counter float32_stops pw com adjust ?_ xs
  rw [hp]
  -- the smoothing factor
  obtain ⟨b, hb, -⟩ := hF.near (1 + com) (by rw [abs_of_nonneg (by linarith)]; norm_num at hc2 ⊢; linarith)
  have hb1 : 1 ≤ b := mono_fin hM (by linarith : (1 : ℚ) ≤ 1 + com) hM.one hb
  have hb2 : b ≤ 2 ^ 18 := mono_fin hM hc2 hb (by decide +kernel)
  have hbi : 1 / 2 ^ 18 ≤ 1 / b := one_div_le_one_div_of_le (by linarith) hb2
  have hbi1 : 1 / b ≤ 1 := by rw [div_le_one (by linarith)]; exact hb1
  obtain ⟨a, ha, -⟩ := hF.near (1 / b) (by rw [abs_of_nonneg (by positivity)]; exact hbi1.trans (by norm_num))
  have ha1 : 1 / 2 ^ 18 ≤ a := mono_fin hM hbi (by decide +kernel) ha
  have ha2 : a ≤ 1 := mono_fin hM hbi1 ha hM.one
  have hα : Rounded.div float32.round (.fin 1) (Rounded.add float32.round (.fin 1) (.fin com)) = .fin a := by
    rw [Rounded.add, Fl.fin_add]
    change Rounded.div float32.round (.fin 1) (float32.round (1 + com)) = _
    rw [hb, Rounded.div, Fl.fin_div_of_ne (a := 1) (show b ≠ 0 by intro h; rw [h] at hb1; norm_num at hb1)]
    exact ha
  intro n hn
  unfold Rounded.varAlpha
  cases adjust with
  | no => rfl
  | linear =>
    have hai : 1 / a ≤ 2 ^ 18 := by rw [div_le_iff₀ (by norm_num at ha1; linarith)]; norm_num at ha1 ⊢; linarith
    have hai0 : 0 ≤ 1 / a := by apply div_nonneg <;> norm_num at ha1 ⊢ <;> linarith
    obtain ⟨s, hs, -⟩ := hF.near (1 / a) (by rw [abs_of_nonneg hai0]; norm_num at hai ⊢; linarith)
    have hs2 : s ≤ 2 ^ 18 := mono_fin hM hai hs (by decide +kernel)
    have hts : Rounded.div float32.round (.fin 1) (.fin a) = .fin s := by
      rw [Rounded.div, Fl.fin_div_of_ne (a := 1) (show a ≠ 0 by intro h; rw [h] at ha1; norm_num at ha1)]; exact hs
    have hlt : ∀ j : Nat, 2 ^ 24 ≤ j → Fl.lt (.fin (j : ℚ)) (.fin s) = false := by
      intro j hj
      rw [Fl.lt_fin]
      have : (2 ^ 24 : ℚ) ≤ j := by exact_mod_cast hj
      simp only [decide_eq_false_iff_not, not_lt]
      exact (hs2.trans (by norm_num)).trans this
    simp only [hα, hts, hlt n hn, hlt (2 ^ 24) le_rfl, Bool.false_eq_true, if_false]
  | yes =>
    have h1a : 1 - a ≤ 1 - 1 / 2 ^ 18 := by linarith
    have h1a0 : 0 ≤ 1 - a := by linarith
    obtain ⟨f, hf, -⟩ := hF.near (1 - a) (by rw [abs_of_nonneg h1a0]; norm_num at h1a ⊢; linarith)
    have hf0 : 0 ≤ f := nonneg_fin hM h1a0 hf
    have hf1 : f ≤ 1 - 1 / 2 ^ 18 := mono_fin hM h1a hf (by decide +kernel)
    have hsub : Rounded.sub float32.round (.fin 1) (.fin a) = .fin f := by
      rw [Rounded.sub, Fl.fin_sub]; exact hf
    have hpow : ∀ j : Nat, 2 ^ 24 ≤ j → f ^ j ≤ 1 / 2 ^ 26 := by
      intro j hj
      have hhalf : f ^ (2 ^ 18) ≤ 1 / 2 := by
        have hg : (1 - 1 / 2 ^ 18 : ℚ) * (1 + 1 / 2 ^ 18) ≤ 1 := by norm_num
        have hB : 1 + (2 ^ 18 : Nat) * (1 / 2 ^ 18 : ℚ) ≤ (1 + 1 / 2 ^ 18) ^ (2 ^ 18) :=
          one_add_mul_le_pow (by norm_num) _
        have h2 : (2 : ℚ) ≤ (1 + 1 / 2 ^ 18) ^ (2 ^ 18) := by
          refine le_trans ?_ hB; norm_num
        have h3 : f ^ (2 ^ 18) * (1 + 1 / 2 ^ 18) ^ (2 ^ 18) ≤ 1 := by
          rw [← mul_pow]
          refine pow_le_one₀ (mul_nonneg hf0 (by norm_num)) (le_trans (mul_le_mul_of_nonneg_right hf1 (by norm_num)) hg)
        generalize f ^ (2 ^ 18) = p at *
        generalize (1 + 1 / 2 ^ 18 : ℚ) ^ (2 ^ 18) = q at *
        by_contra hcon
        have hcon : 1 / 2 < p := not_le.mp hcon
        have : (1 / 2 : ℚ) * 2 < p * q := mul_lt_mul hcon h2 (by norm_num) (by linarith)
        linarith
      have hf1' : f ≤ 1 := hf1.trans (by norm_num)
      have : f ^ j ≤ (f ^ (2 ^ 18)) ^ 26 := by
        rw [← pow_mul]
        exact pow_le_pow_of_le_one hf0 hf1' (le_trans (by norm_num) hj)
      refine this.trans ((pow_le_pow_left₀ (pow_nonneg hf0 _) hhalf 26).trans ?_)
      norm_num
    have hone : ∀ j : Nat, 2 ^ 24 ≤ j →
        Rounded.sub float32.round (.fin 1) (powRounded float32.round (.fin f) j) = .fin 1 := by
      intro j hj
      have hp0 : 0 ≤ f ^ j := pow_nonneg hf0 j
      have hp1 := hpow j hj
      obtain ⟨y, hy, -⟩ := hF.near (f ^ j) (by rw [abs_of_nonneg hp0]; norm_num at hp1 ⊢; linarith)
      have hy0 : 0 ≤ y := nonneg_fin hM hp0 hy
      have hy1 : y ≤ 1 / 2 ^ 26 := mono_fin hM hp1 hy (by decide +kernel)
      change Rounded.sub _ _ (float32.round (f ^ j)) = _
      rw [hy, Rounded.sub, Fl.fin_sub]
      change float32.round (1 - y) = _
      obtain ⟨z, hz, -⟩ := hF.near (1 - y) (by rw [abs_of_nonneg (by norm_num at hy1; linarith)]; norm_num; linarith)
      have hz1 : z ≤ 1 := mono_fin hM (by linarith : 1 - y ≤ 1) hz hM.one
      have hz2 : 1 ≤ z := mono_fin hM (by linarith : (1 - 1 / 2 ^ 26 : ℚ) ≤ 1 - y) (by decide +kernel) hz
      rw [hz, le_antisymm hz1 hz2]
    simp only [hα, hsub, hone n hn, hone (2 ^ 24) le_rfl]

/-! The hypotheses are met: a power routine with the required property, and a run. -/
example : ∃ pw : Fl ℚ → Fl ℚ → Fl ℚ, ∀ a (n : Nat), pw a (.fin (n : ℚ)) = powRounded float32.round a n :=
  ⟨fun a b => match b with | .fin q => powRounded float32.round a q.num.toNat | _ => .nan, fun a n => by simp⟩
example : (ewmvarMachine float32.round (fun a b => match b with | .fin q => powRounded float32.round a q.num.toNat | _ => .nan) 1 .no).run
    [.fin 1, .nan, .fin 4] = [.fin 0, .fin 0, .fin (9 / 4)] := by decide +kernel

end Verif.Props
