import Verif.Model.Panels
import Verif.Props.Flow
import Verif.Props.Reports
import Verif.Props.Compressed
import Mathlib.Tactic.Linarith
import Mathlib.Tactic.FieldSimp
import Mathlib.Tactic.Ring

/-! # Properties C160–C166: panels of the dashboards -/

set_option linter.unusedSectionVars false
set_option linter.unusedSimpArgs false

namespace Verif.Props
open Model.Panels
open Model.Flow (Tracker Point)
open Verif.Model.Events (dictSet)

/-! ## C160 -/

theorem flatten_getElem? {α : Type} (w : Nat) (rows : List (List α)) (hw : ∀ r ∈ rows, r.length = w) (r c : Nat) (hc : c < w) :
    rows.flatten[r * w + c]? = (rows[r]?).bind (·[c]?) := by
  induction rows generalizing r with
  | nil => simp
  | cons a rows ih =>
    have ha : a.length = w := hw a (by simp)
    rw [List.flatten_cons]
    cases r with
    | zero =>
      rw [Nat.zero_mul, Nat.zero_add, List.getElem?_append_left (by omega)]
      rfl
    | succ r =>
      have : (r + 1) * w + c = a.length + (r * w + c) := by rw [ha, Nat.succ_mul]; omega
      rw [this, List.getElem?_append_right (by omega), Nat.add_sub_cancel_left, ih (fun r hr => hw r (by simp [hr])) r]
      rfl

theorem flatten_length_const {α : Type} (w : Nat) (rows : List (List α)) (hw : ∀ r ∈ rows, r.length = w) :
    rows.flatten.length = rows.length * w := by
  induction rows with
  | nil => simp
  | cons a rows ih =>
    rw [List.flatten_cons, List.length_append, hw a (by simp), ih fun r hr => hw r (by simp [hr]), List.length_cons, Nat.succ_mul]
    omega

/-- C160: the heatmap has exactly one rectangle per cell of the array, and the rectangle number `r * w + c` is at column `c` and
row `r` and carries the value of that cell. -/
theorem C160_heatmap {V : Type} (w : Nat) (data : List (List V)) (hw : ∀ r ∈ data, r.length = w) :
    (heatmap w data).length = data.length * w ∧
    ∀ (r c : Nat) (row : List V) (v : V), data[r]? = some row → row[c]? = some v →
      (heatmap w data)[r * w + c]? = some (c, r, v) := by
  have hx : ∀ r ∈ (List.range data.length).map (fun _ => List.range w), r.length = w := by
    intro r hr; obtain ⟨_, _, rfl⟩ := List.mem_map.1 hr; simp
  have hy : ∀ r ∈ (List.range data.length).map (fun r => List.replicate w r), r.length = w := by
    intro r hr; obtain ⟨_, _, rfl⟩ := List.mem_map.1 hr; simp
  have l1 := flatten_length_const w _ hx
  have l2 := flatten_length_const w _ hy
  have l3 := flatten_length_const w _ hw
  simp only [List.length_map, List.length_range] at l1 l2
  unfold heatmap
  simp only [List.flatMap_def]
  constructor
  · simp [List.length_zip, l1, l2, l3]
  · intro r c row v hr hc
    have hrl : r < data.length := (List.getElem?_eq_some_iff.1 hr).1
    have hcl : c < w := by
      rw [← hw row (List.mem_of_getElem? hr)]
      exact (List.getElem?_eq_some_iff.1 hc).1
    have e1 : ((List.range data.length).map (fun _ => List.range w)).flatten[r * w + c]? = some c := by
      rw [flatten_getElem? w _ hx r c hcl]
      simp [hrl, hcl]
    have e2 : ((List.range data.length).map (fun r => List.replicate w r)).flatten[r * w + c]? = some r := by
      rw [flatten_getElem? w _ hy r c hcl]
      simp [hrl, hcl]
    have e3 : data.flatten[r * w + c]? = some v := by
      rw [flatten_getElem? w _ hw r c hcl, hr]
      exact hc
    rw [List.zip_eq_zipWith, List.zip_eq_zipWith, List.getElem?_zipWith, List.getElem?_zipWith, e1, e2, e3]

example : heatmap 3 [["a", "b", "c"], ["d", "e", "f"]] =
    [(0, 0, "a"), (1, 0, "b"), (2, 0, "c"), (0, 1, "d"), (1, 1, "e"), (2, 1, "f")] := by decide +kernel

/-! ## C161 -/

/-- Specification: the numeric points among some points, with their modules. -/
def numericPoints (pts : List (Point Val)) : List (String × Nat × Rat) :=
  pts.filterMap fun p => match p.value with
    | .num v => some (p.moduleName, p.step, v)
    | .other => none

theorem group_spec (pts : List (Point Val)) :
    (pts.foldl groupStep []).map (·.1) = firstSeen ((numericPoints pts).map (·.1)) ∧
    ∀ m, ((pts.foldl groupStep []).lookup m).getD [] = ((numericPoints pts).filter (fun q => q.1 = m)).map (·.2) := by
  induction pts using List.reverseRecOn with
  | nil => exact ⟨rfl, fun m => rfl⟩
  | append_singleton pts p ih =>
    obtain ⟨h1, h2⟩ := ih
    rw [List.foldl_append]
    simp only [List.foldl_cons, List.foldl_nil]
    cases hv : p.value with
    | other =>
      have e : numericPoints (pts ++ [p]) = numericPoints pts := by simp [numericPoints, hv]
      have e2 : groupStep (pts.foldl groupStep []) p = pts.foldl groupStep [] := by simp [groupStep, hv, Val.number]
      rw [e, e2]
      exact ⟨h1, h2⟩
    | num v =>
      have e : numericPoints (pts ++ [p]) = numericPoints pts ++ [(p.moduleName, p.step, v)] := by simp [numericPoints, hv]
      have e2 : groupStep (pts.foldl groupStep []) p = dictSet (pts.foldl groupStep []) p.moduleName
          (((pts.foldl groupStep []).lookup p.moduleName).getD [] ++ [(p.step, v)]) := by simp [groupStep, hv, Val.number]
      rw [e, e2]
      constructor
      · rw [List.map_append, List.map_cons, List.map_nil, firstSeen_snoc, ← h1]
        exact dictSet_keys _ _ _
      · intro m
        rw [dictSet_lookup, List.filter_append, List.map_append]
        by_cases hm : m = p.moduleName
        · subst hm
          simp [h2]
        · rw [if_neg hm, h2]
          simp [Ne.symm hm]

/-- C161: after any session on a tracker, the time series panel has one line for every module with a numeric value among the last
`min 200 max_history` points recorded since the last clearing, in order of first appearance, with the colours in turn; the line
consists of exactly these values of the module, with their steps, in order.  Values that are not Python numbers (arrays) are not
shown. -/
theorem C161_time_series (nColors M : Nat) (fi fo fs fg : Bool) (t0 : Rat) (ops : List (Model.Flow.Op Val)) :
    let lines := timeSeries nColors ((Tracker.new M fi fo fs fg t0).session ops)
    let shown := numericPoints (latest (min 200 M) (inForce t0 ops))
    lines.map (·.1) = firstSeen (shown.map (·.1)) ∧
    ∀ (i : Nat) (line : String × List (Nat × Rat) × Nat), lines[i]? = some line →
      line.2.1 = (shown.filter (fun q => q.1 = line.1)).map (·.2) ∧ line.2.1 ≠ [] ∧ line.2.2 = i % nColors := by
  have hrec := (C127_tracker_contents M fi fo fs fg t0 ops).1 200 (by decide)
  have h200 : (200 : Int).toNat = 200 := rfl
  rw [h200] at hrec
  simp only [timeSeries, hrec]
  obtain ⟨h1, h2⟩ := group_spec (latest (min 200 M) (inForce t0 ops))
  generalize hg : (latest (min 200 M) (inForce t0 ops)).foldl groupStep [] = g at h1 h2
  have hnd : (g.map (·.1)).Nodup := by rw [h1]; exact firstSeen_nodup _
  constructor
  · rw [← h1]
    apply List.ext_getElem?
    intro i
    simp only [List.getElem?_map, List.getElem?_mapIdx]
    cases g[i]? <;> rfl
  · intro i line hl
    rw [List.getElem?_mapIdx] at hl
    cases hgi : g[i]? with
    | none => simp [hgi] at hl
    | some q =>
      simp only [hgi, Option.map_some, Option.some.injEq] at hl
      subst hl
      have hmem := List.mem_of_getElem? hgi
      have hlk := lookup_of_mem g hnd q.1 q.2 hmem
      have h3 := h2 q.1
      rw [hlk] at h3
      simp only [Option.getD_some] at h3
      refine ⟨h3, ?_, rfl⟩
      have hin : q.1 ∈ firstSeen ((numericPoints (latest (min 200 M) (inForce t0 ops))).map (·.1)) := by
        rw [← h1]; exact List.mem_map.2 ⟨q, hmem, rfl⟩
      rw [mem_firstSeen] at hin
      obtain ⟨z, hz, hzq⟩ := List.mem_map.1 hin
      simp only
      rw [h3]
      intro hnil
      have : z ∈ (numericPoints (latest (min 200 M) (inForce t0 ops))).filter (fun q' => q'.1 = q.1) := by
        rw [List.mem_filter]; exact ⟨hz, by simpa using hzq⟩
      rw [List.map_eq_nil_iff] at hnil
      rw [hnil] at this
      cases this

example : timeSeries 2 ((Tracker.new 10 true true true false 0).session
    [.record "a" "output" (.num 1) 1, .step, .record "b" "output" (.num 5) 2, .record "a" "output" .other 2,
     .record "a" "output" (.num 2) 3]) = [("a", [(0, 1), (1, 2)], 0), ("b", [(1, 5)], 1)] := by decide +kernel

/-! ## C162 -/

theorem foldl_min_rat (v : Rat) (vs : List Rat) : IsMin (vs.foldl min v) (v :: vs) := by
  induction vs generalizing v with
  | nil => exact ⟨by simp, by simp⟩
  | cons w vs ih =>
    obtain ⟨h1, h2⟩ := ih (min v w)
    rw [List.foldl_cons]
    have hm := h2 (min v w) (by simp)
    refine ⟨?_, ?_⟩
    · rcases List.mem_cons.1 h1 with h | h
      · rw [h]
        rcases le_total v w with hvw | hvw
        · rw [min_eq_left hvw]; simp
        · rw [min_eq_right hvw]; simp
      · simp [h]
    · intro x hx
      rcases List.mem_cons.1 hx with rfl | hx
      · exact le_trans hm (min_le_left _ _)
      · rcases List.mem_cons.1 hx with rfl | hx
        · exact le_trans hm (min_le_right _ _)
        · exact h2 x (by simp [hx])

theorem foldl_max_rat (v : Rat) (vs : List Rat) : IsMax (vs.foldl max v) (v :: vs) := by
  induction vs generalizing v with
  | nil => exact ⟨by simp, by simp⟩
  | cons w vs ih =>
    obtain ⟨h1, h2⟩ := ih (max v w)
    rw [List.foldl_cons]
    have hm := h2 (max v w) (by simp)
    refine ⟨?_, ?_⟩
    · rcases List.mem_cons.1 h1 with h | h
      · rw [h]
        rcases le_total v w with hvw | hvw
        · rw [max_eq_right hvw]; simp
        · rw [max_eq_left hvw]; simp
      · simp [h]
    · intro x hx
      rcases List.mem_cons.1 hx with rfl | hx
      · exact le_trans (le_max_left _ _) hm
      · rcases List.mem_cons.1 hx with rfl | hx
        · exact le_trans (le_max_right _ _) hm
        · exact h2 x (by simp [hx])

theorem outerEdges_spec (vals : List Rat) (hne : vals ≠ []) :
    (outerEdges vals).1 < (outerEdges vals).2 ∧ (∀ v ∈ vals, (outerEdges vals).1 ≤ v ∧ v ≤ (outerEdges vals).2) ∧
    ∃ lo hi, IsMin lo vals ∧ IsMax hi vals ∧
      outerEdges vals = (if lo = hi then (lo - 1 / 2, hi + 1 / 2) else (lo, hi)) := by
  cases vals with
  | nil => exact absurd rfl hne
  | cons v vs =>
    have hlo := foldl_min_rat v vs
    have hhi := foldl_max_rat v vs
    have e : outerEdges (v :: vs) = (if vs.foldl min v = vs.foldl max v then (vs.foldl min v - 1 / 2, vs.foldl max v + 1 / 2)
      else (vs.foldl min v, vs.foldl max v)) := rfl
    have hle : vs.foldl min v ≤ vs.foldl max v := le_trans (hlo.2 v (by simp)) (hhi.2 v (by simp))
    refine ⟨?_, ?_, _, _, hlo, hhi, e⟩
    · rw [e]; split
      · simp only; linarith
      · exact lt_of_le_of_ne hle ‹_›
    · intro x hx
      have h1 := hlo.2 x hx
      have h2 := hhi.2 x hx
      rw [e]; split
      · simp only; constructor <;> linarith
      · exact ⟨h1, h2⟩

theorem bin_spec (bins : Nat) (hb : 0 < bins) (lo hi v : Rat) (hlt : lo < hi) (h1 : lo ≤ v) (h2 : v ≤ hi) :
    binOf bins lo hi v < bins ∧ ∀ i, i < bins →
      (binOf bins lo hi v = i ↔ edge bins lo hi i ≤ v ∧ (v < edge bins lo hi (i + 1) ∨ (i + 1 = bins ∧ v = hi))) := by
  have hw : 0 < hi - lo := by linarith
  have hbq : (0 : Rat) < (bins : Rat) := by exact_mod_cast hb
  set q : Rat := (v - lo) / (hi - lo) * (bins : Rat) with hq
  have hq0 : 0 ≤ q := by
    rw [hq]; exact mul_nonneg (div_nonneg (by linarith) hw.le) hbq.le
  have hqv : ∀ x : Rat, lo + x * ((hi - lo) / (bins : Rat)) ≤ v ↔ x ≤ q := by
    intro x
    rw [hq, div_mul_eq_mul_div, le_div_iff₀ hw]
    constructor
    · intro h
      have : x * ((hi - lo) / (bins : Rat)) ≤ v - lo := by linarith
      rw [← mul_div_assoc, div_le_iff₀ hbq] at this
      exact this
    · intro h
      have : x * ((hi - lo) / (bins : Rat)) ≤ v - lo := by
        rw [← mul_div_assoc, div_le_iff₀ hbq]; exact h
      linarith
  have hqb : q ≤ (bins : Rat) := by
    rw [hq]
    have : (v - lo) / (hi - lo) ≤ 1 := by rw [div_le_one hw]; linarith
    calc (v - lo) / (hi - lo) * (bins : Rat) ≤ 1 * (bins : Rat) := mul_le_mul_of_nonneg_right this hbq.le
      _ = bins := one_mul _
  have hqe : q = (bins : Rat) ↔ v = hi := by
    rw [hq]
    constructor
    · intro h
      have : (v - lo) / (hi - lo) = 1 := by
        have := mul_right_cancel₀ hbq.ne' (h.trans (one_mul _).symm)
        exact this
      rw [div_eq_one_iff_eq hw.ne'] at this
      linarith
    · rintro rfl
      rw [div_self hw.ne', one_mul]
  have hf0 : 0 ≤ ⌊q⌋ := Int.floor_nonneg.2 hq0
  have hfl : ((⌊q⌋.toNat : Nat) : Int) = ⌊q⌋ := Int.toNat_of_nonneg hf0
  have hfi : ∀ i : Nat, ⌊q⌋.toNat = i ↔ (i : Rat) ≤ q ∧ q < (i : Rat) + 1 := by
    intro i
    have : ⌊q⌋.toNat = i ↔ ⌊q⌋ = (i : Int) := by omega
    rw [this, Int.floor_eq_iff]
    push_cast
    rfl
  have hle : ⌊q⌋.toNat ≤ bins := by
    have : ⌊q⌋ ≤ (bins : Int) := by
      have h3 : (⌊q⌋ : Rat) ≤ q := Int.floor_le q
      have : ((⌊q⌋ : Int) : Rat) ≤ ((bins : Int) : Rat) := by push_cast; linarith
      exact_mod_cast this
    omega
  have hbin : binOf bins lo hi v = if ⌊q⌋.toNat = bins then ⌊q⌋.toNat - 1 else ⌊q⌋.toNat := rfl
  have hedge : ∀ i : Nat, edge bins lo hi i ≤ v ↔ (i : Rat) ≤ q := fun i => hqv i
  have hedge' : ∀ i : Nat, v < edge bins lo hi (i + 1) ↔ q < (i : Rat) + 1 := by
    intro i
    have := not_congr (hedge (i + 1))
    push_cast at this
    rw [not_le, not_le] at this
    exact this
  constructor
  · rw [hbin]; split <;> omega
  · intro i hi'
    rw [hbin, hedge, hedge']
    by_cases hfb : ⌊q⌋.toNat = bins
    · rw [if_pos hfb]
      have hq1 := ((hfi bins).1 hfb).1
      have hqeq : q = bins := le_antisymm hqb hq1
      have hv := hqe.1 hqeq
      constructor
      · intro h
        refine ⟨?_, Or.inr ⟨by omega, hv⟩⟩
        rw [hqeq]
        exact_mod_cast hi'.le
      · rintro ⟨_, h | ⟨h, _⟩⟩
        · exfalso
          rw [hqeq] at h
          have : bins < i + 1 := by exact_mod_cast h
          omega
        · omega
    · rw [if_neg hfb, hfi i]
      constructor
      · rintro ⟨a, b⟩; exact ⟨a, Or.inl b⟩
      · rintro ⟨a, b | ⟨_, b⟩⟩
        · exact ⟨a, b⟩
        · exfalso
          have := hqe.2 b
          exact hfb ((hfi bins).2 ⟨this.ge, by linarith⟩)

/-- C162: the distribution panel shows thirty adjacent bars of equal width from the least to the greatest numeric value among the
last `min 500 max_history` points (half a unit on both sides if they coincide); the height of a bar is the number of values in
its interval, the last interval including its right end; no value is lost. Without numeric values there is no bar. -/
theorem C162_distribution (M : Nat) (fi fo fs fg : Bool) (t0 : Rat) (ops : List (Model.Flow.Op Val)) :
    let bars := distribution ((Tracker.new M fi fo fs fg t0).session ops)
    let vals := (numericPoints (latest (min 500 M) (inForce t0 ops))).map (·.2.2)
    (vals = [] → bars = []) ∧
    (vals ≠ [] → bars.length = 30 ∧ (bars.map (·.2.2)).sum = vals.length ∧
      ∃ lo hi, lo < hi ∧ (∃ a b, IsMin a vals ∧ IsMax b vals ∧ (lo, hi) = (if a = b then (a - 1 / 2, b + 1 / 2) else (a, b))) ∧
        ∀ (i : Nat) (bar : Rat × Rat × Nat), bars[i]? = some bar →
          bar.1 = lo + (i : Rat) * ((hi - lo) / 30) ∧ bar.2.1 = lo + ((i : Rat) + 1) * ((hi - lo) / 30) ∧
          bar.2.2 = vals.countP fun v => decide (bar.1 ≤ v ∧ (v < bar.2.1 ∨ (i = 29 ∧ v = hi)))) := by
  have hrec := (C127_tracker_contents M fi fo fs fg t0 ops).1 500 (by decide)
  have h500 : (500 : Int).toNat = 500 := rfl
  rw [h500] at hrec
  have hvals : (latest (min 500 M) (inForce t0 ops)).filterMap (fun p => p.value.number) =
      (numericPoints (latest (min 500 M) (inForce t0 ops))).map (·.2.2) := by
    unfold numericPoints
    rw [List.map_filterMap]
    apply List.filterMap_congr
    intro p _
    cases p.value <;> rfl
  simp only [distribution, hrec, hvals]
  generalize (numericPoints (latest (min 500 M) (inForce t0 ops))).map (·.2.2) = vals
  constructor
  · intro h; rw [if_pos h]
  · intro hne
    rw [if_neg hne]
    obtain ⟨hlt, hin, a, b, ha, hb, hab⟩ := outerEdges_spec vals hne
    generalize outerEdges vals = e at hlt hin hab ⊢
    obtain ⟨lo, hi⟩ := e
    simp only at hlt hin ⊢
    refine ⟨by simp, ?_, lo, hi, hlt, ⟨a, b, ha, hb, hab⟩, ?_⟩
    · rw [List.map_map]
      exact sum_countP_buckets (binOf 30 lo hi) 30 vals fun v hv => (bin_spec 30 (by decide) lo hi v hlt (hin v hv).1 (hin v hv).2).1
    · intro i bar hbar
      rw [List.getElem?_map] at hbar
      by_cases hi30 : i < 30
      · rw [List.getElem?_range hi30] at hbar
        simp only [Option.map_some, Option.some.injEq] at hbar
        subst hbar
        refine ⟨by simp [edge], by simp [edge], ?_⟩
        apply List.countP_congr
        intro v hv
        have := (bin_spec 30 (by decide) lo hi v hlt (hin v hv).1 (hin v hv).2).2 i hi30
        simp only [decide_eq_true_eq]
        rw [this]
        have e : (i + 1 = 30) ↔ i = 29 := by omega
        rw [e]
      · rw [List.getElem?_eq_none (by simp; omega)] at hbar
        simp at hbar

example : distribution ((Tracker.new 10 true true true false 0).session
    [.record "a" "output" (.num 0) 1, .record "b" "output" (.num 30) 2, .record "a" "output" .other 2,
     .record "a" "output" (.num 1) 3]) =
    [(0, 1, 1), (1, 2, 1)] ++ (List.range 27).map (fun i => ((i : Rat) + 2, (i : Rat) + 3, 0)) ++ [(29, 30, 1)] := by decide +kernel

/-! ## C163 -/

/-- C163 (false of the code): the performance and the correlation panels do not show anything measured.  Whatever was recorded,
the performance panel shows one point per step from `max 1 (n - 50)` to `n`, where `n` is the number of steps, whose height is a
random draw plus one; two trackers with the same number of steps get the same panel from the same draws. -/
theorem C163_performance_partial {V : Type} (draws : Nat → Rat) (t : Tracker V) :
    (∀ (k : Nat) (s : Nat) (y : Rat), (performance draws t)[k]? = some (s, y) ↔
      s = max 1 (t.stepCount - 50) + k ∧ s ≤ t.stepCount ∧ y = draws k + 1) ∧
    (∀ t' : Tracker V, t'.stepCount = t.stepCount → performance draws t' = performance draws t) := by
  constructor
  · intro k s y
    unfold performance
    simp only [List.getElem?_map, Option.map_eq_some_iff, Prod.mk.injEq]
    constructor
    · rintro ⟨a, ha, h1, h2⟩
      rw [List.getElem?_eq_some_iff] at ha
      obtain ⟨hl, ha⟩ := ha
      simp only [List.length_range, List.getElem_range] at hl ha
      subst ha
      exact ⟨h1.symm, by omega, h2.symm⟩
    · rintro ⟨h1, h2, h3⟩
      refine ⟨k, List.getElem?_range (by omega), h1.symm, h3.symm⟩
  · intro t' h
    unfold performance
    rw [h]

/-- C163 (false of the code), the correlation panel: the sixteen cells are the same for all trackers; the names are those of a
fixed list; the "correlations" are a symmetric matrix of random draws with unit diagonal. -/
theorem C163_correlation_partial {V : Type} (draws : Nat → Nat → Rat) (t : Tracker V) :
    (∀ t' : Tracker V, correlation draws t' = correlation draws t) ∧
    ∃ m : Nat → Nat → Rat, (∀ i j, m i j = m j i) ∧ (∀ i, m i i = 1) ∧
      (∀ i j, i ≠ j → m i j = (draws i j + draws j i) / 2) ∧
      (correlation draws t).length = 16 ∧
      ∀ (x y : Nat) (mx my : String), ["input", "ewma", "buffer", "output"][x]? = some mx →
        ["input", "ewma", "buffer", "output"][y]? = some my →
        (correlation draws t)[y * 4 + x]? = some (mx, my, m y x) := by
  refine ⟨fun _ => rfl, fun i j => if i = j then 1 else (draws i j + draws j i) / 2, ?_, ?_, ?_, ?_, ?_⟩
  · intro i j
    by_cases h : i = j
    · subst h; rfl
    · simp only [if_neg h, if_neg (Ne.symm h)]; ring
  · intro i; simp
  · intro i j h; simp only [if_neg h]
  · simp [correlation, List.length_flatMap]
  · intro x y mx my hx hy
    have hx4 : x < 4 := (List.getElem?_eq_some_iff.1 hx).1
    have hy4 : y < 4 := (List.getElem?_eq_some_iff.1 hy).1
    unfold correlation
    simp only [List.flatMap_def]
    rw [flatten_getElem? 4 _ (by simp) y x hx4]
    obtain ⟨hx1, hx2⟩ := List.getElem?_eq_some_iff.1 hx
    obtain ⟨hy1, hy2⟩ := List.getElem?_eq_some_iff.1 hy
    simp [hx4, hy4, List.getD_eq_getElem?_getD, hx2, hy2]

/-! ## C164 -/

/-- Specification: nested lists of a given shape. -/
inductive HasShape : List Nat → Json → Prop
  | scalar (v : Rat) : HasShape [] (.num v)
  | list (n : Nat) (dims : List Nat) (js : List Json) (hl : js.length = n) (h : ∀ j ∈ js, HasShape dims j) :
      HasShape (n :: dims) (.list js)

/-- Specification: the entry of nested lists at a multi-index. -/
def entryAt : Json → List Nat → Option Rat
  | .num v, [] => some v
  | .list js, i :: idx => match js[i]? with
    | some j => entryAt j idx
    | none => none
  | _, _ => none

/-- Specification: row-major position of a multi-index. -/
def rowMajor : List Nat → List Nat → Nat
  | _ :: dims, i :: idx => i * dims.prod + rowMajor dims idx
  | _, _ => 0

/-- Specification: how a value appears in the browser. -/
inductive Shows : PyVal → Json → Prop
  | num (v) : Shows (.num v) (.num v)
  | str (s) : Shows (.str s) (.str s)
  | bool (b) : Shows (.bool b) (.bool b)
  | other (type text) : Shows (.other type text) (.obj [("type", .str type), ("str", .str text)])
  | dict (items js) (keys : js.map Prod.fst = items.map Prod.fst)
      (vals : ∀ (i : Nat) (a : String × PyVal) (b : String × Json), items[i]? = some a → js[i]? = some b → Shows a.2 b.2) :
      Shows (.dict items) (.obj js)
  | shortSeq (items js) (h : items.length ≤ 10) (hl : js.length = items.length)
      (vals : ∀ (i : Nat) (a : PyVal) (b : Json), items[i]? = some a → js[i]? = some b → Shows a b) : Shows (.seq items) (.list js)
  | longSeq (items) (h : 10 < items.length) :
      Shows (.seq items) (.obj [("type", .str "sequence"), ("length", .num (items.length : Rat))])
  | smallArray (shape dtype flat j) (h : flat.length ≤ 10) (hs : HasShape shape j)
      (entries : ∀ idx, List.Forall₂ (· < ·) idx shape → entryAt j idx = flat[rowMajor shape idx]?) :
      Shows (.array shape dtype flat) j
  | largeArray (shape dtype flat lo hi) (h : 10 < flat.length) (hlo : IsMin lo flat) (hhi : IsMax hi flat) :
      Shows (.array shape dtype flat) (.obj [("type", .str "array"), ("shape", .list (shape.map fun n => .num (n : Rat))),
        ("dtype", .str dtype), ("min", .num lo), ("max", .num hi), ("mean", .num (flat.sum / (flat.length : Rat)))])

/-- Specification: arrays inside a value have as many elements as their shape says. -/
inductive ArraysFit : PyVal → Prop
  | num (v) : ArraysFit (.num v)
  | str (s) : ArraysFit (.str s)
  | bool (b) : ArraysFit (.bool b)
  | other (type text) : ArraysFit (.other type text)
  | dict (items) (h : ∀ a ∈ items, ArraysFit a.2) : ArraysFit (.dict items)
  | seq (items) (h : ∀ a ∈ items, ArraysFit a) : ArraysFit (.seq items)
  | array (shape dtype flat) (h : flat.length = shape.prod) : ArraysFit (.array shape dtype flat)

theorem toList_shape (shape : List Nat) : ∀ flat : List Rat, HasShape shape (toList shape flat) := by
  induction shape with
  | nil => intro flat; exact .scalar _
  | cons n dims ih =>
    intro flat
    refine .list n dims _ (by simp) ?_
    intro j hj
    obtain ⟨i, _, rfl⟩ := List.mem_map.1 hj
    exact ih _

theorem toList_entry (shape : List Nat) : ∀ flat : List Rat, flat.length = shape.prod → ∀ idx, List.Forall₂ (· < ·) idx shape →
    entryAt (toList shape flat) idx = flat[rowMajor shape idx]? := by
  induction shape with
  | nil =>
    intro flat hl idx hidx
    cases hidx
    simp only [List.prod_nil] at hl
    match flat, hl with
    | [x], _ => rfl
  | cons n dims ih =>
    intro flat hl idx hidx
    cases hidx with
    | cons hi hrest =>
      rename_i i idx
      rw [List.prod_cons] at hl
      have hle : (i + 1) * dims.prod ≤ n * dims.prod := Nat.mul_le_mul_right _ hi
      rw [Nat.succ_mul] at hle
      have hlen : ((flat.drop (i * dims.prod)).take dims.prod).length = dims.prod := by
        rw [List.length_take, List.length_drop]; omega
      have hpos : rowMajor dims idx < dims.prod ∨ dims.prod = 0 := by
        clear ih hl hle hlen hi
        induction hrest with
        | nil => left; simp [rowMajor]
        | @cons a b l₁ l₂ hab h ih2 =>
          rw [rowMajor, List.prod_cons]
          rcases ih2 with h2 | h2
          · left
            have : (a + 1) * l₂.prod ≤ b * l₂.prod := Nat.mul_le_mul_right _ hab
            rw [Nat.succ_mul] at this
            omega
          · right; rw [h2]; simp
      rw [toList, entryAt, List.getElem?_map, List.getElem?_range hi]
      simp only [Option.map_some]
      rw [ih _ hlen idx hrest, rowMajor]
      rcases hpos with hpos | hpos
      · rw [List.getElem?_take_of_lt hpos, List.getElem?_drop]
      · have : flat = [] := by
          apply List.eq_nil_of_length_eq_zero; rw [hl, hpos, Nat.mul_zero]
        subst this
        simp

theorem serializeList_eq (l : List PyVal) : serializeList l = l.map serialize := by
  induction l with
  | nil => rfl
  | cons a l ih => rw [serializeList, ih]; rfl

theorem serializeItems_eq (l : List (String × PyVal)) : serializeItems l = l.map fun p => (p.1, serialize p.2) := by
  induction l with
  | nil => rfl
  | cons a l ih => obtain ⟨k, v⟩ := a; rw [serializeItems, ih]; rfl

/-- C164: what the browser receives for a value: numbers, texts and booleans unchanged; dictionaries with the same keys in the
same order; lists of at most ten items item by item, longer ones only as their length; arrays of at most ten elements as nested
lists of the same shape with every element at its place, larger ones as their shape, type, minimum, maximum and mean. -/
theorem C164_serialize (v : PyVal) (h : ArraysFit v) : Shows v (serialize v) := by
  induction h with
  | num v => exact .num v
  | str v => exact .str v
  | bool v => exact .bool v
  | other t s => exact .other t s
  | dict items _ ih =>
    rw [serialize, serializeItems_eq]
    refine .dict _ _ (by rw [List.map_map]; rfl) ?_
    intro i a b ha hb
    rw [List.getElem?_map, ha] at hb
    cases hb
    exact ih a (List.mem_of_getElem? ha)
  | seq items _ ih =>
    rw [serialize]
    split
    · rw [serializeList_eq]
      refine .shortSeq _ _ (by assumption) (by simp) ?_
      intro i a b ha hb
      rw [List.getElem?_map, ha] at hb
      cases hb
      exact ih a (List.mem_of_getElem? ha)
    · exact .longSeq _ (by omega)
  | array shape dtype flat hl =>
    rw [serialize, serializeArray]
    split
    · exact .smallArray _ _ _ _ (by assumption) (toList_shape _ _) (toList_entry _ _ hl)
    · cases flat with
      | nil => simp at *
      | cons x xs =>
        exact .largeArray _ _ _ _ _ (by omega) (foldl_min_rat x xs) (foldl_max_rat x xs)

example : ArraysFit (.dict [("w", .array [2, 3] "float32" [1, 2, 3, 4, 5, 6]), ("l", .seq [.num 1, .str "a", .seq []])]) := by
  refine .dict _ ?_
  intro a ha
  simp only [List.mem_cons, List.not_mem_nil, or_false] at ha
  rcases ha with rfl | rfl
  · exact .array _ _ _ (by decide)
  · refine .seq _ ?_
    intro a ha
    simp only [List.mem_cons, List.not_mem_nil, or_false] at ha
    rcases ha with rfl | rfl | rfl
    · exact .num _
    · exact .str _
    · exact .seq _ (by simp)

example : serialize (.array [2, 3] "float32" [1, 2, 3, 4, 5, 6]) =
    .list [.list [.num 1, .num 2, .num 3], .list [.num 4, .num 5, .num 6]] := by rfl

/-! ## C166 -/

/-- C166: the text plot after any session: "no data" exactly if nothing is in force (or the history has no room); otherwise the
number of different modules among the last `min 20 max_history` points, the number of steps, the number of these points, and the
last ten of them in order. -/
theorem C166_text_plot {V : Type} (M : Nat) (fi fo fs fg : Bool) (t0 : Rat) (ops : List (Model.Flow.Op V)) :
    let t := (Tracker.new M fi fo fs fg t0).session ops
    let pts := latest (min 20 M) (inForce t0 ops)
    (pts = [] → textPlot t = none) ∧
    (pts ≠ [] → textPlot t = some ((firstSeen (pts.map (·.moduleName))).length, t.stepCount, pts.length,
      latest (min 10 M) (inForce t0 ops))) := by
  have hrec := (C127_tracker_contents M fi fo fs fg t0 ops).1 20 (by decide)
  have h20 : (20 : Int).toNat = 20 := rfl
  rw [h20] at hrec
  simp only [textPlot, hrec]
  constructor
  · intro h; rw [if_pos h]
  · intro h
    rw [if_neg h]
    congr 1
    refine Prod.ext ?_ (Prod.ext rfl (Prod.ext rfl ?_))
    · simp only
      apply List.Perm.length_eq
      rw [List.perm_ext_iff_of_nodup (List.nodup_dedup _) (firstSeen_nodup _)]
      intro a
      rw [List.mem_dedup, mem_firstSeen]
    · simp only
      rw [lastSlice_pos _ 10 (by decide)]
      have h10 : (10 : Int).toNat = 10 := rfl
      rw [h10, latest_latest]
      congr 1
      omega

example : textPlot ((Tracker.new 100 true true true false 0).session
    [.record "a" "output" "x" 1, .step, .record "b" "input" "y" 2, .record "a" "output" "z" 3]) =
    some (2, 1, 3, [⟨1, 0, "a", "output", "x"⟩, ⟨2, 1, "b", "input", "y"⟩, ⟨3, 1, "a", "output", "z"⟩]) := by decide +kernel

/-! ## C165 -/

section Controls
variable {Cfg V : Type} (mk : Cfg → Option V)

/-- Specification: the parameters for which a widget was created, in order, with its first value. -/
def created : List (ControlEvent Cfg V) → List (String × V)
  | [] => []
  | .panel ps :: evs => (ps.filterMap fun p => (mk p.2).map fun v => (p.1, v)) ++ created evs
  | _ :: evs => created evs

/-- Specification: the value of widget number `k` after some events: the one it was last given, or else its first value. -/
def Holds (evs : List (ControlEvent Cfg V)) (k : Nat) (v : V) : Prop :=
  (∃ pre post, evs = pre ++ .move k v :: post ∧ k < (created mk pre).length ∧ ∀ w, .move k w ∉ post) ∨
  ((∃ name, (created mk evs)[k]? = some (name, v)) ∧
    ∀ pre w post, evs = pre ++ .move k w :: post → (created mk pre).length ≤ k)

theorem created_append (a b : List (ControlEvent Cfg V)) : created mk (a ++ b) = created mk a ++ created mk b := by
  induction a with
  | nil => rfl
  | cons e a ih => cases e <;> simp [created, ih]

/-- The controls after the creation of some parameters. -/
structure Listed (c : Controls V) (cr : List (String × V)) : Prop where
  len : c.widgets.length = cr.length
  keys : c.controls.map Prod.fst = firstSeen (cr.map Prod.fst)
  last : ∀ (n : String) (k : Nat), c.controls.lookup n = some k →
    (∃ v, cr[k]? = some (n, v)) ∧ ∀ (j : Nat) (v : V), k < j → cr[j]? ≠ some (n, v)

theorem Listed.add {c : Controls V} {cr : List (String × V)} (h : Listed c cr) (p : String × Cfg) :
    Listed (c.add mk p) (cr ++ ((mk p.2).map fun v => (p.1, v)).toList) ∧
    (c.add mk p).widgets = c.widgets ++ (mk p.2).toList := by
  unfold Controls.add
  cases hm : mk p.2 with
  | none => simpa using h
  | some v =>
    simp only [Option.map_some, Option.toList_some]
    refine ⟨⟨by simp [h.len], ?_, ?_⟩, by trivial⟩
    · rw [dictSet_keys, h.keys, List.map_append, List.map_cons, List.map_nil, firstSeen_snoc]
    · intro n k hk
      simp only at hk
      rw [dictSet_lookup] at hk
      by_cases hn : n = p.1
      · rw [if_pos hn] at hk
        cases hk
        subst hn
        refine ⟨⟨v, ?_⟩, ?_⟩
        · rw [h.len]; simp
        · intro j w hj
          rw [List.getElem?_eq_none]
          · simp
          · rw [List.length_append, List.length_singleton, ← h.len]; omega
      · rw [if_neg hn] at hk
        obtain ⟨⟨w, h1⟩, h2⟩ := h.last n k hk
        refine ⟨⟨w, ?_⟩, ?_⟩
        · rw [List.getElem?_append_left (List.getElem?_eq_some_iff.1 h1).1, h1]
        · intro j w hj hc
          by_cases hjl : j < cr.length
          · rw [List.getElem?_append_left hjl] at hc
            exact h2 j w hj hc
          · rw [List.getElem?_append_right (by omega)] at hc
            have := List.mem_of_getElem? hc
            simp only [List.mem_singleton, Prod.mk.injEq] at this
            exact hn this.1

theorem Listed.panel {c : Controls V} {cr : List (String × V)} (h : Listed c cr) (ps : List (String × Cfg)) :
    Listed (c.panel mk ps) (cr ++ ps.filterMap fun p => (mk p.2).map fun v => (p.1, v)) ∧
    (c.panel mk ps).widgets = c.widgets ++ ps.filterMap fun p => mk p.2 := by
  induction ps generalizing c cr with
  | nil => simpa [Controls.panel] using h
  | cons p ps ih =>
    obtain ⟨h1, h2⟩ := h.add mk p
    obtain ⟨h3, h4⟩ := ih h1
    have e : Controls.panel mk c (p :: ps) = Controls.panel mk (c.add mk p) ps := rfl
    rw [e]
    refine ⟨?_, ?_⟩
    · cases hm : mk p.2 <;> simpa [hm, List.filterMap_cons] using h3
    · rw [h4, h2]
      cases hm : mk p.2 <;> simp [hm, List.filterMap_cons]

variable [DecidableEq V] (raises : Nat → List (String × Option V) → Bool)

theorem run_snoc (evs : List (ControlEvent Cfg V)) (e : ControlEvent Cfg V) :
    ControlSession.run mk raises (evs ++ [e]) = (ControlSession.run mk raises evs).step mk raises e := by
  unfold ControlSession.run; rw [List.foldl_append]; rfl

theorem Holds.snoc {evs : List (ControlEvent Cfg V)} {k : Nat} {v : V} (h : Holds mk evs k v) (e : ControlEvent Cfg V)
    (he : ∀ w, e ≠ .move k w) : Holds mk (evs ++ [e]) k v := by
  rcases h with ⟨pre, post, h1, h2, h3⟩ | ⟨⟨name, h1⟩, h2⟩
  · left
    refine ⟨pre, post ++ [e], by rw [h1]; simp, h2, ?_⟩
    intro w hw
    rcases List.mem_append.1 hw with hw | hw
    · exact h3 w hw
    · rw [List.mem_singleton] at hw; exact he w hw.symm
  · right
    refine ⟨⟨name, ?_⟩, ?_⟩
    · rw [created_append, List.getElem?_append_left (List.getElem?_eq_some_iff.1 h1).1, h1]
    · intro pre w post hp
      rcases List.eq_nil_or_concat post with rfl | ⟨post', x, rfl⟩
      · have := List.append_inj_right' hp rfl
        simp only [List.cons.injEq, and_true] at this
        exact absurd this (he w)
      · rw [List.concat_eq_append, ← List.cons_append, ← List.append_assoc] at hp
        exact h2 pre w post' (List.append_inj_left' hp rfl)

theorem created_prefix_le (pre post : List (ControlEvent Cfg V)) : (created mk pre).length ≤ (created mk (pre ++ post)).length := by
  rw [created_append, List.length_append]; omega

theorem controls_state (evs : List (ControlEvent Cfg V)) :
    Listed (ControlSession.run mk raises evs).controls (created mk evs) ∧
    ∀ (k : Nat) (v : V), (ControlSession.run mk raises evs).controls.widgets[k]? = some v → Holds mk evs k v := by
  induction evs using List.reverseRecOn with
  | nil => exact ⟨⟨rfl, rfl, by intro n k h; simp [ControlSession.run] at h⟩, by intro k v h; simp [ControlSession.run] at h⟩
  | append_singleton evs e ih =>
    obtain ⟨hL, hH⟩ := ih
    rw [run_snoc]
    generalize ControlSession.run mk raises evs = s at hL hH
    cases e with
    | callback =>
      refine ⟨?_, ?_⟩
      · have : created mk (evs ++ [.callback]) = created mk evs := by rw [created_append]; simp [created]
        rw [this]; exact hL
      · intro k v hk
        exact (hH k v hk).snoc mk _ (by simp)
    | panel ps =>
      have hc : created mk (evs ++ [.panel ps]) = created mk evs ++ ps.filterMap fun p => (mk p.2).map fun v => (p.1, v) := by
        rw [created_append]; simp [created]
      obtain ⟨h1, h2⟩ := hL.panel mk ps
      refine ⟨by rw [hc]; exact h1, ?_⟩
      intro k v hk
      have hk' : (s.controls.panel mk ps).widgets[k]? = some v := hk
      rw [h2] at hk'
      by_cases hkl : k < s.controls.widgets.length
      · rw [List.getElem?_append_left hkl] at hk'
        exact (hH k v hk').snoc mk _ (by simp)
      · rw [List.getElem?_append_right (by omega)] at hk'
        right
        refine ⟨?_, ?_⟩
        · rw [hc, List.getElem?_append_right (by rw [← hL.len]; omega), ← hL.len]
          have e2 : (ps.filterMap fun p => mk p.2) = (ps.filterMap fun p => (mk p.2).map fun v => (p.1, v)).map Prod.snd := by
            rw [List.map_filterMap]
            apply List.filterMap_congr
            intro p _
            cases mk p.2 <;> rfl
          rw [e2, List.getElem?_map, Option.map_eq_some_iff] at hk'
          obtain ⟨⟨n, w⟩, ha, rfl⟩ := hk'
          exact ⟨n, ha⟩
        · intro pre w post hp
          rcases List.eq_nil_or_concat post with rfl | ⟨post', x, rfl⟩
          · have := List.append_inj_right' hp rfl
            simp at this
          · rw [List.concat_eq_append, ← List.cons_append, ← List.append_assoc] at hp
            have he := List.append_inj_left' hp rfl
            have := created_prefix_le mk pre (.move k w :: post')
            rw [← he, ← hL.len] at this
            omega
    | move i v =>
      have hc : created mk (evs ++ [.move i v]) = created mk evs := by rw [created_append]; simp [created]
      rw [hc]
      cases hw : s.controls.widgets[i]? with
      | none =>
        have hs : s.step mk raises (.move i v) = s := by simp only [ControlSession.step, hw]
        rw [hs]
        refine ⟨hL, ?_⟩
        intro k w hk
        refine (hH k w hk).snoc mk _ ?_
        intro w' he
        cases he
        rw [hw] at hk; cases hk
      | some old =>
        have hil : i < s.controls.widgets.length := (List.getElem?_eq_some_iff.1 hw).1
        have hfirst : Holds mk (evs ++ [.move i v]) i v :=
          .inl ⟨evs, [], rfl, by rw [← hL.len]; exact hil, by simp⟩
        by_cases hov : old = v
        · have hs : s.step mk raises (.move i v) = s := by simp only [ControlSession.step, hw, if_pos hov]
          rw [hs]
          refine ⟨hL, ?_⟩
          intro k w hk
          by_cases hki : k = i
          · subst hki
            rw [hw] at hk; cases hk
            rw [hov]; exact hfirst
          · exact (hH k w hk).snoc mk _ (by intro w' he; cases he; exact hki rfl)
        · have hs : (s.step mk raises (.move i v)).controls = s.controls.move i v := by
            simp only [ControlSession.step, hw, if_neg hov]
          rw [hs]
          refine ⟨⟨by simp [Controls.move, hL.len], hL.keys, hL.last⟩, ?_⟩
          intro k w hk
          simp only [Controls.move, List.getElem?_set] at hk
          by_cases hki : i = k
          · subst hki
            rw [if_pos rfl, if_pos hil] at hk
            cases hk
            exact hfirst
          · rw [if_neg hki] at hk
            exact (hH k w hk).snoc mk _ (by intro w' he; cases he; exact hki rfl)

/-- C165: after any interleaving of panel creations, registrations of callbacks and changes by the user, `get_parameters()` lists
exactly the parameters for which a widget was ever created (in any panel), in order of first creation, each with the current value
of its latest widget. -/
theorem C165_parameters (evs : List (ControlEvent Cfg V)) :
    let ps := (ControlSession.run mk raises evs).controls.parameters
    ps.map Prod.fst = firstSeen ((created mk evs).map Prod.fst) ∧
    ∀ (name : String) (value : Option V), (name, value) ∈ ps →
      ∃ (k : Nat) (v : V), value = some v ∧ Holds mk evs k v ∧ (∃ w, (created mk evs)[k]? = some (name, w)) ∧
        ∀ (j : Nat) (w : V), k < j → (created mk evs)[j]? ≠ some (name, w) := by
  obtain ⟨hL, hH⟩ := controls_state mk raises evs
  generalize ControlSession.run mk raises evs = s at hL hH
  simp only [Controls.parameters]
  constructor
  · rw [List.map_map, ← hL.keys]; rfl
  · intro name value hmem
    obtain ⟨⟨n, k⟩, hnk, he⟩ := List.mem_map.1 hmem
    simp only [Prod.mk.injEq] at he
    obtain ⟨rfl, rfl⟩ := he
    have hnd : (s.controls.controls.map Prod.fst).Nodup := by rw [hL.keys]; exact firstSeen_nodup _
    obtain ⟨⟨w, h1⟩, h2⟩ := hL.last n k (lookup_of_mem _ hnd n k hnk)
    have hk : k < s.controls.widgets.length := by rw [hL.len]; exact (List.getElem?_eq_some_iff.1 h1).1
    refine ⟨k, s.controls.widgets[k], List.getElem?_eq_getElem hk, hH k _ (List.getElem?_eq_getElem hk), ⟨w, h1⟩, h2⟩

/-- Specification: the number of callbacks registered. -/
def registered (evs : List (ControlEvent Cfg V)) : Nat :=
  evs.countP fun e => match e with
    | .callback => true
    | _ => false

theorem callbacks_eq (evs : List (ControlEvent Cfg V)) : (ControlSession.run mk raises evs).callbacks = registered evs := by
  induction evs using List.reverseRecOn with
  | nil => rfl
  | append_singleton evs e ih =>
    rw [run_snoc]
    unfold registered at ih ⊢
    rw [List.countP_append, ← ih]
    cases e with
    | panel ps => simp [ControlSession.step]
    | callback => simp [ControlSession.step]
    | move i v =>
      simp only [ControlSession.step]
      cases (ControlSession.run mk raises evs).controls.widgets[i]? with
      | none => simp
      | some old => simp only; split <;> simp

/-- C165: creating panels and registering callbacks calls nothing.  When the user changes the value of any widget (even one replaced
by a later one of the same name), every callback registered so far is called exactly once, in order of registration, with the
parameters as they are after the change, whether or not earlier callbacks raised; giving a widget the value it has calls nothing. -/
theorem C165_callbacks (evs : List (ControlEvent Cfg V)) :
    (∀ ps, (ControlSession.run mk raises (evs ++ [.panel ps])).calls = (ControlSession.run mk raises evs).calls) ∧
    (ControlSession.run mk raises (evs ++ [.callback])).calls = (ControlSession.run mk raises evs).calls ∧
    ∀ (i : Nat) (v old : V), (ControlSession.run mk raises evs).controls.widgets[i]? = some old →
      (old = v → (ControlSession.run mk raises (evs ++ [.move i v])).calls = (ControlSession.run mk raises evs).calls) ∧
      (old ≠ v → ∃ new, (ControlSession.run mk raises (evs ++ [.move i v])).calls =
          (ControlSession.run mk raises evs).calls ++ new ∧ new.length = registered evs ∧
        ∀ (k : Nat) (call : Nat × List (String × Option V) × Bool), new[k]? = some call →
          call.1 = k ∧ call.2.1 = (ControlSession.run mk raises (evs ++ [.move i v])).controls.parameters ∧
          call.2.2 = raises k call.2.1) := by
  refine ⟨fun ps => by rw [run_snoc]; rfl, by rw [run_snoc]; rfl, ?_⟩
  intro i v old hold
  have hcb := callbacks_eq mk raises evs
  rw [run_snoc]
  generalize ControlSession.run mk raises evs = s at hold hcb
  constructor
  · intro h; simp only [ControlSession.step, hold, if_pos h]
  · intro h
    simp only [ControlSession.step, hold, if_neg h]
    refine ⟨_, rfl, by simp [Controls.notify, hcb], ?_⟩
    intro k call hk
    simp only [Controls.notify, List.getElem?_map, Option.map_eq_some_iff] at hk
    obtain ⟨a, ha, rfl⟩ := hk
    obtain ⟨hl, ha⟩ := List.getElem?_eq_some_iff.1 ha
    simp only [List.getElem_range] at ha
    subst ha
    exact ⟨rfl, rfl, rfl⟩

/-- C165: the widgets that exist are those created. -/
theorem C165_widgets (evs : List (ControlEvent Cfg V)) :
    (ControlSession.run mk raises evs).controls.widgets.length = (created mk evs).length ∧
    ∀ (k : Nat) (v : V), (ControlSession.run mk raises evs).controls.widgets[k]? = some v → Holds mk evs k v :=
  ⟨(controls_state mk raises evs).1.len, (controls_state mk raises evs).2⟩

end Controls

/-- C165: a widget is created exactly for the four known types (`float` by default); without a value it starts at one half, ten,
false or the first option. -/
theorem C165_widget_value (c : WidgetConfig) :
    (widgetValue c = none ↔ ∃ t, c.type = some t ∧ t ∉ ["float", "int", "bool", "dropdown"]) ∧
    (∀ v, c.value = some v → widgetValue c ≠ none → widgetValue c = some v) ∧
    (c.value = none → (c.type = none ∨ c.type = some "float" → widgetValue c = some (.float (1 / 2))) ∧
      (c.type = some "int" → widgetValue c = some (.int 10)) ∧ (c.type = some "bool" → widgetValue c = some (.bool false)) ∧
      (c.type = some "dropdown" → ∀ o os, c.options = some (o :: os) → widgetValue c = some o)) := by
  obtain ⟨t, v, o⟩ := c
  refine ⟨?_, ?_, ?_⟩
  · cases t with
    | none => simp [widgetValue]
    | some t =>
      simp only [widgetValue, Option.getD_some, Option.some.injEq, exists_eq_left']
      split <;> simp_all
  · rintro w rfl
    simp only [widgetValue, Option.getD_some]
    split <;> simp
  · rintro rfl
    refine ⟨?_, ?_, ?_, ?_⟩
    · rintro (rfl | rfl) <;> rfl
    · rintro rfl; rfl
    · rintro rfl; rfl
    · rintro rfl x xs rfl; rfl

example : (ControlSession.run widgetValue (fun k _ => k == 0)
    [.panel [("alpha", {}), ("mode", { type := some "menu" })], .callback, .callback, .panel [("n", { type := some "int" })],
     .move 1 (.int 3), .panel [("alpha", { value := some (.float 2) })], .move 0 (.float 1)]).calls =
    [(0, [("alpha", some (.float (1 / 2))), ("n", some (.int 3))], true),
     (1, [("alpha", some (.float (1 / 2))), ("n", some (.int 3))], false),
     (0, [("alpha", some (.float 2)), ("n", some (.int 3))], true),
     (1, [("alpha", some (.float 2)), ("n", some (.int 3))], false)] := by decide +kernel

end Verif.Props
