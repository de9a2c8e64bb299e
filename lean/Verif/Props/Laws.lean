import Verif.Props.Windows
import Verif.Props.OHLC
import Verif.Props.EWMVar
import Verif.Props.EWMALinear
import Verif.Props.ARMA

/-! # Properties C170 and C171: changes of units, composition and degenerate parameters of the streaming modules -/

set_option linter.unusedSectionVars false
set_option linter.unusedSimpArgs false

namespace Verif.Props
open Model Spec Lemmas
variable {K : Type} [Field K] [LinearOrder K] [IsStrictOrderedRing K]

/-- A change of units: `a·x + b`. -/
def units (a b : K) (x : Fl K) : Fl K := Fl.fin a * x + Fl.fin b

theorem mul_pinf {a : K} (ha : 0 < a) : Fl.fin a * (Fl.pinf : Fl K) = .pinf := by
  show Fl.infSign a = _
  simp [Fl.infSign, ha, ha.ne']

theorem mul_ninf {a : K} (ha : 0 < a) : Fl.fin a * (Fl.ninf : Fl K) = .ninf := by
  show Fl.neg (Fl.infSign a) = _
  simp [Fl.infSign, ha, ha.ne', Fl.neg]

@[simp] theorem units_nan (a b : K) : units a b .nan = .nan := by simp [units]
@[simp] theorem units_fin (a b x : K) : units a b (.fin x) = .fin (a * x + b) := by simp [units]
theorem units_pinf {a : K} (ha : 0 < a) (b : K) : units a b .pinf = .pinf := by rw [units, mul_pinf ha]; rfl
theorem units_ninf {a : K} (ha : 0 < a) (b : K) : units a b .ninf = .ninf := by rw [units, mul_ninf ha]; rfl

theorem units_isNan {a : K} (ha : 0 < a) (b : K) (x : Fl K) : (units a b x).isNan = x.isNan := by
  cases x <;> simp [units_pinf ha, units_ninf ha]

theorem units_lt {a : K} (ha : 0 < a) (b : K) (x y : Fl K) : Fl.lt (units a b x) (units a b y) = Fl.lt x y := by
  cases x <;> cases y <;> simp [units_pinf ha, units_ninf ha, ha] <;> rfl

theorem units_sub {a : K} (ha : 0 < a) (b : K) (x y : Fl K) : units a b x - units a b y = units a 0 (x - y) := by
  cases x <;> cases y <;> simp only [units_pinf ha, units_ninf ha, units_nan, units_fin, Fl.nan_sub, Fl.sub_nan, Fl.fin_sub]
  · rfl
  · exact (units_ninf ha 0).symm
  · exact (units_ninf ha 0).symm
  · exact (units_pinf ha 0).symm
  · congr 1; ring
  · exact (units_ninf ha 0).symm
  · exact (units_pinf ha 0).symm
  · exact (units_pinf ha 0).symm
  · rfl

/-- A module computing `spec` follows a change of the inputs `f` by `g` if its specification does. -/
theorem run_map_of_computes {S I O : Type} {m : Mealy S I O} {S' I' O' : Type} {m' : Mealy S' I' O'} {spec : List I → O}
    {spec' : List I' → O'} (h : m.Computes spec) (h' : m'.Computes spec') (f : I → I') (g : O → O')
    (hs : ∀ hist, spec' (hist.map f) = g (spec hist)) (xs : List I) : m'.run (xs.map f) = (m.run xs).map g := by
  apply List.ext_getElem?
  intro t
  by_cases ht : t < xs.length
  · rw [List.getElem?_map, h xs t ht, h' (xs.map f) t (by simpa using ht), ← List.map_take, hs]
    rfl
  · rw [List.getElem?_eq_none (by simp; omega), List.getElem?_eq_none (by simp; omega)]

/-- The same, by relating the states. -/
theorem run_map_of_sim {S I O S' I' O' : Type} (m : Mealy S I O) (m' : Mealy S' I' O') (f : I → I') (g : O → O') (u : S → S')
    (h0 : m'.init = u m.init) (hs : ∀ s x, m'.step (u s) (f x) = (g (m.step s x).1, u (m.step s x).2)) (xs : List I) :
    m'.run (xs.map f) = (m.run xs).map g := by
  have : ∀ (xs : List I) (s : S), m'.outsFrom (u s) (xs.map f) = (m.outsFrom s xs).map g := by
    intro xs
    induction xs with
    | nil => intro s; rfl
    | cons x xs ih =>
      intro s
      simp only [List.map_cons, Mealy.outsFrom_cons, hs]
      rw [ih]
  rw [Mealy.run, h0, this]; rfl

/-! ## C170: changes of units -/

/-- C170: a buffer and a lag carry any change of values, their filling value being changed too. -/
theorem C170_buffer {α β : Type} (f : α → β) (maxlen : Nat) (fill : α) (xs : List α) :
    ((buffer maxlen (f fill)).run (xs.map f)).map (·.1) = ((buffer maxlen fill).run xs).map fun o => o.1.map f := by
  have h := run_map_of_computes (g := fun (o : List α × BufState α) =>
      (o.1.map f, (⟨o.2.buffer.map f, o.2.lenBuffer, o.2.iStart⟩ : BufState β)))
    (C01_buffer_window maxlen fill) (C01_buffer_window maxlen (f fill)) f (by
      intro hist
      have : window maxlen (f fill) (hist.map f) = (window maxlen fill hist).map f := by
        simp [window, List.map_drop]
      simp [this]) xs
  rw [h, List.map_map]
  rfl

theorem ago_map {α β : Type} (f : α → β) (k : Nat) (fill : α) (hist : List α) :
    ago k (f fill) (hist.map f) = f (ago k fill hist) := by
  unfold ago
  simp only [List.getD_eq_getElem?_getD, ← List.map_reverse, List.getElem?_map, Option.getD_map]

theorem C170_lag {α β : Type} (f : α → β) (k : Nat) (fill : α) (xs : List α) :
    (lag k (f fill)).run (xs.map f) = ((lag k fill).run xs).map (Option.map f) :=
  run_map_of_computes (C03_lag k fill) (C03_lag k (f fill)) f (Option.map f) (fun hist => by simp [ago_map]) xs

/-- C170: differences are scaled and do not see a shift, infinities and NaN included. -/
theorem C170_diff {a : K} (ha : 0 < a) (b : K) (xs : List (Fl K)) :
    (diff (K := K)).run (xs.map (units a b)) = ((diff (K := K)).run xs).map (Option.map (units a 0)) := by
  refine run_map_of_computes C04_diff C04_diff (units a b) (Option.map (units a 0)) (fun hist => ?_) xs
  have h0 := ago_map (units a b) 0 Fl.nan hist
  have h1 := ago_map (units a b) 1 Fl.nan hist
  rw [units_nan] at h0 h1
  rw [h0, h1, Option.map_some, units_sub ha]

theorem lastValid_map (f : Fl K → Fl K) (hf : ∀ x, (f x).isNan = x.isNan) (hist : List (Fl K)) :
    lastValid (hist.map f) = f (lastValid hist) := by
  have hn : f .nan = .nan := (Fl.isNan_iff _).1 (by rw [hf]; rfl)
  have e : valid (hist.map f) = (valid hist).map f := by
    unfold valid
    rw [List.filter_map]
    congr 1
    apply List.filter_congr
    intro x _
    simp [hf]
  unfold lastValid
  rw [e, List.getLast?_map]
  cases (valid hist).getLast? <;> simp [hn]

/-- C170: filling forward carries any change of values that keeps NaN and only NaN on NaN. -/
theorem C170_ffill (f : Fl K → Fl K) (hf : ∀ x, (f x).isNan = x.isNan) (xs : List (Fl K)) :
    (ffill (K := K)).run (xs.map f) = ((ffill (K := K)).run xs).map f :=
  run_map_of_computes C06_ffill C06_ffill f f (lastValid_map f hf) xs

theorem scale_div {a : K} (ha : 0 < a) (x y : Fl K) : units a 0 x / units a 0 y = x / y := by
  cases x <;> cases y <;> simp only [units_pinf ha, units_ninf ha, units_nan, units_fin, Fl.nan_div, Fl.div_nan, add_zero]
  case fin.fin x y =>
    rw [Fl.fin_div, Fl.fin_div]
    by_cases hy : y = 0
    · rw [if_pos (by simp [hy]), if_pos hy]
      unfold Fl.infSign
      simp [ha, ha.ne', mul_pos_iff_of_pos_left ha]
    · rw [if_neg (by simp [hy, ha.ne']), if_neg hy, mul_div_mul_left _ _ ha.ne']
  case fin.ninf => rfl
  case fin.pinf => rfl
  case ninf.fin y =>
    show (if a * y < 0 then _ else _) = if y < 0 then _ else _
    simp [mul_neg_iff, ha, ha.not_gt]
  case pinf.fin y =>
    show (if a * y < 0 then _ else _) = if y < 0 then _ else _
    simp [mul_neg_iff, ha, ha.not_gt]

/-- C170: percentage changes do not depend on the unit, infinities, zeros and NaN included. -/
theorem C170_pct_change (fz : Bool) {a : K} (ha : 0 < a) (xs : List (Fl K)) :
    (pctChange fz).run (xs.map (units a 0)) = (pctChange fz).run xs := by
  apply List.ext_getElem?
  intro t
  by_cases ht : t < xs.length
  · rw [C05_pct_change fz xs t ht, C05_pct_change fz (xs.map (units a 0)) t (by simpa using ht), ← List.map_take,
      lastValid_map _ (units_isNan ha 0), List.getElem_map, ← pctValue_eq, ← pctValue_eq]
    unfold pctValue
    rw [scale_div ha, units_isNan ha, units_isNan ha]
  · rw [List.getElem?_eq_none (by simp; omega), List.getElem?_eq_none (by simp; omega)]

theorem sum_units {a : K} (ha : 0 < a) (b : K) (l : List (Fl K)) (hl : ∀ x ∈ l, x ≠ .nan) :
    (l.map (units a b)).sum = units a ((l.length : K) * b) l.sum := by
  induction l with
  | nil => simp
  | cons x l ih =>
    rw [List.map_cons, List.sum_cons, ih fun y hy => hl y (List.mem_cons_of_mem _ hy), List.sum_cons, List.length_cons]
    have hx := hl x List.mem_cons_self
    generalize l.sum = s
    cases x <;> cases s <;> simp only [units_pinf ha, units_ninf ha, units_nan, units_fin, Fl.add_nan, Fl.fin_add] at hx ⊢
    · exact absurd rfl hx
    · exact absurd rfl hx
    · exact absurd rfl hx
    · exact (units_ninf ha _).symm
    · exact (units_ninf ha _).symm
    · rfl
    · exact (units_ninf ha _).symm
    · congr 1; push_cast; ring
    · exact (units_pinf ha _).symm
    · rfl
    · exact (units_pinf ha _).symm
    · exact (units_pinf ha _).symm

/-- C170: rolling means follow a change of units, infinities and NaN included. -/
theorem C170_rolling_mean (horizon minPeriods : Nat) {a : K} (ha : 0 < a) (b : K) (xs : List (Fl K)) :
    (rollingMean horizon minPeriods).run (xs.map (units a b)) = ((rollingMean horizon minPeriods).run xs).map (units a b) := by
  refine run_map_of_computes (C07_rolling_mean horizon minPeriods) (C07_rolling_mean horizon minPeriods) _ _ (fun hist => ?_) xs
  simp only [List.length_map, ← List.map_drop]
  generalize hist.drop (hist.length - horizon) = h
  have e : valid (h.map (units a b)) = (valid h).map (units a b) := by
    unfold valid
    rw [List.filter_map]
    congr 1
    apply List.filter_congr
    intro x _
    simp [units_isNan ha]
  have hv : ∀ x ∈ valid h, x ≠ .nan := by
    intro x hx
    simp only [valid, List.mem_filter, Bool.not_eq_true', Fl.isNan_false_iff] at hx
    exact hx.2
  rw [e, List.length_map]
  split
  · rename_i hc
    rw [sum_units ha b _ hv]
    have hn : 0 < (valid h).length := by omega
    have hn' : (0 : K) < ((valid h).length : K) := by exact_mod_cast hn
    generalize (valid h).sum = s
    cases s with
    | nan => simp
    | fin s =>
      simp only [units_fin]
      rw [Fl.fin_div_of_ne _ hn'.ne', Fl.fin_div_of_ne _ hn'.ne', units_fin]
      congr 1
      field_simp
    | pinf =>
      rw [units_pinf ha]
      have : (Fl.pinf : Fl K) / Fl.fin ((valid h).length : K) = .pinf := by
        show (if _ then _ else _) = _
        rw [if_neg hn'.not_gt]
      rw [this, units_pinf ha]
    | ninf =>
      rw [units_ninf ha]
      have : (Fl.ninf : Fl K) / Fl.fin ((valid h).length : K) = .ninf := by
        show (if _ then _ else _) = _
        rw [if_neg hn'.not_gt]
      rw [this, units_ninf ha]
  · simp

/-- The bar in other units. -/
def barUnits (a b : K) (o : OHLCData K) : OHLCData K := ⟨units a b o.open_, units a b o.high, units a b o.low, units a b o.close⟩

theorem ite_units (p : Bool) (a b : K) (x y : Fl K) :
    (if p = true then units a b x else units a b y) = units a b (if p = true then x else y) := by cases p <;> rfl

/-- C170: bars follow a change of units, in Haiku and in Flax. -/
theorem C170_ohlc {a : K} (ha : 0 < a) (b : K) (xs : List (Fl K × Bool)) :
    (ohlc (K := K)).run (xs.map fun e => (units a b e.1, e.2)) = ((ohlc (K := K)).run xs).map (barUnits a b) ∧
    (flaxOhlc (K := K)).run (xs.map fun e => (units a b e.1, e.2)) = ((flaxOhlc (K := K)).run xs).map (barUnits a b) := by
  have hinit : (OHLCData.empty : OHLCData K) = barUnits a b OHLCData.empty := by simp [OHLCData.empty, barUnits]
  constructor
  · apply run_map_of_sim (ohlc (K := K)) (ohlc (K := K)) (u := barUnits a b)
    · exact hinit
    · rintro s ⟨x, r⟩
      have hs : (if r then OHLCData.empty else barUnits a b s) = barUnits a b (if r then OHLCData.empty else s) := by
        cases r
        · rfl
        · exact hinit
      simp only [ohlc, ohlcStep]
      rw [hs]
      generalize (if r then OHLCData.empty else s) = s'
      simp only [barUnits, units_isNan ha, ite_units, units_lt ha]
  · apply run_map_of_sim (flaxOhlc (K := K)) (flaxOhlc (K := K)) (u := barUnits a b)
    · exact hinit
    · rintro s ⟨x, r⟩
      have hmax : ∀ x y : Fl K, Fl.maximum (units a b x) (units a b y) = units a b (Fl.maximum x y) := by
        intro x y
        unfold Fl.maximum
        rw [units_isNan ha, units_isNan ha, units_lt ha]
        split
        · simp
        · rw [ite_units]
      have hmin : ∀ x y : Fl K, Fl.minimum (units a b x) (units a b y) = units a b (Fl.minimum x y) := by
        intro x y
        unfold Fl.minimum
        rw [units_isNan ha, units_isNan ha, units_lt ha]
        split
        · simp
        · rw [ite_units]
      simp only [flaxOhlc, flaxOhlcStep, barUnits, units_isNan ha, hmax, hmin, ite_units]

theorem mul_scale_left {a : K} (ha : 0 < a) (x y : Fl K) : x * (Fl.fin a * y) = Fl.fin a * (x * y) := by
  have hneg : ∀ z : Fl K, Fl.fin a * Fl.neg z = Fl.neg (Fl.fin a * z) := by
    intro z
    cases z
    · simp [Fl.neg]
    · rw [mul_ninf ha]; simp only [Fl.neg]; rw [mul_pinf ha]
    · simp [Fl.neg]
    · rw [mul_pinf ha]; simp only [Fl.neg]; rw [mul_ninf ha]
  have hsign : ∀ k : K, Fl.fin a * Fl.infSign k = Fl.infSign k := by
    intro k
    unfold Fl.infSign
    split
    · simp
    · split
      · exact mul_pinf ha
      · exact mul_ninf ha
  have hsign' : ∀ k : K, Fl.infSign (a * k) = Fl.infSign k := by
    intro k
    unfold Fl.infSign
    simp [ha.ne', mul_pos_iff_of_pos_left ha]
  cases x <;> cases y <;> simp only [mul_pinf ha, mul_ninf ha, Fl.nan_mul, Fl.mul_nan, Fl.fin_mul]
  · exact (mul_pinf ha).symm
  · show Fl.neg (Fl.infSign _) = Fl.fin a * Fl.neg (Fl.infSign _)
    rw [hsign', hneg, hsign]
  · exact (mul_ninf ha).symm
  · show Fl.neg (Fl.infSign _) = Fl.fin a * Fl.neg (Fl.infSign _)
    rw [hneg, hsign]
  · congr 1; ring
  · show Fl.infSign _ = Fl.fin a * Fl.infSign _
    rw [hsign]
  · exact (mul_ninf ha).symm
  · show Fl.infSign _ = Fl.fin a * Fl.infSign _
    rw [hsign', hsign]
  · exact (mul_pinf ha).symm

theorem scale_eq (a : K) (x : Fl K) : units a 0 x = Fl.fin a * x := by
  unfold units
  cases h : Fl.fin a * x <;> first | rfl | (rw [Fl.fin_add, add_zero])

theorem scale_add {a : K} (ha : 0 < a) (x y : Fl K) : Fl.fin a * x + Fl.fin a * y = Fl.fin a * (x + y) := by
  cases x <;> cases y <;> simp only [mul_pinf ha, mul_ninf ha, Fl.nan_add, Fl.add_nan, Fl.mul_nan, Fl.fin_mul, Fl.fin_add]
  · exact (mul_ninf ha).symm
  · exact (mul_ninf ha).symm
  · simp only [show (Fl.ninf : Fl K) + .pinf = .nan from rfl, Fl.mul_nan]
  · exact (mul_ninf ha).symm
  · congr 1; ring
  · exact (mul_pinf ha).symm
  · simp only [show (Fl.pinf : Fl K) + .ninf = .nan from rfl, Fl.mul_nan]
  · exact (mul_pinf ha).symm
  · exact (mul_pinf ha).symm

theorem units_add_scale {a : K} (ha : 0 < a) (b : K) (m i : Fl K) : units a b m + Fl.fin a * i = units a b (m + i) := by
  unfold units
  rw [← scale_add ha]
  cases Fl.fin a * m <;> cases Fl.fin a * i <;> first | rfl | (simp only [Fl.fin_add]; congr 1; ring)

/-- C170: the exponential variance scales with the square of the unit and does not see a shift, in every mode, infinities and NaN
included. -/
theorem C170_ewmvar (com : K) (adjust : Adjust) {a : K} (ha : 0 < a) (b : K) (xs : List (Fl K)) :
    (ewmvar com adjust).run (xs.map (units a b)) = ((ewmvar com adjust).run xs).map (units (a * a) 0) := by
  have ha2 : 0 < a * a := by positivity
  apply run_map_of_sim (ewmvar com adjust) (ewmvar com adjust)
    (u := fun s => ⟨units a b s.mean, units (a * a) 0 s.var, s.nobs⟩)
  · simp [ewmvar]
  · intro s x
    have hzero : (Fl.fin 0 : Fl K) = units (a * a) 0 (Fl.fin 0) := by simp
    simp only [ewmvar, ewmvarStep, units_isNan ha, units_isNan ha2]
    generalize (if !x.isNan then s.nobs + 1 else s.nobs) = n
    generalize ewmvarAlpha com adjust n = al
    have hv : (if s.var.isNan = true then (Fl.fin 0 : Fl K) else units (a * a) 0 s.var) =
        units (a * a) 0 (if s.var.isNan = true then Fl.fin 0 else s.var) := by
      split
      · exact hzero
      · rfl
    rw [hv, ite_units]
    generalize (if s.var.isNan = true then Fl.fin 0 else s.var) = v
    generalize (if s.mean.isNan = true then x else s.mean) = m
    rw [units_sub ha, scale_eq a (x - m), mul_scale_left ha, units_add_scale ha, ite_units]
    have h2 : Fl.fin a * (x - m) * (Fl.fin a * (al * (x - m))) = Fl.fin (a * a) * ((x - m) * (al * (x - m))) := by
      rw [mul_scale_left ha, Fl.mul_comm' (Fl.fin a * (x - m)), mul_scale_left ha, Fl.mul_comm' (al * (x - m))]
      generalize (x - m) * (al * (x - m)) = z
      cases z
      · simp
      · rw [mul_ninf ha, mul_ninf ha, mul_ninf ha2]
      · simp [mul_assoc]
      · rw [mul_pinf ha, mul_pinf ha, mul_pinf ha2]
    rw [h2, scale_eq (a * a) v, scale_add ha2, mul_scale_left ha2, ← scale_eq, ← scale_eq, ite_units]

theorem ewma_value_noInf (c : EWMACfg K) (hc : 0 ≤ c.com) (xs : List (Fl K)) (t : Nat) (ht : t < xs.length) :
    ∃ o, ((ewma c).run xs)[t]? = some o ∧ (o.value = .nan ∨ ∃ v, o.value = .fin v) := by
  obtain ⟨o, h1, -, h2, -⟩ := ewma_at c hc xs t ht
  refine ⟨o, h1, ?_⟩
  rw [h2]
  split
  · cases (aRun c (readings c.big c.initial (xs.take (t + 1)))).1 <;> simp [toFl]
  · exact .inl rfl

/-- C170: covariances under changes of units: if two components have their NaN at the same times, changing the units of each multiplies
their covariance by both scales and does not see the shifts; without centering (`assume_centered`), scaling only. -/
theorem C170_ewmcov {ι κ : Type} (c : EWMACfg K) (hc : 0 ≤ c.com) (hini : c.initial = .nan) (ac : Bool) (a b : ι → K) (a' b' : κ → K)
    (ps : List ((ι → Fl K) × (κ → Fl K))) (i : ι) (j : κ) (hg : SameGaps (ps.map fun p => p.1 i) (ps.map fun p => p.2 j))
    (hac : ac = true → b i = 0 ∧ b' j = 0) (t : Nat) (ht : t < ps.length) :
    ∃ C D, ((ewmcov ι κ c ac).run ps)[t]? = some C ∧
      ((ewmcov ι κ c ac).run (ps.map fun p => (fun i => units (a i) (b i) (p.1 i), fun j => units (a' j) (b' j) (p.2 j))))[t]? = some D ∧
      D i j = Fl.fin (a i * a' j) * C i j := by
  obtain ⟨C, h1, h2⟩ := C23_ewmcov_entry c ac ps t ht
  obtain ⟨D, h3, h4⟩ := C23_ewmcov_entry c ac
    (ps.map fun p => ((fun i => units (a i) (b i) (p.1 i) : ι → Fl K), (fun j => units (a' j) (b' j) (p.2 j) : κ → Fl K))) t (by simpa using ht)
  refine ⟨C, D, h1, h3, ?_⟩
  obtain ⟨exy, ex, ey, e1, e2, e3, e4⟩ := h2 i j
  obtain ⟨fxy, fx, fy, f1, f2, f3, f4⟩ := h4 i j
  simp only [List.map_map, Function.comp_def] at f1 f2 f3
  generalize hα : a i = α at *
  generalize hβ : b i = β at *
  generalize hα' : a' j = α' at *
  generalize hβ' : b' j = β' at *
  -- the streams as pairs
  have hcini : ({ c with initial := Fl.nan } : EWMACfg K) = c := by cases c; simp only at hini; rw [hini]
  have key : ∀ (u v w : K) (xs ys : List (Fl K)), SameGaps xs ys →
      ((ewma c).run (List.zipWith (fun x y => Fl.fin u * x + Fl.fin v * y + Fl.fin w) xs ys)).map (·.value) =
      List.zipWith (fun x y => Fl.fin u * x + Fl.fin v * y + Fl.fin w) (((ewma c).run xs).map (·.value)) (((ewma c).run ys).map (·.value)) := by
    intro u v w xs ys h
    have := C98_ewma_superposition c hc u v w .nan .nan (.inl ⟨rfl, rfl⟩) xs ys h
    simp only [Fl.mul_nan, Fl.nan_add] at this
    rw [hcini] at this
    exact this
  have hzip : ∀ (f g : ((ι → Fl K) × (κ → Fl K)) → Fl K) (h : Fl K → Fl K → Fl K),
      List.zipWith h (ps.map f) (ps.map g) = ps.map fun p => h (f p) (g p) := by
    intro f g h
    rw [List.zipWith_map, List.zipWith_self]
  have hgap : ∀ p ∈ ps, SameGap (p.1 i) (p.2 j) := by
    intro p hp
    obtain ⟨n, hn, rfl⟩ := List.getElem_of_mem hp
    have := (List.forall₂_iff_get.1 hg).2 n (by simpa using hn) (by simpa using hn)
    simpa using this
  have hsg : ∀ (f g : ((ι → Fl K) × (κ → Fl K)) → Fl K), (∀ p ∈ ps, SameGap (f p) (g p)) → SameGaps (ps.map f) (ps.map g) := by
    intro f g h
    unfold SameGaps
    rw [List.forall₂_map_left_iff, List.forall₂_map_right_iff]
    exact List.forall₂_same.2 h
  -- one stream in other units
  have hone : ∀ (u w : K) (f : ((ι → Fl K) × (κ → Fl K)) → Fl K), (∀ p ∈ ps, SameGap (f p) (f p)) → ∀ o,
      ((ewma c).run (ps.map f))[t]? = some o → ∃ o', ((ewma c).run (ps.map fun p => units u w (f p)))[t]? = some o' ∧
        o'.value = units u w o.value := by
    intro u w f hf o ho
    have hk := key u 0 w _ _ (hsg f f hf)
    rw [hzip] at hk
    have e : (ps.map fun p => Fl.fin u * f p + Fl.fin 0 * f p + Fl.fin w) = ps.map fun p => units u w (f p) := by
      apply List.map_congr_left
      intro p hp
      rcases hf p hp with ⟨h, -⟩ | ⟨x, -, h, -⟩ <;> simp [h, units]
    rw [e] at hk
    have := congrArg (fun l => l[t]?) hk
    simp only [List.getElem?_map, List.getElem?_zipWith, ho, Option.map_some] at this
    cases hr : ((ewma c).run (ps.map fun p => units u w (f p)))[t]? with
    | none => rw [hr] at this; simp at this
    | some o' =>
      rw [hr] at this
      refine ⟨o', rfl, ?_⟩
      simp only [Option.map_some, Option.some.injEq] at this
      rw [this]
      obtain ⟨o2, g1, g2⟩ := ewma_value_noInf c hc (ps.map f) t (by simpa using ht)
      rw [ho, Option.some.injEq] at g1
      subst g1
      rcases g2 with g2 | ⟨v, g2⟩ <;> simp [g2, units]
  have hfinx : ex.value = .nan ∨ ∃ v, ex.value = .fin v := by
    obtain ⟨o, g1, g2⟩ := ewma_value_noInf c hc (ps.map fun p => p.1 i) t (by simpa using ht)
    rw [e2, Option.some.injEq] at g1; rwa [g1]
  have hfiny : ey.value = .nan ∨ ∃ v, ey.value = .fin v := by
    obtain ⟨o, g1, g2⟩ := ewma_value_noInf c hc (ps.map fun p => p.2 j) t (by simpa using ht)
    rw [e3, Option.some.injEq] at g1; rwa [g1]
  have hfinxy : exy.value = .nan ∨ ∃ v, exy.value = .fin v := by
    obtain ⟨o, g1, g2⟩ := ewma_value_noInf c hc (ps.map fun p => p.1 i * p.2 j) t (by simpa using ht)
    rw [e1, Option.some.injEq] at g1; rwa [g1]
  -- means
  obtain ⟨ox, gx1, gx2⟩ := hone α β (fun p => p.1 i) (fun p hp => by
    rcases hgap p hp with ⟨h, -⟩ | ⟨x, y, h, -⟩
    · exact .inl ⟨h, h⟩
    · exact .inr ⟨x, x, h, h⟩) ex e2
  obtain ⟨oy, gy1, gy2⟩ := hone α' β' (fun p => p.2 j) (fun p hp => by
    rcases hgap p hp with ⟨-, h⟩ | ⟨x, y, -, h⟩
    · exact .inl ⟨h, h⟩
    · exact .inr ⟨y, y, h, h⟩) ey e3
  simp only [f2, Option.some.injEq] at gx1
  simp only [f3, Option.some.injEq] at gy1
  subst gx1
  subst gy1
  -- product: first α α' xy + α β' x + 0, then + β α' y + β β'
  have hk1 := key (α * α') (α * β') 0 (ps.map fun p => p.1 i * p.2 j) (ps.map fun p => p.1 i) (hsg _ _ fun p hp => by
    rcases hgap p hp with ⟨h, h'⟩ | ⟨x, y, h, h'⟩
    · exact .inl ⟨by simp [h], h⟩
    · exact .inr ⟨x * y, x, by simp [h, h'], h⟩)
  rw [hzip] at hk1
  have hk2 := key 1 (β * α') (β * β') (ps.map fun p => Fl.fin (α * α') * (p.1 i * p.2 j) + Fl.fin (α * β') * p.1 i + Fl.fin 0)
    (ps.map fun p => p.2 j) (hsg _ _ fun p hp => by
    rcases hgap p hp with ⟨h, h'⟩ | ⟨x, y, h, h'⟩
    · exact .inl ⟨by simp [h], h'⟩
    · exact .inr ⟨_, y, by simp [h, h']; rfl, h'⟩)
  rw [hzip, hk1] at hk2
  have e5 : (ps.map fun p => Fl.fin 1 * (Fl.fin (α * α') * (p.1 i * p.2 j) + Fl.fin (α * β') * p.1 i + Fl.fin 0) +
      Fl.fin (β * α') * p.2 j + Fl.fin (β * β')) = ps.map fun p => units α β (p.1 i) * units α' β' (p.2 j) := by
    apply List.map_congr_left
    intro p hp
    rcases hgap p hp with ⟨h, h'⟩ | ⟨x, y, h, h'⟩
    · simp [h, h']
    · simp [h, h']; ring
  rw [e5] at hk2
  have := congrArg (fun l => l[t]?) hk2
  simp only [List.getElem?_map, List.getElem?_zipWith, f1, e1, e2, e3, Option.map_some, Option.some.injEq] at this
  rw [f4, e4, this, gx2, gy2]
  cases ac with
  | true =>
    obtain ⟨rfl, rfl⟩ := hac rfl
    simp only [if_true]
    -- the terms in `x` and `y` vanish unless NaN: same gaps again
    have hxy1 := ewma_at c hc (ps.map fun p => p.1 i * p.2 j) t (by simpa using ht)
    have hnan : (exy.value = .nan ↔ ex.value = .nan) ∧ (exy.value = .nan ↔ ey.value = .nan) := by
      have hsome : ∀ (f g : ((ι → Fl K) × (κ → Fl K)) → Fl K), (∀ p ∈ ps, SameGap (f p) (g p)) → ∀ o o',
          ((ewma c).run (ps.map f))[t]? = some o → ((ewma c).run (ps.map g))[t]? = some o' → (o.value = .nan ↔ o'.value = .nan) := by
        intro f g h o o' ho ho'
        obtain ⟨o1, q1, -, q2, -⟩ := ewma_at c hc (ps.map f) t (by simpa using ht)
        obtain ⟨o2, r1, -, r2, -⟩ := ewma_at c hc (ps.map g) t (by simpa using ht)
        rw [ho, Option.some.injEq] at q1
        rw [ho', Option.some.injEq] at r1
        subst q1; subst r1
        have hs := (hsg f g h).take (t + 1)
        obtain ⟨n1, -⟩ := hs.nobs c.big 1 1 0
        obtain ⟨l, r1, r2', -⟩ := readings_pairs c.big 1 1 0 (i := .nan) (j := .nan) (.inl ⟨rfl, rfl⟩) hs
        rw [hini] at q2 r2
        rw [q2, r2, n1, r1, r2']
        split
        · obtain ⟨-, -, a3⟩ := aRun_comb c hc 1 1 0 l
          revert a3
          generalize (aRun c (l.map (Option.map Prod.fst))).1 = p
          generalize (aRun c (l.map (Option.map Prod.snd))).1 = q
          intro a3
          cases p <;> cases q <;> simp_all [toFl]
        · simp
      refine ⟨hsome _ _ (fun p hp => ?_) _ _ e1 e2, hsome _ _ (fun p hp => ?_) _ _ e1 e3⟩
      · rcases hgap p hp with ⟨h, h'⟩ | ⟨x, y, h, h'⟩
        · exact .inl ⟨by simp [h], h⟩
        · exact .inr ⟨x * y, x, by simp [h, h'], h⟩
      · rcases hgap p hp with ⟨h, h'⟩ | ⟨x, y, h, h'⟩
        · exact .inl ⟨by simp [h], h'⟩
        · exact .inr ⟨x * y, y, by simp [h, h'], h'⟩
    rcases hfinxy with hxy | ⟨vxy, hxy⟩
    · simp [hxy]
    · have h1 : ex.value ≠ .nan := fun h => by rw [hnan.1.2 h] at hxy; cases hxy
      have h2 : ey.value ≠ .nan := fun h => by rw [hnan.2.2 h] at hxy; cases hxy
      obtain ⟨vx, hx⟩ := hfinx.resolve_left h1
      obtain ⟨vy, hy⟩ := hfiny.resolve_left h2
      simp [hxy, hx, hy]
  | false =>
    simp only [Bool.false_eq_true, if_false]
    rcases hfinx with hx | ⟨vx, hx⟩
    · simp [hx]
    rcases hfiny with hy | ⟨vy, hy⟩
    · simp [hy]
    rcases hfinxy with hxy | ⟨vxy, hxy⟩
    · simp [hxy]
    simp [hx, hy, hxy]
    ring

/-- C170: superposition for ARMA: the output on a combination of two finite noises is the combination of the outputs. -/
theorem C170_arma (alpha beta : List K) (u v : K) (es fs : List K) (hl : es.length = fs.length) :
    (arma alpha beta).run ((List.zipWith (fun e f => u * e + v * f) es fs).map Fl.fin) =
      List.zipWith (fun y z => Fl.fin u * y + Fl.fin v * z) ((arma alpha beta).run (es.map Fl.fin)) ((arma alpha beta).run (fs.map Fl.fin)) := by
  obtain ⟨ys, hy, hyl, hyr⟩ := C24_arma_finite alpha beta es
  obtain ⟨zs, hz, hzl, hzr⟩ := C24_arma_finite alpha beta fs
  obtain ⟨ws, hw, hwl, hwr⟩ := C24_arma_finite alpha beta (List.zipWith (fun e f => u * e + v * f) es fs)
  rw [hy, hz, hw, List.zipWith_map]
  have hlin : ∀ (i n : Nat) (xs' xs xs'' : List K), xs''.take n = List.zipWith (fun e f => u * e + v * f) (xs.take n) (xs'.take n) →
      xs.length = xs'.length → xs''.length = xs.length →
      ago i 0 (xs''.take n) = u * ago i 0 (xs.take n) + v * ago i 0 (xs'.take n) := by
    intro i n xs' xs xs'' h h1 h2
    rw [h]
    unfold ago
    rw [List.reverse_zipWith (by simp [h1])]
    simp only [List.getD_eq_getElem?_getD, List.getElem?_zipWith]
    have hl' : (xs.take n).reverse.length = (xs'.take n).reverse.length := by simp [h1]
    by_cases hi : i < (xs.take n).reverse.length
    · rw [List.getElem?_eq_getElem hi, List.getElem?_eq_getElem (hl' ▸ hi)]; simp
    · rw [List.getElem?_eq_none (by omega), List.getElem?_eq_none (by omega)]; simp
  have hsum : ∀ (n : Nat) (g f1 f2 : Nat → K) (c : Nat → K), (∀ i, g i = u * f1 i + v * f2 i) →
      ((List.range n).map fun i => c i * g i).sum = u * ((List.range n).map fun i => c i * f1 i).sum + v * ((List.range n).map fun i => c i * f2 i).sum := by
    intro n g f1 f2 c h
    induction n with
    | zero => simp
    | succ n ih => rw [List.range_succ]; simp only [List.map_append, List.sum_append, List.map_cons, List.map_nil, List.sum_cons, List.sum_nil]; rw [ih, h n]; ring
  have key : ∀ n, n ≤ es.length → ws.take n = List.zipWith (fun e f => u * e + v * f) (ys.take n) (zs.take n) := by
    intro n
    induction n with
    | zero => intro _; simp
    | succ n ih =>
      intro hn
      have ih := ih (by omega)
      have hwn : n < (List.zipWith (fun e f => u * e + v * f) es fs).length := by simp; omega
      have e1 := hyr n (by omega)
      have e2 := hzr n (by omega)
      have e3 := hwr n hwn
      have hys : ys.take (n + 1) = ys.take n ++ [ys[n]'(by omega)] := (List.take_append_getElem (by omega)).symm
      have hzs : zs.take (n + 1) = zs.take n ++ [zs[n]'(by omega)] := (List.take_append_getElem (by omega)).symm
      have hws : ws.take (n + 1) = ws.take n ++ [ws[n]'(by rw [hwl]; exact hwn)] := (List.take_append_getElem (by rw [hwl]; exact hwn)).symm
      rw [hys, hzs, hws, List.zipWith_append (by simp; omega), ih]
      congr 1
      rw [List.getElem?_eq_getElem (by omega), Option.some.injEq] at e1 e2
      rw [List.getElem?_eq_getElem (by rw [hwl]; exact hwn), Option.some.injEq] at e3
      simp only [List.zipWith_cons_cons, List.zipWith_nil_right]
      rw [e1, e2, e3]
      congr 1
      rw [hsum alpha.length (fun i => ago i 0 (ws.take n)) (fun i => ago i 0 (ys.take n)) (fun i => ago i 0 (zs.take n)) _
          (fun i => hlin i n zs ys ws ih (by omega) (by rw [hwl, List.length_zipWith]; omega)),
        hsum beta.length (fun i => ago i 0 ((List.zipWith (fun e f => u * e + v * f) es fs).take n)) (fun i => ago i 0 (es.take n))
          (fun i => ago i 0 (fs.take n)) _ (fun i => hlin i n fs es _ (by rw [List.take_zipWith]) hl (by simp [hl]))]
      simp only [List.getElem_zipWith]
      ring
  have := key es.length (le_refl _)
  rw [List.take_of_length_le (by rw [hwl]; simp), List.take_of_length_le (by omega), List.take_of_length_le (by omega)] at this
  rw [this, List.map_zipWith]
  simp

/-- Non-vacuity of `C170_ewmcov`: two components with a gap. -/
example : SameGaps (K := ℚ) [.fin 1, .nan, .fin 3] [.fin 5, .nan, .fin 7] :=
  .cons (.inr ⟨1, 5, rfl, rfl⟩) (.cons (.inl ⟨rfl, rfl⟩) (.cons (.inr ⟨3, 7, rfl, rfl⟩) .nil))

/-! ## C171: composition and degenerate parameters -/

/-- The values of a lagged stream. -/
def lagged {α : Type} (k : Nat) (fill : α) (xs : List α) : List α := (List.replicate k fill ++ xs).take xs.length

/-- C171: the outputs of a lag are the stream moved `k` steps to the right. -/
theorem C171_lag_stream {α : Type} (k : Nat) (fill : α) (xs : List α) : (lag k fill).run xs = (lagged k fill xs).map some := by
  apply List.ext_getElem?
  intro t
  by_cases ht : t < xs.length
  · rw [C03_lag_positions k fill xs t ht, List.getElem?_map, lagged, List.getElem?_take_of_lt ht]
    by_cases hk : k ≤ t
    · rw [if_pos hk, List.getElem?_append_right (by simpa using hk)]
      have : t - k < xs.length := by omega
      simp [this]
    · rw [if_neg hk, List.getElem?_append_left (by simp; omega)]
      rw [List.getElem?_replicate, if_pos (by omega)]
      rfl
  · rw [List.getElem?_eq_none (by simp; omega), List.getElem?_eq_none (by simp [lagged]; omega)]

@[simp] theorem lagged_length {α : Type} (k : Nat) (fill : α) (xs : List α) : (lagged k fill xs).length = xs.length := by
  simp [lagged]

theorem lagged_take {α : Type} (k : Nat) (fill : α) (xs : List α) (n : Nat) :
    (lagged k fill xs).take n = lagged k fill (xs.take n) := by
  unfold lagged
  rw [List.take_take, List.length_take]
  by_cases h : n ≤ xs.length
  · rw [Nat.min_eq_left h]
    rw [List.take_append, List.take_append, List.take_take]
    congr 2
    simp
  · rw [Nat.min_eq_right (by omega), List.take_of_length_le (by omega : xs.length ≤ n)]

/-- C171: delays add up: `Lag(n)` of `Lag(m)` is `Lag(m + n)`. -/
theorem C171_lag_lag {α : Type} (m n : Nat) (fill : α) (xs : List α) :
    (lag n fill).run (lagged m fill xs) = (lag (m + n) fill).run xs := by
  rw [C171_lag_stream, C171_lag_stream]
  congr 1
  unfold lagged
  rw [List.length_take, List.length_append, List.length_replicate, Nat.min_eq_left (by omega), Nat.add_comm m n,
    List.replicate_add, List.append_assoc]
  rw [List.take_append (l₁ := List.replicate n fill), List.take_append (l₁ := List.replicate n fill) (l₂ := List.replicate m fill ++ xs),
    List.take_take]
  congr 2
  simp

/-- C171: a lag of NaN-started differences is the difference of the lag. -/
theorem C171_lag_diff (k : Nat) (xs ds : List (Fl K)) (hd : (diff (K := K)).run xs = ds.map some) :
    (diff (K := K)).run (lagged k Fl.nan xs) = (lag k Fl.nan).run ds := by
  have hl : ds.length = xs.length := by simpa using (congrArg List.length hd).symm
  rw [C171_lag_stream]
  apply List.ext_getElem?
  intro t
  by_cases ht : t < xs.length
  · rw [List.getElem?_map]
    have hds : ∀ s (hs : s < xs.length), ds[s]? = some (match s with | 0 => Fl.nan | s + 1 => xs.getD (s + 1) .nan - xs.getD s .nan) := by
      intro s hs
      have h1 : ((diff (K := K)).run xs)[s]? = ds[s]?.map some := by rw [hd, List.getElem?_map]
      cases s with
      | zero =>
        cases xs with
        | nil => simp at hs
        | cons x xs =>
          rw [C04_diff_first] at h1
          cases h : ds[0]? with
          | none => rw [h] at h1; simp at h1
          | some d => rw [h] at h1; simp at h1; simp [← h1]
      | succ s =>
        rw [C04_diff_positions xs s hs] at h1
        cases h : ds[s + 1]? with
        | none => rw [h] at h1; simp at h1
        | some d =>
          rw [h] at h1
          simp only [Option.map_some, Option.some.injEq] at h1
          have : s < xs.length := by omega
          simp [← h1, List.getD_eq_getElem?_getD, hs, this]
    have hlag : ∀ (ys : List (Fl K)) s, s < ys.length → (lagged k Fl.nan ys)[s]? = if k ≤ s then ys[s - k]? else some Fl.nan := by
      intro ys s hs
      have h1 := C03_lag_positions k Fl.nan ys s hs
      rw [C171_lag_stream, List.getElem?_map] at h1
      cases h : (lagged k Fl.nan ys)[s]? with
      | none => rw [h] at h1; simp at h1
      | some y => rw [h] at h1; simpa using h1
    cases t with
    | zero =>
      have hne : lagged k Fl.nan xs ≠ [] := by intro h; have := congrArg List.length h; simp at this; subst this; simp at ht
      obtain ⟨y, ys, hy⟩ := List.exists_cons_of_ne_nil hne
      rw [hy, C04_diff_first, hlag ds 0 (by omega)]
      by_cases hk : k ≤ 0
      · rw [if_pos hk, Nat.zero_sub, hds 0 ht]; rfl
      · rw [if_neg hk]; rfl
    | succ t =>
      rw [C04_diff_positions _ t (by simpa using ht), hlag ds (t + 1) (by omega)]
      have g1 := hlag xs (t + 1) ht
      have g0 := hlag xs t (by omega)
      rw [List.getElem?_eq_getElem (by simpa using ht)] at g1
      rw [List.getElem?_eq_getElem (by simp; omega)] at g0
      by_cases hk : k ≤ t
      · rw [if_pos (by omega)] at g1
        rw [if_pos hk] at g0
        rw [if_pos (by omega)]
        have e : t + 1 - k = (t - k) + 1 := by omega
        rw [e] at g1 ⊢
        rw [hds _ (by omega)]
        simp only [List.getD_eq_getElem?_getD, ← g1, ← g0, Option.map_some, Option.getD_some]
      · rw [if_neg hk] at g0
        simp only [Option.some.injEq] at g0
        rw [g0, Fl.sub_nan]
        by_cases hk1 : k ≤ t + 1
        · rw [if_pos hk1, show t + 1 - k = 0 by omega, hds 0 (by omega)]; rfl
        · rw [if_neg hk1]; rfl
  · rw [List.getElem?_eq_none (by simp; omega), List.getElem?_eq_none (by simp; omega)]

/-- C171: filling forward commutes with a delay that starts with NaN. -/
theorem C171_ffill_lag (k : Nat) (xs : List (Fl K)) :
    ((ffill (K := K)).run (lagged k Fl.nan xs)).map some = (lag k Fl.nan).run ((ffill (K := K)).run xs) := by
  rw [C171_lag_stream]
  congr 1
  apply List.ext_getElem?
  intro t
  by_cases ht : t < xs.length
  · rw [C06_ffill _ t (by simpa using ht), lagged_take]
    unfold lagged
    rw [Mealy.run_length, List.getElem?_take_of_lt ht]
    have hl : (xs.take (t + 1)).length = t + 1 := by simp; omega
    rw [hl]
    have hval : valid (List.replicate k (Fl.nan : Fl K)) = [] := by simp [valid]
    by_cases hk : k ≤ t
    · rw [List.getElem?_append_right (by simpa using hk), List.length_replicate, C06_ffill xs (t - k) (by omega)]
      rw [List.take_append, List.take_of_length_le (by simp; omega), List.length_replicate, List.take_take,
        Nat.min_eq_left (by omega), show t + 1 - k = t - k + 1 by omega]
      simp only [lastValid, valid, List.filter_append] at hval ⊢
      rw [hval, List.nil_append]
    · rw [List.getElem?_append_left (by simp; omega), List.getElem?_replicate, if_pos (by omega), List.take_append,
        List.length_replicate, show t + 1 - k = 0 by omega]
      simp [lastValid, valid, List.take_replicate]
  · rw [List.getElem?_eq_none (by simp; omega), List.getElem?_eq_none (by simp; omega)]

/-- C171: a rolling mean over one value is the value itself, whatever it is. -/
theorem C171_rolling_mean_one (minPeriods : Nat) (h : minPeriods ≤ 1) (xs : List (Fl K)) : (rollingMean 1 minPeriods).run xs = xs := by
  apply List.ext_getElem?
  intro t
  by_cases ht : t < xs.length
  · rw [C07_rolling_mean 1 minPeriods xs t ht]
    have hl : (xs.take (t + 1)).length = t + 1 := by simp; omega
    have e : (xs.take (t + 1)).drop ((xs.take (t + 1)).length - 1) = [xs[t]] := by
      rw [hl, ← List.take_append_getElem ht, Nat.add_sub_cancel, List.drop_append_of_le_length (by simp; omega)]
      rw [List.drop_eq_nil_of_le (by simp), List.nil_append]
    simp only [e, List.getElem?_eq_getElem ht, Option.some.injEq]
    have hm : max minPeriods 1 = 1 := by omega
    rw [hm]
    cases xs[t] with
    | nan => simp [valid]
    | fin x => simp [valid]
    | pinf =>
      simp only [valid, List.filter_cons, Fl.isNan_pinf, Bool.not_false, if_true, List.filter_nil, List.length_singleton, le_refl,
        List.sum_cons, List.sum_nil, Nat.cast_one]
      show (Fl.pinf : Fl K) / Fl.fin 1 = _
      show (if (1 : K) < 0 then _ else _) = _
      rw [if_neg (by simp)]
    | ninf =>
      simp only [valid, List.filter_cons, Fl.isNan_ninf, Bool.not_false, if_true, List.filter_nil, List.length_singleton, le_refl,
        List.sum_cons, List.sum_nil, Nat.cast_one]
      show (Fl.ninf : Fl K) / Fl.fin 1 = _
      show (if (1 : K) < 0 then _ else _) = _
      rw [if_neg (by simp)]
  · rw [List.getElem?_eq_none (by simp; omega), List.getElem?_eq_none (by omega)]

/-- C171: an EWMA without memory (`com = 0`, that is `alpha = 1`) is a forward fill, in every mode. -/
theorem C171_ewma_no_memory (c : EWMACfg K) (hc : c.com = 0) (hini : c.initial = .nan) (hp : c.minPeriods = 0) (xs : List (Fl K))
    (hx : NoInf xs) : ((ewma c).run xs).map (·.value) = (ffill (K := K)).run xs := by
  have hc0 : 0 ≤ c.com := by rw [hc]
  have key : ∀ xs : List (Fl K), NoInf xs → toFl (aRun c (xs.map (reading c.big))).1 = lastValid xs := by
    intro xs
    induction xs using List.reverseRecOn with
    | nil => intro _; rfl
    | append_singleton xs x ih =>
      intro hx
      have ih := ih fun y hy => hx y (by simp [hy])
      have hw := aRun_wt_nonneg c hc0 (xs.map (reading c.big))
      rw [lastValid_snoc, List.map_append, List.map_cons, List.map_nil, aRun_snoc]
      revert ih hw
      generalize aRun c (xs.map (reading c.big)) = A
      obtain ⟨m, w⟩ := A
      intro ih hw
      simp only at ih hw
      have hxx := hx x (by simp)
      cases x with
      | nan => simpa [reading, aStep] using ih
      | pinf => exact absurd rfl hxx.1
      | ninf => exact absurd rfl hxx.2
      | fin x =>
        cases m with
        | none => simp [reading, aStep, toFl]
        | some m =>
          have h0 : aWt c true w = 0 := by
            unfold aWt
            split
            · rw [if_pos rfl, hc, min_eq_right hw]
            · simp [al, hc]
          have h1 := (nw_pos c hc0).ne'
          simp [reading, aStep, toFl, h0, h1]
  apply List.ext_getElem?
  intro t
  by_cases ht : t < xs.length
  · obtain ⟨o, e1, -, e2, -⟩ := ewma_at c hc0 xs t ht
    rw [List.getElem?_map, e1, C06_ffill xs t ht, Option.map_some, e2, hp, if_pos (Nat.zero_le _), hini]
    congr 1
    rw [← key _ fun y hy => hx y (List.mem_of_mem_take hy)]
    simp [readings, reading]
  · rw [List.getElem?_eq_none (by simp; omega), List.getElem?_eq_none (by simp; omega)]

/-- C171: the exponential variance without memory (`com = 0`) is 0 at every step, in every mode. -/
theorem C171_ewmvar_no_memory (adjust : Adjust) (xs : List (Fl K)) (hx : NoInf xs) :
    (ewmvar 0 adjust).run xs = xs.map fun _ => Fl.fin 0 := by
  have hal : ∀ n, ewmvarAlpha (0 : K) adjust (n + 1) = Fl.fin 1 := by
    intro n
    have h1 : Fl.fin 1 / (Fl.fin 1 + Fl.fin (0 : K)) = Fl.fin 1 := by
      rw [Fl.fin_add, add_zero, Fl.fin_div_of_ne _ one_ne_zero, div_one]
    have hpow : flPow (Fl.fin (0 : K)) (n + 1) = Fl.fin 0 := by
      have : ∀ n, ∃ k : K, flPow (Fl.fin (0 : K)) n = Fl.fin k := by
        intro n
        induction n with
        | zero => exact ⟨1, rfl⟩
        | succ n ih => obtain ⟨k, hk⟩ := ih; exact ⟨k * 0, by rw [flPow, hk]; rfl⟩
      obtain ⟨k, hk⟩ := this n
      rw [flPow, hk]; simp
    unfold ewmvarAlpha
    simp only [h1]
    cases adjust with
    | yes => simp only [Fl.fin_sub, sub_self, hpow, sub_zero]; rw [Fl.fin_div_of_ne _ one_ne_zero, div_one]
    | no => rfl
    | linear =>
      rw [Fl.fin_div_of_ne _ one_ne_zero, div_one]
      have : ¬ (((n + 1 : Nat) : K) < 1) := by push_cast; simp
      simp only [Fl.lt_fin, this, decide_false, Bool.false_eq_true, if_false, zero_lt_one, decide_true, if_true]
      rw [Fl.fin_div_of_ne _ one_ne_zero, div_one]
  have key : ∀ (xs : List (Fl K)), NoInf xs → ∀ s : EWMVarState K, (s.mean = .nan ∨ ∃ m, s.mean = .fin m) →
      (s.var = .nan ∨ s.var = .fin 0) → (ewmvar 0 adjust).outsFrom s xs = xs.map fun _ => Fl.fin 0 := by
    intro xs
    induction xs with
    | nil => intros; rfl
    | cons x xs ih =>
      intro hx s hm hv
      have ih := ih fun y hy => hx y (List.mem_cons_of_mem _ hy)
      have hxx := hx x List.mem_cons_self
      have hv' : (if s.var.isNan = true then Fl.fin 0 else s.var) = Fl.fin 0 := by rcases hv with h | h <;> simp [h]
      have hstep : ∃ m n, (ewmvar (0 : K) adjust).step s x = (Fl.fin 0, ⟨m, .fin 0, n⟩) ∧ (m = .nan ∨ ∃ k, m = .fin k) := by
        simp only [ewmvar, ewmvarStep, hv']
        cases x with
        | pinf => exact absurd rfl hxx.1
        | ninf => exact absurd rfl hxx.2
        | nan =>
          refine ⟨_, _, rfl, ?_⟩
          rcases hm with h | ⟨k, h⟩ <;> simp [h]
        | fin x =>
          simp only [Fl.isNan_fin, Bool.not_false, if_true, hal, Fl.fin_sub, sub_self]
          rcases hm with h | ⟨k, h⟩
          · exact ⟨_, _, by simp [h]; exact ⟨rfl, rfl⟩, .inr ⟨_, rfl⟩⟩
          · exact ⟨_, _, by simp [h]; exact ⟨rfl, rfl⟩, .inr ⟨_, rfl⟩⟩
      obtain ⟨m, n, hs, hm'⟩ := hstep
      simp only [Mealy.outsFrom_cons, hs, List.map_cons]
      rw [ih ⟨m, .fin 0, n⟩ hm' (.inr rfl)]
  exact key xs hx _ (.inl rfl) (.inl rfl)

example : (lag 2 0).run (lagged 1 0 [1, 2, 3, 4, 5]) = [some 0, some 0, some 0, some 1, some 2] := by decide

end Verif.Props
