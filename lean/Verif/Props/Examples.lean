import Verif.Model.Examples
import Verif.Spec.Stats
import Verif.Props.EWMALinear
import Verif.Props.Masks
import Verif.Props.Events
import Verif.Props.ARMA
import Mathlib.Tactic.Set

/-! # Properties C99–C108: the streaming functions of src/wax/flax/examples -/

set_option linter.unusedSectionVars false
set_option linter.unusedSimpArgs false
set_option linter.unnecessarySeqFocus false

namespace Verif.Props
open Model Spec Lemmas Model.Examples Model.Events
variable {K : Type} [Field K] [LinearOrder K] [IsStrictOrderedRing K]

theorem flMean_fin (l : List K) (hl : l ≠ []) : flMean (l.map Fl.fin) = Fl.fin (mean l) := by
  unfold flMean mean
  rw [Fl.sum_map_fin, List.length_map, Fl.fin_div_of_ne _ (cast_len_ne l hl)]

theorem pvar_nonneg (l : List K) : 0 ≤ pvar l := secondMoment_nonneg (mean l) l

theorem flStd_fin (root : K → K) (hr : IsRoot root) (l : List K) (hl : l ≠ []) :
    ∃ s, flStd root (l.map Fl.fin) = Fl.fin s ∧ IsStd s l := by
  have e : (l.map Fl.fin).map (fun x => (x - flMean (l.map Fl.fin)) * (x - flMean (l.map Fl.fin))) =
      (l.map fun x => (x - mean l) * (x - mean l)).map Fl.fin := by
    rw [flMean_fin l hl, List.map_map, List.map_map]
    apply List.map_congr_left
    intro x _
    simp
  have hp := pvar_nonneg l
  refine ⟨root (pvar l), ?_, hr _ hp⟩
  unfold flStd
  simp only [e]
  rw [flMean_fin _ (by simpa using hl)]
  change Fl.sqrt root (Fl.fin (pvar l)) = _
  simp [Fl.sqrt, not_lt.mpr hp]

theorem pvar_singleton (x : K) : pvar [x] = 0 := by simp [pvar, mean]

theorem std_unique {s t : K} {l : List K} (hs : IsStd s l) (ht : IsStd t l) : s = t := by
  have h := hs.2.trans ht.2.symm
  exact (mul_self_inj hs.1 ht.1).mp h

theorem window_valid (n : Nat) (ps : List K) :
    (window n Fl.nan (ps.map Fl.fin)).filter (fun x => !x.isNan) = (recent n ps).map Fl.fin := by
  unfold window recent
  rw [List.filter_append, List.length_map, List.map_drop, List.filter_eq_nil_iff.mpr, List.nil_append, List.filter_eq_self.mpr]
  · intro x hx
    obtain ⟨k, _, rfl⟩ := List.mem_map.mp (List.drop_subset _ _ hx)
    rfl
  · intro x hx
    rw [List.eq_of_mem_replicate hx]
    simp

theorem recent_snoc_ne (n : Nat) (hn : 0 < n) (ps : List K) (p : K) : recent n (ps ++ [p]) ≠ [] := by
  unfold recent
  intro h
  rw [List.drop_eq_nil_iff] at h
  simp at h
  omega

/-- The Flax EWMA with default arguments, on numbers. -/
theorem ema_step (big α : K) (h0 : 0 < α) (h1 : α < 1) (ps : List K) (p : K) :
    ∃ v, ((flaxEwma (cfg big α)).step ((flaxEwma (cfg big α)).stateAfter (ps.map Fl.fin)) (Fl.fin p)).1.value = Fl.fin v ∧
      IsEma α v (ps ++ [p]) ∧ ∀ lo hi, (∀ q ∈ ps ++ [p], lo ≤ q ∧ q ≤ hi) → lo ≤ v ∧ v ≤ hi := by
  have hc : 0 ≤ (cfg big α).com := by
    change 0 ≤ 1 / α - 1
    rw [sub_nonneg, le_div_iff₀ h0]; linarith
  have hag := C16_flax_ewma_agrees (cfg big α) hc (by simp [cfg]) ((ps ++ [p]).map Fl.fin)
  have hrun := Mealy.run_append_singleton (flaxEwma (cfg big α)) (ps.map Fl.fin) (Fl.fin p)
  have hlast : ((ewma (cfg big α)).run ((ps ++ [p]).map Fl.fin))[ps.length]? =
      some ((flaxEwma (cfg big α)).step ((flaxEwma (cfg big α)).stateAfter (ps.map Fl.fin)) (Fl.fin p)).1 := by
    rw [← hag, List.map_append, List.map_cons, List.map_nil, hrun, List.getElem?_append_right (by simp)]
    simp
  have htake : ((ps ++ [p]).map (Fl.fin (K := K))).take (ps.length + 1) = (ps ++ [p]).map Fl.fin :=
    List.take_of_length_le (by simp)
  have hread : readings (cfg big α).big (cfg big α).initial (((ps ++ [p]).map Fl.fin).take (ps.length + 1)) =
      (ps ++ [p]).map some := by
    rw [htake]
    simp [readings, cfg, reading, Function.comp_def]
  obtain ⟨o, e1, e2, e3⟩ := C16_ewma_adjust (cfg big α) α h0 h1 rfl rfl ((ps ++ [p]).map Fl.fin) ps.length (by simp)
  rw [hlast, Option.some.injEq] at e1
  rw [e1, e3, hread]
  have hne : observed ((ps ++ [p]).map some) ≠ [] := by rw [observed_map_some]; simp
  simp only [cfg, Nat.not_lt_zero, if_false, Bool.false_eq_true]
  refine ⟨weightedSum ((1 - α) ^ ·) id ((ps ++ [p]).map some) / weightedSum ((1 - α) ^ ·) (fun _ => 1) ((ps ++ [p]).map some),
    ?_, ?_, ?_⟩
  · rw [expMean, if_neg hne]; rfl
  · rw [IsEma, expMean, if_neg hne]
  · intro lo hi hb
    obtain ⟨o', q1, q2, q3, q4⟩ := C18_ewma_range (cfg big α) hc ((ps ++ [p]).map Fl.fin) ps.length (by simp) lo hi (by
      rw [hread, observed_map_some]; exact hb)
    rw [hlast, Option.some.injEq] at q1
    have hv : o.value = Fl.fin (weightedSum ((1 - α) ^ ·) id ((ps ++ [p]).map some) /
        weightedSum ((1 - α) ^ ·) (fun _ => 1) ((ps ++ [p]).map some)) := by
      rw [e3, hread]
      simp only [cfg, Nat.not_lt_zero, if_false, Bool.false_eq_true]
      rw [expMean, if_neg hne]; rfl
    rw [← q1, e1] at q4
    obtain ⟨v, w1, w2⟩ := q4 (by rw [hv]; simp)
    rw [hv, Fl.fin.injEq] at w1
    rw [w1]
    exact w2

theorem ema_unique {α u v : K} {l : List K} (hu : IsEma α u l) (hv : IsEma α v l) : u = v :=
  Option.some.inj (hu.symm.trans hv)

/-! ## C99: Bollinger bands -/

theorem bollinger_state (root : K → K) (big : K) (window : Nat) (numStd : K) (xs : List (Fl K)) :
    (bollinger root big window numStd).stateAfter xs = ((circBuffer window Fl.nan).stateAfter xs,
      (flaxEwma (cfg big (2 / ((window : K) + 1)))).stateAfter xs) := by
  apply Mealy.stateAfter_eq _ _ rfl
  intro xs x
  rw [Mealy.stateAfter_append_singleton, Mealy.stateAfter_append_singleton]
  rfl

/-- C99: at every step, for any prices: the center line is the exponentially weighted mean of all prices so far with smoothing
`2/(window+1)`; the bands are `numStd` standard deviations of the last `window` prices away from it on either side; the band position
is 0 on the lower band and 1 on the upper one (affine between), or 0.5 when the bands are closer than 1e-8. -/
theorem C99_bollinger (root : K → K) (hr : IsRoot root) (big : K) (window : Nat) (hw : 2 ≤ window) (hw2 : window ≤ 2 ^ 30)
    (numStd : K) (ps : List K) (hps : ps.length < 2 ^ 31) (t : Nat) (ht : t < ps.length) :
    ∃ center std, IsEma (2 / ((window : K) + 1)) center (ps.take (t + 1)) ∧ IsStd std (recent window (ps.take (t + 1))) ∧
      ((bollinger root big window numStd).run (ps.map Fl.fin))[t]? = some
        { price := .fin ps[t]
          center := .fin center
          upper := .fin (center + numStd * std)
          lower := .fin (center - numStd * std)
          width := .fin (2 * numStd * std)
          position := .fin (if 1 / 10 ^ 8 < 2 * numStd * std
            then (ps[t] - (center - numStd * std)) / (2 * numStd * std) else 1 / 2) } := by
  have hwK : (2 : K) ≤ (window : K) := by exact_mod_cast hw
  have h0 : (0 : K) < 2 / ((window : K) + 1) := by positivity
  have h1 : (2 : K) / ((window : K) + 1) < 1 := by rw [div_lt_one (by linarith)]; linarith
  have hx : ps.take (t + 1) = ps.take t ++ [ps[t]] := (List.take_append_getElem ht).symm
  obtain ⟨c, c1, c2, -⟩ := ema_step big _ h0 h1 (ps.take t) ps[t]
  have hne := recent_snoc_ne window (by omega) (ps.take t) ps[t]
  obtain ⟨s, s1, s2⟩ := flStd_fin root hr _ hne
  refine ⟨c, s, hx ▸ c2, hx ▸ s2, ?_⟩
  rw [Mealy.run, Mealy.outsFrom_getElem?, List.getElem?_map, List.getElem?_eq_getElem ht]
  simp only [Option.map_some, Option.some.injEq]
  have hst := bollinger_state root big window numStd ((ps.take t).map Fl.fin)
  rw [Mealy.stateAfter] at hst
  rw [← List.map_take, hst]
  have hb := circ_step_out window (by omega) hw2 Fl.nan ((ps.take t).map Fl.fin) (Fl.fin ps[t]) (by simp; omega)
  have hsnoc : (ps.take t).map Fl.fin ++ [Fl.fin ps[t]] = (ps.take t ++ [ps[t]]).map Fl.fin := by
    rw [List.map_append]; rfl
  rw [hsnoc] at hb
  have hstd : (if 1 < ((recent window (ps.take t ++ [ps[t]])).map Fl.fin).length
      then flStd root ((recent window (ps.take t ++ [ps[t]])).map Fl.fin) else Fl.fin 0) = Fl.fin s := by
    split
    · exact s1
    · rename_i hlt
      rw [List.length_map] at hlt
      generalize recent window (ps.take t ++ [ps[t]]) = r at *
      match r, hne with
      | [], h => exact absurd rfl h
      | [x], _ =>
        have := s2.2
        rw [pvar_singleton] at this
        rw [mul_self_eq_zero.mp this]
      | x :: y :: r, _ => simp at hlt
  have e8 : (0 : K) < 1 / 10 ^ 8 := by positivity
  simp only [bollinger, hb, c1, window_valid, hstd]
  have hwid : c + numStd * s - (c - numStd * s) = 2 * numStd * s := by ring
  simp only [Fl.fin_mul, Fl.fin_add, Fl.fin_sub, hwid, Fl.lt_fin, decide_eq_true_eq]
  congr 1
  split
  · rename_i h
    rw [Fl.fin_div_of_ne]
    exact (e8.trans h).ne'
  · rfl

/-- C99: with a non-negative number of deviations the bands enclose the center line, and where they are wide enough the position is
0 exactly on the lower band, 1 exactly on the upper band, 1/2 exactly on the center line. -/
theorem C99_bollinger_position (numStd std center price : K) (h : 1 / 10 ^ 8 < 2 * numStd * std) :
    let pos := (price - (center - numStd * std)) / (2 * numStd * std)
    (pos = 0 ↔ price = center - numStd * std) ∧ (pos = 1 ↔ price = center + numStd * std) ∧ (pos = 1 / 2 ↔ price = center) ∧
      center - numStd * std < center ∧ center < center + numStd * std := by
  have e8 : (0 : K) < 1 / 10 ^ 8 := by positivity
  have hpos : 0 < 2 * numStd * std := e8.trans h
  have hpos' : 0 < numStd * std := by nlinarith
  intro pos
  simp only [pos]
  refine ⟨?_, ?_, ?_, by linarith, by linarith⟩
  · rw [div_eq_zero_iff]
    constructor
    · rintro (h | h)
      · linarith
      · exact absurd h hpos.ne'
    · intro h; left; linarith
  · rw [div_eq_one_iff_eq hpos.ne']
    constructor <;> intro h <;> linarith
  · rw [div_eq_iff hpos.ne']
    constructor <;> intro h <;> linarith

example : (2 : ℕ) ≤ 20 ∧ (20 : ℕ) ≤ 2 ^ 30 := by decide
/-- a stand-in for the square root, exact on the values used in the examples -/
def exRoot (x : ℚ) : ℚ := if x = 1 then 1 else if x = 196 then 14 else 0
example : (bollinger exRoot 1000 3 2).run [.fin 1, .fin 3] =
    [⟨.fin 1, .fin 1, .fin 1, .fin 1, .fin (1 / 2), .fin 0⟩,
     ⟨.fin 3, .fin (13 / 3), .fin (1 / 3), .fin (7 / 3), .fin (2 / 3), .fin 4⟩] := by decide +kernel

/-! ## C100: MACD -/

theorem ewma_value_num (c : EWMACfg K) (hc : 0 ≤ c.com) (xs : List (Fl K)) :
    NoInf (((ewma c).run xs).map (·.value)) := by
  intro v hv
  obtain ⟨t, ht, rfl⟩ := List.getElem_of_mem hv
  have ht' : t < xs.length := by simpa using ht
  obtain ⟨o, e1, -, v1, -⟩ := ewma_at c hc xs t ht'
  have h2 : ((ewma c).run xs)[t]? = some (((ewma c).run xs)[t]'(by simpa using ht')) := List.getElem?_eq_getElem _
  rw [h2, Option.some.injEq] at e1
  rw [List.getElem_map, e1, v1]
  split
  · generalize (aRun c _).1 = q
    cases q <;> simp [toFl]
  · simp

/-- The streams of the MACD indicator. -/
theorem macd_streams (big : K) (f s g : Nat) (xs : List (Fl K)) :
    let outs := (macdIndicator big f s g).run xs
    outs.map (·.price) = xs ∧
    outs.map (·.fast) = ((flaxEwma (cfg big (2 / ((f : K) + 1)))).run xs).map (·.value) ∧
    outs.map (·.slow) = ((flaxEwma (cfg big (2 / ((s : K) + 1)))).run xs).map (·.value) ∧
    outs.map (·.macd) = List.zipWith (fun a b => a - b) (outs.map (·.fast)) (outs.map (·.slow)) ∧
    outs.map (·.signal) = ((flaxEwma (cfg big (2 / ((g : K) + 1)))).run (outs.map (·.macd))).map (·.value) ∧
    outs.map (·.histogram) = List.zipWith (fun a b => a - b) (outs.map (·.macd)) (outs.map (·.signal)) := by
  have gen : ∀ (xs : List (Fl K)) (st : EWMAState K × EWMAState K × EWMAState K),
      let outs := (macdIndicator big f s g).outsFrom st xs
      outs.map (·.price) = xs ∧
      outs.map (·.fast) = ((flaxEwma (cfg big (2 / ((f : K) + 1)))).outsFrom st.1 xs).map (·.value) ∧
      outs.map (·.slow) = ((flaxEwma (cfg big (2 / ((s : K) + 1)))).outsFrom st.2.1 xs).map (·.value) ∧
      outs.map (·.macd) = List.zipWith (fun a b => a - b) (outs.map (·.fast)) (outs.map (·.slow)) ∧
      outs.map (·.signal) = ((flaxEwma (cfg big (2 / ((g : K) + 1)))).outsFrom st.2.2 (outs.map (·.macd))).map (·.value) ∧
      outs.map (·.histogram) = List.zipWith (fun a b => a - b) (outs.map (·.macd)) (outs.map (·.signal)) := by
    intro xs
    induction xs with
    | nil => intro st; simp
    | cons x xs ih =>
      intro st
      obtain ⟨i1, i2, i3, i4, i5, i6⟩ := ih ((macdIndicator big f s g).step st x).2
      simp only [Mealy.outsFrom_cons, List.map_cons]
      refine ⟨?_, ?_, ?_, ?_, ?_, ?_⟩
      · rw [i1]; rfl
      · rw [i2]; rfl
      · rw [i3]; rfl
      · rw [i4]; rfl
      · rw [i5]; rfl
      · rw [i6]; rfl
  exact gen xs _

/-- `2/(n+1)` is a smoothing factor. -/
theorem period_alpha (n : Nat) (hn : 1 ≤ n) (big : K) : 0 ≤ (cfg big (2 / ((n : K) + 1))).com := by
  have : (1 : K) ≤ (n : K) := by exact_mod_cast hn
  change 0 ≤ 1 / (2 / ((n : K) + 1)) - 1
  rw [one_div_div, sub_nonneg, le_div_iff₀ (by norm_num)]
  linarith

theorem flax_ewma_affine (big : K) (n : Nat) (hn : 1 ≤ n) (a b : K) (xs : List (Fl K)) (h : NoInf xs) :
    ((flaxEwma (cfg big (2 / ((n : K) + 1)))).run (xs.map fun x => Fl.fin a * x + Fl.fin b)).map (·.value) =
      (((flaxEwma (cfg big (2 / ((n : K) + 1)))).run xs).map (·.value)).map fun x => Fl.fin a * x + Fl.fin b := by
  have hc := period_alpha (K := K) n hn big
  rw [C16_flax_ewma_agrees _ hc (by simp [cfg]), C16_flax_ewma_agrees _ hc (by simp [cfg])]
  have := C98_ewma_affine (cfg big (2 / ((n : K) + 1))) hc a b (by simp [cfg]) xs h
  rw [List.map_map]
  exact this

theorem flax_ewma_num (big : K) (n : Nat) (hn : 1 ≤ n) (xs : List (Fl K)) :
    NoInf (((flaxEwma (cfg big (2 / ((n : K) + 1)))).run xs).map (·.value)) := by
  have hc := period_alpha (K := K) n hn big
  rw [C16_flax_ewma_agrees _ hc (by simp [cfg])]
  exact ewma_value_num _ hc xs

theorem sub_affine (a b : K) (x y : Fl K) (hx : x ≠ .pinf ∧ x ≠ .ninf) (hy : y ≠ .pinf ∧ y ≠ .ninf) :
    (Fl.fin a * x + Fl.fin b) - (Fl.fin a * y + Fl.fin b) = Fl.fin a * (x - y) + Fl.fin 0 := by
  cases x <;> cases y <;> simp_all
  ring

theorem noInf_zipWith_sub (xs ys : List (Fl K)) (hx : NoInf xs) (hy : NoInf ys) :
    NoInf (List.zipWith (fun a b => a - b) xs ys) := by
  intro v hv
  obtain ⟨t, ht, rfl⟩ := List.getElem_of_mem hv
  simp only [List.length_zipWith, lt_min_iff] at ht
  rw [List.getElem_zipWith]
  have h1 := hx _ (List.getElem_mem ht.1)
  have h2 := hy _ (List.getElem_mem ht.2)
  revert h1 h2
  generalize xs[t] = x
  generalize ys[t] = y
  intro h1 h2
  cases x <;> cases y <;> simp_all

theorem zipWith_sub_affine (a b : K) (xs ys : List (Fl K)) (hx : NoInf xs) (hy : NoInf ys) :
    List.zipWith (fun u v => u - v) (xs.map fun x => Fl.fin a * x + Fl.fin b) (ys.map fun x => Fl.fin a * x + Fl.fin b) =
      (List.zipWith (fun u v => u - v) xs ys).map fun x => Fl.fin a * x + Fl.fin 0 := by
  apply List.ext_getElem?
  intro t
  rw [List.getElem?_zipWith, List.getElem?_map, List.getElem?_map, List.getElem?_map, List.getElem?_zipWith]
  cases h1 : xs[t]? with
  | none => simp
  | some x =>
    cases h2 : ys[t]? with
    | none => simp
    | some y =>
      simp only [Option.map_some]
      rw [sub_affine a b x y (hx x (List.mem_of_getElem? h1)) (hy y (List.mem_of_getElem? h2))]

theorem NoInf_map_affine (a b : K) (xs : List (Fl K)) (h : NoInf xs) : NoInf (xs.map fun x => Fl.fin a * x + Fl.fin b) := by
  intro v hv
  obtain ⟨x, hx, rfl⟩ := List.mem_map.mp hv
  have := h x hx
  cases x <;> simp_all

/-- C100, units: quoting the prices in other units (`a·price + b`) multiplies MACD, signal and histogram by `a` and leaves their gaps
unchanged: they do not depend on the price level.  Prices may be missing (NaN). -/
theorem C100_macd_units (big : K) (f s g : Nat) (hf : 1 ≤ f) (hs : 1 ≤ s) (hg : 1 ≤ g) (a b : K) (xs : List (Fl K)) (h : NoInf xs) :
    let outs := (macdIndicator big f s g).run xs
    let outs' := (macdIndicator big f s g).run (xs.map fun x => Fl.fin a * x + Fl.fin b)
    outs'.map (·.macd) = outs.map (fun o => Fl.fin a * o.macd + Fl.fin 0) ∧
    outs'.map (·.signal) = outs.map (fun o => Fl.fin a * o.signal + Fl.fin 0) ∧
    outs'.map (·.histogram) = outs.map (fun o => Fl.fin a * o.histogram + Fl.fin 0) := by
  intro outs outs'
  obtain ⟨-, p2, p3, p4, p5, p6⟩ := macd_streams big f s g xs
  obtain ⟨-, q2, q3, q4, q5, q6⟩ := macd_streams big f s g (xs.map fun x => Fl.fin a * x + Fl.fin b)
  have mm : ∀ (φ : Macd K → Fl K), outs.map (fun o => Fl.fin a * φ o + Fl.fin 0) = (outs.map φ).map fun x => Fl.fin a * x + Fl.fin 0 := by
    intro φ; rw [List.map_map]; rfl
  rw [flax_ewma_affine big f hf a b xs h] at q2
  rw [flax_ewma_affine big s hs a b xs h] at q3
  have n1 := flax_ewma_num big f hf xs
  have n2 := flax_ewma_num big s hs xs
  have r1 : outs'.map (·.macd) = (outs.map (·.macd)).map fun x => Fl.fin a * x + Fl.fin 0 := by
    simp only [outs, outs']
    rw [q4, q2, q3, p4, p2, p3, zipWith_sub_affine a b _ _ n1 n2]
  have nm : NoInf (outs.map (·.macd)) := by
    simp only [outs]
    rw [p4, p2, p3]
    exact noInf_zipWith_sub _ _ n1 n2
  have r2 : outs'.map (·.signal) = (outs.map (·.signal)).map fun x => Fl.fin a * x + Fl.fin 0 := by
    have := flax_ewma_affine big g hg a 0 _ nm
    rw [← r1] at this
    simp only [outs, outs'] at *
    rw [q5, p5]
    exact this
  have ns : NoInf (outs.map (·.signal)) := by
    simp only [outs]
    rw [p5]
    exact flax_ewma_num big g hg _
  refine ⟨by rw [mm]; exact r1, by rw [mm]; exact r2, ?_⟩
  rw [mm]
  simp only [outs, outs'] at *
  rw [q6, r1, r2, p6, zipWith_sub_affine a 0 _ _ nm ns]

theorem flax_ema_at (big α : K) (h0 : 0 < α) (h1 : α < 1) (ps : List K) (t : Nat) (ht : t < ps.length) :
    ∃ v, (((flaxEwma (cfg big α)).run (ps.map Fl.fin)).map (·.value))[t]? = some (Fl.fin v) ∧
      IsEma α v (ps.take (t + 1)) ∧ ∀ lo hi, (∀ q ∈ ps.take (t + 1), lo ≤ q ∧ q ≤ hi) → lo ≤ v ∧ v ≤ hi := by
  obtain ⟨v, e1, e2, e3⟩ := ema_step big α h0 h1 (ps.take t) ps[t]
  have hx : ps.take (t + 1) = ps.take t ++ [ps[t]] := (List.take_append_getElem ht).symm
  refine ⟨v, ?_, hx ▸ e2, hx ▸ e3⟩
  rw [List.getElem?_map, Mealy.run, Mealy.outsFrom_getElem?, List.getElem?_map, List.getElem?_eq_getElem ht]
  rw [Mealy.stateAfter, List.map_take] at e1
  simp [e1]

/-- C100: at every step, for any prices: the two lines are the exponentially weighted means of all prices so far with the smoothing of
their period, MACD is fast minus slow, the signal line is the exponentially weighted mean of all MACD values so far, and the histogram
is MACD minus signal. -/
theorem C100_macd (big : K) (f s g : Nat) (hf : 2 ≤ f) (hs : 2 ≤ s) (hg : 2 ≤ g) (ps : List K) :
    ∃ ms : List K, ms.length = ps.length ∧ ∀ t (ht : t < ps.length), ∃ fast slow macd signal,
      ((macdIndicator big f s g).run (ps.map Fl.fin))[t]? = some
        ⟨.fin ps[t], .fin macd, .fin signal, .fin (macd - signal), .fin fast, .fin slow⟩ ∧
      IsEma (2 / ((f : K) + 1)) fast (ps.take (t + 1)) ∧ IsEma (2 / ((s : K) + 1)) slow (ps.take (t + 1)) ∧
      macd = fast - slow ∧ ms[t]? = some macd ∧ IsEma (2 / ((g : K) + 1)) signal (ms.take (t + 1)) := by
  have al : ∀ n : Nat, 2 ≤ n → (0 : K) < 2 / ((n : K) + 1) ∧ (2 : K) / ((n : K) + 1) < 1 := by
    intro n hn
    have : (2 : K) ≤ (n : K) := by exact_mod_cast hn
    exact ⟨by positivity, by rw [div_lt_one (by linarith)]; linarith⟩
  obtain ⟨p1, p2, p3, p4, p5, p6⟩ := macd_streams big f s g (ps.map Fl.fin)
  have hmac : ∃ ms : List K, ms.length = ps.length ∧
      ((macdIndicator big f s g).run (ps.map Fl.fin)).map (·.macd) = ms.map Fl.fin := by
    have : ∀ x ∈ ((macdIndicator big f s g).run (ps.map Fl.fin)).map (·.macd), ∃ k, Fl.fin k = x := by
      intro x hx
      obtain ⟨t, ht, rfl⟩ := List.getElem_of_mem hx
      have ht' : t < ps.length := by simpa using ht
      obtain ⟨u, u1, -⟩ := flax_ema_at big _ (al f hf).1 (al f hf).2 ps t ht'
      obtain ⟨v, v1, -⟩ := flax_ema_at big _ (al s hs).1 (al s hs).2 ps t ht'
      refine ⟨u - v, ?_⟩
      have h3 : (((macdIndicator big f s g).run (ps.map Fl.fin)).map (·.macd))[t]? = some (Fl.fin (u - v)) := by
        rw [p4, List.getElem?_zipWith, p2, p3, u1, v1]
        simp
      rw [List.getElem?_eq_getElem ht, Option.some.injEq] at h3
      exact h3.symm
    have exl : ∀ l : List (Fl K), (∀ x ∈ l, ∃ k, Fl.fin k = x) → ∃ ms : List K, ms.map Fl.fin = l := by
      intro l
      induction l with
      | nil => exact fun _ => ⟨[], rfl⟩
      | cons x l ih =>
        intro hx
        obtain ⟨k, rfl⟩ := hx x List.mem_cons_self
        obtain ⟨ms, rfl⟩ := ih fun y hy => hx y (List.mem_cons_of_mem _ hy)
        exact ⟨k :: ms, rfl⟩
    obtain ⟨ms, hms⟩ := exl _ this
    refine ⟨ms, ?_, hms.symm⟩
    have := congrArg List.length hms
    simpa using this
  obtain ⟨ms, hl, hms⟩ := hmac
  refine ⟨ms, hl, ?_⟩
  intro t ht
  obtain ⟨u, u1, u2, -⟩ := flax_ema_at big _ (al f hf).1 (al f hf).2 ps t ht
  obtain ⟨v, v1, v2, -⟩ := flax_ema_at big _ (al s hs).1 (al s hs).2 ps t ht
  obtain ⟨w, w1, w2, -⟩ := flax_ema_at big _ (al g hg).1 (al g hg).2 ms t (hl ▸ ht)
  rw [← p2] at u1
  rw [← p3] at v1
  rw [← hms, ← p5] at w1
  have hm : (((macdIndicator big f s g).run (ps.map Fl.fin)).map (·.macd))[t]? = some (Fl.fin (u - v)) := by
    rw [p4, List.getElem?_zipWith, u1, v1]; simp
  have hh : (((macdIndicator big f s g).run (ps.map Fl.fin)).map (·.histogram))[t]? = some (Fl.fin (u - v - w)) := by
    rw [p6, List.getElem?_zipWith, hm, w1]; simp
  have hp : (((macdIndicator big f s g).run (ps.map Fl.fin)).map (·.price))[t]? = some (Fl.fin ps[t]) := by
    rw [p1]; simp [ht]
  refine ⟨u, v, u - v, w, ?_, u2, v2, rfl, ?_, w2⟩
  · simp only [List.getElem?_map] at u1 v1 w1 hm hh hp
    revert u1 v1 w1 hm hh hp
    cases ((macdIndicator big f s g).run (ps.map Fl.fin))[t]? with
    | none => simp
    | some o =>
      obtain ⟨a1, a2, a3, a4, a5, a6⟩ := o
      simp only [Option.map_some, Option.some.injEq]
      rintro rfl rfl rfl rfl rfl rfl
      rfl
  · rw [hms, List.getElem?_map] at hm
    cases h : ms[t]? with
    | none => rw [h] at hm; simp at hm
    | some k => rw [h] at hm; simpa using hm

/-- C100: a constant price gives MACD, signal and histogram 0 from the first step on. -/
theorem C100_macd_constant (big : K) (f s g : Nat) (hf : 2 ≤ f) (hs : 2 ≤ s) (hg : 2 ≤ g) (p : K) (n t : Nat) (ht : t < n) :
    ((macdIndicator big f s g).run (List.replicate n (Fl.fin p)))[t]? =
      some ⟨.fin p, .fin 0, .fin 0, .fin 0, .fin p, .fin p⟩ := by
  have al : ∀ n : Nat, 2 ≤ n → (0 : K) < 2 / ((n : K) + 1) ∧ (2 : K) / ((n : K) + 1) < 1 := by
    intro n hn
    have : (2 : K) ≤ (n : K) := by exact_mod_cast hn
    exact ⟨by positivity, by rw [div_lt_one (by linarith)]; linarith⟩
  obtain ⟨ms, hl, h⟩ := C100_macd big f s g hf hs hg (List.replicate n p)
  have hconst : ∀ (m : Nat) (hm : 2 ≤ m) (q : K) (l : List K) (v : K) (j : Nat), j < l.length → (∀ x ∈ l, x = q) →
      IsEma (2 / ((m : K) + 1)) v (l.take (j + 1)) → v = q := by
    intro m hm q l v j hj hq hv
    obtain ⟨w, -, w2, w3⟩ := flax_ema_at big _ (al m hm).1 (al m hm).2 l j hj
    have := w3 q q fun x hx => by rw [hq x (List.take_subset _ _ hx)]; exact ⟨le_refl _, le_refl _⟩
    rw [ema_unique hv w2]
    exact le_antisymm this.2 this.1
  have hms : ∀ x ∈ ms, x = 0 := by
    intro x hx
    obtain ⟨j, hj, rfl⟩ := List.getElem_of_mem hx
    have hj' : j < (List.replicate n p).length := hl ▸ hj
    obtain ⟨fast, slow, macd, signal, -, h2, h3, h4, h5, -⟩ := h j hj'
    rw [hconst f hf p _ _ j hj' (fun x hx => List.eq_of_mem_replicate hx) h2,
      hconst s hs p _ _ j hj' (fun x hx => List.eq_of_mem_replicate hx) h3, sub_self] at h4
    rw [List.getElem?_eq_getElem hj, Option.some.injEq] at h5
    rw [h5, h4]
  have ht' : t < (List.replicate n p).length := by simpa using ht
  obtain ⟨fast, slow, macd, signal, h1, h2, h3, h4, h5, h6⟩ := h t ht'
  have e1 := hconst f hf p _ _ t ht' (fun x hx => List.eq_of_mem_replicate hx) h2
  have e2 := hconst s hs p _ _ t ht' (fun x hx => List.eq_of_mem_replicate hx) h3
  have e3 := hconst g hg 0 ms signal t (hl ▸ ht') hms h6
  rw [List.map_replicate] at h1
  rw [h1, e3, h4, e1, e2]
  simp

example : (macdIndicator (K := ℚ) 1000 2 3 2).run [.fin 1, .fin 3] =
    [⟨.fin 1, .fin 0, .fin 0, .fin 0, .fin 1, .fin 1⟩,
     ⟨.fin 3, .fin (1 / 6), .fin (1 / 8), .fin (1 / 24), .fin (5 / 2), .fin (7 / 3)⟩] := by decide +kernel

/-! ## C101: regime_aware_processor -/

theorem mean_replicate (n : Nat) (hn : 0 < n) (p : K) : mean (List.replicate n p) = p := by
  have : (n : K) ≠ 0 := by exact_mod_cast hn.ne'
  simp [mean, this]

theorem std_replicate (root : K → K) (hr : IsRoot root) (n : Nat) (hn : 0 < n) (p : K) :
    flStd root (List.replicate n (Fl.fin p)) = Fl.fin 0 := by
  obtain ⟨s, s1, s2⟩ := flStd_fin root hr (List.replicate n p) (by simp; omega)
  rw [List.map_replicate] at s1
  have hv : pvar (List.replicate n p) = 0 := by
    rw [pvar, mean_replicate n hn]
    simp [mean]
  have := s2.2
  rw [hv] at this
  rw [s1, mul_self_eq_zero.mp this]

/-- The smoothing chosen by the first call. -/
def firstAlpha (threshold : K) : K := if threshold < 0 then 3 / 10 else 1 / 20

theorem regime_state (root : K → K) (hr : IsRoot root) (big threshold p0 : K) (xs : List (Fl K)) :
    (regimeAware root big threshold).stateAfter (Fl.fin p0 :: xs) =
      some (1 / firstAlpha threshold - 1, (circBuffer 50 (Fl.fin p0)).stateAfter (Fl.fin p0 :: xs),
        (flaxEwma (cfg big (firstAlpha threshold))).stateAfter (Fl.fin p0 :: xs)) := by
  induction xs using List.reverseRecOn with
  | nil =>
    have hb := circ_step_out 50 (by decide) (by decide) (Fl.fin p0) [] (Fl.fin p0) (by simp)
    have hw : window 50 (Fl.fin p0) ([] ++ [Fl.fin p0]) = List.replicate 50 (Fl.fin p0) := by
      rw [window_snoc 50 (by decide), window_nil]
      rfl
    rw [hw] at hb
    have hv := std_replicate root hr 50 (by decide) p0
    have hb' : ((circBuffer 50 (Fl.fin p0)).step (circBuffer 50 (Fl.fin p0)).init (Fl.fin p0)).1.1 =
        List.replicate 50 (Fl.fin p0) := congrArg Prod.fst hb
    simp only [Mealy.stateAfter, Mealy.stateFrom_cons, Mealy.stateFrom_nil]
    simp only [regimeAware, Option.map_none, Option.getD_none, hb', hv, Fl.lt_fin, decide_eq_true_eq]
    unfold firstAlpha
    split <;> rfl
  | append_singleton xs x ih =>
    rw [← List.cons_append, Mealy.stateAfter_append_singleton, ih, Mealy.stateAfter_append_singleton,
      Mealy.stateAfter_append_singleton]
    rfl

theorem regime_out (root : K → K) (hr : IsRoot root) (big threshold p0 : K) (xs : List (Fl K)) (x : Fl K)
    (hl : xs.length + 2 < 2 ^ 31) :
    ((regimeAware root big threshold).step ((regimeAware root big threshold).stateAfter (Fl.fin p0 :: xs)) x).1 =
      ⟨x, ((flaxEwma (cfg big (firstAlpha threshold))).step
          ((flaxEwma (cfg big (firstAlpha threshold))).stateAfter (Fl.fin p0 :: xs)) x).1.value,
        flStd root (window 50 (Fl.fin p0) (Fl.fin p0 :: xs ++ [x])),
        Fl.lt (Fl.fin threshold) (flStd root (window 50 (Fl.fin p0) (Fl.fin p0 :: xs ++ [x])))⟩ := by
  rw [regime_state root hr]
  have hb := circ_step_out 50 (by decide) (by decide) (Fl.fin p0) (Fl.fin p0 :: xs) x (by simpa using hl)
  have hb' : ((circBuffer 50 x).step ((circBuffer 50 (Fl.fin p0)).stateAfter (Fl.fin p0 :: xs)) x).1.1 =
      window 50 (Fl.fin p0) (Fl.fin p0 :: xs ++ [x]) := congrArg Prod.fst hb
  simp only [regimeAware, Option.map_some, Option.getD_some, hb']
  rfl

theorem regime_at (root : K → K) (hr : IsRoot root) (big threshold p0 : K) (ps : List K) (t : Nat) (ht : t < ps.length)
    (hl : ps.length + 1 < 2 ^ 31) :
    ((regimeAware root big threshold).run ((p0 :: ps).map Fl.fin))[t + 1]? = some
      ⟨Fl.fin ps[t], ((flaxEwma (cfg big (firstAlpha threshold))).step
          ((flaxEwma (cfg big (firstAlpha threshold))).stateAfter ((p0 :: ps.take t).map Fl.fin)) (Fl.fin ps[t])).1.value,
        flStd root (window 50 (Fl.fin p0) ((p0 :: ps.take (t + 1)).map Fl.fin)),
        Fl.lt (Fl.fin threshold) (flStd root (window 50 (Fl.fin p0) ((p0 :: ps.take (t + 1)).map Fl.fin)))⟩ := by
  have h1 := regime_out root hr big threshold p0 ((ps.take t).map Fl.fin) (Fl.fin ps[t]) (by simp; omega)
  have : Fl.fin p0 :: (ps.take t).map Fl.fin ++ [Fl.fin ps[t]] = (p0 :: ps.take (t + 1)).map Fl.fin := by
    rw [← List.take_append_getElem ht]
    simp only [List.map_append, List.map_cons, List.map_nil, List.cons_append]
  rw [this] at h1
  rw [show (p0 :: ps).map Fl.fin = Fl.fin p0 :: ps.map Fl.fin from rfl, Mealy.run, Mealy.outsFrom_getElem?, List.getElem?_cons_succ, List.getElem?_map, List.getElem?_eq_getElem ht,
    List.take_succ_cons, ← List.map_take]
  exact congrArg some h1

/-- C101, the label: with numbers for prices, the regime is "high_vol" exactly when the standard deviation of the last 50 prices (the
first price standing for those before it) exceeds the threshold. -/
theorem C101_regime_label (root : K → K) (hr : IsRoot root) (big threshold p0 : K) (ps : List K) (t : Nat) (ht : t < ps.length)
    (hl : ps.length + 1 < 2 ^ 31) :
    ∃ o std, ((regimeAware root big threshold).run ((p0 :: ps).map Fl.fin))[t + 1]? = some o ∧
      IsStd std (window 50 p0 (p0 :: ps.take (t + 1))) ∧ o.volatility = .fin std ∧ (o.highVol = true ↔ threshold < std) := by
  have hne : window 50 p0 (p0 :: ps.take (t + 1)) ≠ [] := by
    intro h
    have := congrArg List.length h
    simp at this
  obtain ⟨s, s1, s2⟩ := flStd_fin root hr _ hne
  rw [← window_map] at s1
  refine ⟨_, s, regime_at root hr big threshold p0 ps t ht hl, s2, s1, ?_⟩
  rw [s1]
  simp

/-- C101, what the code does: the signal is the exponentially weighted mean of all prices with ONE smoothing factor, chosen by the first
call: 0.05 as soon as the threshold is not negative.  The regime never changes it. -/
theorem C101_regime_signal_partial (root : K → K) (hr : IsRoot root) (big threshold p0 : K) (hth : 0 ≤ threshold) (ps : List K)
    (hl : ps.length + 1 < 2 ^ 31) (t : Nat) (ht : t < ps.length) :
    ∃ o v, ((regimeAware root big threshold).run ((p0 :: ps).map Fl.fin))[t + 1]? = some o ∧ o.signal = .fin v ∧
      IsEma (1 / 20) v (p0 :: ps.take (t + 1)) := by
  obtain ⟨v, e1, e2, -⟩ := ema_step big (1 / 20 : K) (by norm_num) (by norm_num) (p0 :: ps.take t) ps[t]
  refine ⟨_, v, regime_at root hr big threshold p0 ps t ht hl, ?_, ?_⟩
  · have : firstAlpha threshold = 1 / 20 := by simp [firstAlpha, not_lt.mpr hth]
    rw [this]
    exact e1
  · rw [← List.take_append_getElem ht]
    exact e2

/-- C101 is false of the code: on the prices 0, 100 with threshold 1 the second call is in the "high_vol" regime, but its signal is
`2000/39`, the mean with smoothing 0.05 (the mean with smoothing 0.3 is `1000/17`). -/
theorem C101_regime_has_no_effect :
    let outs := (regimeAware exRoot 1000 1).run [.fin 0, .fin 100]
    outs.map (·.highVol) = [false, true] ∧ outs.map (·.signal) = [.fin 0, .fin (2000 / 39)] ∧
    ((flaxEwma (cfg (1000 : ℚ) (3 / 10))).run [.fin 0, .fin 100]).map (·.value) = [.fin 0, .fin (1000 / 17)] := by
  decide +kernel

/-! ## C102: volume_breakout_detector -/

/-- One-step changes of a list of prices; the first one is 0. -/
def changes (l : List K) : List K := List.zipWith (fun a b => a - b) l (l.head?.getD 0 :: l)

theorem diffPrepend_fin (l : List K) : diffPrepend (l.map Fl.fin) = (changes l).map Fl.fin := by
  unfold diffPrepend changes
  cases l with
  | nil => rfl
  | cons x l =>
    simp only [List.map_cons, List.head?_cons, Option.getD_some]
    rw [List.map_zipWith, ← List.map_cons, ← List.map_cons, List.zipWith_map]
    simp

theorem breakout_state (root : K → K) (x : Fl K × Fl K) (xs : List (Fl K × Fl K)) :
    (breakoutBody root).stateAfter (x :: xs) = some ((circBuffer 20 x.1).stateAfter ((x :: xs).map (·.1))) := by
  induction xs using List.reverseRecOn with
  | nil => rfl
  | append_singleton xs y ih =>
    rw [← List.cons_append, Mealy.stateAfter_append_singleton, ih, List.map_append,
      show [y].map (fun x : Fl K × Fl K => x.1) = [y.1] from rfl, Mealy.stateAfter_append_singleton]
    rfl

/-- C102, the computation: at every step, with numbers for prices: momentum is the price minus the mean of the last 20 prices (the first
price standing for those before it), volatility the standard deviation of the one-step changes among them, the strength their ratio
(with 1e-8 added), a breakout a strength above 2.  All prices count, whatever their volume. -/
theorem C102_breakout_values (root : K → K) (hr : IsRoot root) (p0 : K) (ps : List K) (vs : List (Fl K))
    (hv : vs.length = (p0 :: ps).length) (hl : (p0 :: ps).length < 2 ^ 31) (t : Nat) (ht : t < (p0 :: ps).length) :
    let w := window 20 p0 ((p0 :: ps).take (t + 1))
    ∃ vol, IsStd vol (changes w) ∧
      ((breakoutBody root).run (((p0 :: ps).map Fl.fin).zip vs))[t]? = some
        { price := .fin (p0 :: ps)[t]
          volume := vs[t]
          momentum := .fin ((p0 :: ps)[t] - mean w)
          volatility := .fin vol
          strength := .fin (|(p0 :: ps)[t] - mean w| / (vol + 1 / 10 ^ 8))
          isBreakout := decide (2 < |(p0 :: ps)[t] - mean w| / (vol + 1 / 10 ^ 8)) } := by
  intro w
  have hwl : w.length = 20 := by simp [w]
  have hwne : w ≠ [] := by intro h; rw [h] at hwl; simp at hwl
  have hcne : changes w ≠ [] := by
    intro h
    have := congrArg List.length h
    simp [changes, hwl] at this
  obtain ⟨s, s1, s2⟩ := flStd_fin root hr _ hcne
  refine ⟨s, s2, ?_⟩
  obtain ⟨v0, vs', rfl⟩ : ∃ v0 vs', vs = v0 :: vs' := by
    cases vs with
    | nil => simp at hv
    | cons a b => exact ⟨a, b, rfl⟩
  have hlen : ps.length = vs'.length := by simpa using hv.symm
  rw [Mealy.run, Mealy.outsFrom_getElem?, List.zip_eq_zipWith, List.getElem?_zipWith, List.getElem?_map,
    List.getElem?_eq_getElem ht, List.getElem?_eq_getElem (by omega)]
  simp only [Option.map_some, Option.some.injEq]
  have hout : ∀ (st : Option (CircState (Fl K))), (st.getD (circBuffer 20 (Fl.fin (p0 :: ps)[t])).init) =
      (circBuffer 20 (Fl.fin p0)).stateAfter (((p0 :: ps).take t).map Fl.fin) →
      ((breakoutBody root).step st (Fl.fin (p0 :: ps)[t], (v0 :: vs')[t])).1 =
        { price := .fin (p0 :: ps)[t]
          volume := (v0 :: vs')[t]
          momentum := .fin ((p0 :: ps)[t] - mean w)
          volatility := .fin s
          strength := .fin (|(p0 :: ps)[t] - mean w| / (s + 1 / 10 ^ 8))
          isBreakout := decide (2 < |(p0 :: ps)[t] - mean w| / (s + 1 / 10 ^ 8)) } := by
    intro st hst
    have hb := circ_step_out 20 (by decide) (by decide) (Fl.fin p0) (((p0 :: ps).take t).map Fl.fin) (Fl.fin (p0 :: ps)[t])
      (by simp only [List.length_map, List.length_take]; omega)
    have hsn : ((p0 :: ps).take t).map Fl.fin ++ [Fl.fin (p0 :: ps)[t]] = ((p0 :: ps).take (t + 1)).map Fl.fin := by
      rw [← List.take_append_getElem ht, List.map_append]; rfl
    rw [hsn, window_map] at hb
    have hb' : ((circBuffer 20 (Fl.fin (p0 :: ps)[t])).step
        ((circBuffer 20 (Fl.fin p0)).stateAfter (((p0 :: ps).take t).map Fl.fin)) (Fl.fin (p0 :: ps)[t])).1.1 = w.map Fl.fin :=
      congrArg Prod.fst hb
    have hd : s + 1 / 10 ^ 8 ≠ 0 := by
      have := s2.1
      positivity
    simp only [breakoutBody, hst, hb', diffPrepend_fin, s1, flMean_fin w hwne, Fl.fin_sub, flAbs, Fl.fin_add,
      Fl.fin_div_of_ne _ hd, Fl.lt_fin]
  apply hout
  cases t with
  | zero => rfl
  | succ t =>
    have htake : (List.zipWith Prod.mk ((p0 :: ps).map Fl.fin) (v0 :: vs')).take (t + 1) =
        (Fl.fin p0, v0) :: ((ps.map Fl.fin).zip vs').take t := by
      simp [List.zip_eq_zipWith]
    have := breakout_state root (Fl.fin p0, v0) (((ps.map Fl.fin).zip vs').take t)
    rw [Mealy.stateAfter] at this
    rw [htake, this]
    simp only [Option.getD_some]
    congr 1
    simp only [List.map_cons, List.take_succ_cons]
    congr 1
    rw [List.map_take, List.map_fst_zip (by simp [hlen]), List.map_take]

/-- C102, the events: when the volume exceeds 1000 the output is the one computed from the last 20 prices; otherwise the previous
output is returned again, and before the first such call the numbers are NaN — and `is_breakout` is True (NaN as a boolean). -/
theorem C102_breakout_events (root : K → K) (xs : List (Fl K × Fl K)) (x : Fl K × Fl K) :
    ((volumeBreakout root).run (xs ++ [x])).getLast? =
      if Fl.lt (Fl.fin 1000) x.2 then ((breakoutBody root).run (xs ++ [x])).getLast?
      else some (((volumeBreakout root).run xs).getLast?.getD ⟨.nan, .nan, .nan, .nan, .nan, true⟩) := by
  have key : ∀ ys, ys ≠ [] → ((volumeBreakout root).run ys).getLast? =
      some (lastEventOutput (breakoutBody root) (fun x => Fl.lt (Fl.fin 1000) x.2) ⟨.nan, .nan, .nan, .nan, .nan, true⟩ ys) := by
    intro ys hy
    have h := C44_conditional_output (breakoutBody root) ⟨.nan, .nan, .nan, .nan, .nan, true⟩
      (fun x => Fl.lt (Fl.fin 1000) x.2) ys (ys.length - 1) (by cases ys <;> simp at hy ⊢)
    rw [List.getLast?_eq_getElem?, Mealy.run_length]
    have hlen : ys.length - 1 + 1 = ys.length := by cases ys <;> simp at hy ⊢
    rw [hlen, List.take_length] at h
    exact h
  rw [key _ (by simp), lastEventOutput_snoc, Mealy.run_append_singleton]
  by_cases hx : Fl.lt (Fl.fin 1000) x.2
  · simp [hx]
  · simp only [hx, Bool.false_eq_true, if_false, Option.some.injEq]
    by_cases hxs : xs = []
    · subst hxs; rfl
    · rw [key xs hxs]; rfl

/-- C102: before the first high-volume call every call reports a breakout. -/
theorem C102_breakout_before_first_event (root : K → K) (xs : List (Fl K × Fl K))
    (h : ∀ x ∈ xs, Fl.lt (Fl.fin 1000) x.2 = false) (t : Nat) (ht : t < xs.length) :
    ((volumeBreakout root).run xs)[t]? = some ⟨.nan, .nan, .nan, .nan, .nan, true⟩ := by
  have := C44_conditional_output (breakoutBody root) ⟨.nan, .nan, .nan, .nan, .nan, true⟩
    (fun x => Fl.lt (Fl.fin 1000) x.2) xs t ht
  change ((volumeBreakout root).run xs)[t]? = _ at this
  rw [this]
  unfold lastEventOutput
  rw [List.filter_eq_nil_iff.mpr]
  · rfl
  · intro p hp
    have := (List.of_mem_zip (a := p.1) (b := p.2) hp).1
    simp [h p.1 (List.take_subset _ _ this)]

example : (volumeBreakout exRoot).run [(.fin 1, .fin 500), (.fin 1, .fin 2000), (.fin 41, .fin 900)] =
    [⟨.nan, .nan, .nan, .nan, .nan, true⟩, ⟨.fin 1, .fin 2000, .fin 0, .fin 0, .fin 0, false⟩,
     ⟨.fin 1, .fin 2000, .fin 0, .fin 0, .fin 0, false⟩] := by decide +kernel

/-! ## C103: complete_trading_system -/

/-- C103, the limit: whatever the prices and volumes (NaN and infinities included), the position is NaN or at most 10% in absolute
value. -/
theorem C103_position_limit (root tanh : K → K) (big : K) (xs : List (Fl K × Fl K)) (o : Trading K)
    (h : o ∈ (tradingSystem root tanh big).run xs) :
    o.finalPosition = .nan ∨ ∃ f, o.finalPosition = .fin f ∧ |f| ≤ 1 / 10 := by
  have hclip : ∀ x : Fl K, flClip x (-(Fl.fin (1 / 10))) (Fl.fin (1 / 10)) = .nan ∨
      ∃ f, flClip x (-(Fl.fin (1 / 10))) (Fl.fin (1 / 10)) = .fin f ∧ |f| ≤ 1 / 10 := by
    intro x
    have h10 : (0 : K) < 1 / 10 := by positivity
    cases x with
    | nan => left; rfl
    | pinf =>
      right
      refine ⟨1 / 10, ?_, by rw [abs_of_pos h10]⟩
      simp [flClip, Fl.maximum, Fl.minimum, Fl.lt]
    | ninf =>
      right
      refine ⟨-(1 / 10), ?_, by rw [abs_neg, abs_of_pos h10]⟩
      have : ¬ ((1 : K) / 10 < -(1 / 10)) := by linarith
      simp [flClip, Fl.maximum, Fl.minimum, Fl.lt] at this ⊢
    | fin k =>
      right
      simp only [flClip, Fl.maximum, Fl.minimum, Fl.neg_fin, Fl.isNan_fin, Bool.or_self, Bool.false_eq_true, if_false, Fl.lt_fin,
        decide_eq_true_eq]
      split
      · rename_i h1
        simp only [Fl.isNan_fin, Bool.or_self, Bool.false_eq_true, if_false, Fl.lt_fin, decide_eq_true_eq]
        split
        · exact ⟨_, rfl, by rw [abs_of_pos h10]⟩
        · refine ⟨_, rfl, by rw [abs_neg, abs_of_pos h10]⟩
      · rename_i h1
        simp only [Fl.isNan_fin, Bool.or_self, Bool.false_eq_true, if_false, Fl.lt_fin, decide_eq_true_eq]
        split
        · exact ⟨_, rfl, by rw [abs_of_pos h10]⟩
        · rename_i h2
          exact ⟨_, rfl, abs_le.mpr ⟨not_lt.mp h1, not_lt.mp h2⟩⟩
  obtain ⟨t, ht, rfl⟩ := List.getElem_of_mem h
  have ht' : t < xs.length := by simpa using ht
  have e : ((tradingSystem root tanh big).run xs)[t]? = some ((tradingSystem root tanh big).step
      ((tradingSystem root tanh big).stateAfter (xs.take t)) xs[t]).1 := by
    rw [Mealy.run, Mealy.outsFrom_getElem?, List.getElem?_eq_getElem ht']
    rfl
  rw [List.getElem?_eq_getElem ht, Option.some.injEq] at e
  rw [e]
  exact hclip _

theorem trading_state (root tanh : K → K) (big : K) (xs : List (Fl K × Fl K)) :
    (tradingSystem root tanh big).stateAfter xs =
      ⟨(circBuffer 20 Fl.nan).stateAfter (xs.map (·.1)), (flaxEwma (cfg big (2 / 21))).stateAfter (xs.map (·.1)),
       (flaxEwma (cfg big (2 / 13))).stateAfter (xs.map (·.1)), (flaxEwma (cfg big (2 / 27))).stateAfter (xs.map (·.1)),
       (flaxEwma (cfg big (3 / 10))).stateAfter (xs.map (·.1)), (flaxEwma (cfg big (1 / 10))).stateAfter (xs.map (·.1))⟩ := by
  apply Mealy.stateAfter_eq _ _ rfl
  intro xs x
  simp only [List.map_append, show [x].map (fun x : Fl K × Fl K => x.1) = [x.1] from rfl, Mealy.stateAfter_append_singleton]
  rfl

theorem positive_bounds (l : List K) (h : ∀ x ∈ l, 0 < x) : ∃ lo hi, 0 < lo ∧ ∀ x ∈ l, lo ≤ x ∧ x ≤ hi := by
  induction l with
  | nil => exact ⟨1, 1, one_pos, by simp⟩
  | cons a l ih =>
    obtain ⟨lo, hi, h1, h2⟩ := ih fun x hx => h x (List.mem_cons_of_mem _ hx)
    refine ⟨min lo a, max hi a, lt_min h1 (h a List.mem_cons_self), ?_⟩
    intro x hx
    rcases List.mem_cons.mp hx with rfl | hx
    · exact ⟨min_le_right _ _, le_max_right _ _⟩
    · exact ⟨(min_le_left _ _).trans (h2 x hx).1, (h2 x hx).2.trans (le_max_left _ _)⟩

/-- C103: at every step, for positive prices and any volumes: the center, fast and slow lines are exponentially weighted means of all
prices, the width is the standard deviation of the last 20 prices, the momentum uses the responsive mean (0.3) exactly when the volume
exceeds 1200 and the smooth one (0.1) otherwise, the signal is the average of the three squashed components, and the position is a tenth
of the signal divided by one plus the relative volatility: the clipping never acts, and the position is at most
`0.1 / (1 + volatility)`. -/
theorem C103_trading_system (root tanh : K → K) (hr : IsRoot root) (htanh : ∀ x, |tanh x| ≤ 1) (big : K) (ps : List K)
    (vs : List (Fl K)) (hv : vs.length = ps.length) (hpos : ∀ p ∈ ps, 0 < p) (hl : ps.length < 2 ^ 31) (t : Nat) (ht : t < ps.length) :
    ∃ center std fast slow sig : K, ∃ o : Trading K,
      ((tradingSystem root tanh big).run ((ps.map Fl.fin).zip vs))[t]? = some o ∧
      IsEma (2 / 21) center (ps.take (t + 1)) ∧ IsStd std (recent 20 (ps.take (t + 1))) ∧
      IsEma (2 / 13) fast (ps.take (t + 1)) ∧ IsEma (2 / 27) slow (ps.take (t + 1)) ∧
      IsEma (if Fl.lt (.fin 1200) vs[t] then 3 / 10 else 1 / 10) sig (ps.take (t + 1)) ∧
      let technical := tanh ((ps[t] - center) / (std + 1 / 10 ^ 8) - 1 / 2)
      let momentum := tanh (sig / ps[t] - 1)
      let macdSignal := tanh ((fast - slow) * 10)
      let signal := (technical + momentum + macdSignal) / 3 / (1 + std / center)
      0 < center ∧ o.center = .fin center ∧ o.bandWidth = .fin std ∧ o.macd = .fin (fast - slow) ∧
      o.highVolume = Fl.lt (.fin 1200) vs[t] ∧
      o.technical = .fin technical ∧ o.momentum = .fin momentum ∧ o.macdSignal = .fin macdSignal ∧
      o.volatility = .fin (std / center) ∧ o.riskAdjusted = .fin signal ∧ o.finalPosition = .fin (signal / 10) ∧
      |signal / 10| ≤ 1 / 10 / (1 + std / center) := by
  have hx : ps.take (t + 1) = ps.take t ++ [ps[t]] := (List.take_append_getElem ht).symm
  have hp : 0 < ps[t] := hpos _ (List.getElem_mem ht)
  obtain ⟨c, c1, c2, c3⟩ := ema_step big (2 / 21 : K) (by positivity) (by norm_num) (ps.take t) ps[t]
  obtain ⟨f, f1, f2, -⟩ := ema_step big (2 / 13 : K) (by positivity) (by norm_num) (ps.take t) ps[t]
  obtain ⟨w, w1, w2, -⟩ := ema_step big (2 / 27 : K) (by positivity) (by norm_num) (ps.take t) ps[t]
  obtain ⟨r, r1, r2, -⟩ := ema_step big (3 / 10 : K) (by positivity) (by norm_num) (ps.take t) ps[t]
  obtain ⟨m, m1, m2, -⟩ := ema_step big (1 / 10 : K) (by positivity) (by norm_num) (ps.take t) ps[t]
  have hne := recent_snoc_ne 20 (by decide) (ps.take t) ps[t]
  obtain ⟨s, s1, s2⟩ := flStd_fin root hr _ hne
  obtain ⟨lo, hi, hlo, hb⟩ := positive_bounds (ps.take t ++ [ps[t]]) (by
    intro x hxm; rw [← hx] at hxm; exact hpos x (List.take_subset _ _ hxm))
  have hcpos : 0 < c := hlo.trans_le (c3 lo hi hb).1
  have hs0 := s2.1
  have hzip : (ps.map Fl.fin).zip vs = List.zipWith Prod.mk (ps.map Fl.fin) vs := List.zip_eq_zipWith
  have hrun : ((tradingSystem root tanh big).run ((ps.map Fl.fin).zip vs))[t]? =
      some ((tradingSystem root tanh big).step
        ((tradingSystem root tanh big).stateAfter (((ps.map Fl.fin).zip vs).take t)) (Fl.fin ps[t], vs[t])).1 := by
    rw [Mealy.run, Mealy.outsFrom_getElem?]
    have : ((ps.map Fl.fin).zip vs)[t]? = some (Fl.fin ps[t], vs[t]) := by
      rw [hzip, List.getElem?_zipWith, List.getElem?_map, List.getElem?_eq_getElem ht, List.getElem?_eq_getElem (by omega)]
      rfl
    rw [this]
    rfl
  have hfst : (((ps.map Fl.fin).zip vs).take t).map (·.1) = (ps.take t).map Fl.fin := by
    rw [List.map_take, List.map_fst_zip (by simp [hv]), List.map_take]
  have hbuf := circ_step_out 20 (by decide) (by decide) Fl.nan ((ps.take t).map Fl.fin) (Fl.fin ps[t])
    (by simp only [List.length_map, List.length_take]; omega)
  have hsn : (ps.take t).map Fl.fin ++ [Fl.fin ps[t]] = (ps.take t ++ [ps[t]]).map Fl.fin := by
    rw [List.map_append]; rfl
  rw [hsn] at hbuf
  have hd : s + 1 / 10 ^ 8 ≠ 0 := by positivity
  have hv0 : 0 ≤ s / c := by positivity
  have hv1 : 1 + s / c ≠ 0 := by positivity
  have h3 : (3 : K) ≠ 0 := by norm_num
  set high := Fl.lt (Fl.fin 1200) vs[t] with hhigh
  set sig := if high then r else m with hsig
  have hsel : (if high = true then Fl.fin r else Fl.fin m) = Fl.fin sig := by
    simp only [hsig]; split <;> rfl
  set technical := tanh ((ps[t] - c) / (s + 1 / 10 ^ 8) - 1 / 2) with htech
  set momentum := tanh (sig / ps[t] - 1) with hmom
  set macdSignal := tanh ((f - w) * 10) with hmac
  have habs : |(technical + momentum + macdSignal) / 3 / (1 + s / c) / 10| ≤ 1 / 10 / (1 + s / c) := by
    have a1 := abs_le.mp (htanh ((ps[t] - c) / (s + 1 / 10 ^ 8) - 1 / 2))
    have a2 := abs_le.mp (htanh (sig / ps[t] - 1))
    have a3 := abs_le.mp (htanh ((f - w) * 10))
    rw [← htech] at a1
    rw [← hmom] at a2
    rw [← hmac] at a3
    have hq : |(technical + momentum + macdSignal) / 3| ≤ 1 := by
      rw [abs_le]
      constructor
      · rw [le_div_iff₀ (by norm_num)]; linarith [a1.1, a2.1, a3.1]
      · rw [div_le_iff₀ (by norm_num)]; linarith [a1.2, a2.2, a3.2]
    have hvp : 0 < 1 + s / c := by positivity
    rw [abs_div, abs_div, abs_of_pos hvp, abs_of_pos (by norm_num : (0 : K) < 10)]
    rw [div_div, div_div, mul_comm, ← div_div, ← div_div]
    exact div_le_div_of_nonneg_right (div_le_div_of_nonneg_right hq (by norm_num)) hvp.le
  have hle : |(technical + momentum + macdSignal) / 3 / (1 + s / c) / 10| ≤ 1 / 10 := by
    refine habs.trans ?_
    apply div_le_self (by positivity)
    linarith
  have hclip : flClip (Fl.fin ((technical + momentum + macdSignal) / 3 / (1 + s / c) * (1 / 10))) (-(Fl.fin (1 / 10))) (Fl.fin (1 / 10)) =
      Fl.fin ((technical + momentum + macdSignal) / 3 / (1 + s / c) / 10) := by
    rw [mul_one_div]
    obtain ⟨b1, b2⟩ := abs_le.mp hle
    simp only [flClip, Fl.maximum, Fl.minimum, Fl.neg_fin, Fl.isNan_fin, Bool.or_self, Bool.false_eq_true, if_false, Fl.lt_fin,
      decide_eq_true_eq, not_lt.mpr b1, not_lt.mpr b2]
  refine ⟨c, s, f, w, sig, _, hrun, hx ▸ c2, hx ▸ s2, hx ▸ f2, hx ▸ w2, ?_, hcpos, ?_⟩
  · rw [hx]
    simp only [hsig]
    split
    · exact r2
    · exact m2
  · rw [trading_state, hfst]
    simp only [tradingSystem, hbuf, c1, f1, w1, r1, m1, window_valid, s1, Fl.isNan_fin, Bool.false_eq_true, if_false,
      ← hhigh, hsel, Fl.fin_sub, Fl.fin_add, Fl.fin_mul, Fl.fin_div_of_ne _ hd, Fl.fin_div_of_ne _ hp.ne', Fl.fin_div_of_ne _ hcpos.ne',
      Fl.fin_div_of_ne _ hv1, Fl.fin_div_of_ne _ h3, flTanh, ← htech, ← hmom, ← hmac, hclip, true_and]
    exact habs

example : ∀ x : ℝ, |(fun y => y / (1 + |y|)) x| ≤ (1 : ℝ) := by
  intro x
  have : 0 < 1 + |x| := by positivity
  simp only [abs_div, abs_of_pos this]
  rw [div_le_one this]
  linarith

/-! ## C104, C108: adaptive_position_sizing and cumulative_returns_with_reset -/

/-- C104: for a numeric signal and a non-negative risk the position is the signal clipped to `[-1, 1]` times the risk: it never exceeds
the risk per trade, it has the sign of the signal, and it grows with the signal. -/
theorem C104_position_size (risk : K) (hr : 0 ≤ risk) (s : K) :
    ∃ p, positionSize risk (.fin s) = .fin p ∧ p = max (-1) (min s 1) * risk ∧ |p| ≤ risk ∧ 0 ≤ p * s ∧
      ∀ s', s ≤ s' → ∃ p', positionSize risk (.fin s') = .fin p' ∧ p ≤ p' := by
  have key : ∀ s : K, positionSize risk (.fin s) = .fin (max (-1) (min s 1) * risk) := by
    intro s
    unfold positionSize
    simp only [flAbs, flSign, Fl.minimum, Fl.isNan_fin, Bool.or_self, Bool.false_eq_true, if_false, Fl.lt_fin, decide_eq_true_eq]
    rcases lt_trichotomy s 0 with h | h | h
    · rw [if_pos h, abs_of_neg h, min_eq_left (by linarith)]
      split
      · rename_i h1
        rw [max_eq_left (by linarith)]; simp
      · rename_i h1
        rw [max_eq_right (by linarith)]; simp
    · subst h
      simp
    · rw [if_neg (by linarith), if_pos h, abs_of_pos h]
      split
      · rename_i h1
        rw [min_eq_right h1.le, max_eq_right (by linarith)]; simp
      · rename_i h1
        rw [min_eq_left (by linarith), max_eq_right (by linarith)]; simp
  have hb : |max (-1) (min s 1)| ≤ (1 : K) :=
    abs_le.mpr ⟨le_max_left _ _, max_le (by linarith) (min_le_right _ _)⟩
  refine ⟨_, key s, rfl, ?_, ?_, fun s' h => ⟨_, key s', ?_⟩⟩
  · rw [abs_mul, abs_of_nonneg hr]
    nlinarith
  · have : 0 ≤ max (-1) (min s 1) * s := by
      rcases le_total 0 s with h | h
      · apply mul_nonneg _ h
        exact le_max_of_le_right (le_min h zero_le_one)
      · apply mul_nonneg_of_nonpos_of_nonpos _ h
        exact max_le (by linarith) ((min_le_left _ _).trans h)
    nlinarith
  · exact mul_le_mul_of_nonneg_right (max_le_max le_rfl (min_le_min h le_rfl)) hr

/-- C104: an infinite signal gives the full risk, with its sign; a NaN signal a NaN position. -/
theorem C104_position_size_extreme (risk : K) :
    positionSize risk .pinf = .fin risk ∧ positionSize risk .ninf = .fin (-risk) ∧ positionSize risk (.nan : Fl K) = .nan := by
  refine ⟨?_, ?_, rfl⟩ <;>
    simp [positionSize, flAbs, flSign, Fl.minimum, Fl.lt]

example : positionSize (1 / 50 : ℚ) (.fin (-3)) = .fin (-1 / 50) := by decide +kernel

/-- C108, `cumulative_returns_with_reset`: the output depends on the current price only: nothing is accumulated over the calls and no
reset is ever observable. -/
theorem C108_returns_not_cumulative (log : K → K) (xs ys : List (Fl K)) (x : Fl K) :
    ((cumulativeReturns log).run (xs ++ [x])).getLast? = ((cumulativeReturns log).run (ys ++ [x])).getLast? := by
  simp [Mealy.run_append_singleton, cumulativeReturns]

/-- C108: the value on each price: the logarithm of the price plus 1e-8, NaN on the prices below -1e-8 for which the reset was
requested. -/
theorem C108_returns_value_partial (log : K → K) (ps : List K) (t : Nat) (ht : t < ps.length) :
    (0 < ps[t] + 1 / 10 ^ 8 → ((cumulativeReturns log).run (ps.map Fl.fin))[t]? = some (.fin (log (ps[t] + 1 / 10 ^ 8)))) ∧
    (ps[t] < -(1 / 10 ^ 8) → ((cumulativeReturns log).run (ps.map Fl.fin))[t]? = some .nan) := by
  have e : ((cumulativeReturns log).run (ps.map Fl.fin))[t]? = some (flLog log (Fl.fin ps[t] + Fl.fin (1 / 10 ^ 8))) := by
    rw [Mealy.run, Mealy.outsFrom_getElem?, List.getElem?_map, List.getElem?_eq_getElem ht]
    rfl
  rw [e, Fl.fin_add]
  constructor
  · intro h
    simp only [flLog, if_pos h]
  · intro h
    have h1 : ¬ 0 < ps[t] + 1 / 10 ^ 8 := by linarith
    have h2 : ps[t] + 1 / 10 ^ 8 ≠ 0 := by linarith
    simp only [flLog, if_neg h1, if_neg h2]

/-- The claim of the docstring, for logarithmic returns: the last output is the sum of the logarithms of the prices since the last
negative price. -/
def CumulativeReturns (log : K → K) : Prop :=
  ∀ ps : List K, ∀ p : K, (∀ x ∈ ps ++ [p], 0 < x) →
    ((cumulativeReturns log).run ((ps ++ [p]).map Fl.fin)).getLast? =
      some (.fin (((ps ++ [p]).map fun x => log (x + 1 / 10 ^ 8)).sum))

/-- C108: the docstring is false as soon as the logarithm of some price is not zero. -/
theorem C108_returns_not_cumulative_sum (log : K → K) (q : K) (hq : 0 < q) (hl : log (q + 1 / 10 ^ 8) ≠ 0) :
    ¬ CumulativeReturns log := by
  intro h
  have h2 := h [q] q (by simpa using hq)
  have e := (C108_returns_value_partial log [q, q] 1 (by simp)).1 (by
    have : (0 : K) < 1 / 10 ^ 8 := by positivity
    simp only [List.getElem_cons_succ, List.getElem_cons_zero]; linarith)
  rw [List.getLast?_eq_getElem?, Mealy.run_length] at h2
  change ((cumulativeReturns log).run ([q, q].map Fl.fin))[1]? = _ at h2
  rw [e] at h2
  simp at h2
  exact hl (by simpa using h2)

example : ∃ q : ℚ, 0 < q ∧ (fun x : ℚ => x - 1) (q + 1 / 10 ^ 8) ≠ 0 := ⟨2, by norm_num, by norm_num⟩

/-! ## C105: the cache of the conditional decorators -/

section
variable {S I O V : Type}

/-- C105: the first call of a function decorated with `update_on_event` succeeds exactly when every leaf of its output is an array;
the cache then has one entry per leaf. -/
theorem C105_cache_init_partial (fill : V → V) (leaves : List (OutLeaf V)) :
    (∀ vs, cacheInit fill leaves = .ok vs ↔ ∃ ws : List V, leaves = ws.map OutLeaf.array ∧ vs = ws.map fill) ∧
    ((∃ e, cacheInit fill leaves = .error e) ↔ OutLeaf.python ∈ leaves) := by
  induction leaves with
  | nil =>
    refine ⟨fun vs => ⟨fun h => ⟨[], rfl, ?_⟩, fun ⟨ws, h1, h2⟩ => ?_⟩, by simp [cacheInit]⟩
    · simpa [cacheInit] using h.symm
    · obtain rfl : ws = [] := by simpa using h1.symm
      simp [cacheInit, h2]
  | cons l ls ih =>
    cases l with
    | python =>
      refine ⟨fun vs => ⟨fun h => by simp [cacheInit] at h, fun ⟨ws, h1, _⟩ => ?_⟩, by simp [cacheInit]⟩
      cases ws <;> simp at h1
    | array v =>
      rcases hc : cacheInit fill ls with e | us
      · refine ⟨fun vs => ⟨fun h => by simp [cacheInit, hc] at h, fun ⟨ws, h1, h2⟩ => ?_⟩, ?_⟩
        · cases ws with
          | nil => simp at h1
          | cons w ws =>
            obtain ⟨-, h1⟩ : v = w ∧ ls = ws.map OutLeaf.array := by simpa using h1
            have := (ih.1 (ws.map fill)).mpr ⟨ws, h1, rfl⟩
            rw [hc] at this
            cases this
        · have := ih.2.mp ⟨e, hc⟩
          simp [cacheInit, hc, this]
      · obtain ⟨ws, h1, h2⟩ := (ih.1 us).mp hc
        refine ⟨fun vs => ⟨fun h => ?_, fun ⟨ws', h1', h2'⟩ => ?_⟩, ?_⟩
        · simp only [cacheInit, hc, Except.ok.injEq] at h
          exact ⟨v :: ws, by simp [h1], by simp [← h, h2]⟩
        · cases ws' with
          | nil => simp at h1'
          | cons w ws' =>
            obtain ⟨hw, h3'⟩ : v = w ∧ ls = ws'.map OutLeaf.array := by simpa using h1'
            have := (ih.1 (ws'.map fill)).mpr ⟨ws', h3', rfl⟩
            rw [hc, Except.ok.injEq] at this
            simp [cacheInit, hc, h2', this, hw]
        · have hn : OutLeaf.python ∉ ls := fun hm => by
            obtain ⟨e, he⟩ := ih.2.mpr hm
            rw [hc] at he; cases he
          simp [cacheInit, hc, hn]

/-- C105: the documented example `high_price_signal` returns the Python constant `True`: its `init` raises, for every price. -/
theorem C105_high_price_signal_raises (fill : V → V) (price smoothed signal volatility : V) :
    ∃ e, cacheInit fill (highPriceLeaves price smoothed signal volatility) = .error e :=
  (C105_cache_init_partial fill _).2.mpr (by simp [highPriceLeaves])

example : cacheInit (fun _ : Nat => 0) [.array 3, .array 5] = .ok [0, 0] := rfl

/-! ## C106: portfolio_manager -/

theorem portfolio_ok (m : Mealy S I O) (names : List String) (ss : List S) (hs : ss.length = names.length)
    (rows : List (List I)) (hrow : ∀ r ∈ rows, r.length = names.length) :
    ∃ os, portfolioRun m (some ss) (rows.map fun r => names.zip r) = .ok os ∧ os.length = rows.length ∧
      ∀ t (ht : t < rows.length), ∃ o, os[t]? = some (names.zip o) ∧ o.length = names.length ∧
        ∀ k (hk : k < names.length), o[k]? = (m.outsFrom ss[k] (rows.filterMap (·[k]?)))[t]? := by
  induction rows generalizing ss with
  | nil => exact ⟨[], rfl, rfl, fun t ht => absurd ht (by simp)⟩
  | cons r rows ih =>
    have hr : r.length = names.length := hrow r List.mem_cons_self
    set ss' := List.zipWith (fun x s => (m.step s x).2) r ss with hss'
    obtain ⟨os, h1, h2, h3⟩ := ih ss' (by simp [hss', hr, hs]) fun r' h => hrow r' (List.mem_cons_of_mem _ h)
    have hstep : portfolioStep m (some ss) (names.zip r) =
        .ok (names.zip (List.zipWith (fun x s => (m.step s x).1) r ss), ss') := by
      unfold portfolioStep
      simp only [Option.getD_some, List.length_zip, hr, hs, Nat.min_self, le_refl, if_true]
      congr 2
      · apply List.ext_getElem?
        intro k
        rw [List.zip_eq_zipWith, List.zip_eq_zipWith, List.getElem?_map, List.getElem?_zipWith, List.getElem?_zipWith,
          List.getElem?_zipWith, List.getElem?_zipWith]
        cases names[k]? <;> cases r[k]? <;> cases ss[k]? <;> rfl
      · rw [List.drop_of_length_le (by omega), List.append_nil]
        apply List.ext_getElem?
        intro k
        rw [List.zip_eq_zipWith, List.getElem?_map, List.getElem?_zipWith, List.getElem?_zipWith, hss', List.getElem?_zipWith]
        by_cases hk : k < names.length
        · rw [List.getElem?_eq_getElem hk, List.getElem?_eq_getElem (by omega : k < r.length),
            List.getElem?_eq_getElem (by omega : k < ss.length)]
          rfl
        · rw [List.getElem?_eq_none (by omega : names.length ≤ k), List.getElem?_eq_none (by omega : r.length ≤ k)]
          rfl
    refine ⟨names.zip (List.zipWith (fun x s => (m.step s x).1) r ss) :: os, ?_, by simp [h2], ?_⟩
    · simp only [List.map_cons, portfolioRun, hstep, h1]
    · intro t ht
      cases t with
      | zero =>
        refine ⟨_, rfl, by simp [hr, hs], fun k hk => ?_⟩
        rw [List.getElem?_zipWith, List.getElem?_eq_getElem (by omega : k < r.length), List.getElem?_eq_getElem (by omega : k < ss.length)]
        rw [List.filterMap_cons, List.getElem?_eq_getElem (by omega : k < r.length)]
        rfl
      | succ t =>
        obtain ⟨o, g1, g2, g3⟩ := h3 t (by simpa using ht)
        refine ⟨o, by simpa using g1, g2, fun k hk => ?_⟩
        rw [g3 k hk, List.filterMap_cons, List.getElem?_eq_getElem (by omega : k < r.length)]
        simp [hss', Mealy.outsFrom]

/-- C106: when every call gives the assets in the same order, each asset is processed on its own: its signals are those of the
single-asset processor on that asset's prices alone. -/
theorem C106_portfolio_independent (m : Mealy S I O) (names : List String) (rows : List (List I)) (hne : rows ≠ [])
    (hrow : ∀ r ∈ rows, r.length = names.length) :
    ∃ os, portfolioRun m none (rows.map fun r => names.zip r) = .ok os ∧ os.length = rows.length ∧
      ∀ t (ht : t < rows.length), ∃ o, os[t]? = some (names.zip o) ∧ o.length = names.length ∧
        ∀ k (hk : k < names.length), o[k]? = (m.run (rows.filterMap (·[k]?)))[t]? := by
  have e : portfolioRun m none (rows.map fun r => names.zip r) =
      portfolioRun m (some (names.map fun _ => m.init)) (rows.map fun r => names.zip r) := by
    cases rows with
    | nil => exact absurd rfl hne
    | cons r rows =>
      have hr : r.length = names.length := hrow r List.mem_cons_self
      have : (names.zip r).map (fun _ => m.init) = names.map fun _ => m.init := by
        simp only [List.map_const']
        simp [hr]
      simp only [List.map_cons, portfolioRun, portfolioStep, Option.getD_none, Option.getD_some, this]
  rw [e]
  obtain ⟨os, h1, h2, h3⟩ := portfolio_ok m names (names.map fun _ => m.init) (by simp) rows hrow
  refine ⟨os, h1, h2, fun t ht => ?_⟩
  obtain ⟨o, g1, g2, g3⟩ := h3 t ht
  refine ⟨o, g1, g2, fun k hk => ?_⟩
  rw [g3 k hk]
  simp [Mealy.run]

/-- What a user expects of `portfolio_manager`: the signals of an asset depend on the prices of that asset only, by name. -/
def ByName (m : Mealy S I O) : Prop :=
  ∀ (rows : List (List (String × I))) (os : List (List (String × O))), portfolioRun m none rows = .ok os →
    ∀ (name : String) (t : Nat), t < rows.length → (∀ r ∈ rows, (r.lookup name).isSome) → ∀ o, os[t]? = some o →
      o.lookup name = (m.run (rows.filterMap (·.lookup name)))[t]?

/-- C106: giving the same two assets in the other order exchanges their states, so the expectation is false for every processor whose
second output depends on its first input. -/
theorem C106_portfolio_not_by_name (m : Mealy S I O) (a b x : I)
    (h : (m.step (m.step m.init a).2 x).1 ≠ (m.step (m.step m.init b).2 x).1) : ¬ ByName m := by
  intro hb
  have := hb [[("A", a), ("B", b)], [("B", x), ("A", x)]]
    [[("A", (m.step m.init a).1), ("B", (m.step m.init b).1)],
     [("B", (m.step (m.step m.init a).2 x).1), ("A", (m.step (m.step m.init b).2 x).1)]] rfl "A" 1 (by simp) (by
      intro r hr
      simp only [List.mem_cons, List.not_mem_nil, or_false] at hr
      rcases hr with rfl | rfl <;> rfl) _ rfl
  have e : [[("A", a), ("B", b)], [("B", x), ("A", x)]].filterMap (·.lookup "A") = [a, x] := rfl
  rw [e] at this
  exact h (by simpa [Mealy.run, Mealy.outsFrom, List.lookup] using this.symm)

/-- C106: the first call fixes the number of assets: a later call with more assets raises. -/
theorem C106_portfolio_more_assets_raise (m : Mealy S I O) (ss : List S) (prices : List (String × I))
    (h : ss.length < prices.length) : portfolioStep m (some ss) prices = .error () := by
  simp [portfolioStep, Nat.not_le.mpr h]

/-- C106, the part that holds: with one fixed list of distinct names in every call, the result is by name. -/
theorem C106_portfolio_by_name_partial (m : Mealy S I O) (names : List String) (hnd : names.Nodup) (rows : List (List I))
    (hne : rows ≠ []) (hrow : ∀ r ∈ rows, r.length = names.length) :
    ∃ os, portfolioRun m none (rows.map fun r => names.zip r) = .ok os ∧
      ∀ name ∈ names, ∀ t < rows.length, ∃ o, os[t]? = some o ∧
        o.lookup name = (m.run ((rows.map fun r => names.zip r).filterMap (·.lookup name)))[t]? := by
  obtain ⟨os, h1, -, h3⟩ := C106_portfolio_independent m names rows hne hrow
  have hl : ∀ {V : Type} (names : List String) (_ : names.Nodup) (vs : List V) (k : Nat) (hk : k < names.length),
      vs.length = names.length → (names.zip vs).lookup names[k] = vs[k]? := by
    intro V names
    induction names with
    | nil => intro _ vs k hk; simp at hk
    | cons n names ih =>
      intro hnd vs k hk hv
      cases vs with
      | nil => simp at hv
      | cons v vs =>
        obtain ⟨hn, hnd'⟩ := List.nodup_cons.mp hnd
        cases k with
        | zero => simp [List.lookup]
        | succ k =>
          have hk' : k < names.length := by simpa using hk
          have : names[k] ≠ n := fun e => hn (e ▸ List.getElem_mem hk')
          simp only [List.zip_cons_cons, List.getElem_cons_succ, List.lookup_cons, beq_eq_false_iff_ne.mpr this,
            List.getElem?_cons_succ, Bool.false_eq_true, if_false]
          exact ih hnd' vs k hk' (by simpa using hv)
  refine ⟨os, h1, fun name hname t ht => ?_⟩
  obtain ⟨k, hk, rfl⟩ := List.getElem_of_mem hname
  obtain ⟨o, g1, g2, g3⟩ := h3 t ht
  refine ⟨_, g1, ?_⟩
  rw [hl names hnd o k hk g2, g3 k hk, List.filterMap_map]
  congr 2
  apply List.filterMap_congr
  intro r hr
  exact (hl names hnd r k hk (hrow r hr)).symm

example : portfolioRun (⟨0, fun s x => (s, x)⟩ : Mealy Nat Nat Nat) none [[("A", 1), ("B", 2)], [("B", 7), ("A", 7)]] =
    .ok [[("A", 0), ("B", 0)], [("B", 1), ("A", 2)]] := rfl

/-! ## C107: a Python loop and lax.scan -/

/-- C107: feeding a sequence to a streaming function in a Python loop, passing the state along, and in one `jax.lax.scan` give the same
outputs and the same final state. -/
theorem C107_loop_eq_scan (step : S → I → O × S) (s : S) (xs : List I) : forLoop step s xs = scanLoop step s xs := by
  induction xs generalizing s with
  | nil => rfl
  | cons x xs ih =>
    simp only [forLoop, ih]
    rfl

/-- C107: and the loop may be stopped anywhere and resumed from its state, by either method. -/
theorem C107_loop_resume (step : S → I → O × S) (s : S) (xs ys : List I) :
    (forLoop step s (xs ++ ys)).1 = (scanLoop step s xs).1 ++ (forLoop step (scanLoop step s xs).2 ys).1 ∧
    (forLoop step s (xs ++ ys)).2 = (scanLoop step (forLoop step s xs).2 ys).2 := by
  simp only [← C107_loop_eq_scan]
  induction xs generalizing s with
  | nil => exact ⟨rfl, rfl⟩
  | cons x xs ih =>
    obtain ⟨h1, h2⟩ := ih (step s x).2
    exact ⟨by simp [forLoop, h1], by simp [forLoop, h2]⟩

/-- C107: the outputs are those of the streaming machine the rest of this model speaks of. -/
theorem C107_loop_is_run (m : Mealy S I O) (xs : List I) :
    forLoop m.step m.init xs = (m.run xs, m.stateAfter xs) := by
  rw [Mealy.run, Mealy.stateAfter]
  generalize m.init = s
  induction xs generalizing s with
  | nil => rfl
  | cons x xs ih => simp [forLoop, ih, Mealy.outsFrom, Mealy.stateFrom]

example : scanLoop (fun s x => (s + x, s + x)) 0 [1, 2, 3] = ([1, 3, 6], 6) := rfl

end

end Verif.Props
