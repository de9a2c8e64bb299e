import Verif.Model.Demos
import Verif.Props.Examples
import Verif.Props.Transforms

/-! # Properties C116–C119: the demonstration processors, predictors under streaming_optimizer, tree_lag -/

set_option linter.unusedSectionVars false
set_option linter.unusedSimpArgs false
set_option linter.unnecessarySeqFocus false

namespace Verif.Props
open Model Spec Lemmas Model.Examples Model.Demos Model.Transforms
variable {K : Type} [Field K] [LinearOrder K] [IsStrictOrderedRing K]

/-! ## C116: streaming_signal_processor -/

/-- The deviations fed to the volatility average. -/
def deviations (big : K) (xs : List (Fl K)) : List (Fl K) :=
  List.zipWith (fun p s => flAbs (p - s)) xs (((flaxEwma (cfg big (1 / 10))).run xs).map (·.value))

theorem deviations_snoc (big : K) (xs : List (Fl K)) (x : Fl K) :
    deviations big (xs ++ [x]) = deviations big xs ++
      [flAbs (x - ((flaxEwma (cfg big (1 / 10))).step ((flaxEwma (cfg big (1 / 10))).stateAfter xs) x).1.value)] := by
  unfold deviations
  rw [Mealy.run_append_singleton, List.map_append, List.zipWith_append (by simp)]
  rfl

theorem signal_state (tanh : K → K) (big : K) (xs : List (Fl K)) :
    (signalProcessor tanh big).stateAfter xs = ((circBuffer 10 (Fl.fin 0)).stateAfter xs,
      (flaxEwma (cfg big (3 / 10))).stateAfter xs, (flaxEwma (cfg big (1 / 10))).stateAfter xs,
      (flaxEwma (cfg big (2 / 10))).stateAfter (deviations big xs)) := by
  apply Mealy.stateAfter_eq _ _ rfl
  intro xs x
  simp only [deviations_snoc, Mealy.stateAfter_append_singleton]
  rfl

theorem deviations_fin (big : K) (ps : List K) (slow : Nat → K)
    (hs : ∀ i, i < ps.length → (((flaxEwma (cfg big (1 / 10))).run (ps.map Fl.fin)).map (·.value))[i]? = some (Fl.fin (slow i))) :
    deviations big (ps.map Fl.fin) = ((List.range ps.length).map fun i => |ps.getD i 0 - slow i|).map Fl.fin := by
  apply List.ext_getElem?
  intro i
  unfold deviations
  rw [List.getElem?_zipWith]
  by_cases hi : i < ps.length
  · rw [hs i hi]
    simp [flAbs, hi]
  · have : (ps.map Fl.fin)[i]? = none := List.getElem?_eq_none (by simp; omega)
    rw [this]
    symm
    simp
    omega

/-- C116: at every step, for any prices: `recent_prices` are the last ten (0 before the first price); `fast_ma` and `slow_ma` are the
exponentially weighted means of all prices so far with smoothing 0.3 and 0.1; `volatility` is the exponentially weighted mean, with
smoothing 0.2, of the distances of all prices so far from the slow mean of their own step, hence not negative; `momentum` is fast minus
slow, and `signal` is `tanh(momentum / (volatility + 1e-6))`. -/
theorem C116_signal_processor (tanh : K → K) (big : K) (ps : List K) (hps : ps.length < 2 ^ 31) :
    ∃ slow : Nat → K, (∀ i, i < ps.length → IsEma (1 / 10) (slow i) (ps.take (i + 1))) ∧ ∀ t (ht : t < ps.length), ∃ fast vol,
      IsEma (3 / 10) fast (ps.take (t + 1)) ∧
      IsEma (2 / 10) vol ((List.range (t + 1)).map fun i => |ps.getD i 0 - slow i|) ∧ 0 ≤ vol ∧
      ((signalProcessor tanh big).run (ps.map Fl.fin))[t]? = some
        { price := .fin ps[t]
          recent := window 10 (.fin 0) ((ps.take (t + 1)).map Fl.fin)
          fast := .fin fast
          slow := .fin (slow t)
          volatility := .fin vol
          momentum := .fin (fast - slow t)
          signal := .fin (tanh ((fast - slow t) / (vol + 1 / 10 ^ 6))) } := by
  have a1 : (0 : K) < 1 / 10 ∧ (1 : K) / 10 < 1 := by constructor <;> norm_num
  have a2 : (0 : K) < 2 / 10 ∧ (2 : K) / 10 < 1 := by constructor <;> norm_num
  have a3 : (0 : K) < 3 / 10 ∧ (3 : K) / 10 < 1 := by constructor <;> norm_num
  have hex : ∀ i, ∃ v : K, i < ps.length → (((flaxEwma (cfg big (1 / 10))).run (ps.map Fl.fin)).map (·.value))[i]? = some (Fl.fin v) ∧
      IsEma (1 / 10) v (ps.take (i + 1)) := by
    intro i
    by_cases hi : i < ps.length
    · obtain ⟨v, v1, v2, -⟩ := flax_ema_at big _ a1.1 a1.2 ps i hi
      exact ⟨v, fun _ => ⟨v1, v2⟩⟩
    · exact ⟨0, fun h => absurd h hi⟩
  choose slow hslow using hex
  refine ⟨slow, fun i hi => (hslow i hi).2, ?_⟩
  intro t ht
  have hx : ps.take (t + 1) = ps.take t ++ [ps[t]] := (List.take_append_getElem ht).symm
  have hsnoc : (ps.take t).map Fl.fin ++ [Fl.fin ps[t]] = (ps.take t ++ [ps[t]]).map Fl.fin := by
    rw [List.map_append]; rfl
  obtain ⟨f, f1, f2, -⟩ := ema_step big _ a3.1 a3.2 (ps.take t) ps[t]
  obtain ⟨s, s1, s2, -⟩ := ema_step big _ a1.1 a1.2 (ps.take t) ps[t]
  have hs : s = slow t := ema_unique s2 (hx ▸ (hslow t ht).2)
  subst hs
  have hlen : (ps.take (t + 1)).length = t + 1 := by simp; omega
  have htl : (ps.take t).length = t := by simp; omega
  have hdev : deviations big ((ps.take t).map Fl.fin) = ((List.range t).map fun i => |ps.getD i 0 - slow i|).map Fl.fin := by
    rw [deviations_fin big (ps.take t) slow, htl]
    · congr 1
      apply List.map_congr_left
      intro i hi
      rw [List.mem_range] at hi
      rw [List.getD_eq_getElem?_getD, List.getElem?_take, if_pos hi, List.getD_eq_getElem?_getD]
    · intro i hi
      rw [htl] at hi
      have := (hslow i (by omega)).1
      rw [List.getElem?_map] at this ⊢
      rw [List.map_take, ← Mealy.run_take, List.getElem?_take, if_pos hi, this]
  have hdl : (List.range (t + 1)).map (fun i => |ps.getD i 0 - slow i|) =
      (List.range t).map (fun i => |ps.getD i 0 - slow i|) ++ [|ps[t] - slow t|] := by
    rw [List.range_succ, List.map_append, List.map_cons, List.map_nil, List.getD_eq_getElem?_getD, List.getElem?_eq_getElem ht]
    rfl
  obtain ⟨v, v1, v2, v3⟩ := ema_step big _ a2.1 a2.2 ((List.range t).map fun i => |ps.getD i 0 - slow i|) |ps[t] - slow t|
  have hv0 : 0 ≤ v := by
    obtain ⟨hi, hhi⟩ : ∃ hi, ∀ q ∈ (List.range t).map (fun i => |ps.getD i 0 - slow i|) ++ [|ps[t] - slow t|], q ≤ hi := by
      generalize (List.range t).map (fun i => |ps.getD i 0 - slow i|) ++ [|ps[t] - slow t|] = l
      induction l with
      | nil => exact ⟨0, by simp⟩
      | cons a l ih =>
        obtain ⟨h, hh⟩ := ih
        refine ⟨max a h, ?_⟩
        intro q hq
        rcases List.mem_cons.mp hq with rfl | hq
        · exact le_max_left _ _
        · exact (hh q hq).trans (le_max_right _ _)
    refine (v3 0 hi fun q hq => ⟨?_, hhi q hq⟩).1
    rcases List.mem_append.mp hq with hq | hq
    · obtain ⟨i, _, rfl⟩ := List.mem_map.mp hq
      exact abs_nonneg _
    · rw [List.mem_singleton.mp hq]
      exact abs_nonneg _
  refine ⟨f, v, hx ▸ f2, hdl ▸ v2, hv0, ?_⟩
  rw [Mealy.run, Mealy.outsFrom_getElem?, List.getElem?_map, List.getElem?_eq_getElem ht]
  simp only [Option.map_some, Option.some.injEq]
  have hst := signal_state tanh big ((ps.take t).map Fl.fin)
  rw [Mealy.stateAfter] at hst
  rw [← List.map_take, hst, hdev]
  have hb := circ_step_out 10 (by omega) (by norm_num) (Fl.fin (0 : K)) ((ps.take t).map Fl.fin) (Fl.fin ps[t]) (by simp; omega)
  rw [hsnoc, ← hx] at hb
  have hne : v + 1 / 10 ^ 6 ≠ 0 := by positivity
  simp only [signalProcessor, hb, f1, s1, Fl.fin_sub, flAbs, v1, Fl.fin_add, Fl.fin_div_of_ne _ hne, flTanh]

/-- C116: whatever the prices, including missing and infinite ones, the signal is in [-1, 1] or NaN, provided `tanh` is. -/
theorem C116_signal_bounded (tanh : K → K) (ht : ∀ x, |tanh x| ≤ 1) (big : K) (xs : List (Fl K)) (o : Signals K)
    (ho : o ∈ (signalProcessor tanh big).run xs) : o.signal = .nan ∨ ∃ s, o.signal = .fin s ∧ |s| ≤ 1 := by
  rw [Mealy.run] at ho
  obtain ⟨t, h⟩ := List.mem_iff_getElem?.mp ho
  rw [Mealy.outsFrom_getElem?] at h
  obtain ⟨x, -, rfl⟩ := Option.map_eq_some_iff.mp h
  simp only [signalProcessor]
  generalize (_ : Fl K) / _ = z
  cases z <;> simp [flTanh, ht]

/-- C116: while the price has not moved there is no momentum: the signal is `tanh 0`. -/
theorem C116_signal_constant (tanh : K → K) (big : K) (p : K) (n t : Nat) (hn : n < 2 ^ 31) (ht : t < n) :
    ∃ o, ((signalProcessor tanh big).run (List.replicate n (Fl.fin p)))[t]? = some o ∧ o.fast = .fin p ∧ o.slow = .fin p ∧
      o.volatility = .fin 0 ∧ o.momentum = .fin 0 ∧ o.signal = .fin (tanh 0) := by
  have e1 : ∀ (α : K) (_ : 0 < α) (_ : α < 1) (q : K) (m : Nat) (v : K), IsEma α v (List.replicate (m + 1) q) → v = q := by
    intro α h0 h1 q m v hv
    obtain ⟨w, -, w2, w3⟩ := ema_step big α h0 h1 (List.replicate m q) q
    rw [← List.replicate_succ'] at w2 w3
    obtain ⟨l, r⟩ := w3 q q (fun x hx => by rw [List.eq_of_mem_replicate hx]; simp)
    rw [ema_unique hv w2]
    exact le_antisymm r l
  have a1 : (0 : K) < 1 / 10 ∧ (1 : K) / 10 < 1 := by constructor <;> norm_num
  have a2 : (0 : K) < 2 / 10 ∧ (2 : K) / 10 < 1 := by constructor <;> norm_num
  have a3 : (0 : K) < 3 / 10 ∧ (3 : K) / 10 < 1 := by constructor <;> norm_num
  obtain ⟨slow, h1, h2⟩ := C116_signal_processor tanh big (List.replicate n p) (by simpa using hn)
  have hslow : ∀ i, i < n → slow i = p := by
    intro i hi
    have := h1 i (by simpa using hi)
    rw [List.take_replicate, min_eq_left (by omega)] at this
    exact e1 _ a1.1 a1.2 _ _ _ this
  obtain ⟨f, v, f1, v1, -, h⟩ := h2 t (by simpa using ht)
  rw [List.take_replicate, min_eq_left (by omega)] at f1
  have hf := e1 _ a3.1 a3.2 _ _ _ f1
  have hd : (List.range (t + 1)).map (fun i => |(List.replicate n p).getD i 0 - slow i|) = List.replicate (t + 1) 0 := by
    apply List.eq_replicate_iff.mpr
    refine ⟨by simp, ?_⟩
    intro b hb
    obtain ⟨i, hi, rfl⟩ := List.mem_map.mp hb
    rw [List.mem_range] at hi
    rw [hslow i (by omega), List.getD_eq_getElem?_getD, List.getElem?_replicate, if_pos (by omega)]
    simp
  rw [hd] at v1
  have hv := e1 _ a2.1 a2.2 _ _ _ v1
  rw [List.map_replicate] at h
  exact ⟨_, h, by rw [hf], by rw [hslow t ht], by rw [hv], by rw [hf, hslow t ht, sub_self], by rw [hf, hslow t ht, sub_self, zero_div]⟩

example : ((signalProcessor (fun x : ℚ => x) 1000).run [.fin 2, .fin 3]).map (fun o => (o.fast, o.slow, o.volatility, o.momentum)) =
    [(.fin 2, .fin 2, .fin 0, .fin 0), (.fin (44 / 17), .fin (48 / 19), .fin (5 / 19), .fin (20 / 323))] := by decide +kernel

/-! ## C117: the buffer statistics of the scan demos -/

theorem smoother_state (root : K → K) (big : K) (n : Nat) (α : K) (xs : List (Fl K)) :
    (smoother root big n α).stateAfter xs = ((circBuffer n (Fl.fin 0)).stateAfter xs, (flaxEwma (cfg big α)).stateAfter xs) := by
  apply Mealy.stateAfter_eq _ _ rfl
  intro xs x
  rw [Mealy.stateAfter_append_singleton, Mealy.stateAfter_append_singleton]
  rfl

theorem baseline_state (root tanh : K → K) (big : K) (xs : List (Fl K)) :
    (baseline root tanh big).stateAfter xs = ((flaxEwma (cfg big (2 / 10))).stateAfter xs, (circBuffer 5 (Fl.fin 100)).stateAfter xs) := by
  apply Mealy.stateAfter_eq _ _ rfl
  intro xs x
  rw [Mealy.stateAfter_append_singleton, Mealy.stateAfter_append_singleton]
  rfl

theorem window_fin (n : Nat) (fill : K) (ps : List K) : window n (Fl.fin fill) (ps.map Fl.fin) = (window n fill ps).map Fl.fin := by
  simp [window, List.map_drop]

theorem window_zero_sum (n : Nat) (ps : List K) : (window n 0 ps).sum = (recent n ps).sum := by
  simp [window, recent]

/-- C117: `streaming_processor` and `simple_processor`: the smoothed price is the exponentially weighted mean of all prices so far;
`buffer_mean` is the sum of the last `n` prices divided by `n` (not by their number, as long as there are fewer: the buffer starts filled
with zeros), and `buffer_std` the standard deviation of the last `n` prices preceded by zeros. -/
theorem C117_smoother (root : K → K) (hr : IsRoot root) (big : K) (n : Nat) (hn : 0 < n) (hn2 : n ≤ 2 ^ 30) (α : K) (h0 : 0 < α)
    (h1 : α < 1) (ps : List K) (hps : ps.length < 2 ^ 31) (t : Nat) (ht : t < ps.length) :
    ∃ sm std, IsEma α sm (ps.take (t + 1)) ∧
      IsStd std (List.replicate (n - (t + 1)) 0 ++ recent n (ps.take (t + 1))) ∧
      ((smoother root big n α).run (ps.map Fl.fin))[t]? = some
        ⟨.fin ps[t], .fin sm, .fin ((recent n (ps.take (t + 1))).sum / (n : K)), .fin std⟩ := by
  have hx : ps.take (t + 1) = ps.take t ++ [ps[t]] := (List.take_append_getElem ht).symm
  have hsnoc : (ps.take t).map Fl.fin ++ [Fl.fin ps[t]] = (ps.take t ++ [ps[t]]).map Fl.fin := by
    rw [List.map_append]; rfl
  obtain ⟨c, c1, c2, -⟩ := ema_step big _ h0 h1 (ps.take t) ps[t]
  have hlen : (window n (0 : K) (ps.take (t + 1))).length = n := window_length _ _ _
  have hne : window n (0 : K) (ps.take (t + 1)) ≠ [] := by
    intro h; rw [h] at hlen; simp at hlen; omega
  obtain ⟨s, s1, s2⟩ := flStd_fin root hr _ hne
  have hl : (ps.take (t + 1)).length = t + 1 := by simp; omega
  refine ⟨c, s, hx ▸ c2, ?_, ?_⟩
  · rw [window, hl] at s2
    rwa [recent, hl]
  rw [Mealy.run, Mealy.outsFrom_getElem?, List.getElem?_map, List.getElem?_eq_getElem ht]
  simp only [Option.map_some, Option.some.injEq]
  have hst := smoother_state root big n α ((ps.take t).map Fl.fin)
  rw [Mealy.stateAfter] at hst
  rw [← List.map_take, hst]
  have hb := circ_step_out n hn hn2 (Fl.fin (0 : K)) ((ps.take t).map Fl.fin) (Fl.fin ps[t]) (by simp; omega)
  rw [hsnoc, ← hx, window_fin] at hb
  simp only [smoother, hb, c1, s1, flMean_fin _ hne, mean, hlen, window_zero_sum]

/-- C117: the bias of the zero filling: while fewer than `n` prices `p` arrived, `buffer_mean` is `p·(t+1)/n`. -/
theorem C117_smoother_warmup (root : K → K) (hr : IsRoot root) (big : K) (n : Nat) (hn2 : n ≤ 2 ^ 30) (α : K) (h0 : 0 < α)
    (h1 : α < 1) (p : K) (m t : Nat) (hm : m < 2 ^ 31) (ht : t < m) (htn : t + 1 ≤ n) :
    ∃ o, ((smoother root big n α).run (List.replicate m (Fl.fin p)))[t]? = some o ∧ o.mean = .fin (((t : K) + 1) * p / (n : K)) := by
  obtain ⟨sm, std, -, -, h⟩ := C117_smoother root hr big n (by omega) hn2 α h0 h1 (List.replicate m p) (by simpa using hm) t (by simpa using ht)
  rw [List.map_replicate] at h
  refine ⟨_, h, ?_⟩
  change Fl.fin (_ / _) = _
  have : (recent n (List.take (t + 1) (List.replicate m p))).sum = ((t : K) + 1) * p := by
    rw [List.take_replicate, min_eq_left (by omega), recent, List.length_replicate, Nat.sub_eq_zero_of_le htn, List.drop_zero,
      List.sum_replicate, nsmul_eq_mul]
    push_cast
    rfl
  rw [this]

/-- C117: `always_updating_baseline` (and `high_price_signal` on its own events): the volatility is the standard deviation of the last
five prices, the missing ones counting as 100; the signal is `tanh` of the distance from the mean in these units. -/
theorem C117_baseline (root tanh : K → K) (hr : IsRoot root) (big : K) (ps : List K) (hps : ps.length < 2 ^ 31) (t : Nat)
    (ht : t < ps.length) :
    ∃ sm vol, IsEma (2 / 10) sm (ps.take (t + 1)) ∧
      IsStd vol (List.replicate (5 - (t + 1)) 100 ++ recent 5 (ps.take (t + 1))) ∧
      ((baseline root tanh big).run (ps.map Fl.fin))[t]? = some
        ⟨.fin ps[t], .fin sm, .fin (tanh ((ps[t] - sm) / (vol + 1 / 10 ^ 6))), .fin vol⟩ := by
  have a2 : (0 : K) < 2 / 10 ∧ (2 : K) / 10 < 1 := by constructor <;> norm_num
  have hx : ps.take (t + 1) = ps.take t ++ [ps[t]] := (List.take_append_getElem ht).symm
  have hsnoc : (ps.take t).map Fl.fin ++ [Fl.fin ps[t]] = (ps.take t ++ [ps[t]]).map Fl.fin := by
    rw [List.map_append]; rfl
  obtain ⟨c, c1, c2, -⟩ := ema_step big _ a2.1 a2.2 (ps.take t) ps[t]
  have hlen : (window 5 (100 : K) (ps.take (t + 1))).length = 5 := window_length _ _ _
  have hne : window 5 (100 : K) (ps.take (t + 1)) ≠ [] := by
    intro h; rw [h] at hlen; simp at hlen
  obtain ⟨s, s1, s2⟩ := flStd_fin root hr _ hne
  have hl : (ps.take (t + 1)).length = t + 1 := by simp; omega
  have hs0 := s2.1
  refine ⟨c, s, hx ▸ c2, ?_, ?_⟩
  · rw [window, hl] at s2
    rwa [recent, hl]
  rw [Mealy.run, Mealy.outsFrom_getElem?, List.getElem?_map, List.getElem?_eq_getElem ht]
  simp only [Option.map_some, Option.some.injEq]
  have hst := baseline_state root tanh big ((ps.take t).map Fl.fin)
  rw [Mealy.stateAfter] at hst
  rw [← List.map_take, hst]
  have hb := circ_step_out 5 (by omega) (by norm_num) (Fl.fin (100 : K)) ((ps.take t).map Fl.fin) (Fl.fin ps[t]) (by simp; omega)
  rw [hsnoc, ← hx, window_fin] at hb
  have hne : s + 1 / 10 ^ 6 ≠ 0 := by positivity
  simp only [baseline, hb, c1, s1, Fl.fin_sub, Fl.fin_add, Fl.fin_div_of_ne _ hne, flTanh]

example : ((smoother exRoot 1000 3 (1 / 2)).run [.fin 3, .fin 3, .fin 3]).map (·.mean) = [.fin 1, .fin 2, .fin (3 : ℚ)] := by decide +kernel

/-! ## C118: the predictors under streaming_optimizer -/

/-- C118: `adaptive_price_predictor`: whatever the targets, the optimiser, the loss and what was learnt, the prediction at every step is
1.1 times the exponentially weighted mean (smoothing 0.1) of the features so far. -/
theorem C118_adaptive_prediction {O : Type} (grad : (K → K) → K → K) (opt : ScalarOpt O K) (loss : Fl K → Fl K → K) (mul : Fl K → K → Fl K)
    (big : K) (fs : List K) (targets : List (Fl K)) (hl : targets.length = fs.length) (t : Nat) (ht : t < fs.length) :
    ∃ o v, ((streamingOptimizer grad opt loss mul (priceModel big)).run
        (List.zipWith (fun f y => (Fl.fin f, [y])) fs targets))[t]? = some o ∧
      o.1.2.1 = .fin (v * (11 / 10)) ∧ IsEma (1 / 10) v (fs.take (t + 1)) := by
  have a1 : (0 : K) < 1 / 10 ∧ (1 : K) / 10 < 1 := by constructor <;> norm_num
  set xs := List.zipWith (fun f y => (Fl.fin f, [y])) fs targets with hxs
  have hxl : xs.length = fs.length := by rw [hxs, List.length_zipWith, hl, min_self]
  have hfst : xs.map Prod.fst = fs.map Fl.fin := by
    rw [hxs]
    clear hxl hxs xs ht t
    induction fs generalizing targets with
    | nil => rfl
    | cons f fs ih =>
      cases targets with
      | nil => simp at hl
      | cons y ys => simp [ih ys (by simpa using hl)]
  have hrun : (priceModel big).run xs = ((flaxEwma (cfg big (1 / 10))).run (xs.map Prod.fst)).map
      fun o => (o.value * Fl.fin (11 / 10), ()) := by
    have gen : ∀ (l : List (Fl K × List (Fl K))) (s : EWMAState K), (priceModel big).outsFrom s l =
        ((flaxEwma (cfg big (1 / 10))).outsFrom s (l.map Prod.fst)).map fun o => (o.value * Fl.fin (11 / 10), ()) := by
      intro l
      induction l with
      | nil => intro s; rfl
      | cons a l ih => intro s; simp only [Mealy.outsFrom_cons, List.map_cons, ih]; rfl
    exact gen xs _
  obtain ⟨v, v1, v2, -⟩ := flax_ema_at big _ a1.1 a1.2 fs t ht
  obtain ⟨s, o, -, -, h⟩ := C91_replay grad opt loss mul (priceModel big) xs
  have hm : ((priceModel big).run xs)[t]? = some (Fl.fin (v * (11 / 10)), ()) := by
    rw [hrun, hfst, List.getElem?_map]
    rw [List.getElem?_map] at v1
    obtain ⟨e, e1, e2⟩ := Option.map_eq_some_iff.mp v1
    rw [e1, Option.map_some, e2, Fl.fin_mul]
  exact ⟨_, v, (h t (by omega) _ _ hm).1, rfl, v2⟩

/-- C118: `ensemble_predictor`: whatever the targets, the optimiser, the loss and what was learnt, the prediction at every step is the mean
of 1.05 times the exponentially weighted mean of the prices (smoothing 0.2) and 0.001 times that of the volumes (smoothing 0.15), and the
auxiliary output shows these components. -/
theorem C118_ensemble_prediction {O : Type} (grad : (K → K) → K → K) (opt : ScalarOpt O K) (loss : Fl K → Fl K → K)
    (mul : Fl K → K → Fl K) (big : K) (pv : List (K × K)) (targets : List (List (Fl K))) (hl : targets.length = pv.length) (t : Nat)
    (ht : t < pv.length) :
    ∃ o p v, ((streamingOptimizer grad opt loss mul (ensembleModel big)).run
        (List.zipWith (fun a y => (Fl.fin a.1, Fl.fin a.2 :: y)) pv targets))[t]? = some o ∧
      o.1.2.1 = .fin ((p * (105 / 100) + v * (1 / 1000)) / 2) ∧
      o.1.2.2 = (.fin (p * (105 / 100)), .fin (v * (1 / 1000)), .fin p, .fin v) ∧
      IsEma (2 / 10) p ((pv.map Prod.fst).take (t + 1)) ∧ IsEma (15 / 100) v ((pv.map Prod.snd).take (t + 1)) := by
  have a1 : (0 : K) < 2 / 10 ∧ (2 : K) / 10 < 1 := by constructor <;> norm_num
  have a2 : (0 : K) < 15 / 100 ∧ (15 : K) / 100 < 1 := by constructor <;> norm_num
  set xs := List.zipWith (fun a y => (Fl.fin a.1, Fl.fin a.2 :: y)) pv targets with hxs
  have hxl : xs.length = pv.length := by rw [hxs, List.length_zipWith, hl, min_self]
  have hrun : ∀ (pv : List (K × K)) (targets : List (List (Fl K))), targets.length = pv.length →
      ∀ (s : EWMAState K × EWMAState K),
      (ensembleModel big).outsFrom s (List.zipWith (fun a y => (Fl.fin a.1, Fl.fin a.2 :: y)) pv targets) =
        List.zipWith (fun p v => ((p * Fl.fin (105 / 100) + v * Fl.fin (1 / 1000)) / Fl.fin 2,
          (p * Fl.fin (105 / 100), v * Fl.fin (1 / 1000), p, v)))
          (((flaxEwma (cfg big (2 / 10))).outsFrom s.1 ((pv.map Prod.fst).map Fl.fin)).map (·.value))
          (((flaxEwma (cfg big (15 / 100))).outsFrom s.2 ((pv.map Prod.snd).map Fl.fin)).map (·.value)) := by
    intro pv
    induction pv with
    | nil => intro targets _ s; simp [Mealy.outsFrom]
    | cons a pv ih =>
      intro targets hl s
      cases targets with
      | nil => simp at hl
      | cons y ys =>
        simp only [List.zipWith_cons_cons, Mealy.outsFrom_cons, List.map_cons]
        rw [ih ys (by simpa using hl)]
        rfl
  obtain ⟨p, p1, p2, -⟩ := flax_ema_at big _ a1.1 a1.2 (pv.map Prod.fst) t (by simpa using ht)
  obtain ⟨v, v1, v2, -⟩ := flax_ema_at big _ a2.1 a2.2 (pv.map Prod.snd) t (by simpa using ht)
  obtain ⟨s, o, -, -, h⟩ := C91_replay grad opt loss mul (ensembleModel big) xs
  have hm : ((ensembleModel big).run xs)[t]? = some (Fl.fin ((p * (105 / 100) + v * (1 / 1000)) / 2),
      (Fl.fin (p * (105 / 100)), Fl.fin (v * (1 / 1000)), Fl.fin p, Fl.fin v)) := by
    rw [Mealy.run, hxs, hrun pv targets hl, List.getElem?_zipWith]
    rw [Mealy.run] at p1 v1
    have e1 : (ensembleModel big).init.1 = (flaxEwma (cfg big (2 / 10))).init := rfl
    have e2 : (ensembleModel big).init.2 = (flaxEwma (cfg big (15 / 100))).init := rfl
    rw [e1, e2, p1, v1]
    have h2 : (2 : K) ≠ 0 := by norm_num
    simp [Fl.fin_mul, Fl.fin_add, Fl.fin_div, h2]
  exact ⟨_, p, v, (h t (by omega) _ _ hm).1, rfl, rfl, p2, v2⟩

/-- C118: `ensemble_predictor(price, volume, target)`: the target is never looked at: loss, prediction, components and learnt scale are the
same for all targets (the volume is what the loss is computed with). -/
theorem C118_ensemble_ignores_target {O : Type} (grad : (K → K) → K → K) (opt : ScalarOpt O K) (loss : Fl K → Fl K → K)
    (mul : Fl K → K → Fl K) (big : K) (pv : List (Fl K × Fl K)) (ys zs : List (Fl K)) (hy : ys.length = pv.length)
    (hz : zs.length = pv.length) :
    (streamingOptimizer grad opt loss mul (ensembleModel big)).run (List.zipWith (fun a y => (a.1, [a.2, y])) pv ys) =
      (streamingOptimizer grad opt loss mul (ensembleModel big)).run (List.zipWith (fun a y => (a.1, [a.2, y])) pv zs) := by
  simp only [Mealy.run]
  generalize (streamingOptimizer grad opt loss mul (ensembleModel big)).init = s
  induction pv generalizing ys zs s with
  | nil => simp
  | cons a pv ih =>
    cases ys with
    | nil => simp at hy
    | cons y ys =>
      cases zs with
      | nil => simp at hz
      | cons z zs =>
        simp only [List.zipWith_cons_cons, Mealy.outsFrom_cons]
        rw [ih ys zs (by simpa using hy) (by simpa using hz)]
        rfl

example : ((streamingOptimizer (K := ℚ) (fun _ _ => 1) (plainSgd 1) (fun _ _ => 0) (fun y _ => y) (priceModel (1000 : ℚ))).run
    [(.fin 2, [.fin 7])]).map (fun o => o.1.2.1) = [.fin (11 / 5 : ℚ)] := by decide +kernel

/-! ## C119: tree_lag -/

section TreeLag
variable {S V O W : Type}

mutual
/-- The leaves of a tree, in order. -/
def PyTree_leaves : PyTree V → List V
  | .none => []
  | .leaf v => [v]
  | .node ts => PyTree_leavesL ts
/-- The leaves of several trees. -/
def PyTree_leavesL : List (PyTree V) → List V
  | [] => []
  | t :: ts => PyTree_leaves t ++ PyTree_leavesL ts
end

mutual
/-- The structure of a tree: its containers and the places of its leaves. -/
def PyTree_shape : PyTree V → PyTree Unit
  | .none => .none
  | .leaf _ => .leaf ()
  | .node ts => .node (PyTree_shapeL ts)
/-- The structures of several trees. -/
def PyTree_shapeL : List (PyTree V) → List (PyTree Unit)
  | [] => []
  | t :: ts => PyTree_shape t :: PyTree_shapeL ts
end

mutual
theorem leaves_shape : ∀ t : PyTree V, PyTree_leaves (PyTree_shape t) = (PyTree_leaves t).map fun _ => ()
  | .none => rfl
  | .leaf _ => rfl
  | .node ts => by rw [PyTree_shape, PyTree_leaves, PyTree_leaves, leavesL_shape ts]
theorem leavesL_shape : ∀ ts : List (PyTree V), PyTree_leavesL (PyTree_shapeL ts) = (PyTree_leavesL ts).map fun _ => ()
  | [] => rfl
  | t :: ts => by rw [PyTree_shapeL, PyTree_leavesL, PyTree_leavesL, leaves_shape t, leavesL_shape ts, List.map_append]
end

theorem leaves_length {t : PyTree V} {t' : PyTree W} (h : PyTree_shape t = PyTree_shape t') :
    (PyTree_leaves t).length = (PyTree_leaves t').length := by
  have := congrArg (fun x => (PyTree_leaves x).length) h
  simpa [leaves_shape] using this

/-- What one call does, leaf by leaf. -/
def TreeStep (lag : Mealy S V O) (vs : List V) (ss : List S) (out : List O) (written rest : List S) : Prop :=
  (∀ k, out[k]? = vs[k]?.map fun v => (lag.step (ss.getD k lag.init) v).1) ∧
  (∀ k, written[k]? = vs[k]?.map fun v => (lag.step (ss.getD k lag.init) v).2) ∧ rest = ss.drop vs.length

mutual
theorem treeLag_step (lag : Mealy S V O) : ∀ (t : PyTree V) (ss : List S), PyTree_shape (treeLag lag t ss).1 = PyTree_shape t ∧
    TreeStep lag (PyTree_leaves t) ss (PyTree_leaves (treeLag lag t ss).1) (treeLag lag t ss).2.1 (treeLag lag t ss).2.2
  | .none, ss => ⟨rfl, by simp [TreeStep, treeLag, PyTree_leaves]⟩
  | .leaf v, ss => by
    refine ⟨rfl, ?_, ?_, ?_⟩
    · intro k
      cases k with
      | zero => simp [treeLag, PyTree_leaves, List.getD_eq_getElem?_getD, List.head?_eq_getElem?]
      | succ k => simp [treeLag, PyTree_leaves]
    · intro k
      cases k with
      | zero => simp [treeLag, PyTree_leaves, List.getD_eq_getElem?_getD, List.head?_eq_getElem?]
      | succ k => simp [treeLag, PyTree_leaves]
    · simp [treeLag, PyTree_leaves]
  | .node ts, ss => by
    obtain ⟨h1, h2⟩ := treeLag_go lag ts ss
    refine ⟨?_, ?_⟩
    · simp only [treeLag, PyTree_shape]
      rw [h1]
    · simpa only [treeLag, PyTree_leaves] using h2
theorem treeLag_go (lag : Mealy S V O) : ∀ (ts : List (PyTree V)) (ss : List S),
    PyTree_shapeL (treeLag.go lag ts ss).1 = PyTree_shapeL ts ∧
    TreeStep lag (PyTree_leavesL ts) ss (PyTree_leavesL (treeLag.go lag ts ss).1) (treeLag.go lag ts ss).2.1 (treeLag.go lag ts ss).2.2
  | [], ss => ⟨rfl, by simp [TreeStep, treeLag.go, PyTree_leavesL]⟩
  | t :: ts, ss => by
    obtain ⟨h1, a1, a2, a3⟩ := treeLag_step lag t ss
    obtain ⟨h2, b1, b2, b3⟩ := treeLag_go lag ts (treeLag lag t ss).2.2
    have hl : (PyTree_leaves (treeLag lag t ss).1).length = (PyTree_leaves t).length := leaves_length h1
    have hl2 : (treeLag lag t ss).2.1.length = (PyTree_leaves t).length := by
      apply Nat.le_antisymm
      · by_contra h
        have := a2 (PyTree_leaves t).length
        rw [List.getElem?_eq_none (Nat.le_refl _), Option.map_none, List.getElem?_eq_none_iff] at this
        omega
      · by_contra h
        have := a2 (treeLag lag t ss).2.1.length
        rw [List.getElem?_eq_none (Nat.le_refl _), List.getElem?_eq_getElem (by omega)] at this
        simp at this
    have hd : ∀ k, (PyTree_leaves t).length ≤ k →
        (treeLag lag t ss).2.2.getD (k - (PyTree_leaves t).length) lag.init = ss.getD k lag.init := by
      intro k hk
      rw [a3, List.getD_eq_getElem?_getD, List.getElem?_drop, List.getD_eq_getElem?_getD]
      congr 2
      omega
    refine ⟨by simp only [treeLag.go, PyTree_shapeL, h1, h2], ?_, ?_, ?_⟩
    · intro k
      simp only [treeLag.go, PyTree_leavesL]
      by_cases hk : k < (PyTree_leaves t).length
      · rw [List.getElem?_append_left (by omega), List.getElem?_append_left hk, a1]
      · rw [List.getElem?_append_right (by omega), List.getElem?_append_right (by omega), hl, b1, hd k (by omega)]
    · intro k
      simp only [treeLag.go, PyTree_leavesL]
      by_cases hk : k < (PyTree_leaves t).length
      · rw [List.getElem?_append_left (by omega), List.getElem?_append_left hk, a2]
      · rw [List.getElem?_append_right (by omega), List.getElem?_append_right (by omega), hl2, b2, hd k (by omega)]
    · simp only [treeLag.go, PyTree_leavesL]
      rw [b3, a3, List.drop_drop, List.length_append]
end

/-- The values of leaf `k` in successive calls. -/
def leafSeries (k : Nat) (xs : List (List (PyTree V))) : List V := xs.filterMap fun a => (PyTree_leaves (.node a))[k]?

theorem treeLag_state (lag : Mealy S V O) (shp : PyTree Unit) (xs : List (List (PyTree V)))
    (hx : ∀ a ∈ xs, PyTree_shape (.node a) = shp) (k : Nat) (hk : k < (PyTree_leaves shp).length) :
    ((treeLagMachine lag).stateAfter xs).getD k lag.init = lag.stateAfter (leafSeries k xs) := by
  induction xs using List.reverseRecOn with
  | nil => rfl
  | append_singleton xs a ih =>
    have ih := ih fun b hb => hx b (List.mem_append_left _ hb)
    have ha := hx a (by simp)
    have hlen : (PyTree_leaves (.node a)).length = (PyTree_leaves shp).length := by
      rw [← ha, leaves_shape, List.length_map]
    obtain ⟨-, -, w, r⟩ := treeLag_step lag (.node a) ((treeLagMachine lag).stateAfter xs)
    have hw := w k
    have hka : (PyTree_leaves (.node a))[k]? = some ((PyTree_leaves (.node a))[k]'(by omega)) := List.getElem?_eq_getElem _
    rw [hka, Option.map_some] at hw
    have hser : leafSeries k (xs ++ [a]) = leafSeries k xs ++ [(PyTree_leaves (.node a))[k]] := by
      unfold leafSeries
      rw [List.filterMap_append, List.filterMap_cons, List.getElem?_eq_getElem (by omega)]
      rfl
    rw [hser, Mealy.stateAfter_append_singleton, Mealy.stateAfter_append_singleton, ← ih]
    simp only [treeLagMachine]
    have hwl : k < (treeLag lag (.node a) ((treeLagMachine lag).stateAfter xs)).2.1.length := by
      exact (List.getElem?_eq_some_iff.mp hw).1
    rw [List.getD_eq_getElem?_getD]
    change ((treeLag lag (.node a) ((treeLagMachine lag).stateAfter xs)).2.1 ++ _)[k]?.getD _ = _
    rw [List.getElem?_append_left hwl, hw]
    rfl

/-- C119, for any delay module: on successive arguments of the same structure, `tree_lag` returns trees of this structure whose leaf `k`
is what the module alone would return on the values of leaf `k`. -/
theorem C119_tree_lag_leafwise (lag : Mealy S V O) (shp : PyTree Unit) (xs : List (List (PyTree V)))
    (hx : ∀ a ∈ xs, PyTree_shape (.node a) = shp) (t : Nat) (ht : t < xs.length) :
    ∃ out, ((treeLagMachine lag).run xs)[t]? = some out ∧ PyTree_shape out = shp ∧
      ∀ k, k < (PyTree_leaves shp).length → (PyTree_leaves out)[k]? = (lag.run (leafSeries k xs))[t]? := by
  obtain ⟨h1, h2, -, -⟩ := treeLag_step lag (.node xs[t]) ((treeLagMachine lag).stateAfter (xs.take t))
  refine ⟨_, ?_, h1.trans (hx _ (List.getElem_mem ht)), ?_⟩
  · rw [Mealy.run, Mealy.outsFrom_getElem?, List.getElem?_eq_getElem ht]
    rfl
  · intro k hk
    have hall : ∀ a ∈ xs, k < (PyTree_leaves (.node a)).length := by
      intro a ha
      have := congrArg (fun x => (PyTree_leaves x).length) (hx a ha)
      simp only [leaves_shape, List.length_map] at this
      omega
    have hser : ∀ l : List (List (PyTree V)), (∀ a ∈ l, k < (PyTree_leaves (.node a)).length) → ∀ i : Nat,
        (leafSeries k l)[i]? = l[i]?.bind fun a => (PyTree_leaves (.node a))[k]? := by
      intro l
      induction l with
      | nil => intro _ i; simp [leafSeries]
      | cons a l ih =>
        intro hl i
        have ha := hl a List.mem_cons_self
        have : leafSeries k (a :: l) = (PyTree_leaves (.node a))[k] :: leafSeries k l := by
          unfold leafSeries
          rw [List.filterMap_cons, List.getElem?_eq_getElem ha]
        rw [this]
        cases i with
        | zero => simp [ha]
        | succ i => simpa using ih (fun b hb => hl b (List.mem_cons_of_mem _ hb)) i
    have htake : ∀ l : List (List (PyTree V)), (∀ a ∈ l, k < (PyTree_leaves (.node a)).length) → ∀ i : Nat,
        (leafSeries k l).take i = leafSeries k (l.take i) := by
      intro l hl i
      apply List.ext_getElem?
      intro j
      rw [List.getElem?_take, hser l hl, hser _ (fun a ha => hl a (List.mem_of_mem_take ha)), List.getElem?_take]
      split <;> simp
    rw [h2, Mealy.run, Mealy.outsFrom_getElem?, hser xs hall, List.getElem?_eq_getElem ht, Option.bind_some, htake xs hall,
      treeLag_state lag shp (xs.take t) (fun a ha => hx a (List.mem_of_mem_take ha)) k hk]
    rfl

theorem leafSeries_get (k : Nat) (xs : List (List (PyTree V))) (hx : ∀ a ∈ xs, k < (PyTree_leaves (.node a)).length) (i : Nat) :
    (leafSeries k xs)[i]? = xs[i]?.bind fun a => (PyTree_leaves (.node a))[k]? := by
  induction xs generalizing i with
  | nil => simp [leafSeries]
  | cons a l ih =>
    have ha := hx a List.mem_cons_self
    have : leafSeries k (a :: l) = (PyTree_leaves (.node a))[k] :: leafSeries k l := by
      unfold leafSeries
      rw [List.filterMap_cons, List.getElem?_eq_getElem ha]
    rw [this]
    cases i with
    | zero => simp [ha]
    | succ i => simpa using ih (fun b hb => hx b (List.mem_cons_of_mem _ hb)) i

theorem leafSeries_length (k : Nat) (xs : List (List (PyTree V))) (hx : ∀ a ∈ xs, k < (PyTree_leaves (.node a)).length) :
    (leafSeries k xs).length = xs.length := by
  induction xs with
  | nil => rfl
  | cons a l ih =>
    have ha := hx a List.mem_cons_self
    have : leafSeries k (a :: l) = (PyTree_leaves (.node a))[k] :: leafSeries k l := by
      unfold leafSeries
      rw [List.filterMap_cons, List.getElem?_eq_getElem ha]
    rw [this, List.length_cons, ih fun b hb => hx b (List.mem_cons_of_mem _ hb), List.length_cons]

/-- C119: `tree_lag(shift)` on arguments of a fixed structure: the result at step `t` is the arguments of step `t - shift`, leaf by leaf and
in the same structure (`None` stays `None`), and the fill value in every leaf before. -/
theorem C119_tree_lag (shift : Nat) (fill : V) (shp : PyTree Unit) (xs : List (List (PyTree V)))
    (hx : ∀ a ∈ xs, PyTree_shape (.node a) = shp) (t : Nat) (ht : t < xs.length) :
    ∃ out, ((treeLagMachine (lag shift fill)).run xs)[t]? = some out ∧ PyTree_shape out = shp ∧
      PyTree_leaves out = if shift ≤ t then (PyTree_leaves (.node (xs[t - shift]'(by omega)))).map some
        else (PyTree_leaves (.node xs[t])).map fun _ => some fill := by
  obtain ⟨out, h1, h2, h3⟩ := C119_tree_lag_leafwise (lag shift fill) shp xs hx t ht
  refine ⟨out, h1, h2, ?_⟩
  have hn : ∀ a ∈ xs, (PyTree_leaves (.node a)).length = (PyTree_leaves shp).length := by
    intro a ha
    rw [← hx a ha, leaves_shape, List.length_map]
  have ho : (PyTree_leaves out).length = (PyTree_leaves shp).length := by
    rw [← h2, leaves_shape, List.length_map]
  apply List.ext_getElem?
  intro k
  by_cases hk : k < (PyTree_leaves shp).length
  · have hall : ∀ a ∈ xs, k < (PyTree_leaves (.node a)).length := fun a ha => by rw [hn a ha]; exact hk
    rw [h3 k hk, C03_lag_positions shift fill _ t (by rw [leafSeries_length k xs hall]; exact ht)]
    split
    · have := hn _ (List.getElem_mem (by omega : t - shift < xs.length))
      rw [leafSeries_get k xs hall, List.getElem?_eq_getElem (by omega : t - shift < xs.length), Option.bind_some, List.getElem?_map,
        List.getElem?_eq_getElem (by omega)]
      rfl
    · have := hn _ (List.getElem_mem ht)
      rw [List.getElem?_map, List.getElem?_eq_getElem (by omega)]
      rfl
  · rw [List.getElem?_eq_none (by omega), List.getElem?_eq_none]
    split
    · rw [List.length_map, hn _ (List.getElem_mem _)]; omega
    · rw [List.length_map, hn _ (List.getElem_mem _)]; omega

/-- C119: the Flax `tree_lag` returns the same trees. -/
theorem C119_flax_tree_lag (shift : Nat) (hs : shift + 1 ≤ 2 ^ 30) (fill : V) (shp : PyTree Unit) (xs : List (List (PyTree V)))
    (hx : ∀ a ∈ xs, PyTree_shape (.node a) = shp) (hl : xs.length < 2 ^ 31) (t : Nat) (ht : t < xs.length) :
    ∃ out out', ((treeLagMachine (flaxLag shift fill)).run xs)[t]? = some out ∧
      ((treeLagMachine (lag shift fill)).run xs)[t]? = some out' ∧ PyTree_shape out = PyTree_shape out' ∧
      PyTree_leaves out = PyTree_leaves out' := by
  obtain ⟨out, h1, h2, h3⟩ := C119_tree_lag_leafwise (flaxLag shift fill) shp xs hx t ht
  obtain ⟨out', g1, g2, g3⟩ := C119_tree_lag_leafwise (lag shift fill) shp xs hx t ht
  refine ⟨out, out', h1, g1, h2.trans g2.symm, ?_⟩
  have ho : (PyTree_leaves out).length = (PyTree_leaves shp).length := by rw [← h2, leaves_shape, List.length_map]
  have ho' : (PyTree_leaves out').length = (PyTree_leaves shp).length := by rw [← g2, leaves_shape, List.length_map]
  apply List.ext_getElem?
  intro k
  by_cases hk : k < (PyTree_leaves shp).length
  · have hall : ∀ a ∈ xs, k < (PyTree_leaves (.node a)).length := by
      intro a ha
      rw [← hx a ha, leaves_shape, List.length_map] at hk
      exact hk
    rw [h3 k hk, g3 k hk, C03_flax_lag shift hs fill _ (by rw [leafSeries_length k xs hall]; exact hl)]
  · rw [List.getElem?_eq_none (by omega), List.getElem?_eq_none (by omega)]

example : PyTree_shape (.node [PyTree.leaf 1, .node [.none, .leaf 2]]) = PyTree_shape (.node [PyTree.leaf 3, .node [.none, .leaf 4]]) := rfl
example : (((treeLagMachine (lag 1 0)).run [[PyTree.leaf 1, .node [.none, .leaf 2]], [PyTree.leaf 3, .node [.none, .leaf 4]]]).map
    PyTree_leaves) = [[some 0, some 0], [some 1, some 2]] := by decide

end TreeLag

end Verif.Props
