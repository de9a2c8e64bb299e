import Verif.Spec.OHLC
import Verif.Lemmas.Windows
import Mathlib.Algebra.Order.Ring.Rat

/-! # Properties C14, C15: OHLC -/

set_option linter.unusedSectionVars false

namespace Verif.Props
open Model Spec
variable {K : Type} [Field K] [LinearOrder K]

theorem flt_irrefl (a : Fl K) : Fl.lt a a = false := by cases a <;> simp [Fl.lt]

theorem flt_asymm (a b : Fl K) (h : Fl.lt a b = true) : Fl.lt b a = false := by
  cases a <;> cases b <;> simp_all [Fl.lt]
  exact le_of_lt h

theorem flt_trans_not (a b c : Fl K) (hb : b.isNan = false) (h1 : Fl.lt a b = false)
    (h2 : Fl.lt b c = false) : Fl.lt a c = false := by
  cases a <;> cases b <;> cases c <;> simp_all [Fl.lt]
  exact le_trans h2 h1

/-- One step inside a bar: adding a price to the bar. -/
theorem ohlcStep_isBar (vs : List (Fl K)) (hv : ∀ v ∈ vs, v.isNan = false) (s : OHLCData K)
    (hs : IsBar vs s) (x : Fl K) :
    IsBar (vs ++ valid [x]) (ohlcStep s (x, false)).1 := by
  by_cases hx : x.isNan
  · have hx' := (Fl.isNan_iff x).mp hx
    subst hx'
    have e : valid [Fl.nan (K := K)] = [] := rfl
    rw [e, List.append_nil]
    rcases vs with _ | ⟨v, vs⟩
    · have := hs.1 rfl
      subst this
      refine ⟨fun _ => ?_, fun h => absurd rfl h⟩
      simp [ohlcStep, Fl.lt]
    · obtain ⟨h1, h2, h3, h4, h5, h6⟩ := hs.2 (by simp)
      refine ⟨fun h => absurd h (by simp), fun _ => ?_⟩
      have hcl : s.close ∈ v :: vs := List.mem_of_getLast? h2
      have ho : s.open_.isNan = false := by
        simp only [List.head?_cons, Option.some.injEq] at h1
        rw [← h1]; exact hv v (by simp)
      simp only [ohlcStep, ho, hv _ h3, hv _ h5, h4 _ hcl, h6 _ hcl, Fl.isNan_nan,
        Bool.not_true, Bool.false_eq_true, if_false]
      exact ⟨h1, h2, h3, h4, h5, h6⟩
  · have hx : x.isNan = false := by simpa using hx
    have e : valid [x] = [x] := by simp [valid, hx]
    rw [e]
    refine ⟨fun h => absurd h (by simp), fun _ => ?_⟩
    rcases vs with _ | ⟨v, vs⟩
    · have := hs.1 rfl
      subst this
      simp [ohlcStep, hx, flt_irrefl]
    · obtain ⟨h1, h2, h3, h4, h5, h6⟩ := hs.2 (by simp)
      have ho : s.open_.isNan = false := by
        simp only [List.head?_cons, Option.some.injEq] at h1
        rw [← h1]; exact hv v (by simp)
      simp only [ohlcStep, ho, hv _ h3, hv _ h5, hx,
        Bool.not_false, Bool.false_eq_true, if_true, if_false]
      refine ⟨by simpa using h1, by rw [List.getLast?_append]; rfl, ?_, ?_, ?_, ?_⟩
      · split
        · simp
        · exact List.mem_append_left _ h3
      · intro w hw
        rcases List.mem_append.mp hw with hw | hw
        · split
          · rename_i hlt
            exact flt_trans_not _ s.high _ (hv _ h3) (flt_asymm _ _ hlt) (h4 w hw)
          · exact h4 w hw
        · simp only [List.mem_singleton] at hw
          subst hw
          split
          · exact flt_irrefl _
          · rename_i hlt; simpa using hlt
      · split
        · simp
        · exact List.mem_append_left _ h5
      · intro w hw
        rcases List.mem_append.mp hw with hw | hw
        · split
          · rename_i hlt
            exact flt_trans_not _ s.low _ (hv _ h5) (h6 w hw) (flt_asymm _ _ hlt)
          · exact h6 w hw
        · simp only [List.mem_singleton] at hw
          subst hw
          split
          · exact flt_irrefl _
          · rename_i hlt; simpa using hlt

theorem ohlcStep_reset (s : OHLCData K) (x : Fl K) :
    ohlcStep s (x, true) = ohlcStep OHLCData.empty (x, false) := by
  simp [ohlcStep]

theorem valid_not_nan (l : List (Fl K)) : ∀ v ∈ valid l, v.isNan = false := by
  intro v hv; simp [valid] at hv; exact hv.2

theorem ohlc_state_isBar (pre seg : List (Fl K × Bool)) (h : IsCurrentSegment pre seg) :
    IsBar (valid (seg.map (·.1))) ((ohlc (K := K)).stateAfter (pre ++ seg)) := by
  obtain ⟨hne, hstart, htail⟩ := h
  have hempty : IsBar [] (OHLCData.empty (K := K)) := ⟨fun _ => rfl, fun h => absurd rfl h⟩
  have key : ∀ (rest : List (Fl K × Bool)), (∀ e ∈ rest, e.2 = false) → ∀ vs (s : OHLCData K),
      (∀ v ∈ vs, v.isNan = false) → IsBar vs s →
      IsBar (vs ++ valid (rest.map (·.1))) ((ohlc (K := K)).stateFrom s rest) := by
    intro rest
    induction rest with
    | nil => intro _ vs s _ hs; simpa [valid] using hs
    | cons e rest ih =>
      intro hr vs s hv hs
      obtain ⟨x, r⟩ := e
      have : r = false := hr (x, r) (by simp)
      subst this
      rw [Mealy.stateFrom_cons]
      have h1 := ohlcStep_isBar vs hv s hs x
      have h2 := ih (fun e he => hr e (by simp [he])) _ _ (by
        intro v hv'
        rcases List.mem_append.mp hv' with h | h
        · exact hv v h
        · exact valid_not_nan _ v h) h1
      have e1 : vs ++ valid (((x, false) :: rest).map (·.1)) =
          vs ++ valid [x] ++ valid (rest.map (·.1)) := by
        rw [List.append_assoc, ← valid_append]; rfl
      rw [e1]
      exact h2
  rcases seg with _ | ⟨⟨x, r⟩, rest⟩
  · exact absurd rfl hne
  · simp only [List.tail_cons] at htail
    rw [Mealy.stateAfter, Mealy.stateFrom_append, Mealy.stateFrom_cons]
    have hfirst : ((ohlc (K := K)).step ((ohlc (K := K)).stateFrom (ohlc (K := K)).init pre) (x, r)).2 =
        (ohlcStep OHLCData.empty (x, false)).1 := by
      rcases hstart with rfl | ⟨y, rest', he⟩
      · cases r
        · rfl
        · show (ohlcStep _ (x, true)).2 = _; rw [ohlcStep_reset]; rfl
      · simp only [List.cons.injEq, Prod.mk.injEq] at he
        rw [he.1.2]
        show (ohlcStep _ (x, true)).2 = _; rw [ohlcStep_reset]; rfl
    rw [hfirst]
    have h1 := ohlcStep_isBar [] (by simp) OHLCData.empty hempty x
    have := key rest htail _ _ (by simpa using valid_not_nan [x]) h1
    rw [List.nil_append, ← valid_append] at this
    exact this

/-- C14: whatever happened before, the bar returned after a segment that starts at a reset (or at the
beginning) and has no later reset consists of the first/maximum/minimum/last of the non-NaN prices of
that segment, and is all NaN if the segment has none. -/
theorem C14_ohlc_bar (pre seg post : List (Fl K × Bool)) (h : IsCurrentSegment pre seg) :
    ∃ o, ((ohlc (K := K)).run (pre ++ seg ++ post))[(pre ++ seg).length - 1]? = some o ∧
      IsBar (valid (seg.map (·.1))) o := by
  refine ⟨(ohlc (K := K)).stateAfter (pre ++ seg), ?_, ohlc_state_isBar pre seg h⟩
  have hne : pre ++ seg ≠ [] := by simp [h.1]
  rw [Mealy.run, Mealy.outsFrom_append, List.getElem?_append_left (by
    have := List.length_pos_of_ne_nil hne
    simp only [Mealy.outsFrom_length]; omega)]
  rcases List.eq_nil_or_concat (pre ++ seg) with h' | ⟨l, a, h'⟩
  · exact absurd h' hne
  · rw [h', List.concat_eq_append]
    have := Mealy.run_append_singleton (ohlc (K := K)) l a
    rw [Mealy.run] at this
    rw [this, Mealy.stateAfter_append_singleton]
    rw [List.getElem?_append_right (by simp)]
    simp
    rfl

/-- C14: every non-empty history has such a decomposition, so C14_ohlc_bar covers every step. -/
theorem C14_segment_exists (hist : List (Fl K × Bool)) (h : hist ≠ []) :
    ∃ pre seg, hist = pre ++ seg ∧ IsCurrentSegment pre seg := by
  induction hist using List.reverseRecOn with
  | nil => exact absurd rfl h
  | append_singleton hist e ih =>
    by_cases hn : hist = []
    · subst hn
      exact ⟨[], [e], rfl, by simp, Or.inl rfl, by simp⟩
    · obtain ⟨x, r⟩ := e
      cases r with
      | true => exact ⟨hist, [(x, true)], rfl, by simp, Or.inr ⟨x, [], rfl⟩, by simp⟩
      | false =>
        obtain ⟨pre, seg, h1, h2, h3, h4⟩ := ih hn
        refine ⟨pre, seg ++ [(x, false)], by rw [h1, List.append_assoc], by simp, ?_, ?_⟩
        · rcases h3 with h3 | ⟨y, rest, h3⟩
          · exact Or.inl h3
          · exact Or.inr ⟨y, rest ++ [(x, false)], by rw [h3]; rfl⟩
        · intro e he
          rw [List.tail_append_of_ne_nil h2] at he
          rcases List.mem_append.mp he with he | he
          · exact h4 e he
          · simp only [List.mem_singleton] at he; rw [he]

/-- C14: at every step of every stream `LOW ≤ OPEN, CLOSE ≤ HIGH` (as "not greater", which is `≤` since
either all four are numbers or all four are NaN). -/
theorem C14_ohlc_ordered (xs : List (Fl K × Bool)) (t : Nat) (ht : t < xs.length) :
    ∃ o, ((ohlc (K := K)).run xs)[t]? = some o ∧
      (o = ⟨.nan, .nan, .nan, .nan⟩ ∨
        (o.open_ ≠ .nan ∧ o.high ≠ .nan ∧ o.low ≠ .nan ∧ o.close ≠ .nan ∧
          Fl.lt o.open_ o.low = false ∧ Fl.lt o.high o.open_ = false ∧
          Fl.lt o.close o.low = false ∧ Fl.lt o.high o.close = false)) := by
  have hne : xs.take (t + 1) ≠ [] := by
    intro h
    have := congrArg List.length h
    simp only [List.length_take, List.length_nil] at this
    omega
  obtain ⟨pre, seg, h1, h2⟩ := C14_segment_exists (xs.take (t + 1)) hne
  obtain ⟨o, ho, hb⟩ := C14_ohlc_bar pre seg (xs.drop (t + 1)) h2
  rw [← h1, List.take_append_drop] at ho
  have hl : (xs.take (t + 1)).length - 1 = t := by simp; omega
  rw [hl] at ho
  refine ⟨o, ho, ?_⟩
  rcases hvs : valid (seg.map (·.1)) with _ | ⟨v, vs⟩
  · exact Or.inl (hb.1 hvs)
  · right
    obtain ⟨b1, b2, b3, b4, b5, b6⟩ := hb.2 (by simp [hvs])
    have nn : ∀ w ∈ valid (seg.map (·.1)), w ≠ Fl.nan := fun w hw =>
      (Fl.isNan_false_iff w).mp (valid_not_nan _ w hw)
    have mo := List.mem_of_mem_head? b1
    have mc := List.mem_of_getLast? b2
    exact ⟨nn _ mo, nn _ b3, nn _ b5, nn _ mc, b6 _ mo, b4 _ mo, b6 _ mc, b4 _ mc⟩

example : (ohlc (K := ℚ)).run
    [(.fin 3, false), (.nan, false), (.fin 5, false), (.fin 2, true), (.fin 1, false)] =
    [⟨.fin 3, .fin 3, .fin 3, .fin 3⟩, ⟨.fin 3, .fin 3, .fin 3, .fin 3⟩,
     ⟨.fin 3, .fin 5, .fin 3, .fin 5⟩, ⟨.fin 2, .fin 2, .fin 2, .fin 2⟩,
     ⟨.fin 2, .fin 2, .fin 1, .fin 1⟩] := by decide +kernel
example : IsCurrentSegment ([(.fin 3, false)] : List (Fl ℚ × Bool)) [(.fin 2, true), (.fin 1, false)] :=
  ⟨by simp, Or.inr ⟨_, _, rfl⟩, by simp⟩

/-! ## C15 -/

/-- C15 (what holds): on streams without NaN prices the Flax bars equal the Haiku bars, for every reset
pattern. -/
theorem C15_flax_ohlc_agrees_partial (xs : List (Fl K × Bool)) (h : ∀ e ∈ xs, e.1 ≠ Fl.nan) :
    (flaxOhlc (K := K)).run xs = (ohlc (K := K)).run xs := by
  have key : ∀ (xs : List (Fl K × Bool)), (∀ e ∈ xs, e.1 ≠ Fl.nan) → ∀ s : OHLCData K,
      (s = OHLCData.empty ∨ (s.open_.isNan = false ∧ s.high.isNan = false ∧ s.low.isNan = false)) →
      (flaxOhlc (K := K)).outsFrom s xs = (ohlc (K := K)).outsFrom s xs := by
    intro xs
    induction xs with
    | nil => intros; rfl
    | cons e xs ih =>
      intro h s hs
      obtain ⟨x, r⟩ := e
      have hx : x.isNan = false := (Fl.isNan_false_iff x).mpr (h (x, r) (by simp))
      have hstep : flaxOhlcStep s (x, r) = ohlcStep s (x, r) ∧
          ((ohlcStep s (x, r)).2.open_.isNan = false ∧ (ohlcStep s (x, r)).2.high.isNan = false ∧
            (ohlcStep s (x, r)).2.low.isNan = false) := by
        cases r with
        | true =>
          simp [flaxOhlcStep, ohlcStep, hx, OHLCData.empty, flt_irrefl]
        | false =>
          rcases hs with rfl | ⟨h1, h2, h3⟩
          · simp [flaxOhlcStep, ohlcStep, hx, OHLCData.empty, flt_irrefl]
          · simp only [flaxOhlcStep, ohlcStep, hx, h1, h2, h3, Fl.maximum, Fl.minimum,
              Bool.not_false, Bool.or_self, Bool.false_eq_true, if_true, if_false, true_and]
            refine ⟨?_, ?_⟩ <;> split <;> assumption
      simp only [Mealy.outsFrom_cons]
      have e1 : (flaxOhlc (K := K)).step s (x, r) = (ohlc (K := K)).step s (x, r) := hstep.1
      rw [e1]
      congr 1
      exact ih (fun e he => h e (by simp [he])) _ (Or.inr hstep.2)
  exact key xs h _ (Or.inl rfl)

example : ∀ e ∈ ([(.fin 3, false), (.pinf, true)] : List (Fl ℚ × Bool)), e.1 ≠ Fl.nan := by simp

/-- C15 is false in general: after a NaN price the Flax close is NaN while the Haiku close is the last
price. -/
theorem C15_flax_ohlc_nan_differs :
    (flaxOhlc (K := ℚ)).run [(.fin 1, true), (.nan, false)] ≠
      (ohlc (K := ℚ)).run [(.fin 1, true), (.nan, false)] := by decide +kernel

/-- C15, how bad it gets: in Flax one NaN price inside a bar (after its opening) makes HIGH and LOW NaN
until the next reset, whatever prices follow. -/
theorem C15_flax_ohlc_nan_poisons (xs : List (Fl K)) (s : OHLCData K) (ho : s.open_ ≠ Fl.nan) :
    let s' := (flaxOhlc (K := K)).stateFrom s (((Fl.nan, false) :: xs.map fun x => (x, false)))
    s'.high = Fl.nan ∧ s'.low = Fl.nan ∧ s'.open_ = s.open_ := by
  have ho' := (Fl.isNan_false_iff _).mpr ho
  have key : ∀ (xs : List (Fl K)) (s : OHLCData K), s.open_.isNan = false → s.high = .nan → s.low = .nan →
      let s' := (flaxOhlc (K := K)).stateFrom s (xs.map fun x => (x, false))
      s'.high = Fl.nan ∧ s'.low = Fl.nan ∧ s'.open_ = s.open_ := by
    intro xs
    induction xs with
    | nil => intro s _ h1 h2; exact ⟨h1, h2, rfl⟩
    | cons x xs ih =>
      intro s h0 h1 h2
      simp only [List.map_cons, Mealy.stateFrom_cons]
      have e : ((flaxOhlc (K := K)).step s (x, false)).2 = ⟨s.open_, .nan, .nan, x⟩ := by
        simp [flaxOhlc, flaxOhlcStep, h0, h1, h2, Fl.maximum, Fl.minimum]
      rw [e]
      have := ih ⟨s.open_, .nan, .nan, x⟩ h0 rfl rfl
      exact this
  simp only [Mealy.stateFrom_cons]
  have e : ((flaxOhlc (K := K)).step s (Fl.nan, false)).2 = ⟨s.open_, .nan, .nan, .nan⟩ := by
    simp [flaxOhlc, flaxOhlcStep, ho', Fl.maximum, Fl.minimum]
  rw [e]
  exact key xs ⟨s.open_, .nan, .nan, .nan⟩ ho' rfl rfl

example : (⟨.fin 1, .fin 1, .fin 1, .fin 1⟩ : OHLCData ℚ).open_ ≠ Fl.nan := by simp

/-! ### C15: the exact Flax bar and the exact condition of agreement -/

/-- The prices of a Flax bar: those from the first one that is not NaN (the bar reopens until then). -/
def sinceOpen (prices : List (Fl K)) : List (Fl K) := prices.dropWhile Fl.isNan

/-- The Flax bar of the prices `vs` since the bar opened: first and last price; maximum and minimum if none is NaN, NaN
otherwise; all NaN before the bar opens. -/
def IsFlaxBar (vs : List (Fl K)) (o : OHLCData K) : Prop :=
  (vs = [] → o = ⟨.nan, .nan, .nan, .nan⟩) ∧
  (vs ≠ [] → vs.head? = some o.open_ ∧ vs.getLast? = some o.close ∧ o.open_ ≠ Fl.nan ∧
    (Fl.nan ∈ vs → o.high = .nan ∧ o.low = .nan) ∧
    (Fl.nan ∉ vs → o.high ∈ vs ∧ (∀ v ∈ vs, Fl.lt o.high v = false) ∧ o.low ∈ vs ∧ (∀ v ∈ vs, Fl.lt v o.low = false)))

theorem flaxOhlcStep_bar (ps : List (Fl K)) (s : OHLCData K) (hs : IsFlaxBar (sinceOpen ps) s) (x : Fl K) :
    IsFlaxBar (sinceOpen (ps ++ [x])) (flaxOhlcStep s (x, false)).1 := by
  by_cases hv : sinceOpen ps = []
  · have := hs.1 hv
    subst this
    have e : sinceOpen (ps ++ [x]) = sinceOpen [x] := by
      unfold sinceOpen
      rw [List.dropWhile_append]
      have : (ps.dropWhile Fl.isNan).isEmpty = true := by
        rw [show ps.dropWhile Fl.isNan = [] from hv]; rfl
      rw [this]; simp
    rw [e]
    by_cases hx : x.isNan
    · have hx' := (Fl.isNan_iff x).mp hx
      subst hx'
      refine ⟨fun _ => rfl, fun h => absurd ?_ h⟩
      rfl
    · have hx : x.isNan = false := by simpa using hx
      have e2 : sinceOpen [x] = [x] := by simp [sinceOpen, hx]
      rw [e2]
      have hne := (Fl.isNan_false_iff x).mp hx
      refine ⟨fun h => absurd h (by simp), fun _ => ?_⟩
      simp only [flaxOhlcStep, Fl.isNan_nan, Bool.or_true, if_true]
      refine ⟨rfl, rfl, hne, ?_, ?_⟩
      · intro h; simp only [List.mem_singleton] at h; exact absurd h.symm hne
      · intro _
        refine ⟨by simp, ?_, by simp, ?_⟩ <;> · intro v hv; simp only [List.mem_singleton] at hv; subst hv; exact flt_irrefl _
  · obtain ⟨h1, h2, h3, h4, h5⟩ := hs.2 hv
    have e : sinceOpen (ps ++ [x]) = sinceOpen ps ++ [x] := by
      unfold sinceOpen
      rw [List.dropWhile_append]
      have : (ps.dropWhile Fl.isNan).isEmpty = false := by
        cases h : ps.dropWhile Fl.isNan with
        | nil => exact absurd h hv
        | cons => rfl
      rw [this]; simp
    rw [e]
    generalize sinceOpen ps = vs at *
    have ho := (Fl.isNan_false_iff _).mpr h3
    refine ⟨fun h => absurd h (by simp), fun _ => ?_⟩
    simp only [flaxOhlcStep, ho, Bool.or_self, Bool.false_eq_true, if_false]
    refine ⟨?_, by simp, h3, ?_, ?_⟩
    · rw [List.head?_append, h1]; rfl
    · intro hn
      rcases List.mem_append.mp hn with hn | hn
      · rw [(h4 hn).1, (h4 hn).2]
        simp [Fl.maximum, Fl.minimum]
      · simp only [List.mem_singleton] at hn
        subst hn
        constructor
        · simp only [Fl.maximum, Fl.isNan_nan, Bool.or_true, if_true]
        · simp only [Fl.minimum, Fl.isNan_nan, Bool.or_true, if_true]
    · intro hn
      have hnv : Fl.nan ∉ vs := fun h => hn (List.mem_append_left _ h)
      have hx : x.isNan = false := (Fl.isNan_false_iff x).mpr (fun h => hn (by simp [h]))
      obtain ⟨a1, a2, a3, a4⟩ := h5 hnv
      have hh : s.high.isNan = false := (Fl.isNan_false_iff _).mpr (fun h => hnv (h ▸ a1))
      have hl : s.low.isNan = false := (Fl.isNan_false_iff _).mpr (fun h => hnv (h ▸ a3))
      simp only [Fl.maximum, Fl.minimum, hx, hh, hl, Bool.or_self, Bool.false_eq_true, if_false]
      refine ⟨?_, ?_, ?_, ?_⟩
      · split
        · simp
        · exact List.mem_append_left _ a1
      · intro w hw
        rcases List.mem_append.mp hw with hw | hw
        · split
          · rename_i hlt
            exact flt_trans_not _ s.high _ hh (flt_asymm _ _ hlt) (a2 w hw)
          · exact a2 w hw
        · simp only [List.mem_singleton] at hw
          subst hw
          split
          · exact flt_irrefl _
          · rename_i hlt; simpa using hlt
      · split
        · simp
        · exact List.mem_append_left _ a3
      · intro w hw
        rcases List.mem_append.mp hw with hw | hw
        · split
          · rename_i hlt
            exact flt_trans_not _ s.low _ hl (a4 w hw) (flt_asymm _ _ hlt)
          · exact a4 w hw
        · simp only [List.mem_singleton] at hw
          subst hw
          split
          · exact flt_irrefl _
          · rename_i hlt; simpa using hlt

theorem flaxOhlcStep_reset (s : OHLCData K) (x : Fl K) :
    flaxOhlcStep s (x, true) = flaxOhlcStep OHLCData.empty (x, false) := by
  simp [flaxOhlcStep, OHLCData.empty]

theorem flaxOhlc_state_bar (pre seg : List (Fl K × Bool)) (h : IsCurrentSegment pre seg) :
    IsFlaxBar (sinceOpen (seg.map (·.1))) ((flaxOhlc (K := K)).stateAfter (pre ++ seg)) := by
  obtain ⟨hne, hstart, htail⟩ := h
  have hempty : IsFlaxBar (sinceOpen []) (OHLCData.empty (K := K)) := ⟨fun _ => rfl, fun h => absurd rfl h⟩
  have key : ∀ (rest : List (Fl K × Bool)), (∀ e ∈ rest, e.2 = false) → ∀ ps (s : OHLCData K), IsFlaxBar (sinceOpen ps) s →
      IsFlaxBar (sinceOpen (ps ++ rest.map (·.1))) ((flaxOhlc (K := K)).stateFrom s rest) := by
    intro rest
    induction rest with
    | nil => intro _ ps s hs; simpa using hs
    | cons e rest ih =>
      intro hr ps s hs
      obtain ⟨x, r⟩ := e
      have : r = false := hr (x, r) (by simp)
      subst this
      rw [Mealy.stateFrom_cons]
      have := ih (fun e he => hr e (by simp [he])) (ps ++ [x]) _ (flaxOhlcStep_bar ps s hs x)
      rw [List.append_assoc] at this
      exact this
  rcases seg with _ | ⟨⟨x, r⟩, rest⟩
  · exact absurd rfl hne
  · simp only [List.tail_cons] at htail
    rw [Mealy.stateAfter, Mealy.stateFrom_append, Mealy.stateFrom_cons]
    have hfirst : ((flaxOhlc (K := K)).step ((flaxOhlc (K := K)).stateFrom (flaxOhlc (K := K)).init pre) (x, r)).2 =
        (flaxOhlcStep OHLCData.empty (x, false)).1 := by
      rcases hstart with rfl | ⟨y, rest', he⟩
      · cases r
        · rfl
        · show (flaxOhlcStep _ (x, true)).2 = _; rw [flaxOhlcStep_reset]; rfl
      · simp only [List.cons.injEq, Prod.mk.injEq] at he
        rw [he.1.2]
        show (flaxOhlcStep _ (x, true)).2 = _; rw [flaxOhlcStep_reset]; rfl
    rw [hfirst]
    exact key rest htail [x] _ (flaxOhlcStep_bar [] _ hempty x)

theorem ohlc_run_last (m : Mealy (OHLCData K) (Fl K × Bool) (OHLCData K)) (hm : ∀ s x, (m.step s x).1 = (m.step s x).2)
    (l post : List (Fl K × Bool)) (hne : l ≠ []) : (m.run (l ++ post))[l.length - 1]? = some (m.stateAfter l) := by
  rw [Mealy.run, Mealy.outsFrom_append, List.getElem?_append_left (by
    have := List.length_pos_of_ne_nil hne
    simp only [Mealy.outsFrom_length]; omega)]
  rcases List.eq_nil_or_concat l with h' | ⟨l', a, h'⟩
  · exact absurd h' hne
  · rw [h', List.concat_eq_append]
    have := Mealy.run_append_singleton m l' a
    rw [Mealy.run] at this
    rw [this, Mealy.stateAfter_append_singleton]
    rw [List.getElem?_append_right (by simp)]
    simp [hm]

/-- C15, the exact Flax bar, at every step of every stream: with `vs` the prices of the current segment (since the last reset
or the beginning) from the first one that is not NaN, the bar is all NaN if there is none, and otherwise has the first
price as OPEN, the *last price, NaN or not*, as CLOSE, and the extremes as HIGH and LOW unless some price is NaN: then both are
NaN. (In the Haiku bar the NaN prices are ignored: `C14_ohlc_bar`.) -/
theorem C15_flax_ohlc_bar_partial (pre seg post : List (Fl K × Bool)) (h : IsCurrentSegment pre seg) :
    ∃ o, ((flaxOhlc (K := K)).run (pre ++ seg ++ post))[(pre ++ seg).length - 1]? = some o ∧
      IsFlaxBar (sinceOpen (seg.map (·.1))) o :=
  ⟨_, ohlc_run_last _ (fun _ _ => rfl) _ _ (by simp [h.1]), flaxOhlc_state_bar pre seg h⟩

theorem flt_antisymm (a b : Fl K) (ha : a ≠ .nan) (hb : b ≠ .nan) (h1 : Fl.lt a b = false) (h2 : Fl.lt b a = false) : a = b := by
  cases a <;> cases b <;> simp_all [Fl.lt]
  exact le_antisymm h2 h1

theorem sinceOpen_eq_valid (l : List (Fl K)) (h : ∀ a b, l = a ++ Fl.nan :: b → valid a = []) : sinceOpen l = valid l := by
  induction l with
  | nil => rfl
  | cons x l ih =>
    by_cases hx : x.isNan
    · have e1 : sinceOpen (x :: l) = sinceOpen l := by simp [sinceOpen, hx]
      have e2 : valid (x :: l) = valid l := by simp [valid, hx]
      rw [e1, e2]
      refine ih fun a b hab => ?_
      have := h (x :: a) b (by simp [hab])
      simpa [valid, hx] using this
    · have hx : x.isNan = false := by simpa using hx
      have e1 : sinceOpen (x :: l) = x :: l := by simp [sinceOpen, hx]
      have e2 : valid (x :: l) = x :: valid l := by simp [valid, hx]
      rw [e1, e2]
      congr 1
      symm
      unfold valid
      rw [List.filter_eq_self]
      intro v hv
      cases hn : v.isNan with
      | false => rfl
      | true =>
        obtain ⟨a, b, hab⟩ := List.append_of_mem hv
        rw [(Fl.isNan_iff v).mp hn] at hab
        have := h (x :: a) b (by simp [hab])
        simp [valid, hx] at this

/-- C15, the exact condition: the Flax bars equal the Haiku bars exactly on the streams in which no NaN price arrives (without a
reset) after a price of the same bar. -/
theorem C15_agrees_iff_partial (xs : List (Fl K × Bool)) :
    (flaxOhlc (K := K)).run xs = (ohlc (K := K)).run xs ↔
      ∀ pre seg post, xs = pre ++ seg ++ (Fl.nan, false) :: post → IsCurrentSegment pre seg → valid (seg.map (·.1)) = [] := by
  constructor
  · intro h pre seg post hxs hseg
    have hseg' : IsCurrentSegment pre (seg ++ [(Fl.nan, false)]) := by
      obtain ⟨h2, h3, h4⟩ := hseg
      refine ⟨by simp, ?_, ?_⟩
      · rcases h3 with h3 | ⟨y, rest, h3⟩
        · exact Or.inl h3
        · exact Or.inr ⟨y, rest ++ [(Fl.nan, false)], by rw [h3]; rfl⟩
      · intro e he
        rw [List.tail_append_of_ne_nil h2] at he
        rcases List.mem_append.mp he with he | he
        · exact h4 e he
        · simp only [List.mem_singleton] at he; rw [he]
    have hx2 : xs = pre ++ (seg ++ [(Fl.nan, false)]) ++ post := by rw [hxs]; simp
    have a1 := ohlc_run_last (flaxOhlc (K := K)) (fun _ _ => rfl) (pre ++ (seg ++ [(Fl.nan, false)])) post (by simp)
    have a2 := ohlc_run_last (ohlc (K := K)) (fun _ _ => rfl) (pre ++ (seg ++ [(Fl.nan, false)])) post (by simp)
    rw [← hx2] at a1 a2
    rw [h, a2, Option.some.injEq] at a1
    have hb := ohlc_state_isBar pre _ hseg'
    have hc : ((flaxOhlc (K := K)).stateAfter (pre ++ (seg ++ [(Fl.nan, false)]))).close = .nan := by
      rw [← List.append_assoc, Mealy.stateAfter_append_singleton]
      rfl
    rw [← a1] at hc
    by_contra hv
    have e : valid ((seg ++ [(Fl.nan, false)]).map fun y : Fl K × Bool => y.1) = valid (seg.map (·.1)) := by
      rw [List.map_append, valid_append]
      simp [valid]
    rw [e] at hb
    have hl := (hb.2 hv).2.1
    rw [hc] at hl
    have := valid_not_nan _ _ (List.mem_of_getLast? hl)
    simp at this
  · intro h
    apply List.ext_getElem?
    intro t
    by_cases ht : t < xs.length
    · have hne : xs.take (t + 1) ≠ [] := by
        intro h0
        have := congrArg List.length h0
        simp only [List.length_take, List.length_nil] at this
        omega
      obtain ⟨pre, seg, h1, h2⟩ := C14_segment_exists (xs.take (t + 1)) hne
      have hl : (pre ++ seg).length - 1 = t := by rw [← h1]; simp; omega
      have hx2 : xs = pre ++ seg ++ xs.drop (t + 1) := by rw [← h1, List.take_append_drop]
      have a1 := ohlc_run_last (flaxOhlc (K := K)) (fun _ _ => rfl) (pre ++ seg) (xs.drop (t + 1)) (by simp [h2.1])
      have a2 := ohlc_run_last (ohlc (K := K)) (fun _ _ => rfl) (pre ++ seg) (xs.drop (t + 1)) (by simp [h2.1])
      rw [← hx2, hl] at a1 a2
      rw [a1, a2, Option.some.injEq]
      have b1 := flaxOhlc_state_bar pre seg h2
      have b2 := ohlc_state_isBar pre seg h2
      have hs : sinceOpen (seg.map (·.1)) = valid (seg.map (·.1)) := by
        apply sinceOpen_eq_valid
        intro a b hab
        obtain ⟨sa, sb', hseg, ha, hb⟩ := List.map_eq_append_iff.mp hab
        obtain ⟨e, sb, rfl, he, hb⟩ := List.map_eq_cons_iff.mp hb
        obtain ⟨y, r⟩ := e
        simp only at he
        subst he
        subst ha
        by_cases hsa : sa = []
        · subst hsa; rfl
        · obtain ⟨h3, h4, h5⟩ := h2
          have hr : r = false := h5 (Fl.nan, r) (by rw [hseg, List.tail_append_of_ne_nil hsa]; simp)
          subst hr
          refine h pre sa (sb ++ xs.drop (t + 1)) ?_ ⟨hsa, ?_, ?_⟩
          · refine hx2.trans ?_
            rw [hseg]; simp
          · rcases h4 with h4 | ⟨z, rest, h4⟩
            · exact Or.inl h4
            · right
              obtain ⟨w, sa', rfl⟩ := List.exists_cons_of_ne_nil hsa
              rw [hseg] at h4
              simp only [List.cons_append, List.cons.injEq] at h4
              exact ⟨z, sa', by rw [h4.1]⟩
          · intro e he
            exact h5 e (by rw [hseg, List.tail_append_of_ne_nil hsa]; simp [he])
      rw [hs] at b1
      have nn := valid_not_nan (seg.map (·.1))
      generalize valid (seg.map (·.1)) = vs at *
      by_cases hv : vs = []
      · rw [b1.1 hv, b2.1 hv]
      · obtain ⟨c1, c2, c3, c4, c5⟩ := b1.2 hv
        obtain ⟨d1, d2, d3, d4, d5, d6⟩ := b2.2 hv
        have hnn : Fl.nan ∉ vs := fun hm => by have := nn _ hm; simp at this
        obtain ⟨e1, e2, e3, e4⟩ := c5 hnn
        have ne : ∀ v ∈ vs, v ≠ Fl.nan := fun v hv h => hnn (h ▸ hv)
        have q1 := flt_antisymm _ _ (ne _ e1) (ne _ d3) (e2 _ d3) (d4 _ e1)
        have q2 := flt_antisymm _ _ (ne _ e3) (ne _ d5) (d6 _ e3) (e4 _ d5)
        rw [c1] at d1
        rw [c2] at d2
        simp only [Option.some.injEq] at d1 d2
        generalize (flaxOhlc (K := K)).stateAfter (pre ++ seg) = u at *
        generalize (ohlc (K := K)).stateAfter (pre ++ seg) = w at *
        obtain ⟨u1, u2, u3, u4⟩ := u
        obtain ⟨w1, w2, w3, w4⟩ := w
        simp only at *
        subst d1 d2 q1 q2
        rfl
    · rw [List.getElem?_eq_none (by simp [Mealy.run_length]; omega), List.getElem?_eq_none (by simp [Mealy.run_length]; omega)]

example : sinceOpen ([.nan, .fin 3, .nan, .fin 5] : List (Fl ℚ)) = [.fin 3, .nan, .fin 5] := by decide +kernel
example : IsFlaxBar ([.fin 3, .nan, .fin 5] : List (Fl ℚ)) ⟨.fin 3, .nan, .nan, .fin 5⟩ := by
  refine ⟨fun h => ?_, fun _ => ?_⟩
  · simp at h
  · simp
example : (flaxOhlc (K := ℚ)).run [(.nan, false), (.fin 3, false), (.nan, false), (.fin 5, false)] =
    [⟨.nan, .nan, .nan, .nan⟩, ⟨.fin 3, .fin 3, .fin 3, .fin 3⟩, ⟨.fin 3, .nan, .nan, .nan⟩, ⟨.fin 3, .nan, .nan, .fin 5⟩] := by
  decide +kernel
/-- Leading NaN prices do not matter. -/
example : (flaxOhlc (K := ℚ)).run [(.nan, false), (.fin 3, false), (.fin 5, false), (.nan, true)] =
    (ohlc (K := ℚ)).run [(.nan, false), (.fin 3, false), (.fin 5, false), (.nan, true)] := by decide +kernel

end Verif.Props
