import Mathlib.Analysis.Real.Sqrt
import Verif.Model.Masks
import Verif.Props.Windows

/-! # Properties C11–C13: masks -/

set_option linter.unusedSectionVars false

namespace Verif.Props
open Model Spec

/-! ## C11 -/

theorem flatMap_replicate_getElem? {α : Type} (m : List α) (c i j : Nat) (hj : j < c) :
    (m.flatMap fun b => List.replicate c b)[i * c + j]? = m[i]? := by
  induction m generalizing i with
  | nil => simp
  | cons a m ih =>
    rw [List.flatMap_cons]
    cases i with
    | zero =>
      rw [List.getElem?_append_left (by simp; omega)]
      simp [hj]
    | succ i =>
      have e : (i + 1) * c + j = c + (i * c + j) := by ring
      rw [List.getElem?_append_right (by simp; rw [e]; omega), List.length_replicate, e,
        Nat.add_sub_cancel_left, ih]
      simp

theorem flatten_replicate_getElem? {α : Type} (m : List α) (r i j : Nat) (hi : i < r)
    (hj : j < m.length) : ((List.replicate r m).flatten)[i * m.length + j]? = m[j]? := by
  induction r generalizing i with
  | zero => omega
  | succ r ih =>
    rw [List.replicate_succ, List.flatten_cons]
    cases i with
    | zero => simp only [Nat.zero_mul, Nat.zero_add]; rw [List.getElem?_append_left hj]
    | succ i =>
      have e : (i + 1) * m.length + j = m.length + (i * m.length + j) := by ring
      rw [List.getElem?_append_right (by rw [e]; omega), e, Nat.add_sub_cancel_left, ih i (by omega)]

theorem zipWith_mask_getElem? {α : Type} (v : α) (m : List Bool) (x : List α) (k : Nat) (b : Bool)
    (y : α) (hb : m[k]? = some b) (hy : x[k]? = some y) :
    (List.zipWith (fun b y => if b then y else v) m x)[k]? = some (if b then y else v) := by
  rw [List.getElem?_zipWith, hb, hy]

/-- C11, `axis=None`: a mask of the same shape is accepted, and each entry is kept where the mask is true
and replaced by `mask_value` elsewhere; any other shape raises. -/
theorem C11_apply_mask_none {α : Type} (v : α) (mask : NdArr Bool) (x : NdArr α)
    (hm : mask.WF) (hx : x.WF) :
    (x.shape ≠ mask.shape → applyMask none v mask x = .error .shapeMismatch) ∧
    (x.shape = mask.shape → ∃ y, applyMask none v mask x = .ok y ∧ y.WF ∧ y.shape = x.shape ∧
      ∀ k (hk : k < x.data.length), ∃ b, mask.data[k]? = some b ∧
        y.data[k]? = some (if b then x.data[k] else v)) := by
  constructor
  · intro h; simp [applyMask, h, Except.bind, bind]
  · intro h
    have hl : mask.data.length = x.data.length := by
      rw [NdArr.WF] at *; rw [hm, hx, h]
    refine ⟨⟨x.shape, List.zipWith (fun b y => if b then y else v) mask.data x.data⟩, ?_, ?_, rfl, ?_⟩
    · simp [applyMask, h, Except.bind, bind]
    · simp only [NdArr.WF, List.length_zipWith, hl, Nat.min_self]; exact hx
    · intro k hk
      have hk' : k < mask.data.length := by omega
      exact ⟨mask.data[k], List.getElem?_eq_getElem hk',
        zipWith_mask_getElem? v _ _ k _ _ (List.getElem?_eq_getElem hk') (List.getElem?_eq_getElem hk)⟩

/-- C11, `axis=0` on an `r × c` array: a mask with `r` entries is accepted, entry `i` of the mask decides for
row `i`; any other number of entries raises. -/
theorem C11_apply_mask_axis0 {α : Type} (v : α) (mask : NdArr Bool) (x : NdArr α) (r c : Nat)
    (hs : x.shape = [r, c]) (hx : x.WF) :
    (mask.data.length ≠ r → applyMask (some 0) v mask x = .error .shapeMismatch) ∧
    (mask.data.length = r → ∃ y, applyMask (some 0) v mask x = .ok y ∧ y.shape = [r, c] ∧
      ∀ i j (_ : i < r) (_ : j < c), ∃ b e, mask.data[i]? = some b ∧ x.data[i * c + j]? = some e ∧
        y.data[i * c + j]? = some (if b then e else v)) := by
  constructor
  · intro h
    have : ¬ (r = mask.data.length) := fun h' => h h'.symm
    simp [applyMask, hs, Except.bind, bind, this]
  · intro h
    refine ⟨⟨x.shape, List.zipWith (fun b y => if b then y else v)
      (mask.data.flatMap fun b => List.replicate c b) x.data⟩, ?_, hs, ?_⟩
    · simp [applyMask, hs, h, Except.bind, bind]
    · intro i j hi hj
      have hk : i * c + j < x.data.length := by
        rw [hx, hs]
        simp only [List.prod_cons, List.prod_nil, Nat.mul_one]
        calc i * c + j < i * c + c := by omega
          _ = (i + 1) * c := by ring
          _ ≤ r * c := Nat.mul_le_mul_right c hi
      have hi' : i < mask.data.length := by omega
      refine ⟨mask.data[i], x.data[i * c + j], List.getElem?_eq_getElem hi',
        List.getElem?_eq_getElem hk, ?_⟩
      apply zipWith_mask_getElem?
      · rw [flatMap_replicate_getElem? _ _ _ _ hj, List.getElem?_eq_getElem hi']
      · exact List.getElem?_eq_getElem hk

/-- C11, `axis=1` on an `r × c` array: entry `j` of the mask decides for column `j`. -/
theorem C11_apply_mask_axis1 {α : Type} (v : α) (mask : NdArr Bool) (x : NdArr α) (r c : Nat)
    (hs : x.shape = [r, c]) (hx : x.WF) :
    (mask.data.length ≠ c → applyMask (some 1) v mask x = .error .shapeMismatch) ∧
    (mask.data.length = c → ∃ y, applyMask (some 1) v mask x = .ok y ∧ y.shape = [r, c] ∧
      ∀ i j (_ : i < r) (_ : j < c), ∃ b e, mask.data[j]? = some b ∧ x.data[i * c + j]? = some e ∧
        y.data[i * c + j]? = some (if b then e else v)) := by
  constructor
  · intro h
    have : ¬ (c = mask.data.length) := fun h' => h h'.symm
    simp [applyMask, hs, Except.bind, bind, this]
  · intro h
    refine ⟨⟨x.shape, List.zipWith (fun b y => if b then y else v)
      (List.replicate r mask.data).flatten x.data⟩, ?_, hs, ?_⟩
    · simp [applyMask, hs, h, Except.bind, bind]
    · intro i j hi hj
      have hk : i * c + j < x.data.length := by
        rw [hx, hs]
        simp only [List.prod_cons, List.prod_nil, Nat.mul_one]
        calc i * c + j < i * c + c := by omega
          _ = (i + 1) * c := by ring
          _ ≤ r * c := Nat.mul_le_mul_right c hi
      have hj' : j < mask.data.length := by omega
      refine ⟨mask.data[j], x.data[i * c + j], List.getElem?_eq_getElem hj',
        List.getElem?_eq_getElem hk, ?_⟩
      apply zipWith_mask_getElem?
      · have := flatten_replicate_getElem? mask.data r i j hi hj'
        rw [h] at this
        rw [this, List.getElem?_eq_getElem hj']
      · exact List.getElem?_eq_getElem hk

/-- C11: any other axis raises, whatever the arrays. -/
theorem C11_apply_mask_bad_axis {α : Type} (v : α) (mask : NdArr Bool) (x : NdArr α) (a : Int)
    (h0 : a ≠ 0) (h1 : a ≠ 1) : applyMask (some a) v mask x = .error .axisNotImplemented := by
  simp [applyMask, h0, h1, Except.bind, bind]

/-- C11: with a mask of the array's shape, masked-out entries of the input never influence the result. -/
theorem C11_apply_mask_noninterference {α : Type} (v : α) (mask : NdArr Bool) (x x' : NdArr α)
    (hs : x.shape = x'.shape) (hl : x.data.length = x'.data.length)
    (h : ∀ k : Nat, mask.data[k]? = some true → x.data[k]? = x'.data[k]?) :
    applyMask none v mask x = applyMask none v mask x' := by
  have e : List.zipWith (fun b y => if b then y else v) mask.data x.data =
      List.zipWith (fun b y => if b then y else v) mask.data x'.data := by
    apply List.ext_getElem?
    intro k
    rw [List.getElem?_zipWith, List.getElem?_zipWith]
    cases hb : mask.data[k]? with
    | none => rfl
    | some b =>
      cases b with
      | true => rw [h k hb]
      | false =>
        by_cases hk : k < x.data.length
        · rw [List.getElem?_eq_getElem hk, List.getElem?_eq_getElem (by omega)]; rfl
        · rw [List.getElem?_eq_none (by omega), List.getElem?_eq_none (by omega)]
  simp only [applyMask, hs, Except.bind, bind, e]

example : applyMask (some 0) 0 ⟨[2], [true, false]⟩ ⟨[2, 3], [1, 2, 3, 4, 5, 6]⟩ =
    .ok ⟨[2, 3], [1, 2, 3, 0, 0, 0]⟩ := by decide
example : applyMask (some 1) 0 ⟨[3], [true, false, true]⟩ ⟨[2, 3], [1, 2, 3, 4, 5, 6]⟩ =
    .ok ⟨[2, 3], [1, 0, 3, 4, 0, 6]⟩ := by decide
example : (⟨[2, 3], [1, 2, 3, 4, 5, 6]⟩ : NdArr Nat).WF := by simp [NdArr.WF]

/-! ## C12 -/

section Numeric
variable {K : Type} [Field K] [LinearOrder K]

/-- The unmasked values of a line; a NaN counts as 0. -/
def picked (l : Line K) : List K :=
  (l.filter (·.1)).map fun e => match e.2 with | .fin k => k | _ => 0

/-- No unmasked infinity. -/
def Clean (l : Line K) : Prop := ∀ e ∈ l, e.1 = true → e.2 ≠ .pinf ∧ e.2 ≠ .ninf

/-- The two lines have the same mask and the same unmasked values. -/
def SameUnmasked (l l' : Line K) : Prop :=
  List.Forall₂ (fun a b => a.1 = b.1 ∧ (a.1 = true → a.2 = b.2)) l l'

theorem maskCount_eq (l : Line K) : maskCount l = (picked l).length := by
  induction l with
  | nil => rfl
  | cons e l ih =>
    obtain ⟨b, x⟩ := e
    have : maskCount ((b, x) :: l) = (if b then 1 else 0) + maskCount l := rfl
    rw [this, ih]
    cases b <;> simp [picked, Nat.add_comm]

theorem maskFill_eq (big : K) (l : Line K) (h : Clean l) :
    maskFill big l = l.map fun e => Fl.fin (if e.1 then (match e.2 with | .fin k => k | _ => 0) else 0) := by
  unfold maskFill
  apply List.map_congr_left
  intro e he
  obtain ⟨b, x⟩ := e
  have := h (b, x) he
  cases b <;> cases x <;> simp_all [nanToNumDefault, Fl.nanToNum]

theorem maskFill_sum (big : K) (l : Line K) (h : Clean l) :
    (maskFill big l).sum = Fl.fin (picked l).sum := by
  rw [maskFill_eq big l h]
  have : ∀ l : Line K, (l.map fun e =>
      Fl.fin (if e.1 then (match e.2 with | .fin k => k | _ => 0) else 0)).sum =
        Fl.fin (picked l).sum := by
    intro l
    induction l with
    | nil => rfl
    | cons e l ih =>
      obtain ⟨b, x⟩ := e
      rw [List.map_cons, List.sum_cons, ih]
      cases b <;> simp [picked]
  exact this l

theorem maskCount_same {l l' : Line K} (h : SameUnmasked l l') : maskCount l = maskCount l' := by
  unfold maskCount
  induction h with
  | nil => rfl
  | cons h _ ih => simp only [List.map_cons, List.sum_cons, ih, h.1]

theorem maskFill_same (big : K) {l l' : Line K} (h : SameUnmasked l l') :
    maskFill big l = maskFill big l' := by
  unfold maskFill
  induction h with
  | nil => rfl
  | cons h _ ih =>
    rename_i a b _ _ _
    simp only [List.map_cons, ih]
    congr 1
    obtain ⟨h1, h2⟩ := h
    rw [← h1]
    split
    · rename_i ha; rw [h2 ha]
    · rfl

theorem fst_same {l l' : Line K} (h : SameUnmasked l l') : l.map (·.1) = l'.map (·.1) := by
  induction h with
  | nil => rfl
  | cons h _ ih => simp [ih, h.1]

variable [IsStrictOrderedRing K]

theorem cast_len_ne {α : Type} (l : List α) (h : l ≠ []) : ((l.length : Nat) : K) ≠ 0 := by
  have := List.length_pos_of_ne_nil h
  positivity

/-- C12: the masked mean is the arithmetic mean of the unmasked entries (NaN counting as 0), NaN when
nothing is unmasked. -/
theorem C12_mask_mean (big : K) (l : Line K) (h : Clean l) :
    (picked l ≠ [] → maskMean big l = Fl.fin (mean (picked l))) ∧
    (picked l = [] → maskMean big l = Fl.nan) := by
  unfold maskMean
  rw [maskFill_sum big l h, maskCount_eq]
  constructor
  · intro hne
    rw [Fl.fin_div_of_ne _ (cast_len_ne _ hne)]; rfl
  · intro he
    simp [he, Fl.fin_div, Fl.infSign]

/-- C12: masked-out entries have no influence (even NaN or infinite ones). -/
theorem C12_mask_mean_noninterference (big : K) (l l' : Line K) (h : SameUnmasked l l') :
    maskMean big l = maskMean big l' := by
  unfold maskMean; rw [maskFill_same big h, maskCount_same h]

/-- C12: the mean lies within the range of the unmasked entries. -/
theorem C12_mask_mean_bounds (big : K) (l : Line K) (h : Clean l) (hne : picked l ≠ []) (lo hi : K)
    (hb : ∀ k ∈ picked l, lo ≤ k ∧ k ≤ hi) :
    ∃ m, maskMean big l = Fl.fin m ∧ lo ≤ m ∧ m ≤ hi := by
  refine ⟨_, (C12_mask_mean big l h).1 hne, ?_⟩
  obtain ⟨b1, b2⟩ := sum_bounds (picked l) lo hi hb
  have := List.length_pos_of_ne_nil hne
  have hp : (0 : K) < ((picked l).length : K) := by positivity
  unfold mean
  exact ⟨by rw [le_div_iff₀ hp]; linarith, by rw [div_le_iff₀ hp]; linarith⟩

/-- C12: Flax `MaskMean` returns the same value as Haiku `MaskMean` on every line. -/
theorem C12_flax_mask_mean (big : K) (l : Line K) : flaxMaskMean big l = maskMean big l := by
  unfold flaxMaskMean maskMean
  by_cases h : maskCount l = 0
  · simp only [h, if_true]
    have hz : ∀ e ∈ l, e.1 = false := by
      rw [maskCount_eq] at h
      have h' : picked l = [] := List.eq_nil_of_length_eq_zero h
      intro e he
      by_contra hc
      have : e ∈ l.filter (·.1) := List.mem_filter.mpr ⟨he, by simpa using hc⟩
      simp only [picked, List.map_eq_nil_iff] at h'
      rw [h'] at this
      simp at this
    have hc : Clean l := fun e he hb => by rw [hz e he] at hb; simp at hb
    rw [maskFill_sum big l hc]
    rw [maskCount_eq] at h
    simp [List.eq_nil_of_length_eq_zero h, Fl.fin_div, Fl.infSign]
  · simp [h]

example : maskMean (K := ℚ) 1000 [(true, .fin 1), (false, .pinf), (true, .fin 4), (true, .nan)] =
    .fin (5 / 3) := by decide +kernel
example : Clean ([(true, .fin 1), (false, .pinf), (true, .fin 4), (true, .nan)] : Line ℚ) := by
  simp [Clean]
example : SameUnmasked ([(true, .fin 1), (false, .pinf)] : Line ℚ) [(true, .fin 1), (false, .nan)] := by
  simp [SameUnmasked]
example : picked ([(true, .fin 1), (false, .pinf), (true, .nan)] : Line ℚ) = [1, 0] := by decide +kernel

/-! ## C13 -/

/-- Mean of the squared deviations from `c`. -/
def secondMoment (c : K) (vs : List K) : K := mean (vs.map fun v => (v - c) * (v - c))

/-- `root` is a square root on the non-negative numbers. -/
def IsRoot (root : K → K) : Prop := ∀ a, 0 ≤ a → 0 ≤ root a ∧ root a * root a = a

example : IsRoot Real.sqrt := fun a h => ⟨Real.sqrt_nonneg a, Real.mul_self_sqrt h⟩

theorem secondMoment_nonneg (c : K) (vs : List K) : 0 ≤ secondMoment c vs := by
  unfold secondMoment mean
  apply div_nonneg _ (by positivity)
  apply List.sum_nonneg
  intro x hx
  obtain ⟨v, _, rfl⟩ := List.mem_map.mp hx
  exact mul_self_nonneg _

theorem maskVarWith_eq (big : K) (ac : Bool) (m : K) (l : Line K) (h : Clean l) :
    maskVarWith big ac (Fl.fin m) l =
      Fl.fin (((picked l).map fun v => (v - if ac then 0 else m) * (v - if ac then 0 else m)).sum) /
        Fl.fin ((picked l).length : K) := by
  unfold maskVarWith
  rw [maskFill_eq big l h, maskCount_eq]
  have : ∀ l : Line K,
      (((List.zip (l.map (·.1)) (l.map fun e =>
          Fl.fin (if e.1 then (match e.2 with | .fin k => k | _ => 0) else 0))).map fun e =>
        let d := if ac then e.2 else e.2 - Fl.fin m
        if e.1 then d else Fl.fin 0).map fun d => d * d).sum =
      Fl.fin (((picked l).map fun v => (v - if ac then 0 else m) * (v - if ac then 0 else m)).sum) := by
    intro l
    induction l with
    | nil => rfl
    | cons e l ih =>
      obtain ⟨b, x⟩ := e
      simp only [List.map_cons, List.zip_cons_cons, List.sum_cons] at ih ⊢
      rw [ih]
      cases b
      · simp [picked]
      · cases ac <;> simp [picked]
  simp only [this l]

/-- C13: on a line with at least one unmasked entry, the standard deviation `s` satisfies
`s² = eps + var` if `var > 0` and `s = 0` if `var = 0`, where `var` is the mean squared deviation of the
unmasked entries from their mean (from 0 if `assume_centered`). -/
theorem C13_mask_std (root : K → K) (hroot : IsRoot root) (eps big : K) (heps : 0 ≤ eps)
    (assumeCentered : Bool) (l : Line K) (h : Clean l) (hne : picked l ≠ []) :
    let var := secondMoment (if assumeCentered then 0 else mean (picked l)) (picked l)
    ∃ s, maskStd root eps big assumeCentered l = Fl.fin s ∧ 0 ≤ s ∧ 0 ≤ var ∧
      (0 < var → s * s = eps + var) ∧ (var = 0 → s = 0) := by
  intro var
  have hv : maskVarWith big assumeCentered (maskMean big l) l = Fl.fin var := by
    rw [(C12_mask_mean big l h).1 hne, maskVarWith_eq big _ _ l h,
      Fl.fin_div_of_ne _ (cast_len_ne _ hne)]
    simp [var, secondMoment, mean]
  have h0 : 0 ≤ var := secondMoment_nonneg _ _
  unfold maskStd
  rw [hv]
  unfold stdOfVar
  by_cases hp : 0 < var
  · have hs : ¬ (eps + var < 0) := by linarith
    have hr := hroot (eps + var) (by linarith)
    refine ⟨root (eps + var), by simp [hp, Fl.sqrt, hs], hr.1, h0, fun _ => hr.2, fun h => ?_⟩
    rw [h] at hp; exact absurd hp (lt_irrefl _)
  · exact ⟨0, by simp [hp], le_refl _, h0, fun h => absurd h hp, fun _ => rfl⟩

/-- C13: with nothing unmasked the Haiku standard deviation is 0 when centring (the variance is NaN, and
NaN is not positive). -/
theorem C13_mask_std_empty (root : K → K) (eps big : K) (ac : Bool) (l : Line K)
    (h : picked l = []) : maskStd root eps big ac l = Fl.fin 0 := by
  have hz : maskCount l = 0 := by rw [maskCount_eq, h]; rfl
  have hf : ∀ e ∈ l, e.1 = false := by
    intro e he
    by_contra hc
    have : e ∈ l.filter (·.1) := List.mem_filter.mpr ⟨he, by simpa using hc⟩
    simp only [picked, List.map_eq_nil_iff] at h
    rw [h] at this; simp at this
  have hs : ∀ l' : Line K, (∀ e ∈ l', e.1 = false) → ∀ m : Fl K,
      ((((List.zip (l'.map (·.1)) (maskFill big l')).map fun e =>
        let d := if ac then e.2 else e.2 - m
        if e.1 then d else Fl.fin 0).map fun d => d * d).sum : Fl K) = Fl.fin 0 := by
    intro l' hl' m
    induction l' with
    | nil => rfl
    | cons e l' ih =>
      obtain ⟨b, x⟩ := e
      have hb := hl' (b, x) (by simp)
      simp only at hb
      subst hb
      have := ih (fun e he => hl' e (by simp [he]))
      simp only [maskFill, List.map_cons, List.zip_cons_cons, List.sum_cons] at this ⊢
      rw [this]; simp
  unfold maskStd maskVarWith
  simp only [hs l hf, hz]
  simp [stdOfVar, Fl.fin_div, Fl.infSign]

/-- C13: masked-out entries have no influence. -/
theorem C13_mask_std_noninterference (root : K → K) (eps big : K) (ac : Bool) (l l' : Line K)
    (h : SameUnmasked l l') : maskStd root eps big ac l = maskStd root eps big ac l' := by
  unfold maskStd maskVarWith
  rw [C12_mask_mean_noninterference big l l' h, maskFill_same big h, maskCount_same h, fst_same h]

/-- C13: shifting all entries by a constant does not change the (centred) standard deviation, when the
unmasked entries are finite. -/
theorem C13_mask_std_translation (root : K → K) (eps big c : K) (l : Line K)
    (hf : ∀ e ∈ l, e.1 = true → e.2.isFin = true) :
    maskStd root eps big false (l.map fun e => (e.1, e.2 + Fl.fin c)) =
      maskStd root eps big false l := by
  have hc : Clean l := by
    intro e he hb
    have := hf e he hb
    cases hx : e.2 <;> simp_all
  have hc' : Clean (l.map fun e => (e.1, e.2 + Fl.fin c)) := by
    intro e he hb
    obtain ⟨a, ha, rfl⟩ := List.mem_map.mp he
    have := hf a ha hb
    cases hx : a.2 <;> simp_all
  have hp : picked (l.map fun e => (e.1, e.2 + Fl.fin c)) = (picked l).map (· + c) := by
    induction l with
    | nil => rfl
    | cons e l ih =>
      obtain ⟨b, x⟩ := e
      have h1 := ih (fun e he => hf e (by simp [he])) (fun e he => hc e (by simp [he]))
        (fun e he => hc' e (by simp at he ⊢; exact Or.inr he))
      have h2 := hf (b, x) (by simp)
      cases b
      · simpa [picked] using h1
      · cases x with
        | fin k => simp [picked] at h1 ⊢; exact h1
        | nan => simp at h2
        | pinf => simp at h2
        | ninf => simp at h2
  by_cases hne : picked l = []
  · rw [C13_mask_std_empty _ _ _ _ l hne, C13_mask_std_empty _ _ _ _ _ (by rw [hp, hne]; rfl)]
  · have hne' : picked (l.map fun e => (e.1, e.2 + Fl.fin c)) ≠ [] := by rw [hp]; simpa using hne
    have hm : mean ((picked l).map (· + c)) = mean (picked l) + c := by
      unfold mean
      have hsum : ((picked l).map (· + c)).sum = (picked l).sum + (picked l).length * c := by
        generalize picked l = vs
        induction vs with
        | nil => simp
        | cons v vs ih => simp only [List.map_cons, List.sum_cons, ih, List.length_cons]; push_cast; ring
      have := cast_len_ne (K := K) _ hne
      rw [hsum, List.length_map]
      field_simp
    unfold maskStd
    rw [(C12_mask_mean big l hc).1 hne, (C12_mask_mean big _ hc').1 hne',
      maskVarWith_eq big _ _ l hc, maskVarWith_eq big _ _ _ hc', hp, hm]
    simp only [List.length_map, List.map_map]
    congr 4
    apply List.map_congr_left
    intro v _
    simp

/-- C13: normalised data is always finite: no NaN or infinity survives, whatever the data and mask. -/
theorem C13_mask_normalize_finite (root : K → K) (eps big : K) (ac : Bool) (l : Line K) :
    ∀ y ∈ maskNormalize root eps big ac l, y.isFin = true :=
  (C10_fill_nan_inf_finite (Fl.fin 0) _).1 rfl

/-- C13: where the standard deviation is a positive number, finite entries are divided by it; where it is
0, every entry becomes 0. -/
theorem C13_mask_normalize (root : K → K) (eps big : K) (ac : Bool) (l : Line K) (s : K)
    (hs : maskStd root eps big ac l = Fl.fin s) (i : Nat) (b : Bool) (x : K)
    (hi : l[i]? = some (b, Fl.fin x)) :
    (maskNormalize root eps big ac l)[i]? = some (Fl.fin (if s = 0 then 0 else x / s)) := by
  simp only [maskNormalize, fillNanInf, hs, List.getElem?_map, hi, Option.map_some]
  by_cases h : s = 0
  · simp only [h, Fl.fin_div, if_true, Fl.infSign]
    split
    · rfl
    · split <;> rfl
  · simp [h]

/-- C13, recorded defect of `axis=1`: with two rows, a constant row gets a non-zero standard deviation,
because the row means are subtracted from the columns. -/
theorem C13_mask_std_axis1_wrong (root : K → K) (hroot : IsRoot root) (eps big : K) (heps : 0 ≤ eps) :
    let rows : List (Line K) := [[(true, .fin 1), (true, .fin 3)], [(true, .fin 5), (true, .fin 5)]]
    maskStdAxis1 root eps big rows ≠ rows.map (maskStd root eps big false) := by
  intro rows hcon
  have hc : Clean ([(true, .fin 5), (true, .fin 5)] : Line K) := by simp [Clean]
  have hc1 : Clean ([(true, .fin 1), (true, .fin 3)] : Line K) := by simp [Clean]
  have h5 : maskMean big ([(true, .fin 5), (true, .fin 5)] : Line K) = .fin 5 := by
    rw [(C12_mask_mean big _ hc).1 (by simp [picked])]
    simp [picked, mean]
  have h2 : maskMean big ([(true, .fin 1), (true, .fin 3)] : Line K) = .fin 2 := by
    rw [(C12_mask_mean big _ hc1).1 (by simp [picked])]
    simp [picked, mean]; norm_num
  have hright : (rows.map (maskStd root eps big false))[1]? = some (Fl.fin 0) := by
    obtain ⟨s, e1, _, _, _, e2⟩ := C13_mask_std root hroot eps big heps false _ hc (by simp [picked])
    have hv : secondMoment (if false = true then 0 else mean (picked
        ([(true, .fin 5), (true, .fin 5)] : Line K))) (picked [(true, .fin 5), (true, .fin 5)]) = 0 := by
      simp [picked, mean, secondMoment]
    rw [e2 hv] at e1
    simp [rows, e1]
  have hleft : ∃ v : K, 0 < v ∧ (maskStdAxis1 root eps big rows)[1]? = some (Fl.fin (root (eps + v))) := by
    refine ⟨9 / 2, by norm_num, ?_⟩
    have hne : ((2 : K)) ≠ 0 := by norm_num
    simp only [maskStdAxis1, rows, List.map_cons, List.map_nil, h5, h2]
    simp only [maskFill, List.map_cons, List.map_nil, nanToNumDefault, Fl.nanToNum_fin, if_true,
      List.zipWith_cons_cons, List.zipWith_nil_left, Fl.fin_sub, List.zip_cons_cons, List.zip_nil_left,
      List.getElem?_cons_succ, List.getElem?_cons_zero, Option.some.injEq, Fl.fin_mul, List.sum_cons,
      List.sum_nil, Fl.zero_def, Fl.fin_add, maskCount]
    have e1 : (((1 + (1 + 0) : Nat)) : K) = 2 := by norm_num
    rw [e1, Fl.fin_div_of_ne _ hne]
    have e2 : ((5 - 2) * (5 - 2) + ((5 - 5) * (5 - 5) + 0)) / (2 : K) = 9 / 2 := by norm_num
    rw [e2]
    have hp : (0 : K) < 9 / 2 := by norm_num
    have hn : ¬ (eps + 9 / 2 < 0) := by linarith
    simp [stdOfVar, hp, Fl.sqrt, hn]
  obtain ⟨v, hv, hleft⟩ := hleft
  rw [hcon, hright] at hleft
  simp only [Option.some.injEq, Fl.fin.injEq] at hleft
  have := (hroot (eps + v) (by linarith)).2
  rw [← hleft] at this
  linarith

/-- C13: Flax `MaskStd` equals the Haiku formula when the unmasked entries are finite and there is at least
one (the two use a different `eps`). -/
theorem C13_flax_mask_std (root : K → K) (eps big : K) (ac : Bool) (l : Line K)
    (hf : ∀ e ∈ l, e.1 = true → e.2.isFin = true) (hne : picked l ≠ []) :
    flaxMaskStd root eps big ac l = maskStd root eps big ac l := by
  have hc : Clean l := by
    intro e he hb
    have := hf e he hb
    cases hx : e.2 <;> simp_all
  have h0 : maskCount l ≠ 0 := by
    rw [maskCount_eq]; exact Nat.pos_iff_ne_zero.mp (List.length_pos_of_ne_nil hne)
  unfold flaxMaskStd maskStd
  simp only [h0, if_false]
  have hm : (maskFill big l).sum / Fl.fin (maskCount l : K) = maskMean big l := rfl
  rw [hm, (C12_mask_mean big l hc).1 hne, maskVarWith_eq big ac _ l hc, maskCount_eq]
  congr 2
  cases ac with
  | true =>
    simp only [if_true, maskFill_eq big l hc]
    clear hm h0 hne hc hf
    induction l with
    | nil => rfl
    | cons e l ih =>
      obtain ⟨b, x⟩ := e
      simp only [List.map_cons, List.sum_cons, sub_zero] at ih ⊢
      rw [ih]
      cases b <;> simp [picked]
  | false =>
    simp only [Bool.false_eq_true, if_false]
    generalize mean (picked l) = m
    clear hm h0 hne hc
    induction l with
    | nil => rfl
    | cons e l ih =>
      obtain ⟨b, x⟩ := e
      have h2 := hf (b, x) (by simp)
      have ih := ih (fun e he => hf e (by simp [he]))
      simp only [List.map_cons, List.sum_cons] at ih ⊢
      rw [ih]
      cases b
      · simp [picked]
      · cases x with
        | fin k => simp [picked]
        | nan => simp at h2
        | pinf => simp at h2
        | ninf => simp at h2

/-- C13, recorded difference: a NaN at an unmasked position makes the Flax (centred) standard deviation
0, while Haiku counts the NaN as 0. -/
theorem C13_flax_mask_std_nan (root : K → K) (eps big : K) (l : Line K)
    (hn : ∃ e ∈ l, e.1 = true ∧ e.2 = Fl.nan) : flaxMaskStd root eps big false l = Fl.fin 0 := by
  have hcount : maskCount l ≠ 0 := by
    obtain ⟨e, he, hb, _⟩ := hn
    rw [maskCount_eq]
    intro h
    have h' : picked l = [] := List.eq_nil_of_length_eq_zero h
    simp only [picked, List.map_eq_nil_iff] at h'
    have : e ∈ l.filter (·.1) := List.mem_filter.mpr ⟨he, hb⟩
    rw [h'] at this; simp at this
  unfold flaxMaskStd
  simp only [hcount, if_false, Bool.false_eq_true]
  generalize (maskFill big l).sum / Fl.fin (maskCount l : K) = m
  have : ((l.map fun e => if e.1 then e.2 - m else Fl.fin 0).map fun d => d * d).sum = Fl.nan := by
    clear hcount
    induction l with
    | nil => simp at hn
    | cons e l ih =>
      obtain ⟨a, ha, hb, hx⟩ := hn
      simp only [List.map_cons, List.sum_cons]
      rcases List.mem_cons.mp ha with rfl | ha
      · simp [hb, hx]
      · have := ih ⟨a, ha, hb, hx⟩
        rw [this]; simp
  rw [this]
  simp [stdOfVar]

example : ∃ e ∈ ([(true, .fin 1), (true, .nan)] : Line ℚ), e.1 = true ∧ e.2 = Fl.nan :=
  ⟨(true, .nan), by simp, rfl, rfl⟩
example : ∀ e ∈ ([(true, .fin 1), (false, .nan)] : Line ℚ), e.1 = true → e.2.isFin = true := by simp
example : maskStd (K := ℚ) (fun x => x) 0 1000 false [(true, .fin 1), (false, .nan), (true, .fin 3)] =
    .fin 1 := by decide +kernel

end Numeric
end Verif.Props
