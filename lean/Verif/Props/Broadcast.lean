import Verif.Spec.Broadcast
import Verif.Props.Masks

/-! # Properties C143–C146: masked statistics along an axis, for arrays of any rank -/

set_option linter.unusedSectionVars false
set_option linter.unusedSimpArgs false

namespace Verif.Props
open Verif.Model Verif.Spec Verif.Model.Broadcast

/-! ## Broadcasting -/

theorem bcDim_self (a : Nat) : bcDim a a = some a := by simp [bcDim]

theorem bcDim_one_right (a : Nat) : bcDim a 1 = some a := by
  unfold bcDim
  by_cases h : a = 1 <;> simp [h]

theorem bcDim_one_left (a : Nat) : bcDim 1 a = some a := by
  unfold bcDim
  by_cases h : a = 1
  · simp [h]
  · have : ¬ (1 = a) := fun e => h e.symm
    simp [this]

theorem zip_self_mapM (s : List Nat) :
    ((List.zip s s).mapM fun p => bcDim p.1 p.2) = some s := by
  induction s with
  | nil => rfl
  | cons a s ih => simp [List.mapM_cons, bcDim_self, ih]

theorem bcShape_self (s : List Nat) : bcShape s s = some s := by
  simp [bcShape, padLeft, zip_self_mapM]

theorem bcShape_nil (s : List Nat) : bcShape s [] = some s := by
  simp only [bcShape, padLeft, List.length_nil, Nat.max_zero, Nat.sub_zero, Nat.sub_self,
    List.replicate_zero, List.nil_append, List.append_nil]
  induction s with
  | nil => rfl
  | cons a s ih => simp [List.replicate_succ, List.mapM_cons, bcDim_one_right, ih]

theorem bcIndex_self (s i : List Nat) (h : Valid s i) : bcIndex s i = i := by
  have hl : i.length = s.length := List.Forall₂.length_eq h
  simp only [bcIndex, hl, Nat.sub_self, List.drop_zero]
  induction h with
  | nil => rfl
  | @cons j d i s hjd _ ih =>
    have := ih (by simpa using hl)
    simp only [List.zipWith_cons_cons, this]
    by_cases hd : d = 1
    · have : j = 0 := by omega
      simp [hd, this]
    · simp [hd]

theorem bcIndex_idem (s i : List Nat) : bcIndex s (bcIndex s i) = bcIndex s i := by
  have hl : (bcIndex s i).length - s.length = 0 := by simp [bcIndex]
  rw [bcIndex, hl, List.drop_zero, bcIndex]
  generalize i.drop (i.length - s.length) = u
  clear hl
  induction s generalizing u with
  | nil => simp
  | cons d s ih =>
    cases u with
    | nil => simp
    | cons j u =>
      simp only [List.zipWith_cons_cons, ih]
      by_cases hd : d = 1 <;> simp [hd]

theorem bcIndex_nil (i : List Nat) : bcIndex [] i = [] := by simp [bcIndex]

theorem Returns.congr {ε α : Type} {r : Except ε (Nd α)} {s : List Nat} {f g : List Nat → α}
    (h : Returns r s f) (hfg : ∀ i, Valid s i → f i = g i) : Returns r s g := by
  obtain ⟨y, h1, h2, h3⟩ := h
  exact ⟨y, h1, h2, fun i hi => by rw [h3 i hi, hfg i hi]⟩

theorem map2_eq {α β γ : Type} (f : α → β → γ) (a : Nd α) (b : Nd β) (h : bcShape a.shape b.shape = some a.shape) :
    map2 f a b = .ok ⟨a.shape, fun i => f (a.at_ (bcIndex a.shape i)) (b.at_ (bcIndex b.shape i))⟩ := by
  simp [map2, h]

theorem map2_same {α β γ : Type} (f : α → β → γ) (a : Nd α) (b : Nd β) (h : a.shape = b.shape) :
    Returns (map2 f a b) a.shape (fun i => f (a.at_ i) (b.at_ i)) := by
  refine ⟨⟨a.shape, fun i => f (a.at_ (bcIndex a.shape i)) (b.at_ (bcIndex b.shape i))⟩, ?_, rfl, ?_⟩
  · simp [map2, ← h, bcShape_self]
  · intro i hi
    simp only [← h, bcIndex_self _ _ hi]

theorem map2_scalar {α β γ : Type} (f : α → β → γ) (a : Nd α) (b : Nd β) (h : b.shape = []) :
    Returns (map2 f a b) a.shape (fun i => f (a.at_ i) (b.at_ [])) := by
  refine ⟨⟨a.shape, fun i => f (a.at_ (bcIndex a.shape i)) (b.at_ (bcIndex b.shape i))⟩, ?_, rfl, ?_⟩
  · simp [map2, h, bcShape_nil]
  · intro i hi
    simp only [h, bcIndex_nil, bcIndex_self _ _ hi]

theorem valid_insert (s i : List Nat) (p j : Nat) (hp : p < s.length) (hi : Valid (s.eraseIdx p) i)
    (hj : j < s.getD p 0) : Valid s (i.insertIdx p j) := by
  induction s generalizing i p with
  | nil => simp at hp
  | cons d s ih =>
    cases p with
    | zero =>
      simp only [List.eraseIdx_cons_zero] at hi
      simp only [List.insertIdx_zero]
      exact List.Forall₂.cons (by simpa using hj) hi
    | succ p =>
      simp only [List.eraseIdx_cons_succ] at hi
      cases hi with
      | cons h1 h2 =>
        simp only [List.insertIdx_succ_cons]
        exact List.Forall₂.cons h1 (ih _ p (by simpa using hp) h2 (by simpa using hj))

theorem valid_allIx (s i : List Nat) : i ∈ allIx s ↔ Valid s i := by
  induction s generalizing i with
  | nil =>
    simp only [allIx, List.mem_singleton]
    constructor
    · rintro rfl; exact List.Forall₂.nil
    · intro h; cases h; rfl
  | cons d s ih =>
    simp only [allIx, List.mem_flatMap, List.mem_range, List.mem_map]
    constructor
    · rintro ⟨j, hj, k, hk, rfl⟩
      exact List.Forall₂.cons hj ((ih k).1 hk)
    · intro h
      cases h with
      | cons h1 h2 => exact ⟨_, h1, _, (ih _).2 h2, rfl⟩

theorem axisPos_lt {n p : Nat} {k : Int} (h : axisPos n k = some p) : p < n := by
  unfold axisPos at h
  split at h
  · simp only [Option.some.injEq] at h; omega
  · split at h
    · simp only [Option.some.injEq] at h; omega
    · simp at h

theorem axisPos_iff (n : Nat) (k : Int) (p : Nat) : axisPos n k = some p ↔ IsAxis n k p := by
  unfold axisPos IsAxis
  split
  · simp only [Option.some.injEq]; omega
  · split
    · simp only [Option.some.injEq]; omega
    · simp only [reduceCtorEq, false_iff]; omega

/-! ## C143 -/

section
variable {K : Type} [Field K] [LinearOrder K]

theorem C143_rejects (big : K) (axis : Option Int) (mask : Nd Bool) (x : Nd (Fl K)) (h : x.shape ≠ mask.shape) :
    maskMeanNd big axis mask x = .error .shapeMismatch := by
  simp [maskMeanNd, applyMaskNd, h, bind, Except.bind]

theorem maskFill_along (big : K) (p : Nat) (mask : Nd Bool) (x : Nd (Fl K)) (i : List Nat) :
    maskFill big (lineAlong p mask x i) = (List.range (x.shape.getD p 0)).map fun j =>
      nanToNumDefault big (if mask.at_ (i.insertIdx p j) then x.at_ (i.insertIdx p j) else Fl.fin 0) := by
  simp [maskFill, lineAlong, List.map_map, Function.comp_def]

theorem maskCount_along (p : Nat) (mask : Nd Bool) (x : Nd (Fl K)) (i : List Nat) :
    maskCount (lineAlong p mask x i) = count ((List.range (x.shape.getD p 0)).map fun j =>
      mask.at_ (i.insertIdx p j)) := by
  simp [maskCount, count, lineAlong, List.map_map, Function.comp_def]

theorem maskFill_whole (big : K) (mask : Nd Bool) (x : Nd (Fl K)) :
    maskFill big (wholeLine mask x) = (allIx x.shape).map fun j =>
      nanToNumDefault big (if mask.at_ j then x.at_ j else Fl.fin 0) := by
  simp [maskFill, wholeLine, List.map_map, Function.comp_def]

theorem maskCount_whole (mask : Nd Bool) (x : Nd (Fl K)) :
    maskCount (wholeLine mask x) = count ((allIx x.shape).map mask.at_) := by
  simp [maskCount, count, wholeLine, List.map_map, Function.comp_def]

/-- C143, `axis=None`: one number, the masked mean of every entry. -/
theorem C143_mask_mean_none (big : K) (mask : Nd Bool) (x : Nd (Fl K)) (h : x.shape = mask.shape) :
    Returns (maskMeanNd big none mask x) [] (fun _ => maskMean big (wholeLine mask x)) := by
  simp only [maskMeanNd, applyMaskNd, h, ne_eq, not_true_eq_false, if_false, bind, Except.bind, reduce, Nd.map]
  refine Returns.congr (map2_same _ _ _ ?_) ?_
  · rfl
  intro i hi
  rw [maskMean, maskFill_whole, maskCount_whole, h]

/-- C143, any axis of an array of any rank: the result has the other axes, and each of its entries is the masked
mean of the line through it. -/
theorem C143_mask_mean_axis (big : K) (k : Int) (p : Nat) (mask : Nd Bool) (x : Nd (Fl K))
    (h : x.shape = mask.shape) (hk : IsAxis x.shape.length k p) :
    Returns (maskMeanNd big (some k) mask x) (x.shape.eraseIdx p)
      (fun i => maskMean big (lineAlong p mask x i)) := by
  rw [← axisPos_iff] at hk
  have hk' : axisPos mask.shape.length k = some p := by rw [← h]; exact hk
  simp only [maskMeanNd, applyMaskNd, h, ne_eq, not_true_eq_false, if_false, bind, Except.bind, reduce, Nd.map,
    hk']
  refine Returns.congr (map2_same _ _ _ ?_) ?_
  · rfl
  intro i hi
  rw [maskMean, maskFill_along, maskCount_along, h]

/-- C143: an axis the array does not have is refused. -/
theorem C143_mask_mean_bad_axis (big : K) (k : Int) (mask : Nd Bool) (x : Nd (Fl K))
    (h : x.shape = mask.shape) (hk : k < -(x.shape.length : Int) ∨ (x.shape.length : Int) ≤ k) :
    maskMeanNd big (some k) mask x = .error .axisError := by
  have : axisPos mask.shape.length k = none := by
    rw [← h]; unfold axisPos
    rw [if_neg (by omega), if_neg (by omega)]
  simp [maskMeanNd, applyMaskNd, h, bind, Except.bind, reduce, this]

/-- C143, a concrete case: the column means of a 2 × 2 array with one entry masked out. -/
example : Returns (maskMeanNd (1000 : ℚ) (some 0)
      ⟨[2, 2], fun i => decide (i ≠ [1, 1])⟩ ⟨[2, 2], fun i => Fl.fin ((i.getD 0 0 + 2 * i.getD 1 0 : Nat) : ℚ)⟩)
    [2] (fun i => if i = [0] then Fl.fin (1 / 2) else Fl.fin 2) := by
  refine Returns.congr (C143_mask_mean_axis 1000 0 0 _ _ rfl ⟨by decide, by decide⟩) ?_
  intro i hi
  have hi : i ∈ allIx [2] := (valid_allIx [2] i).2 hi
  simp only [allIx, List.range, List.range.loop, List.flatMap_cons, List.flatMap_nil, List.map_cons, List.map_nil,
    List.append_nil, List.mem_append, List.mem_singleton, List.mem_cons, List.not_mem_nil, or_false] at hi
  rcases hi with rfl | rfl <;> decide +kernel

/-! ## C144 -/

theorem bcDim_left_iff (a b : Nat) : bcDim a b = some a ↔ b = 1 ∨ b = a := by
  unfold bcDim
  by_cases h : a = b
  · simp [h]
  · by_cases h1 : a = 1
    · subst h1
      simp only [h, if_true, if_false, Option.some.injEq]; omega
    · by_cases h2 : b = 1
      · simp [h, h1, h2]
      · simp only [h, h1, h2, if_false, false_or]
        constructor
        · intro hc; cases hc
        · intro hc; exact absurd hc.symm h

theorem zip_mapM_iff (s t : List Nat) (hl : t.length = s.length) :
    ((List.zip s t).mapM fun p => bcDim p.1 p.2) = some s ↔
      ∀ j < s.length, t.getD j 0 = 1 ∨ t.getD j 0 = s.getD j 0 := by
  induction s generalizing t with
  | nil => simp
  | cons a s ih =>
    cases t with
    | nil => simp at hl
    | cons b t =>
      have ih := ih t (by simpa using hl)
      have e : ((List.zip (a :: s) (b :: t)).mapM fun p => bcDim p.1 p.2) = some (a :: s) ↔
          bcDim a b = some a ∧ ((List.zip s t).mapM fun p => bcDim p.1 p.2) = some s := by
        simp only [List.zip_cons_cons, List.mapM_cons]
        cases bcDim a b with
        | none => simp
        | some c =>
          cases (List.zip s t).mapM fun p => bcDim p.1 p.2 with
          | none => simp
          | some u => simp [List.cons.injEq]
      rw [e, ih, bcDim_left_iff]
      constructor
      · rintro ⟨h1, h2⟩ j hj
        cases j with
        | zero => simpa using h1
        | succ j => simpa using h2 j (by simpa using hj)
      · intro h
        refine ⟨by simpa using h 0 (by simp), fun j hj => ?_⟩
        simpa using h (j + 1) (by simpa using hj)

/-- The lines' means can be subtracted from the array iff each axis before the reduced one has length 1 or the
length of the next axis. -/
theorem bcShape_erase (s : List Nat) (p : Nat) (hp : p < s.length) :
    bcShape s (s.eraseIdx p) = some s ↔
      ∀ j < p, s.getD j 0 = 1 ∨ s.getD j 0 = s.getD (j + 1) 0 := by
  have hl : (s.eraseIdx p).length = s.length - 1 := by rw [List.length_eraseIdx]; simp [hp]
  have e1 : max s.length (s.length - 1) = s.length := by omega
  have e2 : s.length - (s.length - 1) = 1 := by omega
  simp only [bcShape, padLeft, hl, e1, e2, Nat.sub_self, List.replicate_zero, List.nil_append,
    List.replicate_one, List.singleton_append]
  rw [zip_mapM_iff _ _ (by simp [hl]; omega)]
  constructor
  · intro h j hj
    have := h (j + 1) (by omega)
    rw [List.getD_cons_succ, List.getD_eq_getElem?_getD, List.getElem?_eraseIdx_of_lt hj,
      ← List.getD_eq_getElem?_getD] at this
    exact this
  · intro h j hj
    cases j with
    | zero => simp
    | succ j =>
      rw [List.getD_cons_succ]
      by_cases hjp : j < p
      · rw [List.getD_eq_getElem?_getD, List.getElem?_eraseIdx_of_lt hjp, ← List.getD_eq_getElem?_getD]
        exact h j hjp
      · rw [List.getD_eq_getElem?_getD, List.getElem?_eraseIdx_of_ge (by omega),
          ← List.getD_eq_getElem?_getD]
        exact Or.inr rfl

/-- When the axes before the reduced one have length 1, broadcasting reads the mean of the entry's own line. -/
theorem bcIndex_erase (s i : List Nat) (p j : Nat) (hp : p < s.length) (hi : Valid (s.eraseIdx p) i)
    (h1 : ∀ q < p, s.getD q 0 = 1) : bcIndex (s.eraseIdx p) (i.insertIdx p j) = i := by
  have hl : (s.eraseIdx p).length = s.length - 1 := by rw [List.length_eraseIdx]; simp [hp]
  have hil : i.length = s.length - 1 := by rw [← hl]; exact List.Forall₂.length_eq hi
  have hil' : (i.insertIdx p j).length = s.length := by
    rw [List.length_insertIdx, if_pos (by omega)]; omega
  have e : s.length - (s.length - 1) = 1 := by omega
  simp only [bcIndex, hil', hl, e, List.drop_one]
  clear hl hil hil' e
  induction p generalizing s i with
  | zero =>
    cases s with
    | nil => simp at hp
    | cons d s =>
      simp only [List.eraseIdx_cons_zero] at hi
      have := bcIndex_self s i hi
      have hl : i.length = s.length := List.Forall₂.length_eq hi
      simpa [bcIndex, hl] using this
  | succ p ih =>
    cases s with
    | nil => simp at hp
    | cons d s =>
      simp only [List.eraseIdx_cons_succ] at hi
      cases hi with
      | @cons a _ i _ ha hi =>
        have hd : d = 1 := by simpa using h1 0 (by omega)
        have ha0 : a = 0 := by omega
        have := ih s i (by simpa using hp) hi (fun q hq => by simpa using h1 (q + 1) (by omega))
        have hlen : p ≤ i.length := by
          have := List.Forall₂.length_eq hi
          have h3 : (s.eraseIdx p).length = s.length - 1 := by
            rw [List.length_eraseIdx]; simp at hp; simp [hp]
          simp at hp; omega
        have hne : (i.insertIdx p j) ≠ [] := by
          intro hc
          have := congrArg List.length hc
          rw [List.length_insertIdx, if_pos hlen] at this
          simp at this
        obtain ⟨b, t, hbt⟩ := List.exists_cons_of_ne_nil hne
        rw [hbt] at this
        simp only [List.eraseIdx_cons_succ, List.insertIdx_succ_cons, List.tail_cons, hbt,
          List.zipWith_cons_cons, hd, if_true, ha0]
        rw [← this]; rfl

/-- The standard deviation of a line of (mask, value, centre) triples: each unmasked deviation is taken from the
entry's own centre. -/
def stdAround (root : K → K) (eps big : K) (l : List (Bool × Fl K × Fl K)) : Fl K :=
  let dev := l.map fun e => if e.1 then nanToNumDefault big e.2.1 - e.2.2 else Fl.fin 0
  stdOfVar root eps ((dev.map fun d => d * d).sum / Fl.fin ((count (l.map (·.1)) : Nat) : K))

/-- Around the line's own mean, this is the standard deviation of one line of `Model/Masks.lean`. -/
theorem stdAround_mean (root : K → K) (eps big : K) (l : Line K) :
    stdAround root eps big (l.map fun e => (e.1, e.2, maskMean big l)) = maskStd root eps big false l := by
  have h2 : count (l.map fun e => e.1) = maskCount l := by simp [count, maskCount, List.map_map, Function.comp_def]
  have h1 : ∀ (m : Fl K) (l : Line K), (l.map fun e => if e.1 then nanToNumDefault big e.2 - m else Fl.fin 0) =
      (List.zip (l.map (·.1)) (maskFill big l)).map fun e => if e.1 then e.2 - m else Fl.fin 0 := by
    intro m l
    induction l with
    | nil => rfl
    | cons e l ih =>
      obtain ⟨b, v⟩ := e
      simp only [maskFill] at ih
      cases b <;> simp [maskFill, ih]
  simp only [stdAround, List.map_map, Function.comp_def, maskStd, maskVarWith, h2]
  have := h1 (maskMean big l) l
  simp only [Bool.false_eq_true, if_false]
  rw [show (List.map (fun x => (if x.1 = true then nanToNumDefault big x.2 - maskMean big l else Fl.fin 0) *
      (if x.1 = true then nanToNumDefault big x.2 - maskMean big l else Fl.fin 0)) l) =
      ((l.map fun e => if e.1 then nanToNumDefault big e.2 - maskMean big l else Fl.fin 0).map
        fun d => d * d) by simp [List.map_map, Function.comp_def], this]
  simp [List.map_map, Function.comp_def]

theorem C144_rejects (root : K → K) (eps big : K) (ac : Bool) (axis : Option Int) (mask : Nd Bool) (x : Nd (Fl K))
    (h : x.shape ≠ mask.shape) : maskStdNd root eps big ac axis mask x = .error .shapeMismatch := by
  simp [maskStdNd, applyMaskNd, h, bind, Except.bind]

/-- C144, `assume_centered`: along any axis of an array of any rank, each entry of the result is the masked root
mean square of the line through it. -/
theorem C144_mask_std_centered (root : K → K) (eps big : K) (k : Int) (p : Nat) (mask : Nd Bool) (x : Nd (Fl K))
    (h : x.shape = mask.shape) (hk : IsAxis x.shape.length k p) :
    Returns (maskStdNd root eps big true (some k) mask x) (x.shape.eraseIdx p)
      (fun i => maskStd root eps big true (lineAlong p mask x i)) := by
  rw [← axisPos_iff] at hk
  obtain ⟨s, f⟩ := x
  obtain ⟨s', m⟩ := mask
  obtain rfl : s = s' := h
  dsimp only at hk
  simp only [maskStdNd, applyMaskNd, ne_eq, not_true_eq_false, if_false, bind, Except.bind, reduce, Nd.map,
    hk, map2_eq, bcShape_self, if_true]
  refine ⟨_, rfl, rfl, fun i hi => ?_⟩
  simp only [bcIndex_self _ _ hi, maskStd, maskVarWith, maskFill_along, maskCount_along, if_true]
  congr 3
  simp only [lineAlong, List.map_map, Function.comp_def]
  rw [List.zip_eq_zipWith, List.zipWith_map]
  simp only [List.zipWith_self, List.map_map, Function.comp_def]

/-- C144, the exact behaviour along an axis of an array of any rank (`p` is the position of the axis): the call is
accepted exactly when every axis before `p` has length 1 or the length of the next axis, and then entry `j` of the
line through `i` is centred with the mean of the line that broadcasting selects. -/
theorem C144_mask_std_axis_exact (root : K → K) (eps big : K) (k : Int) (p : Nat) (mask : Nd Bool) (x : Nd (Fl K))
    (h : x.shape = mask.shape) (hk : IsAxis x.shape.length k p) :
    ((∀ q < p, x.shape.getD q 0 = 1 ∨ x.shape.getD q 0 = x.shape.getD (q + 1) 0) →
      Returns (maskStdNd root eps big false (some k) mask x) (x.shape.eraseIdx p)
        (fun i => stdAround root eps big ((List.range (x.shape.getD p 0)).map fun j =>
          (mask.at_ (i.insertIdx p j), x.at_ (i.insertIdx p j),
            maskMean big (lineAlong p mask x (bcIndex (x.shape.eraseIdx p) (i.insertIdx p j))))))) ∧
    ((¬ ∀ q < p, x.shape.getD q 0 = 1 ∨ x.shape.getD q 0 = x.shape.getD (q + 1) 0) →
      ∃ e, maskStdNd root eps big false (some k) mask x = .error e) := by
  rw [← axisPos_iff] at hk
  obtain ⟨s, f⟩ := x
  obtain ⟨s', m⟩ := mask
  obtain rfl : s = s' := h
  dsimp only at hk ⊢
  have hp := axisPos_lt hk
  rw [← bcShape_erase s p hp]
  constructor
  · intro hb
    simp only [maskStdNd, applyMaskNd, ne_eq, not_true_eq_false, if_false, bind, Except.bind, reduce, Nd.map,
      hk, map2_eq, bcShape_self, hb, Bool.false_eq_true]
    refine ⟨_, rfl, rfl, fun i hi => ?_⟩
    have hin : ∀ j < s.getD p 0, Valid s (i.insertIdx p j) := fun j hj => valid_insert s i p j hp hi hj
    simp only [bcIndex_self _ _ hi, stdAround, List.map_map, Function.comp_def]
    congr 3
    apply List.map_congr_left
    intro j hj
    have hj := List.mem_range.1 hj
    simp only [bcIndex_idem, bcIndex_self _ _ (hin j hj), maskMean, maskFill_along, maskCount_along]
    cases m (i.insertIdx p j) <;> simp
  · intro hb
    simp only [maskStdNd, applyMaskNd, ne_eq, not_true_eq_false, if_false, bind, Except.bind, reduce, Nd.map,
      hk, map2_eq, bcShape_self, Bool.false_eq_true]
    simp only [map2]
    cases hb' : bcShape s (s.eraseIdx p) with
    | none => exact ⟨_, rfl⟩
    | some u =>
      have : u ≠ s := fun e => hb (by rw [hb', e])
      simp only [this, not_false_eq_true, if_true]
      exact ⟨_, rfl⟩

/-- C144: along an axis preceded only by axes of length 1 (in particular `axis=0`), each entry of the result is the
masked standard deviation of the line through it. -/
theorem C144_mask_std_axis_partial (root : K → K) (eps big : K) (k : Int) (p : Nat) (mask : Nd Bool) (x : Nd (Fl K))
    (h : x.shape = mask.shape) (hk : IsAxis x.shape.length k p) (h1 : ∀ q < p, x.shape.getD q 0 = 1) :
    Returns (maskStdNd root eps big false (some k) mask x) (x.shape.eraseIdx p)
      (fun i => maskStd root eps big false (lineAlong p mask x i)) := by
  rw [← axisPos_iff] at hk
  refine Returns.congr ((C144_mask_std_axis_exact root eps big k p mask x h ((axisPos_iff _ _ _).1 hk)).1 fun q hq => Or.inl (h1 q hq)) ?_
  intro i hi
  rw [← stdAround_mean, lineAlong, List.map_map]
  congr 1
  apply List.map_congr_left
  intro j _
  rw [bcIndex_erase _ _ _ _ (axisPos_lt hk) hi h1]
  rfl

/-- C144, `axis=None`: one number, the masked standard deviation of every entry. -/
theorem C144_mask_std_none (root : K → K) (eps big : K) (ac : Bool) (mask : Nd Bool) (x : Nd (Fl K))
    (h : x.shape = mask.shape) :
    Returns (maskStdNd root eps big ac none mask x) [] (fun _ => maskStd root eps big ac (wholeLine mask x)) := by
  obtain ⟨s, f⟩ := x
  obtain ⟨s', m⟩ := mask
  obtain rfl : s = s' := h
  cases ac
  · simp only [maskStdNd, applyMaskNd, ne_eq, not_true_eq_false, if_false, bind, Except.bind, reduce, Nd.map,
      map2_eq, bcShape_self, bcShape_nil, Bool.false_eq_true]
    refine ⟨_, rfl, rfl, fun i hi => ?_⟩
    rw [← stdAround_mean]
    simp only [stdAround, wholeLine, List.map_map, Function.comp_def, bcIndex_nil]
    congr 3
    apply List.map_congr_left
    intro j hj
    simp only [bcIndex_self _ _ ((valid_allIx s j).1 hj), bcIndex_nil, maskMean]
    rw [← wholeLine.eq_1 ⟨s, m⟩ ⟨s, f⟩, maskFill_whole, maskCount_whole]
    cases m j <;> simp
  · simp only [maskStdNd, applyMaskNd, ne_eq, not_true_eq_false, if_false, bind, Except.bind, reduce, Nd.map,
      map2_eq, bcShape_self, if_true]
    refine ⟨_, rfl, rfl, fun i hi => ?_⟩
    simp only [maskStd, maskVarWith, maskFill_whole, maskCount_whole, if_true]
    congr 3
    simp only [wholeLine, List.map_map, Function.comp_def]
    rw [List.zip_eq_zipWith, List.zipWith_map]
    simp only [List.zipWith_self, List.map_map, Function.comp_def]

/-- C144, `axis=1` of an `r × c` array: refused unless `r = 1` or `r = c`. -/
theorem C144_axis1_refused (root : K → K) (eps big : K) (mask : Nd Bool) (x : Nd (Fl K)) (r c : Nat)
    (hs : x.shape = [r, c]) (h : x.shape = mask.shape) (h1 : r ≠ 1) (h2 : r ≠ c) :
    ∃ e, maskStdNd root eps big false (some 1) mask x = .error e := by
  refine (C144_mask_std_axis_exact root eps big 1 1 mask x h ((axisPos_iff _ _ _).1 (by rw [hs]; rfl))).2 fun hq => ?_
  have := hq 0 (by omega)
  rw [hs] at this
  simp at this
  omega

/-- C144, `axis=1` of an `n × n` array: accepted, but entry `(i, j)` is centred with the mean of row `j`. -/
theorem C144_axis1_square (root : K → K) (eps big : K) (mask : Nd Bool) (x : Nd (Fl K)) (n : Nat)
    (hs : x.shape = [n, n]) (h : x.shape = mask.shape) :
    Returns (maskStdNd root eps big false (some 1) mask x) [n]
      (fun i => stdAround root eps big ((List.range n).map fun j =>
        (mask.at_ [i.getD 0 0, j], x.at_ [i.getD 0 0, j], maskMean big (lineAlong 1 mask x [j])))) := by
  have := (C144_mask_std_axis_exact root eps big 1 1 mask x h ((axisPos_iff _ _ _).1 (by rw [hs]; rfl))).1 fun q hq => by
    obtain rfl : q = 0 := by omega
    rw [hs]; exact Or.inr rfl
  rw [hs] at this
  refine Returns.congr this ?_
  intro i hi
  cases hi with
  | @cons a _ t _ ha ht =>
    cases ht
    have e : ∀ j < n, bcIndex [n] [a, j] = [j] := by
      intro j hj
      by_cases hn : n = 1
      · have : j = 0 := by omega
        simp [bcIndex, hn, this]
      · simp [bcIndex, hn]
    congr 1
    apply List.map_congr_left
    intro j hj
    have := e j (List.mem_range.1 hj)
    simp only [List.eraseIdx, List.insertIdx_succ_cons, List.insertIdx_zero, this, List.getD_cons_zero]

end

section
variable {K : Type} [Field K] [LinearOrder K] [IsStrictOrderedRing K]

/-- C144 is false for `axis=1`: with two rows, a constant row gets a non-zero standard deviation. -/
theorem C144_axis1_wrong (root : K → K) (hroot : IsRoot root) (eps big : K) (heps : 0 ≤ eps) :
    ∃ (mask : Nd Bool) (x : Nd (Fl K)), x.shape = [2, 2] ∧ mask.shape = [2, 2] ∧
      ¬ Returns (maskStdNd root eps big false (some 1) mask x) [2]
        (fun i => maskStd root eps big false (lineAlong 1 mask x i)) := by
  refine ⟨⟨[2, 2], fun _ => true⟩,
    ⟨[2, 2], fun i => if i = [0, 0] then .fin 1 else if i = [0, 1] then .fin 3 else .fin 5⟩, rfl, rfl, ?_⟩
  intro hcon
  obtain ⟨y, hy, _, hy1⟩ := C144_axis1_square root eps big ⟨[2, 2], fun _ => true⟩
    ⟨[2, 2], fun i => if i = [0, 0] then Fl.fin (1 : K) else if i = [0, 1] then .fin 3 else .fin 5⟩ 2 rfl rfl
  obtain ⟨y', hy', _, hy1'⟩ := hcon
  rw [hy] at hy'
  cases hy'
  have hv : Valid [2] [1] := List.Forall₂.cons (by omega) List.Forall₂.nil
  have e := (hy1 [1] hv).symm.trans (hy1' [1] hv)
  have hc : Clean ([(true, .fin 5), (true, .fin 5)] : Line K) := by simp [Clean]
  have hc1 : Clean ([(true, .fin 1), (true, .fin 3)] : Line K) := by simp [Clean]
  have h5 : maskMean big ([(true, .fin 5), (true, .fin 5)] : Line K) = .fin 5 := by
    rw [(C12_mask_mean big _ hc).1 (by simp [picked])]
    simp [picked, mean]
  have h2 : maskMean big ([(true, .fin 1), (true, .fin 3)] : Line K) = .fin 2 := by
    rw [(C12_mask_mean big _ hc1).1 (by simp [picked])]
    simp [picked, mean]; norm_num
  have hright : maskStd root eps big false ([(true, .fin 5), (true, .fin 5)] : Line K) = Fl.fin 0 := by
    obtain ⟨s, e1, _, _, _, e2⟩ := C13_mask_std root hroot eps big heps false _ hc (by simp [picked])
    have hv : secondMoment (if false = true then 0 else mean (picked
        ([(true, .fin 5), (true, .fin 5)] : Line K))) (picked [(true, .fin 5), (true, .fin 5)]) = 0 := by
      simp [picked, mean, secondMoment]
    rw [e2 hv] at e1
    exact e1
  simp only [lineAlong, List.range, List.range.loop, List.map_cons, List.map_nil, List.insertIdx_succ_cons,
    List.insertIdx_zero, List.getD_cons_zero, List.getD_cons_succ] at e
  simp only [List.cons.injEq, Nat.one_ne_zero, Nat.zero_ne_one, false_and, and_false, and_true, true_and, if_true,
    if_false, h5, h2, hright] at e
  simp only [stdAround, List.map_cons, List.map_nil, if_true, nanToNumDefault, Fl.nanToNum_fin, Fl.fin_sub,
    Fl.fin_mul, List.sum_cons, List.sum_nil, Fl.zero_def, Fl.fin_add, count] at e
  have hne : ((2 : K)) ≠ 0 := by norm_num
  have e1 : (((1 + (1 + 0) : Nat)) : K) = 2 := by norm_num
  rw [e1, Fl.fin_div_of_ne _ hne] at e
  have e2 : ((5 - 2) * (5 - 2) + ((5 - 5) * (5 - 5) + 0)) / (2 : K) = 9 / 2 := by norm_num
  rw [e2] at e
  have hp : (0 : K) < 9 / 2 := by norm_num
  have hn : ¬ (eps + 9 / 2 < 0) := by linarith
  simp only [stdOfVar, Fl.fin_add, Fl.sqrt, hn, if_false] at e
  simp [hp] at e
  have := (hroot (eps + 9 / 2) (by linarith)).2
  rw [e] at this
  linarith

end

/-! ## C145 -/

section
variable {K : Type} [Field K] [LinearOrder K]

/-- What `FillNanInf()` does to one number: NaN and the infinities become 0. -/
def zeroed : Fl K → Fl K := Fl.nanToNum (Fl.fin 0) (Fl.fin 0) (Fl.fin 0)

theorem eraseIdx_insertIdx_valid (s i : List Nat) (p : Nat) (hp : p < s.length) (hi : Valid s i) :
    Valid (s.eraseIdx p) (i.eraseIdx p) ∧ (i.eraseIdx p).insertIdx p (i.getD p 0) = i := by
  induction s generalizing i p with
  | nil => simp at hp
  | cons d s ih =>
    cases hi with
    | @cons a _ i _ ha hi =>
      cases p with
      | zero => exact ⟨by simp only [List.eraseIdx_cons_zero]; exact hi, by simp⟩
      | succ p =>
        have := ih i p (by simpa using hp) hi
        exact ⟨by simp only [List.eraseIdx_cons_succ]; exact List.Forall₂.cons ha this.1, by simpa using this.2⟩

/-- C145: along an axis preceded only by axes of length 1 (in particular `axis=0`), or along any such axis with
`assume_centered`, every entry is divided by the standard deviation of the line it lies on. -/
theorem C145_mask_normalize_axis_partial (root : K → K) (eps big : K) (ac : Bool) (k : Int) (p : Nat)
    (mask : Nd Bool) (x : Nd (Fl K)) (h : x.shape = mask.shape) (hk : IsAxis x.shape.length k p)
    (h1 : ∀ q < p, x.shape.getD q 0 = 1) :
    Returns (maskNormalizeNd root eps big ac (some k) mask x) x.shape
      (fun i => zeroed (x.at_ i / maskStd root eps big ac (lineAlong p mask x (i.eraseIdx p)))) := by
  rw [← axisPos_iff] at hk
  have hp := axisPos_lt hk
  have hstd : Returns (maskStdNd root eps big ac (some k) mask x) (x.shape.eraseIdx p)
      (fun i => maskStd root eps big ac (lineAlong p mask x i)) := by
    cases ac
    · exact C144_mask_std_axis_partial root eps big k p mask x h ((axisPos_iff _ _ _).1 hk) h1
    · exact C144_mask_std_centered root eps big k p mask x h ((axisPos_iff _ _ _).1 hk)
  obtain ⟨y, hy, hys, hyv⟩ := hstd
  have hb : bcShape x.shape y.shape = some x.shape := by
    rw [hys]; exact (bcShape_erase _ _ hp).2 fun q hq => Or.inl (h1 q hq)
  simp only [maskNormalizeNd, hy, bind, Except.bind, map2_eq _ _ _ hb, Nd.map]
  refine ⟨_, rfl, rfl, fun i hi => ?_⟩
  obtain ⟨e1, e2⟩ := eraseIdx_insertIdx_valid _ _ _ hp hi
  have e3 : bcIndex (x.shape.eraseIdx p) i = i.eraseIdx p := by
    conv_lhs => rw [← e2]
    exact bcIndex_erase _ _ _ _ hp e1 h1
  simp only [hys, e3, bcIndex_self _ _ hi, hyv _ e1, zeroed]

/-- C145, `axis=None`: every entry is divided by the standard deviation of the whole array. -/
theorem C145_mask_normalize_none (root : K → K) (eps big : K) (ac : Bool)
    (mask : Nd Bool) (x : Nd (Fl K)) (h : x.shape = mask.shape) :
    Returns (maskNormalizeNd root eps big ac none mask x) x.shape
      (fun i => zeroed (x.at_ i / maskStd root eps big ac (wholeLine mask x))) := by
  obtain ⟨y, hy, hys, hyv⟩ := C144_mask_std_none root eps big ac mask x h
  have hb : bcShape x.shape y.shape = some x.shape := by rw [hys]; exact bcShape_nil _
  simp only [maskNormalizeNd, hy, bind, Except.bind, map2_eq _ _ _ hb, Nd.map]
  refine ⟨_, rfl, rfl, fun i hi => ?_⟩
  simp only [hys, bcIndex_nil, bcIndex_self _ _ hi, hyv [] List.Forall₂.nil, zeroed]

/-- C145, the exact behaviour of `axis=1, assume_centered=True` on an `r × c` array with `r ≠ 1`: the standard
deviations of the *rows* divide the *columns*.  Refused unless `c = r` or `c = 1`; a single column becomes an
`r × r` matrix. -/
theorem C145_axis1_exact (root : K → K) (eps big : K) (mask : Nd Bool) (x : Nd (Fl K)) (r c : Nat)
    (hs : x.shape = [r, c]) (h : x.shape = mask.shape) (hr : r ≠ 1) :
    (c ≠ r → c ≠ 1 → maskNormalizeNd root eps big true (some 1) mask x = .error .broadcast) ∧
    (c = r → Returns (maskNormalizeNd root eps big true (some 1) mask x) [r, r]
      (fun i => zeroed (x.at_ i / maskStd root eps big true (lineAlong 1 mask x [i.getD 1 0])))) ∧
    (c = 1 → Returns (maskNormalizeNd root eps big true (some 1) mask x) [r, r]
      (fun i => zeroed (x.at_ [i.getD 0 0, 0] /
        maskStd root eps big true (lineAlong 1 mask x [i.getD 1 0])))) := by
  obtain ⟨y, hy, hys, hyv⟩ := C144_mask_std_centered root eps big 1 1 mask x h ((axisPos_iff _ _ _).1 (by rw [hs]; rfl))
  have hys : y.shape = [r] := by rw [hys, hs]; rfl
  rw [hs] at hyv
  have hyw : ∀ j < r, y.at_ [j] = maskStd root eps big true (lineAlong 1 mask x [j]) := fun j hj =>
    hyv [j] (List.Forall₂.cons hj List.Forall₂.nil)
  have hb : bcShape [r, c] [r] = (bcDim c r).map fun d => [r, d] := by
    simp only [bcShape, padLeft, List.length_cons, List.length_nil]
    simp only [Nat.max_def]
    norm_num [List.mapM_cons, bcDim_one_right]
    cases bcDim c r <;> rfl
  refine ⟨fun h1 h2 => ?_, fun h1 => ?_, fun h1 => ?_⟩
  · have : bcDim c r = none := by simp [bcDim, h1, h2, hr]
    simp [maskNormalizeNd, hy, bind, Except.bind, map2, hs, hys, hb, this]
  · subst h1
    simp only [maskNormalizeNd, hy, bind, Except.bind, map2, hs, hys, hb, bcDim_self, Option.map_some, Nd.map]
    refine ⟨_, rfl, rfl, fun i hi => ?_⟩
    simp only [bcIndex_self _ _ hi, zeroed]
    cases hi with
    | @cons a _ t _ ha ht =>
      cases ht with
      | @cons b _ t _ hb ht =>
        cases ht
        have : bcIndex [c] [a, b] = [b] := by simp [bcIndex, hr]
        simp only [this, List.getD_cons_succ, List.getD_cons_zero, hyw b hb]
  · subst h1
    simp only [maskNormalizeNd, hy, bind, Except.bind, map2, hs, hys, hb, bcDim_one_left, Option.map_some, Nd.map]
    refine ⟨_, rfl, rfl, fun i hi => ?_⟩
    cases hi with
    | @cons a _ t _ ha ht =>
      cases ht with
      | @cons b _ t _ hb ht =>
        cases ht
        have e1 : bcIndex [r] [a, b] = [b] := by simp [bcIndex, hr]
        have e2 : bcIndex [r, 1] [a, b] = [a, 0] := by simp [bcIndex, hr]
        simp only [e1, e2, List.getD_cons_succ, List.getD_cons_zero, hyw b hb, zeroed]

/-- C145 is false for `axis=1`: a column of two equal entries, normalised along the rows, becomes a 2 × 2 matrix. -/
theorem C145_axis1_wrong (root : K → K) (eps big : K) :
    ∃ (mask : Nd Bool) (x y : Nd (Fl K)), x.shape = [2, 1] ∧ mask.shape = [2, 1] ∧
      maskNormalizeNd root eps big true (some 1) mask x = .ok y ∧ y.shape = [2, 2] := by
  obtain ⟨y, h1, h2, _⟩ := (C145_axis1_exact root eps big ⟨[2, 1], fun _ => true⟩
    ⟨[2, 1], fun _ => Fl.fin 1⟩ 2 1 rfl rfl (by omega)).2.2 rfl
  exact ⟨_, _, y, rfl, rfl, h1, h2⟩

/-! ## C146 -/

theorem reduce_axis {α β : Type} (F : List α → β) (y : Nd α) (f : List Nat → α)
    (hv : ∀ i, Valid y.shape i → y.at_ i = f i) (k : Int) (p : Nat) (hk : axisPos y.shape.length k = some p) :
    Returns (reduce F (some k) y : Except NdErr (Nd β)) (y.shape.eraseIdx p)
      (fun i => F ((List.range (y.shape.getD p 0)).map fun j => f (i.insertIdx p j))) := by
  simp only [reduce, hk]
  refine ⟨_, rfl, rfl, fun i hi => ?_⟩
  dsimp only
  congr 1
  apply List.map_congr_left
  intro j hj
  exact hv _ (valid_insert _ _ _ _ (axisPos_lt hk) hi (List.mem_range.1 hj))

theorem reduce_all {α β : Type} (F : List α → β) (y : Nd α) (f : List Nat → α)
    (hv : ∀ i, Valid y.shape i → y.at_ i = f i) :
    Returns (reduce F none y : Except NdErr (Nd β)) [] (fun _ => F ((allIx y.shape).map f)) := by
  simp only [reduce]
  refine ⟨_, rfl, rfl, fun i _ => ?_⟩
  dsimp only
  congr 1
  apply List.map_congr_left
  intro j hj
  exact hv _ ((valid_allIx _ _).1 hj)

/-- C146: with a mask of the data's own shape, any `axis` up to 1 gives the plain masking of Haiku. -/
theorem C146_apply_same (axis : Option Int) (v : Fl K) (mask : Nd Bool) (x : Nd (Fl K))
    (ha : ∀ a, axis = some a → a ≤ 1) (h : x.shape = mask.shape) :
    Returns (flaxApplyMask axis v mask x) x.shape (fun i => if mask.at_ i then x.at_ i else v) := by
  have h0 : axisTooLarge axis = false := by
    cases axis with
    | none => rfl
    | some a => have := ha a rfl; simpa [axisTooLarge] using this
  have hm : (flaxBroadcastMask axis x.shape.length mask).shape = mask.shape ∧
      ∀ i, Valid mask.shape i → (flaxBroadcastMask axis x.shape.length mask).at_ i = mask.at_ i := by
    have hl : ∀ i, Valid mask.shape i → i.take mask.shape.length = i := fun i hi => by
      rw [← (List.Forall₂.length_eq hi : i.length = mask.shape.length), List.take_length]
    have hc : ¬ (mask.shape.length = 1 ∧ 1 < mask.shape.length) := by omega
    unfold flaxBroadcastMask
    simp only [h, hc, if_false]
    by_cases a0 : axis = some 0
    · simp only [a0, if_true, Nat.sub_self, List.replicate_zero, List.append_nil, true_and]
      intro i hi; rw [hl i hi]
    · by_cases a1 : axis = some 1
      · simp only [a1, if_true, Nat.sub_self, List.replicate_zero, List.append_nil, true_and]
        simp only [Option.some.injEq, OfNat.one_ne_ofNat, one_ne_zero, if_false, true_and]
        intro i hi; rw [hl i hi]
      · simp only [a0, a1, if_false]; exact ⟨trivial, fun _ _ => trivial⟩
  unfold flaxApplyMask
  rw [h0]
  simp only [Bool.false_eq_true, if_false]
  have := map2_same (fun b a => if b then a else v) (flaxBroadcastMask axis x.shape.length mask) x
    (by rw [hm.1, h])
  rw [hm.1, ← h] at this
  refine Returns.congr this fun i hi => ?_
  rw [hm.2 i (by rw [← h]; exact hi)]

/-- C146: `axis` above 1 is refused. -/
theorem C146_apply_bad_axis (a : Int) (v : Fl K) (mask : Nd Bool) (x : Nd (Fl K)) (h : 1 < a) :
    flaxApplyMask (some a) v mask x = .error .badAxis := by
  simp [flaxApplyMask, axisTooLarge, h]

/-- The mean of Flax on one line, from the sums over that line. -/
theorem flaxMaskMean_line {ι : Type} (big : K) (ix : List ι) (m : ι → Bool) (f : ι → Fl K) :
    (if count (ix.map m) = 0 then Fl.nan else
      (ix.map fun j => nanToNumDefault big (if m j then f j else Fl.fin 0)).sum /
        Fl.fin (((if count (ix.map m) = 0 then 1 else count (ix.map m)) : Nat) : K)) =
      flaxMaskMean big (ix.map fun j => (m j, f j)) := by
  have h1 : maskCount (ix.map fun j => (m j, f j)) = count (ix.map m) := by
    simp [maskCount, count, List.map_map, Function.comp_def]
  have h2 : maskFill big (ix.map fun j => (m j, f j)) =
      ix.map fun j => nanToNumDefault big (if m j then f j else Fl.fin 0) := by
    simp [maskFill, List.map_map, Function.comp_def]
  simp only [flaxMaskMean, h1, h2]

/-- C146: Flax MaskMean with a mask of the data's own shape, along any axis up to 1 of an array of any rank, agrees
with Haiku line by line. -/
theorem C146_mean_axis_partial (big : K) (k : Int) (p : Nat) (mask : Nd Bool) (x : Nd (Fl K))
    (h : x.shape = mask.shape) (h1 : k ≤ 1) (hk : IsAxis x.shape.length k p) :
    Returns (flaxMaskMeanNd big (some k) mask x) (x.shape.eraseIdx p)
      (fun i => flaxMaskMean big (lineAlong p mask x i)) := by
  rw [← axisPos_iff] at hk
  obtain ⟨y, hy, hys, hyv⟩ := C146_apply_same (some k) (Fl.fin 0) mask x (by simp; exact h1) h
  obtain ⟨c, hc, hcs, hcv⟩ := reduce_axis count mask mask.at_ (fun _ _ => rfl) k p (by rw [← h]; exact hk)
  obtain ⟨t, ht, hts, htv⟩ := reduce_axis List.sum (y.map (nanToNumDefault big))
    (fun i => nanToNumDefault big (if mask.at_ i then x.at_ i else Fl.fin 0))
    (fun i hi => by
      show nanToNumDefault big (y.at_ i) = _
      rw [hyv i (by rw [← hys]; exact hi)]) k p (by show axisPos y.shape.length k = _; rw [hys]; exact hk)
  have hts : t.shape = x.shape.eraseIdx p := by rw [hts]; show y.shape.eraseIdx p = _; rw [hys]
  have hcs : c.shape = x.shape.eraseIdx p := by rw [hcs, h]
  obtain ⟨m, hm, hms, hmv⟩ := map2_same (fun a (n : Nat) => a / Fl.fin (n : K)) t
    (c.map fun n => if n = 0 then 1 else n) (by rw [hts]; exact hcs.symm)
  simp only [flaxMaskMeanNd, hy, hc, ht, hm, bind, Except.bind]
  have := map2_same (fun (n : Nat) m => if n = 0 then Fl.nan else m) c m (by rw [hms, hts, hcs])
  rw [hcs] at this
  refine Returns.congr this fun i hi => ?_
  rw [hmv i (by rw [hts]; exact hi)]
  simp only [Nd.map] at htv ⊢
  rw [hcv i (by rw [← h]; exact hi), htv i (by rw [hys]; exact hi)]
  simp only [hys, ← h]
  exact flaxMaskMean_line big _ (fun j => mask.at_ (i.insertIdx p j)) (fun j => x.at_ (i.insertIdx p j))

/-- C146: Flax MaskMean with `axis=None`. -/
theorem C146_mean_none (big : K) (mask : Nd Bool) (x : Nd (Fl K)) (h : x.shape = mask.shape) :
    Returns (flaxMaskMeanNd big none mask x) [] (fun _ => flaxMaskMean big (wholeLine mask x)) := by
  obtain ⟨y, hy, hys, hyv⟩ := C146_apply_same none (Fl.fin 0) mask x (by simp) h
  obtain ⟨c, hc, hcs, hcv⟩ := reduce_all count mask mask.at_ (fun _ _ => rfl)
  obtain ⟨t, ht, hts, htv⟩ := reduce_all List.sum (y.map (nanToNumDefault big))
    (fun i => nanToNumDefault big (if mask.at_ i then x.at_ i else Fl.fin 0))
    (fun i hi => by
      show nanToNumDefault big (y.at_ i) = _
      rw [hyv i (by rw [← hys]; exact hi)])
  obtain ⟨m, hm, hms, hmv⟩ := map2_same (fun a (n : Nat) => a / Fl.fin (n : K)) t
    (c.map fun n => if n = 0 then 1 else n) (by rw [hts]; exact hcs.symm)
  simp only [flaxMaskMeanNd, hy, hc, ht, hm, bind, Except.bind]
  have := map2_same (fun (n : Nat) m => if n = 0 then Fl.nan else m) c m (by rw [hms, hts, hcs])
  rw [hcs] at this
  refine Returns.congr this fun i hi => ?_
  rw [hmv i (by rw [hts]; exact hi)]
  simp only [Nd.map] at htv ⊢
  rw [hcv i hi, htv i hi]
  simp only [hys, ← h]
  exact flaxMaskMean_line big (allIx x.shape) mask.at_ x.at_

theorem flaxMaskStd_line {ι : Type} (root : K → K) (eps big : K) (ac : Bool) (ix : List ι) (m : ι → Bool)
    (f : ι → Fl K) (dev : ι → Fl K)
    (hdev : ∀ j ∈ ix, dev j = if ac then nanToNumDefault big (if m j then f j else Fl.fin 0) else
      if m j then f j - (ix.map fun j => nanToNumDefault big (if m j then f j else Fl.fin 0)).sum /
        Fl.fin (((if count (ix.map m) = 0 then 1 else count (ix.map m)) : Nat) : K) else Fl.fin 0) :
    (if count (ix.map m) = 0 then Fl.nan else
      stdOfVar root eps ((ix.map fun j => dev j * dev j).sum /
        Fl.fin (((if count (ix.map m) = 0 then 1 else count (ix.map m)) : Nat) : K))) =
      flaxMaskStd root eps big ac (ix.map fun j => (m j, f j)) := by
  have h1 : maskCount (ix.map fun j => (m j, f j)) = count (ix.map m) := by
    simp [maskCount, count, List.map_map, Function.comp_def]
  have h2 : maskFill big (ix.map fun j => (m j, f j)) =
      ix.map fun j => nanToNumDefault big (if m j then f j else Fl.fin 0) := by
    simp [maskFill, List.map_map, Function.comp_def]
  have h3 : (ix.map fun j => dev j * dev j) = ((ix.map dev).map fun d => d * d) := by
    simp [List.map_map, Function.comp_def]
  have h4 := List.map_congr_left hdev
  rw [h3, h4]
  simp only [flaxMaskStd, h1, h2]
  cases ac <;> simp [List.map_map, Function.comp_def]

/-- The last steps of the Flax MaskStd, along an axis, for a known table of deviations. -/
theorem flaxStd_finish (root : K → K) (eps : K) (k : Int) (p : Nat) (s : List Nat) (c : Nd Nat) (d : Nd (Fl K))
    (cv : List Nat → Nat) (dv : List Nat → Fl K) (hk : axisPos s.length k = some p) (hds : d.shape = s)
    (hdv : ∀ i, Valid s i → d.at_ i = dv i) (hcs : c.shape = s.eraseIdx p)
    (hcv : ∀ i, Valid (s.eraseIdx p) i → c.at_ i = cv i) :
    Returns (do
      let ss ← reduce List.sum (some k) (d.map fun d => d * d)
      let var ← map2 (fun a (n : Nat) => a / Fl.fin (n : K)) ss (c.map fun n => if n = 0 then 1 else n)
      map2 (fun (n : Nat) s => if n = 0 then Fl.nan else s) c (var.map (stdOfVar root eps))) (s.eraseIdx p)
      (fun i => if cv i = 0 then Fl.nan else stdOfVar root eps
        (((List.range (s.getD p 0)).map fun j => dv (i.insertIdx p j) * dv (i.insertIdx p j)).sum /
          Fl.fin (((if cv i = 0 then 1 else cv i) : Nat) : K))) := by
  obtain ⟨t, ht, hts, htv⟩ := reduce_axis List.sum (d.map fun d => d * d) (fun i => dv i * dv i)
    (fun i hi => by
      show d.at_ i * d.at_ i = _
      rw [hdv i (by rw [← hds]; exact hi)]) k p (by show axisPos d.shape.length k = _; rw [hds]; exact hk)
  have hts : t.shape = s.eraseIdx p := by rw [hts]; show d.shape.eraseIdx p = _; rw [hds]
  obtain ⟨m, hm, hms, hmv⟩ := map2_same (fun a (n : Nat) => a / Fl.fin (n : K)) t
    (c.map fun n => if n = 0 then 1 else n) (by rw [hts]; exact hcs.symm)
  simp only [ht, hm, bind, Except.bind]
  have := map2_same (fun (n : Nat) s => if n = 0 then Fl.nan else s) c (m.map (stdOfVar root eps))
    (by show c.shape = m.shape; rw [hms, hts, hcs])
  rw [hcs] at this
  refine Returns.congr this fun i hi => ?_
  simp only [Nd.map] at htv ⊢
  rw [hcv i hi, hmv i (by rw [hts]; exact hi)]
  simp only [Nd.map]
  rw [hcv i hi, htv i (by rw [hds]; exact hi)]
  simp only [hds]

/-- C146: Flax MaskStd with a mask of the data's own shape, along the first axis of an array of any rank or along
the second axis of a 2-dimensional array, is the standard deviation of each line (so its `axis=1` is right where
Haiku's is wrong). -/
theorem C146_std_axis_partial (root : K → K) (eps big : K) (ac : Bool) (k : Int) (p : Nat) (mask : Nd Bool) (x : Nd (Fl K))
    (h : x.shape = mask.shape) (hk : IsAxis x.shape.length k p)
    (hax : k = 0 ∨ k = 1 ∧ x.shape.length = 2) :
    Returns (flaxMaskStdNd root eps big ac (some k) mask x) (x.shape.eraseIdx p)
      (fun i => flaxMaskStd root eps big ac (lineAlong p mask x i)) := by
  rw [← axisPos_iff] at hk
  have h1 : k ≤ 1 := by omega
  have hp := axisPos_lt hk
  obtain ⟨y, hy, hys, hyv⟩ := C146_apply_same (some k) (Fl.fin 0) mask x (by simp; exact h1) h
  obtain ⟨c, hc, hcs, hcv⟩ := reduce_axis count mask mask.at_ (fun _ _ => rfl) k p (by rw [← h]; exact hk)
  rw [← h] at hcs hcv
  cases ac
  · obtain ⟨t, ht, hts, htv⟩ := reduce_axis List.sum (y.map (nanToNumDefault big))
      (fun i => nanToNumDefault big (if mask.at_ i then x.at_ i else Fl.fin 0))
      (fun i hi => by
        show nanToNumDefault big (y.at_ i) = _
        rw [hyv i (by rw [← hys]; exact hi)]) k p (by show axisPos y.shape.length k = _; rw [hys]; exact hk)
    have hts : t.shape = x.shape.eraseIdx p := by rw [hts]; show y.shape.eraseIdx p = _; rw [hys]
    obtain ⟨m, hm, hms, hmv⟩ := map2_same (fun a (n : Nat) => a / Fl.fin (n : K)) t
      (c.map fun n => if n = 0 then 1 else n) (by rw [hts]; exact hcs.symm)
    rw [hts] at hms hmv
    have hexp : bcShape x.shape (flaxExpandMean (some k) x.shape.length m).shape = some x.shape ∧
        ∀ i, Valid x.shape i → (flaxExpandMean (some k) x.shape.length m).at_
          (bcIndex (flaxExpandMean (some k) x.shape.length m).shape i) = m.at_ (i.eraseIdx p) := by
      rcases hax with rfl | ⟨rfl, h2⟩
      · have hp0 : p = 0 := by
          unfold axisPos at hk
          rw [if_pos (by omega)] at hk
          simpa using hk.symm
        subst hp0
        rcases hx : x.shape with _ | ⟨r, s⟩
        · rw [hx] at hp; simp at hp
        rw [hx] at hms
        simp only [List.eraseIdx_cons_zero] at hms
        unfold flaxExpandMean
        cases s with
        | nil =>
          simp only [List.length_cons, List.length_nil, Nat.zero_add, Nat.lt_irrefl, if_false, hms, bcShape_nil,
            true_and, bcIndex_nil]
          intro i hi
          cases hi with
          | cons _ ht => cases ht; rfl
        | cons c s =>
          simp only [List.length_cons, show 1 < s.length + 1 + 1 by omega, if_true, hms]
          constructor
          · simp [bcShape, padLeft, List.mapM_cons, bcDim_one_right, bcDim_self, zip_self_mapM]
          · intro i hi
            cases hi with
            | @cons a _ t _ ha ht =>
              have hl : t.length = (c :: s).length := List.Forall₂.length_eq ht
              have e := bcIndex_self (c :: s) t ht
              simp only [bcIndex, hl, Nat.sub_self, List.drop_zero] at e
              simp only [bcIndex, List.length_cons, hl, Nat.sub_self, List.drop_zero, List.zipWith_cons_cons (a := 1),
                List.tail_cons, e, List.eraseIdx_cons_zero]
      · have hp1 : p = 1 := by
          unfold axisPos at hk
          rw [if_pos (by omega)] at hk
          simpa using hk.symm
        subst hp1
        obtain ⟨r, c', hx⟩ := List.length_eq_two.1 h2
        rw [hx] at hms ⊢
        simp only [List.eraseIdx] at hms
        unfold flaxExpandMean
        simp only [List.length_cons, List.length_nil, show 1 < 0 + 1 + 1 by omega, if_true, hms,
          Option.some.injEq, one_ne_zero, if_false]
        constructor
        · simp [bcShape, padLeft, List.mapM_cons, bcDim_one_right, bcDim_self]
        · intro i hi
          cases hi with
          | @cons a _ t _ ha ht =>
            cases ht with
            | @cons b _ t _ hb ht =>
              cases ht
              by_cases hr : r = 1
              · have : a = 0 := by omega
                simp [bcIndex, hr, this]
              · simp [bcIndex, hr]
    obtain ⟨d, hd, hds, hdv⟩ : Returns (map2 (fun a m => a - m) x (flaxExpandMean (some k) x.shape.length m))
        x.shape (fun i => x.at_ i - m.at_ (i.eraseIdx p)) := by
      rw [map2_eq _ _ _ hexp.1]
      refine ⟨_, rfl, rfl, fun i hi => ?_⟩
      dsimp only
      rw [hexp.2 i hi, bcIndex_self _ _ hi]
    obtain ⟨d', hd', hds', hdv'⟩ := C146_apply_same (some k) (Fl.fin 0) mask d (by simp; exact h1)
      (by rw [hds, h])
    simp only [flaxMaskStdNd, hy, hc, ht, hm, hd, hd', bind, Except.bind, Bool.false_eq_true, if_false]
    refine Returns.congr (flaxStd_finish root eps k p x.shape c d' _ _ hk (hds'.trans hds)
      (by rw [← hds]; exact hdv') hcs hcv) fun i hi => ?_
    refine flaxMaskStd_line root eps big false (List.range (x.shape.getD p 0)) (fun j => mask.at_ (i.insertIdx p j))
      (fun j => x.at_ (i.insertIdx p j)) _ fun j hj => ?_
    have hj := List.mem_range.1 hj
    have hin : Valid x.shape (i.insertIdx p j) := valid_insert _ _ _ _ hp hi hj
    have he : (i.insertIdx p j).eraseIdx p = i := List.eraseIdx_insertIdx_self ..
    rw [hdv _ hin]
    simp only [he]
    rw [hmv i hi]
    simp only [Nd.map] at htv ⊢
    rw [htv i (by rw [hys]; exact hi), hcv i hi]
    simp only [hys, Bool.false_eq_true, if_false]
  · simp only [flaxMaskStdNd, hy, hc, bind, Except.bind, if_true]
    refine Returns.congr (flaxStd_finish root eps k p x.shape c (y.map (nanToNumDefault big)) _
      (fun i => nanToNumDefault big (if mask.at_ i then x.at_ i else Fl.fin 0)) hk hys
      (fun i hi => by show nanToNumDefault big (y.at_ i) = _; rw [hyv i hi]) hcs hcv) fun i hi => ?_
    exact flaxMaskStd_line root eps big true (List.range (x.shape.getD p 0)) (fun j => mask.at_ (i.insertIdx p j))
      (fun j => x.at_ (i.insertIdx p j)) _ fun j _ => by simp

/-- C146: with `axis=1` and a mask with one entry per column, the Flax mean raises, although ApplyMask accepts the
same mask. -/
theorem C146_mean_column_mask_raises (big : K) (mask : Nd Bool) (x : Nd (Fl K)) (r c : Nat)
    (hs : x.shape = [r, c]) (hm : mask.shape = [c]) :
    (∃ y, flaxApplyMask (some 1) (Fl.fin 0) mask x = .ok y) ∧
    flaxMaskMeanNd big (some 1) mask x = .error .axisError := by
  have h0 : axisTooLarge (some 1) = false := rfl
  have hb : bcShape [1, c] [r, c] = some [r, c] := by
    simp only [bcShape, padLeft, List.length_cons, List.length_nil]
    norm_num [List.mapM_cons, bcDim_one_left, bcDim_self]
  have hy : ∃ y, flaxApplyMask (some 1) (Fl.fin 0) mask x = .ok y := by
    unfold flaxApplyMask
    rw [h0]
    simp [flaxBroadcastMask, hs, hm, map2, hb]
  refine ⟨hy, ?_⟩
  obtain ⟨y, hy⟩ := hy
  have : axisPos mask.shape.length 1 = none := by rw [hm]; rfl
  simp [flaxMaskMeanNd, hy, bind, Except.bind, reduce, this]

/-- C146: Flax MaskStd with `axis=None`. -/
theorem C146_std_none (root : K → K) (eps big : K) (ac : Bool) (mask : Nd Bool) (x : Nd (Fl K))
    (h : x.shape = mask.shape) :
    Returns (flaxMaskStdNd root eps big ac none mask x) []
      (fun _ => flaxMaskStd root eps big ac (wholeLine mask x)) := by
  obtain ⟨y, hy, hys, hyv⟩ := C146_apply_same none (Fl.fin 0) mask x (by simp) h
  obtain ⟨c, hc, hcs, hcv⟩ := reduce_all count mask mask.at_ (fun _ _ => rfl)
  rw [← h] at hcv
  have hcv := hcv [] List.Forall₂.nil
  have finish : ∀ (d : Nd (Fl K)) (dv : List Nat → Fl K), d.shape = x.shape →
      (∀ i, Valid x.shape i → d.at_ i = dv i) →
      Returns (do
        let ss ← reduce List.sum none (d.map fun d => d * d)
        let var ← map2 (fun a (n : Nat) => a / Fl.fin (n : K)) ss (c.map fun n => if n = 0 then 1 else n)
        map2 (fun (n : Nat) s => if n = 0 then Fl.nan else s) c (var.map (stdOfVar root eps))) []
        (fun _ => if c.at_ [] = 0 then Fl.nan else stdOfVar root eps
          (((allIx x.shape).map fun j => dv j * dv j).sum /
            Fl.fin (((if c.at_ [] = 0 then 1 else c.at_ []) : Nat) : K))) := by
    intro d dv hds hdv
    obtain ⟨t, ht, hts, htv⟩ := reduce_all List.sum (d.map fun d => d * d) (fun i => dv i * dv i)
      (fun i hi => by
        show d.at_ i * d.at_ i = _
        rw [hdv i (by rw [← hds]; exact hi)])
    obtain ⟨m, hm, hms, hmv⟩ := map2_same (fun a (n : Nat) => a / Fl.fin (n : K)) t
      (c.map fun n => if n = 0 then 1 else n) (by rw [hts]; exact hcs.symm)
    simp only [ht, hm, bind, Except.bind]
    have := map2_same (fun (n : Nat) s => if n = 0 then Fl.nan else s) c (m.map (stdOfVar root eps))
      (by show c.shape = m.shape; rw [hms, hts, hcs])
    rw [hcs] at this
    refine Returns.congr this fun i hi => ?_
    cases hi
    simp only [Nd.map] at htv ⊢
    rw [hmv [] (by rw [hts]; exact List.Forall₂.nil)]
    simp only [Nd.map]
    rw [htv [] List.Forall₂.nil]
    simp only [hds]
  cases ac
  · obtain ⟨t, ht, hts, htv⟩ := reduce_all List.sum (y.map (nanToNumDefault big))
      (fun i => nanToNumDefault big (if mask.at_ i then x.at_ i else Fl.fin 0))
      (fun i hi => by
        show nanToNumDefault big (y.at_ i) = _
        rw [hyv i (by rw [← hys]; exact hi)])
    obtain ⟨m, hm, hms, hmv⟩ := map2_same (fun a (n : Nat) => a / Fl.fin (n : K)) t
      (c.map fun n => if n = 0 then 1 else n) (by rw [hts]; exact hcs.symm)
    have hexp : flaxExpandMean none x.shape.length m = m := by simp [flaxExpandMean]
    obtain ⟨d, hd, hds, hdv⟩ := map2_scalar (fun a m => a - m) x m (hms.trans hts)
    obtain ⟨d', hd', hds', hdv'⟩ := C146_apply_same none (Fl.fin 0) mask d (by simp) (by rw [hds, h])
    simp only [flaxMaskStdNd, hy, hc, ht, hm, hexp, hd, hd', bind, Except.bind, Bool.false_eq_true, if_false]
    refine Returns.congr (finish d' _ (hds'.trans hds) (by rw [← hds]; exact hdv')) fun i hi => ?_
    rw [hcv]
    refine flaxMaskStd_line root eps big false (allIx x.shape) mask.at_ x.at_ _ fun j hj => ?_
    rw [hdv _ ((valid_allIx _ _).1 hj)]
    dsimp only
    rw [hmv [] (by rw [hts]; exact List.Forall₂.nil)]
    simp only [Nd.map] at htv ⊢
    rw [htv [] List.Forall₂.nil, hcv]
    simp only [hys, Bool.false_eq_true, if_false]
  · simp only [flaxMaskStdNd, hy, hc, bind, Except.bind, if_true]
    refine Returns.congr (finish (y.map (nanToNumDefault big))
      (fun i => nanToNumDefault big (if mask.at_ i then x.at_ i else Fl.fin 0)) hys
      (fun i hi => by show nanToNumDefault big (y.at_ i) = _; rw [hyv i hi])) fun i hi => ?_
    rw [hcv]
    exact flaxMaskStd_line root eps big true (allIx x.shape) mask.at_ x.at_ _ fun j _ => by simp

theorem zip_ones_mapM (s : List Nat) :
    ((List.zip (List.replicate s.length 1) s).mapM fun p => bcDim p.1 p.2) = some s := by
  induction s with
  | nil => rfl
  | cons a s ih => simp [List.replicate_succ, List.mapM_cons, bcDim_one_left, ih]

/-- C146: with `axis=0` and a mask with one entry per row, whole rows are kept or replaced. -/
theorem C146_apply_row_mask_partial (v : Fl K) (mask : Nd Bool) (x : Nd (Fl K)) (r : Nat) (s : List Nat)
    (hs : x.shape = r :: s) (hm : mask.shape = [r]) :
    Returns (flaxApplyMask (some 0) v mask x) (r :: s)
      (fun i => if mask.at_ [i.getD 0 0] then x.at_ i else v) := by
  have hb : bcShape (r :: List.replicate s.length 1) (r :: s) = some (r :: s) := by
    simp only [bcShape, padLeft, List.length_cons, List.length_replicate, Nat.max_self, Nat.sub_self,
      List.replicate_zero, List.nil_append, List.zip_cons_cons, List.mapM_cons, bcDim_self]
    simp [zip_ones_mapM s]
  have h0 : axisTooLarge (some 0) = false := rfl
  unfold flaxApplyMask
  rw [h0]
  have e : s.length + 1 - 1 = s.length := by omega
  simp only [Bool.false_eq_true, if_false, flaxBroadcastMask, if_true, hm, hs, List.length_cons, List.length_nil,
    Nat.zero_add, e, map2, List.singleton_append, hb]
  refine ⟨_, rfl, rfl, fun i hi => ?_⟩
  dsimp only
  rw [bcIndex_self _ _ hi]
  cases hi with
  | @cons a _ t _ ha ht =>
    have hl : t.length = s.length := List.Forall₂.length_eq ht
    by_cases hr : r = 1
    · have : a = 0 := by omega
      simp [bcIndex, hl, hr, this]
    · simp [bcIndex, hl, hr]

/-- C146: with `axis=1` and a mask with one entry per column, whole columns are kept or replaced. -/
theorem C146_apply_column_mask_partial (v : Fl K) (mask : Nd Bool) (x : Nd (Fl K)) (r c : Nat) (s : List Nat)
    (hs : x.shape = r :: c :: s) (hm : mask.shape = [c]) :
    Returns (flaxApplyMask (some 1) v mask x) (r :: c :: s)
      (fun i => if mask.at_ [i.getD 1 0] then x.at_ i else v) := by
  have hb : bcShape (1 :: c :: List.replicate s.length 1) (r :: c :: s) = some (r :: c :: s) := by
    simp only [bcShape, padLeft, List.length_cons, List.length_replicate, Nat.max_self, Nat.sub_self,
      List.replicate_zero, List.nil_append, List.zip_cons_cons, List.mapM_cons, bcDim_self, bcDim_one_left]
    simp [zip_ones_mapM s]
  have h0 : axisTooLarge (some 1) = false := rfl
  unfold flaxApplyMask
  rw [h0]
  have e : s.length + 1 + 1 - (0 + 1 + 1) = s.length := by omega
  simp only [Bool.false_eq_true, if_false, flaxBroadcastMask, if_true, hm, hs, List.length_cons, List.length_nil,
    Option.some.injEq, one_ne_zero, Nat.zero_add, show 1 < s.length + 1 + 1 by omega, and_self,
    show s.length + 1 + 1 - (1 + 1) = s.length by omega, map2, List.cons_append, List.nil_append, hb]
  refine ⟨_, rfl, rfl, fun i hi => ?_⟩
  dsimp only
  rw [bcIndex_self _ _ hi]
  cases hi with
  | @cons a _ t _ ha ht =>
    cases ht with
    | @cons b _ t _ hb ht =>
      have hl : t.length = s.length := List.Forall₂.length_eq ht
      by_cases hc : c = 1
      · have : b = 0 := by omega
        simp [bcIndex, hl, hc, this]
      · simp [bcIndex, hl, hc]

/-- C146: with `axis=0` and a mask with one entry per row, each column's mean is over the selected rows. -/
theorem C146_mean_row_mask (big : K) (mask : Nd Bool) (x : Nd (Fl K)) (r : Nat) (s : List Nat)
    (hs : x.shape = r :: s) (hm : mask.shape = [r]) :
    Returns (flaxMaskMeanNd big (some 0) mask x) s
      (fun i => flaxMaskMean big ((List.range r).map fun j => (mask.at_ [j], x.at_ (j :: i)))) := by
  obtain ⟨y, hy, hys, hyv⟩ := C146_apply_row_mask_partial (Fl.fin 0) mask x r s hs hm
  obtain ⟨c, hc, hcs, hcv⟩ := reduce_axis count mask mask.at_ (fun _ _ => rfl) 0 0 (by rw [hm]; rfl)
  have hk : axisPos (r :: s).length 0 = some 0 := by
    unfold axisPos; rw [if_pos (by simp only [List.length_cons]; omega)]; rfl
  obtain ⟨t, ht, hts, htv⟩ := reduce_axis List.sum (y.map (nanToNumDefault big))
    (fun i => nanToNumDefault big (if mask.at_ [i.getD 0 0] then x.at_ i else Fl.fin 0))
    (fun i hi => by
      show nanToNumDefault big (y.at_ i) = _
      rw [hyv i (by rw [← hys]; exact hi)]) 0 0 (by show axisPos y.shape.length 0 = _; rw [hys]; exact hk)
  simp only [Nd.map] at htv hts
  rw [hys] at hts htv
  rw [hm] at hcs hcv
  simp only [List.eraseIdx_cons_zero] at hts htv hcs hcv
  obtain ⟨m, hm', hms, hmv⟩ := map2_scalar (fun a (n : Nat) => a / Fl.fin (n : K)) t
    (c.map fun n => if n = 0 then 1 else n) hcs
  simp only [flaxMaskMeanNd, hy, hc, ht, hm', bind, Except.bind]
  have hcv := hcv [] List.Forall₂.nil
  have hb2 : bcShape c.shape m.shape = some s := by
    rw [hcs, hms, hts]
    simp only [bcShape, padLeft, List.length_nil, Nat.zero_max, Nat.sub_zero, Nat.sub_self, List.replicate_zero,
      List.nil_append, List.append_nil]
    exact zip_ones_mapM s
  simp only [map2, hb2]
  refine ⟨_, rfl, rfl, fun i hi => ?_⟩
  rw [hts] at hmv hms
  simp only [hcs, hms, bcIndex_nil, bcIndex_self _ _ hi]
  rw [hmv i hi]
  simp only [Nd.map]
  rw [htv i hi, hcv]
  exact flaxMaskMean_line big (List.range r) (fun j => mask.at_ [j]) (fun j => x.at_ (j :: i))

/-- C146 is false for masks of another shape: where Haiku raises, Flax broadcasts, and can even return an array
longer than its input. -/
theorem C146_mismatch_accepted (v : Fl K) :
    ∃ (mask : Nd Bool) (x : Nd (Fl K)), x.shape = [1] ∧ mask.shape = [2] ∧
      applyMaskNd v mask x = .error .shapeMismatch ∧
      ∃ y, flaxApplyMask none v mask x = .ok y ∧ y.shape = [2] :=
  ⟨⟨[2], fun _ => true⟩, ⟨[1], fun _ => v⟩, rfl, rfl, by simp [applyMaskNd], _, rfl, rfl⟩

/-- C146, `axis=1` on a 3-dimensional array: `mean[..., None]` puts the new axis last instead of second, and the
call is refused unless the last two axes are equal or one of them has length 1. -/
theorem C146_std_rank3_refused (root : K → K) (eps big : K) (mask : Nd Bool) (x : Nd (Fl K)) (a b c : Nat)
    (hs : x.shape = [a, b, c]) (h : x.shape = mask.shape) (h1 : b ≠ c) (h2 : b ≠ 1) (h3 : c ≠ 1) :
    flaxMaskStdNd root eps big false (some 1) mask x = .error .broadcast := by
  have hk : axisPos x.shape.length 1 = some 1 := by rw [hs]; rfl
  obtain ⟨y, hy, hys, hyv⟩ := C146_apply_same (some 1) (Fl.fin 0) mask x (by simp) h
  obtain ⟨n, hc, hcs, hcv⟩ := reduce_axis count mask mask.at_ (fun _ _ => rfl) 1 1 (by rw [← h]; exact hk)
  obtain ⟨t, ht, hts, htv⟩ := reduce_axis List.sum (y.map (nanToNumDefault big)) _ (fun i hi => rfl) 1 1
    (by show axisPos y.shape.length 1 = _; rw [hys]; exact hk)
  have hts : t.shape = [a, c] := by rw [hts]; show y.shape.eraseIdx 1 = _; rw [hys, hs]; rfl
  have hcs : n.shape = [a, c] := by rw [hcs, ← h, hs]; rfl
  obtain ⟨m, hm, hms, hmv⟩ := map2_same (fun a (n : Nat) => a / Fl.fin (n : K)) t
    (n.map fun n => if n = 0 then 1 else n) (by rw [hts]; exact hcs.symm)
  have hb : bcShape [a, b, c] [a, c, 1] = none := by
    have : bcDim b c = none := by simp [bcDim, h1, h2, h3]
    simp [bcShape, padLeft, List.mapM_cons, bcDim_self, this]
  have hd : map2 (fun a m => a - m) x (flaxExpandMean (some 1) x.shape.length m) = .error .broadcast := by
    simp [map2, flaxExpandMean, hs, hms, hts, hb]
  simp only [flaxMaskStdNd, hy, hc, ht, hm, hd, bind, Except.bind, Bool.false_eq_true, if_false]

/-! ## C147 -/

/-- C147: Flax MaskNormalize along the first axis of an array of any rank divides every entry by the standard
deviation of its own line. -/
theorem C147_flax_normalize_axis0_partial (root : K → K) (eps big : K) (ac : Bool) (mask : Nd Bool) (x : Nd (Fl K))
    (r : Nat) (s : List Nat) (hs : x.shape = r :: s) (h : x.shape = mask.shape) :
    Returns (flaxMaskNormalizeNd root eps big ac (some 0) mask x) x.shape
      (fun i => zeroed (x.at_ i / flaxMaskStd root eps big ac (lineAlong 0 mask x i.tail))) := by
  have hk : axisPos x.shape.length 0 = some 0 := by
    rw [hs]; unfold axisPos; rw [if_pos (by simp only [List.length_cons]; omega)]; rfl
  have hp := axisPos_lt hk
  obtain ⟨y, hy, hys, hyv⟩ := C146_std_axis_partial root eps big ac 0 0 mask x h ((axisPos_iff _ _ _).1 hk) (Or.inl rfl)
  have hb : bcShape x.shape y.shape = some x.shape := by
    rw [hys]; exact (bcShape_erase _ _ hp).2 fun q hq => absurd hq (by omega)
  simp only [flaxMaskNormalizeNd, hy, bind, Except.bind, map2_eq _ _ _ hb, Nd.map]
  refine ⟨_, rfl, rfl, fun i hi => ?_⟩
  obtain ⟨e1, e2⟩ := eraseIdx_insertIdx_valid _ _ _ hp hi
  have e3 : bcIndex (x.shape.eraseIdx 0) i = i.eraseIdx 0 := by
    conv_lhs => rw [← e2]
    exact bcIndex_erase _ _ _ _ hp e1 fun q hq => absurd hq (by omega)
  simp only [hys, e3, bcIndex_self _ _ hi, hyv _ e1, zeroed]
  rw [List.eraseIdx_zero]

/-- C147, `axis=None`. -/
theorem C147_flax_normalize_none (root : K → K) (eps big : K) (ac : Bool) (mask : Nd Bool) (x : Nd (Fl K))
    (h : x.shape = mask.shape) :
    Returns (flaxMaskNormalizeNd root eps big ac none mask x) x.shape
      (fun i => zeroed (x.at_ i / flaxMaskStd root eps big ac (wholeLine mask x))) := by
  obtain ⟨y, hy, hys, hyv⟩ := C146_std_none root eps big ac mask x h
  have hb : bcShape x.shape y.shape = some x.shape := by rw [hys]; exact bcShape_nil _
  simp only [flaxMaskNormalizeNd, hy, bind, Except.bind, map2_eq _ _ _ hb, Nd.map]
  refine ⟨_, rfl, rfl, fun i hi => ?_⟩
  simp only [hys, bcIndex_nil, bcIndex_self _ _ hi, hyv [] List.Forall₂.nil, zeroed]

/-- C147, the exact behaviour of `axis=1` on an `r × c` array with `r ≠ 1`: the standard deviations of the rows
divide the columns; refused unless `c = r` or `c = 1`, and a single column becomes an `r × r` matrix. -/
theorem C147_flax_axis1_exact (root : K → K) (eps big : K) (ac : Bool) (mask : Nd Bool) (x : Nd (Fl K)) (r c : Nat)
    (hs : x.shape = [r, c]) (h : x.shape = mask.shape) (hr : r ≠ 1) :
    (c ≠ r → c ≠ 1 → flaxMaskNormalizeNd root eps big ac (some 1) mask x = .error .broadcast) ∧
    (c = r → Returns (flaxMaskNormalizeNd root eps big ac (some 1) mask x) [r, r]
      (fun i => zeroed (x.at_ i / flaxMaskStd root eps big ac (lineAlong 1 mask x [i.getD 1 0])))) ∧
    (c = 1 → Returns (flaxMaskNormalizeNd root eps big ac (some 1) mask x) [r, r]
      (fun i => zeroed (x.at_ [i.getD 0 0, 0] /
        flaxMaskStd root eps big ac (lineAlong 1 mask x [i.getD 1 0])))) := by
  obtain ⟨y, hy, hys, hyv⟩ := C146_std_axis_partial root eps big ac 1 1 mask x h ((axisPos_iff _ _ _).1 (by rw [hs]; rfl))
    (Or.inr ⟨rfl, by rw [hs]; rfl⟩)
  have hys : y.shape = [r] := by rw [hys, hs]; rfl
  rw [hs] at hyv
  have hyw : ∀ j < r, y.at_ [j] = flaxMaskStd root eps big ac (lineAlong 1 mask x [j]) := fun j hj =>
    hyv [j] (List.Forall₂.cons hj List.Forall₂.nil)
  have hb : bcShape [r, c] [r] = (bcDim c r).map fun d => [r, d] := by
    simp only [bcShape, padLeft, List.length_cons, List.length_nil]
    simp only [Nat.max_def]
    norm_num [List.mapM_cons, bcDim_one_right]
    cases bcDim c r <;> rfl
  refine ⟨fun h1 h2 => ?_, fun h1 => ?_, fun h1 => ?_⟩
  · have : bcDim c r = none := by simp [bcDim, h1, h2, hr]
    simp [flaxMaskNormalizeNd, hy, bind, Except.bind, map2, hs, hys, hb, this]
  · subst h1
    simp only [flaxMaskNormalizeNd, hy, bind, Except.bind, map2, hs, hys, hb, bcDim_self, Option.map_some, Nd.map]
    refine ⟨_, rfl, rfl, fun i hi => ?_⟩
    simp only [bcIndex_self _ _ hi, zeroed]
    cases hi with
    | @cons a _ t _ ha ht =>
      cases ht with
      | @cons b _ t _ hb ht =>
        cases ht
        have : bcIndex [c] [a, b] = [b] := by simp [bcIndex, hr]
        simp only [this, List.getD_cons_succ, List.getD_cons_zero, hyw b hb]
  · subst h1
    simp only [flaxMaskNormalizeNd, hy, bind, Except.bind, map2, hs, hys, hb, bcDim_one_left, Option.map_some,
      Nd.map]
    refine ⟨_, rfl, rfl, fun i hi => ?_⟩
    cases hi with
    | @cons a _ t _ ha ht =>
      cases ht with
      | @cons b _ t _ hb ht =>
        cases ht
        have e1 : bcIndex [r] [a, b] = [b] := by simp [bcIndex, hr]
        have e2 : bcIndex [r, 1] [a, b] = [a, 0] := by simp [bcIndex, hr]
        simp only [e1, e2, List.getD_cons_succ, List.getD_cons_zero, hyw b hb, zeroed]

/-- C147 is false for `axis=1`: a column of two entries becomes a 2 × 2 matrix. -/
theorem C147_flax_axis1_wrong (root : K → K) (eps big : K) (ac : Bool) :
    ∃ (mask : Nd Bool) (x y : Nd (Fl K)), x.shape = [2, 1] ∧ mask.shape = [2, 1] ∧
      flaxMaskNormalizeNd root eps big ac (some 1) mask x = .ok y ∧ y.shape = [2, 2] := by
  obtain ⟨y, h1, h2, _⟩ := (C147_flax_axis1_exact root eps big ac ⟨[2, 1], fun _ => true⟩
    ⟨[2, 1], fun _ => Fl.fin 1⟩ 2 1 rfl rfl (by omega)).2.2 rfl
  exact ⟨_, _, y, rfl, rfl, h1, h2⟩

/-- Cases meeting the hypotheses: axis -3 of a `5 × 2 × 3` array is its first axis; the second axis of a `1 × 4` array is
preceded only by axes of length 1, that of a `3 × 3` one is not. -/
example : IsAxis [5, 2, 3].length (-3) 0 ∧ IsAxis [1, 4].length 1 1 ∧
    (∀ q < 1, [1, 4].getD q 0 = 1) ∧ ¬ (∀ q < 1, [3, 3].getD q 0 = 1) ∧
    (∀ q < 1, [3, 3].getD q 0 = 1 ∨ [3, 3].getD q 0 = [3, 3].getD (q + 1) 0) ∧ Valid [5, 2, 3] [4, 1, 2] := by
  refine ⟨⟨by decide, by decide⟩, ⟨by decide, by decide⟩, by decide, by decide, by decide, ?_⟩
  exact .cons (by decide) (.cons (by decide) (.cons (by decide) .nil))

end
end Verif.Props
