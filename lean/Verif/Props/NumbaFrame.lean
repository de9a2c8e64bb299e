import Verif.Model.NumbaFrame
import Verif.Props.EWMA
import Verif.Lemmas.Stream

/-! # Property C109: the pandas accessor of the numba EWMA -/

set_option linter.unusedSectionVars false

namespace Verif.Props
open Model Spec Lemmas Model.NumbaFrame
variable {K D : Type} [Field K] [LinearOrder K] [IsStrictOrderedRing K]

/-- The values of a column in a frame (none if the frame has no such column). -/
def colValues (name : String) (f : Frame K D) : List (Fl K) := (f.cols.lookup name).getD []

/-- The frame has that column. -/
def HasCol (name : String) (f : Frame K D) : Prop := (f.cols.lookup name).isSome

theorem col_of_some (c : EWMACfg K) (i : ColState K) (s : EWMAState K) (xs : List (Fl K)) :
    (colMachine c i).outsFrom ⟨s.mean, s.oldWt, some s.nobs⟩ xs = (numbaEwma c).outsFrom s xs ∧
    (colMachine c i).stateFrom ⟨s.mean, s.oldWt, some s.nobs⟩ xs =
      ⟨((numbaEwma c).stateFrom s xs).mean, ((numbaEwma c).stateFrom s xs).oldWt, some ((numbaEwma c).stateFrom s xs).nobs⟩ := by
  induction xs generalizing s with
  | nil => exact ⟨rfl, rfl⟩
  | cons x xs ih =>
    obtain ⟨h1, h2⟩ := ih (numbaStep c s x).2
    have hn : (numbaStep c s x).2.nobs = s.nobs + (if x.isNan then 0 else 1) := by
      simp only [numbaStep]
      cases x.isNan <;> simp
    have hs : colStep c ⟨s.mean, s.oldWt, some s.nobs⟩ x = ((numbaStep c s x).1, ⟨(numbaStep c s x).2.mean, (numbaStep c s x).2.oldWt,
        some (numbaStep c s x).2.nobs⟩) := by
      unfold colStep
      simp only [Option.getD_some, Option.map_some, hn]
      refine Prod.ext ?_ rfl
      simp only [numbaStep]
      cases x.isNan <;> simp
    constructor
    · simp only [Mealy.outsFrom_cons]
      rw [show (colMachine c i).step = colStep c from rfl, hs]
      exact congrArg _ h1
    · simp only [Mealy.stateFrom_cons]
      rw [show (colMachine c i).step = colStep c from rfl, hs]
      exact h2

theorem col_of_none (c : EWMACfg K) (i : ColState K) (s : ColState K) (h : s.nobs = none) (xs : List (Fl K)) :
    (colMachine c i).outsFrom s xs = List.replicate xs.length Fl.nan ∧ ((colMachine c i).stateFrom s xs).nobs = none := by
  induction xs generalizing s with
  | nil => exact ⟨rfl, h⟩
  | cons x xs ih =>
    have h0 : (colStep c s x).2.nobs = none := by simp [colStep, h]
    have h1 : (colStep c s x).1 = Fl.nan := by simp [colStep, h]
    obtain ⟨g1, g2⟩ := ih _ h0
    constructor
    · simp only [Mealy.outsFrom_cons, List.length_cons, List.replicate_succ]
      rw [show (colMachine c i).step = colStep c from rfl, h1, g1]
    · exact g2

/-- The frame returned by a call with a state. -/
def resF (c : EWMACfg K) (st : StateFrame K) (f : Frame K D) : Frame K D :=
  ⟨f.index, f.cols.map fun kv => (kv.1, (colMachine c (reindexed st kv.1)).run kv.2)⟩

/-- The state returned by a call with a state. -/
def stF (c : EWMACfg K) (st : StateFrame K) (f : Frame K D) : StateFrame K :=
  f.cols.map fun kv => (kv.1, (colMachine c (reindexed st kv.1)).stateAfter kv.2)

theorem frameMean_some (c : EWMACfg K) (hc : 0 < c.com) (st : StateFrame K) (f : Frame K D) :
    frameMean c (some st) f = .ok (resF c st f, stF c st f) := by
  simp [frameMean, hc, resF, stF]

theorem chunks_get (c : EWMACfg K) (hc : 0 < c.com) (st : StateFrame K) (fs : List (Frame K D)) :
    ∃ rs, chunks c (some st) fs = .ok rs ∧
      ∀ t : Nat, rs[t]? = fs[t]?.map (resF c ((fs.take t).foldl (stF c) st)) := by
  induction fs generalizing st with
  | nil => exact ⟨[], rfl, by simp⟩
  | cons f fs ih =>
    obtain ⟨rs, h1, h2⟩ := ih (stF c st f)
    refine ⟨resF c st f :: rs, by simp [chunks, frameMean_some c hc, h1], fun t => ?_⟩
    cases t with
    | zero => simp
    | succ t => simp [h2]

/-- The state every column would start from. -/
def startF (c : EWMACfg K) (f : Frame K D) : StateFrame K := f.cols.map fun kv => (kv.1, colInit c)

theorem reindexed_start (c : EWMACfg K) (f : Frame K D) (name : String) (h : HasCol name f) :
    reindexed (startF c f) name = colInit c := by
  unfold reindexed startF
  rw [lookup_map_snd f.cols (fun _ _ => colInit c)]
  obtain ⟨v, hv⟩ := Option.isSome_iff_exists.mp h
  simp [hv]

theorem hasCol_of_mem (f : Frame K D) (kv : String × List (Fl K)) (h : kv ∈ f.cols) : HasCol kv.1 f := by
  unfold HasCol
  revert h
  generalize f.cols = l
  intro h
  induction l with
  | nil => simp at h
  | cons a l ih =>
    obtain ⟨a1, a2⟩ := a
    rw [List.lookup_cons]
    by_cases he : kv.1 = a1
    · simp [he]
    · rw [beq_eq_false_iff_ne.mpr he]
      rcases List.mem_cons.mp h with rfl | h
      · exact absurd rfl he
      · exact ih h

theorem chunks_none (c : EWMACfg K) (f : Frame K D) (fs : List (Frame K D)) (hne : f.index ≠ []) :
    chunks c none (f :: fs) = chunks c (some (startF c f)) (f :: fs) := by
  have : frameMean c none f = frameMean c (some (startF c f)) f := by
    by_cases hc : 0 < c.com
    · rw [frameMean_some c hc]
      have e1 : (f.cols.map fun kv => (kv.1, (colMachine c (colInit c)).run kv.2)) = (resF c (startF c f) f).cols := by
        apply List.map_congr_left
        intro kv h
        rw [reindexed_start c f _ (hasCol_of_mem f kv h)]
      have e2 : (f.cols.map fun kv => (kv.1, (colMachine c (colInit c)).stateAfter kv.2)) = stF c (startF c f) f := by
        apply List.map_congr_left
        intro kv h
        rw [reindexed_start c f _ (hasCol_of_mem f kv h)]
      simp only [frameMean, hc, if_true, hne, if_false, e1, e2]
      rfl
    · simp [frameMean, hc]
  simp only [chunks, this]

theorem lookup_stF (c : EWMACfg K) (st : StateFrame K) (f : Frame K D) (name : String) :
    (stF c st f).lookup name = (f.cols.lookup name).map fun xs => (colMachine c (reindexed st name)).stateAfter xs :=
  lookup_map_snd f.cols (fun n xs => (colMachine c (reindexed st n)).stateAfter xs) name

theorem lookup_resF (c : EWMACfg K) (st : StateFrame K) (f : Frame K D) (name : String) :
    (resF c st f).cols.lookup name = (f.cols.lookup name).map fun xs => (colMachine c (reindexed st name)).run xs :=
  lookup_map_snd f.cols (fun n xs => (colMachine c (reindexed st n)).run xs) name

theorem fold_present (c : EWMACfg K) (name : String) (fs : List (Frame K D)) (st : StateFrame K)
    (h : ∀ f ∈ fs, HasCol name f) :
    reindexed (fs.foldl (stF c) st) name =
      (colMachine c (reindexed st name)).stateAfter (fs.flatMap (colValues name)) := by
  induction fs generalizing st with
  | nil => rfl
  | cons f fs ih =>
    rw [List.foldl_cons, ih _ fun g hg => h g (List.mem_cons_of_mem _ hg)]
    obtain ⟨v, hv⟩ := Option.isSome_iff_exists.mp (h f List.mem_cons_self)
    have e : reindexed (stF c st f) name = (colMachine c (reindexed st name)).stateAfter v := by
      unfold reindexed
      rw [lookup_stF, hv]
      rfl
    rw [e, List.flatMap_cons, colValues, hv]
    simp only [Option.getD_some, Mealy.stateAfter, Mealy.stateFrom_append]
    rfl

theorem fold_missing (c : EWMACfg K) (name : String) (fs : List (Frame K D)) (st : StateFrame K)
    (h : (reindexed st name).nobs = none ∨ ∃ f ∈ fs, ¬ HasCol name f) :
    (reindexed (fs.foldl (stF c) st) name).nobs = none := by
  induction fs generalizing st with
  | nil => simpa using h
  | cons f fs ih =>
    rw [List.foldl_cons]
    apply ih
    cases hf : f.cols.lookup name with
    | none =>
      left
      simp [reindexed, lookup_stF, hf]
    | some v =>
      have e : reindexed (stF c st f) name = (colMachine c (reindexed st name)).stateAfter v := by
        unfold reindexed
        rw [lookup_stF, hf]
        rfl
      rcases h with h | ⟨g, hg, hn⟩
      · left
        rw [e]
        exact (col_of_none c _ _ h v).2
      · rcases List.mem_cons.mp hg with rfl | hg
        · exact absurd (by simp [HasCol, hf]) hn
        · exact Or.inr ⟨g, hg, hn⟩

/-- C109: the data arrives in chunks, each processed with the state returned for the chunk before; the chunks may list their columns in
any order and other columns may come and go.  Every call returns a frame with the index and columns of its chunk, and a column that was
in every chunk so far has exactly the values it would have if all its chunks had been processed in one go, alone. -/
theorem C109_accessor_chunks (c : EWMACfg K) (hc : 0 < c.com) (f : Frame K D) (fs : List (Frame K D)) (hne : f.index ≠ []) :
    ∃ rs, chunks c none (f :: fs) = .ok rs ∧ rs.length = (f :: fs).length ∧ ∀ t (ht : t < (f :: fs).length), ∃ r, rs[t]? = some r ∧
      r.index = (f :: fs)[t].index ∧ r.cols.map Prod.fst = (f :: fs)[t].cols.map Prod.fst ∧
      ∀ name, (∀ g ∈ (f :: fs).take (t + 1), HasCol name g) →
        r.cols.lookup name = some (((numbaEwma c).run (((f :: fs).take (t + 1)).flatMap (colValues name))).drop
          (((f :: fs).take t).flatMap (colValues name)).length) := by
  obtain ⟨rs, h1, h2⟩ := chunks_get c hc (startF c f) (f :: fs)
  refine ⟨rs, (chunks_none c f fs hne).trans h1, ?_, ?_⟩
  · apply Nat.le_antisymm
    · by_contra hlt
      have := h2 (f :: fs).length
      rw [List.getElem?_eq_none (le_refl (f :: fs).length), List.getElem?_eq_getElem (by omega)] at this
      cases this
    · by_contra hlt
      have := h2 rs.length
      rw [List.getElem?_eq_none (le_refl rs.length), List.getElem?_eq_getElem (by omega)] at this
      cases this
  · intro t ht
    refine ⟨resF c (((f :: fs).take t).foldl (stF c) (startF c f)) (f :: fs)[t], by rw [h2, List.getElem?_eq_getElem ht]; rfl, rfl, ?_, ?_⟩
    · simp [resF]
    · intro name hall
      have hx : (f :: fs).take (t + 1) = (f :: fs).take t ++ [(f :: fs)[t]] := (List.take_append_getElem ht).symm
      rw [lookup_resF]
      have hg : HasCol name (f :: fs)[t] := hall _ (hx ▸ List.mem_append_right _ (by simp))
      obtain ⟨v, hv⟩ := Option.isSome_iff_exists.mp hg
      have hf : HasCol name f := hall f (by simp)
      rw [fold_present c name _ _ (fun g hg => hall g (by rw [hx]; exact List.mem_append_left _ hg)), reindexed_start c f name hf]
      rw [hv, Option.map_some, hx, List.flatMap_append, List.flatMap_singleton]
      simp only [colValues, hv, Option.getD_some]
      congr 1
      have hst := col_of_some c (colInit c) (numbaEwma c).init (((f :: fs).take t).flatMap (colValues name))
      have e0 : (colMachine c (colInit c)).stateAfter (((f :: fs).take t).flatMap (colValues name)) =
          (colMachine c (colInit c)).stateFrom ⟨(numbaEwma c).init.mean, (numbaEwma c).init.oldWt, some (numbaEwma c).init.nobs⟩
            (((f :: fs).take t).flatMap (colValues name)) := rfl
      rw [e0, hst.2]
      rw [Mealy.run, Mealy.run, Mealy.outsFrom_append, List.drop_append_of_le_length (by simp)]
      rw [List.drop_of_length_le (by simp), List.nil_append]
      exact (col_of_some c _ _ v).1

/-- C109: but a column missing from one chunk (in particular one that appears after the first chunk) is NaN in every later chunk,
whatever its values. -/
theorem C109_accessor_new_column_nan (c : EWMACfg K) (hc : 0 < c.com) (f : Frame K D) (fs : List (Frame K D)) (hne : f.index ≠ []) :
    ∃ rs, chunks c none (f :: fs) = .ok rs ∧ ∀ t (ht : t < (f :: fs).length), ∃ r, rs[t]? = some r ∧
      ∀ name v, (f :: fs)[t].cols.lookup name = some v → (∃ g ∈ (f :: fs).take t, ¬ HasCol name g) →
        r.cols.lookup name = some (List.replicate v.length Fl.nan) := by
  obtain ⟨rs, h1, h2⟩ := chunks_get c hc (startF c f) (f :: fs)
  refine ⟨rs, (chunks_none c f fs hne).trans h1, fun t ht => ⟨resF c (((f :: fs).take t).foldl (stF c) (startF c f)) (f :: fs)[t],
    by rw [h2, List.getElem?_eq_getElem ht]; rfl, ?_⟩⟩
  intro name v hv hmiss
  rw [lookup_resF, hv, Option.map_some]
  congr 1
  exact (col_of_none c _ _ (fold_missing c name _ _ (Or.inr hmiss)) v).1

/-- C109: on numbers and NaN the values are those of the EWMA module (so of pandas) on the whole column. -/
theorem C109_accessor_is_ewma (c : EWMACfg K) (hc : 0 < c.com) (hini : c.initial ≠ .pinf ∧ c.initial ≠ .ninf)
    (f : Frame K D) (hne : f.index ≠ []) (name : String) (v : List (Fl K)) (hv : f.cols.lookup name = some v) (hx : NoInf v) :
    ∃ r st, frameMean c none f = .ok (r, st) ∧ r.cols.lookup name = some (((ewma c).run v).map (·.value)) := by
  obtain ⟨rs, h1, -, h3⟩ := C109_accessor_chunks c hc f [] hne
  obtain ⟨r, g1, -, -, g4⟩ := h3 0 (by simp)
  have := g4 name (by intro g hg; simp at hg; simp [hg, HasCol, hv])
  simp only [Nat.zero_add, List.take_succ_cons, List.take_zero, List.flatMap_cons, List.flatMap_nil, List.append_nil,
    List.length_nil, List.drop_zero, colValues, hv, Option.getD_some] at this
  rw [C20_numba_ewma_agrees_partial c hc hini v hx] at this
  unfold chunks at h1
  rcases hm : frameMean c none f with e | ⟨r', st⟩
  · rw [hm] at h1; cases h1
  · rw [hm] at h1
    simp only [chunks, Except.ok.injEq] at h1
    subst h1
    simp only [List.getElem?_cons_zero, Option.some.injEq] at g1
    subst g1
    exact ⟨_, _, rfl, this⟩

/-- C109: a series gives the values of the one-column frame with its name, and continues from a state only under the same name: with the
state of a series of another name every value is NaN. -/
theorem C109_series_name (c : EWMACfg K) (hc : 0 < c.com) (index index2 : List D) (hne : index ≠ []) (name name2 : String)
    (xs ys : List (Fl K)) :
    ∃ st r2 st2, seriesMean c none index name xs = .ok ((numbaEwma c).run xs, st) ∧
      seriesMean c (some st) index2 name2 ys = .ok (r2, st2) ∧
      r2 = if name2 = name then ((numbaEwma c).run (xs ++ ys)).drop xs.length else List.replicate ys.length Fl.nan := by
  have hs := col_of_some c (colInit c) (numbaEwma c).init xs
  have e1 : seriesMean c none index name xs = .ok ((numbaEwma c).run xs, [(name, (colMachine c (colInit c)).stateAfter xs)]) := by
    simp only [seriesMean, frameMean, hc, if_true, hne, if_false, List.map_cons, List.map_nil, List.head?_cons, Option.map_some,
      Option.getD_some]
    rw [Mealy.run, Mealy.run, ← hs.1]
    rfl
  refine ⟨_, _, _, e1, by simp only [seriesMean, frameMean_some c hc]; rfl, ?_⟩
  simp only [resF, List.map_cons, List.map_nil, List.head?_cons, Option.map_some, Option.getD_some]
  split
  · rename_i h
    have : reindexed [(name, (colMachine c (colInit c)).stateAfter xs)] name2 = (colMachine c (colInit c)).stateAfter xs := by
      simp [reindexed, List.lookup, h]
    rw [this]
    have e0 : (colMachine c (colInit c)).stateAfter xs = (colMachine c (colInit c)).stateFrom ⟨(numbaEwma c).init.mean,
      (numbaEwma c).init.oldWt, some (numbaEwma c).init.nobs⟩ xs := rfl
    rw [e0, hs.2, Mealy.run, Mealy.run, Mealy.outsFrom_append, List.drop_append_of_le_length (by simp),
      List.drop_of_length_le (by simp), List.nil_append]
    exact (col_of_some c _ _ ys).1
  · rename_i h
    have : (reindexed [(name, (colMachine c (colInit c)).stateAfter xs)] name2).nobs = none := by
      simp [reindexed, List.lookup, beq_eq_false_iff_ne.mpr h]
    exact (col_of_none c _ _ this ys).1

/-- C109: a frame without rows cannot be processed without a state; a non-positive `com` is refused. -/
theorem C109_accessor_errors (c : EWMACfg K) (f : Frame K D) (st : Option (StateFrame K)) :
    (∃ e, frameMean c st f = .error e) ↔ c.com ≤ 0 ∨ (st = none ∧ f.index = []) := by
  unfold frameMean
  by_cases hc : 0 < c.com
  · cases st with
    | none => by_cases hi : f.index = [] <;> simp [hc, hi, hc.not_ge]
    | some st => simp [hc, hc.not_ge]
  · simp [hc, not_lt.mp hc]

example : (match chunks (⟨1, .no, false, 0, .nan, 1000⟩ : EWMACfg ℚ) none
      [⟨[0], [("a", [.fin 0]), ("b", [.fin 4])]⟩, ⟨[1, 2], [("z", [.fin 5, .fin 5]), ("b", [.fin 8, .fin 2]), ("a", [.fin 8, .nan])]⟩] with
    | .ok rs => some rs | .error _ => none) =
    some [⟨[0], [("a", [.fin 0]), ("b", [.fin 4])]⟩,
      ⟨[1, 2], [("z", [.nan, .nan]), ("b", [.fin 6, .fin 4]), ("a", [.fin 4, .fin 4])]⟩] := by decide +kernel

end Verif.Props
