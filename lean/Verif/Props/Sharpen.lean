import Verif.Props.Demos
import Verif.Props.Encode
import Verif.Props.Events
import Verif.Props.Examples
import Verif.Props.Format
import Verif.Props.Gym
import Verif.Props.GymExtra
import Verif.Props.Lifecycle
import Verif.Props.Masks

/-! # Sharper statements

Theorems added after mutation sweeps: they pin down behaviour that the first theorems of the same property left free. -/

set_option linter.unusedSectionVars false
set_option linter.unusedSimpArgs false

namespace Verif.Props
open Verif Model Spec Lemmas

/-! ## C119: trees whose structure varies -/

section
open Model.Demos
variable {S V O : Type}

theorem treeLag_state_any (lag : Mealy S V O) (xs : List (List (PyTree V))) (k : Nat) :
    ((treeLagMachine lag).stateAfter xs).getD k lag.init = lag.stateAfter (leafSeries k xs) := by
  induction xs using List.reverseRecOn with
  | nil => rfl
  | append_singleton xs a ih =>
    obtain ⟨-, -, w, r⟩ := treeLag_step lag (.node a) ((treeLagMachine lag).stateAfter xs)
    have hwl : (treeLag lag (.node a) ((treeLagMachine lag).stateAfter xs)).2.1.length = (PyTree_leaves (.node a)).length := by
      apply Nat.le_antisymm
      · by_contra h
        have := w (PyTree_leaves (.node a)).length
        rw [List.getElem?_eq_none (Nat.le_refl _), Option.map_none, List.getElem?_eq_none_iff] at this
        omega
      · by_contra h
        have := w (treeLag lag (.node a) ((treeLagMachine lag).stateAfter xs)).2.1.length
        rw [List.getElem?_eq_none (Nat.le_refl _), List.getElem?_eq_getElem (by omega)] at this
        simp at this
    rw [Mealy.stateAfter_append_singleton]
    change ((treeLag lag (.node a) ((treeLagMachine lag).stateAfter xs)).2.1 ++
      (treeLag lag (.node a) ((treeLagMachine lag).stateAfter xs)).2.2).getD k lag.init = _
    rw [List.getD_eq_getElem?_getD]
    have hser : leafSeries k (xs ++ [a]) = leafSeries k xs ++ ((PyTree_leaves (.node a))[k]?).toList := by
      unfold leafSeries
      rw [List.filterMap_append, List.filterMap_cons]
      cases (PyTree_leaves (.node a))[k]? <;> rfl
    rw [hser]
    by_cases hk : k < (PyTree_leaves (.node a)).length
    · rw [List.getElem?_append_left (by omega), w k, List.getElem?_eq_getElem hk, Option.map_some, Option.toList_some,
        Mealy.stateAfter_append_singleton, ← ih]
      rfl
    · have hnone : (PyTree_leaves (.node a))[k]? = none := List.getElem?_eq_none (by omega)
      rw [List.getElem?_append_right (by omega), hwl, r, List.getElem?_drop, hnone, Option.toList_none,
        List.append_nil, ← ih, List.getD_eq_getElem?_getD]
      congr 2
      omega

/-- C119, for any delay module and arguments of any structures, also varying from call to call: the result has the structure of the
arguments, and its leaf `k` is what the module alone would return after the leaves `k` of the calls that had one. -/
theorem C119_tree_lag_any (lag : Mealy S V O) (xs : List (List (PyTree V))) (a : List (PyTree V)) :
    ∃ out, ((treeLagMachine lag).run (xs ++ [a])).getLast? = some out ∧ PyTree_shape out = PyTree_shape (.node a) ∧
      ∀ (k : Nat) (v : V), (PyTree_leaves (.node a))[k]? = some v →
        (PyTree_leaves out)[k]? = (lag.run (leafSeries k xs ++ [v])).getLast? := by
  obtain ⟨h1, h2, -, -⟩ := treeLag_step lag (.node a) ((treeLagMachine lag).stateAfter xs)
  refine ⟨_, by rw [Mealy.run_append_singleton, List.getLast?_concat]; rfl, h1, ?_⟩
  intro k v hv
  rw [Mealy.run_append_singleton, List.getLast?_concat, h2, hv, Option.map_some, treeLag_state_any]

example : (((treeLagMachine (lag 1 0)).run [[PyTree.leaf 1, .leaf 2], [PyTree.leaf 3], [PyTree.leaf 5, .leaf 6]]).map
    PyTree_leaves) = [[some 0, some 0], [some 1], [some 3, some 2]] := by decide
end

/-! ## C30: decoding other codes -/

section
variable {α : Type} [LinearOrder α]

/-- C30: an encoder fitted on a one-dimensional array decodes any list of valid codes, of whatever length, each to its label; one fitted
on more dimensions only lists of exactly as many codes as the array has entries; an invalid code raises. -/
theorem C30_string_decode (a : LabelArr α) (codes : List Nat) :
    ((∀ k ∈ codes, k < a.flat.toFinset.card) → a.shape.length ≤ 1 → ∃ v, stringDecode a codes = .ok ⟨[codes.length], v⟩ ∧
      ∀ (i k : Nat), codes[i]? = some k → v[i]? = (classes a.flat)[k]?) ∧
    ((∀ k ∈ codes, k < a.flat.toFinset.card) → 1 < a.shape.length → codes.length = a.shape.prod →
      ∃ v, stringDecode a codes = .ok ⟨a.shape, v⟩ ∧ ∀ (i k : Nat), codes[i]? = some k → v[i]? = (classes a.flat)[k]?) ∧
    (1 < a.shape.length → codes.length ≠ a.shape.prod → stringDecode a codes = .error .value) ∧
    ((∃ k ∈ codes, a.flat.toFinset.card ≤ k) → stringDecode a codes = .error .value) := by
  have hcard : (classes a.flat).length = a.flat.toFinset.card := by simp [classes, List.card_toFinset]
  have hok : ∀ codes : List Nat, (∀ k ∈ codes, k < a.flat.toFinset.card) → ∃ v, leInverse (classes a.flat) codes = .ok v ∧
      v.length = codes.length ∧ ∀ (i k : Nat), codes[i]? = some k → v[i]? = (classes a.flat)[k]? := by
    intro codes
    induction codes with
    | nil => intro _; exact ⟨[], rfl, rfl, by simp⟩
    | cons k codes ih =>
      intro h
      obtain ⟨v, h1, h2, h3⟩ := ih fun j hj => h j (by simp [hj])
      have hk : k < (classes a.flat).length := by rw [hcard]; exact h k (by simp)
      refine ⟨(classes a.flat)[k] :: v, ?_, by simp [h2], ?_⟩
      · simp only [leInverse] at h1
        simp only [leInverse, List.mapM_cons, h1, List.getElem?_eq_getElem hk]
        rfl
      · intro i j hij
        cases i with
        | zero =>
          simp only [List.getElem?_cons_zero, Option.some.injEq] at hij
          subst hij
          rw [List.getElem?_eq_getElem hk]; rfl
        | succ i =>
          simp only [List.getElem?_cons_succ] at hij ⊢
          exact h3 i j hij
  have hbad : ∀ codes : List Nat, (∃ k ∈ codes, a.flat.toFinset.card ≤ k) → leInverse (classes a.flat) codes = .error .value := by
    intro codes
    induction codes with
    | nil => rintro ⟨k, hk, _⟩; cases hk
    | cons k codes ih =>
      intro h
      by_cases hk : k < (classes a.flat).length
      · have hrest : ∃ j ∈ codes, a.flat.toFinset.card ≤ j := by
          obtain ⟨j, hj, hj2⟩ := h
          rcases List.mem_cons.1 hj with rfl | hj
          · omega
          · exact ⟨j, hj, hj2⟩
        have := ih hrest
        simp only [leInverse] at this
        simp only [leInverse, List.mapM_cons, this, List.getElem?_eq_getElem hk]
        rfl
      · simp only [leInverse, List.mapM_cons, List.getElem?_eq_none (by omega : (classes a.flat).length ≤ k)]
        rfl
  refine ⟨?_, ?_, ?_, ?_⟩
  · intro h hd
    obtain ⟨v, h1, h2, h3⟩ := hok codes h
    refine ⟨v, ?_, h3⟩
    unfold stringDecode
    rw [h1]
    simp only [bind, Except.bind]
    rw [if_neg (by omega), h2]
  · intro h hd hl
    obtain ⟨v, h1, h2, h3⟩ := hok codes h
    refine ⟨v, ?_, h3⟩
    unfold stringDecode
    rw [h1]
    simp only [bind, Except.bind]
    rw [if_pos hd, if_pos (by omega)]
  · intro hd hl
    unfold stringDecode
    by_cases h : ∀ k ∈ codes, k < a.flat.toFinset.card
    · obtain ⟨v, h1, h2, h3⟩ := hok codes h
      rw [h1]
      simp only [bind, Except.bind]
      rw [if_pos hd, if_neg (by omega)]
    · push Not at h
      rw [hbad codes h]
      rfl
  · intro h
    unfold stringDecode
    rw [hbad codes h]
    rfl

end

/-! ## C45: a scan that initialises itself -/

section
open Model.Unroll Model.Events
variable {P S R I O : Type}

/-- C45: without parameters or state, `streaming_scan` initialises on the first element with the key `PRNGKey(0)` and then does what
it does when given these; it raises when there is no element, and also whenever a key is given. -/
theorem C45_streaming_scan_init (f : Transformed P S R I O) (key0 : R) (reset : Option (I → Bool)) (preserve : Bool)
    (params : Option P) (state : Option S) (h : params = none ∨ state = none) (x : I) (xs : List I) :
    scanApply f key0 reset preserve params state none (x :: xs) =
      scanApply f key0 reset preserve (some (f.init (some key0) x).1) (some (f.init (some key0) x).2) none (x :: xs) ∧
    (∀ r, scanApply f key0 reset preserve params state (some r) (x :: xs) = .error ()) ∧
    (∀ rng, scanApply f key0 reset preserve params state rng [] = .error ()) := by
  have hi : ∀ rng l, scanInit f key0 rng params state l = (match l with
      | [] => .error ()
      | x :: _ => match rng with
        | some _ => .error ()
        | none => .ok (f.init (some key0) x)) := by
    intro rng l
    rcases h with rfl | rfl
    · cases state <;> cases l <;> cases rng <;> rfl
    · cases params <;> cases l <;> cases rng <;> rfl
  refine ⟨?_, ?_, ?_⟩
  · unfold scanApply
    rw [hi]
    rfl
  · intro r; unfold scanApply; rw [hi]; rfl
  · intro r; unfold scanApply; rw [hi]; cases r <;> rfl
end

/-! ## C103: the width of the band when prices are missing -/

section
open Model.Examples
variable {K : Type} [Field K] [LinearOrder K] [IsStrictOrderedRing K]

/-- C103: with missing (NaN) prices the width of the band is the standard deviation of those of the last 20 prices that are numbers, and
0.01 when there is none. -/
theorem C103_band_width (root tanh : K → K) (hr : IsRoot root) (big : K) (xs : List (Fl K × Fl K)) (x : Fl K × Fl K)
    (hl : xs.length + 1 < 2 ^ 31) (ns : List K)
    (hns : ((((xs ++ [x]).map (·.1)).drop ((xs ++ [x]).length - 20)).filter fun v => !v.isNan) = ns.map Fl.fin) :
    ∃ o, ((tradingSystem root tanh big).run (xs ++ [x])).getLast? = some o ∧
      (ns = [] → o.bandWidth = .fin (1 / 100)) ∧ (ns ≠ [] → ∃ s, IsStd s ns ∧ o.bandWidth = .fin s) := by
  refine ⟨_, by rw [Mealy.run_append_singleton, List.getLast?_concat], ?_⟩
  have hbuf := circ_step_out 20 (by decide) (by decide) (Fl.nan : Fl K) (xs.map (·.1)) x.1 (by simpa using hl)
  have hw : (window 20 (Fl.nan : Fl K) (xs.map (·.1) ++ [x.1])).filter (fun v => !v.isNan) = ns.map Fl.fin := by
    unfold window
    rw [List.filter_append, List.filter_eq_nil_iff.mpr, List.nil_append, ← hns]
    · simp
    · intro v hv
      rw [List.eq_of_mem_replicate hv]
      simp [Fl.isNan]
  rw [trading_state]
  simp only [tradingSystem, hbuf, hw]
  constructor
  · rintro rfl
    have : (flStd root ([] : List (Fl K))).isNan = true := by
      simp [flStd, flMean, Fl.sqrt, Fl.zero_def, Fl.isNan, Fl.zero_div_zero]
    simp [this]
  · intro hne
    obtain ⟨s, s1, s2⟩ := flStd_fin root hr ns hne
    exact ⟨s, s2, by simp [s1, Fl.isNan_fin]⟩
end

/-! ## C57: exceptions -/

section
open Model.Gym
variable {C : Type} [DecidableEq C]

/-- Specification: no exception is raised. -/
inductive Completes : Prog C → Prop
  | skip : Completes .skip
  | register (c) : Completes (.register c)
  | seq (a b) : Completes a → Completes b → Completes (.seq a b)
  | withAdd (cs body) : Completes body → Completes (.withAdd cs body)
  | unroll (cbs body) : Completes body → Completes (.unroll cbs body)

/-- C57: scopes neither swallow nor create exceptions: a program ends normally exactly if none of the statements it reaches raises; and
nothing runs after one that raises. -/
theorem C57_exceptions_propagate (p : Prog C) (s : List C) :
    ((exec p s).ok = true ↔ Completes p) ∧
    (¬ Completes p → ∀ q, exec (.seq p q) s = exec p s) := by
  have key : ∀ (p : Prog C) (s : List C), (exec p s).ok = true ↔ Completes p := by
    intro p
    induction p with
    | skip => intro s; exact ⟨fun _ => .skip, fun _ => rfl⟩
    | raise_ => intro s; constructor
                · intro h; simp [exec] at h
                · intro h; cases h
    | seq a b iha ihb =>
      intro s
      unfold exec
      simp only
      by_cases h : (exec a s).ok = true
      · rw [if_pos h]
        simp only
        rw [ihb]
        constructor
        · intro hb; exact .seq a b ((iha s).1 h) hb
        · intro hab; cases hab with | seq _ _ _ hb => exact hb
      · rw [if_neg h]
        constructor
        · intro h'; exact absurd h' h
        · intro hab; cases hab with | seq _ _ ha _ => exact absurd ((iha s).2 ha) h
    | withAdd cs body ih =>
      intro s
      unfold exec
      simp only
      rw [ih]
      exact ⟨fun h => .withAdd _ _ h, fun h => by cases h with | withAdd _ _ h => exact h⟩
    | unroll cbs body ih =>
      intro s
      cases cbs with
      | none =>
        unfold exec
        simp only
        rw [ih]
        exact ⟨fun h => .unroll _ _ h, fun h => by cases h with | unroll _ _ h => exact h⟩
      | some cbs =>
        unfold exec
        simp only
        rw [ih]
        exact ⟨fun h => .unroll _ _ h, fun h => by cases h with | unroll _ _ h => exact h⟩
    | register c => intro s; exact ⟨fun _ => .register c, fun _ => rfl⟩
  refine ⟨key p s, ?_⟩
  intro h q
  have : (exec p s).ok ≠ true := fun h' => h ((key p s).1 h')
  conv => lhs; unfold exec
  simp only
  rw [if_neg this]

/-- C57: `register` adds the callback for good. -/
theorem C57_register (c : C) (s : List C) (d : C) : d ∈ (exec (.register c) s).active ↔ d ∈ s ∨ d = c := by
  simp only [exec]
  rw [mem_setAdd]
  simp
end

/-! ## C114: tolerances -/

section
open Model.GymExtra
variable {K : Type} [Field K] [LinearOrder K] [IsStrictOrderedRing K]

/-- C114: two entries of float arrays are close exactly when both are numbers with `|a - b| ≤ 1e-8 + 1e-5 |b|`, or the same infinity. -/
theorem C114_tolerance {D : Type} (name : D → String) (d : D) (a b : Fl K) :
    treeClose name name true (d, [.array "Array" "float32" false [a]]) (d, [.array "Array" "float32" false [b]]) = true ↔
      (∃ x y : K, a = .fin x ∧ b = .fin y ∧ |x - y| ≤ 1 / 10 ^ 8 + 1 / 10 ^ 5 * |y|) ∨ (a = .pinf ∧ b = .pinf) ∨
      (a = .ninf ∧ b = .ninf) := by
  cases a <;> cases b <;> simp [treeClose, leafClose, broadcast, isClose]

/-- C114: arrays of different lengths, none of them 1, never pass. -/
theorem C114_different_lengths {D : Type} (name name' : D → String) (check : Bool) (d d' : D) (t t' s s' : String) (e e' : Bool)
    (v v' : List (Fl K)) (h : v.length ≠ v'.length) (h1 : v.length ≠ 1) (h2 : v'.length ≠ 1) :
    treeClose name name' check (d, [.array t s e v]) (d', [.array t' s' e' v']) = false := by
  have hb : broadcast v v' = none := by
    unfold broadcast
    rw [if_neg h]
    match v, v', h1, h2 with
    | [], [], _, _ => rfl
    | [], [_], _, h2 => simp at h2
    | [], _ :: _ :: _, _, _ => rfl
    | [_], _, h1, _ => simp at h1
    | _ :: _ :: _, [], _, _ => rfl
    | _ :: _ :: _, [_], _, h2 => simp at h2
    | _ :: _ :: _, _ :: _ :: _, _, _ => rfl
  simp [treeClose, leafClose, hb]
end

/-! ## C87: dimension names -/

section
open Model.Format
variable {α L : Type}

/-- The axes of the result: dimensions with their labels. -/
def axesOf (coords : Coords L) (l : List String) : List (String × Option (List L)) :=
  l.map fun n => (n, (labelsFor coords l).lookup n)

/-- C87: the data frame made of an array that fits the dimensions `l`: one dimension gives a series; two give rows and columns; from three
on, the first `index_nlevels` dimensions index the rows and the others the columns. -/
theorem C87_frame_axes (coords : Coords L) (n : Nat) (a : Arr α) (l : List String) (hf : Fits coords l a.shape) :
    (l.length = 1 → toDataframe coords n a (dimsTuple l) = .ok (.series (axesOf coords l) a)) ∧
    (l.length = 2 → toDataframe coords n a (dimsTuple l) = .ok (.frame ((axesOf coords l).take 1) ((axesOf coords l).drop 1) a)) ∧
    (3 ≤ l.length → toDataframe coords n a (dimsTuple l) = .ok (.frame ((axesOf coords l).take n) ((axesOf coords l).drop n) a)) := by
  have h := (toDataArray_eq coords a _ l (dimsOf_tuple l)).1 hf
  have hax : (DataArray.axes (⟨a, l, labelsFor coords l⟩ : DataArray α L)) = axesOf coords l := rfl
  have hlen : (axesOf coords l).length = l.length := by simp [axesOf]
  have e : toDataframe coords n a (dimsTuple l) = (match axesOf coords l with
      | [] => .error .value
      | [i] => .ok (.series [i] a)
      | [i, j] => .ok (.frame [i] [j] a)
      | l => .ok (.frame (l.take n) (l.drop n) a)) := by
    unfold toDataframe
    rw [h]
    simp only [bind, Except.bind, hax]
    cases axesOf coords l with
    | nil => rfl
    | cons i r => cases r with
      | nil => rfl
      | cons j r => cases r <;> rfl
  rw [e]
  generalize axesOf coords l = ax at hlen
  refine ⟨?_, ?_, ?_⟩
  · intro hl; rw [hl] at hlen
    match ax, hlen with
    | [i], _ => rfl
  · intro hl; rw [hl] at hlen
    match ax, hlen with
    | [i, j], _ => rfl
  · intro hl
    match ax, hlen with
    | i :: j :: k :: r, _ => rfl
    | [], h => simp at h; omega
    | [_], h => simp at h; omega
    | [_, _], h => simp at h; omega

theorem toDataframe_congr (coords : Coords L) (n : Nat) (a : Arr α) (d d' : PyTree DimLeaf) (ds : List String)
    (t t' : String → Bool) (h : dimsOf d = .ok (ds, t)) (h' : dimsOf d' = .ok (ds, t')) (ht : ∀ c ∈ coords, t c.1 = t' c.1) :
    toDataframe coords n a d = toDataframe coords n a d' := by
  have : toDataArray coords a d = toDataArray coords a d' := by
    unfold toDataArray
    rw [h, h']
    simp only [bind, Except.bind]
    have e : (coords.filter fun c => t c.1) = coords.filter fun c => t' c.1 := List.filter_congr fun c hc => by rw [ht c hc]
    rw [e]
  unfold toDataframe
  rw [this]

theorem formatWith_congr {X : Type} (conv : Arr α → PyTree DimLeaf → Except Model.Format.Err X) (data : PyTree (Arr α)) (d d' : PyTree DimLeaf)
    (h : data.treedef ≠ d.treedef) (h' : data.treedef ≠ d'.treedef) (he : ∀ a, conv a d = conv a d') :
    formatWith conv data d = formatWith conv data d' := by
  unfold formatWith
  rw [if_neg h, if_neg h']
  simp only [he]

/-- C87: dimension names given as an array of names do what a tuple of these names does. -/
theorem C87_array_of_names (coords : Coords L) (n : Nat) (data : PyTree (Arr α)) (s : String) (l : List String)
    (h : data.treedef ≠ (PyTree.leaf (DimLeaf.arr (s :: l))).treedef) (h' : data.treedef ≠ (dimsTuple (s :: l)).treedef) :
    formatDataframe coords n data (.leaf (.arr (s :: l))) = formatDataframe coords n data (dimsTuple (s :: l)) := by
  rw [formatDataframe_tuple]
  have e : formatDataframe coords n data (.leaf (.arr (s :: l))) = formatWith (toDataframe coords n) data (.leaf (.arr (s :: l))) := by
    unfold formatDataframe
    exact if_pos (Or.inr rfl)
  rw [e]
  exact formatWith_congr _ _ _ _ h h' fun a => toDataframe_congr coords n a _ _ (s :: l) _ _ rfl (dimsOf_tuple _) fun _ _ => rfl

/-- C87: a single name does what the tuple of this name does, provided that no coordinate other than it has a name that is a part of
it. -/
theorem C87_single_name (coords : Coords L) (n : Nat) (data : PyTree (Arr α)) (s : String) (hs : s ≠ "")
    (hc : ∀ c ∈ coords, c.1.toList <:+: s.toList → c.1 = s)
    (h : data.treedef ≠ (PyTree.leaf (DimLeaf.str s)).treedef) (h' : data.treedef ≠ (dimsTuple [s]).treedef) :
    formatDataframe coords n data (.leaf (.str s)) = formatDataframe coords n data (dimsTuple [s]) := by
  rw [formatDataframe_tuple]
  have e : formatDataframe coords n data (.leaf (.str s)) = formatWith (toDataframe coords n) data (.leaf (.str s)) := by
    unfold formatDataframe
    exact if_pos (Or.inr (by simp [truthy, hs]))
  rw [e]
  refine formatWith_congr _ _ _ _ h h' fun a => toDataframe_congr coords n a _ _ [s] _ _ rfl (dimsOf_tuple _) ?_
  intro c hcm
  rw [Bool.eq_iff_iff]
  simp only [decide_eq_true_eq, List.contains_eq_mem, List.mem_singleton]
  constructor
  · exact hc c hcm
  · intro h; rw [h]

/-- C87: without dimension names (`None`, an empty container or an empty string) the dimensions of all arrays are named after the
axes of the first one, `dim_0`, `dim_1`, ... -/
theorem C87_default_names (coords : Coords L) (n : Nat) (data : PyTree (Arr α)) (a : Arr α) (as : List (Arr α))
    (hl : data.leaves = a :: as) (d : PyTree DimLeaf) (hd : (∃ k, d = .node k []) ∨ d = .leaf (.str ""))
    (h : data.treedef ≠ d.treedef) (s : String) (l : List String)
    (hn : (List.range a.shape.length).map (fun i : Nat => "dim_" ++ toString i) = s :: l)
    (h' : data.treedef ≠ (dimsTuple (s :: l)).treedef) :
    formatDataframe coords n data d = formatDataframe coords n data (dimsTuple (s :: l)) := by
  rw [formatDataframe_tuple]
  have hf : truthy d = false := by
    rcases hd with ⟨k, rfl⟩ | rfl
    · cases k <;> rfl
    · rfl
  have hnames : dimsFromData a = dimsTuple (s :: l) := by
    unfold dimsFromData dimsTuple
    rw [← hn, List.map_map]
    rfl
  unfold formatDataframe
  rw [if_neg (by rw [hf]; simp [h]), hl]
  simp only [hnames]
  unfold formatWith
  rw [if_neg h', hl]
  cases (a :: as).mapM fun b => toDataframe coords n b (dimsTuple (s :: l)) with
  | error e => rfl
  | ok v =>
    simp only [bind, Except.bind]
    cases data.rebuild v with
    | none => rfl
    | some r => rfl
end

/-! ## C13: `axis=1` -/

section
variable {K : Type} [Field K] [LinearOrder K] [IsStrictOrderedRing K]

/-- C13 (what `MaskStd(axis=1)` computes): on a square array of numbers whose rows all have an unmasked entry, the result for a row is made
of the squared differences between its unmasked entries and the means of the rows *with the number of their column*, divided by the
number of unmasked entries. -/
theorem C13_mask_std_axis1_exact (root : K → K) (eps big : K) (rows : List (List (Bool × K)))
    (hne : ∀ l ∈ rows, ∃ e ∈ l, e.1 = true) (i : Nat) (l : List (Bool × K)) (hi : rows[i]? = some l) (_hsq : l.length = rows.length) :
    let toFl : List (Bool × K) → Line K := fun l => l.map fun e => (e.1, Fl.fin e.2)
    let means := rows.map fun r => mean (picked (toFl r))
    (maskStdAxis1 root eps big (rows.map toFl))[i]? = some (stdOfVar root eps (Fl.fin
      ((List.zipWith (fun e m => if e.1 then (e.2 - m) ^ 2 else 0) l means).sum / (l.countP (fun e => e.1) : K)))) := by
  intro toFl means
  have hclean : ∀ r : List (Bool × K), Clean (toFl r) := by
    intro r e he hb
    obtain ⟨e', _, rfl⟩ := List.mem_map.1 he
    simp
  have hpick : ∀ r ∈ rows, picked (toFl r) ≠ [] := by
    intro r hr
    obtain ⟨e, he, hb⟩ := hne r hr
    unfold picked
    intro h
    rw [List.map_eq_nil_iff, List.filter_eq_nil_iff] at h
    exact h (e.1, Fl.fin e.2) (List.mem_map.2 ⟨e, he, rfl⟩) hb
  have hmeans : (rows.map toFl).map (maskMean big) = means.map Fl.fin := by
    rw [List.map_map, List.map_map]
    apply List.map_congr_left
    intro r hr
    exact (C12_mask_mean big (toFl r) (hclean r)).1 (hpick r hr)
  have hcount : maskCount (toFl l) = l.countP (fun e => e.1) := by
    clear hi _hsq
    unfold maskCount
    simp only [toFl, List.map_map]
    induction l with
    | nil => rfl
    | cons e l ih =>
      rw [List.map_cons, List.sum_cons, ih, List.countP_cons]
      obtain ⟨b, v⟩ := e
      cases b <;> simp [Nat.add_comm]
  have hpos : (l.countP (fun e => e.1) : K) ≠ 0 := by
    obtain ⟨e, he, hb⟩ := hne l (List.mem_of_getElem? hi)
    have : 0 < l.countP (fun e => e.1) := List.countP_pos_iff.2 ⟨e, he, hb⟩
    exact_mod_cast this.ne'
  have hdiff : ∀ (l : List (Bool × K)) (ms : List K),
      (((List.zip ((toFl l).map (·.1)) (List.zipWith (fun v m => v - m) (maskFill big (toFl l)) (ms.map Fl.fin))).map
        fun e => if e.1 then e.2 else Fl.fin 0).map fun d => d * d).sum =
      Fl.fin (List.zipWith (fun e m => if e.1 then (e.2 - m) ^ 2 else 0) l ms).sum := by
    intro l
    induction l with
    | nil => intro ms; simp [toFl, maskFill, Fl.zero_def]
    | cons e l ih =>
      intro ms
      cases ms with
      | nil => simp [toFl, maskFill, Fl.zero_def]
      | cons m ms =>
        obtain ⟨b, v⟩ := e
        have := ih ms
        simp only [toFl, maskFill, List.map_cons, List.zipWith_cons_cons, List.zip_cons_cons, List.sum_cons] at this ⊢
        rw [this]
        cases b
        · simp [Fl.fin_mul, Fl.fin_add]
        · simp [nanToNumDefault, Fl.fin_sub, Fl.fin_mul, Fl.fin_add, pow_two]
  have hrow : (rows.map toFl)[i]? = some (toFl l) := by rw [List.getElem?_map, hi]; rfl
  unfold maskStdAxis1
  simp only [hmeans]
  rw [List.getElem?_map, hrow, Option.map_some]
  simp only [hdiff l means, hcount, Fl.fin_div_of_ne _ hpos]
end

/-! ## C148: the fields of the classes -/

section
open Model.Lifecycle
variable {W : Type}

/-- C148: the arguments the generated constructors accept: exactly those with all the required names and no other name than the
fields. -/
theorem C148_signatures (false' sequential pipeline : W) (names : List String) (args : Attrs W) :
    let keys := args.map Prod.fst
    (ValidArgs (onlineOptimizerClass (W := W)).fields args ↔
      "model" ∈ keys ∧ "opt" ∈ keys ∧ ∀ k ∈ keys, k ∈ ["model", "opt", "project_params", "regularize_loss", "params_predicate"]) ∧
    (ValidArgs (updateParamsClass (W := W)).fields args ↔ "fun" ∈ keys ∧ ∀ k ∈ keys, k ∈ ["fun", "predicate"]) ∧
    (ValidArgs (funcOptimizerClass false').fields args ↔
      "fun" ∈ keys ∧ "opt" ∈ keys ∧ ∀ k ∈ keys, k ∈ ["fun", "opt", "has_aux", "params_predicate"]) ∧
    (ValidArgs (hierarchicalStateMachineClass sequential names).fields args ↔
      "state_modules" ∈ keys ∧ ∀ k ∈ keys, k ∈ ["state_modules", "dependencies", "coordination_strategy"]) ∧
    (ValidArgs (compositeStateManagerClass pipeline names).fields args ↔
      "state_patterns" ∈ keys ∧ ∀ k ∈ keys, k ∈ ["state_patterns", "composition_strategy"]) := by
  have hk : ∀ f : String, (∃ v, args.lookup f = some v) ↔ f ∈ args.map Prod.fst := by
    intro f
    constructor
    · rintro ⟨v, hv⟩
      exact List.mem_map.2 ⟨(f, v), mem_of_lookup _ _ _ hv, rfl⟩
    · exact lookup_isSome_of_mem _ _
  have hm : ∀ l : List String, (∀ a ∈ args, a.1 ∈ l) ↔ ∀ k ∈ args.map Prod.fst, k ∈ l := by
    intro l; simp
  refine ⟨?_, ?_, ?_, ?_, ?_⟩ <;>
    simp only [ValidArgs, onlineOptimizerClass, updateParamsClass, funcOptimizerClass, hierarchicalStateMachineClass,
      compositeStateManagerClass, List.map_cons, List.map_nil, List.forall_mem_cons, hk, hm, true_imp_iff, reduceCtorEq,
      false_imp_iff, and_true, true_and, List.not_mem_nil, IsEmpty.forall_iff, implies_true] <;>
    constructor <;> intro h <;> simp_all <;> first | exact h.1 | exact h.2.2 | exact h.2

/-- C148: the fields left out get their defaults. -/
theorem C148_defaults (false' sequential pipeline : W) (names : List String) (place : Place) (extra : List String) (f o : Option W) :
    construct (onlineOptimizerClass (W := W)) place extra [("model", f), ("opt", o)] =
      .ok [("model", f), ("opt", o), ("project_params", none), ("regularize_loss", none), ("params_predicate", none)] ∧
    construct (updateParamsClass (W := W)) place extra [("fun", f)] = .ok [("fun", f), ("predicate", none)] ∧
    construct (funcOptimizerClass false') place extra [("fun", f), ("opt", o)] =
      .ok [("fun", f), ("opt", o), ("has_aux", some false'), ("params_predicate", none)] ∧
    construct (hierarchicalStateMachineClass sequential names) place extra [("state_modules", f)] =
      .ok [("state_modules", f), ("dependencies", none), ("coordination_strategy", some sequential)] ∧
    construct (compositeStateManagerClass pipeline names) place extra [("state_patterns", f)] =
      .ok [("state_patterns", f), ("composition_strategy", some pipeline)] := by
  refine ⟨?_, ?_, ?_, ?_, ?_⟩ <;> cases place <;> rfl

/-- C148: a set-up `FuncOptimizer` has the attributes its call uses. -/
theorem C148_func_optimizer_setup (false' : W) (args : Attrs W) (hargs : ValidArgs (funcOptimizerClass false').fields args) :
    ∀ use ∈ [useTop, useField, useCompact, useSetup], use (funcOptimizerClass false') args =
      .ok ["update_params", "optimizer", "fill_nan_inf"] :=
  C148_generated _ args rfl (by simp [funcOptimizerClass]) hargs (by simp [funcOptimizerClass])
end

end Verif.Props
