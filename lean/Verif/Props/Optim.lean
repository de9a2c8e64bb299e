import Verif.Model.Optim
import Verif.Props.Events
import Mathlib.Algebra.Order.Ring.Rat

/-! # Properties C52, C53, C72–C75: parameters and online optimisers -/

namespace Verif.Props
open Model.Optim Model.Events
set_option linter.unusedSectionVars false
set_option linter.unusedSimpArgs false

variable {V O S X L I R : Type}

/-! ## Dictionaries -/

/-- A two-level Python dictionary: no repeated module name, no repeated parameter name within a module. -/
def IsDict2 (d : HkDict V) : Prop := (d.map Prod.fst).Nodup ∧ ∀ mp ∈ d, (mp.2.map Prod.fst).Nodup

theorem lookup_iff_mem {β : Type} (l : List (String × β)) (h : (l.map Prod.fst).Nodup) (k : String) (v : β) :
    l.lookup k = some v ↔ (k, v) ∈ l := by
  refine ⟨mem_of_lookup l k v, ?_⟩
  induction l with
  | nil => simp
  | cons p l ih =>
    obtain ⟨k', v'⟩ := p
    rw [List.map_cons, List.nodup_cons] at h
    intro hm
    rw [List.lookup_cons]
    rcases List.mem_cons.1 hm with e | e
    · cases e; simp
    · have hne : (k == k') = false := by
        rw [beq_eq_false_iff_ne]
        intro e'; subst e'
        exact h.1 (List.mem_map.2 ⟨_, e, rfl⟩)
      rw [hne]
      exact ih h.2 e

theorem mem_traverse (d : HkDict V) (hd : IsDict2 d) (m n : String) (v : V) :
    (m, n, v) ∈ traverse d ↔ get2 d m n = some v := by
  unfold traverse get2
  simp only [List.mem_flatMap, List.mem_map, Prod.mk.injEq, Option.bind_eq_some_iff]
  constructor
  · rintro ⟨⟨m', ps⟩, hmp, ⟨n', v'⟩, hnv, rfl, rfl, rfl⟩
    exact ⟨ps, (lookup_iff_mem d hd.1 _ _).2 hmp, (lookup_iff_mem ps (hd.2 _ hmp) _ _).2 hnv⟩
  · rintro ⟨ps, h1, h2⟩
    have hmp := mem_of_lookup _ _ _ h1
    exact ⟨(m, ps), hmp, (n, v), mem_of_lookup _ _ _ h2, rfl, rfl, rfl⟩

theorem get2_set2 (d : HkDict V) (m n m' n' : String) (v : V) :
    get2 (set2 d m n v) m' n' = if m' = m ∧ n' = n then some v else get2 d m' n' := by
  unfold get2 set2
  rw [dictSet_lookup]
  by_cases hm : m' = m
  · subst hm
    simp only [if_true, Option.bind_some, dictSet_lookup, true_and]
    by_cases hn : n' = n
    · simp [hn]
    · rw [if_neg hn, if_neg hn]
      cases h : d.lookup m' <;> simp
  · simp [hm]

theorem dictSet_keys {β : Type} (d : List (String × β)) (k : String) (v : β) :
    (dictSet d k v).map Prod.fst = if k ∈ d.map Prod.fst then d.map Prod.fst else d.map Prod.fst ++ [k] := by
  induction d with
  | nil => simp [dictSet]
  | cons p d ih =>
    obtain ⟨k', v'⟩ := p
    unfold dictSet
    by_cases h : k' = k
    · subst h; simp
    · rw [if_neg h, List.map_cons, ih]
      have h' : ¬ k = k' := fun e => h e.symm
      by_cases hm : k ∈ d.map Prod.fst
      · rw [if_pos hm, List.map_cons, if_pos (List.mem_cons_of_mem _ hm)]
      · rw [if_neg hm, List.map_cons, if_neg (by rw [List.mem_cons]; exact fun e => e.elim h' hm)]; rfl

theorem dictSet_nodup {β : Type} (d : List (String × β)) (k : String) (v : β) (h : (d.map Prod.fst).Nodup) :
    ((dictSet d k v).map Prod.fst).Nodup := by
  rw [dictSet_keys]
  split
  · exact h
  · rename_i hk
    rw [List.nodup_append]
    refine ⟨h, by simp, ?_⟩
    intro a ha b hb e
    rw [List.mem_singleton.1 hb] at e
    exact hk (e ▸ ha)

theorem dictSet_mem {β : Type} (d : List (String × β)) (k : String) (v : β) (p : String × β) (h : p ∈ dictSet d k v) :
    p = (k, v) ∨ p ∈ d := by
  induction d with
  | nil => simpa [dictSet] using h
  | cons q d ih =>
    obtain ⟨k', v'⟩ := q
    unfold dictSet at h
    by_cases hk : k' = k
    · rw [if_pos hk] at h
      rcases List.mem_cons.1 h with e | e
      · exact Or.inl e
      · exact Or.inr (List.mem_cons_of_mem _ e)
    · rw [if_neg hk] at h
      rcases List.mem_cons.1 h with e | e
      · exact Or.inr (e ▸ List.mem_cons_self)
      · rcases ih e with e' | e'
        · exact Or.inl e'
        · exact Or.inr (List.mem_cons_of_mem _ e')

theorem isDict2_set2 (d : HkDict V) (h : IsDict2 d) (m n : String) (v : V) : IsDict2 (set2 d m n v) := by
  refine ⟨dictSet_nodup _ _ _ h.1, ?_⟩
  intro mp hmp
  rcases dictSet_mem _ _ _ _ hmp with e | e
  · subst e
    apply dictSet_nodup
    cases hl : d.lookup m with
    | none => simp
    | some ps => exact h.2 _ (mem_of_lookup _ _ _ hl)
  · exact h.2 _ e

theorem isDict2_fold (ls : List (String × String × V)) (o : HkDict V) (h : IsDict2 o) :
    IsDict2 (ls.foldl (fun o l => set2 o l.1 l.2.1 l.2.2) o) := by
  induction ls generalizing o with
  | nil => exact h
  | cons l ls ih => exact ih _ (isDict2_set2 _ h _ _ _)

theorem isDict2_nil : IsDict2 ([] : HkDict V) := ⟨by simp, by simp⟩

theorem get2_fold (ls : List (String × String × V)) (o : HkDict V) (m n : String) :
    get2 (ls.foldl (fun o l => set2 o l.1 l.2.1 l.2.2) o) m n =
      ((ls.reverse.find? fun l => l.1 = m ∧ l.2.1 = n).map fun l => l.2.2).or (get2 o m n) := by
  induction ls generalizing o with
  | nil => simp
  | cons l ls ih =>
    rw [List.foldl_cons, ih, get2_set2, List.reverse_cons, List.find?_append]
    cases h : ls.reverse.find? fun l => decide (l.1 = m ∧ l.2.1 = n) with
    | some a => simp
    | none =>
      simp only [Option.map_none, Option.none_or]
      by_cases hk : m = l.1 ∧ n = l.2.1
      · rw [if_pos hk]
        have hk' : l.1 = m ∧ l.2.1 = n := ⟨hk.1.symm, hk.2.symm⟩
        simp [List.find?_cons, hk']
      · rw [if_neg hk]
        have hk' : ¬ (l.1 = m ∧ l.2.1 = n) := fun e => hk ⟨e.1.symm, e.2.symm⟩
        simp [List.find?_cons, hk']

/-- A list of leaves in which an address carries one value only. -/
theorem find_functional (ls : List (String × String × V))
    (hf : ∀ m n v v', (m, n, v) ∈ ls → (m, n, v') ∈ ls → v = v') (m n : String) (v : V) :
    ((ls.reverse.find? fun l => l.1 = m ∧ l.2.1 = n).map fun l => l.2.2) = some v ↔ (m, n, v) ∈ ls := by
  constructor
  · intro h
    obtain ⟨⟨m', n', v'⟩, hl, rfl⟩ := Option.map_eq_some_iff.1 h
    have h1 := List.mem_of_find?_eq_some hl
    have h2 := List.find?_some hl
    simp only [decide_eq_true_eq] at h2
    obtain ⟨rfl, rfl⟩ := h2
    exact List.mem_reverse.1 h1
  · intro h
    cases hl : ls.reverse.find? fun l => decide (l.1 = m ∧ l.2.1 = n) with
    | none =>
      have := List.find?_eq_none.1 hl _ (List.mem_reverse.2 h)
      simp at this
    | some l =>
      obtain ⟨m', n', v'⟩ := l
      have h1 := List.mem_reverse.1 (List.mem_of_find?_eq_some hl)
      have h2 := List.find?_some hl
      simp only [decide_eq_true_eq] at h2
      obtain ⟨rfl, rfl⟩ := h2
      simp [hf _ _ _ _ h1 h]

theorem traverse_functional (d : HkDict V) (hd : IsDict2 d) (m n : String) (v v' : V)
    (h : (m, n, v) ∈ traverse d) (h' : (m, n, v') ∈ traverse d) : v = v' := by
  rw [mem_traverse d hd] at h h'
  exact Option.some.inj (h.symm.trans h')

theorem find_traverse (d : HkDict V) (hd : IsDict2 d) (m n : String) :
    (((traverse d).reverse.find? fun l => l.1 = m ∧ l.2.1 = n).map fun l => l.2.2) = get2 d m n := by
  apply Option.ext
  intro v
  rw [find_functional _ (traverse_functional d hd), mem_traverse d hd]

/-- C52: an address is trainable (in the first part of the partition) exactly when it is a parameter satisfying the
predicate, and then with its own value. -/
theorem C52_partition_trainable (pred : String → String → V → Bool) (d : HkDict V) (hd : IsDict2 d) (m n : String) (v : V) :
    get2 (partition pred d).1 m n = some v ↔ get2 d m n = some v ∧ pred m n v = true := by
  unfold partition
  simp only [get2_fold]
  have h0 : get2 ([] : HkDict V) m n = none := rfl
  rw [h0, Option.or_none, find_functional, List.mem_filter, mem_traverse d hd]
  intro m n v v' h h'
  exact traverse_functional d hd _ _ _ _ (List.mem_filter.1 h).1 (List.mem_filter.1 h').1

/-- C52: and non-trainable exactly when it does not. -/
theorem C52_partition_nontrainable (pred : String → String → V → Bool) (d : HkDict V) (hd : IsDict2 d) (m n : String) (v : V) :
    get2 (partition pred d).2 m n = some v ↔ get2 d m n = some v ∧ pred m n v = false := by
  unfold partition
  simp only [get2_fold]
  have h0 : get2 ([] : HkDict V) m n = none := rfl
  rw [h0, Option.or_none, find_functional, List.mem_filter, mem_traverse d hd]
  · simp
  · intro m n v v' h h'
    exact traverse_functional d hd _ _ _ _ (List.mem_filter.1 h).1 (List.mem_filter.1 h').1

theorem isDict2_partition (pred : String → String → V → Bool) (d : HkDict V) :
    IsDict2 (partition pred d).1 ∧ IsDict2 (partition pred d).2 :=
  ⟨isDict2_fold _ _ isDict2_nil, isDict2_fold _ _ isDict2_nil⟩

/-- Merging: the second structure wins. -/
theorem get2_merge (a b : HkDict V) (ha : IsDict2 a) (hb : IsDict2 b) (m n : String) :
    get2 (merge a b) m n = (get2 b m n).or (get2 a m n) := by
  unfold merge
  rw [List.foldl_append, get2_fold, get2_fold, find_traverse a ha, find_traverse b hb]
  have h0 : get2 ([] : HkDict V) m n = none := rfl
  rw [h0, Option.or_none]

theorem get2_merge_right (a b : HkDict V) (hb : IsDict2 b) (m n : String) (v : V) (h : get2 b m n = some v) :
    get2 (merge a b) m n = some v := by
  unfold merge
  rw [List.foldl_append, get2_fold, find_traverse b hb, h, Option.some_or]

/-- C52 (Haiku): splitting the parameters by any predicate and merging the two parts gives back the same parameters: same
addresses, same values. -/
theorem C52_merge_partition (pred : String → String → V → Bool) (d : HkDict V) (hd : IsDict2 d) (m n : String) :
    get2 (merge (partition pred d).1 (partition pred d).2) m n = get2 d m n := by
  have hp := isDict2_partition pred d
  rw [get2_merge _ _ hp.1 hp.2]
  apply Option.ext
  intro v
  cases h2 : get2 (partition pred d).2 m n with
  | some w =>
    have := (C52_partition_nontrainable pred d hd m n w).1 h2
    rw [Option.some_or, this.1]
  | none =>
    rw [Option.none_or, C52_partition_trainable pred d hd]
    constructor
    · exact fun h => h.1
    · intro h
      refine ⟨h, ?_⟩
      cases hp : pred m n v with
      | true => rfl
      | false =>
        have := (C52_partition_nontrainable pred d hd m n v).2 ⟨h, hp⟩
        rw [h2] at this
        cases this

example : IsDict2 ([("linear", [("w", 1), ("b", 2)]), ("scale", [("w", 3)])] : HkDict Nat) := by
  constructor <;> decide

section Online
variable {K : Type} [Field K] [LinearOrder K]

theorem online_nonTrainable (big : K) (c : OConfig S O X L I (Fl K)) (p0 : HkDict (Fl K)) (s0 : S) (xs : List X) :
    ((onlineOptimizer big c p0 s0).stateAfter xs).nonTrainable = (partition c.pred p0).2 := by
  induction xs using List.reverseRecOn with
  | nil => rfl
  | append_singleton xs x ih => rw [Mealy.stateAfter_append_singleton]; exact ih

/-- C52: whatever the model, the gradients, the optimiser and the projection, a parameter that the predicate excludes keeps
its initial value in the parameters returned at every step. -/
theorem C52_nontrainable_never_changes (big : K) (c : OConfig S O X L I (Fl K)) (p0 : HkDict (Fl K)) (s0 : S)
    (hd : IsDict2 p0) (m n : String) (v : Fl K) (hv : get2 p0 m n = some v) (hp : c.pred m n v = false)
    (xs : List X) (out : OInfo L I (Fl K)) (ho : out ∈ (onlineOptimizer big c p0 s0).run xs) :
    get2 out.params m n = some v := by
  obtain ⟨t, ht⟩ := List.mem_iff_getElem?.1 ho
  rw [Mealy.run, Mealy.outsFrom_getElem?] at ht
  obtain ⟨x, _, rfl⟩ := Option.map_eq_some_iff.1 ht
  show get2 (merge _ ((onlineOptimizer big c p0 s0).stateAfter (xs.take t)).nonTrainable) m n = _
  rw [online_nonTrainable]
  exact get2_merge_right _ _ (isDict2_partition _ _).2 m n v ((C52_partition_nontrainable _ _ hd _ _ _).2 ⟨hv, hp⟩)

/-! ### Optimiser step -/

theorem get2_mapTree {W : Type} (f : String → String → V → W) (d : HkDict V) (m n : String) :
    get2 (mapTree f d) m n = (get2 d m n).map (f m n) := by
  unfold get2 mapTree
  induction d with
  | nil => rfl
  | cons mp d ih =>
    obtain ⟨m', ps⟩ := mp
    simp only [List.map_cons, List.lookup_cons]
    by_cases hm : m = m'
    · subst hm
      simp only [beq_self_eq_true, Option.bind_some]
      induction ps with
      | nil => rfl
      | cons nv ps ihp =>
        obtain ⟨n', v⟩ := nv
        simp only [List.map_cons, List.lookup_cons]
        by_cases hn : n = n'
        · subst hn; simp
        · have : (n == n') = false := by rw [beq_eq_false_iff_ne]; exact hn
          simp only [this]
          exact ihp
    · have : (m == m') = false := by rw [beq_eq_false_iff_ne]; exact hm
      simp only [this]
      exact ih

/-- C52: the optimiser keeps the addresses of the parameters it is given and adds its update to each. -/
theorem C52_optimizer_update (add : V → V → V) (opt : Transformation O V) (params grads : HkDict V) (s : O) (m n : String)
    (p u : V) (hp : get2 params m n = some p) (hu : get2 (opt.update grads s).1 m n = some u) :
    get2 (optaxStep add opt params grads s).1 m n = some (add p u) := by
  unfold optaxStep applyUpdates
  simp only
  rw [get2_mapTree, hp]
  simp [hu]

theorem C52_optimizer_addresses (add : V → V → V) (opt : Transformation O V) (params grads : HkDict V) (s : O) (m n : String) :
    (get2 (optaxStep add opt params grads s).1 m n).isSome = (get2 params m n).isSome := by
  unfold optaxStep applyUpdates
  simp only
  rw [get2_mapTree, Option.isSome_map]

/-! ## C53 -/

/-- All leaves are finite. -/
def AllFinite (g : HkDict (Fl K)) : Prop := ∀ m ps, (m, ps) ∈ g → ∀ n x, (n, x) ∈ ps → x.isFin = true

theorem allFinite_mapTree (f : Fl K → Fl K) (hf : ∀ x, (f x).isFin = true) (g : HkDict (Fl K)) :
    AllFinite (mapTree (fun _ _ x => f x) g) := by
  intro m ps h n x hx
  unfold mapTree at h
  obtain ⟨⟨m', ps'⟩, _, e⟩ := List.mem_map.1 h
  cases e
  obtain ⟨⟨n', x'⟩, _, e⟩ := List.mem_map.1 hx
  cases e
  exact hf x'

theorem nanToNum_fin (big : K) (x : Fl K) : (nanToNum big x).isFin = true := by cases x <;> rfl

theorem fillNanInf_fin (x : Fl K) : (fillNanInf x).isFin = true := by cases x <;> rfl

/-- C53: the optimiser never receives a NaN or an infinity: two optimisers that behave alike on finite gradients give the
same run, whatever the gradients of the model are. -/
theorem C53_online_only_finite_gradients (big : K) (c : OConfig S O X L I (Fl K)) (opt' : Transformation O (Fl K))
    (hinit : ∀ p, c.opt.init p = opt'.init p) (hupd : ∀ g s, AllFinite g → c.opt.update g s = opt'.update g s)
    (p0 : HkDict (Fl K)) (s0 : S) (xs : List X) :
    (onlineOptimizer big c p0 s0).run xs = (onlineOptimizer big { c with opt := opt' } p0 s0).run xs := by
  apply Mealy.run_eq_of_sim (R := fun a b => a = b)
  · show onlineInit _ _ _ = onlineInit _ _ _
    simp [onlineInit, hinit]
  · intro a b x hab
    subst hab
    show (onlineStep big c a x).1 = (onlineStep big _ a x).1 ∧ (onlineStep big c a x).2 = (onlineStep big _ a x).2
    simp only [onlineStep, optaxStep, hupd _ _ (allFinite_mapTree _ (nanToNum_fin big) _), and_self]

/-- Specification of the replacement: NaN becomes 0, the infinities the largest finite magnitude. -/
def finiteVersion (big : K) (g : Fl K) : Fl K :=
  if g = .nan then .fin 0 else if g = .pinf then .fin big else if g = .ninf then .fin (-big) else g

/-- C53: what it receives instead: a model whose gradients are replaced by their finite version gives the same run. -/
theorem C53_online_replacement (big : K) (c : OConfig S O X L I (Fl K))
    (p0 : HkDict (Fl K)) (s0 : S) (xs : List X) :
    (onlineOptimizer big c p0 s0).run xs =
      (onlineOptimizer big { c with grad := fun t nt s x => mapTree (fun _ _ g => finiteVersion big g) (c.grad t nt s x) }
        p0 s0).run xs := by
  apply Mealy.run_eq_of_sim (R := fun a b => a = b)
  · rfl
  · intro a b x hab
    subst hab
    have hidem : ∀ g : HkDict (Fl K), mapTree (fun _ _ g => nanToNum big g) (mapTree (fun _ _ g => finiteVersion big g) g) =
        mapTree (fun _ _ g => nanToNum big g) g := by
      intro g
      unfold mapTree
      rw [List.map_map]
      apply List.map_congr_left
      intro mp _
      simp only [Function.comp_apply, List.map_map, Prod.mk.injEq, true_and]
      apply List.map_congr_left
      intro nv _
      simp only [Function.comp_apply, Prod.mk.injEq, true_and]
      cases nv.2 <;> simp [finiteVersion, nanToNum]
    show (onlineStep big c a x).1 = (onlineStep big _ a x).1 ∧ (onlineStep big c a x).2 = (onlineStep big _ a x).2
    simp only [onlineStep, hidem, and_self]

/-- C53: the step counter counts the calls. -/
theorem C53_step_counter (big : K) (c : OConfig S O X L I (Fl K)) (p0 : HkDict (Fl K)) (s0 : S) (xs : List X) :
    ((onlineOptimizer big c p0 s0).stateAfter xs).step = xs.length := by
  induction xs using List.reverseRecOn with
  | nil => rfl
  | append_singleton xs x ih =>
    rw [Mealy.stateAfter_append_singleton, List.length_append, List.length_singleton, ← ih]; rfl

/-- C53: the trainable parameters stored after any call are projected ones, so any constraint that the projection enforces
holds after every call. -/
theorem C53_projection (big : K) (c : OConfig S O X L I (Fl K)) (p0 : HkDict (Fl K)) (s0 : S) (P : HkDict (Fl K) → Prop)
    (hP : ∀ d, P (c.project d)) (xs : List X) (hne : xs ≠ []) :
    P ((onlineOptimizer big c p0 s0).stateAfter xs).trainable := by
  induction xs using List.reverseRecOn with
  | nil => exact absurd rfl hne
  | append_singleton xs x _ => rw [Mealy.stateAfter_append_singleton]; exact hP _

/-- C53, FuncOptimizer with `grads_fill_nan_inf=True`: same guarantee, NaN and infinities become 0. -/
theorem C53_func_only_finite_gradients (c : FConfig S O X R (Fl K)) (hfill : c.fill = true) (opt' : Transformation O (Fl K))
    (hinit : ∀ p, c.opt.init p = opt'.init p) (hupd : ∀ g s, AllFinite g → c.opt.update g s = opt'.update g s)
    (p0 : HkDict (Fl K)) (s0 : S) (xs : List X) :
    (funcOptimizer c p0 s0).run xs = (funcOptimizer { c with opt := opt' } p0 s0).run xs := by
  apply Mealy.run_eq_of_sim (R := fun a b => a = b)
  · show funcInit _ _ _ = funcInit _ _ _
    simp [funcInit, hinit]
  · intro a b x hab
    subst hab
    show (funcStep c a x).1 = (funcStep _ a x).1 ∧ (funcStep c a x).2 = (funcStep _ a x).2
    simp only [funcStep, optaxStep, hfill, if_true, hupd _ _ (allFinite_mapTree _ fillNanInf_fin _), and_self]

/-- Non-vacuity of the two theorems above: an optimiser (plain SGD with step `-1`) and one that differs on NaN gradients. -/
def sgd : Transformation Unit (Fl ℚ) := ⟨fun _ => (), fun g _ => (mapTree (fun _ _ x => Fl.neg x) g, ())⟩

example : ∃ opt' : Transformation Unit (Fl ℚ), (∀ g s, AllFinite g → sgd.update g s = opt'.update g s) ∧
    opt'.update [("a", [("w", Fl.nan)])] () ≠ sgd.update [("a", [("w", Fl.nan)])] () := by
  classical
  refine ⟨⟨fun _ => (), fun g s => if AllFinite g then sgd.update g s else ([], ())⟩, ?_, ?_⟩
  · intro g s h
    simp [h]
  · have : ¬ AllFinite ([("a", [("w", Fl.nan)])] : HkDict (Fl ℚ)) := by
      intro h
      have := h "a" _ (List.mem_cons_self) "w" _ (List.mem_cons_self)
      simp at this
    simp [this, sgd, mapTree]

/-! ## C72: predict, then learn -/

theorem isDict2_mapTree {W : Type} (f : String → String → V → W) (d : HkDict V) (h : IsDict2 d) : IsDict2 (mapTree f d) := by
  unfold mapTree
  refine ⟨?_, ?_⟩
  · rw [List.map_map]
    exact h.1
  · intro mp hmp
    obtain ⟨mp', hm, rfl⟩ := List.mem_map.1 hmp
    simp only [List.map_map]
    exact h.2 _ hm

theorem isDict2_optax (add : V → V → V) (opt : Transformation O V) (p g : HkDict V) (s : O) (h : IsDict2 p) :
    IsDict2 (optaxStep add opt p g s).1 := by
  unfold optaxStep applyUpdates
  simp only
  exact isDict2_mapTree _ _ h

theorem isDict2_online (big : K) (c : OConfig S O X L I (Fl K)) (hproj : ∀ d, IsDict2 d → IsDict2 (c.project d))
    (p0 : HkDict (Fl K)) (s0 : S) (xs : List X) : IsDict2 ((onlineOptimizer big c p0 s0).stateAfter xs).trainable := by
  induction xs using List.reverseRecOn with
  | nil => exact (isDict2_partition _ _).1
  | append_singleton xs x ih =>
    rw [Mealy.stateAfter_append_singleton]
    exact hproj _ (isDict2_optax _ _ _ _ _ ih)

/-- C72: the log of an online optimiser can be replayed: there is a sequence of parameters `ps` and model states `ss`, starting
from the initial ones, such that the loss and info reported at step `t` are those of the model on `ps t`, `ss t`, `x_t`
(the loss regularised with the trainable part `trs t` of `ps t`); the parameters used at step `t+1` are exactly those returned
at step `t`; and the model state is threaded through the calls.
In particular the loss at step `t` is evaluated before learning from `x_t`. -/
theorem C72_online_replay (big : K) (c : OConfig S O X L I (Fl K)) (hproj : ∀ d, IsDict2 d → IsDict2 (c.project d))
    (p0 : HkDict (Fl K)) (s0 : S) (hd : IsDict2 p0) (xs : List X) :
    ∃ (ps trs : Nat → HkDict (Fl K)) (ss : Nat → S),
      (∀ m n, get2 (ps 0) m n = get2 p0 m n) ∧ ss 0 = s0 ∧
      (∀ t m n, get2 (ps t) m n = (get2 (partition c.pred p0).2 m n).or (get2 (trs t) m n)) ∧
      ∀ t (_ : t < xs.length), ∃ out, ((onlineOptimizer big c p0 s0).run xs)[t]? = some out ∧
        out.loss = c.regularize (c.model (ps t) (ss t) xs[t]).1.1 (trs t) ∧
        out.info = (c.model (ps t) (ss t) xs[t]).1.2 ∧
        ps (t + 1) = out.params ∧ ss (t + 1) = (c.model (ps t) (ss t) xs[t]).2 := by
  let st := fun t => (onlineOptimizer big c p0 s0).stateAfter (xs.take t)
  have hnt : ∀ t, (st t).nonTrainable = (partition c.pred p0).2 := fun t => online_nonTrainable big c p0 s0 _
  refine ⟨fun t => merge (st t).trainable (st t).nonTrainable, fun t => (st t).trainable, fun t => (st t).mstate, ?_, rfl,
    ?_, ?_⟩
  · intro m n
    exact C52_merge_partition c.pred p0 hd m n
  · intro t m n
    simp only [hnt]
    exact get2_merge _ _ (isDict2_online big c hproj p0 s0 _) (isDict2_partition _ _).2 m n
  · intro t ht
    have hst : st (t + 1) = (onlineStep big c (st t) xs[t]).2 := by
      show (onlineOptimizer big c p0 s0).stateAfter (xs.take (t + 1)) = _
      rw [← List.take_append_getElem ht, Mealy.stateAfter_append_singleton]; rfl
    refine ⟨(onlineStep big c (st t) xs[t]).1, ?_, rfl, rfl, ?_, ?_⟩
    · rw [Mealy.run, Mealy.outsFrom_getElem?, List.getElem?_eq_getElem ht]; rfl
    · simp only [hst]; rfl
    · simp only [hst]; rfl

/-! ## C84: the given optimiser is what trains the parameters -/

/-- C84 (`OnlineOptimizer`): the trainable parameters `θ` and the optimiser state `o` follow the given optimiser: they start at
the trainable part of the initial parameters and at the optimiser's initial state for it; at step `t` the optimiser receives the
finite version of the gradient at `θ t`, its answer is added leaf by leaf and projected; and the parameters returned are the
frozen ones together with `θ (t+1)`. -/
theorem C84_online_follows_optimizer (big : K) (c : OConfig S O X L I (Fl K)) (hproj : ∀ d, IsDict2 d → IsDict2 (c.project d))
    (p0 : HkDict (Fl K)) (s0 : S) (xs : List X) :
    ∃ (θ : Nat → HkDict (Fl K)) (o : Nat → O) (ss : Nat → S),
      θ 0 = (partition c.pred p0).1 ∧ o 0 = c.opt.init (θ 0) ∧ ss 0 = s0 ∧
      ∀ t (_ : t < xs.length),
        let g := mapTree (fun _ _ g => finiteVersion big g) (c.grad (θ t) (partition c.pred p0).2 (ss t) xs[t])
        let u := c.opt.update g (o t)
        o (t + 1) = u.2 ∧
        (∃ moved, θ (t + 1) = c.project moved ∧
          ∀ m n, get2 moved m n = (get2 (θ t) m n).map fun p => (get2 u.1 m n).elim p fun d => p + d) ∧
        ∃ out, ((onlineOptimizer big c p0 s0).run xs)[t]? = some out ∧
          (∀ m n, get2 out.params m n = (get2 (partition c.pred p0).2 m n).or (get2 (θ (t + 1)) m n)) ∧
          ss (t + 1) = (c.model (merge (θ t) (partition c.pred p0).2) (ss t) xs[t]).2 := by
  let st := fun t => (onlineOptimizer big c p0 s0).stateAfter (xs.take t)
  have hnt : ∀ t, (st t).nonTrainable = (partition c.pred p0).2 := fun t => online_nonTrainable big c p0 s0 _
  refine ⟨fun t => (st t).trainable, fun t => (st t).opt, fun t => (st t).mstate, rfl, rfl, rfl, ?_⟩
  intro t ht
  have hst : st (t + 1) = (onlineStep big c (st t) xs[t]).2 := by
    show (onlineOptimizer big c p0 s0).stateAfter (xs.take (t + 1)) = _
    rw [← List.take_append_getElem ht, Mealy.stateAfter_append_singleton]; rfl
  have hclean : ∀ g : HkDict (Fl K), mapTree (fun _ _ g => finiteVersion big g) g = mapTree (fun _ _ g => nanToNum big g) g := by
    intro g
    have : (finiteVersion big : Fl K → Fl K) = nanToNum big := by
      funext x; cases x <;> simp [finiteVersion, nanToNum]
    rw [this]
  refine ⟨?_, ⟨applyUpdates Fl.add (st t).trainable
      (c.opt.update (mapTree (fun _ _ g => nanToNum big g) (c.grad (st t).trainable (st t).nonTrainable (st t).mstate xs[t]))
        (st t).opt).1, ?_, ?_⟩, (onlineStep big c (st t) xs[t]).1, ?_, ?_, ?_⟩
  · simp only [hst, hclean, ← hnt t]; rfl
  · simp only [hst]; rfl
  · intro m n
    simp only [hclean, ← hnt t]
    unfold applyUpdates
    rw [get2_mapTree]
    congr 1
    funext p
    cases get2 (c.opt.update (mapTree (fun _ _ g => nanToNum big g)
      (c.grad (st t).trainable (st t).nonTrainable (st t).mstate xs[t])) (st t).opt).1 m n <;> rfl
  · rw [Mealy.run, Mealy.outsFrom_getElem?, List.getElem?_eq_getElem ht]; rfl
  · intro m n
    have e : (onlineStep big c (st t) xs[t]).1.params = merge (st (t + 1)).trainable (partition c.pred p0).2 := by
      rw [hst, ← hnt t]; rfl
    rw [e]
    exact get2_merge _ _ (isDict2_online big c hproj p0 s0 _) (isDict2_partition _ _).2 m n
  · simp only [hst, ← hnt t]; rfl

/-- C84 (`FuncOptimizer`, and so `OnlineSupervisedLearner`): the same, without projection, non-finite gradients being
replaced by 0 when `grads_fill_nan_inf` is set and given to the optimiser as they are when it is not; the trainable
parameters are returned. -/
theorem C84_func_follows_optimizer (c : FConfig S O X R (Fl K)) (p0 : HkDict (Fl K)) (s0 : S)
    (xs : List X) :
    ∃ (θ : Nat → HkDict (Fl K)) (o : Nat → O) (ss : Nat → S),
      θ 0 = (partition c.pred p0).1 ∧ o 0 = c.opt.init (θ 0) ∧ ss 0 = s0 ∧
      ∀ t (_ : t < xs.length),
        let g := c.grad (θ t) (partition c.pred p0).2 (ss t) xs[t]
        let u := c.opt.update (if c.fill then mapTree (fun _ _ g => finiteVersion 0 g) g else g) (o t)
        o (t + 1) = u.2 ∧
        (∀ m n, get2 (θ (t + 1)) m n = (get2 (θ t) m n).map fun p => (get2 u.1 m n).elim p fun d => p + d) ∧
        ∃ r, ((funcOptimizer c p0 s0).run xs)[t]? = some (r, θ (t + 1)) ∧
          (r, ss (t + 1)) = c.func (merge (θ t) (partition c.pred p0).2) (ss t) xs[t] := by
  let st := fun t => (funcOptimizer c p0 s0).stateAfter (xs.take t)
  have hnt : ∀ t, (st t).nonTrainable = (partition c.pred p0).2 := by
    intro t
    show ((funcOptimizer c p0 s0).stateAfter (xs.take t)).nonTrainable = _
    generalize xs.take t = l
    induction l using List.reverseRecOn with
    | nil => rfl
    | append_singleton l x ih => rw [Mealy.stateAfter_append_singleton]; exact ih
  refine ⟨fun t => (st t).trainable, fun t => (st t).opt, fun t => (st t).mstate, rfl, rfl, rfl, ?_⟩
  intro t ht
  have hst : st (t + 1) = (funcStep c (st t) xs[t]).2 := by
    show (funcOptimizer c p0 s0).stateAfter (xs.take (t + 1)) = _
    rw [← List.take_append_getElem ht, Mealy.stateAfter_append_singleton]; rfl
  have hclean : ∀ g : HkDict (Fl K), mapTree (fun _ _ g => finiteVersion 0 g) g = mapTree (fun _ _ g => fillNanInf g) g := by
    intro g
    have : (finiteVersion 0 : Fl K → Fl K) = fillNanInf := by
      funext x; cases x <;> simp [finiteVersion, fillNanInf]
    rw [this]
  refine ⟨?_, ?_, (c.func (merge (st t).trainable (st t).nonTrainable) (st t).mstate xs[t]).1, ?_, ?_⟩
  · simp only [hst, hclean, ← hnt t, funcStep]; rfl
  · intro m n
    simp only [hst, hclean, ← hnt t, funcStep, optaxStep, applyUpdates]
    rw [get2_mapTree]
    congr 1
    funext p
    generalize get2 (c.opt.update _ (st t).opt).1 m n = d
    cases d <;> rfl
  · rw [Mealy.run, Mealy.outsFrom_getElem?, List.getElem?_eq_getElem ht]
    simp only [hst]; rfl
  · simp only [hst, ← hnt t]; rfl

/-- Non-vacuity: a projection satisfying the hypothesis, and one step of gradient descent: parameter 5 with gradient 2 becomes
3 and the frozen parameter 7 stays. -/
example : (∀ d : HkDict (Fl ℚ), IsDict2 d → IsDict2 (id d)) ∧
    get2 ((((onlineOptimizer (K := ℚ) (S := Unit) (X := Unit) (L := Unit) (I := Unit) 1000
      ⟨fun _ _ _ => (((), ()), ()), fun l _ => l, fun _ _ _ _ => [("m", [("w", Fl.fin 2)])], sgd, id, fun _ n _ => n == "w"⟩
      [("m", [("w", Fl.fin 5), ("b", Fl.fin 7)])] ()).run [()]).head?.map fun o => o.params).getD []) "m" "w" = some (Fl.fin 3) :=
  ⟨fun _ h => h, by decide +kernel⟩

/-- C73: the learner predicts before it learns: the prediction at step `t` does not depend on the target of step `t`, nor on
anything after. -/
theorem C73_learner_prediction_causal {A B P : Type} (model : HkDict (Fl K) → S → A → P × S) (loss : B → P → L)
    (grad : HkDict (Fl K) → HkDict (Fl K) → S → A × B → HkDict (Fl K)) (opt : Transformation O (Fl K)) (fill : Bool)
    (p0 : HkDict (Fl K)) (s0 : S) (xys xys' : List (A × B)) (t : Nat) (ht : t < xys.length) (ht' : t < xys'.length)
    (hpast : xys.take t = xys'.take t) (hx : (xys[t]).1 = (xys'[t]).1) :
    (((learner model loss grad opt fill p0 s0).run xys)[t]?).map Prod.fst =
      (((learner model loss grad opt fill p0 s0).run xys')[t]?).map Prod.fst := by
  rw [Mealy.run, Mealy.run, Mealy.outsFrom_getElem?, Mealy.outsFrom_getElem?, List.getElem?_eq_getElem ht,
    List.getElem?_eq_getElem ht', hpast]
  simp only [Option.map_some, learner, funcStep, learnerConfig, hx]

/-- C73: the parameters returned at step `t` are those that predict at step `t+1`: the prediction and loss at `t+1` are the
model and loss on the parameters returned at `t`, the model state being threaded through the calls. -/
theorem C73_learner_replay {A B P : Type} (model : HkDict (Fl K) → S → A → P × S) (loss : B → P → L)
    (grad : HkDict (Fl K) → HkDict (Fl K) → S → A × B → HkDict (Fl K)) (opt : Transformation O (Fl K)) (fill : Bool)
    (p0 : HkDict (Fl K)) (s0 : S) (hd : IsDict2 p0) (xys : List (A × B)) :
    ∃ (ps : Nat → HkDict (Fl K)) (ss : Nat → S), (∀ m n, get2 (ps 0) m n = get2 p0 m n) ∧ ss 0 = s0 ∧
      ∀ t (_ : t < xys.length), ∃ y l newp, ((learner model loss grad opt fill p0 s0).run xys)[t]? = some (y, l, newp) ∧
        y = (model (ps t) (ss t) (xys[t]).1).1 ∧ l = loss (xys[t]).2 y ∧
        ss (t + 1) = (model (ps t) (ss t) (xys[t]).1).2 ∧ ∀ m n, get2 (ps (t + 1)) m n = get2 newp m n := by
  have hnt : ∀ l, ((learner model loss grad opt fill p0 s0).stateAfter l).nonTrainable = [] := by
    intro l
    induction l using List.reverseRecOn with
    | nil =>
      show (partition (fun _ _ _ => true) p0).2 = []
      simp [partition]
    | append_singleton l x ih => rw [Mealy.stateAfter_append_singleton]; exact ih
  let st := fun t => (learner model loss grad opt fill p0 s0).stateAfter (xys.take t)
  refine ⟨fun t => merge (st t).trainable (st t).nonTrainable, fun t => (st t).mstate, ?_, rfl, ?_⟩
  · intro m n
    exact C52_merge_partition (fun _ _ _ => true) p0 hd m n
  · intro t ht
    have hst : st (t + 1) = (funcStep (learnerConfig model loss grad opt fill) (st t) xys[t]).2 := by
      show (learner model loss grad opt fill p0 s0).stateAfter (xys.take (t + 1)) = _
      rw [← List.take_append_getElem ht, Mealy.stateAfter_append_singleton]; rfl
    refine ⟨_, _, (funcStep (learnerConfig model loss grad opt fill) (st t) xys[t]).1.2, ?_, rfl, rfl, ?_, ?_⟩
    · rw [Mealy.run, Mealy.outsFrom_getElem?, List.getElem?_eq_getElem ht]; rfl
    · simp only [hst]; rfl
    · intro m n
      have h1 : (st (t + 1)).nonTrainable = [] := hnt _
      have h2 : ∀ l, IsDict2 ((learner model loss grad opt fill p0 s0).stateAfter l).trainable := by
        intro l
        induction l using List.reverseRecOn with
        | nil => exact (isDict2_partition _ _).1
        | append_singleton l x ih => rw [Mealy.stateAfter_append_singleton]; exact isDict2_optax _ _ _ _ _ ih
      simp only
      rw [h1, get2_merge _ _ (h2 _) isDict2_nil]
      show Option.or none (get2 (st (t + 1)).trainable m n) = _
      rw [Option.none_or, hst]; rfl

end Online

/-! ## Flax -/

section Flax
variable {K : Type} [Field K] [LinearOrder K] {A : Type}

/-- Joining the keys of a path with "/" and splitting again splits every key at its own slashes. -/
theorem resplit_eq (path : List Name) (hne : path ≠ []) : resplit path = path.flatMap fun k => k.splitOn '/' := by
  induction path with
  | nil => exact absurd rfl hne
  | cons k path ih =>
    cases path with
    | nil => simp [resplit]
    | cons k' path =>
      have h := ih (by simp)
      unfold resplit at h ⊢
      rw [List.flatMap_cons, ← h]
      have : List.intercalate ['/'] (k :: k' :: path) = k ++ '/' :: List.intercalate ['/'] (k' :: path) := by
        simp [List.intercalate]
      rw [this]
      exact List.splitOnP_append_cons (p := (· == '/')) k _ (by simp)

/-- A path without slashes in its keys comes back unchanged. -/
theorem resplit_id (path : List Name) (hne : path ≠ []) (hs : ∀ k ∈ path, '/' ∉ k) : resplit path = path := by
  rw [resplit_eq path hne]
  clear hne
  induction path with
  | nil => rfl
  | cons k path ih =>
    rw [List.flatMap_cons, ih fun k hk => hs k (List.mem_cons_of_mem _ hk)]
    have : k.splitOn '/' = [k] := by
      apply List.splitOnP_eq_singleton
      intro x hx
      rw [beq_eq_false_iff_ne]
      rintro rfl
      exact hs k List.mem_cons_self hx
    rw [this]; rfl

/-- A nested dictionary whose keys contain no slash. -/
def Plain (d : Nested V) : Prop := ∀ p v, (p, v) ∈ d → p ≠ [] ∧ ∀ k ∈ p, '/' ∉ k

theorem plain_map (d : Nested V) (h : Plain d) : (d.map fun pv => (resplit pv.1, pv.2)) = d := by
  conv_rhs => rw [← List.map_id d]
  apply List.map_congr_left
  intro pv hpv
  obtain ⟨p, v⟩ := pv
  have := h p v hpv
  simp [resplit_id p this.1 this.2]

/-- C52 (Flax), exact: after the split and the merge of the Flax optimisers, a leaf survives iff it is trainable, or no
trainable leaf lives under the same top-level key. -/
theorem C52_flax_merge_partial (pred : Name → Name → V → Bool) (d : Nested V) (hd : Plain d) (p : List Name) (v : V) :
    (p, v) ∈ shallowMerge (nestedPartition pred d).1 (nestedPartition pred d).2 ↔
      (p, v) ∈ d ∧ (pred (p.headD []) (p.getLastD []) v = true ∨
        ∀ q w, (q, w) ∈ d → pred (q.headD []) (q.getLastD []) w = true → q.head? ≠ p.head?) := by
  unfold shallowMerge nestedPartition
  simp only [plain_map d hd, List.mem_append, List.mem_filter, Bool.not_eq_true', List.any_eq_false, beq_iff_eq, Prod.forall,
    and_imp]
  constructor
  · rintro (⟨⟨h1, h2⟩, h3⟩ | ⟨h1, h2⟩)
    · exact ⟨h1, Or.inr fun q w hq hp e => h3 q w hq hp e⟩
    · exact ⟨h1, Or.inl h2⟩
  · rintro ⟨h1, h2⟩
    by_cases hp : pred (p.headD []) (p.getLastD []) v = true
    · exact Or.inr ⟨h1, hp⟩
    · refine Or.inl ⟨⟨h1, by simpa using hp⟩, ?_⟩
      rcases h2 with h2 | h2
      · exact absurd h2 hp
      · exact fun q w hq hp' e => h2 q w hq hp' e

/-- C52 (Flax): so nothing is lost exactly when no top-level key mixes trainable and non-trainable leaves. -/
theorem C52_flax_lossless_partial (pred : Name → Name → V → Bool) (d : Nested V) (hd : Plain d) :
    (∀ p v, (p, v) ∈ shallowMerge (nestedPartition pred d).1 (nestedPartition pred d).2 ↔ (p, v) ∈ d) ↔
      ∀ p v q w, (p, v) ∈ d → (q, w) ∈ d → p.head? = q.head? →
        pred (q.headD []) (q.getLastD []) w = true → pred (p.headD []) (p.getLastD []) v = true := by
  constructor
  · intro h p v q w hp hq e hpw
    have := ((C52_flax_merge_partial pred d hd p v).1 ((h p v).2 hp)).2
    rcases this with h1 | h1
    · exact h1
    · exact absurd e.symm (h1 q w hq hpw)
  · intro h p v
    rw [C52_flax_merge_partial pred d hd]
    refine ⟨fun h => h.1, fun hp => ⟨hp, ?_⟩⟩
    by_cases hpp : pred (p.headD []) (p.getLastD []) v = true
    · exact Or.inl hpp
    · refine Or.inr fun q w hq hpw e => hpp ?_
      exact h p v q w hp hq e.symm hpw

/-- C52 (Flax), counterexample: freezing the bias of a layer while training its weight deletes the bias. -/
theorem C52_flax_loses_witness :
    let d : Nested Nat := [([['l'], ['w']], 1), ([['l'], ['b']], 2)]
    let tn := nestedPartition (fun _ n _ => n == ['w']) d
    shallowMerge tn.1 tn.2 = [([['l'], ['w']], 1)] ∧ mergeParams tn.1 tn.2 = [([['l'], ['w']], 1)] := by
  decide

/-- C52 (Flax), counterexample: a key containing "/" (every nested Haiku module has one) does not come back: it is turned into
nested dictionaries. -/
theorem C52_flax_slash_witness :
    (nestedPartition (fun _ _ _ => true) ([([['a', '/', 'b'], ['w']], 1)] : Nested Nat)).1 = [([['a'], ['b'], ['w']], 1)] := by
  decide

example : Plain ([([['l'], ['w']], 1), ([['l'], ['b']], 2), ([['m'], ['w']], 3)] : Nested Nat) := by
  intro p v h
  simp only [List.mem_cons, Prod.mk.injEq, List.not_mem_nil, or_false] at h
  rcases h with ⟨rfl, _⟩ | ⟨rfl, _⟩ | ⟨rfl, _⟩ <;> decide

theorem flaxOnline_mstate (big : K) (c : NConfig S O X L A (Fl K)) (p0 : Nested (Fl K)) (s0 : S) (xs : List X) :
    ((flaxOnline big c p0 s0).stateAfter xs).mstate = s0 := by
  induction xs using List.reverseRecOn with
  | nil => rfl
  | append_singleton xs x ih => rw [Mealy.stateAfter_append_singleton]; exact ih

/-- C74: the Flax `OnlineOptimizer` never advances the state of the model it trains: at every step the loss and auxiliary
output are those of the model started from its initial state. -/
theorem C74_flax_model_state_frozen_partial (big : K) (c : NConfig S O X L A (Fl K)) (p0 : Nested (Fl K)) (s0 : S) (xs : List X)
    (t : Nat) (ht : t < xs.length) :
    ∃ (params : Nested (Fl K)) (g newp : Nested (Fl K)),
      ((flaxOnline big c p0 s0).run xs)[t]? =
        some ((c.model params s0 xs[t]).1, (c.model params s0 xs[t]).2, g, newp) := by
  have h := flaxOnline_mstate big c p0 s0 (xs.take t)
  rw [Mealy.run, Mealy.outsFrom_getElem?, List.getElem?_eq_getElem ht]
  rw [Mealy.stateAfter] at h
  simp only [Option.map_some, flaxOnline, flaxOnlineStep] at h ⊢
  rw [h]
  exact ⟨_, _, _, rfl⟩

/-- C74, counterexample: a model that counts its calls always sees its first call. -/
theorem C74_flax_counter_witness (big : K) (c : NConfig Nat O X L Nat (Fl K)) (hm : ∀ p s x, (c.model p s x).2 = s + 1)
    (p0 : Nested (Fl K)) (xs : List X) :
    ((flaxOnline big c p0 0).run xs).map (fun o => o.2.1) = List.replicate xs.length 1 := by
  apply List.ext_getElem?
  intro t
  by_cases ht : t < xs.length
  · obtain ⟨p, g, n, h⟩ := C74_flax_model_state_frozen_partial big c p0 0 xs t ht
    rw [List.getElem?_map, h, List.getElem?_replicate, if_pos ht]
    simp [hm]
  · rw [List.getElem?_eq_none (by simp; omega), List.getElem?_eq_none (by simp; omega)]

/-- C53 (Flax `OnlineOptimizer`): the optimiser only receives finite gradients. -/
theorem C53_flax_online_only_finite_gradients (big : K) (c : NConfig S O X L A (Fl K))
    (upd : Nested (Fl K) → O → Nested (Fl K) → Nested (Fl K) × O)
    (hupd : ∀ g o p, (∀ q x, (q, x) ∈ g → x.isFin = true) → c.optUpdate g o p = upd g o p)
    (p0 : Nested (Fl K)) (s0 : S) (xs : List X) :
    (flaxOnline big c p0 s0).run xs = (flaxOnline big { c with optUpdate := upd } p0 s0).run xs := by
  apply Mealy.run_eq_of_sim (R := fun a b => a = b)
  · rfl
  · intro a b x hab
    subst hab
    show (flaxOnlineStep big c a x).1 = (flaxOnlineStep big _ a x).1 ∧
      (flaxOnlineStep big c a x).2 = (flaxOnlineStep big _ a x).2
    have hfin : ∀ g : Nested (Fl K), ∀ q x, (q, x) ∈ (g.map fun pv => (pv.1, nanToNum big pv.2)) → x.isFin = true := by
      intro g q x hq
      obtain ⟨pv, _, e⟩ := List.mem_map.1 hq
      cases e
      exact nanToNum_fin big _
    simp only [flaxOnlineStep, hupd _ _ _ (hfin _), and_self]

/-- C53 (Flax `FuncOptimizer`): the optimiser only receives finite gradients. -/
theorem C53_flax_func_only_finite_gradients (c : FlaxFunc O X R (Fl K))
    (upd : Nested (Fl K) → O → Nested (Fl K) → Nested (Fl K) × O)
    (hupd : ∀ g o p, (∀ q x, (q, x) ∈ g → x.isFin = true) → c.optUpdate g o p = upd g o p) (xs : List X) :
    (flaxFunc c).run xs = (flaxFunc { c with optUpdate := upd }).run xs := by
  apply Mealy.run_eq_of_sim (R := fun a b => a = b)
  · rfl
  · intro a b x hab
    subst hab
    show (flaxFuncStep c a x).1 = (flaxFuncStep _ a x).1 ∧ (flaxFuncStep c a x).2 = (flaxFuncStep _ a x).2
    have hfin : ∀ g : Nested (Fl K), ∀ q x, (q, x) ∈ (g.map fun pv => (pv.1, fillNanInf pv.2)) → x.isFin = true := by
      intro g q x hq
      obtain ⟨pv, _, e⟩ := List.mem_map.1 hq
      cases e
      exact fillNanInf_fin _
    have hp : flaxFuncPrepare { c with optUpdate := upd } a x = flaxFuncPrepare c a x := rfl
    simp only [flaxFuncStep, hp]
    split <;> simp [hupd _ _ _ (hfin _)]

/-- C84 (Flax `OnlineOptimizer`, every parameter trainable, keys without "/"): the parameters start at the given ones and
follow the given optimiser on the finite version of the gradients, projected; its state is threaded through the calls; the loss
at step `t` is the model's on the parameters returned at step `t-1`. -/
theorem C84_flax_online_follows_optimizer (big : K) (c : NConfig S O X L A (Fl K)) (hpred : ∀ a b v, c.pred a b v = true)
    (hplain : ∀ g o p, Plain p → Plain (c.project (c.optUpdate g o p).1))
    (p0 : Nested (Fl K)) (hp0 : Plain p0) (s0 : S) (xs : List X) :
    ∃ (θ : Nat → Nested (Fl K)) (o : Nat → O), θ 0 = p0 ∧ o 0 = c.optInit p0 ∧
      ∀ t (_ : t < xs.length),
        let g := (c.grad (θ t) [] s0 xs[t]).map fun pv => (pv.1, finiteVersion big pv.2)
        θ (t + 1) = c.project (c.optUpdate g (o t) (θ t)).1 ∧ o (t + 1) = (c.optUpdate g (o t) (θ t)).2 ∧
        ((flaxOnline big c p0 s0).run xs)[t]? =
          some ((c.model (θ t) s0 xs[t]).1, (c.model (θ t) s0 xs[t]).2, g, θ (t + 1)) := by
  let st := fun t => (flaxOnline big c p0 s0).stateAfter (xs.take t)
  have hpart : ∀ d : Nested (Fl K), Plain d → nestedPartition c.pred d = (d, []) := by
    intro d hd
    simp [nestedPartition, plain_map d hd, hpred]
  have hmerge : ∀ d : Nested (Fl K), shallowMerge d [] = d := by
    intro d; simp [shallowMerge]
  have hfin : ∀ g : Nested (Fl K), (g.map fun pv => (pv.1, finiteVersion big pv.2)) =
      g.map fun pv => (pv.1, nanToNum big pv.2) := by
    intro g
    have : (finiteVersion big : Fl K → Fl K) = nanToNum big := by
      funext x; cases x <;> simp [finiteVersion, nanToNum]
    rw [this]
  have hms : ∀ t, (st t).mstate = s0 := fun t => flaxOnline_mstate big c p0 s0 _
  have hst : ∀ t (ht : t < xs.length), st (t + 1) = (flaxOnlineStep big c (st t) xs[t]).2 := by
    intro t ht
    show (flaxOnline big c p0 s0).stateAfter (xs.take (t + 1)) = _
    rw [← List.take_append_getElem ht, Mealy.stateAfter_append_singleton]; rfl
  have hpl : ∀ l, Plain ((flaxOnline big c p0 s0).stateAfter l).params := by
    intro l
    induction l using List.reverseRecOn with
    | nil => exact hp0
    | append_singleton l x ih =>
      rw [Mealy.stateAfter_append_singleton]
      show Plain (flaxOnlineStep big c _ x).2.params
      simp only [flaxOnlineStep, hpart _ ih, hmerge]
      exact hplain _ _ _ ih
  refine ⟨fun t => (st t).params, fun t => (st t).opt.getD (c.optInit p0), rfl, rfl, ?_⟩
  intro t ht
  have hone : (st t).opt.getD (c.optInit (st t).params) = (st t).opt.getD (c.optInit p0) := by
    cases t with
    | zero => rfl
    | succ t =>
      have := hst t (by omega)
      rw [this]; rfl
  have hpt := hpart _ (hpl (xs.take t))
  have hstep : flaxOnlineStep big c (st t) xs[t] =
      (((c.model (st t).params s0 xs[t]).1, (c.model (st t).params s0 xs[t]).2,
        (c.grad (st t).params [] s0 xs[t]).map (fun pv => (pv.1, nanToNum big pv.2)),
        c.project (c.optUpdate ((c.grad (st t).params [] s0 xs[t]).map (fun pv => (pv.1, nanToNum big pv.2)))
          ((st t).opt.getD (c.optInit p0)) (st t).params).1),
       ⟨c.project (c.optUpdate ((c.grad (st t).params [] s0 xs[t]).map (fun pv => (pv.1, nanToNum big pv.2)))
          ((st t).opt.getD (c.optInit p0)) (st t).params).1, s0,
        some (c.optUpdate ((c.grad (st t).params [] s0 xs[t]).map (fun pv => (pv.1, nanToNum big pv.2)))
          ((st t).opt.getD (c.optInit p0)) (st t).params).2⟩) := by
    simp only [flaxOnlineStep, show nestedPartition c.pred (st t).params = ((st t).params, []) from hpt, hmerge, hms t, hone]
  simp only [hfin, hst t ht, hstep, Option.getD_some, true_and]
  rw [Mealy.run, Mealy.outsFrom_getElem?, List.getElem?_eq_getElem ht]
  show some (flaxOnlineStep big c (st t) xs[t]).1 = _
  rw [hstep]

/-- The leaves of merged Flax parameters: the trainable ones, and the frozen ones under other top-level keys. -/
theorem C52_flax_merge_params_partial (tr nt : Nested V) (p : List Name) (v : V) :
    (p, v) ∈ mergeParams tr nt ↔ (p, v) ∈ tr ∨ ((p, v) ∈ nt ∧ ∀ q w, (q, w) ∈ tr → q.head? ≠ p.head?) := by
  unfold mergeParams
  cases tr with
  | nil => cases nt <;> simp
  | cons a tr =>
    cases nt with
    | nil => simp
    | cons b nt =>
      simp only [List.isEmpty_cons, Bool.false_and, if_false, Bool.false_eq_true, shallowMerge]
      rw [List.mem_append, List.mem_filter, or_comm]
      apply or_congr Iff.rfl
      apply and_congr Iff.rfl
      rw [Bool.not_eq_true', List.any_eq_false]
      simp only [beq_iff_eq, Prod.forall, ne_eq]

/-- C84 (Flax `FuncOptimizer` on a module): the parameters are those of the module's `init` on the first input, split by the
predicate; the frozen part `N` never changes; at step `t` the function is evaluated on the merge of `θ t` and `N`, the optimiser
receives the gradients with non-finite values replaced by 0, and its state is threaded through the calls. -/
theorem C84_flax_func_follows_optimizer (c : FlaxFunc O X R (Fl K)) (init : X → Nested (Fl K)) (hinit : c.init = some init)
    (x : X) (xs : List X) (hne : (nestedPartition c.pred (init x)).1 ≠ [])
    (hupd : ∀ g o p, p ≠ [] → (c.optUpdate g o p).1 ≠ []) :
    ∃ (θ : Nat → Nested (Fl K)) (o : Nat → O),
      θ 0 = (nestedPartition c.pred (init x)).1 ∧ o 0 = c.optInit (θ 0) ∧
      ∀ t (_ : t < (x :: xs).length),
        let N := (nestedPartition c.pred (init x)).2
        let g := (c.grad (θ t) (some N) (x :: xs)[t]).map fun pv => (pv.1, finiteVersion 0 pv.2)
        θ (t + 1) = (c.optUpdate g (o t) (θ t)).1 ∧ o (t + 1) = (c.optUpdate g (o t) (θ t)).2 ∧
        ((flaxFunc c).run (x :: xs))[t]? = some (c.apply (mergeParams (θ t) N) (x :: xs)[t], g, some (o (t + 1))) := by
  have hfin : ∀ g : Nested (Fl K), (g.map fun pv => (pv.1, finiteVersion 0 pv.2)) =
      g.map fun pv => (pv.1, fillNanInf pv.2) := by
    intro g
    have : (finiteVersion 0 : Fl K → Fl K) = fillNanInf := by
      funext x; cases x <;> simp [finiteVersion, fillNanInf]
    rw [this]
  simp only [hfin]
  -- the prepared state before step `t`
  let st0 : FlaxFuncState O (Fl K) := ⟨(nestedPartition c.pred (init x)).1, some (nestedPartition c.pred (init x)).2, none⟩
  let st : Nat → FlaxFuncState O (Fl K) := fun t => if t = 0 then st0 else (flaxFunc c).stateAfter ((x :: xs).take t)
  have hstep : ∀ (s : FlaxFuncState O (Fl K)) (y : X), s.trainable ≠ [] → flaxFuncPrepare c s y = s := by
    intro s y hs
    unfold flaxFuncPrepare
    rw [if_neg (by simpa using hs)]
  have hprep0 : flaxFuncPrepare c (flaxFunc c).init x = st0 := by
    simp [flaxFuncPrepare, flaxFunc, hinit, st0]
  have hstep0 : flaxFuncStep c (flaxFunc c).init x = flaxFuncStep c st0 x := by
    have h1 : flaxFuncPrepare c st0 x = st0 := hstep st0 x hne
    unfold flaxFuncStep
    simp only [hprep0, h1]
  have hrun : ∀ t (ht : t < (x :: xs).length), ((flaxFunc c).run (x :: xs))[t]? = some (flaxFuncStep c (st t) (x :: xs)[t]).1 ∧
      st (t + 1) = (flaxFuncStep c (st t) (x :: xs)[t]).2 := by
    intro t ht
    have e1 : ((flaxFunc c).run (x :: xs))[t]? =
        some (flaxFuncStep c ((flaxFunc c).stateAfter ((x :: xs).take t)) (x :: xs)[t]).1 := by
      rw [Mealy.run, Mealy.outsFrom_getElem?, List.getElem?_eq_getElem ht]; rfl
    have e2 : (flaxFunc c).stateAfter ((x :: xs).take (t + 1)) =
        (flaxFuncStep c ((flaxFunc c).stateAfter ((x :: xs).take t)) (x :: xs)[t]).2 := by
      rw [← List.take_append_getElem ht, Mealy.stateAfter_append_singleton]; rfl
    cases t with
    | zero =>
      refine ⟨?_, ?_⟩
      · rw [e1]
        show some (flaxFuncStep c (flaxFunc c).init x).1 = some (flaxFuncStep c st0 x).1
        rw [hstep0]
      · show (flaxFunc c).stateAfter ((x :: xs).take 1) = (flaxFuncStep c st0 x).2
        rw [← hstep0, e2]; rfl
    | succ t => exact ⟨e1, e2⟩
  have hone : ∀ (s : FlaxFuncState O (Fl K)) (y : X), s.trainable ≠ [] →
      s.nonTrainable = some (nestedPartition c.pred (init x)).2 →
      flaxFuncStep c s y =
        (let g := (c.grad s.trainable (some (nestedPartition c.pred (init x)).2) y).map fun pv => (pv.1, fillNanInf pv.2)
         let u := c.optUpdate g (s.opt.getD (c.optInit s.trainable)) s.trainable
         ((c.apply (mergeParams s.trainable (nestedPartition c.pred (init x)).2) y, g, some u.2),
           ⟨u.1, some (nestedPartition c.pred (init x)).2, some u.2⟩)) := by
    intro s y hs hn
    obtain ⟨tr, nt, op⟩ := s
    simp only at hn hs
    subst hn
    have hp := hstep ⟨tr, some (nestedPartition c.pred (init x)).2, op⟩ y hs
    unfold flaxFuncStep
    simp only [hp]
    rw [if_neg (by simpa using hs)]
    rfl
  have hinv : ∀ t, t ≤ (x :: xs).length → (st t).trainable ≠ [] ∧
      (st t).nonTrainable = some (nestedPartition c.pred (init x)).2 := by
    intro t
    induction t with
    | zero => intro _; exact ⟨hne, rfl⟩
    | succ t ih =>
      intro ht
      obtain ⟨i1, i2⟩ := ih (by omega)
      rw [(hrun t (by omega)).2, hone _ _ i1 i2]
      exact ⟨hupd _ _ _ i1, rfl⟩
  refine ⟨fun t => (st t).trainable, fun t => (st t).opt.getD (c.optInit (nestedPartition c.pred (init x)).1), rfl, rfl, ?_⟩
  intro t ht
  obtain ⟨i1, i2⟩ := hinv t (by omega)
  obtain ⟨r1, r2⟩ := hrun t ht
  have ho : (st t).opt.getD (c.optInit (st t).trainable) =
      (st t).opt.getD (c.optInit (nestedPartition c.pred (init x)).1) := by
    cases t with
    | zero => rfl
    | succ t =>
      obtain ⟨j1, j2⟩ := hinv t (by omega)
      rw [(hrun t (by omega)).2, hone _ _ j1 j2]; rfl
  have h1 := hone (st t) ((x :: xs)[t]) i1 i2
  simp only [ho] at h1
  simp only [r1, r2, h1, Option.getD_some, and_self]

/-- Non-vacuity: an update rule that keeps the addresses meets the hypotheses on `Plain` and on non-emptiness. -/
example (g : Nested (Fl K)) (p : Nested (Fl K)) (h : Plain p) : Plain (p.map fun pv => (pv.1, pv.2 + pv.2)) := by
  intro q v hq
  obtain ⟨⟨q', v'⟩, h1, h2⟩ := List.mem_map.1 hq
  cases h2
  exact h _ _ h1

/-- C75: the Flax `OnlineSupervisedLearner` never learns: whatever the optimiser and the gradients, every prediction is the
untrained model's, the reported gradients are empty and no optimiser information is returned. -/
theorem C75_flax_learner_never_learns_partial {A B P : Type} (model : A → P) (loss : P → B → L)
    (c : FlaxFunc O (A × B) (L × P) (Fl K)) (xys : List (A × B)) :
    (flaxLearner model loss c).run xys =
      xys.map fun xy => (model xy.1, loss (model xy.1) xy.2, [], none) := by
  have hs : ∀ l, ((flaxLearner model loss c).stateAfter l).trainable = [] ∧
      ((flaxLearner model loss c).stateAfter l).nonTrainable = none := by
    intro l
    induction l using List.reverseRecOn with
    | nil => exact ⟨rfl, rfl⟩
    | append_singleton l x ih =>
      rw [Mealy.stateAfter_append_singleton]
      generalize (flaxLearner model loss c).stateAfter l = st at ih
      obtain ⟨tr, nt, op⟩ := st
      obtain ⟨rfl, rfl⟩ := ih
      exact ⟨rfl, rfl⟩
  apply List.ext_getElem?
  intro t
  rw [Mealy.run, Mealy.outsFrom_getElem?, List.getElem?_map]
  cases hx : xys[t]? with
  | none => rfl
  | some xy =>
    have h := hs (xys.take t)
    rw [Mealy.stateAfter] at h
    simp only [Option.map_some]
    generalize (flaxLearner model loss c).stateFrom (flaxLearner model loss c).init (xys.take t) = st at h
    obtain ⟨tr, nt, op⟩ := st
    obtain ⟨rfl, rfl⟩ := h
    rfl

end Flax
end Verif.Props
