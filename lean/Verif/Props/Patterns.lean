import Verif.Model.Patterns
import Verif.Props.Events
import Mathlib.Algebra.Order.Ring.Defs
import Mathlib.Tactic.Linarith

/-! # Properties C47, C48, C65–C68: state patterns -/

namespace Verif.Props
open Model.Events Model.Patterns

/-! ## C47 -/

/-- Dependencies among the listed states contain no cycle: they decrease some rank. -/
def Acyclic (deps : List (String × List String)) (states : List String) : Prop :=
  ∃ rank : String → Nat, ∀ s ∈ states, ∀ d ∈ (deps.lookup s).getD [], d ∈ states → rank d < rank s

theorem exists_min_rank (rank : String → Nat) (l : List String) (h : l ≠ []) : ∃ s ∈ l, ∀ t ∈ l, rank s ≤ rank t := by
  induction l with
  | nil => exact absurd rfl h
  | cons a l ih =>
    by_cases hl : l = []
    · subst hl; exact ⟨a, by simp, by simp⟩
    · obtain ⟨s, hs, hm⟩ := ih hl
      by_cases hc : rank a ≤ rank s
      · refine ⟨a, by simp, ?_⟩
        intro t ht
        rcases List.mem_cons.1 ht with rfl | ht
        · exact Nat.le_refl _
        · exact Nat.le_trans hc (hm t ht)
      · refine ⟨s, by simp [hs], ?_⟩
        intro t ht
        rcases List.mem_cons.1 ht with rfl | ht
        · omega
        · exact hm t ht

theorem mem_ready (deps : List (String × List String)) (ordered it : List String) (s : String) :
    s ∈ readyStates deps ordered it ↔ s ∈ it ∧ ∀ d ∈ depsOf deps s, d ∈ ordered ∨ d ∉ it := by
  simp [readyStates, List.all_eq_true]

theorem execLoop_spec (deps : List (String × List String)) (iter : Nat → List String → List String)
    (hiter : ∀ k l, (iter k l).Perm l) (fuel k : Nat) (ordered remaining : List String)
    (hnd : (ordered ++ remaining).Nodup) (hf : remaining.length ≤ fuel) :
    ∃ suf, execLoop deps iter fuel k ordered remaining = some (ordered ++ suf) ∧ suf.Perm remaining ∧
      (Acyclic deps remaining → suf.Pairwise fun a b => b ∉ depsOf deps a) := by
  induction fuel generalizing k ordered remaining with
  | zero =>
    have : remaining = [] := List.eq_nil_of_length_eq_zero (by omega)
    subst this
    exact ⟨[], by simp [execLoop], List.Perm.refl _, fun _ => List.Pairwise.nil⟩
  | succ fuel ih =>
    cases hrem : remaining with
    | nil => exact ⟨[], by simp [execLoop], List.Perm.refl _, fun _ => List.Pairwise.nil⟩
    | cons a rest =>
      rw [← hrem]
      have hne : remaining ≠ [] := by rw [hrem]; simp
      have hndr : remaining.Nodup := (List.nodup_append.1 hnd).2.1
      have hdisj : ∀ s ∈ remaining, s ∉ ordered := fun s hs ho => (List.nodup_append.1 hnd).2.2 s ho s hs rfl
      have hit := hiter k remaining
      have hitmem : ∀ s, s ∈ iter k remaining ↔ s ∈ remaining := fun s => hit.mem_iff
      have hitne : iter k remaining ≠ [] := by
        intro e
        rw [e] at hit
        exact hne hit.symm.eq_nil
      -- the states added in this round
      obtain ⟨ready, hready⟩ : ∃ ready, ready = (if readyStates deps ordered (iter k remaining) = [] then
        (iter k remaining).head?.toList else readyStates deps ordered (iter k remaining)) := ⟨_, rfl⟩
      have hsub : ready.Sublist (iter k remaining) := by
        rw [hready]
        split
        · cases he : iter k remaining with
          | nil => simp
          | cons b l => simp
        · exact List.filter_sublist
      have hrne : ready ≠ [] := by
        rw [hready]
        split
        · cases he : iter k remaining with
          | nil => exact absurd he hitne
          | cons b l => simp
        · assumption
      have hrnd : ready.Nodup := hsub.nodup (hit.nodup_iff.2 hndr)
      have hrsub : ∀ s ∈ ready, s ∈ remaining := fun s hs => (hitmem s).1 (hsub.subset hs)
      obtain ⟨rem', hrem'⟩ : ∃ r, r = remaining.filter (fun s => !decide (s ∈ ready)) := ⟨_, rfl⟩
      have hmem' : ∀ s, s ∈ rem' ↔ s ∈ remaining ∧ s ∉ ready := by intro s; rw [hrem']; simp
      have hperm : (ready ++ rem').Perm remaining := by
        apply (List.perm_ext_iff_of_nodup _ hndr).2
        · intro s
          rw [List.mem_append, hmem']
          constructor
          · rintro (h | h)
            · exact hrsub s h
            · exact h.1
          · intro h
            by_cases hs : s ∈ ready
            · exact Or.inl hs
            · exact Or.inr ⟨h, hs⟩
        · rw [List.nodup_append]
          refine ⟨hrnd, by rw [hrem']; exact hndr.filter _, ?_⟩
          intro x hx y hy e
          subst e
          exact ((hmem' x).1 hy).2 hx
      have hlen : rem'.length ≤ fuel := by
        have := hperm.length_eq
        rw [List.length_append] at this
        have : 0 < ready.length := List.length_pos_of_ne_nil hrne
        omega
      have hnd' : ((ordered ++ ready) ++ rem').Nodup := by
        rw [List.append_assoc]
        exact ((List.Perm.append_left ordered hperm).nodup_iff).2 hnd
      obtain ⟨suf, h1, h2, h3⟩ := ih (k + 1) (ordered ++ ready) rem' hnd' hlen
      refine ⟨ready ++ suf, ?_, (List.Perm.append_left ready h2).trans hperm, ?_⟩
      · rw [hrem] at hready hrem' ⊢
        simp only [execLoop]
        rw [← hready, ← hrem', h1, List.append_assoc]
      · intro hac
        obtain ⟨rank, hrank⟩ := hac
        -- some state is ready
        have hnonempty : readyStates deps ordered (iter k remaining) ≠ [] := by
          obtain ⟨s, hs, hmin⟩ := exists_min_rank rank remaining hne
          have : s ∈ readyStates deps ordered (iter k remaining) := by
            rw [mem_ready]
            refine ⟨(hitmem s).2 hs, ?_⟩
            intro d hd
            by_cases hdr : d ∈ remaining
            · have := hrank s hs d hd hdr
              have := hmin d hdr
              omega
            · right; rw [hitmem]; exact hdr
          intro e
          rw [e] at this
          simp at this
        rw [if_neg hnonempty] at hready
        have hno : ∀ s ∈ ready, ∀ d ∈ remaining, d ∉ depsOf deps s := by
          intro s hs d hd hdep
          rw [hready, mem_ready] at hs
          rcases hs.2 d hdep with h | h
          · exact hdisj d hd h
          · exact h ((hitmem d).2 hd)
        rw [List.pairwise_append]
        refine ⟨?_, h3 ⟨rank, ?_⟩, ?_⟩
        · rw [List.pairwise_iff_forall_sublist]
          intro x y hxy
          exact hno x (hxy.subset (by simp)) y (hrsub y (hxy.subset (by simp)))
        · intro s hs d hd hdr
          exact hrank s ((hmem' s).1 hs).1 d hd ((hmem' d).1 hdr).1
        · intro x hx y hy
          exact hno x hx y ((hmem' y).1 (h2.mem_iff.1 hy)).1

/-- C47: for any dependencies (cyclic or not) and any set iteration order, the execution order exists (the loop ends) and
contains every active state exactly once. -/
theorem C47_order_permutation (deps : List (String × List String)) (iter : Nat → List String → List String)
    (hiter : ∀ k l, (iter k l).Perm l) (active : List String) :
    ∃ o, executionOrder deps iter active = some o ∧ o.Nodup ∧ ∀ s, s ∈ o ↔ s ∈ active := by
  obtain ⟨suf, h1, h2, _⟩ := execLoop_spec deps iter hiter active.dedup.length 0 [] active.dedup
    (by simpa using List.nodup_dedup active) (Nat.le_refl _)
  refine ⟨suf, by simpa [executionOrder] using h1, h2.nodup_iff.2 (List.nodup_dedup active), ?_⟩
  intro s
  rw [h2.mem_iff, List.mem_dedup]

/-- C47: if the dependencies among the active states are acyclic, every state comes after all its active dependencies,
whatever the set iteration order. -/
theorem C47_order_respects_dependencies (deps : List (String × List String)) (iter : Nat → List String → List String)
    (hiter : ∀ k l, (iter k l).Perm l) (active : List String) (hac : Acyclic deps active) (o : List String)
    (ho : executionOrder deps iter active = some o) (s d : String) (hd : d ∈ (deps.lookup s).getD []) (hda : d ∈ active)
    (pre post : List String) (hsplit : o = pre ++ s :: post) : d ∈ pre := by
  obtain ⟨suf, h1, h2, h3⟩ := execLoop_spec deps iter hiter active.dedup.length 0 [] active.dedup
    (by simpa using List.nodup_dedup active) (Nat.le_refl _)
  have e : o = suf := by
    unfold executionOrder at ho
    rw [ho] at h1
    simpa using h1
  have hac' : Acyclic deps active.dedup := by
    obtain ⟨rank, hr⟩ := hac
    exact ⟨rank, fun s hs d hd hda => hr s (List.mem_dedup.1 hs) d hd (List.mem_dedup.1 hda)⟩
  have hp := h3 hac'
  rw [← e, hsplit] at hp
  rw [List.pairwise_append, List.pairwise_cons] at hp
  have hdo : d ∈ o := by rw [e, h2.mem_iff, List.mem_dedup]; exact hda
  have hsa : s ∈ active := by
    have : s ∈ o := by rw [hsplit]; simp
    rw [e, h2.mem_iff, List.mem_dedup] at this
    exact this
  rw [hsplit, List.mem_append, List.mem_cons] at hdo
  rcases hdo with h | h | h
  · exact h
  · subst h
    obtain ⟨rank, hr⟩ := hac
    exact absurd (hr d hsa d hd hda) (Nat.lt_irrefl _)
  · exact absurd hd (hp.2.1.1 d h)

/-- C47: with a cycle the position of the states that could have been ordered may change with the iteration order: here `c`
depends on `b`, `a` and `b` on each other. -/
theorem C47_cycle_order_arbitrary :
    let deps := [("a", ["b"]), ("b", ["a"]), ("c", ["b"])]
    executionOrder deps (fun _ l => l) ["a", "b", "c"] = some ["a", "b", "c"] ∧
    executionOrder deps (fun _ l => l.reverse) ["a", "b", "c"] = some ["c", "b", "a"] := by
  decide

example : Acyclic [("volatility", ["market"]), ("signal", ["volatility", "market"])] ["signal", "volatility", "market"] :=
  ⟨fun s => if s = "signal" then 2 else if s = "volatility" then 1 else 0, by decide⟩

example : executionOrder [("volatility", ["market"]), ("signal", ["volatility", "market"])] (fun _ l => l)
    ["signal", "volatility", "market"] = some ["market", "volatility", "signal"] := by decide

/-! ## C65 -/

/-- C65: in a call of the state machine (sequential or parallel strategy) each state's output is its own module's on the
call's arguments — or the record of its failure — whatever the execution order and the other modules. -/
theorem C65_hsm_outputs {I V E : Type} (mods : List (String × (I → Except E V))) (fail : E → V) (order : List String) (x : I)
    (s : String) (m : I → Except E V) (hm : mods.lookup s = some m) (hs : s ∈ order) :
    (hsmOutputs mods fail order x).lookup s = some (caught fail (m x)) := by
  induction order using List.reverseRecOn with
  | nil => simp at hs
  | append_singleton l a ih =>
    unfold hsmOutputs at ih ⊢
    rw [List.foldl_append, List.foldl_cons, List.foldl_nil]
    rw [List.mem_append, List.mem_singleton] at hs
    by_cases ha : s = a
    · subst ha
      simp only [hm, dictSet_lookup, if_true]
    · have := ih (hs.resolve_right ha)
      cases hl : mods.lookup a with
      | none => exact this
      | some m' => simp only [dictSet_lookup, if_neg ha]; exact this

/-- C65: hence the outputs do not depend on the dependencies at all (only on the set of states). -/
theorem C65_hsm_order_irrelevant {I V E : Type} (mods : List (String × (I → Except E V))) (fail : E → V)
    (deps deps' : List (String × List String)) (iter iter' : Nat → List String → List String)
    (hiter : ∀ k l, (iter k l).Perm l) (hiter' : ∀ k l, (iter' k l).Perm l) (x : I) (o o' : List String)
    (ho : executionOrder deps iter (mods.map Prod.fst) = some o)
    (ho' : executionOrder deps' iter' (mods.map Prod.fst) = some o') (s : String) :
    (hsmOutputs mods fail o x).lookup s = (hsmOutputs mods fail o' x).lookup s := by
  obtain ⟨a, ha, _, hmem⟩ := C47_order_permutation deps iter hiter (mods.map Prod.fst)
  obtain ⟨a', ha', _, hmem'⟩ := C47_order_permutation deps' iter' hiter' (mods.map Prod.fst)
  rw [ho] at ha; rw [ho'] at ha'
  obtain rfl := Option.some.inj ha
  obtain rfl := Option.some.inj ha'
  cases hm : mods.lookup s with
  | none =>
    have key : ∀ l : List String, (hsmOutputs mods fail l x).lookup s = none := by
      intro l
      induction l using List.reverseRecOn with
      | nil => rfl
      | append_singleton l a ih =>
        unfold hsmOutputs at ih ⊢
        rw [List.foldl_append, List.foldl_cons, List.foldl_nil]
        cases hl : mods.lookup a with
        | none => exact ih
        | some m' =>
          simp only [dictSet_lookup]
          rw [if_neg (by intro e; rw [← e, hm] at hl; simp at hl)]
          exact ih
    rw [key, key]
  | some m =>
    have hs : s ∈ mods.map Prod.fst := List.mem_map_of_mem (f := Prod.fst) (mem_of_lookup _ _ _ hm)
    rw [C65_hsm_outputs mods fail o x s m hm ((hmem s).2 hs), C65_hsm_outputs mods fail o' x s m hm ((hmem' s).2 hs)]

example : hsmOutputs (E := String) [("a", fun x => .ok (x + 1)), ("b", fun _ => .error "no")] (fun _ => 0) ["b", "a"] 4 =
    [("b", 0), ("a", 5)] := by decide

/-! ## C66 -/

theorem getDepth_le (deps : List (String × List String)) (fuel : Nat) (vis : List String) (s : String) :
    getDepth deps fuel vis s ≤ fuel := by
  induction fuel generalizing vis s with
  | zero => exact Nat.le_refl _
  | succ fuel ih =>
    rw [getDepth]
    split
    · omega
    · simp only
      split
      · omega
      · have : ∀ (l : List Nat) (a : Nat), a ≤ fuel → (∀ x ∈ l, x ≤ fuel) → l.foldl max a ≤ fuel := by
          intro l
          induction l with
          | nil => intro a ha _; exact ha
          | cons b l ihl =>
            intro a ha hl
            exact ihl _ (by have := hl b (by simp); omega) (fun x hx => hl x (by simp [hx]))
        have := this ((depsOf deps s).map fun d => getDepth deps fuel (s :: vis) d) 0 (by omega) (by
          intro x hx
          obtain ⟨d, _, rfl⟩ := List.mem_map.1 hx
          exact ih _ _)
        omega

/-- C66: levels are bounded by the size of the dependency table (even with cycles). -/
theorem C66_depth_bound (deps : List (String × List String)) (s : String) : depth deps s ≤ deps.length + 1 :=
  getDepth_le _ _ _ _

/-- The whole dependency table is acyclic. -/
def AcyclicTable (deps : List (String × List String)) : Prop :=
  ∃ rank : String → Nat, ∀ s, ∀ d ∈ (deps.lookup s).getD [], rank d < rank s

def unvisitedKeys (deps : List (String × List String)) (vis : List String) : Nat :=
  (deps.filter fun kv => !decide (kv.1 ∈ vis)).length

theorem unvisited_lt (deps : List (String × List String)) (vis : List String) (s : String) (hv : s ∉ vis)
    (hs : depsOf deps s ≠ []) : unvisitedKeys deps (s :: vis) < unvisitedKeys deps vis := by
  have : ∃ v, deps.lookup s = some v := by
    unfold depsOf at hs
    cases h : deps.lookup s with
    | none => simp [h] at hs
    | some v => exact ⟨v, rfl⟩
  obtain ⟨v, hl⟩ := this
  have hmem := mem_of_lookup _ _ _ hl
  unfold unvisitedKeys
  clear hl hs
  induction deps with
  | nil => simp at hmem
  | cons p deps ih =>
    have hmono : ∀ l : List (String × List String), (l.filter fun kv => !decide (kv.1 ∈ s :: vis)).length ≤
        (l.filter fun kv => !decide (kv.1 ∈ vis)).length := by
      intro l
      rw [← List.countP_eq_length_filter, ← List.countP_eq_length_filter]
      apply List.countP_mono_left
      intro x _ hx
      simp only [List.mem_cons, Bool.not_eq_eq_eq_not, Bool.not_true, decide_eq_false_iff_not, not_or] at hx ⊢
      exact hx.2
    rcases List.mem_cons.1 hmem with h | h
    · have hm := hmono deps
      rw [← h]
      simp [hv] at hm ⊢
      omega
    · have := ih h
      by_cases h1 : p.1 ∈ vis
      · simp [h1] at this ⊢; exact this
      · by_cases h2 : p.1 = s
        · rw [h2] at h1
          simp [h1, h2] at this ⊢
          omega
        · simp [h1, h2] at this ⊢; exact this

theorem getDepth_fuel (deps : List (String × List String)) (fuel : Nat) (vis : List String) (s : String)
    (hf : unvisitedKeys deps vis < fuel) : getDepth deps (fuel + 1) vis s = getDepth deps fuel vis s := by
  induction fuel generalizing vis s with
  | zero => omega
  | succ fuel ih =>
    rw [getDepth, getDepth]
    by_cases hv : s ∈ vis
    · rw [if_pos hv, if_pos hv]
    · rw [if_neg hv, if_neg hv]
      by_cases hd : depsOf deps s = []
      · simp only [hd, if_true]
      · simp only [hd, if_false]
        have hlt := unvisited_lt deps vis s hv hd
        have : ((depsOf deps s).map fun d => getDepth deps (fuel + 1) (s :: vis) d) =
            (depsOf deps s).map fun d => getDepth deps fuel (s :: vis) d :=
          List.map_congr_left fun d _ => ih (s :: vis) d (by omega)
        rw [this]

theorem getDepth_visited (deps : List (String × List String)) (rank : String → Nat)
    (hr : ∀ s, ∀ d ∈ depsOf deps s, rank d < rank s) (fuel : Nat) (vis vis' : List String) (s : String)
    (h : ∀ v ∈ vis, rank s < rank v) (h' : ∀ v ∈ vis', rank s < rank v) :
    getDepth deps fuel vis s = getDepth deps fuel vis' s := by
  induction fuel generalizing vis vis' s with
  | zero => rfl
  | succ fuel ih =>
    rw [getDepth, getDepth, if_neg (fun hs => absurd (h s hs) (Nat.lt_irrefl _)),
      if_neg (fun hs => absurd (h' s hs) (Nat.lt_irrefl _))]
    have : ((depsOf deps s).map fun d => getDepth deps fuel (s :: vis) d) =
        (depsOf deps s).map fun d => getDepth deps fuel (s :: vis') d := by
      apply List.map_congr_left
      intro d hd
      have hlt := hr s d hd
      apply ih
      · intro v hv
        rcases List.mem_cons.1 hv with rfl | hv
        · exact hlt
        · exact Nat.lt_trans hlt (h v hv)
      · intro v hv
        rcases List.mem_cons.1 hv with rfl | hv
        · exact hlt
        · exact Nat.lt_trans hlt (h' v hv)
    simp only
    rw [this]

/-- C66: with acyclic dependencies the level of a state is 0 without dependencies, otherwise one more than the highest level
among its dependencies. -/
theorem C66_depth_recursive (deps : List (String × List String)) (hac : AcyclicTable deps) (s : String) :
    depth deps s = if (deps.lookup s).getD [] = [] then 0 else
      (((deps.lookup s).getD []).map (depth deps)).foldl max 0 + 1 := by
  obtain ⟨rank, hr⟩ := hac
  have e0 : (deps.lookup s).getD [] = depsOf deps s := rfl
  rw [e0, depth, getDepth, if_neg (by simp)]
  by_cases hd : depsOf deps s = []
  · simp only [hd, if_true]
  · simp only [hd, if_false]
    have : ((depsOf deps s).map fun d => getDepth deps deps.length [s] d) = (depsOf deps s).map (depth deps) := by
      apply List.map_congr_left
      intro d hdm
      have hlt := hr s d hdm
      rw [depth, ← getDepth_visited deps rank hr (deps.length + 1) [s] [] d (by simpa using hlt) (by simp),
        getDepth_fuel]
      have h1 := unvisited_lt deps [] s (by simp) hd
      have h2 : unvisitedKeys deps [] ≤ deps.length := List.length_filter_le _ _
      omega
    rw [this]

theorem le_foldl_max (l : List Nat) (a x : Nat) (h : x ∈ l ∨ x ≤ a) : x ≤ l.foldl max a := by
  induction l generalizing a with
  | nil => simpa using h
  | cons b l ih =>
    apply ih
    rcases h with h | h
    · rcases List.mem_cons.1 h with rfl | h
      · right; omega
      · left; exact h
    · right; omega

/-- C66: hence a state is on a strictly higher-numbered level than each of its dependencies, and all its declared dependencies
are among the states that influence it; it never influences itself. -/
theorem C66_dependencies_influence (deps : List (String × List String)) (hac : AcyclicTable deps) (names : List String)
    (s d : String) (hs : s ∈ names) (hd : d ∈ (deps.lookup s).getD []) (hdn : d ∈ names) :
    depth deps d < depth deps s ∧ d ∈ higherStates deps names s := by
  have hlt : depth deps d < depth deps s := by
    rw [C66_depth_recursive deps hac s, if_neg (fun e => by rw [e] at hd; simp at hd)]
    exact Nat.lt_succ_of_le (le_foldl_max _ _ _ (Or.inl (List.mem_map_of_mem hd)))
  refine ⟨hlt, ?_⟩
  unfold higherStates
  rw [if_pos hs, List.mem_flatMap]
  exact ⟨depth deps d, List.mem_range.2 hlt, by simp [levelStates, hdn]⟩

/-- C66: every state is on exactly one level, and the states influencing it are exactly those on lower-numbered levels. -/
theorem C66_levels (deps : List (String × List String)) (names : List String) (s : String) (hs : s ∈ names) :
    (∀ l, s ∈ levelStates deps names l ↔ l = depth deps s) ∧
    (∀ h, h ∈ higherStates deps names s ↔ h ∈ names ∧ depth deps h < depth deps s) := by
  constructor
  · intro l
    simp only [levelStates, List.mem_filter, hs, true_and, beq_iff_eq]
    exact eq_comm
  · intro h
    unfold higherStates
    rw [if_pos hs, List.mem_flatMap]
    constructor
    · rintro ⟨l, hl, hm⟩
      simp only [levelStates, List.mem_filter, beq_iff_eq] at hm
      exact ⟨hm.1, by rw [hm.2]; exact List.mem_range.1 hl⟩
    · rintro ⟨h1, h2⟩
      exact ⟨depth deps h, List.mem_range.2 h2, by simp [levelStates, h1]⟩

/-- C66: on a cycle the depth depends on nothing sensible but stays defined: two states depending on each other. -/
theorem C66_cycle_witness : depth [("a", ["b"]), ("b", ["a"])] "a" = 2 ∧ depth [("a", ["b"]), ("b", ["a"])] "b" = 2 := by
  decide

example : AcyclicTable [("volatility", ["market"]), ("signal", ["volatility", "market"])] := by
  refine ⟨fun s => if s = "signal" then 2 else if s = "volatility" then 1 else 0, ?_⟩
  intro s d hd
  by_cases h1 : s = "volatility"
  · subst h1; revert d; decide
  · by_cases h2 : s = "signal"
    · subst h2; revert d; decide
    · have e1 : (s == "volatility") = false := by simpa using h1
      have e2 : (s == "signal") = false := by simpa using h2
      simp [List.lookup_cons, e1, e2] at hd

/-! ## C67 -/

section Influence
variable {K : Type}

theorem applyInfluence_keys [Ring K] (w : K) (lower higher : List (String × K)) :
    (applyInfluence w lower higher).map Prod.fst = lower.map Prod.fst := by
  simp [applyInfluence, List.map_map, Function.comp_def]

theorem coord_fold_other [Ring K] (w : K) (deps : List (String × List String)) (names : List String)
    (outputs : List (String × List (String × K))) (l : List String) (coord : List (String × List (String × K))) (h : String)
    (hh : h ∉ l) : (l.foldl (coordStep w deps names outputs) coord).lookup h = coord.lookup h := by
  induction l generalizing coord with
  | nil => rfl
  | cons a l ih =>
    simp only [List.mem_cons, not_or] at hh
    rw [List.foldl_cons, ih _ hh.2, coordStep]
    cases outputs.lookup a with
    | none => rfl
    | some out => simp only [dictSet_lookup, if_neg hh.1]

/-- C67: in the hierarchical strategy the coordinated output of every state is its own output blended successively with the
*coordinated* outputs of all the states of lower-numbered levels (level by level, in declaration order). -/
theorem C67_coordinate_equation [Ring K] (w : K) (deps : List (String × List String)) (names : List String)
    (hnd : names.Nodup) (outputs : List (String × List (String × K))) (s : String) (hs : s ∈ names)
    (out : List (String × K)) (hout : outputs.lookup s = some out) :
    (coordinate w deps names outputs).lookup s =
      some (influenced w deps names (coordinate w deps names outputs) s out) := by
  -- split the sequence of states at `s`
  have hlev : s ∈ levelStates deps names (depth deps s) := ((C66_levels deps names s hs).1 _).2 rfl
  obtain ⟨a, b, hab⟩ := List.append_of_mem hlev
  have hnl : (levelStates deps names (depth deps s)).Nodup := hnd.filter _
  have hL : ∃ rest : List Nat, List.range (deps.length + 2) = List.range (depth deps s) ++ depth deps s :: rest ∧
      ∀ l ∈ rest, l ≠ depth deps s := by
    have hb := C66_depth_bound deps s
    have h1 : deps.length + 2 = depth deps s + (1 + (deps.length + 1 - depth deps s)) := by omega
    refine ⟨(List.range (deps.length + 1 - depth deps s)).map (fun i => depth deps s + (1 + i)), ?_, ?_⟩
    · rw [h1, List.range_add, List.range_add]
      simp [List.range_one, List.map_map, Function.comp_def]
    · intro l hl
      obtain ⟨i, _, rfl⟩ := List.mem_map.1 hl
      omega
  obtain ⟨rest, hrange, hrest⟩ := hL
  obtain ⟨pre, hpre⟩ : ∃ p, p = (List.range (depth deps s)).flatMap (levelStates deps names) ++ a := ⟨_, rfl⟩
  obtain ⟨post, hpost⟩ : ∃ p, p = b ++ rest.flatMap (levelStates deps names) := ⟨_, rfl⟩
  have hseq : (List.range (deps.length + 2)).flatMap (levelStates deps names) = pre ++ s :: post := by
    rw [hrange, List.flatMap_append, List.flatMap_cons, hab, hpre, hpost]
    simp
  have hlvl : ∀ l h, h ∈ levelStates deps names l → depth deps h = l := by
    intro l h hm
    simpa [levelStates] using (List.mem_filter.1 hm).2
  rw [hab] at hnl
  have hsb : s ∉ post := by
    rw [hpost, List.mem_append, List.mem_flatMap]
    rintro (h | ⟨l, hl, hm⟩)
    · have := (List.nodup_append.1 hnl).2.1
      exact (List.nodup_cons.1 this).1 h
    · exact hrest l hl (hlvl l s hm).symm
  have hhigh : ∀ h ∈ higherStates deps names s, h ∉ s :: post := by
    intro h hh
    have hh' := ((C66_levels deps names s hs).2 h).1 hh
    rw [List.mem_cons, hpost, List.mem_append, List.mem_flatMap]
    rintro (rfl | h1 | ⟨l, hl, hm⟩)
    · omega
    · have : h ∈ levelStates deps names (depth deps s) := by rw [hab]; simp [h1]
      have := hlvl _ _ this
      omega
    · have e := hlvl l h hm
      -- `rest` only has larger levels
      have : l ∈ List.range (deps.length + 2) := by rw [hrange]; simp [hl]
      have hsorted : (List.range (deps.length + 2)).Pairwise (· < ·) := List.pairwise_lt_range
      rw [hrange, List.pairwise_append, List.pairwise_cons] at hsorted
      have := hsorted.2.1.1 l hl
      omega
  have hC : coordinate w deps names outputs = (s :: post).foldl (coordStep w deps names outputs)
      (pre.foldl (coordStep w deps names outputs) []) := by
    unfold coordinate
    rw [hseq, List.foldl_append]
  have hstep : (coordinate w deps names outputs).lookup s =
      some (influenced w deps names (pre.foldl (coordStep w deps names outputs) []) s out) := by
    rw [hC, List.foldl_cons, coord_fold_other _ _ _ _ _ _ _ hsb, coordStep, hout]
    simp only [dictSet_lookup, if_true]
  rw [hstep]
  congr 1
  unfold influenced
  have : ∀ (l : List String) (o : List (String × K)), (∀ h ∈ l, h ∉ s :: post) →
      l.foldl (influenceStep w (pre.foldl (coordStep w deps names outputs) [])) o =
        l.foldl (influenceStep w (coordinate w deps names outputs)) o := by
    intro l
    induction l with
    | nil => intros; rfl
    | cons h l ih =>
      intro o hl
      have e : (coordinate w deps names outputs).lookup h = (pre.foldl (coordStep w deps names outputs) []).lookup h := by
        rw [hC, coord_fold_other _ _ _ _ _ _ _ (hl h (by simp))]
      rw [List.foldl_cons, List.foldl_cons, influenceStep, influenceStep, e]
      exact ih _ (fun h hh => hl h (by simp [hh]))
  exact this _ _ hhigh

/-- C67: a state on level 0 is returned as it is. -/
theorem C67_level_zero_unchanged [Ring K] (w : K) (deps : List (String × List String)) (names : List String)
    (hnd : names.Nodup) (outputs : List (String × List (String × K))) (s : String) (hs : s ∈ names)
    (out : List (String × K)) (hout : outputs.lookup s = some out) (h0 : depth deps s = 0) :
    (coordinate w deps names outputs).lookup s = some out := by
  rw [C67_coordinate_equation w deps names hnd outputs s hs out hout]
  simp [influenced, higherStates, hs, h0]

/-- All the values under key `k` of a dictionary of output dictionaries lie in `[lo, hi]`. -/
def Within [LE K] (k : String) (lo hi : K) (d : List (String × K)) : Prop := ∀ v, (k, v) ∈ d → lo ≤ v ∧ v ≤ hi

theorem applyInfluence_within [Ring K] [LinearOrder K] [IsStrictOrderedRing K] (w : K) (hw0 : 0 ≤ w) (hw1 : w ≤ 1)
    (k : String) (lo hi : K) (lower higher : List (String × K)) (h1 : Within k lo hi lower) (h2 : Within k lo hi higher) :
    Within k lo hi (applyInfluence w lower higher) := by
  intro v hv
  unfold applyInfluence at hv
  obtain ⟨⟨k', u⟩, hm, he⟩ := List.mem_map.1 hv
  simp only [Prod.mk.injEq] at he
  obtain ⟨rfl, he⟩ := he
  have hu := h1 u hm
  cases hl : higher.lookup k' with
  | none => rw [hl] at he; simp only at he; rw [← he]; exact hu
  | some h =>
    rw [hl] at he
    simp only at he
    have hh := h2 h (mem_of_lookup _ _ _ hl)
    have hw1' : 0 ≤ 1 - w := sub_nonneg.2 hw1
    rw [← he]
    have e1 : (1 - w) * lo ≤ (1 - w) * u := mul_le_mul_of_nonneg_left hu.1 hw1'
    have e2 : (1 - w) * u ≤ (1 - w) * hi := mul_le_mul_of_nonneg_left hu.2 hw1'
    have e3 : w * lo ≤ w * h := mul_le_mul_of_nonneg_left hh.1 hw0
    have e4 : w * h ≤ w * hi := mul_le_mul_of_nonneg_left hh.2 hw0
    have f1 : (1 - w) * lo + w * lo = lo := by rw [← add_mul]; simp
    have f2 : (1 - w) * hi + w * hi = hi := by rw [← add_mul]; simp
    exact ⟨f1 ▸ add_le_add e1 e3, f2 ▸ add_le_add e2 e4⟩

/-- C67: the blending is a weighted mean (`0 ≤ w ≤ 1`, here `w = 0.1`): a value stays between the bounds of the values the
states gave for that key, and no key is added or removed. -/
theorem C67_coordinate_bounds [Ring K] [LinearOrder K] [IsStrictOrderedRing K] (w : K) (hw0 : 0 ≤ w) (hw1 : w ≤ 1)
    (deps : List (String × List String)) (names : List String) (outputs : List (String × List (String × K))) (k : String)
    (lo hi : K) (hout : ∀ s out, outputs.lookup s = some out → Within k lo hi out) (s : String) (res : List (String × K))
    (hres : (coordinate w deps names outputs).lookup s = some res) :
    Within k lo hi res ∧ ∃ out, outputs.lookup s = some out ∧ res.map Prod.fst = out.map Prod.fst := by
  have hinf : ∀ (coord : List (String × List (String × K))),
      (∀ h ho, coord.lookup h = some ho → Within k lo hi ho) → ∀ (l : List String) (o : List (String × K)), Within k lo hi o →
      Within k lo hi (l.foldl (influenceStep w coord) o) ∧
        (l.foldl (influenceStep w coord) o).map Prod.fst = o.map Prod.fst := by
    intro coord hc l
    induction l with
    | nil => intro o ho; exact ⟨ho, rfl⟩
    | cons h l ih =>
      intro o ho
      rw [List.foldl_cons]
      unfold influenceStep
      cases hl : coord.lookup h with
      | none => exact ih o ho
      | some hv =>
        obtain ⟨i1, i2⟩ := ih _ (applyInfluence_within w hw0 hw1 k lo hi o hv ho (hc h hv hl))
        exact ⟨i1, i2.trans (applyInfluence_keys w o hv)⟩
  have key : ∀ (l : List String) (coord : List (String × List (String × K))),
      (∀ s r, coord.lookup s = some r → Within k lo hi r ∧
        ∃ out, outputs.lookup s = some out ∧ r.map Prod.fst = out.map Prod.fst) →
      ∀ s r, (l.foldl (coordStep w deps names outputs) coord).lookup s = some r → Within k lo hi r ∧
        ∃ out, outputs.lookup s = some out ∧ r.map Prod.fst = out.map Prod.fst := by
    intro l
    induction l with
    | nil => intro coord h; exact h
    | cons a l ih =>
      intro coord h
      rw [List.foldl_cons]
      apply ih
      intro s r hr
      unfold coordStep at hr
      cases ho : outputs.lookup a with
      | none => rw [ho] at hr; exact h s r hr
      | some out =>
        rw [ho] at hr
        simp only [dictSet_lookup] at hr
        by_cases hsa : s = a
        · rw [if_pos hsa] at hr
          obtain rfl := Option.some.inj hr
          subst hsa
          obtain ⟨i1, i2⟩ := hinf coord (fun h' ho' hl => (h h' ho' hl).1) (higherStates deps names s) out (hout s out ho)
          exact ⟨i1, out, ho, i2⟩
        · rw [if_neg hsa] at hr
          exact h s r hr
  exact key _ [] (by simp) s res hres

end Influence

example : coordinate (K := Int) 1 [("low", ["high"])] ["low", "high"] [("low", [("v", 5), ("u", 1)]), ("high", [("v", 7)])] =
    [("high", [("v", 7)]), ("low", [("v", 7), ("u", 1)])] := by decide

/-! ## C48 -/

/-- The last `n` elements. -/
def lastN {V : Type} (n : Nat) (l : List V) : List V := l.drop (l.length - n)

theorem ring_invariant {V : Type} (m : Nat) (hm : 0 < m) (zero : V) (hist : List V) :
    let r := hist.foldl (ringAdd m) (ringInit m zero)
    r.size = min hist.length m ∧ r.ptr = hist.length % m ∧ r.buf.length = m ∧
    (hist.length < m → r.buf = hist ++ List.replicate (m - hist.length) zero) ∧
    (m ≤ hist.length → r.buf.drop r.ptr ++ r.buf.take r.ptr = lastN m hist) := by
  induction hist using List.reverseRecOn with
  | nil =>
    refine ⟨by simp [ringInit], by simp [ringInit], by simp [ringInit], fun _ => by simp [ringInit], ?_⟩
    intro h; simp at h; omega
  | append_singleton hist x ih =>
    simp only [List.foldl_append, List.foldl_cons, List.foldl_nil]
    generalize hist.foldl (ringAdd m) (ringInit m zero) = r at *
    obtain ⟨buf, ptr, size⟩ := r
    simp only at ih
    obtain ⟨h1, h2, h3, h4, h5⟩ := ih
    have hptr : ptr < m := by rw [h2]; exact Nat.mod_lt _ hm
    have hlen : (hist ++ [x]).length = hist.length + 1 := by simp
    simp only [ringAdd, hlen]
    refine ⟨by omega, by rw [h2, Nat.mod_add_mod], by simp [h3], ?_, ?_⟩
    · intro hlt
      have hp : ptr = hist.length := by rw [h2, Nat.mod_eq_of_lt (by omega)]
      rw [h4 (by omega), hp, List.set_append_right _ _ (Nat.le_refl _)]
      have : m - hist.length = (m - (hist.length + 1)) + 1 := by omega
      rw [this, List.replicate_succ]
      simp
    · intro hle
      by_cases hlt : hist.length < m
      · -- the buffer has just been filled
        have he : hist.length + 1 = m := by omega
        have hp : ptr = hist.length := by rw [h2, Nat.mod_eq_of_lt hlt]
        have hb : buf.set ptr x = hist ++ [x] := by
          rw [h4 hlt, hp, List.set_append_right _ _ (Nat.le_refl _)]
          have : m - hist.length = 1 := by omega
          rw [this]; simp
        have hz : (ptr + 1) % m = 0 := by rw [hp, he, Nat.mod_self]
        rw [hz, hb]
        simp [lastN, he]
      · have h5 := h5 (by omega)
        have hlast : lastN m (hist ++ [x]) = (lastN m hist).drop 1 ++ [x] := by
          unfold lastN
          rw [hlen, List.drop_append_of_le_length (by omega), List.drop_drop]
          congr 2
          omega
        have hbuf : buf.drop ptr = buf[ptr]'(by omega) :: buf.drop (ptr + 1) := by
          rw [List.drop_eq_getElem_cons (by omega)]
        rw [hlast, ← h5, hbuf]
        simp only [List.cons_append, List.drop_succ_cons, List.drop_zero]
        by_cases hw : ptr + 1 = m
        · have hz : (ptr + 1) % m = 0 := by rw [hw, Nat.mod_self]
          rw [hz]
          simp only [List.drop_zero, List.take_zero, List.append_nil]
          have hnil : buf.drop (ptr + 1) = [] := List.drop_eq_nil_of_le (by omega)
          rw [hnil, List.nil_append, List.set_eq_take_append_cons_drop, if_pos (by omega), hnil]
        · rw [Nat.mod_eq_of_lt (by omega)]
          rw [List.drop_set_of_lt (by omega), List.take_set, List.append_assoc]
          congr 1
          rw [List.take_add_one, List.getElem?_eq_getElem (by omega), Option.toList_some,
            List.set_append_right _ _ (by simp)]
          simp [Nat.min_eq_left (Nat.le_of_lt (h3 ▸ hptr))]

/-- C48: the stored history is the latest `min(n, max_history_length)` embeddings, oldest first. -/
theorem C48_history_is_last {V : Type} (m : Nat) (hm : 0 < m) (zero : V) (hist : List V) :
    validHistory m (hist.foldl (ringAdd m) (ringInit m zero)) = lastN m hist := by
  obtain ⟨h1, h2, h3, h4, h5⟩ := ring_invariant m hm zero hist
  unfold validHistory
  by_cases hlt : hist.length < m
  · rw [if_pos (by omega), h4 hlt, h1, Nat.min_eq_left (Nat.le_of_lt hlt), List.take_left' rfl]
    unfold lastN
    rw [show hist.length - m = 0 by omega]; rfl
  · rw [if_neg (by omega), h5 (by omega)]

/-- C48: each call shows the history *before* the current state (once it has at least two entries, and if attention is used). -/
theorem C48_relevant_history {V : Type} (m : Nat) (hm : 0 < m) (zero : V) (ua : Bool) (hist : List V) (t : Nat)
    (ht : t < hist.length) :
    ((attention m zero ua).run hist)[t]? =
      some (if ua = true ∧ 1 < min t m then lastN m (hist.take t) else [zero]) := by
  have hst : ∀ l, (attention m zero ua).stateAfter l = l.foldl (ringAdd m) (ringInit m zero) := by
    intro l
    induction l using List.reverseRecOn with
    | nil => rfl
    | append_singleton l x ih => rw [Mealy.stateAfter_append_singleton, ih]; simp [attention]
  rw [Mealy.run, Mealy.outsFrom_getElem?, List.getElem?_eq_getElem ht]
  simp only [Option.map_some, Option.some.injEq]
  have := hst (hist.take t)
  rw [Mealy.stateAfter] at this
  rw [this]
  have hv := C48_history_is_last m hm zero (hist.take t)
  have hs := (ring_invariant m hm zero (hist.take t)).1
  rw [List.length_take, Nat.min_eq_left (Nat.le_of_lt ht)] at hs
  simp only [attention, hv, hs, Bool.and_eq_true, decide_eq_true_eq, gt_iff_lt]

/-- C48: `get_relevant_states(top_k)` returns the `top_k` *oldest* entries of the history, whatever the current state. -/
theorem C48_top_k_is_oldest {V : Type} (m : Nat) (hm : 0 < m) (zero : V) (k : Nat) (hist : List V) (hne : hist ≠ []) :
    relevantStates m k zero (hist.foldl (ringAdd m) (ringInit m zero)) = (lastN m hist).take k := by
  have hs := (ring_invariant m hm zero hist).1
  have hpos : 0 < hist.length := List.length_pos_of_ne_nil hne
  unfold relevantStates
  rw [if_neg (by omega), C48_history_is_last m hm]
  rw [List.take_eq_take_iff]
  omega

/-- C48: states are padded or cut to the embedding dimension. -/
theorem C48_pad_length {V : Type} (n : Nat) (zero : V) (v : List V) :
    (padOrTruncate n zero v).length = n ∧ ∀ i, i < n → (padOrTruncate n zero v)[i]? = some (v[i]?.getD zero) := by
  unfold padOrTruncate
  split
  · refine ⟨by simp; omega, ?_⟩
    intro i hi
    rw [List.getElem?_take_of_lt hi, List.getElem?_eq_getElem (by omega)]; rfl
  · refine ⟨by simp; omega, ?_⟩
    intro i hi
    by_cases h : i < v.length
    · rw [List.getElem?_append_left h, List.getElem?_eq_getElem h]; rfl
    · rw [List.getElem?_append_right (by omega), List.getElem?_replicate, if_pos (by omega),
        List.getElem?_eq_none (by omega)]; rfl

example : (attention 2 0 true).run [1, 2, 3, 4] = [[0], [0], [1, 2], [2, 3]] := by decide

/-! ## C68 -/

section Composite
variable {V D S : Type}

/-- What the patterns see, one after the other: the input stream of the next pattern is the merge of the stream with the
outputs. -/
def pipeSpec : List (Mealy S (Data V) (Data V)) → List (Data V) → List (List (Data V))
  | [], _ => []
  | m :: ms, xs => m.run xs :: pipeSpec ms (List.zipWith mergeData xs (m.run xs))

def pipeSpecFrom : List (Mealy S (Data V) (Data V)) → List S → List (Data V) → List (List (Data V))
  | m :: ms, s :: ss, xs => m.outsFrom s xs :: pipeSpecFrom ms ss (List.zipWith mergeData xs (m.outsFrom s xs))
  | _, _, _ => []

theorem pipeSpecFrom_init (ms : List (Mealy S (Data V) (Data V))) (xs : List (Data V)) :
    pipeSpecFrom ms (ms.map Mealy.init) xs = pipeSpec ms xs := by
  induction ms generalizing xs with
  | nil => rfl
  | cons m ms ih => simp only [List.map_cons, pipeSpecFrom, pipeSpec, ih]; rfl

theorem pipeline_step (ms : List (Mealy S (Data V) (Data V))) (ss : List S) (hl : ss.length = ms.length) (x : Data V)
    (xs : List (Data V)) :
    pipeSpecFrom ms ss (x :: xs) =
      List.zipWith List.cons (pipeline ms ss x).1 (pipeSpecFrom ms (pipeline ms ss x).2 xs) ∧
    (pipeline ms ss x).2.length = ms.length ∧ (pipeline ms ss x).1.length = ms.length ∧
    ∀ ys, (pipeSpecFrom ms (pipeline ms ss x).2 ys).length = ms.length := by
  induction ms generalizing ss x xs with
  | nil =>
    cases ss with
    | nil => exact ⟨rfl, rfl, rfl, fun _ => rfl⟩
    | cons => simp at hl
  | cons m ms ih =>
    cases ss with
    | nil => simp at hl
    | cons s ss =>
      obtain ⟨i1, i2, i3, i4⟩ := ih ss (by simpa using hl) (mergeData x (m.step s x).1)
        (List.zipWith mergeData xs (m.outsFrom (m.step s x).2 xs))
      refine ⟨?_, by simp [pipeline, i2], by simp [pipeline, i3], fun ys => ?_⟩
      · simp only [pipeSpecFrom, pipeline, Mealy.outsFrom_cons, List.zipWith_cons_cons]
        rw [i1]
      · simp only [pipeline, pipeSpecFrom, List.length_cons]
        rw [(ih ss (by simpa using hl) (mergeData x (m.step s x).1) []).2.2.2]

/-- C68 (pipeline): pattern `i` behaves as if run alone on its own input stream, which is the merge of the previous pattern's
input and output streams; the composite's output at step `t` collects the patterns' outputs at step `t`. -/
theorem C68_pipeline (ms : List (Mealy S (Data V) (Data V))) (xs : List (Data V)) (t i : Nat) :
    (((pipelineM ms).run xs)[t]?).bind (fun o => o[i]?) = ((pipeSpec ms xs)[i]?).bind (fun ys => ys[t]?) := by
  rw [← pipeSpecFrom_init]
  have key : ∀ (xs : List (Data V)) (ss : List S) (t : Nat), ss.length = ms.length →
      (((pipelineM ms).outsFrom ss xs)[t]?).bind (fun o => o[i]?) =
        ((pipeSpecFrom ms ss xs)[i]?).bind (fun ys => ys[t]?) := by
    intro xs
    induction xs with
    | nil =>
      intro ss t hl
      have hnil : ∀ (ms : List (Mealy S (Data V) (Data V))) (ss : List S), ∀ ys ∈ pipeSpecFrom ms ss [], ys = [] := by
        intro ms
        induction ms with
        | nil => intro ss ys h; simp [pipeSpecFrom] at h
        | cons m ms ih =>
          intro ss ys h
          cases ss with
          | nil => simp [pipeSpecFrom] at h
          | cons s ss =>
            simp only [pipeSpecFrom, Mealy.outsFrom_nil, List.zipWith_nil_left, List.mem_cons] at h
            rcases h with h | h
            · exact h
            · exact ih ss ys h
      cases h : (pipeSpecFrom ms ss [])[i]? with
      | none => rfl
      | some ys =>
        have := hnil ms ss ys (List.mem_of_getElem? h)
        subst this
        simp
    | cons x xs ih =>
      intro ss t hl
      obtain ⟨h1, h2, h3, h4⟩ := pipeline_step ms ss hl x xs
      rw [h1]
      have hstep : (pipelineM ms).step ss x = pipeline ms ss x := rfl
      rw [Mealy.outsFrom_cons, hstep]
      rw [List.getElem?_zipWith']
      have hb := h4 xs
      by_cases hi : i < ms.length
      · rw [List.getElem?_eq_getElem (by omega : i < (pipeline ms ss x).1.length),
          List.getElem?_eq_getElem (by omega : i < (pipeSpecFrom ms (pipeline ms ss x).2 xs).length)]
        cases t with
        | zero => simp [List.getElem?_eq_getElem (by omega : i < (pipeline ms ss x).1.length)]
        | succ t =>
          have := ih (pipeline ms ss x).2 t h2
          rw [List.getElem?_eq_getElem (by omega : i < (pipeSpecFrom ms (pipeline ms ss x).2 xs).length)] at this
          simpa using this
      · rw [List.getElem?_eq_none (by omega : (pipeline ms ss x).1.length ≤ i)]
        cases t with
        | zero => simp [List.getElem?_eq_none (by omega : (pipeline ms ss x).1.length ≤ i)]
        | succ t =>
          have := ih (pipeline ms ss x).2 t h2
          rw [List.getElem?_eq_none (by omega : (pipeSpecFrom ms (pipeline ms ss x).2 xs).length ≤ i)] at this
          simpa using this
  exact key xs (ms.map Mealy.init) t (List.length_map _)

/-- C68: on data that are not dictionaries the pipeline is the composition of the patterns. -/
theorem C68_pipeline_leaf (cur : Data V) (v : V) : mergeData cur (.leaf v) = .leaf v := by
  cases cur <;> rfl

/-- C68: dictionaries accumulate: the next pattern sees the previous output's entries, then those of its input. -/
theorem C68_pipeline_dict (c o : List (String × V)) (ho : (o.map Prod.fst).Nodup) (k : String) :
    ∃ d, mergeData (.dict c) (.dict o) = .dict d ∧ d.lookup k = (o.lookup k).or (c.lookup k) := by
  refine ⟨_, rfl, ?_⟩
  rw [dictUpdate_lookup]
  congr 1
  induction o with
  | nil => rfl
  | cons p l ih =>
    obtain ⟨a, b⟩ := p
    simp only [List.map_cons, List.nodup_cons] at ho
    rw [List.reverse_cons, List.lookup_append, ih ho.2, List.lookup_cons]
    by_cases h : k = a
    · subst h
      have : l.lookup k = none := by
        rw [List.lookup_eq_none_iff]
        intro p hp
        simp only [bne_iff_ne, ne_eq]
        intro e
        exact ho.1 (by rw [e]; exact List.mem_map_of_mem hp)
      simp [this]
    · have : (k == a) = false := by simpa using h
      simp [List.lookup_cons, this]

/-- C68 (parallel): every pattern runs alone on the input stream. -/
theorem C68_parallel (ms : List (Mealy S D D)) (xs : List D) (t i : Nat) (ht : t < xs.length) (m : Mealy S D D)
    (hm : ms[i]? = some m) : (((parallelM ms).run xs)[t]?).bind (fun o => o[i]?) = (m.run xs)[t]? := by
  have key : ∀ (xs : List D) (ss : List S) (t : Nat) (s : S), ss[i]? = some s → t < xs.length →
      (((parallelM ms).outsFrom ss xs)[t]?).bind (fun o => o[i]?) = (m.outsFrom s xs)[t]? := by
    intro xs
    induction xs with
    | nil => intro ss t s _ ht; simp at ht
    | cons x xs ih =>
      intro ss t s hs ht
      have hz : (ms.zip ss)[i]? = some (m, s) := by rw [List.getElem?_zip_eq_some]; exact ⟨hm, hs⟩
      rw [Mealy.outsFrom_cons, Mealy.outsFrom_cons]
      cases t with
      | zero => simp only [parallelM, List.getElem?_cons_zero, Option.bind_some, List.getElem?_map, hz, Option.map_some]
      | succ t =>
        rw [List.getElem?_cons_succ, List.getElem?_cons_succ]
        apply ih _ t (m.step s x).2 _ (by simpa using ht)
        simp only [parallelM, List.getElem?_map, hz, Option.map_some]
  exact key xs (ms.map Mealy.init) t m.init (by rw [List.getElem?_map, hm]; rfl) ht

/-- The entry "influence" of an output, if it is a dictionary that has one. -/
def influenceOf : Data V → Option (Data V)
  | .dict d => (d.lookup "influence").map .leaf
  | .leaf _ => none

/-- C68 (hierarchical): in one call, pattern `i` runs from its own state on the last influence produced by the patterns before
it, and on the call's input when none of them produced one; its new state is kept. -/
theorem C68_hierarchical (ms : List (Mealy S (Data V) (Data V))) (ss : List S) (hl : ss.length = ms.length) (x : Data V)
    (i : Nat) (m : Mealy S (Data V) (Data V)) (s : S) (hm : ms[i]? = some m) (hs : ss[i]? = some s) :
    let outs := (influencePipe ms ss x).1
    let input := ((outs.take i).filterMap influenceOf).getLastD x
    outs.length = ms.length ∧ outs[i]? = some (m.step s input).1 ∧
      (influencePipe ms ss x).2[i]? = some (m.step s input).2 := by
  have hlen : ∀ (ms : List (Mealy S (Data V) (Data V))) (ss : List S) (x : Data V), ss.length = ms.length →
      (influencePipe ms ss x).1.length = ms.length := by
    intro ms
    induction ms with
    | nil => intro ss x hl; cases ss <;> simp_all [influencePipe]
    | cons m ms ih =>
      intro ss x hl
      cases ss with
      | nil => simp at hl
      | cons s ss => simp only [influencePipe, List.length_cons]; rw [ih]; simpa using hl
  refine ⟨hlen ms ss x hl, ?_⟩
  induction ms generalizing ss x i with
  | nil => simp at hm
  | cons m0 ms ih =>
    cases ss with
    | nil => simp at hl
    | cons s0 ss =>
      cases i with
      | zero =>
        simp only [List.getElem?_cons_zero, Option.some.injEq] at hm hs
        subst hm; subst hs
        simp [influencePipe]
      | succ i =>
        simp only [List.getElem?_cons_succ] at hm hs
        have hx : (influencePipe (m0 :: ms) (s0 :: ss) x) =
            ((m0.step s0 x).1 :: (influencePipe ms ss ((influenceOf (m0.step s0 x).1).getD x)).1,
             (m0.step s0 x).2 :: (influencePipe ms ss ((influenceOf (m0.step s0 x).1).getD x)).2) := by
          simp only [influencePipe]
          cases h : (m0.step s0 x).1 with
          | leaf v => rfl
          | dict d =>
            simp only [influenceOf]
            cases d.lookup "influence" <;> rfl
        have := ih ss (by simpa using hl) ((influenceOf (m0.step s0 x).1).getD x) i hm hs
        rw [hx]
        simp only [List.take_succ_cons, List.getElem?_cons_succ]
        have e : ∀ (o : Data V) (l : List (Data V)), ((o :: l).filterMap influenceOf).getLastD x =
            (l.filterMap influenceOf).getLastD ((influenceOf o).getD x) := by
          intro o l
          rw [List.filterMap_cons]
          cases influenceOf o with
          | none => rfl
          | some b => cases l.filterMap influenceOf <;> simp [List.getLastD]
        rw [e]
        exact this

example : (influencePipe (V := Nat) [(⟨(), fun _ _ => (.dict [("influence", 5)], ())⟩ : Mealy Unit (Data Nat) (Data Nat)),
    ⟨(), fun _ x => (x, ())⟩] [(), ()] (.leaf 1)).1[1]? = some (.leaf 5) := rfl

/-- C68: exactly the three strategies are accepted. -/
theorem C68_strategies (s : String) :
    knownStrategy s = .ok () ↔ s = "pipeline" ∨ s = "parallel" ∨ s = "hierarchical" := by
  unfold knownStrategy
  by_cases h1 : s = "pipeline"
  · simp [h1]
  · by_cases h2 : s = "parallel"
    · simp [h2]
    · by_cases h3 : s = "hierarchical" <;> simp [h1, h2, h3]

end Composite

end Verif.Props
