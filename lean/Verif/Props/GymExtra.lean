import Verif.Model.GymExtra
import Verif.Props.Gym
import Verif.Props.Encode
import Verif.Props.Windows

/-! # Properties C111–C115 -/

set_option linter.unusedSectionVars false

namespace Verif.Props
open Model Model.Gym Model.GymExtra
variable {W Obs Act Rw Info : Type}

/-! ## C111: the callbacks argument -/

theorem unpack_ok (cs : List (Callback W Obs Act Rw Info)) : unpackCallbacks (cs.map CbArg.tuple) = .ok cs := by
  induction cs with
  | nil => rfl
  | cons c cs ih => simp [unpackCallbacks, ih]

theorem unpack_error (l : List (CbArg W Obs Act Rw Info)) :
    (∃ e, unpackCallbacks l = .error e) ↔ ∃ c, CbArg.object c ∈ l := by
  induction l with
  | nil => simp [unpackCallbacks]
  | cons a l ih =>
    cases a with
    | object c => exact ⟨fun _ => ⟨c, List.mem_cons_self⟩, fun _ => ⟨(), rfl⟩⟩
    | tuple c =>
      rw [show (∃ e, unpackCallbacks (.tuple c :: l) = .error e) ↔ ∃ e, unpackCallbacks l = .error e by
        simp only [unpackCallbacks]
        cases unpackCallbacks l <;> simp]
      rw [ih]
      simp

/-- What the docstring promises ("Additional callback to use"): the callbacks given to `unroll` are run in addition to the active ones. -/
def AdditionalCallbacks (W Obs Act Rw Info : Type) : Prop :=
  ∀ (sys : Sys W Obs Act Rw Info) (active : List (Callback W Obs Act Rw Info)) (l : List (CbArg W Obs Act Rw Info)) (obs : Option Obs)
    (fuel : Nat) (w : W),
    agentUnroll sys active (some l) obs fuel w = .ok (gymUnroll sys (active ++ l.map normalizeCallback) obs fuel w)

/-- C111, what the code does: without the argument the active callbacks run; with it, the call raises as soon as one of them is a `Callback`
object, and otherwise runs the given ones only. -/
theorem C111_callbacks_argument_partial (sys : Sys W Obs Act Rw Info) (active : List (Callback W Obs Act Rw Info)) (obs : Option Obs)
    (fuel : Nat) (w : W) :
    agentUnroll sys active none obs fuel w = .ok (gymUnroll sys active obs fuel w) ∧
    (∀ cs, agentUnroll sys active (some (cs.map CbArg.tuple)) obs fuel w = .ok (gymUnroll sys cs obs fuel w)) ∧
    (∀ l, (∃ e, agentUnroll sys active (some l) obs fuel w = .error e) ↔ ∃ c, CbArg.object c ∈ l) := by
  refine ⟨rfl, fun cs => ?_, fun l => ?_⟩
  · simp only [agentUnroll, unpack_ok]
  · rw [← unpack_error]
    simp only [agentUnroll]
    cases unpackCallbacks l <;> simp

/-- C111 is false of the code: a `Callback` object in the list raises. -/
theorem C111_callbacks_not_additional (c : Callback W Obs Act Rw Info) (sys : Sys W Obs Act Rw Info) (w : W) :
    ¬ AdditionalCallbacks W Obs Act Rw Info := by
  intro h
  obtain ⟨e, he⟩ := ((C111_callbacks_argument_partial sys [] none 0 w).2.2 [CbArg.object c]).mpr ⟨c, by simp⟩
  rw [h sys [] [CbArg.object c] none 0 w] at he
  cases he

/-- C111: nor are tuples additional: an active callback that counts the steps sees none. -/
theorem C111_active_not_run :
    let sys : Sys Nat Unit Unit Unit Unit := ⟨fun w => ((), w), fun w _ => ((), w), fun w _ => (((), (), true, ()), w), id⟩
    let count : Callback Nat Unit Unit Unit Unit := ⟨none, none, some fun w _ => (false, w + 1), none⟩
    (match agentUnroll sys [count] (some [.tuple ⟨none, none, none, none⟩]) none 5 0 with
      | .ok (some r) => some r.2 | _ => none) = some 0 ∧
    (match agentUnroll sys [count] none none 5 0 with
      | .ok (some r) => some r.2 | _ => none) = some 1 := ⟨rfl, rfl⟩

/-! ## C112: ProgressBar -/

/-- The same environment and agent, counting the environment steps. -/
def countSys (sys : Sys W Obs Act Rw Info) : Sys (W × Nat) Obs Act Rw Info where
  reset w := let r := sys.reset w.1; (r.1, (r.2, w.2))
  act w o := let r := sys.act w.1 o; (r.1, (r.2, w.2))
  step w a := let r := sys.step w.1 a; (r.1, (r.2, w.2 + 1))
  close w := (sys.close w.1, w.2)

/-- Callbacks around a progress bar, none of which touches it. -/
def withBar (pre post : List (Callback W Obs Act Rw Info)) : List (Callback ((W × Nat) × Option Bar) Obs Act Rw Info) :=
  (pre.map liftCb).map liftCb ++ progressBar :: (post.map liftCb).map liftCb

theorem lift_onStart' {T : Type} (cs : List (Callback W Obs Act Rw Info)) (o : Obs) (w : W) (t : T) :
    ((cs.map liftCb).filterMap (·.onStart)).foldl (fun w f => f w o) (w, t) =
      ((cs.filterMap (·.onStart)).foldl (fun w f => f w o) w, t) := by
  induction cs generalizing w with
  | nil => rfl
  | cons c cs ih =>
    rw [List.map_cons, List.filterMap_cons, List.filterMap_cons]
    cases h : c.onStart with
    | none => simpa [liftCb, h] using ih w
    | some f => simpa [liftCb, h] using ih (f w o)

theorem lift_onEnd' {T : Type} (cs : List (Callback W Obs Act Rw Info)) (w : W) (t : T) :
    ((cs.map liftCb).filterMap (·.onEnd)).foldl (fun w f => f w) (w, t) =
      ((cs.filterMap (·.onEnd)).foldl (fun w f => f w) w, t) := by
  induction cs generalizing w with
  | nil => rfl
  | cons c cs ih =>
    rw [List.map_cons, List.filterMap_cons, List.filterMap_cons]
    cases h : c.onEnd with
    | none => simpa [liftCb, h] using ih w
    | some f => simpa [liftCb, h] using ih (f w)

theorem iteration_bar (sys : Sys W Obs Act Rw Info) (pre post : List (Callback W Obs Act Rw Info)) (w : W) (k : Nat) (b : Bar) (obs : Obs) :
    ∃ gs d w', iteration (liftSys (countSys sys)) (withBar pre post) ((w, k), some b) obs =
      (gs, d, ((w', k + 1), some b.update)) := by
  unfold iteration withBar
  simp only [List.filterMap_append, List.filterMap_cons, progressBar, List.foldl_append, liftSys, lift_onAct, countSys]
  rw [runOnStep_append, lift_onStep, lift_onStep]
  simp only [runOnStep, Option.map_some]
  rw [lift_onStep, lift_onStep]
  exact ⟨_, _, _, rfl⟩

/-- What a bar shows after `k` more updates. -/
def barAfter (b : Bar) (k : Nat) : Bar := ⟨if b.closed then b.n else b.n + k, b.closed⟩

theorem barAfter_update (b : Bar) (k : Nat) : barAfter b.update k = barAfter b (k + 1) := by
  obtain ⟨n, c⟩ := b
  cases c
  · simp only [barAfter, Bar.update, Bool.false_eq_true, if_false]; congr 1; omega
  · rfl

theorem loop_bar (sys : Sys W Obs Act Rw Info) (pre post : List (Callback W Obs Act Rw Info)) (fuel : Nat) (w : W) (k : Nat) (b : Bar)
    (obs : Obs) (gs : GymState Obs Act Rw Info) (w' : W) (k' : Nat) (b' : Option Bar)
    (h : loop (liftSys (countSys sys)) (withBar pre post) fuel ((w, k), some b) obs = some (gs, ((w', k'), b'))) :
    k ≤ k' ∧ b' = some (barAfter b (k' - k)) := by
  induction fuel generalizing w k b obs with
  | zero => cases h
  | succ fuel ih =>
    obtain ⟨gs1, d, w1, he⟩ := iteration_bar sys pre post w k b obs
    unfold loop at h
    simp only [he] at h
    split at h
    · simp only [Option.some.injEq, Prod.mk.injEq] at h
      obtain ⟨_, ⟨_, rfl⟩, rfl⟩ := h
      exact ⟨by omega, by rw [show k + 1 - k = 0 + 1 by omega, ← barAfter_update]; simp [barAfter]⟩
    · obtain ⟨h1, h2⟩ := ih w1 (k + 1) _ _ h
      exact ⟨by omega, by rw [h2, barAfter_update]; congr 2; omega⟩

theorem bar_unroll (sys : Sys W Obs Act Rw Info) (pre post : List (Callback W Obs Act Rw Info)) (obs : Option Obs) (fuel : Nat)
    (w w' : W) (k : Nat) (b b' : Option Bar) (gs : GymState Obs Act Rw Info)
    (h : gymUnroll (liftSys (countSys sys)) (withBar pre post) obs fuel ((w, 0), b) = some (gs, ((w', k), b'))) :
    b' = some ⟨(barAfter (b.getD ⟨0, false⟩) k).n, true⟩ := by
  unfold gymUnroll at h
  simp only at h
  obtain ⟨o, w0, ho⟩ : ∃ o w0, firstObs (liftSys (countSys sys)) obs ((w, 0), b) = (o, ((w0, 0), b)) := by
    cases obs with
    | none => exact ⟨_, _, rfl⟩
    | some o => exact ⟨o, w, rfl⟩
  rw [ho] at h
  have hstart : ∃ w1, ((withBar pre post).filterMap (·.onStart)).foldl (fun w f => f w o) ((w0, 0), b) =
      ((w1, 0), some (b.getD ⟨0, false⟩)) := by
    unfold withBar
    rw [List.filterMap_append, List.foldl_append, lift_onStart', lift_onStart']
    simp only [List.filterMap_cons, progressBar, List.foldl_cons]
    rw [lift_onStart', lift_onStart']
    exact ⟨_, rfl⟩
  obtain ⟨w1, hw1⟩ := hstart
  simp only [hw1] at h
  cases hl : loop (liftSys (countSys sys)) (withBar pre post) fuel ((w1, 0), some (b.getD ⟨0, false⟩)) o with
  | none => rw [hl] at h; cases h
  | some r =>
    obtain ⟨gs1, ⟨w2, k2⟩, b2⟩ := r
    obtain ⟨-, h2⟩ := loop_bar sys pre post fuel w1 0 _ o gs1 w2 k2 b2 hl
    rw [hl] at h
    simp only [Option.map_some, Option.some.injEq, Prod.mk.injEq] at h
    have hend : ∀ x : W × Nat, ∀ c : Bar, ∃ w3, ((withBar pre post).filterMap (·.onEnd)).foldl (fun w f => f w) (x, some c) =
        ((w3, x.2), some { c with closed := true }) := by
      rintro ⟨x, kx⟩ c
      unfold withBar
      rw [List.filterMap_append, List.foldl_append, lift_onEnd', lift_onEnd']
      simp only [List.filterMap_cons, progressBar, List.foldl_cons, Option.map_some]
      rw [lift_onEnd', lift_onEnd']
      exact ⟨_, rfl⟩
    obtain ⟨w3, hw3⟩ := hend (w2, k2) (barAfter (b.getD ⟨0, false⟩) (k2 - 0))
    rw [h2, hw3] at h
    simp only [liftSys, countSys, Prod.mk.injEq] at h
    obtain ⟨_, ⟨_, rfl⟩, rfl⟩ := h
    rfl

/-- C112: when the first `gym_unroll` with a `ProgressBar` ends, the bar is closed and shows the number of environment steps made
(including the last one).  Other callbacks do not disturb it. -/
theorem C112_progress_bar (sys : Sys W Obs Act Rw Info) (pre post : List (Callback W Obs Act Rw Info)) (obs : Option Obs) (fuel : Nat)
    (w w' : W) (k : Nat) (b' : Option Bar) (gs : GymState Obs Act Rw Info)
    (h : gymUnroll (liftSys (countSys sys)) (withBar pre post) obs fuel ((w, 0), none) = some (gs, ((w', k), b'))) :
    b' = some ⟨k, true⟩ := by
  rw [bar_unroll sys pre post obs fuel w w' k none b' gs h]
  simp [barAfter]

/-- C112: used again, the same callback keeps its closed bar, which ignores every update: the steps of later unrolls are not shown. -/
theorem C112_reused_bar_partial (sys sys2 : Sys W Obs Act Rw Info) (pre post pre2 post2 : List (Callback W Obs Act Rw Info))
    (obs obs2 : Option Obs) (fuel fuel2 : Nat) (w w' w2 w2' : W) (k k2 : Nat) (b' b2 : Option Bar) (gs gs2 : GymState Obs Act Rw Info)
    (h : gymUnroll (liftSys (countSys sys)) (withBar pre post) obs fuel ((w, 0), none) = some (gs, ((w', k), b')))
    (h2 : gymUnroll (liftSys (countSys sys2)) (withBar pre2 post2) obs2 fuel2 ((w2, 0), b') = some (gs2, ((w2', k2), b2))) :
    b2 = some ⟨k, true⟩ := by
  rw [bar_unroll sys2 pre2 post2 obs2 fuel2 w2 w2' k2 b' b2 gs2 h2, C112_progress_bar sys pre post obs fuel w w' k b' gs h]
  simp [barAfter]

example : (∃ r, gymUnroll (liftSys (countSys (⟨fun w => ((), w), fun w _ => ((), w), fun w _ => (((), (), decide (3 ≤ w), ()), w + 1), id⟩ :
      Sys Nat Unit Unit Unit Unit))) (withBar [] []) none 9 ((0, 0), none) = some r ∧ r.2 = ((4, 4), some ⟨4, true⟩)) ∧
    ∃ r, gymUnroll (liftSys (countSys (⟨fun w => ((), w), fun w _ => ((), w), fun w _ => (((), (), decide (3 ≤ w), ()), w + 1), id⟩ :
      Sys Nat Unit Unit Unit Unit))) (withBar [] []) none 9 ((0, 0), some ⟨4, true⟩) = some r ∧ r.2 = ((4, 4), some ⟨4, true⟩) :=
  ⟨⟨_, rfl, rfl⟩, ⟨_, rfl, rfl⟩⟩

/-! ## C113: Record.get_outputs -/

section
variable {D L A : Type}

/-- The recordings made by successive steps. -/
def records (outs : List (D × List L)) : Option (D × List (List L)) := outs.foldl recordPush none

theorem records_snoc (outs : List (D × List L)) (o : D × List L) : records (outs ++ [o]) = recordPush (records outs) o := by
  simp [records]

theorem records_eq (o : D × List L) (outs : List (D × List L)) :
    ∃ seqs, records (o :: outs) = some (o.1, seqs) ∧ seqs.length = o.2.length ∧
      ∀ k, k < o.2.length → seqs[k]? = some ((o :: outs).filterMap fun r => r.2[k]?) := by
  induction outs using List.reverseRecOn with
  | nil =>
    refine ⟨_, rfl, by simp, ?_⟩
    intro k hk
    simp only [Option.getD_none, List.length_map, le_refl, List.drop_of_length_le, List.append_nil, List.getElem?_zipWith, List.getElem?_map,
      List.getElem?_eq_getElem hk, Option.map_some, List.filterMap_cons, List.filterMap_nil]
    rfl
  | append_singleton outs r ih =>
    obtain ⟨seqs, h1, h2, h3⟩ := ih
    refine ⟨_, by rw [← List.cons_append, records_snoc, h1]; rfl, ?_, ?_⟩
    · simp only [Option.getD_some, List.length_append, List.length_zipWith, List.length_drop, h2]
      omega
    · intro k hk
      simp only [Option.getD_some]
      rw [← List.cons_append, List.filterMap_append]
      by_cases hr : k < r.2.length
      · rw [List.getElem?_append_left (by simp [h2, hk, hr]), List.getElem?_zipWith, h3 k hk, List.getElem?_eq_getElem hr]
        simp [List.getElem?_eq_getElem hr]
      · rw [List.getElem?_append_right (by simp; omega), List.getElem?_drop]
        have : r.2.length + (k - (List.zipWith (fun seq x => seq ++ [x]) seqs r.2).length) = k := by simp [h2]; omega
        rw [this, h3 k hk, List.filterMap_cons (l := []), List.getElem?_eq_none (by omega)]
        simp

/-- C113: when all the recorded outputs have as many leaves as the first one, `get_outputs` returns the structure of an output whose `k`-th
leaf is the stack, in order, of the `k`-th leaves of all of them. -/
theorem C113_get_outputs (stack : List L → Except Unit A) (o : D × List L) (outs : List (D × List L))
    (hlen : ∀ r ∈ outs, r.2.length = o.2.length) (res : D × List A) (h : recordOutputs stack (records (o :: outs)) = .ok res) :
    res.1 = o.1 ∧ res.2.length = o.2.length ∧ ∀ k, k < o.2.length →
      ∃ series a, series.length = (o :: outs).length ∧ (∀ t : Nat, series[t]? = ((o :: outs)[t]?).bind fun (r : D × List L) => r.2[k]?) ∧
        stack series = .ok a ∧ res.2[k]? = some a := by
  obtain ⟨seqs, h1, h2, h3⟩ := records_eq o outs
  rw [h1] at h
  unfold recordOutputs at h
  simp only at h
  have hm : ∀ (l : List (List L)) r, l.mapM stack = .ok r → r.length = l.length ∧ ∀ (k : Nat) (s : List L), l[k]? = some s → ∃ a, stack s = .ok a ∧ r[k]? = some a := by
    intro l
    induction l with
    | nil => intro r hr; simp [pure, Except.pure] at hr; subst hr; simp
    | cons s l ih =>
      intro r hr
      rw [List.mapM_cons] at hr
      cases hs : stack s with
      | error e => simp [hs, bind, Except.bind] at hr
      | ok a =>
        cases hl : l.mapM stack with
        | error e => simp [hs, hl, bind, Except.bind] at hr
        | ok r' =>
          simp [hs, hl, bind, Except.bind, pure, Except.pure] at hr
          subst hr
          obtain ⟨g1, g2⟩ := ih r' hl
          refine ⟨by simp [g1], fun k s' hk => ?_⟩
          cases k with
          | zero => simp at hk; subst hk; exact ⟨a, hs, rfl⟩
          | succ k => simpa using g2 k s' (by simpa using hk)
  cases hs : seqs.mapM stack with
  | error e => rw [hs] at h; cases h
  | ok l =>
    rw [hs] at h
    simp only [Except.ok.injEq] at h
    subst h
    obtain ⟨g1, g2⟩ := hm seqs l hs
    refine ⟨rfl, by simp [g1, h2], fun k hk => ?_⟩
    obtain ⟨a, ha, hka⟩ := g2 k _ (h3 k hk)
    have hseries : ∀ rs : List (D × List L), (∀ r ∈ rs, r.2.length = o.2.length) →
        (rs.filterMap fun r => r.2[k]?).length = rs.length ∧ ∀ t : Nat, (rs.filterMap fun r => r.2[k]?)[t]? = (rs[t]?).bind fun r => r.2[k]? := by
      intro rs
      induction rs with
      | nil => intro _; simp
      | cons r rs ih =>
        intro hr
        obtain ⟨i1, i2⟩ := ih fun x hx => hr x (List.mem_cons_of_mem _ hx)
        have hk' : k < r.2.length := by rw [hr r List.mem_cons_self]; exact hk
        simp only [List.filterMap_cons, List.getElem?_eq_getElem hk']
        refine ⟨by simp [i1], fun t => ?_⟩
        cases t with
        | zero => simp [List.getElem?_eq_getElem hk']
        | succ t => simpa using i2 t
    obtain ⟨i1, i2⟩ := hseries (o :: outs) (by
      intro r hr
      rcases List.mem_cons.mp hr with rfl | hr
      · rfl
      · exact hlen r hr)
    exact ⟨_, a, i1, i2, ha, hka⟩

/-- C113: without any recorded step (the environment was done at once) `get_outputs` raises. -/
theorem C113_get_outputs_empty (stack : List L → Except Unit A) : recordOutputs (D := D) stack (records []) = .error () := rfl

/-- C113: leaves beyond those of the first record are dropped, and a leaf that is missing from some records leaves a shorter series: the
`k`-th series holds the `k`-th leaf of the records that have one. -/
theorem C113_series (o : D × List L) (outs : List (D × List L)) :
    ∃ seqs, records (o :: outs) = some (o.1, seqs) ∧ seqs.length = o.2.length ∧
      ∀ k, k < o.2.length → seqs[k]? = some ((o :: outs).filterMap fun r => r.2[k]?) := records_eq o outs

example : recordOutputs (fun l => .ok l.length) (records [("d", [1, 2]), ("d", [3, 4]), ("d", [5, 6])]) = .ok ("d", [3, 3]) := rfl

end

/-! ## C114: assert_tree_all_close -/

section
variable {K : Type} [Field K] [LinearOrder K] [IsStrictOrderedRing K]

/-- The relation a user has in mind between two leaves of the same length: same type and dtype, and entries equal (int32, uint32, Python
numbers) or within the default tolerances. -/
def LeafAgree : Leaf K → Leaf K → Prop
  | .number t v, .number t' v' => t = t' ∧ Fl.feq v v' = true
  | .array t d e v, .array t' d' _ v' => t = t' ∧ d = d' ∧ v.length = v'.length ∧
      ∀ i (h : i < v.length) (h' : i < v'.length), if e then Fl.feq v[i] v'[i] = true else isClose v[i] v'[i] = true
  | _, _ => False

/-- Two arrays of the same length, or two leaves that are not both arrays. -/
def SameLength : Leaf K → Leaf K → Prop
  | .array _ _ _ v, .array _ _ _ v' => v.length = v'.length
  | _, _ => True

theorem leafClose_iff (a b : Leaf K) (hl : SameLength a b) : leafClose a b = true ↔ LeafAgree a b := by
  cases a with
  | number t v => cases b <;> simp [leafClose, LeafAgree]
  | array t d e v =>
    cases b with
    | number t' v' => simp [leafClose, LeafAgree]
    | array t' d' e' v' =>
      have hl' : v.length = v'.length := hl
      simp only [leafClose, LeafAgree, broadcast, hl', if_true, Bool.and_eq_true, beq_iff_eq, true_and, and_assoc]
      refine and_congr_right fun _ => and_congr_right fun _ => ?_
      rw [List.all_eq_true]
      constructor
      · intro h i h1 h2
        have := h (v[i], v'[i]) (by
          rw [List.mem_iff_getElem?]
          exact ⟨i, by rw [List.zip_eq_zipWith, List.getElem?_zipWith, List.getElem?_eq_getElem (by omega : i < v.length), List.getElem?_eq_getElem h2]⟩)
        by_cases he : e <;> simpa [he] using this
      · intro h p hp
        rw [List.mem_iff_getElem?] at hp
        obtain ⟨i, hi⟩ := hp
        rw [List.zip_eq_zipWith, List.getElem?_zipWith] at hi
        by_cases h1 : i < v.length
        · have h2 : i < v'.length := by omega
          rw [List.getElem?_eq_getElem h1, List.getElem?_eq_getElem h2] at hi
          simp only [Option.some.injEq] at hi
          subst hi
          have := h i (by omega) h2
          by_cases he : e <;> simpa [he] using this
        · rw [List.getElem?_eq_none (by omega)] at hi
          simp at hi

/-- C114: on trees whose paired arrays have the same lengths, the assertion passes exactly when the structures have the same name (if
checked), there are as many leaves, and the leaves agree one by one. -/
theorem C114_passes_iff {D : Type} (name name' : D → String) (check : Bool) (x y : D × List (Leaf K))
    (hl : ∀ p ∈ x.2.zip y.2, SameLength p.1 p.2) :
    treeClose name name' check x y = true ↔
      (check = true → name x.1 = name' y.1) ∧ x.2.length = y.2.length ∧
      ∀ i (h : i < x.2.length) (h' : i < y.2.length), LeafAgree x.2[i] y.2[i] := by
  unfold treeClose
  simp only [Bool.and_eq_true, Bool.or_eq_true, Bool.not_eq_true', beq_iff_eq, decide_eq_true_eq, and_assoc, List.all_eq_true]
  refine and_congr ?_ (and_congr_right fun hlen => ?_)
  · cases check <;> simp
  · have hz : ∀ p, p ∈ x.2.zip y.2 ↔ ∃ i, ∃ (h : i < x.2.length) (h' : i < y.2.length), p = (x.2[i], y.2[i]) := by
      intro p
      rw [List.mem_iff_getElem?]
      constructor
      · rintro ⟨i, hi⟩
        rw [List.zip_eq_zipWith, List.getElem?_zipWith] at hi
        by_cases h1 : i < x.2.length
        · have h2 : i < y.2.length := by omega
          rw [List.getElem?_eq_getElem h1, List.getElem?_eq_getElem h2] at hi
          exact ⟨i, h1, h2, by simpa using hi.symm⟩
        · rw [List.getElem?_eq_none (by omega)] at hi
          simp at hi
      · rintro ⟨i, h1, h2, rfl⟩
        exact ⟨i, by rw [List.zip_eq_zipWith, List.getElem?_zipWith, List.getElem?_eq_getElem h1, List.getElem?_eq_getElem h2]⟩
    constructor
    · intro h i h1 h2
      have hm := (hz (x.2[i], y.2[i])).mpr ⟨i, h1, h2, rfl⟩
      exact (leafClose_iff _ _ (hl _ hm)).mp (h _ hm)
    · intro h p hp
      obtain ⟨i, h1, h2, rfl⟩ := (hz p).mp hp
      exact (leafClose_iff _ _ (hl _ hp)).mpr (h i h1 h2)

/-- C114: lengths are not compared: one entry is close to any number of copies of it. -/
theorem C114_length_not_checked {D : Type} (name : D → String) (d : D) (check : Bool) (n : Nat) (v : K) :
    treeClose name name check (d, [.array "Array" "float32" false [.fin v]])
      (d, [.array "Array" "float32" false (List.replicate n (.fin v))]) = true := by
  have hc : isClose (Fl.fin v) (Fl.fin v) = true := by
    simp only [isClose, sub_self, abs_zero, decide_eq_true_eq]
    positivity
  have : leafClose (.array "Array" "float32" false [Fl.fin v]) (.array "Array" "float32" false (List.replicate n (.fin v))) = true := by
    simp only [leafClose, beq_self_eq_true, Bool.true_and, broadcast, List.length_replicate, List.length_singleton]
    by_cases hn : 1 = n
    · subst hn; simp [hc]
    · rw [if_neg hn]; simp [hc]
  simp [treeClose, this]

/-- C114: a tree is close to itself exactly when no float array of it contains NaN (and no Python number is NaN). -/
def NanFree : Leaf K → Prop
  | .number _ v => v ≠ .nan
  | .array _ _ _ v => .nan ∉ v

theorem C114_reflexive_iff {D : Type} (name : D → String) (check : Bool) (x : D × List (Leaf K)) :
    treeClose name name check x x = true ↔ ∀ l ∈ x.2, NanFree l := by
  have hself : ∀ l : Leaf K, SameLength l l := by intro l; cases l <;> simp [SameLength]
  have hz : ∀ p ∈ x.2.zip x.2, SameLength p.1 p.2 := by
    intro p hp
    obtain ⟨i, hi⟩ := List.mem_iff_getElem?.mp hp
    rw [List.zip_eq_zipWith, List.getElem?_zipWith] at hi
    cases h : x.2[i]? with
    | none => simp [h] at hi
    | some a => simp [h] at hi; subst hi; exact hself a
  rw [C114_passes_iff name name check x x hz]
  simp only [implies_true, true_and]
  have hfeq : ∀ v : Fl K, Fl.feq v v = true ↔ v ≠ .nan := by intro v; cases v <;> simp [Fl.feq]
  have hclose : ∀ v : Fl K, isClose v v = true ↔ v ≠ .nan := by
    intro v
    cases v with
    | fin a =>
      simp only [isClose, sub_self, abs_zero, decide_eq_true_eq, ne_eq, reduceCtorEq, not_false_eq_true, iff_true]
      positivity
    | _ => simp [isClose]
  have hl : ∀ l : Leaf K, LeafAgree l l ↔ NanFree l := by
    intro l
    cases l with
    | number t v => simp [LeafAgree, NanFree, hfeq]
    | array t d e v =>
      simp only [LeafAgree, NanFree, true_and]
      constructor
      · intro h hm
        obtain ⟨i, hi, he⟩ := List.getElem_of_mem hm
        have := h i hi hi
        rw [he] at this
        by_cases hx : e <;> simp [hx, Fl.feq, isClose] at this
      · intro h i h1 _
        have hne : v[i] ≠ .nan := fun e => h (e ▸ List.getElem_mem h1)
        by_cases hx : e <;> simp [hx, hfeq, hclose, hne]
  constructor
  · intro h l hm
    obtain ⟨i, hi, rfl⟩ := List.getElem_of_mem hm
    exact (hl _).mp (h i hi hi)
  · intro h i h1 _
    exact (hl _).mpr (h _ (List.getElem_mem h1))

/-- C114: the order of the arguments matters: the tolerance is relative to the second one. -/
theorem C114_not_symmetric : isClose (Fl.fin (1 : ℚ)) (.fin (1 + 1001 / 10 ^ 8 + 1 / 10 ^ 10)) = true ∧
    isClose (Fl.fin (1 + 1001 / 10 ^ 8 + 1 / 10 ^ 10 : ℚ)) (.fin 1) = false := by
  constructor <;> decide +kernel

end

/-! ## C115: dataset schemas and unique dtypes -/

/-- C115: for every dataset whose registered arrays round-trip through the encoder built for them: the check of `get_dataset_schema`
passes; exactly the variables and coordinates of a registered type get an encoder, the one built from their own values; and decoding
the dataset encoded with this schema gives the dataset back. -/
theorem C115_schema {V : Type} [DecidableEq V] (types : V → Option (Encoder V)) (check : Bool) (vars coords : List (String × V))
    (hnd : ((vars ++ coords).map Prod.fst).Nodup)
    (hrt : ∀ kv ∈ vars ++ coords, ∀ e, types kv.2 = some e → ∃ c, e.encode kv.2 = .ok c ∧ e.decode c = .ok kv.2) :
    ∃ encs, datasetSchema types check vars coords = .ok encs ∧ (∀ kv ∈ vars ++ coords, encs.lookup kv.1 = types kv.2) ∧
      ∃ ds', encodeDataset encs (vars ++ coords) = .ok ds' ∧ decodeDataset encs ds' = .ok (vars ++ coords) := by
  have hlook : ∀ (l : List (String × V)), (l.map Prod.fst).Nodup → ∀ kv ∈ l,
      (l.filterMap fun kv => (types kv.2).map fun e => (kv.1, e)).lookup kv.1 = types kv.2 := by
    intro l
    induction l with
    | nil => intro _ kv h; simp at h
    | cons a l ih =>
      obtain ⟨a1, a2⟩ := a
      intro hnd kv hkv
      simp only [List.map_cons, List.nodup_cons] at hnd
      have hnone : ∀ l' : List (String × V), a1 ∉ l'.map Prod.fst →
          (l'.filterMap fun kv => (types kv.2).map fun e => (kv.1, e)).lookup a1 = none := by
        intro l'
        induction l' with
        | nil => intro _; rfl
        | cons b l' ih' =>
          obtain ⟨b1, b2⟩ := b
          intro hb
          simp only [List.map_cons, List.mem_cons, not_or] at hb
          simp only [List.filterMap_cons]
          cases types b2 with
          | none => exact ih' hb.2
          | some e =>
            simp only [Option.map_some, List.lookup_cons, beq_eq_false_iff_ne.mpr hb.1]
            exact ih' hb.2
      rcases List.mem_cons.mp hkv with rfl | hkv
      · simp only [List.filterMap_cons]
        cases ht : types a2 with
        | none => simpa using hnone l hnd.1
        | some e => simp
      · have hne : kv.1 ≠ a1 := fun e => hnd.1 (e ▸ List.mem_map_of_mem (f := Prod.fst) hkv)
        simp only [List.filterMap_cons]
        cases ht : types a2 with
        | none => simpa using ih hnd.2 kv hkv
        | some e =>
          simp only [Option.map_some, List.lookup_cons, beq_eq_false_iff_ne.mpr hne]
          exact ih hnd.2 kv hkv
  have hcheck : ∀ l : List (String × V), (∀ kv ∈ l, ∀ e, types kv.2 = some e → ∃ c, e.encode kv.2 = .ok c ∧ e.decode c = .ok kv.2) →
      ∃ r, l.mapM (checkVar types) = .ok r := by
    intro l
    induction l with
    | nil => intro _; exact ⟨[], rfl⟩
    | cons a l ih =>
      intro h
      obtain ⟨r, hr⟩ := ih fun kv hkv => h kv (List.mem_cons_of_mem _ hkv)
      have ha : checkVar types a = .ok () := by
        unfold checkVar
        cases ht : types a.2 with
        | none => rfl
        | some e =>
          obtain ⟨c, h1, h2⟩ := h a List.mem_cons_self e ht
          simp [h1, h2]
      exact ⟨() :: r, by rw [List.mapM_cons, ha, hr]; rfl⟩
  refine ⟨_, ?_, hlook _ hnd, ?_⟩
  · unfold datasetSchema
    simp only
    split
    · obtain ⟨r, hr⟩ := hcheck _ hrt
      rw [hr]
    · rfl
  · obtain ⟨ds', h1, h2, -, -⟩ := C30_dataset_roundtrip ((vars ++ coords).filterMap fun kv => (types kv.2).map fun e => (kv.1, e))
      (vars ++ coords) (fun d v e hm hl => by
        rw [hlook _ hnd (d, v) hm] at hl
        exact hrt (d, v) hm e hl)
    exact ⟨ds', h1, h2⟩

/-- C115: with `check=True` a variable that does not round-trip makes the call raise. -/
theorem C115_check_detects {V : Type} [DecidableEq V] (types : V → Option (Encoder V)) (vars coords : List (String × V))
    (kv : String × V) (hm : kv ∈ vars ++ coords) (e : Encoder V) (he : types kv.2 = some e)
    (hbad : ¬ ∃ c, e.encode kv.2 = .ok c ∧ e.decode c = .ok kv.2) :
    ∃ x, datasetSchema types true vars coords = .error x := by
  have hc : ∃ x, checkVar types kv = .error x := by
    unfold checkVar
    simp only [he]
    cases h1 : e.encode kv.2 with
    | error x => exact ⟨x, rfl⟩
    | ok c =>
      simp only
      cases h2 : e.decode c with
      | error x => exact ⟨x, rfl⟩
      | ok v =>
        simp only
        by_cases hv : v = kv.2
        · exact absurd ⟨c, h1, hv ▸ h2⟩ hbad
        · exact ⟨.value, by rw [if_neg hv]⟩
  obtain ⟨x, hx⟩ := hc
  have : ∃ y, (vars ++ coords).mapM (checkVar types) = .error y := by
    revert hm
    generalize vars ++ coords = l
    intro hm
    induction l with
    | nil => simp at hm
    | cons a l ih =>
      rw [List.mapM_cons]
      rcases List.mem_cons.mp hm with rfl | hm
      · exact ⟨x, by rw [hx]; rfl⟩
      · cases ha : checkVar types a with
        | error y => exact ⟨y, rfl⟩
        | ok u =>
          obtain ⟨y, hy⟩ := ih hm
          exact ⟨y, by simp [hy, bind, Except.bind]⟩
  obtain ⟨y, hy⟩ := this
  exact ⟨y, by simp [datasetSchema, hy]⟩

/-- C115: `get_unique_dtype` returns `t` exactly when there is at least one leaf and all have dtype `t`; otherwise it raises. -/
theorem C115_unique_dtype {T : Type} [DecidableEq T] (dtypes : List T) (t : T) :
    uniqueDtype dtypes = .ok t ↔ dtypes ≠ [] ∧ ∀ s ∈ dtypes, s = t := by
  unfold uniqueDtype
  constructor
  · intro h
    split at h
    · rename_i t' hd
      cases h
      refine ⟨fun e => by simp [e] at hd, fun s hs => ?_⟩
      have : s ∈ dtypes.dedup := List.mem_dedup.mpr hs
      rw [hd] at this
      simpa using this
    · cases h
  · rintro ⟨hne, hall⟩
    have : dtypes.dedup = [t] := by
      have hn := List.nodup_dedup dtypes
      have hm : ∀ s ∈ dtypes.dedup, s = t := fun s hs => hall s (List.mem_dedup.mp hs)
      cases hd : dtypes.dedup with
      | nil =>
        exfalso
        obtain ⟨x, hx⟩ := List.exists_mem_of_ne_nil _ hne
        have := List.mem_dedup.mpr hx
        rw [hd] at this
        cases this
      | cons a l =>
        rw [hd] at hn hm
        have ha : a = t := hm a List.mem_cons_self
        cases l with
        | nil => rw [ha]
        | cons b l =>
          have hb : b = t := hm b (by simp)
          rw [ha, hb] at hn
          simp at hn
    rw [this]

example : uniqueDtype ["f32", "f32"] = .ok "f32" := by decide
example : ∃ e, uniqueDtype ["f32", "i32"] = .error e := ⟨(), by decide⟩

end Verif.Props
