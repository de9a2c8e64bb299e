import Verif.Model.Clients
import Verif.Props.Flow
import Verif.Props.VizNested

/-! # C174: results of nested-graph analyses;  C175: browsers of the dashboard -/

set_option linter.unusedSectionVars false

namespace Verif.Props
open Verif Model.Clients Model.Flow Model.Viz

/-! ## C175 -/

section
variable {I V : Type} [DecidableEq I]

/-- Specification: a session is connected after a history: it connected, and did not disconnect since. -/
def ConnectedAfter (i : I) (ops : List (Model.Clients.Op I V)) : Prop :=
  ∃ a b, ops = a ++ .connect i :: b ∧ .disconnect i ∉ b

/-- Specification: the number of steps a pipeline made since its last registration; `none` if it was never registered. -/
def stepsRegistered (pid : String) (ops : List (Model.Clients.Op I V)) : Option Nat :=
  ops.foldl (fun acc o => match o with
    | .register p _ => if p = pid then some 0 else acc
    | .step p => if p = pid then acc.map (· + 1) else acc
    | _ => acc) none

/-- Specification: the alert a reading above a threshold gives. -/
def alertFor (cfg : DashConfig) (pid kind : String) (threshold : Rat) (x : Option Rat) (now : Rat) (l : List (Msg V)) : Prop :=
  (∀ v, x = some v → cfg.enableAlerts = true → threshold < v → l = [.alert ⟨now, kind, pid, v⟩]) ∧
  ((x = none ∨ cfg.enableAlerts = false ∨ ∃ v, x = some v ∧ ¬ threshold < v) → l = [])

theorem alertFor_alertOf (cfg : DashConfig) (pid kind : String) (threshold : Rat) (x : Option Rat) (now : Rat) :
    alertFor (V := V) cfg pid kind threshold x now (alertOf cfg pid kind threshold x now) := by
  cases x with
  | none => exact ⟨by simp, by simp [alertOf]⟩
  | some v =>
    refine ⟨?_, ?_⟩
    · rintro w hw h1 h2
      cases hw
      simp [alertOf, h1, h2]
    · rintro (h | h | ⟨w, hw, h⟩)
      · simp at h
      · simp [alertOf, h]
      · cases hw; simp only [alertOf]; rw [if_neg (by simp [h])]

/-- The state after a history. -/
def serverAfter (cfg : DashConfig) (ops : List (Model.Clients.Op I V)) : Server I V := (Server.new.run cfg ops).1

theorem run_append (cfg : DashConfig) (a b : List (Model.Clients.Op I V)) : ∀ s : Server I V,
    Server.run cfg s (a ++ b) = ((Server.run cfg (Server.run cfg s a).1 b).1, (Server.run cfg s a).2 ++ (Server.run cfg (Server.run cfg s a).1 b).2) := by
  induction a with
  | nil => intro s; rfl
  | cons o a ih => intro s; simp only [List.cons_append, Server.run, ih]

theorem serverAfter_snoc (cfg : DashConfig) (ops : List (Model.Clients.Op I V)) (o : Model.Clients.Op I V) :
    serverAfter cfg (ops ++ [o]) = ((serverAfter cfg ops).op cfg o).1 := by
  simp only [serverAfter, run_append, Server.run]

theorem run_length (cfg : DashConfig) (ops : List (Model.Clients.Op I V)) : ∀ s : Server I V, (Server.run cfg s ops).2.length = ops.length := by
  induction ops with
  | nil => intro s; rfl
  | cons o a ih => intro s; simp only [Server.run, List.length_cons, ih]

theorem connected_snoc (i : I) (ops : List (Model.Clients.Op I V)) (o : Model.Clients.Op I V) :
    ConnectedAfter i (ops ++ [o]) ↔ o = .connect i ∨ (ConnectedAfter i ops ∧ o ≠ .disconnect i) := by
  constructor
  · rintro ⟨a, b, h, hb⟩
    rcases List.eq_nil_or_concat b with rfl | ⟨b', o', rfl⟩
    · have := List.append_inj' h rfl
      simp only [List.cons.injEq, and_true] at this
      exact Or.inl this.2
    · rw [List.concat_eq_append] at h hb
      rw [← List.cons_append, ← List.append_assoc] at h
      have := List.append_inj' h rfl
      simp only [List.cons.injEq, and_true] at this
      refine Or.inr ⟨⟨a, b', this.1, fun hm => hb (by simp [hm])⟩, ?_⟩
      rw [this.2]
      rintro rfl
      exact hb (by simp)
  · rintro (rfl | ⟨⟨a, b, rfl, hb⟩, ho⟩)
    · exact ⟨ops, [], rfl, by simp⟩
    · exact ⟨a, b ++ [o], by simp, by simp [hb, Ne.symm ho]⟩

theorem tracker_record_steps (t : Tracker V) (m ty : String) (v : V) (now : Rat) : (t.record m ty v now).stepCount = t.stepCount := rfl

theorem updateMetrics_trackers (cfg : DashConfig) (d : Dash V) (pid : String) (md : Meta) (now : Rat) :
    (Dash.updateMetrics cfg d pid md now).trackers = d.trackers ∧ (Dash.updateMetrics cfg d pid md now).calls = d.calls := by
  have hr : ∀ (d : Dash V) s k th x, (Dash.reading cfg d pid s k th x now).trackers = d.trackers ∧
      (Dash.reading cfg d pid s k th x now).calls = d.calls := by
    intro d s k th x
    cases x <;> exact ⟨rfl, rfl⟩
  simp only [Dash.updateMetrics, hr, and_self]

/-- The state after any history. -/
theorem server_state (cfg : DashConfig) (ops : List (Model.Clients.Op I V)) :
    (∀ i, i ∈ (serverAfter cfg ops).clients ↔ ConnectedAfter i ops) ∧ (serverAfter cfg ops).clients.Nodup ∧
    (∀ pid, ((serverAfter cfg ops).dash.trackers.lookup pid).map Tracker.stepCount = stepsRegistered pid ops) ∧
    (∀ pid, ((serverAfter cfg ops).dash.calls.lookup pid).isSome = (stepsRegistered pid ops).isSome) := by
  induction ops using List.reverseRecOn with
  | nil =>
    refine ⟨fun i => ?_, List.nodup_nil, fun pid => rfl, fun pid => rfl⟩
    simp only [serverAfter, Server.run, Server.new, List.not_mem_nil, false_iff]
    rintro ⟨a, b, h, _⟩
    simp at h
  | append_singleton ops o ih =>
    obtain ⟨h1, h2, h3, h4⟩ := ih
    rw [serverAfter_snoc]
    generalize serverAfter cfg ops = s at *
    have hsteps : ∀ pid, stepsRegistered pid (ops ++ [o]) = match o with
      | .register p _ => if p = pid then some 0 else stepsRegistered pid ops
      | .step p => if p = pid then (stepsRegistered pid ops).map (· + 1) else stepsRegistered pid ops
      | _ => stepsRegistered pid ops := by
      intro pid
      simp only [stepsRegistered, List.foldl_append, List.foldl_cons, List.foldl_nil]
    simp only [connected_snoc, hsteps]
    cases o with
    | connect j =>
      refine ⟨fun i => ?_, ?_, h3, h4⟩
      · simp only [Server.op]
        by_cases hj : j ∈ s.clients
        · rw [if_pos hj, h1]
          constructor
          · intro h; exact Or.inr ⟨h, by simp⟩
          · rintro (h | h)
            · cases h; exact (h1 _).1 hj
            · exact h.1
        · rw [if_neg hj, List.mem_append, h1, List.mem_singleton]
          constructor
          · rintro (h | rfl)
            · exact Or.inr ⟨h, by simp⟩
            · exact Or.inl rfl
          · rintro (h | h)
            · cases h; exact Or.inr rfl
            · exact Or.inl h.1
      · simp only [Server.op]
        split
        · exact h2
        · rename_i hj
          rw [List.nodup_append]
          exact ⟨h2, by simp, by simp only [List.mem_singleton]; rintro a ha b rfl rfl; exact hj ha⟩
    | disconnect j =>
      refine ⟨fun i => ?_, h2.filter _, h3, h4⟩
      simp only [Server.op, List.mem_filter, decide_eq_true_eq, h1]
      simp [eq_comm]
    | subscribe j pid => exact ⟨fun i => by simp [Server.op, h1], h2, h3, h4⟩
    | register p now =>
      refine ⟨fun i => by simp [Server.op, h1], h2, fun pid => ?_, fun pid => ?_⟩
      · simp only [Server.op, Dash.register, dictSet_lookup]
        by_cases hp : pid = p
        · subst hp; simp [Tracker.new]
        · rw [if_neg hp, if_neg (fun h => hp h.symm)]; exact h3 pid
      · simp only [Server.op, Dash.register, dictSet_lookup]
        by_cases hp : pid = p
        · subst hp; simp
        · rw [if_neg hp, if_neg (fun h => hp h.symm)]; exact h4 pid
    | record p m ty v md now =>
      refine ⟨fun i => by simp [Server.op, h1], h2, fun pid => ?_, fun pid => ?_⟩
      · simp only [Server.op, Dash.record]
        cases ht : s.dash.trackers.lookup p with
        | none => exact h3 pid
        | some t =>
          simp only [(updateMetrics_trackers cfg _ p md now).1, dictSet_lookup]
          by_cases hp : pid = p
          · subst hp
            rw [if_pos rfl, ← h3, ht]; rfl
          · rw [if_neg hp]; exact h3 pid
      · simp only [Server.op, Dash.record]
        cases ht : s.dash.trackers.lookup p with
        | none => exact h4 pid
        | some t => rw [(updateMetrics_trackers cfg _ p md now).2]; exact h4 pid
    | step p =>
      refine ⟨fun i => by simp [Server.op, h1], h2, fun pid => ?_, fun pid => ?_⟩
      · have htr : (Dash.step s.dash p).trackers = match s.dash.trackers.lookup p with
            | none => s.dash.trackers
            | some t => Model.Events.dictSet s.dash.trackers p t.step := by
          unfold Dash.step
          cases s.dash.trackers.lookup p <;> simp only <;> cases s.dash.calls.lookup p <;> rfl
        simp only [Server.op, htr]
        cases ht : s.dash.trackers.lookup p with
        | none =>
          simp only [h3]
          split
          · rename_i hp; subst hp; rw [← h3, ht]; rfl
          · rfl
        | some t =>
          simp only [dictSet_lookup]
          by_cases hp : pid = p
          · subst hp
            rw [if_pos rfl, if_pos rfl, ← h3, ht]; rfl
          · rw [if_neg hp, if_neg (fun h => hp h.symm)]; exact h3 pid
      · have hcl : ((Dash.step s.dash p).calls.lookup pid).isSome = (s.dash.calls.lookup pid).isSome := by
          have : (Dash.step s.dash p).calls = match s.dash.calls.lookup p with
              | none => s.dash.calls
              | some n => Model.Events.dictSet s.dash.calls p (n + 1) := by
            unfold Dash.step
            cases s.dash.trackers.lookup p <;> simp only <;> cases s.dash.calls.lookup p <;> rfl
          rw [this]
          cases hc : s.dash.calls.lookup p with
          | none => rfl
          | some n =>
            simp only [dictSet_lookup]
            by_cases hp : pid = p
            · subst hp; simp [hc]
            · rw [if_neg hp]
        simp only [Server.op, hcl, h4]
        split <;> simp

/-- C175: the browsers connected are those that connected and did not disconnect since, each once. -/
theorem C175_connected (cfg : DashConfig) (ops : List (Model.Clients.Op I V)) :
    (∀ i, i ∈ (Server.new.run cfg ops).1.clients ↔ ConnectedAfter i ops) ∧ (Server.new.run cfg ops).1.clients.Nodup :=
  ⟨(server_state cfg ops).1, (server_state cfg ops).2.1⟩

/-- The messages delivered at an operation. -/
theorem delivered_at (cfg : DashConfig) (a b : List (Model.Clients.Op I V)) (o : Model.Clients.Op I V) :
    ((Server.new (I := I) (V := V)).run cfg (a ++ o :: b)).2[a.length]? = some ((serverAfter cfg a).op cfg o).2 := by
  rw [run_append]
  simp only [Server.run]
  rw [List.getElem?_append_right (by rw [run_length]), run_length]
  simp [serverAfter]

/-- C175, what holds: when a datum of a registered pipeline is recorded, every browser connected at that time gets, once, the alerts
it raises and then the datum, with its time and the number of steps since the pipeline was registered; other browsers get nothing;
for a pipeline that is not registered nothing is sent. -/
theorem C175_delivery_partial (cfg : DashConfig) (a b : List (Model.Clients.Op I V)) (pid m ty : String) (v : V) (md : Meta) (now : Rat) :
    ∃ (ds : List (I × Msg V)) (slow high : List (Msg V)), (Server.new.run cfg (a ++ .record pid m ty v md now :: b)).2[a.length]? = some ds ∧
      alertFor cfg pid "performance" cfg.perfThreshold md.execTime now slow ∧ alertFor cfg pid "memory" cfg.memThreshold md.memory now high ∧
      (∀ i, ¬ ConnectedAfter i a → ∀ d ∈ ds, d.1 ≠ i) ∧
      (∀ i, ConnectedAfter i a → ∀ n, stepsRegistered pid a = some n →
        (ds.filter fun d => d.1 = i).map Prod.snd = slow ++ high ++ [.update pid m ty v now n]) ∧
      (stepsRegistered pid a = none → ds = []) := by
  refine ⟨_, alertOf cfg pid "performance" cfg.perfThreshold md.execTime now, alertOf cfg pid "memory" cfg.memThreshold md.memory now,
    delivered_at cfg a b _, alertFor_alertOf .., alertFor_alertOf .., ?_⟩
  obtain ⟨h1, h2, h3, h4⟩ := server_state cfg a
  generalize serverAfter cfg a = s at *
  have hb : ∀ (msgs : List (Msg V)) (i : I), i ∈ s.clients →
      ((msgs.flatMap (broadcast s.clients)).filter fun d => d.1 = i).map Prod.snd = msgs := by
    intro msgs i hi
    induction msgs with
    | nil => rfl
    | cons x l ih =>
      have hx : ((broadcast s.clients x).filter fun d => d.1 = i).map Prod.snd = [x] := by
        have : ∀ cl : List I, cl.Nodup → i ∈ cl → ((broadcast cl x).filter fun d => d.1 = i) = [(i, x)] := by
          intro cl
          induction cl with
          | nil => intro _ h; simp at h
          | cons j cl ih =>
            intro hn hm
            rw [List.nodup_cons] at hn
            simp only [broadcast, List.map_cons, List.filter_cons]
            by_cases hj : j = i
            · subst hj
              have : (cl.map fun i => (i, x)).filter (fun d => decide (d.1 = j)) = [] := by
                rw [List.filter_eq_nil_iff]
                rintro ⟨k, y⟩ hk
                simp only [List.mem_map, Prod.mk.injEq] at hk
                obtain ⟨k', hk', rfl, rfl⟩ := hk
                simp only [decide_eq_true_eq]
                rintro rfl
                exact hn.1 hk'
              simp [this]
            · have hm' : i ∈ cl := by
                rcases List.mem_cons.1 hm with h | h
                · exact absurd h.symm hj
                · exact h
              simp only [hj, decide_false, Bool.false_eq_true, if_false]
              exact ih hn.2 hm'
        rw [this _ h2 hi]; rfl
      simp only [List.flatMap_cons, List.filter_append, List.map_append, hx, ih]
      rfl
  simp only [Server.op]
  refine ⟨fun i hi d hd => ?_, fun i hi n hn => ?_, fun hn => ?_⟩
  · cases ht : s.dash.trackers.lookup pid with
    | none => rw [ht] at hd; simp at hd
    | some t =>
      rw [ht] at hd
      simp only [List.mem_flatMap, broadcast, List.mem_map] at hd
      obtain ⟨_, _, j, hj, rfl⟩ := hd
      rintro rfl
      exact hi ((h1 _).1 hj)
  · have := h3 pid
    rw [hn] at this
    cases ht : s.dash.trackers.lookup pid with
    | none => rw [ht] at this; simp at this
    | some t =>
      rw [ht] at this
      simp only [Option.map_some, Option.some.injEq] at this
      simp only
      rw [hb _ i ((h1 i).2 hi), recordMsgs, this]
  · have := h3 pid
    rw [hn] at this
    cases ht : s.dash.trackers.lookup pid with
    | none => rfl
    | some t => rw [ht] at this; simp at this

/-- Replies to subscriptions. -/
def isReply : Msg V → Bool
  | .subscribed _ => true
  | .notFound _ => true
  | _ => false

def isSubscribe : Model.Clients.Op I V → Bool
  | .subscribe _ _ => true
  | _ => false

/-- C175: a subscription is answered, to the browser that asked, according to whether the pipeline is registered. -/
theorem C175_subscribe_answer (cfg : DashConfig) (a b : List (Model.Clients.Op I V)) (i : I) (pid : String) :
    (Server.new.run cfg (a ++ .subscribe i pid :: b)).2[a.length]? =
      some [(i, if (stepsRegistered pid a).isSome then Msg.subscribed pid else .notFound pid)] := by
  rw [delivered_at]
  simp only [Server.op, (server_state cfg a).2.2.2]

/-- C175 fails: subscriptions have no effect: apart from the replies to them, the messages every browser gets are the same without
them.  So browsers get the data of pipelines to which they did not subscribe. -/
theorem C175_subscriptions_ignored (cfg : DashConfig) (ops : List (Model.Clients.Op I V)) :
    (Server.new.run cfg ops).2.flatten.filter (fun d => !isReply d.2) =
      (Server.new.run cfg (ops.filter fun o => !isSubscribe o)).2.flatten := by
  have key : ∀ (ops : List (Model.Clients.Op I V)) (s : Server I V),
      (Server.run cfg s ops).2.flatten.filter (fun d => !isReply d.2) =
        (Server.run cfg s (ops.filter fun o => !isSubscribe o)).2.flatten := by
    intro ops
    induction ops with
    | nil => intro s; rfl
    | cons o ops ih =>
      intro s
      simp only [Server.run, List.flatten_cons, List.filter_append, ih]
      have hal : ∀ pid k th x now, ∀ y ∈ alertOf (V := V) cfg pid k th x now, isReply y = false := by
        intro pid k th x now y hy
        cases x with
        | none => simp [alertOf] at hy
        | some x =>
          simp only [alertOf] at hy
          split at hy
          · simp only [List.mem_singleton] at hy; subst hy; rfl
          · simp at hy
      cases o with
      | subscribe i pid =>
        simp only [Server.op, List.filter_cons, isSubscribe, Bool.not_true, Bool.false_eq_true, if_false]
        split <;> simp [isReply]
      | connect i => simp [Server.op, isSubscribe, isReply, Server.run]
      | disconnect i => simp [Server.op, isSubscribe, Server.run]
      | register p now => simp [Server.op, isSubscribe, Server.run]
      | step p => simp [Server.op, isSubscribe, Server.run]
      | record p m ty v md now =>
        simp only [List.filter_cons, isSubscribe, Bool.not_false, if_true, Server.run, List.flatten_cons]
        congr 1
        rw [List.filter_eq_self]
        intro d hd
        simp only [Server.op] at hd
        cases ht : s.dash.trackers.lookup p with
        | none => rw [ht] at hd; simp at hd
        | some t =>
          rw [ht] at hd
          simp only [List.mem_flatMap, broadcast, List.mem_map] at hd
          obtain ⟨x, hx, j, _, rfl⟩ := hd
          simp only [recordMsgs, List.mem_append, List.mem_singleton] at hx
          rcases hx with (hx | hx) | rfl
          · simp [hal _ _ _ _ _ x hx]
          · simp [hal _ _ _ _ _ x hx]
          · rfl
  exact key ops Server.new

/-- Non-vacuity: a browser subscribed to `p` also gets the data of `q`, and the alert. -/
example : ((Server.new (I := Nat) (V := Nat)).run {} [.register "p" 0, .register "q" 0, .connect 1, .subscribe 1 "p", .step "q",
      .record "q" "m" "input" 7 { execTime := some 200 } 3, .disconnect 1, .record "p" "m" "input" 8 {} 4]).2.map (fun l => l.map Prod.fst) =
    [[], [], [1], [1], [], [1, 1], [], []] := by decide +kernel

end

/-! ## C174 -/

/-- C174, what holds: a result is the analysis of the function, as long as the same analyser makes no other analysis: analyses by other
analysers do not change it. -/
theorem C174_other_analysers_partial (auto₁ auto₂ : Bool) (min₁ min₂ fuel₁ fuel₂ : Nat) (mem m₁ m₂ : Memory) (a b r₁ r₂ : Nat)
    (g₁ g₂ : Graph) (acc₁ acc₂ : List (Key × Nat)) (ha : a < mem.length) (hab : a ≠ b)
    (h₁ : analyseWith auto₁ min₁ fuel₁ mem a g₁ = some (m₁, r₁, acc₁)) (h₂ : analyseWith auto₂ min₂ fuel₂ m₁ b g₂ = some (m₂, r₂, acc₂)) :
    ∃ h, analyzeNested auto₁ min₁ fuel₁ g₁ = some (h, acc₁) ∧ m₁[r₁]? = some h ∧ m₂[r₁]? = some h := by
  simp only [analyseWith, Option.map_eq_some_iff, Prod.mk.injEq] at h₁ h₂
  obtain ⟨⟨h, acc⟩, e₁, rfl, rfl, rfl⟩ := h₁
  obtain ⟨⟨h', acc'⟩, e₂, rfl, rfl, rfl⟩ := h₂
  refine ⟨h, e₁, by simp [ha], ?_⟩
  rw [List.getElem?_set_ne (fun e => hab e.symm)]
  simp [ha]

/-- C174 fails: the next analysis with the same analyser replaces the contents of the result of the previous one, because both are
the same dictionary. -/
theorem C174_result_overwritten (auto : Bool) (minNodes fuel : Nat) (mem m₁ m₂ : Memory) (a r₁ r₂ : Nat) (g₁ g₂ : Graph)
    (acc₁ acc₂ : List (Key × Nat)) (ha : a < mem.length) (h₁ : analyseWith auto minNodes fuel mem a g₁ = some (m₁, r₁, acc₁))
    (h₂ : analyseWith auto minNodes fuel m₁ a g₂ = some (m₂, r₂, acc₂)) :
    r₁ = r₂ ∧ ∃ h, analyzeNested auto minNodes fuel g₂ = some (h, acc₂) ∧ m₂[r₁]? = some h := by
  simp only [analyseWith, Option.map_eq_some_iff, Prod.mk.injEq] at h₁ h₂
  obtain ⟨⟨h, acc⟩, e₁, rfl, rfl, rfl⟩ := h₁
  obtain ⟨⟨h', acc'⟩, e₂, rfl, rfl, rfl⟩ := h₂
  exact ⟨rfl, h', e₂, by simp [ha]⟩

/-- C174 fails for summaries: after a second summary from the same visualizer, the numbers of the first summary still describe the
first function, but its `hierarchy` describes the second. -/
theorem C174_summary_overwritten (auto : Bool) (minNodes fuel : Nat) (mem m₁ m₂ : Memory) (a : Nat) (s₁ s₂ : Summary) (g₁ g₂ : Graph)
    (ha : a < mem.length) (h₁ : summaryWith auto minNodes fuel mem a g₁ = some (m₁, s₁))
    (h₂ : summaryWith auto minNodes fuel m₁ a g₂ = some (m₂, s₂)) :
    ∃ d₁ acc₁ d₂ acc₂, analyzeNested auto minNodes fuel g₁ = some (d₁, acc₁) ∧ analyzeNested auto minNodes fuel g₂ = some (d₂, acc₂) ∧
      s₁.numbers = summary d₁ acc₁ ∧ m₁[s₁.hierarchy]? = some d₁ ∧ m₂[s₁.hierarchy]? = some d₂ := by
  simp only [summaryWith, analyseWith, Option.map_map, Option.map_eq_some_iff, Function.comp, Prod.mk.injEq] at h₁ h₂
  obtain ⟨⟨d₁, acc₁⟩, e₁, rfl, rfl⟩ := h₁
  obtain ⟨⟨d₂, acc₂⟩, e₂, rfl, rfl⟩ := h₂
  refine ⟨d₁, acc₁, d₂, acc₂, e₁, e₂, ?_, by simp [ha], by simp [ha]⟩
  simp [List.getD_eq_getElem?_getD, ha]

/-- Non-vacuity: a function with two modules, then one with none: the first summary says three nodes, its dictionary has one. -/
example :
    let m0 := newAnalyser []
    let g₁ := analyzeFlax (fun _ _ => false) "f".toList (.params [("ema".toList, .dict [("alpha".toList, .other)]),
      ("lin".toList, .dict [("bias".toList, .other)])]) Graph.empty
    let g₂ := analyzePlain "g".toList Graph.empty
    ((summaryWith false 2 100 m0.1 m0.2 g₁).bind fun r₁ => (summaryWith false 2 100 r₁.1 m0.2 g₂).map fun r₂ =>
      (r₁.2.numbers.1, (r₂.1.getD r₁.2.hierarchy []).length)) = some (3, 1) := by decide +kernel

end Verif.Props
