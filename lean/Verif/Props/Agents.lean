import Verif.Model.Agents

/-! # Property C167: HaikuAgent and HaikuEnv objects, their keys and their resets -/

set_option linter.unusedSectionVars false

namespace Verif.Props
open Verif.Model.Agents
variable {Key P S In Out Obs Act Rw Info Raw : Type}

/-- A transformed function that never raises. -/
def totalFn (init : Key → In → P × S) (apply : P → S → Key → In → Out × S) : Transformed Key P S In Out :=
  ⟨fun k x => some (init k x), fun p s k x => some (apply p s k x)⟩

/-- The transformed function runs over `xs` from state `s`, its `t`-th call using key number `d + t`. -/
def RunsFrom (keys : Nat → Key) (apply : P → S → Key → In → Out × S) (p : P) (s : S) (d : Nat) (xs : List In) (ys : List Out) : Prop :=
  ys.length = xs.length ∧ ∃ ss : Nat → S, ss 0 = s ∧
    ∀ (t : Nat) (x : In), xs[t]? = some x → ∃ y, ys[t]? = some y ∧ apply p (ss t) (keys (d + t)) x = (y, ss (t + 1))

/-- One episode: parameters and state come from `init` on the first input with key number `b`, then the calls use the next keys. -/
def IsEpisode (keys : Nat → Key) (init : Key → In → P × S) (apply : P → S → Key → In → Out × S) (b : Nat) (xs : List In)
    (ys : List Out) : Prop :=
  match xs with
  | [] => ys = []
  | x :: _ => RunsFrom keys apply (init (keys b) x).1 (init (keys b) x).2 (b + 1) xs ys

theorem runsFrom_nil (keys : Nat → Key) (apply : P → S → Key → In → Out × S) (p : P) (s : S) (d : Nat) :
    RunsFrom keys apply p s d [] [] := ⟨rfl, fun _ => s, rfl, by simp⟩

theorem runsFrom_cons (keys : Nat → Key) (apply : P → S → Key → In → Out × S) (p : P) (s : S) (d : Nat) (x : In) (xs : List In)
    (y : Out) (s' : S) (ys : List Out) (h : apply p s (keys d) x = (y, s')) (hr : RunsFrom keys apply p s' (d + 1) xs ys) :
    RunsFrom keys apply p s d (x :: xs) (y :: ys) := by
  obtain ⟨hl, ss, h0, hs⟩ := hr
  refine ⟨by simp [hl], fun t => if t = 0 then s else ss (t - 1), by simp, ?_⟩
  intro t x' hx
  cases t with
  | zero =>
    simp only [List.getElem?_cons_zero, Option.some.injEq] at hx
    subst hx
    exact ⟨y, by simp, by simp [h, h0]⟩
  | succ t =>
    rw [List.getElem?_cons_succ] at hx
    obtain ⟨y', h1, h2⟩ := hs t x' hx
    refine ⟨y', by simpa using h1, ?_⟩
    have e : d + (t + 1) = d + 1 + t := by omega
    simp only [Nat.add_sub_cancel, Nat.succ_ne_zero, if_false, e, h2]

/-! ## The agent -/

section AgentObject
variable (keys : Nat → Key)

theorem agent_run_append (f : Transformed Key P S Obs Act) (a : Agent P S) (l l' : List (AgentOp Obs)) :
    Agent.run keys f a (l ++ l') = ((Agent.run keys f a l).1 ++ (Agent.run keys f (Agent.run keys f a l).2 l').1,
      (Agent.run keys f (Agent.run keys f a l).2 l').2) := by
  induction l generalizing a with
  | nil => simp [Agent.run]
  | cons op l ih => cases op <;> simp [Agent.run, ih]

/-- The same agent as one that has drawn `d` keys fewer, with the keys shifted. -/
theorem agent_shift (f : Transformed Key P S Obs Act) (d : Nat) (a : Agent P S) (ops : List (AgentOp Obs)) :
    (Agent.run keys f ⟨a.drawn + d, a.vars⟩ ops).1 = (Agent.run (fun n => keys (n + d)) f a ops).1 ∧
    (Agent.run keys f ⟨a.drawn + d, a.vars⟩ ops).2 = ⟨(Agent.run (fun n => keys (n + d)) f a ops).2.drawn + d,
      (Agent.run (fun n => keys (n + d)) f a ops).2.vars⟩ := by
  induction ops generalizing a with
  | nil => exact ⟨rfl, rfl⟩
  | cons op ops ih =>
    cases op with
    | reset => exact ih a.reset
    | call obs =>
      have hact : ∀ a : Agent P S, (Agent.act keys f ⟨a.drawn + d, a.vars⟩ obs) =
          ((Agent.act (fun n => keys (n + d)) f a obs).1, ⟨(Agent.act (fun n => keys (n + d)) f a obs).2.drawn + d,
            (Agent.act (fun n => keys (n + d)) f a obs).2.vars⟩) := by
        intro a
        obtain ⟨n, v⟩ := a
        unfold Agent.act
        cases v with
        | none => rfl
        | some v =>
          obtain ⟨p, s⟩ := v
          simp only
          cases f.apply p s (keys (n + d)) obs with
          | none => simp only; congr 2; omega
          | some y => simp only; congr 2; omega
      have hcall : (Agent.call keys f ⟨a.drawn + d, a.vars⟩ obs) =
          ((Agent.call (fun n => keys (n + d)) f a obs).1, ⟨(Agent.call (fun n => keys (n + d)) f a obs).2.drawn + d,
            (Agent.call (fun n => keys (n + d)) f a obs).2.vars⟩) := by
        obtain ⟨n, v⟩ := a
        unfold Agent.call
        cases v with
        | some v => exact hact _
        | none =>
          simp only [Agent.initialize]
          rcases Option.eq_none_or_eq_some (f.init (keys (n + d)) obs) with hf | ⟨v, hf⟩
          · simp only [hf, Bool.false_eq_true, if_false]; congr 2; omega
          · simp only [hf, if_true]
            have := hact ⟨n + 1, some v⟩
            simp only at this
            rw [show n + d + 1 = n + 1 + d by omega]
            exact this
      simp only [Agent.run, hcall]
      obtain ⟨h1, h2⟩ := ih (Agent.call (fun n => keys (n + d)) f a obs).2
      exact ⟨by rw [h1], h2⟩

/-- C167: after a reset an agent behaves exactly as a new one, whatever happened before (exceptions included), except that the random
keys go on from where they were: a reset does not reseed. -/
theorem C167_agent_reset (f : Transformed Key P S Obs Act) (before after : List (AgentOp Obs)) :
    ∃ d, (Agent.run keys f Agent.new (before ++ .reset :: after)).1 =
      (Agent.run keys f Agent.new before).1 ++ (Agent.run (fun n => keys (n + d)) f Agent.new after).1 ∧
      d = (Agent.run keys f Agent.new before).2.drawn := by
  refine ⟨_, ?_, rfl⟩
  rw [agent_run_append]
  simp only
  congr 1
  have := (agent_shift keys f (Agent.run keys f Agent.new before).2.drawn (Agent.new : Agent P S) after).1
  rw [← this]
  simp [Agent.run, Agent.reset, Agent.new]

/-- C167: a function that does not use its keys is thus back at its start after each reset. -/
theorem C167_agent_reset_deterministic (f : Transformed Key P S Obs Act) (hi : ∀ k k', f.init k = f.init k')
    (ha : ∀ p s k k', f.apply p s k = f.apply p s k') (before after : List (AgentOp Obs)) :
    (Agent.run keys f Agent.new (before ++ .reset :: after)).1 =
      (Agent.run keys f Agent.new before).1 ++ (Agent.run keys f Agent.new after).1 := by
  obtain ⟨d, h, -⟩ := C167_agent_reset keys f before after
  rw [h]
  clear h
  congr 1
  have : ∀ (keys' : Nat → Key) (a : Agent P S), Agent.run keys f a after = Agent.run keys' f a after := by
    intro keys'
    induction after with
    | nil => intro a; rfl
    | cons op ops ih =>
      intro a
      cases op with
      | reset => exact ih _
      | call obs =>
        have e : Agent.call keys f a obs = Agent.call keys' f a obs := by
          have e0 : ∀ a : Agent P S, Agent.act keys f a obs = Agent.act keys' f a obs := by
            intro a
            unfold Agent.act
            cases a.vars with
            | none => rfl
            | some v => simp only [ha v.1 v.2 (keys a.drawn) (keys' a.drawn)]
          unfold Agent.call
          cases a.vars with
          | some v => exact e0 a
          | none =>
            have ei : Agent.initialize keys f a obs = Agent.initialize keys' f a obs := by
              simp only [Agent.initialize, hi (keys a.drawn) (keys' a.drawn)]
            simp only [ei, e0]
        simp only [Agent.run, e, ih]
  rw [this (fun n => keys (n + d))]

theorem agent_runs (init : Key → Obs → P × S) (apply : P → S → Key → Obs → Act × S) (p : P) (s : S) (d : Nat) (xs : List Obs) :
    ∃ ys s', Agent.run keys (totalFn init apply) ⟨d, some (p, s)⟩ (xs.map .call) =
        (ys.map some, ⟨d + xs.length, some (p, s')⟩) ∧ RunsFrom keys apply p s d xs ys := by
  induction xs generalizing s d with
  | nil => exact ⟨[], s, rfl, runsFrom_nil ..⟩
  | cons x xs ih =>
    obtain ⟨ys, s', h1, h2⟩ := ih (apply p s (keys d) x).2 (d + 1)
    refine ⟨(apply p s (keys d) x).1 :: ys, s', ?_, runsFrom_cons _ _ _ _ _ _ _ _ _ _ rfl h2⟩
    simp only [List.map_cons, Agent.run, Agent.call, Agent.act, totalFn]
    simp only [totalFn] at h1
    rw [h1]
    simp only [List.length_cons]
    congr 2
    omega

/-- C167: a history of calls on a new agent: the parameters and the state come from `init` on the first observation with the first key,
then the `t`-th observation is answered by `apply` with the state left by the calls before and the next key. -/
theorem C167_agent_episode (init : Key → Obs → P × S) (apply : P → S → Key → Obs → Act × S) (xs : List Obs) :
    ∃ ys, (Agent.run keys (totalFn init apply) Agent.new (xs.map .call)).1 = ys.map some ∧ IsEpisode keys init apply 0 xs ys ∧
      (Agent.run keys (totalFn init apply) Agent.new (xs.map .call)).2.drawn = if xs = [] then 0 else xs.length + 1 := by
  cases xs with
  | nil => exact ⟨[], rfl, rfl, rfl⟩
  | cons x xs =>
    obtain ⟨ys, s', h1, h2⟩ := agent_runs keys init apply (init (keys 0) x).1 (init (keys 0) x).2 1 (x :: xs)
    have e : Agent.run keys (totalFn init apply) Agent.new ((x :: xs).map .call) =
        Agent.run keys (totalFn init apply) ⟨1, some (init (keys 0) x)⟩ ((x :: xs).map .call) := by
      simp only [List.map_cons, Agent.run, Agent.call, Agent.new, Agent.initialize, totalFn, if_true, Nat.zero_add]
    refine ⟨ys, ?_, h2, ?_⟩
    · rw [e, h1]
    · rw [e, h1]; simp; omega

/-- C167: a call that raises leaves an initialised agent as it was, except that a key is consumed; on an agent without parameters, it
leaves none or those of the initialisation, never anything of the failed call. -/
theorem C167_agent_failed_call (f : Transformed Key P S Obs Act) (a : Agent P S) (obs : Obs) (h : (a.call keys f obs).1 = none) :
    (∀ v, a.vars = some v → (a.call keys f obs).2 = ⟨a.drawn + 1, some v⟩) ∧
    (a.vars = none → (a.call keys f obs).2 = ⟨a.drawn + 1, none⟩ ∧ f.init (keys a.drawn) obs = none ∨
      ∃ v, f.init (keys a.drawn) obs = some v ∧ (a.call keys f obs).2 = ⟨a.drawn + 2, some v⟩) := by
  obtain ⟨n, v⟩ := a
  have hact : ∀ (n : Nat) (v : P × S), (Agent.act keys f ⟨n, some v⟩ obs).1 = none →
      (Agent.act keys f ⟨n, some v⟩ obs).2 = ⟨n + 1, some v⟩ := by
    intro n v h
    obtain ⟨p, s⟩ := v
    unfold Agent.act at h ⊢
    simp only at h ⊢
    cases hf : f.apply p s (keys n) obs with
    | none => rfl
    | some y => simp [hf] at h
  cases v with
  | some v =>
    refine ⟨?_, by simp⟩
    intro v' hv
    cases hv
    exact hact n v h
  | none =>
    refine ⟨by simp, fun _ => ?_⟩
    unfold Agent.call at h ⊢
    simp only [Agent.initialize] at h ⊢
    rcases Option.eq_none_or_eq_some (f.init (keys n) obs) with hf | ⟨v, hf⟩
    · left; simp [hf]
    · right
      simp only [hf, if_true] at h ⊢
      exact ⟨v, rfl, hact (n + 1) v h⟩

end AgentObject

/-! ## The environment -/

section EnvObject
variable (keys : Nat → Key)

theorem env_run_append (f : Transformed Key P S (Act × Raw) (Rw × Obs)) (e : Env P S Raw Info) (l l' : List (EnvOp Act)) :
    Env.run keys f e (l ++ l') = ((Env.run keys f e l).1 ++ (Env.run keys f (Env.run keys f e l).2 l').1,
      (Env.run keys f (Env.run keys f e l).2 l').2) := by
  induction l generalizing e with
  | nil => simp [Env.run]
  | cons op l ih => simp [Env.run, ih]

/-- What an operation does to the data and the info. -/
theorem env_op_data (f : Transformed Key P S (Act × Raw) (Rw × Obs)) (e : Env P S Raw Info) (op : EnvOp Act) :
    (e.op keys f op).2.data = e.data.tail ∧
    (e.op keys f op).2.info = (e.data.head?.map (·.2)).or e.info := by
  have happ : ∀ (e : Env P S Raw Info) x i, (e.apply keys f x i).2.data = e.data ∧ (e.apply keys f x i).2.info = e.info := by
    intro e x i
    unfold Env.apply
    cases e.vars with
    | none => exact ⟨rfl, rfl⟩
    | some v =>
      simp only
      cases f.apply v.1 v.2 (keys e.drawn) x <;> exact ⟨rfl, rfl⟩
  have hini : ∀ (e : Env P S Raw Info) x, (e.initialize keys f x).2.data = e.data ∧ (e.initialize keys f x).2.info = e.info := by
    intro e x
    unfold Env.initialize
    cases e.vars with
    | some v => exact ⟨rfl, rfl⟩
    | none =>
      simp only
      cases f.init (keys e.drawn) x <;> exact ⟨rfl, rfl⟩
  cases op with
  | reset =>
    unfold Env.op Env.reset
    cases h : e.data with
    | nil => simp [h]
    | cons x xs => simp
  | step a =>
    unfold Env.op Env.step
    cases h : e.data with
    | nil => simp [h]
    | cons x xs =>
      obtain ⟨o, i⟩ := x
      simp only [List.tail_cons, List.head?_cons, Option.map_some, Option.some_or]
      have h1 := hini { e with data := xs, info := some i } (a, o)
      split
      · have h2 := happ (({ e with data := xs, info := some i } : Env P S Raw Info).initialize keys f (a, o)).2 (a, o) i
        rw [h1.1, h1.2] at h2
        exact h2
      · exact h1

/-- The info of the item before position `t`. -/
def infoBefore (data : List (Raw × Info)) (t : Nat) : Option Info := (data.take t).getLast?.map (·.2)

theorem env_data (f : Transformed Key P S (Act × Raw) (Rw × Obs)) (data : List (Raw × Info)) (ops : List (EnvOp Act)) :
    (Env.run keys f (Env.new data) ops).2.data = data.drop ops.length ∧
    (Env.run keys f (Env.new data) ops).2.info = infoBefore data ops.length := by
  have key : ∀ (ops : List (EnvOp Act)) (e : Env P S Raw Info), (Env.run keys f e ops).2.data = e.data.drop ops.length ∧
      (Env.run keys f e ops).2.info = (infoBefore e.data ops.length).or e.info := by
    intro ops
    induction ops with
    | nil => intro e; simp [Env.run, infoBefore]
    | cons op ops ih =>
      intro e
      obtain ⟨h1, h2⟩ := ih (e.op keys f op).2
      obtain ⟨g1, g2⟩ := env_op_data keys f e op
      simp only [Env.run]
      rw [h1, h2, g1, g2]
      cases hd : e.data with
      | nil => simp [infoBefore]
      | cons x xs =>
        refine ⟨by simp, ?_⟩
        simp only [infoBefore, List.tail_cons, List.length_cons, List.take_succ_cons, List.head?_cons, Option.map_some,
          Option.some_or, List.getLast?_cons]
        cases (xs.take ops.length).getLast? <;> simp
  obtain ⟨h1, h2⟩ := key ops (Env.new data)
  refine ⟨h1, h2.trans ?_⟩
  show (infoBefore data ops.length).or none = _
  simp

/-- C167: whatever the operations, their order and the exceptions raised, operation number `t` uses data item number `t`: a reset returns
that item's observation, a step returns that item's info (or raises), and once the data is exhausted every step returns
`(None, 0, True, info)` with the info of the last item and every reset raises. -/
theorem C167_env_data (f : Transformed Key P S (Act × Raw) (Rw × Obs)) (data : List (Raw × Info)) (ops : List (EnvOp Act)) :
    (Env.run keys f (Env.new data) ops).1.length = ops.length ∧
    ∀ (t : Nat) (op : EnvOp Act), ops[t]? = some op → ∃ out, (Env.run keys f (Env.new data) ops).1[t]? = some out ∧
      match op, data[t]? with
      | .reset, some (o, _) => out = .started o
      | .reset, none => out = .raised
      | .step _, some (_, i) => out = .raised ∨ ∃ obs rw, out = .stepped obs rw i
      | .step _, none => out = .ended (data.getLast?.map (·.2)) := by
  have hlen : ∀ (ops : List (EnvOp Act)) (e : Env P S Raw Info), (Env.run keys f e ops).1.length = ops.length := by
    intro ops
    induction ops with
    | nil => intro e; rfl
    | cons op ops ih => intro e; simp [Env.run, ih]
  refine ⟨hlen _ _, ?_⟩
  intro t op hop
  obtain ⟨ht, rfl⟩ := List.getElem?_eq_some_iff.mp hop
  have hsplit : ops = ops.take t ++ ops[t] :: ops.drop (t + 1) := by
    rw [List.getElem_cons_drop, List.take_append_drop]
  have hout : (Env.run keys f (Env.new data) ops).1[t]? =
      some ((Env.run keys f (Env.new data) (ops.take t)).2.op keys f ops[t]).1 := by
    conv_lhs => rw [hsplit]
    rw [env_run_append]
    simp only [Env.run]
    rw [List.getElem?_append_right (by rw [hlen, List.length_take]; exact Nat.min_le_left _ _), hlen]
    rw [List.length_take, Nat.min_eq_left (Nat.le_of_lt ht), Nat.sub_self, List.getElem?_cons_zero]
  refine ⟨_, hout, ?_⟩
  obtain ⟨hd, hi⟩ := env_data keys f data (ops.take t)
  rw [List.length_take, Nat.min_eq_left (Nat.le_of_lt ht)] at hd hi
  generalize (Env.run keys f (Env.new data) (ops.take t)).2 = e at hd hi ⊢
  cases hdt : data[t]? with
  | none =>
    have hle : data.length ≤ t := by simpa using hdt
    have hnil : e.data = [] := by rw [hd]; exact List.drop_eq_nil_of_le hle
    cases ops[t] with
    | reset => simp [Env.op, Env.reset, hnil]
    | step a => simp [Env.op, Env.step, hnil, hi, infoBefore, List.take_of_length_le hle]
  | some x =>
    obtain ⟨o, i⟩ := x
    obtain ⟨hlt, hx⟩ := List.getElem?_eq_some_iff.mp hdt
    have hcons : e.data = (o, i) :: data.drop (t + 1) := by rw [hd, List.drop_eq_getElem_cons hlt, hx]
    cases ops[t] with
    | reset => simp [Env.op, Env.reset, hcons]
    | step a =>
      simp only [Env.op, Env.step, hcons]
      split
      · unfold Env.apply
        split
        · exact Or.inl rfl
        · split
          · exact Or.inl rfl
          · exact Or.inr ⟨_, _, rfl⟩
      · exact Or.inl rfl

theorem env_runs (init : Key → Act × Raw → P × S) (apply : P → S → Key → Act × Raw → (Rw × Obs) × S) (p : P) (s : S)
    (acts : List Act) (e : Env P S Raw Info) (he : e.vars = some (p, s)) (hle : acts.length ≤ e.data.length) :
    ∃ ys : List (Rw × Obs), (Env.run keys (totalFn init apply) e (acts.map .step)).1 =
        List.zipWith (fun (y : Rw × Obs) x => EnvOut.stepped y.2 y.1 x.2) ys e.data ∧
      RunsFrom keys apply p s e.drawn (acts.zip (e.data.map Prod.fst)) ys := by
  induction acts generalizing s e with
  | nil => exact ⟨[], rfl, runsFrom_nil ..⟩
  | cons a acts ih =>
    obtain ⟨d, v, data, info⟩ := e
    simp only at he
    subst he
    cases data with
    | nil => simp at hle
    | cons x data =>
      obtain ⟨o, i⟩ := x
      obtain ⟨ys, h1, h2⟩ := ih (apply p s (keys d) (a, o)).2
        (⟨d + 1, some (p, (apply p s (keys d) (a, o)).2), data, some i⟩) rfl (by simpa using hle)
      refine ⟨(apply p s (keys d) (a, o)).1 :: ys, ?_, ?_⟩
      · simp only [List.map_cons, Env.run, Env.op, Env.step, Env.initialize, if_true, Env.apply, totalFn, List.zipWith_cons_cons]
        simp only [totalFn] at h1
        rw [h1]
      · simp only [List.map_cons, List.zip_cons_cons]
        exact runsFrom_cons _ _ _ _ _ _ _ _ _ _ rfl h2

/-- C167: from any moment, a reset followed by steps (no more than there is data): the reset returns the next item of the data, and the
steps return the rewards, observations and infos of the environment function on (action, next item), initialised afresh on the first
of these pairs with the next unused key. -/
theorem C167_env_episode (init : Key → Act × Raw → P × S) (apply : P → S → Key → Act × Raw → (Rw × Obs) × S)
    (e : Env P S Raw Info) (x0 : Raw × Info) (data : List (Raw × Info)) (hd : e.data = x0 :: data) (acts : List Act)
    (hle : acts.length ≤ data.length) :
    ∃ ys : List (Rw × Obs), (Env.run keys (totalFn init apply) e (.reset :: acts.map .step)).1 =
        .started x0.1 :: List.zipWith (fun (y : Rw × Obs) x => EnvOut.stepped y.2 y.1 x.2) ys data ∧
      IsEpisode keys init apply e.drawn (acts.zip (data.map Prod.fst)) ys := by
  obtain ⟨o0, i0⟩ := x0
  obtain ⟨d, v, dat, info⟩ := e
  simp only at hd
  subst hd
  cases acts with
  | nil => exact ⟨[], rfl, rfl⟩
  | cons a acts =>
    cases data with
    | nil => simp at hle
    | cons x data =>
      obtain ⟨o, i⟩ := x
      obtain ⟨ys, h1, h2⟩ := env_runs keys init apply (init (keys d) (a, o)).1 (init (keys d) (a, o)).2 (a :: acts)
        (⟨d + 1, some (init (keys d) (a, o)), (o, i) :: data, some i0⟩ : Env P S Raw Info) rfl hle
      refine ⟨ys, ?_, h2⟩
      simp only at h1
      rw [← h1]
      simp only [List.map_cons, Env.run, Env.op, Env.reset, Env.step, Env.initialize, if_true, totalFn]

/-- C167: `len(env)` is the "maxlen" of the info of the last item used; before the first operation it raises. -/
theorem C167_env_len (maxlen : Info → Option Nat) (f : Transformed Key P S (Act × Raw) (Rw × Obs)) (data : List (Raw × Info))
    (ops : List (EnvOp Act)) :
    (Env.run keys f (Env.new data) ops).2.len maxlen = (data.take ops.length).getLast?.bind fun x => maxlen x.2 := by
  unfold Env.len
  rw [(env_data keys f data ops).2, infoBefore]
  cases (data.take ops.length).getLast? <;> rfl

/-- C167: a new environment has drawn no key: its first episode uses the keys of its sequence from the first one on. -/
theorem C167_env_first_key (data : List (Raw × Info)) : (Env.new data : Env P S Raw Info).drawn = 0 := rfl

/-- C167: a step that raises has used up one item of the data; on an initialised environment it changes nothing else but consumes one
key; otherwise it leaves no parameters (the initialisation raised: one key) or those of the initialisation (two keys). -/
theorem C167_env_failed_step (f : Transformed Key P S (Act × Raw) (Rw × Obs)) (e : Env P S Raw Info) (a : Act)
    (h : (e.step keys f a).1 = .raised) :
    ∃ o i rest, e.data = (o, i) :: rest ∧
      (∀ v, e.vars = some v → (e.step keys f a).2 = ⟨e.drawn + 1, some v, rest, some i⟩) ∧
      (e.vars = none →
        (f.init (keys e.drawn) (a, o) = none ∧ (e.step keys f a).2 = ⟨e.drawn + 1, none, rest, some i⟩) ∨
        ∃ v, f.init (keys e.drawn) (a, o) = some v ∧ (e.step keys f a).2 = ⟨e.drawn + 2, some v, rest, some i⟩) := by
  obtain ⟨d, v, data, info⟩ := e
  cases data with
  | nil => simp [Env.step] at h
  | cons x rest =>
    obtain ⟨o, i⟩ := x
    refine ⟨o, i, rest, rfl, ?_⟩
    have happ : ∀ (n : Nat) (v : P × S) (e : Env P S Raw Info), e = ⟨n, some v, rest, some i⟩ →
        (e.apply keys f (a, o) i).1 = .raised → (e.apply keys f (a, o) i).2 = ⟨n + 1, some v, rest, some i⟩ := by
      rintro n ⟨p, s⟩ e rfl h
      unfold Env.apply at h ⊢
      simp only at h ⊢
      cases hf : f.apply p s (keys n) (a, o) with
      | none => rfl
      | some y => simp [hf] at h
    cases v with
    | some v =>
      refine ⟨?_, by simp⟩
      intro v' hv
      cases hv
      simp only [Env.step, Env.initialize, if_true] at h ⊢
      exact happ d v _ rfl h
    | none =>
      refine ⟨by simp, fun _ => ?_⟩
      simp only [Env.step, Env.initialize] at h ⊢
      rcases Option.eq_none_or_eq_some (f.init (keys d) (a, o)) with hf | ⟨v, hf⟩
      · left; simp [hf]
      · right
        simp only [hf, if_true] at h ⊢
        exact ⟨v, rfl, happ (d + 1) v _ rfl h⟩

end EnvObject

/-- Non-vacuity: an agent whose answers are (parameter, state, key, observation): two episodes; the second starts again from its first
observation but with key 3. -/
example : (Agent.run (P := Nat) (S := Nat) id (totalFn (fun k o => (k, o)) (fun p s k o => ((p, s, k, o), s + 1))) Agent.new
      [.call 7, .call 8, .reset, .call 9]).1 =
    [some (0, 7, 1, 7), some (0, 8, 2, 8), some (3, 9, 4, 9)] := by decide

/-- A call that raises (observation 0) on an initialised agent changes nothing but the key. -/
example : (Agent.run (P := Nat) (S := Nat) id ⟨fun k o => some (k, o), fun p s k o => if o = 0 then none else some ((p, s, k, o), s + 1)⟩
      Agent.new [.call 7, .call 0, .call 9]).1 = [some (0, 7, 1, 7), none, some (0, 8, 3, 9)] := by decide

/-- The environment adds its state, the action and the observation; the data has three items; a reset in the middle. -/
example : (Env.run (P := Nat) (S := Nat) (Info := Nat) id (totalFn (fun k (x : Nat × Nat) => (k, x.1)) (fun _ s _ x => ((s, x.2), s + 1)))
      (Env.new [(10, 1), (20, 2), (30, 3), (40, 4), (50, 5)]) [.reset, .step 5, .step 6, .reset, .step 9, .step 9, .reset]).1 =
    [.started 10, .stepped 20 5 2, .stepped 30 6 3, .started 40, .stepped 50 9 5, .ended (some 5), .raised] := by decide

/-- A step that raises (action 0) loses its data item and a key, nothing else. -/
example : (Env.run (P := Nat) (S := Nat) (Info := Nat) id
      ⟨fun k (x : Nat × Nat) => some (k, x.1), fun p s k x => if x.1 = 0 then none else some (((p, s, k), x.2), s + 1)⟩
      (Env.new [(10, 1), (20, 2), (30, 3), (40, 4)]) [.reset, .step 5, .step 0, .step 9]).1 =
    [.started 10, .stepped 20 (0, 5, 1) 2, .raised, .stepped 40 (0, 6, 3) 4] := by decide

end Verif.Props
