import Verif.Props.Autodiff

/-! # C185: the gradient of EWMA through missing data

For `adjust=True` and `adjust=False`, whatever the missing values, `jax.grad` through the unrolled module gives numbers (never NaN),
and they are the true derivatives of the loss with respect to the trainable parameter `logcom` and to the data. -/

set_option linter.unusedSectionVars false
set_option linter.unusedSimpArgs false
set_option linter.unusedVariables false

namespace Verif.Props
open Verif Verif.Model Verif.Model.Autodiff Filter Topology

section Trace
variable {K : Type} [Field K] [LinearOrder K]

/-- The trace of one call computes what the call computes. -/
def TraceOf (keep : Nat) (step : EWMACfg K → EWMAState K → Fl K → EWMAOut K × EWMAState K) : Prop :=
  ∀ (F : Fns K) (c : EWMACfg K) (l : K) (s : EWMAState K) (x : Fl K),
    let v := values F (ewmaTrace keep c s x) [Fl.fin l, s.mean, s.oldWt, x]
    let r := step { c with com := F.exp l } s x
    look v (ewmaBase c + 12) = r.2.mean ∧ look v (ewmaBase c + 10) = r.2.oldWt ∧ look v (ewmaBase c + 13) = r.1.value

set_option maxHeartbeats 4000000 in
theorem trace_haiku : TraceOf (K := K) 13 ewmaStep := by
  intro F c l s x
  obtain ⟨com, adj, ign, mp, ini, big⟩ := c
  obtain ⟨m, w, n⟩ := s
  cases adj <;>
    simp only [ewmaTrace, ewmaFront, ewmaMode, ewmaTail, ewmaBase, values, Prim.eval, look, ewmaStep, EWMACfg.newWt, EWMACfg.alpha,
      Adjust.truthy, ewmaOldWt, ewmaFactor, flExp, nanToNumDefault, reduceCtorEq, if_true, if_false, List.cons_append, List.nil_append,
      List.getD_cons_zero, List.getD_cons_succ, Bool.false_eq_true, Nat.reduceAdd] <;>
    cases ign <;> cases x <;> cases m <;> simp [Fl.feq, Fl.nanToNum] <;> (try (by_cases h0 : mp = 0 <;> simp [h0]))

set_option maxHeartbeats 4000000 in
theorem trace_flax : TraceOf (K := K) 1 flaxEwmaStep := by
  intro F c l s x
  obtain ⟨com, adj, ign, mp, ini, big⟩ := c
  obtain ⟨m, w, n⟩ := s
  cases adj <;>
    simp only [ewmaTrace, ewmaFront, ewmaMode, ewmaTail, ewmaBase, values, Prim.eval, look, flaxEwmaStep, EWMACfg.newWt, EWMACfg.alpha,
      Adjust.truthy, ewmaOldWt, ewmaFactor, flExp, nanToNumDefault, reduceCtorEq, if_true, if_false, List.cons_append, List.nil_append,
      List.getD_cons_zero, List.getD_cons_succ, Bool.false_eq_true, Nat.reduceAdd] <;>
    cases ign <;> cases x <;> cases m <;> simp [Fl.feq, Fl.nanToNum] <;> (try (by_cases h0 : mp = 0 <;> simp [h0]))

end Trace

/-! ## Regularity -/

/-- A number or NaN. -/
def NumOrNan (x : Fl ℝ) : Prop := x = .nan ∨ ∃ a, x = .fin a

theorem exp_share (l : ℝ) : 0 < (1 + Real.exp l) ∧ 0 < 1 / (1 + Real.exp l) ∧ 0 ≤ 1 - 1 / (1 + Real.exp l) := by
  have h := Real.exp_pos l
  have h1 : 0 < 1 + Real.exp l := by linarith
  refine ⟨h1, by positivity, ?_⟩
  rw [sub_nonneg, div_le_one h1]
  linarith

set_option maxHeartbeats 4000000 in
theorem ewma_trace_regular (keep : Nat) (c : EWMACfg ℝ) (ha : c.adjust ≠ .linear) (l : ℝ)
    (s : EWMAState ℝ) (x : Fl ℝ) (hm : NumOrNan s.mean) (hx : NumOrNan x) (w : ℝ) (hw : s.oldWt = .fin w) (hw0 : 0 ≤ w) :
    RegularTrace realFns (ewmaTrace keep c s x) [Fl.fin l, s.mean, s.oldWt, x] := by
  obtain ⟨com, adj, ign, mp, ini, big⟩ := c
  obtain ⟨m, w', n⟩ := s
  simp only at hm hw
  subst hw
  obtain ⟨h1, h2, h3⟩ := exp_share l
  have e1 : (1 + Real.exp l) ≠ 0 := h1.ne'
  have e2 : w * (1 - 1 / (1 + Real.exp l)) + 1 ≠ 0 := by positivity
  have e3 : w + 1 ≠ 0 := by positivity
  have e4 : w * (1 - 1 / (1 + Real.exp l)) + 1 / (1 + Real.exp l) ≠ 0 := by positivity
  have e5 : w + 1 / (1 + Real.exp l) ≠ 0 := by positivity
  have e6 : 0 + 1 / (1 + Real.exp l) ≠ 0 := by positivity
  have e7 : (0 : ℝ) + 1 ≠ 0 := by norm_num
  rcases hm with rfl | ⟨m, rfl⟩ <;> rcases hx with rfl | ⟨x, rfl⟩ <;> cases adj <;> cases ign <;>
    first
    | exact absurd rfl ha
    | (simp only [ewmaTrace, ewmaFront, ewmaMode, ewmaTail, ewmaBase, RegularTrace, RegularOp, Prim.eval, look,
        Adjust.truthy, flExp, reduceCtorEq, if_true, if_false, List.cons_append, List.nil_append,
        List.getD_cons_zero, List.getD_cons_succ, Bool.false_eq_true, Nat.reduceAdd, realFns, Fl.feq, Fl.isNan, Bool.not_true,
        Bool.not_false, Bool.or_true, Bool.or_false, Bool.true_or, Bool.false_or, Fl.fin_add, Fl.fin_sub, Fl.fin_mul,
        Fl.fin_div_of_ne _ e1, Fl.fin_div_of_ne _ e2, Fl.fin_div_of_ne _ e3, Fl.fin_div_of_ne _ e4, Fl.fin_div_of_ne _ e5,
        Fl.fin_div_of_ne _ e6, Fl.fin_div_of_ne _ e7]
       refine ⟨?_, ?_, ?_, ?_, ?_, ?_, ?_, ?_, ?_, ?_, ?_, ?_, ?_, ?_, ?_, ?_, ?_, ?_, ?_, ?_, ?_, ?_, ?_, ?_, ?_, ?_, ?_, ?_, ?_⟩ <;>
        first
        | trivial
        | exact ⟨_, rfl⟩
        | exact ⟨⟨_, rfl⟩, _, rfl⟩
        | exact ⟨⟨_, rfl⟩, _, rfl, by assumption⟩)

/-! ## One call -/

theorem dotL_set (cs ts : List ℝ) (h : cs.length = ts.length) (i : Nat) (hi : i < cs.length) (v : ℝ) :
    dotL (cs.set i v) ts = dotL cs ts + (v - cs.getD i 0) * ts.getD i 0 := by
  induction cs generalizing ts i with
  | nil => simp at hi
  | cons c cs ih =>
    cases ts with
    | nil => simp at h
    | cons t ts =>
      cases i with
      | zero => simp [dotL]; ring
      | succ i =>
        have := ih ts (by simpa using h) i (by simpa using hi)
        simp only [dotL, List.set_cons_succ, List.zipWith_cons_cons, List.sum_cons, List.getD_cons_succ] at this ⊢
        rw [this]; ring

theorem dotL_zeros (n : Nat) (ts : List ℝ) : dotL (List.replicate n 0) ts = 0 := by
  induction n generalizing ts with
  | zero => simp [dotL]
  | succ n ih =>
    cases ts with
    | nil => simp [dotL]
    | cons t ts =>
      have := ih ts
      simp only [dotL] at this
      simp [dotL, List.replicate_succ, this]

theorem traceTangents_length (F : Fns ℝ) (ps : List (Prim ℝ)) (env : List (Fl ℝ)) (ts : List ℝ) :
    (traceTangents F ps env ts).length = ts.length + ps.length := by
  induction ps generalizing env ts with
  | nil => rfl
  | cons p ps ih => simp [traceTangents, ih]; omega

theorem ewmaTrace_length (keep : Nat) (c : EWMACfg ℝ) (ha : c.adjust ≠ .linear) (s : EWMAState ℝ) (x : Fl ℝ) :
    (ewmaTrace keep c s x).length = 28 := by
  simp [ewmaTrace, ewmaFront, ewmaMode, ewmaTail, ha]

theorem ewmaTrace_consts (keep : Nat) (c : EWMACfg ℝ) (ha : c.adjust ≠ .linear) (s : EWMAState ℝ) (x : Fl ℝ) :
    PlainConsts (ewmaTrace keep c s x) := by
  intro v hv
  obtain ⟨com, adj, ign, mp, ini, big⟩ := c
  cases adj
  · simp [ewmaTrace, ewmaFront, ewmaMode, ewmaTail, Adjust.truthy] at hv
    rcases hv with rfl | rfl | rfl | rfl | rfl <;> simp
  · simp [ewmaTrace, ewmaFront, ewmaMode, ewmaTail, Adjust.truthy] at hv
    rcases hv with rfl | rfl | rfl | rfl | rfl | rfl <;> simp
  · exact absurd rfl ha

/-- The backward pass through one call gives numbers, dual to the derivatives along any direction. -/
theorem ewmaPull_adjoint (keep : Nat) (c : EWMACfg ℝ) (ha : c.adjust ≠ .linear) (l : ℝ)
    (s : EWMAState ℝ) (x : Fl ℝ) (hm : NumOrNan s.mean) (hx : NumOrNan x) (w : ℝ) (hw : s.oldWt = .fin w) (hw0 : 0 ≤ w) (g gm gw : ℝ) :
    ∃ pl pm pw px : ℝ, ewmaPull realFns keep c l s x (.fin g) (.fin gm) (.fin gw) = ⟨.fin pl, .fin pm, .fin pw, .fin px⟩ ∧
      ∀ tl tm tw tx : ℝ,
        let T := traceTangents realFns (ewmaTrace keep c s x) [Fl.fin l, s.mean, s.oldWt, x] [tl, tm, tw, tx]
        pl * tl + pm * tm + pw * tw + px * tx = g * T.getD 31 0 + gm * T.getD 30 0 + gw * T.getD 28 0 := by
  have hb : ewmaBase c = 18 := by simp [ewmaBase, ha]
  have hlen := ewmaTrace_length keep c ha s x
  obtain ⟨gs, g1, g2, g3⟩ := backward_adjoint realFns realFns_root _ _ (ewma_trace_regular keep c ha l s x hm hx w hw hw0)
    ((((List.replicate 32 (0 : ℝ)).set 28 gw).set 30 gm).set 31 g) (by simp [hlen])
  obtain ⟨pl, pm, pw, px, rfl⟩ : ∃ a b d e, gs = [a, b, d, e] := by
    match gs, g2 with
    | [a, b, d, e], _ => exact ⟨a, b, d, e, rfl⟩
  refine ⟨pl, pm, pw, px, ?_, ?_⟩
  · simp only [ewmaPull, hb, hlen]
    have : (((List.replicate ([Fl.fin l, s.mean, s.oldWt, x].length + 28) (Fl.fin (0 : ℝ))).set (18 + 10) (Fl.fin gw)).set (18 + 12)
        (Fl.fin gm)).set (18 + 13) (Fl.fin g) = List.map Fl.fin ((((List.replicate 32 (0 : ℝ)).set 28 gw).set 30 gm).set 31 g) := by
      simp [List.map_set, List.map_replicate]
    rw [this, g1]
    simp [look]
  · intro tl tm tw tx
    have := g3 [tl, tm, tw, tx] rfl
    have hl : (traceTangents realFns (ewmaTrace keep c s x) [Fl.fin l, s.mean, s.oldWt, x] [tl, tm, tw, tx]).length = 32 := by
      rw [traceTangents_length, hlen]; rfl
    rw [dotL_set _ _ (by simp [hl]) _ (by simp), dotL_set _ _ (by simp [hl]) _ (by simp), dotL_set _ _ (by simp [hl]) _ (by simp),
      dotL_zeros] at this
    simp only [dotL, List.zipWith_cons_cons, List.zipWith_nil_left, List.sum_cons, List.sum_nil] at this
    have z1 : (((List.replicate 32 (0 : ℝ)).set 28 gw).set 30 gm).getD 31 0 = 0 := by simp [List.getD]
    have z2 : ((List.replicate 32 (0 : ℝ)).set 28 gw).getD 30 0 = 0 := by simp [List.getD]
    have z3 : (List.replicate 32 (0 : ℝ)).getD 28 0 = 0 := by simp [List.getD]
    rw [z1, z2, z3] at this
    linarith

/-- The state after a call is again NaN or a number, with a non-negative weight. -/
def GoodStep (step : EWMACfg ℝ → EWMAState ℝ → Fl ℝ → EWMAOut ℝ × EWMAState ℝ) : Prop :=
  ∀ (c : EWMACfg ℝ) (l : ℝ), c.adjust ≠ .linear → c.com = Real.exp l → ∀ (s : EWMAState ℝ) (x : Fl ℝ) (w : ℝ),
    NumOrNan s.mean → NumOrNan x → s.oldWt = .fin w → 0 ≤ w →
    NumOrNan (step c s x).2.mean ∧ (∃ w', (step c s x).2.oldWt = .fin w' ∧ 0 ≤ w') ∧
      (step c s x).2.nobs = if x.isNan then s.nobs else s.nobs + 1

/-- The count of observations after a call. -/
def CountsObs (step : EWMACfg ℝ → EWMAState ℝ → Fl ℝ → EWMAOut ℝ × EWMAState ℝ) : Prop :=
  ∀ (c : EWMACfg ℝ) (s : EWMAState ℝ) (x : Fl ℝ), (step c s x).2.nobs = if x.isNan then s.nobs else s.nobs + 1

theorem counts_haiku : CountsObs ewmaStep := by
  intro c s x
  cases x <;> simp [ewmaStep]

theorem counts_flax : CountsObs flaxEwmaStep := by
  intro c s x
  cases x <;> simp [flaxEwmaStep]

/-- The positions whose values an operation uses: only the selected branch of a `jnp.where`. -/
def reads : Prim ℝ → List Nat
  | .const _ => []
  | .add i j | .sub i j | .mul i j | .div i j | .max i j | .min i j => [i, j]
  | .exp i | .sqrt i | .sq i | .pow i _ => [i]
  | .select p i j => if p then [i] else [j]

theorem opTangent_reads (p : Prim ℝ) (j : Nat) (hp : j ∉ reads p) (env : List (Fl ℝ)) (ts ts' : List ℝ)
    (h : ∀ i, i ≠ j → ts.getD i 0 = ts'.getD i 0) : opTangent realFns env ts p = opTangent realFns env ts' p := by
  cases p with
  | const c => rfl
  | select b i k => cases b <;> simp only [reads, if_true, if_false, Bool.false_eq_true, List.mem_singleton] at hp <;>
      simp only [opTangent, if_true, if_false, Bool.false_eq_true] <;> exact h _ (Ne.symm hp)
  | exp i | sqrt i | sq i | pow i n =>
    simp only [reads, List.mem_singleton] at hp
    simp only [opTangent, h i (Ne.symm hp)]
  | add i k | sub i k | mul i k | div i k | max i k | min i k =>
    simp only [reads, List.mem_cons, List.not_mem_nil, or_false, not_or] at hp
    simp only [opTangent, h i (Ne.symm hp.1), h k (Ne.symm hp.2)]

/-- A missing input is not read by any operation of the trace. -/
theorem missing_unread (keep : Nat) (hk : keep ≠ 3) (c : EWMACfg ℝ) (ha : c.adjust ≠ .linear) (s : EWMAState ℝ) (p : Prim ℝ)
    (hp : p ∈ ewmaTrace keep c s .nan) : 3 ∉ reads p := by
  obtain ⟨com, adj, ign, mp, ini, big⟩ := c
  have hk' := Ne.symm hk
  revert p
  have hsel : ∀ (b : Bool) (i j : Nat), 3 ∉ reads (.select b i j) ↔ if b then 3 ≠ i else 3 ≠ j := by
    intro b i j
    cases b <;> simp [reads]
  cases adj
  · simp [ewmaTrace, ewmaFront, ewmaMode, ewmaTail, Adjust.truthy, reads.eq_1, reads.eq_2, reads.eq_3, reads.eq_4, reads.eq_5, reads.eq_6,
      reads.eq_7, reads.eq_8, reads.eq_9, hsel, hk', Fl.feq]
  · simp [ewmaTrace, ewmaFront, ewmaMode, ewmaTail, Adjust.truthy, reads.eq_1, reads.eq_2, reads.eq_3, reads.eq_4, reads.eq_5, reads.eq_6,
      reads.eq_7, reads.eq_8, reads.eq_9, hsel, hk', Fl.feq]
  · exact absurd rfl ha

theorem tangents_agree (P : List (Prim ℝ)) (j : Nat) (hP : ∀ p ∈ P, ∀ env ts ts', (∀ i, i ≠ j → ts.getD i 0 = ts'.getD i 0) →
      opTangent realFns env ts p = opTangent realFns env ts' p) (env : List (Fl ℝ)) (ts ts' : List ℝ) (hl : ts.length = ts'.length)
    (h : ∀ i, i ≠ j → ts.getD i 0 = ts'.getD i 0) (i : Nat) (hi : i ≠ j) :
    (traceTangents realFns P env ts).getD i 0 = (traceTangents realFns P env ts').getD i 0 := by
  induction P generalizing env ts ts' with
  | nil => exact h i hi
  | cons p P ih =>
    simp only [traceTangents]
    refine ih (fun q hq => hP q (by simp [hq])) _ _ _ (by simp [hl]) ?_
    intro k hk
    rw [hP p (by simp) env ts ts' h]
    by_cases hlt : k < ts.length
    · rw [List.getD_append _ _ _ _ hlt, List.getD_append _ _ _ _ (by omega)]; exact h k hk
    · rw [List.getD_append_right _ _ _ _ (by omega), List.getD_append_right _ _ _ _ (by omega), hl]

set_option maxHeartbeats 2000000 in
theorem good_haiku : GoodStep ewmaStep := by
  rintro ⟨com, adj, ign, mp, ini, big⟩ l ha rfl ⟨m, w', n⟩ x w hm hx rfl hw0
  obtain ⟨h1, h2, h3⟩ := exp_share l
  have e1 : (1 + Real.exp l) ≠ 0 := h1.ne'
  have p2 : 0 ≤ w * (1 - 1 / (1 + Real.exp l)) := by positivity
  have e2 : w * (1 - 1 / (1 + Real.exp l)) + 1 ≠ 0 := by positivity
  have e4 : w * (1 - 1 / (1 + Real.exp l)) + 1 / (1 + Real.exp l) ≠ 0 := by positivity
  have e6 : 0 + 1 / (1 + Real.exp l) ≠ 0 := by positivity
  have e7 : (0 : ℝ) + 1 ≠ 0 := by norm_num
  rcases hm with hm | ⟨m, hm⟩ <;> simp only at hm <;> subst hm <;> rcases hx with rfl | ⟨x, rfl⟩ <;> cases adj <;> cases ign <;>
    first
    | exact absurd rfl ha
    | (simp only [NumOrNan, ewmaStep, EWMACfg.newWt, EWMACfg.alpha, Adjust.truthy, ewmaOldWt, ewmaFactor, nanToNumDefault,
        Fl.isNan, Fl.nanToNum, reduceCtorEq, if_true, if_false, Bool.not_true, Bool.not_false, Bool.false_eq_true, Bool.and_true, Bool.and_false,
        Bool.true_and, Bool.false_and, Fl.fin_add, Fl.fin_sub, Fl.fin_mul, Fl.fin_div_of_ne _ e1, Fl.fin_div_of_ne _ e2, Fl.fin_div_of_ne _ e4,
        Fl.fin_div_of_ne _ e6, Fl.fin_div_of_ne _ e7]
       refine ⟨?_, ⟨_, rfl, ?_⟩, trivial⟩
       · first
         | exact Or.inl rfl
         | exact Or.inr ⟨_, rfl⟩
         | simp
       · first
         | assumption
         | positivity)

set_option maxHeartbeats 2000000 in
theorem good_flax : GoodStep flaxEwmaStep := by
  rintro ⟨com, adj, ign, mp, ini, big⟩ l ha rfl ⟨m, w', n⟩ x w hm hx rfl hw0
  obtain ⟨h1, h2, h3⟩ := exp_share l
  have e1 : (1 + Real.exp l) ≠ 0 := h1.ne'
  have p2 : 0 ≤ w * (1 - 1 / (1 + Real.exp l)) := by positivity
  have e2 : w * (1 - 1 / (1 + Real.exp l)) + 1 ≠ 0 := by positivity
  have e4 : w * (1 - 1 / (1 + Real.exp l)) + 1 / (1 + Real.exp l) ≠ 0 := by positivity
  have e6 : 0 + 1 / (1 + Real.exp l) ≠ 0 := by positivity
  have e7 : (0 : ℝ) + 1 ≠ 0 := by norm_num
  rcases hm with hm | ⟨m, hm⟩ <;> simp only at hm <;> subst hm <;> rcases hx with rfl | ⟨x, rfl⟩ <;> cases adj <;> cases ign <;>
    first
    | exact absurd rfl ha
    | (simp only [NumOrNan, flaxEwmaStep, EWMACfg.newWt, EWMACfg.alpha, Adjust.truthy, ewmaOldWt, ewmaFactor, nanToNumDefault,
        Fl.isNan, Fl.nanToNum, reduceCtorEq, if_true, if_false, Bool.not_true, Bool.not_false, Bool.false_eq_true, Bool.and_true, Bool.and_false,
        Bool.true_and, Bool.false_and, Fl.fin_add, Fl.fin_sub, Fl.fin_mul, Fl.fin_div_of_ne _ e1, Fl.fin_div_of_ne _ e2, Fl.fin_div_of_ne _ e4,
        Fl.fin_div_of_ne _ e6, Fl.fin_div_of_ne _ e7]
       refine ⟨?_, ⟨_, rfl, ?_⟩, trivial⟩
       · first
         | exact Or.inl rfl
         | exact Or.inr ⟨_, rfl⟩
         | simp
       · first
         | assumption
         | positivity)

/-! ## A whole stream -/

/-- An entry moved by `ε d`; a missing value stays missing. -/
noncomputable def moved (ε : ℝ) (x : Fl ℝ) (d : ℝ) : Fl ℝ :=
  match x with
  | .fin a => .fin (a + ε * d)
  | y => y

theorem moved_zero (x : Fl ℝ) (d : ℝ) : moved 0 x d = x := by cases x <;> simp [moved]

theorem moved_isNan (ε : ℝ) (x : Fl ℝ) (d : ℝ) : (moved ε x d).isNan = x.isNan := by cases x <;> rfl

theorem moved_feq (ε : ℝ) (x : Fl ℝ) (d : ℝ) :
    Fl.feq (moved ε x d) .pinf = Fl.feq x .pinf ∧ Fl.feq (moved ε x d) .ninf = Fl.feq x .ninf := by
  cases x <;> simp [moved, Fl.feq]

theorem moved_tracks (x : Fl ℝ) (d : ℝ) (h : NumOrNan x) : ∃ t, Tracks (fun ε => moved ε x d) t ∧ (x ≠ .nan → t = d) ∧ (x = .nan → t = 0) := by
  rcases h with rfl | ⟨a, rfl⟩
  · exact ⟨0, Tracks.nan.congr (by simp [moved]), by simp, by simp⟩
  · refine ⟨d, Or.inl ⟨fun ε => a + ε * d, by simp [moved], ?_⟩, by simp, by simp⟩
    simpa using ((hasDerivAt_id (0 : ℝ)).mul_const d).const_add a

/-- The loss `Σ g_t y_t` of a list of outputs, missing outputs not counted. -/
noncomputable def weighted (gs : List ℝ) (ys : List (Fl ℝ)) : ℝ := (List.zipWith (fun g y => g * numIn y) gs ys).sum

theorem Tracks.deriv {F : ℝ → Fl ℝ} {t : ℝ} (h : Tracks F t) : HasDerivAt (fun ε => numIn (F ε)) t 0 := by
  rcases h with ⟨f, h1, h2⟩ | ⟨h1, rfl⟩
  · exact h2.congr_of_eventuallyEq (by filter_upwards [h1] with ε a; simp [a, numIn])
  · exact (hasDerivAt_const (0 : ℝ) (0 : ℝ)).congr_of_eventuallyEq (by filter_upwards [h1] with ε a; simp [a, numIn])

theorem Tracks.masks {F : ℝ → Fl ℝ} {t : ℝ} (h : Tracks F t) :
    ∀ᶠ ε in 𝓝 0, (F ε).isNan = (F 0).isNan ∧ Fl.feq (F ε) .pinf = Fl.feq (F 0) .pinf ∧ Fl.feq (F ε) .ninf = Fl.feq (F 0) .ninf := by
  rcases h with ⟨f, h1, h2⟩ | ⟨h1, h2⟩
  · have := h1.self_of_nhds
    filter_upwards [h1] with ε a
    simp [a, this, Fl.feq]
  · have := h1.self_of_nhds
    filter_upwards [h1] with ε a
    simp [a, this, Fl.feq]

theorem ewmaTrace_congr (keep : Nat) (c c' : EWMACfg ℝ) (s s' : EWMAState ℝ) (x x' : Fl ℝ) (hn : s.nobs = s'.nobs)
    (hc : c'.adjust = c.adjust ∧ c'.ignoreNa = c.ignoreNa ∧ c'.minPeriods = c.minPeriods ∧ c'.big = c.big)
    (h1 : s.mean.isNan = s'.mean.isNan ∧ Fl.feq s.mean .pinf = Fl.feq s'.mean .pinf ∧ Fl.feq s.mean .ninf = Fl.feq s'.mean .ninf)
    (h2 : x.isNan = x'.isNan ∧ Fl.feq x .pinf = Fl.feq x' .pinf ∧ Fl.feq x .ninf = Fl.feq x' .ninf) :
    ewmaTrace keep c' s x = ewmaTrace keep c s' x' := by
  obtain ⟨a1, a2, a3⟩ := h1
  obtain ⟨b1, b2, b3⟩ := h2
  obtain ⟨c1, c2, c3, c4⟩ := hc
  simp only [ewmaTrace, ewmaFront, ewmaTail, a1, a2, a3, b1, b2, b3, hn, c1, c2, c3, c4]

theorem ewma_gradient_from (keep : Nat) (step : EWMACfg ℝ → EWMAState ℝ → Fl ℝ → EWMAOut ℝ × EWMAState ℝ)
    (hk : keep ≠ 3) (hT : TraceOf keep step) (hG : GoodStep step) (hN : CountsObs step) (c : EWMACfg ℝ) (ha : c.adjust ≠ .linear) (l dl : ℝ) (hcom : c.com = Real.exp l) :
    ∀ (xs : List (Fl ℝ)) (ds gs : List ℝ) (n : Nat) (M W : ℝ → Fl ℝ) (tm tw w : ℝ),
      ds.length = xs.length → gs.length = xs.length → (∀ x ∈ xs, NumOrNan x) → Tracks M tm → Tracks W tw → NumOrNan (M 0) →
      W 0 = .fin w → 0 ≤ w →
      ∃ gl gm gw : ℝ, ∃ gx : List ℝ,
        ewmaGrad realFns keep step c l ⟨M 0, W 0, n⟩ xs (gs.map Fl.fin) = ⟨.fin gl, .fin gm, .fin gw, gx.map Fl.fin⟩ ∧
        gx.length = xs.length ∧
        HasDerivAt (fun ε => weighted gs (((⟨⟨c.initial, .fin 1, 0⟩, step { c with com := Real.exp (l + ε * dl) }⟩ : Mealy _ _ _).outsFrom
          ⟨M ε, W ε, n⟩ (List.zipWith (moved ε) xs ds)).map (·.value)))
          (gl * dl + gm * tm + gw * tw + dotL gx ds) 0 := by
  intro xs
  induction xs with
  | nil =>
    intro ds gs n M W tm tw w h1 h2 _ hM hW hM0 hw hw0
    obtain rfl : ds = [] := by simpa using h1
    obtain rfl : gs = [] := by simpa using h2
    refine ⟨0, 0, 0, [], by simp [ewmaGrad], rfl, ?_⟩
    simpa [weighted, dotL] using hasDerivAt_const (0 : ℝ) (0 : ℝ)
  | cons x xs ih =>
    intro ds gs n M W tm tw w h1 h2 hx hM hW hM0 hw hw0
    obtain ⟨d, ds, rfl⟩ : ∃ d ds', ds = d :: ds' := by cases ds <;> simp_all
    obtain ⟨g, gs, rfl⟩ : ∃ g gs', gs = g :: gs' := by cases gs <;> simp_all
    have hx0 : NumOrNan x := hx x (by simp)
    obtain ⟨tx, hX, tx1, tx2⟩ := moved_tracks x d hx0
    let C : ℝ → EWMACfg ℝ := fun ε => { c with com := Real.exp (l + ε * dl) }
    let R : ℝ → EWMAOut ℝ × EWMAState ℝ := fun ε => step (C ε) ⟨M ε, W ε, n⟩ (moved ε x d)
    have hC0 : C 0 = c := by
      simp only [C, zero_mul, add_zero, ← hcom]
    have hR0 : R 0 = step c ⟨M 0, W 0, n⟩ x := by simp only [R, hC0, moved_zero]
    obtain ⟨q1, ⟨w', q2, q3⟩, q4⟩ := hG c l ha hcom ⟨M 0, W 0, n⟩ x w hM0 hx0 hw hw0
    -- the trace
    let P := ewmaTrace keep c ⟨M 0, W 0, n⟩ x
    let E : ℝ → List (Fl ℝ) := fun ε => [Fl.fin (l + ε * dl), M ε, W ε, moved ε x d]
    have hE0 : E 0 = [Fl.fin l, M 0, W 0, x] := by simp [E, moved_zero]
    have hb : ewmaBase c = 18 := by simp [ewmaBase, ha]
    have hlen : P.length = 28 := ewmaTrace_length keep c ha _ _
    have hreg : RegularTrace realFns P (E 0) := by
      rw [hE0]; exact ewma_trace_regular keep c ha l ⟨M 0, W 0, n⟩ x hM0 hx0 w hw hw0
    have hL : Tracks (fun ε => Fl.fin (l + ε * dl)) dl := by
      refine Or.inl ⟨fun ε => l + ε * dl, by simp, ?_⟩
      simpa using ((hasDerivAt_id (0 : ℝ)).mul_const dl).const_add l
    have htr := trace_tracks P E [dl, tm, tw, tx] 4 (by
        intro i hi
        match i, hi with
        | 0, _ => exact hL
        | 1, _ => exact hM
        | 2, _ => exact hW
        | 3, _ => exact hX) (by simp [E]) rfl (ewmaTrace_consts keep c ha _ _) hreg
    have hsame : ∀ᶠ ε in 𝓝 0, look (values realFns P (E ε)) 30 = (R ε).2.mean ∧ look (values realFns P (E ε)) 28 = (R ε).2.oldWt ∧
        look (values realFns P (E ε)) 31 = (R ε).1.value := by
      filter_upwards [hM.masks] with ε hε
      have e := hT realFns c (l + ε * dl) ⟨M ε, W ε, n⟩ (moved ε x d)
      rw [ewmaTrace_congr keep c c ⟨M ε, W ε, n⟩ ⟨M 0, W 0, n⟩ (moved ε x d) x rfl ⟨rfl, rfl, rfl, rfl⟩ hε
        ⟨moved_isNan ε x d, moved_feq ε x d⟩, hb] at e
      exact e
    let T := traceTangents realFns P (E 0) [dl, tm, tw, tx]
    have tM : Tracks (fun ε => (R ε).2.mean) (T.getD 30 0) :=
      (htr 30 (by rw [hlen]; omega)).congr (by filter_upwards [hsame] with ε h; exact h.1.symm)
    have tW : Tracks (fun ε => (R ε).2.oldWt) (T.getD 28 0) :=
      (htr 28 (by rw [hlen]; omega)).congr (by filter_upwards [hsame] with ε h; exact h.2.1.symm)
    have tR : Tracks (fun ε => (R ε).1.value) (T.getD 31 0) :=
      (htr 31 (by rw [hlen]; omega)).congr (by filter_upwards [hsame] with ε h; exact h.2.2.symm)
    obtain ⟨gl, gm, gw, gx, r1, r2, r3⟩ := ih ds gs (if x.isNan then n else n + 1) (fun ε => (R ε).2.mean) (fun ε => (R ε).2.oldWt)
      (T.getD 30 0) (T.getD 28 0) w' (by simpa using h1) (by simpa using h2) (fun y hy => hx y (by simp [hy])) tM tW
      (by simp only [hR0]; exact q1) (by simp only [hR0]; exact q2) q3
    obtain ⟨pl, pm, pw, px, p1, p2⟩ := ewmaPull_adjoint keep c ha l ⟨M 0, W 0, n⟩ x hM0 hx0 w hw hw0 g gm gw
    have hnobs : ∀ ε, (R ε).2 = ⟨(R ε).2.mean, (R ε).2.oldWt, if x.isNan then n else n + 1⟩ := by
      intro ε
      have := hN (C ε) ⟨M ε, W ε, n⟩ (moved ε x d)
      rw [moved_isNan] at this
      simp only at this
      rw [← this]
    refine ⟨pl + gl, pm, pw, px :: gx, ?_, by simp [r2], ?_⟩
    · simp only [List.map_cons, ewmaGrad]
      have hs : (step c ⟨M 0, W 0, n⟩ x).2 = ⟨(R 0).2.mean, (R 0).2.oldWt, if x.isNan then n else n + 1⟩ := by
        rw [← hnobs 0, hR0]
      rw [hs, r1, p1]
      simp
    · have hd := (tR.deriv.const_mul g).add r3
      have key := p2 dl tm tw tx
      have hpx : px * d = px * tx := by
        by_cases hxn : x = .nan
        · subst hxn
          have k0 := p2 0 0 0 0
          have k1 := p2 0 0 0 1
          have ag := tangents_agree (ewmaTrace keep c ⟨M 0, W 0, n⟩ .nan) 3
            (fun p hp env ts ts' h => opTangent_reads p 3 (missing_unread keep hk c ha _ p hp) env ts ts' h) [Fl.fin l, M 0, W 0, .nan] [0, 0, 0, 0] [0, 0, 0, 1] rfl
            (by
              intro i hi
              match i with
              | 0 => rfl
              | 1 => rfl
              | 2 => rfl
              | 3 => exact absurd rfl hi
              | _ + 4 => rfl)
          simp only [← ag 31 (by norm_num), ← ag 30 (by norm_num), ← ag 28 (by norm_num)] at k1
          have : px = 0 := by linarith
          rw [this]; ring
        · rw [tx1 hxn]
      refine (hd.congr_deriv ?_).congr_of_eventuallyEq ?_
      · simp only [dotL, List.zipWith_cons_cons, List.sum_cons, hpx] at key ⊢
        simp only [T, P, hE0]
        linarith
      · refine Filter.Eventually.of_forall fun ε => ?_
        have hs := hnobs ε
        simp only [weighted, List.zipWith_cons_cons, Mealy.outsFrom, List.map_cons, List.sum_cons, Pi.add_apply]
        congr 1
        simp only [R, C] at hs ⊢
        rw [← hs]

/-- The outputs of the unrolled Haiku EWMA, `com = exp(logcom)`. -/
noncomputable def haikuOutputs (c : EWMACfg ℝ) (logcom : ℝ) (xs : List (Fl ℝ)) : List (Fl ℝ) :=
  ((ewma { c with com := Real.exp logcom }).run xs).map (·.value)

/-- The outputs of the Flax EWMA. -/
noncomputable def flaxOutputs (c : EWMACfg ℝ) (logcom : ℝ) (xs : List (Fl ℝ)) : List (Fl ℝ) :=
  ((flaxEwma { c with com := Real.exp logcom }).run xs).map (·.value)

theorem gradient_is_derivative (keep : Nat) (step : EWMACfg ℝ → EWMAState ℝ → Fl ℝ → EWMAOut ℝ × EWMAState ℝ)
    (hk : keep ≠ 3) (hT : TraceOf keep step) (hG : GoodStep step) (hN : CountsObs step)
    (c : EWMACfg ℝ) (ha : c.adjust ≠ .linear) (l : ℝ) (hi : NumOrNan c.initial) (xs : List (Fl ℝ)) (gs : List ℝ)
    (hl : gs.length = xs.length) (hx : ∀ x ∈ xs, NumOrNan x) :
    ∃ gl : ℝ, ∃ gx : List ℝ, gx.length = xs.length ∧
      (ewmaGrad realFns keep step { c with com := Real.exp l } l ⟨c.initial, Fl.fin 1, 0⟩ xs (gs.map Fl.fin)).logcom = .fin gl ∧
      (ewmaGrad realFns keep step { c with com := Real.exp l } l ⟨c.initial, Fl.fin 1, 0⟩ xs (gs.map Fl.fin)).xs = gx.map Fl.fin ∧
      ∀ (dl : ℝ) (ds : List ℝ), ds.length = xs.length →
        HasDerivAt (fun ε => weighted gs (((⟨⟨c.initial, .fin 1, 0⟩, step { c with com := Real.exp (l + ε * dl) }⟩ : Mealy _ _ _).run
          (List.zipWith (moved ε) xs ds)).map (·.value))) (gl * dl + dotL gx ds) 0 := by
  have hmain := fun (dl : ℝ) (ds : List ℝ) (hd : ds.length = xs.length) =>
    ewma_gradient_from keep step hk hT hG hN { c with com := Real.exp l } ha l dl rfl xs ds gs 0 (fun _ => c.initial) (fun _ => .fin 1) 0 0 1
      hd hl hx (by
        rcases hi with h | ⟨a, h⟩
        · rw [h]; exact Tracks.nan
        · rw [h]; exact Tracks.const a) (Tracks.const 1) hi rfl (by norm_num)
  obtain ⟨gl, gm, gw, gx, e1, e2, -⟩ := hmain 0 (List.replicate xs.length 0) (by simp)
  refine ⟨gl, gx, e2, by rw [e1], by rw [e1], ?_⟩
  intro dl ds hd
  obtain ⟨gl', gm', gw', gx', f1, f2, f3⟩ := hmain dl ds hd
  rw [e1] at f1
  simp only [StreamGrad.mk.injEq, Fl.fin.injEq] at f1
  obtain ⟨rfl, rfl, rfl, f4⟩ := f1
  have hinj : gx = gx' := List.map_injective_iff.mpr (fun a b h => by simpa using h) f4
  subst hinj
  simpa [Mealy.run] using f3

/-- **C185 (Haiku).** `jax.grad` through the unrolled `EWMA` with `adjust` True or False: for every stream of numbers and missing
values, every loss that weighs the outputs, and every choice of `ignore_na`, `min_periods` and initial value, the gradients are numbers and they are the
derivatives of the loss: along every direction `(dl, ds)` of the parameter and of the data (a missing entry stays missing). -/
theorem C185_haiku_ewma_gradient (c : EWMACfg ℝ) (ha : c.adjust ≠ .linear) (logcom : ℝ) (hi : NumOrNan c.initial) (xs : List (Fl ℝ))
    (gs : List ℝ) (hl : gs.length = xs.length) (hx : ∀ x ∈ xs, NumOrNan x) :
    ∃ gl : ℝ, ∃ gx : List ℝ, gx.length = xs.length ∧
      (haikuEwmaGrad realFns { c with com := Real.exp logcom } logcom xs (gs.map Fl.fin)).logcom = .fin gl ∧
      (haikuEwmaGrad realFns { c with com := Real.exp logcom } logcom xs (gs.map Fl.fin)).xs = gx.map Fl.fin ∧
      ∀ (dl : ℝ) (ds : List ℝ), ds.length = xs.length →
        HasDerivAt (fun ε => weighted gs (haikuOutputs c (logcom + ε * dl) (List.zipWith (moved ε) xs ds))) (gl * dl + dotL gx ds) 0 :=
  gradient_is_derivative 13 ewmaStep (by norm_num) trace_haiku good_haiku counts_haiku c ha logcom hi xs gs hl hx

/-- **C185 (Flax).** The same for the Flax module. -/
theorem C185_flax_ewma_gradient (c : EWMACfg ℝ) (ha : c.adjust ≠ .linear) (logcom : ℝ) (hi : NumOrNan c.initial) (xs : List (Fl ℝ))
    (gs : List ℝ) (hl : gs.length = xs.length) (hx : ∀ x ∈ xs, NumOrNan x) :
    ∃ gl : ℝ, ∃ gx : List ℝ, gx.length = xs.length ∧
      (flaxEwmaGrad realFns { c with com := Real.exp logcom } logcom xs (gs.map Fl.fin)).logcom = .fin gl ∧
      (flaxEwmaGrad realFns { c with com := Real.exp logcom } logcom xs (gs.map Fl.fin)).xs = gx.map Fl.fin ∧
      ∀ (dl : ℝ) (ds : List ℝ), ds.length = xs.length →
        HasDerivAt (fun ε => weighted gs (flaxOutputs c (logcom + ε * dl) (List.zipWith (moved ε) xs ds))) (gl * dl + dotL gx ds) 0 :=
  gradient_is_derivative 1 flaxEwmaStep (by norm_num) trace_flax good_flax counts_flax c ha logcom hi xs gs hl hx

/-- **C185, missing entries.** The gradient with respect to a missing entry is 0. -/
theorem C185_missing_entry_gets_zero (c : EWMACfg ℝ) (ha : c.adjust ≠ .linear) (logcom : ℝ) (hi : NumOrNan c.initial) (xs : List (Fl ℝ))
    (gs : List ℝ) (hl : gs.length = xs.length) (hx : ∀ x ∈ xs, NumOrNan x) (i : Nat) (hn : xs[i]? = some .nan) :
    (haikuEwmaGrad realFns { c with com := Real.exp logcom } logcom xs (gs.map Fl.fin)).xs[i]? = some (.fin 0) ∧
    (flaxEwmaGrad realFns { c with com := Real.exp logcom } logcom xs (gs.map Fl.fin)).xs[i]? = some (.fin 0) := by
  obtain ⟨hlt, hge⟩ := List.getElem?_eq_some_iff.mp hn
  have hmv : ∀ ε : ℝ, List.zipWith (moved ε) xs ((List.replicate xs.length (0 : ℝ)).set i 1) = xs := by
    intro ε
    apply List.ext_getElem
    · simp
    · intro k h1 h2
      simp only [List.getElem_zipWith, List.getElem_set, List.getElem_replicate]
      split
      · subst_vars; rw [hge]; rfl
      · rcases hx _ (List.getElem_mem h2) with h | ⟨a, h⟩ <;> simp [h, moved]
  have hdot : ∀ gx : List ℝ, gx.length = xs.length → dotL gx ((List.replicate xs.length (0 : ℝ)).set i 1) = gx.getD i 0 := by
    intro gx h
    have hc : ∀ a b : List ℝ, dotL a b = dotL b a := by
      intro a b
      simp only [dotL]
      rw [List.zipWith_comm]
      congr 2
      funext x y
      ring
    rw [hc, dotL_set _ _ (by simp [h]) _ (by simpa using hlt), dotL_zeros]
    simp [List.getD, List.getElem?_replicate, hlt]
  constructor
  · obtain ⟨gl, gx, e1, -, e3, e4⟩ := C185_haiku_ewma_gradient c ha logcom hi xs gs hl hx
    have hd := e4 0 ((List.replicate xs.length (0 : ℝ)).set i 1) (by simp)
    simp only [hmv, mul_zero, add_zero, zero_add, hdot gx e1] at hd
    have h0 := hd.unique (hasDerivAt_const (0 : ℝ) _)
    rw [e3, List.getElem?_map]
    rw [List.getD_eq_getElem _ _ (by omega)] at h0
    rw [List.getElem?_eq_getElem (by omega), h0]
    rfl
  · obtain ⟨gl, gx, e1, -, e3, e4⟩ := C185_flax_ewma_gradient c ha logcom hi xs gs hl hx
    have hd := e4 0 ((List.replicate xs.length (0 : ℝ)).set i 1) (by simp)
    simp only [hmv, mul_zero, add_zero, zero_add, hdot gx e1] at hd
    have h0 := hd.unique (hasDerivAt_const (0 : ℝ) _)
    rw [e3, List.getElem?_map]
    rw [List.getD_eq_getElem _ _ (by omega)] at h0
    rw [List.getElem?_eq_getElem (by omega), h0]
    rfl

/-- A stream with a missing value meets the hypotheses. -/
example : ∃ gl : ℝ, ∃ gx : List ℝ, gx.length = 3 ∧
    (haikuEwmaGrad realFns ⟨Real.exp 0, .yes, false, 0, .nan, 1⟩ 0 [.fin 1, .nan, .fin 4] ([0, 0, 1].map Fl.fin)).logcom = .fin gl ∧
    (haikuEwmaGrad realFns ⟨Real.exp 0, .yes, false, 0, .nan, 1⟩ 0 [.fin 1, .nan, .fin 4] ([0, 0, 1].map Fl.fin)).xs = gx.map Fl.fin := by
  obtain ⟨gl, gx, h1, h2, h3, -⟩ := C185_haiku_ewma_gradient ⟨0, .yes, false, 0, .nan, 1⟩ (by simp) 0 (Or.inl rfl) [.fin 1, .nan, .fin 4]
    [0, 0, 1] rfl (by
      intro x hx
      simp only [List.mem_cons, List.not_mem_nil, or_false] at hx
      rcases hx with rfl | rfl | rfl
      · exact Or.inr ⟨1, rfl⟩
      · exact Or.inl rfl
      · exact Or.inr ⟨4, rfl⟩)
  exact ⟨gl, gx, h1, h2, h3⟩

/-- With `com = 1` (written with a rational exponential that is 1 at 0): `y = (1/4·1 + 4)/(1/4 + 1)`, so the gradient with respect
to the data is `(1/5, 0, 4/5)`. -/
example : (haikuEwmaGrad (K := ℚ) ⟨fun _ => 1, id⟩ ⟨1, .yes, false, 0, .nan, 1⟩ 0 [.fin 1, .nan, .fin 4] [.fin 0, .fin 0, .fin 1]).xs =
    [.fin (1 / 5), .fin 0, .fin (4 / 5)] := by decide +kernel

end Verif.Props
