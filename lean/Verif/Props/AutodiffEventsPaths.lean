import Verif.Props.AutodiffPaths
import Verif.Props.AutodiffEventsEWMA

/-! # C208: gradients through events around pipelines -/

namespace Verif.Props
open Verif Verif.Spec Verif.Model Verif.Model.Events Verif.Model.Autodiff Filter Topology
set_option linter.unusedSectionVars false

section Lists
variable {α β S I O : Type}

/-- The last value computed at an event, `v` before. -/
def held (v : α) : List Bool → List α → List α
  | true :: bs, y :: ys => y :: held y bs ys
  | true :: bs, [] => v :: held v bs []
  | false :: bs, ys => v :: held v bs ys
  | [], _ => []

theorem held_length : ∀ (bs : List Bool) (v : α) (ys : List α), (held v bs ys).length = bs.length := by
  intro bs
  induction bs with
  | nil => intro v ys; cases ys <;> rfl
  | cons b bs ih => intro v ys; cases b <;> cases ys <;> simp [held, ih]

theorem held_map (f : α → β) : ∀ (bs : List Bool) (v : α) (ys : List α), (held v bs ys).map f = held (f v) bs (ys.map f) := by
  intro bs
  induction bs with
  | nil => intro v ys; cases ys <;> rfl
  | cons b bs ih => intro v ys; cases b <;> cases ys <;> simp [held, ih]

theorem held_rel {R : α → β → Prop} : ∀ (bs : List Bool) (v : α) (w : β) (ys : List α) (zs : List β), R v w → List.Forall₂ R ys zs →
    List.Forall₂ R (held v bs ys) (held w bs zs) := by
  intro bs
  induction bs with
  | nil => intro v w ys zs _ h; cases h <;> exact .nil
  | cons b bs ih =>
    intro v w ys zs hv h
    cases b with
    | false => exact .cons hv (ih v w ys zs hv h)
    | true =>
      cases h with
      | nil => exact .cons hv (ih v w [] [] hv .nil)
      | cons h1 h2 => exact .cons h1 (ih _ _ _ _ h1 h2)

theorem uoe_held (m : Mealy S I O) (v : O) : ∀ (bs : List Bool) (xs : List I) (s : S) (c : Option O), xs.length = bs.length →
    (updateOnEvent m (fun _ => v)).outsFrom (s, c) (bs.zip xs) = held (c.getD v) bs (m.outsFrom s (eventInputs (bs.zip xs))) := by
  intro bs
  induction bs with
  | nil => intro xs s c _; rfl
  | cons b bs ih =>
    intro xs s c h
    obtain ⟨x, xs, rfl⟩ : ∃ x xs', xs = x :: xs' := by cases xs <;> simp_all
    have hl : xs.length = bs.length := by simpa using h
    rw [List.zip_cons_cons, Mealy.outsFrom, eventInputs_cons]
    cases b with
    | true => rw [uoe_step_event, ih _ _ _ hl]; rfl
    | false => rw [uoe_step_no, ih _ _ _ hl]; rfl

theorem pick_map (f : α → β) : ∀ (bs : List Bool) (xs : List α), eventInputs (bs.zip (xs.map f)) = (eventInputs (bs.zip xs)).map f := by
  intro bs
  induction bs with
  | nil => intro xs; rfl
  | cons b bs ih =>
    intro xs
    cases xs with
    | nil => rfl
    | cons x xs =>
      rw [List.map_cons, List.zip_cons_cons, List.zip_cons_cons, eventInputs_cons, eventInputs_cons, ih]
      cases b <;> rfl

theorem pick_rel {R : α → β → Prop} : ∀ (bs : List Bool) (ys : List α) (zs : List β), List.Forall₂ R ys zs →
    List.Forall₂ R (eventInputs (bs.zip ys)) (eventInputs (bs.zip zs)) := by
  intro bs
  induction bs with
  | nil => intro ys zs _; exact .nil
  | cons b bs ih =>
    intro ys zs h
    cases h with
    | nil => exact .nil
    | cons h1 h2 =>
      rw [List.zip_cons_cons, List.zip_cons_cons, eventInputs_cons, eventInputs_cons]
      cases b with
      | true => exact .cons h1 (ih _ _ h2)
      | false => exact ih _ _ h2

theorem held_dot : ∀ (bs : List Bool) (gs : List ℝ) (tv : ℝ) (ts : List ℝ), gs.length = bs.length → ts.length = (eventInputs (bs.zip gs)).length →
    dotL gs (held tv bs ts) = dotL (heldWeights 0 (· + ·) bs gs).2 ts + (heldWeights 0 (· + ·) bs gs).1 * tv := by
  intro bs
  induction bs with
  | nil => intro gs tv ts h _; obtain rfl : gs = [] := by simpa using h
           simp [dotL, heldWeights]
  | cons b bs ih =>
    intro gs tv ts h h'
    obtain ⟨g, gs, rfl⟩ : ∃ g gs', gs = g :: gs' := by cases gs <;> simp_all
    have hl : gs.length = bs.length := by simpa using h
    rw [List.zip_cons_cons, eventInputs_cons] at h'
    cases b with
    | true =>
      obtain ⟨t, ts, rfl⟩ : ∃ t ts', ts = t :: ts' := by cases ts <;> simp_all
      have := ih gs t ts hl (by simpa using h')
      simp only [dotL, held, heldWeights, if_true, List.zipWith_cons_cons, List.sum_cons] at this ⊢
      rw [this]; ring
    | false =>
      have := ih gs tv ts hl (by simpa using h')
      simp only [dotL, held, heldWeights, Bool.false_eq_true, if_false, List.zipWith_cons_cons, List.sum_cons] at this ⊢
      rw [this]; ring

/-- An output that is missing has no weight in the steps during which it is held. -/
theorem held_zero : ∀ (bs : List Bool) (gs : List ℝ) (v : Fl ℝ) (ys : List (Fl ℝ)), gs.length = bs.length → ys.length = (eventInputs (bs.zip gs)).length →
    (∀ t, (held v bs ys)[t]? = some .nan → gs.getD t 0 = 0) →
    (v = .nan → (heldWeights 0 (· + ·) bs gs).1 = 0) ∧ ∀ k, ys[k]? = some .nan → (heldWeights 0 (· + ·) bs gs).2.getD k 0 = 0 := by
  intro bs
  induction bs with
  | nil => intro gs v ys h h' _
           obtain rfl : gs = [] := by simpa using h
           exact ⟨fun _ => rfl, fun k _ => rfl⟩
  | cons b bs ih =>
    intro gs v ys h h' hg
    obtain ⟨g, gs, rfl⟩ : ∃ g gs', gs = g :: gs' := by cases gs <;> simp_all
    have hl : gs.length = bs.length := by simpa using h
    rw [List.zip_cons_cons, eventInputs_cons] at h'
    cases b with
    | true =>
      obtain ⟨y, ys, rfl⟩ : ∃ y ys', ys = y :: ys' := by cases ys <;> simp_all
      obtain ⟨i1, i2⟩ := ih gs y ys hl (by simpa using h') (fun t ht => by simpa using hg (t + 1) (by simpa [held] using ht))
      refine ⟨fun _ => rfl, fun k hk => ?_⟩
      cases k with
      | zero =>
        have hy : y = .nan := by simpa using hk
        have := hg 0 (by simp [held, hy])
        simp only [List.getD_cons_zero] at this
        simp [heldWeights, this, i1 hy]
      | succ k => simpa [heldWeights] using i2 k (by simpa using hk)
    | false =>
      obtain ⟨i1, i2⟩ := ih gs v ys hl (by simpa using h') (fun t ht => by simpa using hg (t + 1) (by simpa [held] using ht))
      refine ⟨fun hv => ?_, fun k hk => by simpa [heldWeights] using i2 k hk⟩
      have := hg 0 (by simp [held, hv])
      simp only [List.getD_cons_zero] at this
      simp [heldWeights, this, i1 hv]

theorem atEvents_nan : ∀ (bs : List Bool) (xs : List (Fl ℝ)) (gx : List ℝ), xs.length = bs.length → gx.length = (eventInputs (bs.zip xs)).length →
    (∀ k, (eventInputs (bs.zip xs))[k]? = some .nan → gx.getD k 0 = 0) → ∀ t, xs[t]? = some .nan → (atEvents 0 bs gx).getD t 0 = 0 := by
  intro bs
  induction bs with
  | nil => intro xs gx h _ _ t _; cases gx <;> rfl
  | cons b bs ih =>
    intro xs gx h h' hz t ht
    obtain ⟨x, xs, rfl⟩ : ∃ x xs', xs = x :: xs' := by cases xs <;> simp_all
    have hl : xs.length = bs.length := by simpa using h
    rw [List.zip_cons_cons, eventInputs_cons] at h' hz
    cases b with
    | true =>
      obtain ⟨g, gx, rfl⟩ : ∃ g gx', gx = g :: gx' := by cases gx <;> simp_all
      cases t with
      | zero => simpa [atEvents] using hz 0 (by simpa using ht)
      | succ t =>
        simpa [atEvents] using ih xs gx hl (by simpa using h') (fun k hk => by simpa using hz (k + 1) (by simpa using hk)) t (by simpa using ht)
    | false =>
      cases t with
      | zero => simp [atEvents]
      | succ t => simpa [atEvents] using ih xs gx hl (by simpa using h') (fun k hk => hz k (by simpa using hk)) t (by simpa using ht)

end Lists

/-- A module whose calls that do not contribute to the loss have no gradient, on the states `inv` and for cotangents `ok`. -/
structure Silent {S CS : Type} (d : Pulled S (Fl ℝ) (Fl ℝ) CS (Fl ℝ) (Fl ℝ)) (inv : S → Prop) (ok : CS → Prop) : Prop where
  zeroI : d.zeroI = .fin 0
  zeroO : d.zeroO = .fin 0
  addO : d.addO = (· + ·)
  init : inv d.m.init
  step : ∀ s x, inv s → NumOrNan x → inv (d.m.step s x).2 ∧ NumOrNan (d.m.step s x).1
  okZero : ok d.zeroS
  okPull : ∀ s x g c, inv s → NumOrNan x → ok c → ok (d.pull s x g c).1
  addL : ∀ c, ok c → d.addS d.zeroS c = c
  addR : ∀ c, ok c → d.addS c d.zeroS = c
  pull : ∀ s x, inv s → NumOrNan x → d.pull s x d.zeroO d.zeroS = (d.zeroS, d.zeroI)

/-- A pipeline of such modules is such a module. -/
theorem silent_chain {S₁ S₂ CS₁ CS₂ : Type} {d₁ : Pulled S₁ (Fl ℝ) (Fl ℝ) CS₁ (Fl ℝ) (Fl ℝ)} {d₂ : Pulled S₂ (Fl ℝ) (Fl ℝ) CS₂ (Fl ℝ) (Fl ℝ)}
    {inv₁ : S₁ → Prop} {inv₂ : S₂ → Prop} {ok₁ : CS₁ → Prop} {ok₂ : CS₂ → Prop} (h₁ : Silent d₁ inv₁ ok₁) (h₂ : Silent d₂ inv₂ ok₂) :
    Silent (d₁.chain d₂) (fun s => inv₁ s.1 ∧ inv₂ s.2) (fun c => ok₁ c.1 ∧ ok₂ c.2) where
  zeroI := h₁.zeroI
  zeroO := h₂.zeroO
  addO := h₂.addO
  init := ⟨h₁.init, h₂.init⟩
  step s x hs hx := by
    obtain ⟨a1, a2⟩ := h₁.step s.1 x hs.1 hx
    obtain ⟨b1, b2⟩ := h₂.step s.2 _ hs.2 a2
    exact ⟨⟨a1, b1⟩, b2⟩
  okZero := ⟨h₁.okZero, h₂.okZero⟩
  okPull s x g c hs hx hc := by
    obtain ⟨_, a2⟩ := h₁.step s.1 x hs.1 hx
    exact ⟨h₁.okPull s.1 x _ c.1 hs.1 hx hc.1, h₂.okPull s.2 _ g c.2 hs.2 a2 hc.2⟩
  addL c hc := Prod.ext (h₁.addL c.1 hc.1) (h₂.addL c.2 hc.2)
  addR c hc := Prod.ext (h₁.addR c.1 hc.1) (h₂.addR c.2 hc.2)
  pull s x hs hx := by
    obtain ⟨_, a2⟩ := h₁.step s.1 x hs.1 hx
    have e2 := h₂.pull s.2 _ hs.2 a2
    have e1 := h₁.pull s.1 x hs.1 hx
    have ez : d₂.zeroI = d₁.zeroO := by rw [h₂.zeroI, h₁.zeroO]
    have e1' : d₁.pull s.1 x (d₂.pull s.2 (d₁.m.step s.1 x).1 d₂.zeroO d₂.zeroS).2 d₁.zeroS = (d₁.zeroS, d₁.zeroI) := by rw [e2, ez, e1]
    refine Prod.ext (Prod.ext ?_ ?_) ?_
    · have q := congrArg Prod.fst e1'; exact q
    · have q := congrArg Prod.fst e2; exact q
    · have q := congrArg Prod.snd e1'; exact q

/-- The flag of each step, `flags t` at step `t`. -/
def flagged (flags : Nat → Bool) (xs : List (Fl ℝ)) : List (Bool × Fl ℝ) := ((List.range xs.length).map flags).zip xs

/-- The backward pass of an unrolled `UpdateOnEvent` of a module from a fresh state: src/wax/unroll.py:71-93, src/wax/modules/update_on_event.py:72-121. -/
def backOfEvents {S CS : Type} (d : Pulled S (Fl ℝ) (Fl ℝ) CS (Fl ℝ) (Fl ℝ)) (params : CS → List (Fl ℝ)) (flags : Nat → Bool) (xs gs : List (Fl ℝ)) :
    List (Fl ℝ) × List (Fl ℝ) :=
  let r := updateOnEventGradFrom d d.m.init (flagged flags xs) gs
  (params r.1.1, r.2)

/-- **C208**: when the gradients through a module or a pipeline `d` are right, so are the gradients through the unrolled `UpdateOnEvent` of it, for every pattern of
events and every initial output `v`. -/
theorem C208_update_on_event {S CS : Type} (d : Pulled S (Fl ℝ) (Fl ℝ) CS (Fl ℝ) (Fl ℝ)) (params : CS → List (Fl ℝ)) (inv : S → Prop) (ok : CS → Prop)
    (hs : Silent d inv ok) (θ : List ℝ) (m : List ℝ → Mealy S (Fl ℝ) (Fl ℝ))
    (h : TrueGradient θ (fun θ => (m θ).run) (backOf d params)) (flags : Nat → Bool) (v : Fl ℝ) (hv : NumOrNan v) :
    TrueGradient θ (fun θ xs => (updateOnEvent (m θ) (fun _ => v)).run (flagged flags xs)) (backOfEvents d params flags) := by
  intro Xs ds dθ hX hd
  have hlen := hX.length_eq
  obtain ⟨bs, hbs⟩ : ∃ bs : List Bool, bs = (List.range Xs.length).map flags := ⟨_, rfl⟩
  have hbl : bs.length = Xs.length := by simp [hbs]
  have hfl : ∀ ε, flagged flags (pathAt Xs ε) = bs.zip (pathAt Xs ε) := by intro ε; simp [flagged, hbs, pathAt]
  obtain ⟨Ys, ts, a1, a2, a3, a4⟩ := h (eventInputs (bs.zip Xs)) (eventInputs (bs.zip ds)) dθ (pick_rel bs _ _ hX) hd
  have hpick : ∀ ε, pathAt (eventInputs (bs.zip Xs)) ε = eventInputs (bs.zip (pathAt Xs ε)) := fun ε => (pick_map _ bs Xs).symm
  have hV : Tracks (fun _ : ℝ => v) 0 := by
    rcases hv with h | ⟨a, h⟩
    · rw [h]; exact Tracks.nan
    · rw [h]; exact Tracks.const a
  have hheld : ∀ ε, pathAt (held (fun _ => v) bs Ys) ε = held v bs (pathAt Ys ε) := fun ε => held_map _ bs _ Ys
  have hpl : ∀ {β γ : Type} (us : List β) (ws : List γ), us.length = ws.length → (eventInputs (bs.zip us)).length = (eventInputs (bs.zip ws)).length := by
    intro β γ us ws h
    exact (pick_rel (R := fun _ _ => True) bs us ws (List.forall₂_iff_get.mpr ⟨h, fun _ _ _ => trivial⟩)).length_eq
  refine ⟨held (fun _ => v) bs Ys, held 0 bs ts, held_rel bs _ _ _ _ hV a1, by rw [held_length, hbl], ?_, fun gs hl hg => ?_⟩
  · filter_upwards [a3] with ε hε
    rw [hfl, hheld, ← hε, hpick]
    exact uoe_held (m (shifted θ dθ ε)) v bs (pathAt Xs ε) (m (shifted θ dθ ε)).init none (by simp [pathAt, hbl])
  · have hgl : gs.length = bs.length := by rw [hl, hbl]
    have hYl : Ys.length = (eventInputs (bs.zip gs)).length := by rw [a2]; exact hpl Xs gs hl.symm
    rw [hheld] at hg
    obtain ⟨-, z2⟩ := held_zero bs gs v (pathAt Ys 0) hgl (by simp [pathAt, hYl]) hg
    have hmap : (bs.zip (pathAt Xs 0)).map (·.1) = bs := List.map_fst_zip (by simp [pathAt, hbl])
    have hwl : (heldWeights (0 : ℝ) (· + ·) bs gs).2.length = (eventInputs (bs.zip Xs)).length := by
      have := heldWeights_length (0 : ℝ) (· + ·) (bs.zip (pathAt Xs 0)) gs (by simp [pathAt, hl, hbl])
      rw [hmap] at this
      rw [this]
      exact hpl _ _ (by simp [pathAt])
    obtain ⟨gθ, gx, b1, b2, b3, b4, b5⟩ := a4 _ hwl z2
    rw [hpick] at b1 b4
    have hnum : ∀ e ∈ bs.zip (pathAt Xs 0), NumOrNan e.2 := fun e he => (path_pattern hX).self_of_nhds.2 _ (List.of_mem_zip he).2
    have hg2 := (update_on_event_grad_from d inv NumOrNan ok (fun s x h1 h2 => (hs.step s x h1 h2).1) hs.okZero hs.okPull hs.addL hs.addR hs.pull
      (bs.zip (pathAt Xs 0)) d.m.init (gs.map Fl.fin) hs.init hnum (by simp [pathAt, hl, hbl])).2
    rw [hmap, hs.zeroO, hs.addO, heldWeights_fin, hs.zeroI] at hg2
    simp only at hg2
    unfold backOf at b1
    simp only [Prod.mk.injEq] at b1
    have hgx : gx.length = (eventInputs (bs.zip ds)).length := by rw [b3]; exact hpl _ _ hlen
    obtain ⟨d1, d2⟩ := atEvents_dot bs gx ds (by rw [← hlen, hbl]) hgx
    refine ⟨gθ, atEvents 0 bs gx, ?_, b2, by rw [d2, hbl], ?_, ?_⟩
    · unfold backOfEvents
      rw [hfl]
      simp only [hg2, b1.1, b1.2, atEvents_fin]
    · exact atEvents_nan bs _ gx (by simp [pathAt, hbl]) (by rw [b3]; exact hpl _ _ (by simp [pathAt])) b4
    · rw [held_dot bs gs 0 ts hgl (by rw [← a1.length_eq, hYl]), b5, d1]; ring

/-! ## ConditionalComputation -/

theorem cc_held {S I O : Type} (m : Mealy S I O) (v : O) (event : I → Bool) : ∀ (xs : List I) (s : S) (c : Option O),
    (conditionalComputation m (fun _ => v) (some event)).outsFrom (s, c) xs = held (c.getD v) (xs.map event) (eventInputs ((xs.map event).zip (m.outsFrom s xs))) := by
  intro xs
  induction xs with
  | nil => intro s c; rfl
  | cons x xs ih =>
    intro s c
    have e : (conditionalComputation m (fun _ => v) (some event)).step (s, c) x =
        (if event x then (m.step s x).1 else c.getD v, ((m.step s x).2, some (if event x then (m.step s x).1 else c.getD v))) := rfl
    rw [Mealy.outsFrom, e, ih, List.map_cons, Mealy.outsFrom, List.zip_cons_cons, eventInputs_cons]
    cases event x <;> rfl

theorem selected_held {CO : Type} (zero : CO) (add : CO → CO → CO) : ∀ (bs : List Bool) (gs : List CO), gs.length = bs.length →
    selectedWeights zero add bs gs = ((heldWeights zero add bs gs).1, atEvents zero bs (heldWeights zero add bs gs).2) := by
  intro bs
  induction bs with
  | nil => intro gs _; rfl
  | cons b bs ih =>
    intro gs h
    obtain ⟨g, gs, rfl⟩ : ∃ g gs', gs = g :: gs' := by cases gs <;> simp_all
    have := ih gs (by simpa using h)
    cases b <;> simp [selectedWeights, heldWeights, atEvents, this]

/-- The backward pass of an unrolled Flax `ConditionalComputation` of a module from fresh variables: src/wax/unroll.py:71-93,
src/wax/flax/core/streaming_transforms.py:488-528. -/
def backOfConditional {S CS : Type} (d : Pulled S (Fl ℝ) (Fl ℝ) CS (Fl ℝ) (Fl ℝ)) (params : CS → List (Fl ℝ)) (event : Fl ℝ → Bool) (xs gs : List (Fl ℝ)) :
    List (Fl ℝ) × List (Fl ℝ) :=
  let r := conditionalGradFrom d event d.m.init xs gs
  (params r.1.1, r.2)

/-- **C208**, Flax: when the gradients through a module or a pipeline `d` are right, so are the gradients through the unrolled `ConditionalComputation` of it, for every
event that does not change along small moves of the inputs, and every initial output `v`; on the streams of the lengths `P`. -/
theorem C208_conditional_computation_on {S CS : Type} (d : Pulled S (Fl ℝ) (Fl ℝ) CS (Fl ℝ) (Fl ℝ)) (params : CS → List (Fl ℝ)) (hz : d.zeroO = .fin 0)
    (ha : d.addO = (· + ·)) (P : Nat → Prop) (θ : List ℝ) (m : List ℝ → Mealy S (Fl ℝ) (Fl ℝ)) (h : TrueGradientOn P θ (fun θ => (m θ).run) (backOf d params))
    (event : Fl ℝ → Bool) (he : ∀ (X : ℝ → Fl ℝ) (t : ℝ), Tracks X t → ∀ᶠ ε in 𝓝 0, event (X ε) = event (X 0)) (v : Fl ℝ) (hv : NumOrNan v) :
    TrueGradientOn P θ (fun θ xs => (conditionalComputation (m θ) (fun _ => v) (some event)).run xs) (backOfConditional d params event) := by
  intro Xs ds dθ hP hX hd
  have hlen := hX.length_eq
  obtain ⟨bs, hbs⟩ : ∃ bs : List Bool, bs = (pathAt Xs 0).map event := ⟨_, rfl⟩
  have hbl : bs.length = Xs.length := by simp [hbs, pathAt]
  have hev : ∀ᶠ ε in 𝓝 0, (pathAt Xs ε).map event = bs := by
    rw [hbs]
    clear hd hlen hbs hbl hP
    induction hX with
    | nil => exact Filter.Eventually.of_forall fun _ => rfl
    | cons hX _ ih =>
      filter_upwards [ih, he _ _ hX] with ε h1 h2
      simp only [pathAt, List.map_cons] at h1 ⊢
      rw [h1, h2]
  obtain ⟨Ys, ts, a1, a2, a3, a4⟩ := h Xs ds dθ hP hX hd
  have hV : Tracks (fun _ : ℝ => v) 0 := by
    rcases hv with h | ⟨a, h⟩
    · rw [h]; exact Tracks.nan
    · rw [h]; exact Tracks.const a
  have hpl : ∀ {β γ : Type} (us : List β) (ws : List γ), us.length = ws.length → (eventInputs (bs.zip us)).length = (eventInputs (bs.zip ws)).length := by
    intro β γ us ws h
    exact (pick_rel (R := fun _ _ => True) bs us ws (List.forall₂_iff_get.mpr ⟨h, fun _ _ _ => trivial⟩)).length_eq
  have hrel := pick_rel bs _ _ a1
  have hheld : ∀ ε, pathAt (held (fun _ => v) bs (eventInputs (bs.zip Ys))) ε = held v bs (eventInputs (bs.zip (pathAt Ys ε))) := by
    intro ε
    unfold pathAt
    rw [held_map, pick_map]
  refine ⟨held (fun _ => v) bs (eventInputs (bs.zip Ys)), held 0 bs (eventInputs (bs.zip ts)), held_rel bs _ _ _ _ hV hrel, by rw [held_length, hbl], ?_,
    fun gs hl hg => ?_⟩
  · filter_upwards [a3, hev] with ε hε hb
    rw [hheld, ← hε, ← hb]
    exact cc_held (m (shifted θ dθ ε)) v event (pathAt Xs ε) (m (shifted θ dθ ε)).init none
  · have hgl : gs.length = bs.length := by rw [hl, hbl]
    rw [hheld] at hg
    obtain ⟨-, z2⟩ := held_zero bs gs v (eventInputs (bs.zip (pathAt Ys 0))) hgl (hpl _ _ (by simp [pathAt, a2, hl])) hg
    have hts : ts.length = bs.length := by rw [← a1.length_eq, a2, hbl]
    have hwl : (heldWeights (0 : ℝ) (· + ·) bs gs).2.length = (eventInputs (bs.zip ts)).length := by
      have hmap : (bs.zip (pathAt Xs 0)).map (·.1) = bs := List.map_fst_zip (by simp [pathAt, hbl])
      have := heldWeights_length (0 : ℝ) (· + ·) (bs.zip (pathAt Xs 0)) gs (by simp [pathAt, hl, hbl])
      rw [hmap] at this
      rw [this]
      exact hpl _ _ (by simp [pathAt, hts, hbl])
    obtain ⟨d1, d2⟩ := atEvents_dot bs (heldWeights (0 : ℝ) (· + ·) bs gs).2 ts hts hwl
    obtain ⟨gθ, gx, b1, b2, b3, b4, b5⟩ := a4 (atEvents 0 bs (heldWeights (0 : ℝ) (· + ·) bs gs).2) (by rw [d2, hbl])
      (atEvents_nan bs _ _ (by simp [pathAt, a2, hbl]) (by rw [hwl]; exact hpl _ _ (by simp [pathAt, a1.length_eq])) z2)
    have hg2 := conditional_grad_from d event (pathAt Xs 0) d.m.init (gs.map Fl.fin) (by simp [pathAt, hl])
    rw [← hbs, hz, ha, selected_held _ _ _ _ (by simp [hgl]), heldWeights_fin] at hg2
    simp only [atEvents_fin] at hg2
    unfold backOf at b1
    simp only [Prod.mk.injEq] at b1
    refine ⟨gθ, gx, ?_, b2, b3, b4, ?_⟩
    · unfold backOfConditional
      simp only [hg2, b1.1, b1.2]
    · rw [held_dot bs gs 0 _ hgl (hpl _ _ (by rw [hts, hgl])), ← d1, b5]; ring

/-- **C208**, Flax: when the gradients through a module or a pipeline `d` are right, so are the gradients through the unrolled `ConditionalComputation` of it, for every
event that does not change along small moves of the inputs, and every initial output `v`. -/
theorem C208_conditional_computation {S CS : Type} (d : Pulled S (Fl ℝ) (Fl ℝ) CS (Fl ℝ) (Fl ℝ)) (params : CS → List (Fl ℝ)) (hz : d.zeroO = .fin 0)
    (ha : d.addO = (· + ·)) (θ : List ℝ) (m : List ℝ → Mealy S (Fl ℝ) (Fl ℝ)) (h : TrueGradient θ (fun θ => (m θ).run) (backOf d params))
    (event : Fl ℝ → Bool) (he : ∀ (X : ℝ → Fl ℝ) (t : ℝ), Tracks X t → ∀ᶠ ε in 𝓝 0, event (X ε) = event (X 0)) (v : Fl ℝ) (hv : NumOrNan v) :
    TrueGradient θ (fun θ xs => (conditionalComputation (m θ) (fun _ => v) (some event)).run xs) (backOfConditional d params event) :=
  fun Xs ds dθ hX hd => C208_conditional_computation_on d params hz ha (fun _ => True) θ m (h.on _) event he v hv Xs ds dθ trivial hX hd

/-- **C208**, an example: the Flax EWMA of an EWMA, updated when the input is observed. -/
theorem C208_conditional_observed (c₁ c₂ : EWMACfg ℝ) (a₁ : c₁.adjust ≠ .linear) (a₂ : c₂.adjust ≠ .linear) (i₁ : NumOrNan c₁.initial) (i₂ : NumOrNan c₂.initial)
    (l₁ l₂ : ℝ) (v : Fl ℝ) (hv : NumOrNan v) :
    TrueGradient [l₁, l₂]
      (fun θ xs => (conditionalComputation (((ewmaPulled realFns 1 flaxEwmaStep { c₁ with com := Real.exp (θ.getD 0 0) } (θ.getD 0 0)).project (·.value)).chain
        ((ewmaPulled realFns 1 flaxEwmaStep { c₂ with com := Real.exp (θ.getD 1 0) } (θ.getD 1 0)).project (·.value))).m (fun _ => v) (some fun x => !x.isNan)).run xs)
      (backOfConditional (((ewmaPulled realFns 1 flaxEwmaStep { c₁ with com := Real.exp l₁ } l₁).project (·.value)).chain
        ((ewmaPulled realFns 1 flaxEwmaStep { c₂ with com := Real.exp l₂ } l₂).project (·.value))) (fun c => [c.1.2.2, c.2.2.2]) fun x => !x.isNan) := by
  refine C208_conditional_computation _ _ rfl rfl [l₁, l₂] (fun θ => (((ewmaPulled realFns 1 flaxEwmaStep { c₁ with com := Real.exp (θ.getD 0 0) }
    (θ.getD 0 0)).project (·.value)).chain ((ewmaPulled realFns 1 flaxEwmaStep { c₂ with com := Real.exp (θ.getD 1 0) } (θ.getD 1 0)).project (·.value))).m)
    ?_ _ (fun X t hX => by filter_upwards [hX.masks] with ε h; rw [h.1]) v hv
  have hE : ∀ (c : EWMACfg ℝ) (l : ℝ) (xs : List (Fl ℝ)), ((ewmaPulled realFns 1 flaxEwmaStep { c with com := Real.exp l } l).project (·.value)).m.run xs =
      flaxOutputs c l xs := fun c l xs => (project_grad (ewmaPulled realFns 1 flaxEwmaStep { c with com := Real.exp l } l) (·.value) xs _ []).2
  have h := C207_pipeline _ _ logcomOf logcomOf [l₁] [l₂] _ _ (funext fun xs => (hE c₁ l₁ xs).symm) (C207_ewma c₁ a₁ i₁ l₁).2 (C207_ewma c₂ a₂ i₂ l₂).2
  intro Xs ds dθ hX hd
  obtain ⟨d₁, d₂, rfl⟩ := List.length_eq_two.mp hd
  have h' := h Xs ds [d₁, d₂] hX rfl
  simp only [← hE] at h'
  simp only [Pulled.chain, chain_run]
  exact h'

/-! ## Modules without gradient at the calls that do not contribute -/

theorem silent_ewma (c : EWMACfg ℝ) (ha : c.adjust ≠ .linear) (hi : NumOrNan c.initial) (logcom : ℝ) :
    Silent ((ewmaPulled realFns 13 ewmaStep { c with com := Real.exp logcom } logcom).project (·.value)) EwmaReach (fun _ => True) where
  zeroI := rfl
  zeroO := rfl
  addO := rfl
  init := ⟨hi, 1, rfl, by norm_num⟩
  step s x hs hx := by
    obtain ⟨hm, w, hw, hw0⟩ := hs
    obtain ⟨g1, g2, _⟩ := good_haiku { c with com := Real.exp logcom } logcom ha rfl s x w hm hx hw hw0
    refine ⟨⟨g1, g2⟩, ?_⟩
    show NumOrNan (ewmaStep { c with com := Real.exp logcom } s x).1.value
    rw [ewma_value]
    split
    · split
      · exact g1
      · exact Or.inl rfl
    · exact g1
  okZero := trivial
  okPull _ _ _ _ _ _ _ := trivial
  addL k _ := by
    show (_, _, _) = _
    simp only [ewmaPulled, zero_add_fl, Pulled.project]
  addR k _ := by
    show (_, _, _) = _
    simp only [ewmaPulled, add_zero_fl, Pulled.project]
  pull s x hs hx := ewmaPulled_zero 13 ewmaStep { c with com := Real.exp logcom } ha logcom s x hs hx

/-- The states of a Buffer: its length, and numbers or missing values. -/
def BufReach (n : Nat) (s : BufState (Fl ℝ)) : Prop := s.buffer.length = n ∧ ∀ v ∈ s.buffer, NumOrNan v

theorem buf_reach (n : Nat) (h0 : 0 < n) (s : BufState (Fl ℝ)) (x : Fl ℝ) (hs : BufReach n s) (hx : NumOrNan x) :
    BufReach n (bufferApply n x s).2 ∧ ∀ v ∈ (bufferApply n x s).1, NumOrNan v := by
  obtain ⟨p1, p2⟩ := bufferApply_push n h0 s hs.1 x
  have hv : ∀ v ∈ s.buffer.drop 1 ++ [x], NumOrNan v := by
    intro v hv
    rw [List.mem_append] at hv
    rcases hv with hv | hv
    · exact hs.2 v (List.mem_of_mem_drop hv)
    · rw [List.mem_singleton] at hv; rw [hv]; exact hx
  exact ⟨⟨by rw [p2]; have := hs.1; simp; omega, by rw [p2]; exact hv⟩, by rw [p1]; exact hv⟩

theorem bufferPull_length (n : Nat) (h0 : 0 < n) (l : List (Fl ℝ)) (hl : l.length = n) : (bufferPull l).1.length = n := by
  simp only [bufferPull, List.length_append, List.length_drop, List.length_take, List.length_set]
  omega

theorem buffer_init_reach (n : Nat) (fill : Fl ℝ) (hf : NumOrNan fill) : BufReach n (bufferInit n fill) :=
  ⟨by simp [bufferInit], fun v hv => by
    have : v = fill := by simpa [bufferInit] using (List.eq_of_mem_replicate (by simpa [bufferInit] using hv : v ∈ List.replicate n fill))
    rw [this]; exact hf⟩

theorem windowMean_number (mp : Nat) (b : List (Fl ℝ)) (hb : ∀ v ∈ b, NumOrNan v) : NumOrNan (windowMean mp b) := by
  have hsum : ∀ b : List (Fl ℝ), (∀ v ∈ b, NumOrNan v) → ∃ a : ℝ, (b.map fun v => if v.isNan then (0 : Fl ℝ) else v).sum = .fin a ∧
      ((b.map fun v => if v.isNan then 0 else 1).sum = 0 → a = 0) := by
    intro b
    induction b with
    | nil => intro _; exact ⟨0, rfl, fun _ => rfl⟩
    | cons v b ih =>
      intro hb
      obtain ⟨a, a1, a2⟩ := ih fun w hw => hb w (by simp [hw])
      rcases hb v (by simp) with rfl | ⟨r, rfl⟩
      · refine ⟨a, ?_, fun h => a2 (by simpa [Fl.isNan] using h)⟩
        rw [List.map_cons, List.sum_cons, a1]
        exact zero_add_fl _
      · refine ⟨r + a, ?_, fun h => by simp [Fl.isNan] at h⟩
        rw [List.map_cons, List.sum_cons, a1]
        exact Fl.fin_add r a
  obtain ⟨a, a1, a2⟩ := hsum b hb
  unfold windowMean
  simp only [a1]
  split
  · by_cases hc : (b.map fun v => if v.isNan then 0 else 1).sum = 0
    · rw [a2 hc, hc]
      left
      simp [Fl.fin_div, Fl.infSign]
    · rw [Fl.fin_div_of_ne _ (by exact_mod_cast hc)]
      exact Or.inr ⟨_, rfl⟩
  · exact Or.inl rfl

theorem silent_rolling_mean (h mp : Nat) (h0 : 0 < h) : Silent (rollingMeanPulled (K := ℝ) h mp) (BufReach h) (fun c => c.length = h) where
  zeroI := rfl
  zeroO := rfl
  addO := rfl
  init := buffer_init_reach h .nan (Or.inl rfl)
  step s x hs hx := ⟨(buf_reach h h0 s x hs hx).1, windowMean_number mp _ (buf_reach h h0 s x hs hx).2⟩
  okZero := by simp [rollingMeanPulled]
  okPull s x g c hs _ hc := by
    obtain ⟨p1, _⟩ := bufferApply_push h h0 s hs.1 x
    refine bufferPull_length h h0 _ ?_
    have := hs.1
    rw [p1]
    simp only [meanPull, List.length_zipWith, List.length_map, List.length_append, List.length_drop, List.length_singleton, hc, this]
    omega
  addL c hc := (zipWith_zeros h c hc).1
  addR c hc := (zipWith_zeros h c hc).2
  pull s x hs _ := rollingPulled_zero h mp h0 s hs.1 x

theorem rowPull_zero (i : Nat) (b : List (Fl ℝ)) : rowPull i b (Fl.fin 0) = List.replicate b.length (Fl.fin 0) := by
  unfold rowPull
  apply List.ext_getElem
  · simp
  · intro j h1 h2
    rw [List.getElem_set]
    split <;> simp

theorem silent_lag (k : Nat) (fill : Fl ℝ) (hf : NumOrNan fill) :
    Silent ((lagPulled k fill).project (·.getD .nan)) (BufReach (k + 1)) (fun c => c.length = k + 1) where
  zeroI := rfl
  zeroO := rfl
  addO := rfl
  init := buffer_init_reach (k + 1) fill hf
  step s x hs hx := by
    refine ⟨(buf_reach (k + 1) (by omega) s x hs hx).1, ?_⟩
    show NumOrNan ((bufferApply (k + 1) x s).1[0]?.getD .nan)
    cases hb : (bufferApply (k + 1) x s).1[0]? with
    | none => exact Or.inl rfl
    | some v => exact (buf_reach (k + 1) (by omega) s x hs hx).2 v (List.mem_of_getElem? hb)
  okZero := by simp [lagPulled, Pulled.project]
  okPull s x g c hs _ hc := by
    obtain ⟨p1, _⟩ := bufferApply_push (k + 1) (by omega) s hs.1 x
    refine bufferPull_length (k + 1) (by omega) _ ?_
    have := hs.1
    rw [p1]
    simp [lagPull, rowPull, hc, this]
  addL c hc := (zipWith_zeros (k + 1) c hc).1
  addR c hc := (zipWith_zeros (k + 1) c hc).2
  pull s x hs _ := by
    obtain ⟨p1, _⟩ := bufferApply_push (k + 1) (by omega) s hs.1 x
    have hl : (bufferApply (k + 1) x s).1.length = k + 1 := by rw [p1]; have := hs.1; simp; omega
    show bufferPull (List.zipWith (· + ·) (lagPull (bufferApply (k + 1) x s).1 (Fl.fin 0)) (List.replicate (k + 1) (Fl.fin 0))) = _
    rw [lagPull, rowPull_zero, hl, (zipWith_zeros (k + 1) _ (by simp)).1, bufferPull_zeros (k + 1) (by omega)]
    rfl

theorem silent_diff : Silent ((diffPulled (K := ℝ)).project (·.getD .nan)) (BufReach 2) (fun c => c.length = 2) where
  zeroI := rfl
  zeroO := rfl
  addO := rfl
  init := buffer_init_reach 2 .nan (Or.inl rfl)
  step s x hs hx := by
    obtain ⟨r1, r2⟩ := buf_reach 2 (by omega) s x hs hx
    refine ⟨r1, ?_⟩
    show NumOrNan ((do some ((← (bufferApply 2 x s).1.getLast?) - (← (bufferApply 2 x s).1[0]?)) : Option (Fl ℝ)).getD .nan)
    cases hb : (bufferApply 2 x s).1.getLast? with
    | none => exact Or.inl rfl
    | some v =>
      cases hb' : (bufferApply 2 x s).1[0]? with
      | none => exact Or.inl rfl
      | some w =>
        show NumOrNan (v - w)
        rcases r2 v (List.mem_of_getLast? hb) with rfl | ⟨a, rfl⟩
        · exact Or.inl rfl
        · rcases r2 w (List.mem_of_getElem? hb') with rfl | ⟨b, rfl⟩
          · exact Or.inl rfl
          · rw [Fl.fin_sub]; exact Or.inr ⟨_, rfl⟩
  okZero := by simp [diffPulled, Pulled.project]
  okPull s x g c hs _ hc := by
    obtain ⟨p1, _⟩ := bufferApply_push 2 (by omega) s hs.1 x
    refine bufferPull_length 2 (by omega) _ ?_
    have := hs.1
    rw [p1]
    simp [diffPull, rowPull, hc, this]
  addL c hc := (zipWith_zeros 2 c hc).1
  addR c hc := (zipWith_zeros 2 c hc).2
  pull s x hs _ := by
    obtain ⟨p1, _⟩ := bufferApply_push 2 (by omega) s hs.1 x
    have hl : (bufferApply 2 x s).1.length = 2 := by rw [p1]; have := hs.1; simp; omega
    show bufferPull (List.zipWith (· + ·) (diffPull (bufferApply 2 x s).1 (Fl.fin 0)) (List.replicate 2 (Fl.fin 0))) = _
    rw [diffPull, Fl.neg_fin, neg_zero, rowPull_zero, rowPull_zero, hl, (zipWith_zeros 2 _ (by simp)).1, (zipWith_zeros 2 _ (by simp)).1,
      bufferPull_zeros 2 (by omega)]
    rfl

theorem silent_ffill : Silent (ffillPulled (K := ℝ)) NumOrNan (fun _ => True) where
  zeroI := rfl
  zeroO := rfl
  addO := rfl
  init := Or.inl rfl
  step s x hs hx := by
    have : NumOrNan (if x.isNan then s else x) := by split <;> assumption
    exact ⟨this, this⟩
  okZero := trivial
  okPull _ _ _ _ _ _ _ := trivial
  addL c _ := zero_add_fl c
  addR c _ := add_zero_fl c
  pull s x _ _ := by
    show ((if x.isNan then Fl.fin 0 + Fl.fin 0 else Fl.fin 0, if x.isNan then Fl.fin 0 else Fl.fin 0 + Fl.fin 0) : Fl ℝ × Fl ℝ) = _
    rw [zero_add_fl]
    simp [ffillPulled]

/-- **C208**, an example: `UpdateOnEvent(lambda x: EWMA(...)(RollingMean(h, mp)(Diff()(Ffill()(x)))))`. -/
theorem C208_four_modules (c : EWMACfg ℝ) (ha : c.adjust ≠ .linear) (hi : NumOrNan c.initial) (h mp : Nat) (h0 : 0 < h) (logcom : ℝ)
    (flags : Nat → Bool) (v : Fl ℝ) (hv : NumOrNan v) :
    TrueGradient [logcom]
      (fun θ xs => (updateOnEvent ((((ffillPulled (K := ℝ)).chain (diffPulled.project (·.getD .nan))).chain (rollingMeanPulled h mp)).chain
        ((ewmaPulled realFns 13 ewmaStep { c with com := Real.exp (θ.headD 0) } (θ.headD 0)).project (·.value))).m (fun _ => v)).run (flagged flags xs))
      (backOfEvents (((((ffillPulled (K := ℝ)).chain (diffPulled.project (·.getD .nan))).chain (rollingMeanPulled h mp))).chain
        ((ewmaPulled realFns 13 ewmaStep { c with com := Real.exp logcom } logcom).project (·.value))) (fun c => [c.2.2.2]) flags) := by
  refine C208_update_on_event _ _ _ _
    (silent_chain (silent_chain (silent_chain silent_ffill silent_diff) (silent_rolling_mean h mp h0)) (silent_ewma c ha hi logcom)) [logcom]
    (fun θ => ((((ffillPulled (K := ℝ)).chain (diffPulled.project (·.getD .nan))).chain (rollingMeanPulled h mp)).chain
        ((ewmaPulled realFns 13 ewmaStep { c with com := Real.exp (θ.headD 0) } (θ.headD 0)).project (·.value))).m) ?_ flags v hv
  have hq := C207_four_modules c ha hi h mp h0 logcom
  have hr : ∀ xs : List (Fl ℝ), (diffPulled.project (·.getD .nan)).m.run xs = ((diff (K := ℝ)).run xs).map (·.getD .nan) := fun xs =>
    (project_grad (diffPulled (K := ℝ)) (·.getD .nan) xs _ []).2
  have hE : ∀ (l : ℝ) (xs : List (Fl ℝ)), ((ewmaPulled realFns 13 ewmaStep { c with com := Real.exp l } l).project (·.value)).m.run xs =
      haikuOutputs c l xs := fun l xs => (project_grad (ewmaPulled realFns 13 ewmaStep { c with com := Real.exp l } l) (·.value) xs _ []).2
  have e : (fun (θ : List ℝ) (xs : List (Fl ℝ)) => ((((ffillPulled (K := ℝ)).chain (diffPulled.project (·.getD .nan))).chain (rollingMeanPulled h mp)).chain
        ((ewmaPulled realFns 13 ewmaStep { c with com := Real.exp (θ.headD 0) } (θ.headD 0)).project (·.value))).m.run xs) =
      fun θ xs => haikuOutputs c (θ.headD 0) ((rollingMean h mp).run (((diff (K := ℝ)).run ((ffill (K := ℝ)).run xs)).map (·.getD .nan))) := by
    funext θ xs
    rw [← hr, ← hE]
    simp only [Pulled.chain, chain_run]
    rfl
  rw [← e] at hq
  exact hq

/-- Ffill and Diff called at steps 0, 2 and 3 only; the input of step 1 is not seen. -/
example : (updateOnEventGrad ((ffillPulled (K := ℚ)).chain (diffPulled.project (·.getD .nan)))
    [(true, .fin 1), (false, .fin 9), (true, .fin 4), (true, .fin 2), (false, .nan)] [.fin 0, .fin 0, .fin 1, .fin 1, .fin 5]) =
    [.fin (-1), .fin 0, .fin (-5), .fin 6, .fin 0] := by decide +kernel

end Verif.Props
