import Verif.Model.AutodiffFlaxPipes
import Verif.Props.AutodiffEventsPaths
import Verif.Props.AutodiffFlax

/-! # C210: gradients through pipelines of Flax modules -/

namespace Verif.Props
open Verif Verif.Spec Verif.Model Verif.Model.Events Verif.Model.Autodiff Filter Topology
set_option linter.unusedSectionVars false

/-- The same outputs and the same gradients on the streams of the lengths `P`. -/
theorem TrueGradient.transfer {P : Nat → Prop} {θ : List ℝ} {run run' : List ℝ → List (Fl ℝ) → List (Fl ℝ)}
    {back back' : List (Fl ℝ) → List (Fl ℝ) → List (Fl ℝ) × List (Fl ℝ)} (h : TrueGradient θ run back)
    (hr : ∀ θ xs, P xs.length → run' θ xs = run θ xs) (hb : ∀ xs gs, P xs.length → back' xs gs = back xs gs) : TrueGradientOn P θ run' back' := by
  intro Xs ds dθ hP hX hd
  obtain ⟨Ys, ts, h1, h2, h3, h4⟩ := h Xs ds dθ hX hd
  have hl : ∀ ε, P (pathAt Xs ε).length := fun ε => by simpa [pathAt] using hP
  refine ⟨Ys, ts, h1, h2, ?_, fun gs hg hn => ?_⟩
  · filter_upwards [h3] with ε hε
    rw [hr _ _ (hl ε), hε]
  · rw [hb _ _ (hl 0)]
    exact h4 gs hg hn

open Classical in
/-- **C210**, what it means: on a stream of numbers and missing values of one of the lengths, `back` gives the derivative of the weighted sum of the outputs that are not
missing, along every direction of the inputs and of the parameters. -/
theorem C210_true_gradient_is_derivative (P : Nat → Prop) (θ : List ℝ) (run : List ℝ → List (Fl ℝ) → List (Fl ℝ))
    (back : List (Fl ℝ) → List (Fl ℝ) → List (Fl ℝ) × List (Fl ℝ)) (h : TrueGradientOn P θ run back) (xs : List (Fl ℝ)) (hP : P xs.length)
    (hx : ∀ x ∈ xs, NumOrNan x) (gs : List ℝ) (hl : gs.length = xs.length) (hg : ∀ t, (run θ xs)[t]? = some .nan → gs.getD t 0 = 0) :
    ∃ gθ gx : List ℝ, back xs (gs.map Fl.fin) = (gθ.map Fl.fin, gx.map Fl.fin) ∧ gθ.length = θ.length ∧ gx.length = xs.length ∧
      ∀ dθ ds : List ℝ, dθ.length = θ.length → ds.length = xs.length →
        HasDerivAt (fun ε => weighted gs (run (shifted θ dθ ε) (List.zipWith (moved ε) xs ds))) (dotL gθ dθ + dotL gx ds) 0 := by
  have hall : TrueGradient θ (fun θ xs => if P xs.length then run θ xs else xs.map fun _ => .nan)
      (fun xs gs => if P xs.length then back xs gs else (θ.map fun _ => .fin 0, xs.map fun _ => .fin 0)) := by
    intro Xs ds dθ hX hd
    have hlen : ∀ ε, (pathAt Xs ε).length = Xs.length := fun ε => by simp [pathAt]
    by_cases hp : P Xs.length
    · obtain ⟨Ys, ts, h1, h2, h3, h4⟩ := h Xs ds dθ hp hX hd
      refine ⟨Ys, ts, h1, h2, ?_, fun gs hg hn => ?_⟩
      · filter_upwards [h3] with ε hε
        simp only [hlen, if_pos hp, hε]
      · simp only [hlen, if_pos hp]
        exact h4 gs hg hn
    · refine ⟨Xs.map fun _ => fun _ => .nan, Xs.map fun _ => 0, ?_, by simp, Filter.Eventually.of_forall fun ε => ?_, fun gs hg hn => ?_⟩
      · rw [List.forall₂_map_left_iff, List.forall₂_map_right_iff, List.forall₂_same]
        exact fun _ _ => Tracks.nan
      · simp only [hlen, if_neg hp]
        simp [pathAt]
        exact List.map_const'
      · have hz : ∀ (l m : List ℝ), (∀ y ∈ l, y = 0) → dotL l m = 0 := by
          intro l
          induction l with
          | nil => intro m _; simp [dotL]
          | cons y l ih =>
            intro m hy
            cases m with
            | nil => simp [dotL]
            | cons z m =>
              have := ih m fun y' hy' => hy y' (by simp [hy'])
              unfold dotL at this ⊢
              rw [List.zipWith_cons_cons, List.sum_cons, this, hy y (by simp)]
              ring
        refine ⟨θ.map fun _ => 0, Xs.map fun _ => 0, ?_, by simp, by simp, fun t _ => ?_, ?_⟩
        · simp only [hlen, if_neg hp]
          simp [pathAt]
          exact List.map_const'
        · simp only [List.getD_eq_getElem?_getD, List.getElem?_map]
          cases Xs[t]? <;> rfl
        · have hgz : ∀ y ∈ gs, y = 0 := by
            intro y hy
            obtain ⟨t, ht, rfl⟩ := List.getElem_of_mem hy
            have := hn t (by
              simp only [pathAt, List.getElem?_map]
              rw [List.getElem?_eq_getElem (by omega)]; rfl)
            rwa [List.getD_eq_getElem _ _ ht] at this
          rw [hz _ _ hgz, hz _ _ (by simp), hz _ _ (by simp)]
          ring
  obtain ⟨gθ, gx, a1, a2, a3, a4⟩ := C207_true_gradient_is_derivative _ _ _ hall xs hx gs hl (by simpa [hP] using hg)
  refine ⟨gθ, gx, by simpa [hP] using a1, a2, a3, fun dθ ds hd hs => ?_⟩
  have := a4 dθ ds hd hs
  have hzl : ∀ ε : ℝ, (List.zipWith (moved ε) xs ds).length = xs.length := fun ε => by simp [hs]
  simpa [hzl, hP] using this

/-- **C210**, pipelines: when the gradients through two modules are right on the streams of the lengths `P`, so are the gradients through the unrolled function that calls one
after the other. -/
theorem C210_pipeline {S₁ S₂ CS₁ CS₂ : Type} (P : Nat → Prop) (d₁ : Pulled S₁ (Fl ℝ) (Fl ℝ) CS₁ (Fl ℝ) (Fl ℝ))
    (d₂ : Pulled S₂ (Fl ℝ) (Fl ℝ) CS₂ (Fl ℝ) (Fl ℝ))
    (p₁ : CS₁ → List (Fl ℝ)) (p₂ : CS₂ → List (Fl ℝ)) (θ₁ θ₂ : List ℝ) (run₁ run₂ : List ℝ → List (Fl ℝ) → List (Fl ℝ))
    (e₁ : run₁ θ₁ = d₁.m.run) (h₁ : TrueGradientOn P θ₁ run₁ (backOf d₁ p₁)) (h₂ : TrueGradientOn P θ₂ run₂ (backOf d₂ p₂)) :
    TrueGradientOn P (θ₁ ++ θ₂) (fun θ xs => run₂ (θ.drop θ₁.length) (run₁ (θ.take θ₁.length) xs))
      (backOf (d₁.chain d₂) fun c => p₁ c.1 ++ p₂ c.2) := by
  intro Xs ds dθ hP hX hd
  have hd' : dθ.length = θ₁.length + θ₂.length := by simpa using hd
  obtain ⟨Ys, ts, a1, a2, a3, a4⟩ := h₁ Xs ds (dθ.take θ₁.length) hP hX (by simp; omega)
  obtain ⟨Zs, us, b1, b2, b3, b4⟩ := h₂ Ys ts (dθ.drop θ₁.length) (by rw [a2]; exact hP) a1 (by simp; omega)
  have hs : ∀ ε, (shifted (θ₁ ++ θ₂) dθ ε).take θ₁.length = shifted θ₁ (dθ.take θ₁.length) ε ∧
      (shifted (θ₁ ++ θ₂) dθ ε).drop θ₁.length = shifted θ₂ (dθ.drop θ₁.length) ε := by
    intro ε
    simp [shifted, List.take_zipWith, List.drop_zipWith]
  refine ⟨Zs, us, b1, by rw [b2, a2], ?_, fun gs hl hg => ?_⟩
  · filter_upwards [a3, b3] with ε ha hb
    simp only [(hs ε).1, (hs ε).2, ha, hb]
  · obtain ⟨gθ₂, gy, c1, c2, c3, c4, c5⟩ := b4 gs (by rw [hl, a2]) hg
    obtain ⟨gθ₁, gx, f1, f2, f3, f4, f5⟩ := a4 gy (by rw [c3, a2]) c4
    refine ⟨gθ₁ ++ gθ₂, gx, ?_, by simp [f2, c2], f3, f4, ?_⟩
    · have hY0 : d₁.m.run (pathAt Xs 0) = pathAt Ys 0 := by
        have := a3.self_of_nhds
        rwa [shifted_zero θ₁ _ (by simp; omega), e₁] at this
      have hc := C205_chain_rule d₁ d₂ (pathAt Xs 0) (gs.map Fl.fin) (by simp [pathAt, hl])
      simp only [hY0] at hc
      unfold backOf at c1 f1 ⊢
      simp only [Prod.mk.injEq] at c1 f1
      simp only [hc, c1.2, f1.1, c1.1, f1.2, List.map_append]
    · rw [c5, f5]
      have : dotL (gθ₁ ++ gθ₂) dθ = dotL gθ₁ (dθ.take θ₁.length) + dotL gθ₂ (dθ.drop θ₁.length) := by
        conv_lhs => rw [← List.take_append_drop θ₁.length dθ]
        unfold dotL
        rw [List.zipWith_append (by simp; omega), List.sum_append]
      rw [this]; ring

/-! ## The Flax modules -/

/-- The backward pass of a module that reads its Flax Buffer. -/
theorem flax_reads_grad {O : Type} {K : Type} [Field K] [LinearOrder K] (maxlen : Nat) (read : List (Fl K) → Fl K → List (Fl K))
    (d : Pulled (CircState (Fl K)) (Fl K) O (List (Fl K)) (Fl K) (Fl K)) (hs : ∀ s x, (d.m.step s x).2 = (circStep maxlen s x).2)
    (hp : ∀ s x g c, d.pull s x g c = circPull maxlen s.writeIdx (read (circStep maxlen s x).1.1 g) c)
    (hz : d.zeroS = List.replicate maxlen (Fl.fin 0)) (xs : List (Fl K)) : ∀ (s : CircState (Fl K)) (gs : List (Fl K)),
    s.buffer.length = maxlen → d.gradFrom s xs gs = flaxBufferGradFrom maxlen read s xs gs := by
  have stop : ∀ s : CircState (Fl K), s.buffer.length = maxlen → (d.zeroS, ([] : List (Fl K))) = (s.buffer.map fun _ => Fl.fin 0, []) := by
    intro s hs
    rw [hz, List.map_const', hs]
  induction xs with
  | nil => intro s gs hl; exact stop s hl
  | cons x xs ih =>
    intro s gs hl
    cases gs with
    | nil => exact stop s hl
    | cons g gs =>
      have h := ih (circStep maxlen s x).2 gs (by simp [circStep, hl])
      rw [Pulled.gradFrom, hs, h, hp]
      rfl

theorem flax_mean_reads {K : Type} [Field K] [LinearOrder K] (h mp : Nat) (xs : List (Fl K)) : ∀ (s : CircState (Fl K)) (gs : List (Fl K)),
    flaxBufferGradFrom h (meanPull mp) s xs gs = flaxRollingMeanGradFrom h mp s xs gs := by
  induction xs with
  | nil => intro s gs; rfl
  | cons x xs ih =>
    intro s gs
    cases gs with
    | nil => rfl
    | cons g gs => rw [flaxBufferGradFrom, flaxRollingMeanGradFrom, ih]

theorem haiku_mean_reads {K : Type} [Field K] [LinearOrder K] (h mp : Nat) (xs : List (Fl K)) : ∀ (s : BufState (Fl K)) (gs : List (Fl K)),
    bufferGradFrom h (meanPull mp) s xs gs = rollingMeanGradFrom h mp s xs gs := by
  induction xs with
  | nil => intro s gs; rfl
  | cons x xs ih =>
    intro s gs
    cases gs with
    | nil => rfl
    | cons g gs => rw [bufferGradFrom, rollingMeanGradFrom, ih]

/-- **C210**, Lag: with fewer than `2^31` steps the gradients through the Flax Lag are right. -/
theorem C210_flax_lag (k : Nat) (hk : k + 1 ≤ 2 ^ 30) (fill : Fl ℝ) (hf : NumOrNan fill) :
    TrueGradientOn (· < 2 ^ 31) [] (fun _ => ((flaxLagPulled k fill).project (·.getD .nan)).m.run)
      (backOf ((flaxLagPulled k fill).project (·.getD .nan)) fun _ => []) := by
  refine (C207_lag k fill hf).transfer (fun _ xs hx => ?_) fun xs gs hx => ?_
  · have e1 : ((flaxLagPulled k fill).project (·.getD .nan)).m.run xs = ((flaxLag k fill).run xs).map (·.getD .nan) :=
      (project_grad (flaxLagPulled k fill) (·.getD .nan) xs _ []).2
    have e2 : ((lagPulled k fill).project (·.getD .nan)).m.run xs = ((lag k fill).run xs).map (·.getD .nan) :=
      (project_grad (lagPulled k fill) (·.getD .nan) xs _ []).2
    rw [e1, e2, C03_flax_lag k hk fill xs hx]
  · have e1 := (project_grad (flaxLagPulled k fill) (·.getD .nan) xs (circBuffer (k + 1) fill).init gs).1
    have e2 := (project_grad (lagPulled k fill) (·.getD .nan) xs (bufferInit (k + 1) fill) gs).1
    rw [flax_reads_grad (k + 1) lagPull (flaxLagPulled k fill) (fun _ _ => rfl) (fun _ _ _ _ => rfl) rfl xs _ gs (by simp [circBuffer])] at e1
    rw [reads_grad (k + 1) (by omega) lagPull (lagPulled k fill) (fun _ _ => rfl) (fun _ _ _ _ => rfl) rfl xs _ gs (by simp [bufferInit])] at e2
    have e := (C206_flax (k + 1) (by omega) hk fill xs hx).2.1 k gs rfl
    exact Prod.ext rfl ((congrArg Prod.snd e1).trans (e.trans (congrArg Prod.snd e2).symm))

/-- **C210**, Diff: with fewer than `2^31` steps the gradients through the Flax Diff are right. -/
theorem C210_flax_diff :
    TrueGradientOn (· < 2 ^ 31) [] (fun _ => ((flaxDiffPulled (K := ℝ)).project (·.getD .nan)).m.run)
      (backOf ((flaxDiffPulled (K := ℝ)).project (·.getD .nan)) fun _ => []) := by
  refine C207_diff.transfer (fun _ xs hx => ?_) fun xs gs hx => ?_
  · have e1 : ((flaxDiffPulled (K := ℝ)).project (·.getD .nan)).m.run xs = ((flaxDiff (K := ℝ)).run xs).map (·.getD .nan) :=
      (project_grad (flaxDiffPulled (K := ℝ)) (·.getD .nan) xs _ []).2
    have e2 : ((diffPulled (K := ℝ)).project (·.getD .nan)).m.run xs = ((diff (K := ℝ)).run xs).map (·.getD .nan) :=
      (project_grad (diffPulled (K := ℝ)) (·.getD .nan) xs _ []).2
    rw [e1, e2, C04_flax_diff xs hx]
  · have e1 := (project_grad (flaxDiffPulled (K := ℝ)) (·.getD .nan) xs (circBuffer 2 .nan).init gs).1
    have e2 := (project_grad (diffPulled (K := ℝ)) (·.getD .nan) xs (bufferInit 2 .nan) gs).1
    rw [flax_reads_grad 2 diffPull (flaxDiffPulled (K := ℝ)) (fun _ _ => rfl) (fun _ _ _ _ => rfl) rfl xs _ gs (by simp [circBuffer])] at e1
    rw [reads_grad 2 (by omega) diffPull (diffPulled (K := ℝ)) (fun _ _ => rfl) (fun _ _ _ _ => rfl) rfl xs _ gs (by simp [bufferInit])] at e2
    have e := (C206_flax 2 (by omega) (by norm_num) (Fl.nan : Fl ℝ) xs hx).2.2 gs
    exact Prod.ext rfl ((congrArg Prod.snd e1).trans (e.trans (congrArg Prod.snd e2).symm))

/-- **C210**, RollingMean: with fewer than `2^31` steps the gradients through the Flax RollingMean are right. -/
theorem C210_flax_rolling_mean (h mp : Nat) (h0 : 0 < h) (h1 : h ≤ 2 ^ 30) :
    TrueGradientOn (· < 2 ^ 31) [] (fun _ => (flaxRollingMeanPulled (K := ℝ) h mp).m.run) (backOf (flaxRollingMeanPulled (K := ℝ) h mp) fun _ => []) := by
  refine (C207_rolling_mean h mp h0).transfer (fun _ xs hx => C07_flax_rolling_mean h mp h0 h1 xs hx) fun xs gs hx => ?_
  have e1 := flax_reads_grad h (meanPull mp) (flaxRollingMeanPulled (K := ℝ) h mp) (fun _ _ => rfl) (fun _ _ _ _ => rfl) rfl xs
    (circBuffer h .nan).init gs (by simp [circBuffer])
  have e2 := reads_grad h h0 (meanPull mp) (rollingMeanPulled (K := ℝ) h mp) (fun _ _ => rfl) (fun _ _ _ _ => rfl) rfl xs
    (bufferInit h .nan) gs (by simp [bufferInit])
  rw [flax_mean_reads] at e1
  rw [haiku_mean_reads] at e2
  exact Prod.ext rfl ((congrArg Prod.snd e1).trans ((C200_flax_gradient h mp h0 h1 xs gs hx).trans (congrArg Prod.snd e2).symm))

/-- **C210**, all Flax: `lambda x: EWMA(...)(RollingMean(h, mp)(Diff()(Ffill()(x))))` with the modules of `wax.flax`: with fewer than `2^31` steps the gradients are right,
in `logcom` and in the inputs. -/
theorem C210_flax_four_modules (c : EWMACfg ℝ) (ha : c.adjust ≠ .linear) (hi : NumOrNan c.initial) (h mp : Nat) (h0 : 0 < h) (h1 : h ≤ 2 ^ 30) (logcom : ℝ) :
    TrueGradientOn (· < 2 ^ 31) [logcom] (fun θ xs => flaxOutputs c (θ.headD 0)
        ((flaxRollingMean h mp).run (((flaxDiff (K := ℝ)).run ((ffill (K := ℝ)).run xs)).map (·.getD .nan))))
      (backOf (((((ffillPulled (K := ℝ)).chain (flaxDiffPulled.project (·.getD .nan))).chain (flaxRollingMeanPulled h mp))).chain
        ((ewmaPulled realFns 1 flaxEwmaStep { c with com := Real.exp logcom } logcom).project (·.value))) fun c => [c.2.2.2]) := by
  have p₁ := C210_pipeline (· < 2 ^ 31) ffillPulled (flaxDiffPulled.project (·.getD .nan)) _ _ [] [] _ _ rfl (C207_ffill.on _) C210_flax_diff
  have p₂ := C210_pipeline _ _ (flaxRollingMeanPulled h mp) _ _ _ [] _ _ (funext fun xs => (chain_run _ _ xs).symm) p₁ (C210_flax_rolling_mean h mp h0 h1)
  have p₃ := C210_pipeline _ _ _ _ logcomOf _ [logcom] _ _ (funext fun xs => ?_) p₂ ((C207_ewma c ha hi logcom).2.on _)
  · intro Xs ds dθ hP hX hd
    have q := p₃ Xs ds dθ hP hX hd
    have hr : ∀ xs : List (Fl ℝ), (flaxDiffPulled.project (·.getD .nan)).m.run xs = ((flaxDiff (K := ℝ)).run xs).map (·.getD .nan) := fun xs =>
      (project_grad (flaxDiffPulled (K := ℝ)) (·.getD .nan) xs _ []).2
    simp only [← hr]
    exact q
  · simp only [Pulled.chain, chain_run]
    rfl

/-- The four modules one after the other. -/
noncomputable def fourFlax (c : EWMACfg ℝ) (h mp : Nat) (logcom : ℝ) :=
  ((((ffillPulled (K := ℝ)).chain (flaxDiffPulled.project (·.getD .nan))).chain (flaxRollingMeanPulled h mp))).chain
    ((ewmaPulled realFns 1 flaxEwmaStep { c with com := Real.exp logcom } logcom).project (·.value))

/-- **C210**, an event around the four modules: the gradients through the Flax `ConditionalComputation` of them, updated when the input is observed, are right. -/
theorem C210_flax_conditional (c : EWMACfg ℝ) (ha : c.adjust ≠ .linear) (hi : NumOrNan c.initial) (h mp : Nat) (h0 : 0 < h) (h1 : h ≤ 2 ^ 30) (logcom : ℝ)
    (v : Fl ℝ) (hv : NumOrNan v) :
    TrueGradientOn (· < 2 ^ 31) [logcom]
      (fun θ xs => (conditionalComputation (fourFlax c h mp (θ.headD 0)).m (fun _ => v) (some fun x => !x.isNan)).run xs)
      (backOfConditional (fourFlax c h mp logcom) (fun c => [c.2.2.2]) fun x => !x.isNan) := by
  refine C208_conditional_computation_on _ _ rfl rfl _ [logcom] (fun θ => (fourFlax c h mp (θ.headD 0)).m) ?_ _
    (fun X t hX => by filter_upwards [hX.masks] with ε h; rw [h.1]) v hv
  intro Xs ds dθ hP hX hd
  have q := C210_flax_four_modules c ha hi h mp h0 h1 logcom Xs ds dθ hP hX hd
  have hr : ∀ (l : ℝ) (xs : List (Fl ℝ)), (fourFlax c h mp l).m.run xs = flaxOutputs c l
      ((flaxRollingMean h mp).run (((flaxDiff (K := ℝ)).run ((ffill (K := ℝ)).run xs)).map (·.getD .nan))) := by
    intro l xs
    have e1 : ∀ xs : List (Fl ℝ), (flaxDiffPulled.project (·.getD .nan)).m.run xs = ((flaxDiff (K := ℝ)).run xs).map (·.getD .nan) := fun xs =>
      (project_grad (flaxDiffPulled (K := ℝ)) (·.getD .nan) xs _ []).2
    have e2 : ∀ xs : List (Fl ℝ), ((ewmaPulled realFns 1 flaxEwmaStep { c with com := Real.exp l } l).project (·.value)).m.run xs = flaxOutputs c l xs :=
      fun xs => (project_grad (ewmaPulled realFns 1 flaxEwmaStep { c with com := Real.exp l } l) (·.value) xs _ []).2
    rw [← e2, ← e1]
    simp only [fourFlax, Pulled.chain, chain_run]
    rfl
  simp only [hr]
  exact q

/-- Concrete instance of C210 (`C210_true_gradient_is_derivative`, `C210_flax_lag`): a stream of four values with a missing one. -/
example : ∃ gθ gx : List ℝ, gθ.length = 0 ∧ gx.length = 4 ∧ ∀ dθ ds : List ℝ, dθ.length = 0 → ds.length = 4 →
    HasDerivAt (fun ε => weighted [0, 3, 0, 5] (((flaxLagPulled (K := ℝ) 1 (.fin 0)).project (·.getD .nan)).m.run
      (List.zipWith (moved ε) [.fin 1, .nan, .fin 4, .fin 2] ds))) (dotL gθ dθ + dotL gx ds) 0 := by
  obtain ⟨gθ, gx, -, h2, h3, h4⟩ := C210_true_gradient_is_derivative _ _ _ _ (C210_flax_lag 1 (by norm_num) (.fin 0) (Or.inr ⟨0, rfl⟩))
    [.fin 1, .nan, .fin 4, .fin 2] (by norm_num) (by
      intro x hx
      simp only [List.mem_cons, List.not_mem_nil, or_false] at hx
      rcases hx with rfl | rfl | rfl | rfl
      · exact Or.inr ⟨1, rfl⟩
      · exact Or.inl rfl
      · exact Or.inr ⟨4, rfl⟩
      · exact Or.inr ⟨2, rfl⟩) [0, 3, 0, 5] rfl (fun t ht => by
        have e : ((flaxLagPulled (K := ℝ) 1 (.fin 0)).project (·.getD .nan)).m.run [.fin 1, .nan, .fin 4, .fin 2] =
            [.fin 0, .fin 1, .nan, .fin 4] := by
          have e1 : ((flaxLagPulled (K := ℝ) 1 (.fin 0)).project (·.getD .nan)).m.run [.fin 1, .nan, .fin 4, .fin 2] =
              ((flaxLag (1 : Nat) (Fl.fin (0 : ℝ))).run [.fin 1, .nan, .fin 4, .fin 2]).map (·.getD .nan) :=
            (project_grad (flaxLagPulled (K := ℝ) 1 (.fin 0)) (·.getD .nan) _ _ []).2
          rw [e1, C03_flax_lag 1 (by norm_num) _ _ (by norm_num)]
          rfl
        rw [e] at ht
        match t with
        | 0 => simp at ht
        | 1 => simp at ht
        | 2 => rfl
        | 3 => simp at ht
        | _ + 4 => rfl)
  exact ⟨gθ, gx, h2, h3, h4⟩

/-- The four Flax modules, with a window of 2 and `com = 1`: the gradients of the Haiku ones. -/
example : (backOf (K := ℚ) ((((ffillPulled (K := ℚ)).chain (flaxDiffPulled.project (·.getD .nan))).chain (flaxRollingMeanPulled 2 1)).chain
    ((ewmaPulled ⟨fun _ => 1, id⟩ 1 flaxEwmaStep ⟨1, .yes, false, 0, .nan, 1⟩ 0).project (·.value))) (fun c => [c.2.2.2])
    [.fin 1, .nan, .fin 4, .fin 2] [.fin 0, .fin 0, .fin 0, .fin 1]).2 =
    [.fin (-3 / 7), .fin 0, .fin (1 / 7), .fin (2 / 7)] := by decide +kernel

end Verif.Props
