import Verif.Props.AutodiffChain
import Verif.Props.AutodiffBuffer

/-! # C207: gradients through pipelines of modules -/

namespace Verif.Props
open Verif Verif.Spec Verif.Model Verif.Model.Autodiff Filter Topology
set_option linter.unusedSectionVars false

/-! ## What a right gradient is -/

/-- The values at `ε` of a stream that moves. -/
def pathAt (Xs : List (ℝ → Fl ℝ)) (ε : ℝ) : List (Fl ℝ) := Xs.map fun X => X ε

/-- The parameters moved by `ε` in the direction `dθ`. -/
noncomputable def shifted (θ dθ : List ℝ) (ε : ℝ) : List ℝ := List.zipWith (fun a d => a + ε * d) θ dθ

/-- `back`, the backward pass at the parameters `θ` of a module whose outputs are `run θ xs`, is right: move the inputs along any paths with derivatives `ds` (missing
values staying missing) and the parameters in any direction `dθ`; then the outputs move along paths with derivatives `ts`, and for all weights of the outputs that do not count
the missing ones, `back` gives numbers (0 in the missing inputs) with `⟨gs, ts⟩ = ⟨gθ, dθ⟩ + ⟨gx, ds⟩`. -/
def TrueGradient (θ : List ℝ) (run : List ℝ → List (Fl ℝ) → List (Fl ℝ)) (back : List (Fl ℝ) → List (Fl ℝ) → List (Fl ℝ) × List (Fl ℝ)) : Prop :=
  ∀ (Xs : List (ℝ → Fl ℝ)) (ds dθ : List ℝ), List.Forall₂ Tracks Xs ds → dθ.length = θ.length →
    ∃ (Ys : List (ℝ → Fl ℝ)) (ts : List ℝ), List.Forall₂ Tracks Ys ts ∧ Ys.length = Xs.length ∧
      (∀ᶠ ε in 𝓝 0, run (shifted θ dθ ε) (pathAt Xs ε) = pathAt Ys ε) ∧
      ∀ gs : List ℝ, gs.length = Xs.length → (∀ t, (pathAt Ys 0)[t]? = some .nan → gs.getD t 0 = 0) →
        ∃ gθ gx : List ℝ, back (pathAt Xs 0) (gs.map Fl.fin) = (gθ.map Fl.fin, gx.map Fl.fin) ∧ gθ.length = θ.length ∧ gx.length = Xs.length ∧
          (∀ t, (pathAt Xs 0)[t]? = some .nan → gx.getD t 0 = 0) ∧ dotL gs ts = dotL gθ dθ + dotL gx ds

/-- `TrueGradient` for the streams of the lengths `P`: the write position of a Flax buffer is an `int32`. -/
def TrueGradientOn (P : Nat → Prop) (θ : List ℝ) (run : List ℝ → List (Fl ℝ) → List (Fl ℝ))
    (back : List (Fl ℝ) → List (Fl ℝ) → List (Fl ℝ) × List (Fl ℝ)) : Prop :=
  ∀ (Xs : List (ℝ → Fl ℝ)) (ds dθ : List ℝ), P Xs.length → List.Forall₂ Tracks Xs ds → dθ.length = θ.length →
    ∃ (Ys : List (ℝ → Fl ℝ)) (ts : List ℝ), List.Forall₂ Tracks Ys ts ∧ Ys.length = Xs.length ∧
      (∀ᶠ ε in 𝓝 0, run (shifted θ dθ ε) (pathAt Xs ε) = pathAt Ys ε) ∧
      ∀ gs : List ℝ, gs.length = Xs.length → (∀ t, (pathAt Ys 0)[t]? = some .nan → gs.getD t 0 = 0) →
        ∃ gθ gx : List ℝ, back (pathAt Xs 0) (gs.map Fl.fin) = (gθ.map Fl.fin, gx.map Fl.fin) ∧ gθ.length = θ.length ∧ gx.length = Xs.length ∧
          (∀ t, (pathAt Xs 0)[t]? = some .nan → gx.getD t 0 = 0) ∧ dotL gs ts = dotL gθ dθ + dotL gx ds

theorem TrueGradient.on {θ : List ℝ} {run : List ℝ → List (Fl ℝ) → List (Fl ℝ)} {back : List (Fl ℝ) → List (Fl ℝ) → List (Fl ℝ) × List (Fl ℝ)}
    (h : TrueGradient θ run back) (P : Nat → Prop) : TrueGradientOn P θ run back := fun Xs ds dθ _ hX hd => h Xs ds dθ hX hd

theorem shifted_zero (θ dθ : List ℝ) (h : dθ.length = θ.length) : shifted θ dθ 0 = θ := by
  apply List.ext_getElem
  · simp [shifted, h]
  · intro i h1 h2; simp [shifted]

theorem tracks_numOrNan {F : ℝ → Fl ℝ} {t : ℝ} (h : Tracks F t) : NumOrNan (F 0) := by
  rcases h with ⟨f, h1, -⟩ | ⟨h1, -⟩
  · exact Or.inr ⟨_, h1.self_of_nhds⟩
  · exact Or.inl h1.self_of_nhds

theorem tracks_nan_zero {F : ℝ → Fl ℝ} {t : ℝ} (h : Tracks F t) (hn : F 0 = .nan) : t = 0 := by
  rcases h with ⟨f, h1, -⟩ | ⟨-, h2⟩
  · have := h1.self_of_nhds; rw [hn] at this; simp at this
  · exact h2

theorem path_weighted (gs : List ℝ) : ∀ (Ys : List (ℝ → Fl ℝ)) (ts : List ℝ), List.Forall₂ Tracks Ys ts →
    HasDerivAt (fun ε => weighted gs (pathAt Ys ε)) (dotL gs ts) 0 := by
  induction gs with
  | nil => intro Ys ts _; simpa [weighted, dotL] using hasDerivAt_const (0 : ℝ) (0 : ℝ)
  | cons g gs ih =>
    intro Ys ts h
    cases h with
    | nil => simpa [weighted, dotL, pathAt] using hasDerivAt_const (0 : ℝ) (0 : ℝ)
    | cons hY hYs =>
      have := (hY.deriv.const_mul g).add (ih _ _ hYs)
      simp only [weighted, dotL, pathAt, List.map_cons, List.zipWith_cons_cons, List.sum_cons] at this ⊢
      exact this

/-- **C207**, what it means: for a stream of numbers and missing values, `back` gives the derivative of the weighted sum of the outputs that are not missing, along every
direction of the inputs and of the parameters. -/
theorem C207_true_gradient_is_derivative (θ : List ℝ) (run : List ℝ → List (Fl ℝ) → List (Fl ℝ))
    (back : List (Fl ℝ) → List (Fl ℝ) → List (Fl ℝ) × List (Fl ℝ)) (h : TrueGradient θ run back) (xs : List (Fl ℝ)) (hx : ∀ x ∈ xs, NumOrNan x)
    (gs : List ℝ) (hl : gs.length = xs.length) (hg : ∀ t, (run θ xs)[t]? = some .nan → gs.getD t 0 = 0) :
    ∃ gθ gx : List ℝ, back xs (gs.map Fl.fin) = (gθ.map Fl.fin, gx.map Fl.fin) ∧ gθ.length = θ.length ∧ gx.length = xs.length ∧
      ∀ dθ ds : List ℝ, dθ.length = θ.length → ds.length = xs.length →
        HasDerivAt (fun ε => weighted gs (run (shifted θ dθ ε) (List.zipWith (moved ε) xs ds))) (dotL gθ dθ + dotL gx ds) 0 := by
  have paths : ∀ (xs : List (Fl ℝ)) (ds : List ℝ), (∀ x ∈ xs, NumOrNan x) → ds.length = xs.length →
      ∃ (Xs : List (ℝ → Fl ℝ)) (tx : List ℝ), List.Forall₂ Tracks Xs tx ∧ Xs.length = xs.length ∧ (∀ ε, pathAt Xs ε = List.zipWith (moved ε) xs ds) ∧
        ∀ gx : List ℝ, (∀ t, xs[t]? = some .nan → gx.getD t 0 = 0) → dotL gx tx = dotL gx ds := by
    intro xs
    induction xs with
    | nil =>
      intro ds _ hd
      obtain rfl : ds = [] := by simpa using hd
      exact ⟨[], [], .nil, rfl, fun _ => rfl, fun _ _ => rfl⟩
    | cons x xs ih =>
      intro ds hx hd
      obtain ⟨d, ds, rfl⟩ : ∃ d ds', ds = d :: ds' := by cases ds <;> simp_all
      obtain ⟨Xs, tx, p1, p2, p3, p4⟩ := ih ds (fun y hy => hx y (by simp [hy])) (by simpa using hd)
      obtain ⟨t, m1, m2, m3⟩ := moved_tracks x d (hx x (by simp))
      refine ⟨(fun ε => moved ε x d) :: Xs, t :: tx, .cons m1 p1, by simp [p2], fun ε => ?_, fun gx hgx => ?_⟩
      · have := p3 ε
        simp only [pathAt, List.map_cons, List.zipWith_cons_cons] at this ⊢
        rw [this]
      · cases gx with
        | nil => rfl
        | cons g gx =>
          have := p4 gx (fun t ht => by simpa using hgx (t + 1) (by simpa using ht))
          simp only [dotL, List.zipWith_cons_cons, List.sum_cons] at this ⊢
          rw [this]
          by_cases hn : x = .nan
          · have := hgx 0 (by simp [hn])
            simp only [List.getD_cons_zero] at this
            rw [this]; ring
          · rw [m2 hn]
  have moved0 : ∀ ds : List ℝ, ds.length = xs.length → List.zipWith (moved 0) xs ds = xs := by
    intro ds hd
    apply List.ext_getElem
    · simp [hd]
    · intro i h1 h2; simp [moved_zero]
  have main : ∀ dθ ds : List ℝ, dθ.length = θ.length → ds.length = xs.length → ∃ gθ gx : List ℝ,
      back xs (gs.map Fl.fin) = (gθ.map Fl.fin, gx.map Fl.fin) ∧ gθ.length = θ.length ∧ gx.length = xs.length ∧
        HasDerivAt (fun ε => weighted gs (run (shifted θ dθ ε) (List.zipWith (moved ε) xs ds))) (dotL gθ dθ + dotL gx ds) 0 := by
    intro dθ ds hdθ hds
    obtain ⟨Xs, tx, p1, p2, p3, p4⟩ := paths xs ds hx hds
    obtain ⟨Ys, ts, q1, q2, q3, q4⟩ := h Xs tx dθ p1 hdθ
    have e0 : pathAt Xs 0 = xs := by rw [p3, moved0 ds hds]
    have hY0 : run θ xs = pathAt Ys 0 := by
      have := q3.self_of_nhds
      rwa [shifted_zero θ dθ hdθ, e0] at this
    obtain ⟨gθ, gx, r1, r2, r3, r4, r5⟩ := q4 gs (by rw [hl, p2]) (by rw [← hY0]; exact hg)
    rw [e0] at r1 r4
    refine ⟨gθ, gx, r1, r2, by rw [r3, p2], ?_⟩
    have := path_weighted gs Ys ts q1
    rw [r5, p4 gx r4] at this
    refine this.congr_of_eventuallyEq ?_
    filter_upwards [q3] with ε hε
    rw [← hε, p3]
  obtain ⟨gθ, gx, e1, e2, e3, -⟩ := main (List.replicate θ.length 0) (List.replicate xs.length 0) (by simp) (by simp)
  refine ⟨gθ, gx, e1, e2, e3, fun dθ ds h1 h2 => ?_⟩
  obtain ⟨gθ', gx', f1, f2, f3, f4⟩ := main dθ ds h1 h2
  rw [e1] at f1
  simp only [Prod.mk.injEq] at f1
  have hinj := List.map_injective_iff.mpr (fun (a b : ℝ) (h : Fl.fin a = Fl.fin b) => by simpa using h)
  rw [hinj f1.1, hinj f1.2]
  exact f4

/-! ## Pipelines -/

/-- The backward pass of an unrolled module from a fresh state; `params` finds the gradients of the parameters in the cotangent of the state. src/wax/unroll.py:71-93. -/
def backOf {K S CS : Type} (d : Pulled S (Fl K) (Fl K) CS (Fl K) (Fl K)) (params : CS → List (Fl K)) (xs gs : List (Fl K)) : List (Fl K) × List (Fl K) :=
  let r := d.gradFrom d.m.init xs gs
  (params r.1, r.2)

/-- **C207**, pipelines: when the gradients through two modules are right, so are the gradients through the unrolled function that calls one after the other, in the inputs
and in the parameters of both; and so for any number of modules. -/
theorem C207_pipeline {S₁ S₂ CS₁ CS₂ : Type} (d₁ : Pulled S₁ (Fl ℝ) (Fl ℝ) CS₁ (Fl ℝ) (Fl ℝ)) (d₂ : Pulled S₂ (Fl ℝ) (Fl ℝ) CS₂ (Fl ℝ) (Fl ℝ))
    (p₁ : CS₁ → List (Fl ℝ)) (p₂ : CS₂ → List (Fl ℝ)) (θ₁ θ₂ : List ℝ) (run₁ run₂ : List ℝ → List (Fl ℝ) → List (Fl ℝ))
    (e₁ : run₁ θ₁ = d₁.m.run) (h₁ : TrueGradient θ₁ run₁ (backOf d₁ p₁)) (h₂ : TrueGradient θ₂ run₂ (backOf d₂ p₂)) :
    TrueGradient (θ₁ ++ θ₂) (fun θ xs => run₂ (θ.drop θ₁.length) (run₁ (θ.take θ₁.length) xs))
      (backOf (d₁.chain d₂) fun c => p₁ c.1 ++ p₂ c.2) := by
  intro Xs ds dθ hX hd
  have hd' : dθ.length = θ₁.length + θ₂.length := by simpa using hd
  obtain ⟨Ys, ts, a1, a2, a3, a4⟩ := h₁ Xs ds (dθ.take θ₁.length) hX (by simp; omega)
  obtain ⟨Zs, us, b1, b2, b3, b4⟩ := h₂ Ys ts (dθ.drop θ₁.length) a1 (by simp; omega)
  have hs : ∀ ε, (shifted (θ₁ ++ θ₂) dθ ε).take θ₁.length = shifted θ₁ (dθ.take θ₁.length) ε ∧
      (shifted (θ₁ ++ θ₂) dθ ε).drop θ₁.length = shifted θ₂ (dθ.drop θ₁.length) ε := by
    intro ε
    simp [shifted, List.take_zipWith, List.drop_zipWith]
  refine ⟨Zs, us, b1, by rw [b2, a2], ?_, fun gs hl hg => ?_⟩
  · filter_upwards [a3, b3] with ε ha hb
    simp only [(hs ε).1, (hs ε).2, ha, hb]
  · obtain ⟨gθ₂, gy, c1, c2, c3, c4, c5⟩ := b4 gs (by rw [hl, a2]) hg
    obtain ⟨gθ₁, gx, f1, f2, f3, f4, f5⟩ := a4 gy (by rw [c3, a2]) c4
    refine ⟨gθ₁ ++ gθ₂, gx, ?_, by simp [f2, c2], f3, f4, ?_⟩
    · have hY0 : d₁.m.run (pathAt Xs 0) = pathAt Ys 0 := by
        have := a3.self_of_nhds
        rwa [shifted_zero θ₁ _ (by simp; omega), e₁] at this
      have hc := C205_chain_rule d₁ d₂ (pathAt Xs 0) (gs.map Fl.fin) (by simp [pathAt, hl])
      simp only [hY0] at hc
      unfold backOf at c1 f1 ⊢
      simp only [Prod.mk.injEq] at c1 f1
      simp only [hc, c1.2, f1.1, c1.1, f1.2, List.map_append]
    · rw [c5, f5]
      have : dotL (gθ₁ ++ gθ₂) dθ = dotL gθ₁ (dθ.take θ₁.length) + dotL gθ₂ (dθ.drop θ₁.length) := by
        conv_lhs => rw [← List.take_append_drop θ₁.length dθ]
        unfold dotL
        rw [List.zipWith_append (by simp; omega), List.sum_append]
      rw [this]; ring

/-! ## EWMA -/

theorem ewma_paths_from (keep : Nat) (step : EWMACfg ℝ → EWMAState ℝ → Fl ℝ → EWMAOut ℝ × EWMAState ℝ)
    (hT : TraceOf keep step) (hG : GoodStep step) (hN : CountsObs step) (c : EWMACfg ℝ) (ha : c.adjust ≠ .linear) (l dl : ℝ) (hcom : c.com = Real.exp l)
    (init : ℝ → EWMAState ℝ) :
    ∀ (Xs : List (ℝ → Fl ℝ)) (ds : List ℝ), List.Forall₂ Tracks Xs ds → ∀ (n : Nat) (M W : ℝ → Fl ℝ) (tm tw w : ℝ),
      Tracks M tm → Tracks W tw → NumOrNan (M 0) → W 0 = .fin w → 0 ≤ w →
      ∃ (Ys : List (ℝ → Fl ℝ)) (ts : List ℝ), List.Forall₂ Tracks Ys ts ∧ Ys.length = Xs.length ∧
        (∀ᶠ ε in 𝓝 0, (((⟨init ε, step { c with com := Real.exp (l + ε * dl) }⟩ : Mealy _ _ _).outsFrom ⟨M ε, W ε, n⟩ (pathAt Xs ε)).map (·.value)) =
          pathAt Ys ε) ∧
        ∀ gs : List ℝ, gs.length = Xs.length → ∃ gl gm gw : ℝ, ∃ gx : List ℝ,
          ewmaGrad realFns keep step c l ⟨M 0, W 0, n⟩ (pathAt Xs 0) (gs.map Fl.fin) = ⟨.fin gl, .fin gm, .fin gw, gx.map Fl.fin⟩ ∧
          gx.length = Xs.length ∧ dotL gs ts = gl * dl + gm * tm + gw * tw + dotL gx ds := by
  intro Xs ds hX
  induction hX with
  | nil =>
    intro n M W tm tw w hM hW hM0 hw hw0
    refine ⟨[], [], .nil, rfl, Filter.Eventually.of_forall fun ε => rfl, fun gs hl => ?_⟩
    obtain rfl : gs = [] := by simpa using hl
    exact ⟨0, 0, 0, [], by simp [ewmaGrad, pathAt], rfl, by simp [dotL]⟩
  | @cons X tx Xs ds hX hXs ih =>
    intro n M W tm tw w hM hW hM0 hw hw0
    have hx0 : NumOrNan (X 0) := tracks_numOrNan hX
    let C : ℝ → EWMACfg ℝ := fun ε => { c with com := Real.exp (l + ε * dl) }
    let R : ℝ → EWMAOut ℝ × EWMAState ℝ := fun ε => step (C ε) ⟨M ε, W ε, n⟩ (X ε)
    have hC0 : C 0 = c := by
      simp only [C, zero_mul, add_zero, ← hcom]
    have hR0 : R 0 = step c ⟨M 0, W 0, n⟩ (X 0) := by simp only [R, hC0]
    obtain ⟨q1, ⟨w', q2, q3⟩, q4⟩ := hG c l ha hcom ⟨M 0, W 0, n⟩ (X 0) w hM0 hx0 hw hw0
    let P := ewmaTrace keep c ⟨M 0, W 0, n⟩ (X 0)
    let E : ℝ → List (Fl ℝ) := fun ε => [Fl.fin (l + ε * dl), M ε, W ε, X ε]
    have hE0 : E 0 = [Fl.fin l, M 0, W 0, X 0] := by simp [E]
    have hb : ewmaBase c = 18 := by simp [ewmaBase, ha]
    have hlen : P.length = 28 := ewmaTrace_length keep c ha _ _
    have hreg : RegularTrace realFns P (E 0) := by
      rw [hE0]; exact ewma_trace_regular keep c ha l ⟨M 0, W 0, n⟩ (X 0) hM0 hx0 w hw hw0
    have hL : Tracks (fun ε => Fl.fin (l + ε * dl)) dl := by
      refine Or.inl ⟨fun ε => l + ε * dl, by simp, ?_⟩
      simpa using ((hasDerivAt_id (0 : ℝ)).mul_const dl).const_add l
    have htr := trace_tracks P E [dl, tm, tw, tx] 4 (by
        intro i hi
        match i, hi with
        | 0, _ => exact hL
        | 1, _ => exact hM
        | 2, _ => exact hW
        | 3, _ => exact hX) (by simp [E]) rfl (ewmaTrace_consts keep c ha _ _) hreg
    have hsame : ∀ᶠ ε in 𝓝 0, look (values realFns P (E ε)) 30 = (R ε).2.mean ∧ look (values realFns P (E ε)) 28 = (R ε).2.oldWt ∧
        look (values realFns P (E ε)) 31 = (R ε).1.value := by
      filter_upwards [hM.masks, hX.masks] with ε hε hε'
      have e := hT realFns c (l + ε * dl) ⟨M ε, W ε, n⟩ (X ε)
      rw [ewmaTrace_congr keep c c ⟨M ε, W ε, n⟩ ⟨M 0, W 0, n⟩ (X ε) (X 0) rfl ⟨rfl, rfl, rfl, rfl⟩ hε hε', hb] at e
      exact e
    let T := traceTangents realFns P (E 0) [dl, tm, tw, tx]
    have tM : Tracks (fun ε => (R ε).2.mean) (T.getD 30 0) :=
      (htr 30 (by rw [hlen]; omega)).congr (by filter_upwards [hsame] with ε h; exact h.1.symm)
    have tW : Tracks (fun ε => (R ε).2.oldWt) (T.getD 28 0) :=
      (htr 28 (by rw [hlen]; omega)).congr (by filter_upwards [hsame] with ε h; exact h.2.1.symm)
    have tR : Tracks (fun ε => (R ε).1.value) (T.getD 31 0) :=
      (htr 31 (by rw [hlen]; omega)).congr (by filter_upwards [hsame] with ε h; exact h.2.2.symm)
    obtain ⟨Ys, ts, r1, r2, r3, r4⟩ := ih (if (X 0).isNan then n else n + 1) (fun ε => (R ε).2.mean) (fun ε => (R ε).2.oldWt)
      (T.getD 30 0) (T.getD 28 0) w' tM tW (by simp only [hR0]; exact q1) (by simp only [hR0]; exact q2) q3
    have hnobs : ∀ᶠ ε in 𝓝 0, (R ε).2 = ⟨(R ε).2.mean, (R ε).2.oldWt, if (X 0).isNan then n else n + 1⟩ := by
      filter_upwards [hX.masks] with ε hε
      have := hN (C ε) ⟨M ε, W ε, n⟩ (X ε)
      rw [hε.1] at this
      simp only at this
      rw [← this]
    refine ⟨(fun ε => (R ε).1.value) :: Ys, T.getD 31 0 :: ts, .cons tR r1, by simp [r2], ?_, fun gs hl => ?_⟩
    · filter_upwards [r3, hnobs] with ε h1 h2
      simp only [pathAt, List.map_cons, Mealy.outsFrom] at h1 ⊢
      rw [← h1]
      simp only [R, C] at h2 ⊢
      rw [← h2]
    · obtain ⟨g, gs, rfl⟩ : ∃ g gs', gs = g :: gs' := by cases gs <;> simp_all
      obtain ⟨gl, gm, gw, gx, u1, u2, u3⟩ := r4 gs (by simpa using hl)
      obtain ⟨pl, pm, pw, px, p1, p2⟩ := ewmaPull_adjoint keep c ha l ⟨M 0, W 0, n⟩ (X 0) hM0 hx0 w hw hw0 g gm gw
      refine ⟨pl + gl, pm, pw, px :: gx, ?_, by simp [u2], ?_⟩
      · simp only [pathAt, List.map_cons, ewmaGrad] at u1 ⊢
        have hs : (step c ⟨M 0, W 0, n⟩ (X 0)).2 = ⟨(R 0).2.mean, (R 0).2.oldWt, if (X 0).isNan then n else n + 1⟩ := by
          rw [← hnobs.self_of_nhds, hR0]
        rw [hs, u1, p1]
        simp
      · have key := p2 dl tm tw tx
        simp only [dotL, List.zipWith_cons_cons, List.sum_cons] at key u3 ⊢
        rw [u3]
        simp only [T, P, hE0]
        linarith

/-- The parameter of EWMA in the cotangents of its state (`ewmaPulled`). -/
def logcomOf (c : Fl ℝ × Fl ℝ × Fl ℝ) : List (Fl ℝ) := [c.2.2]

/-- **C207**, EWMA (adjust True or False), Haiku and Flax: the gradients with respect to `logcom` and to the inputs are right, along every path of the inputs. -/
theorem C207_ewma (c : EWMACfg ℝ) (ha : c.adjust ≠ .linear) (hi : NumOrNan c.initial) (logcom : ℝ) :
    TrueGradient [logcom] (fun θ => haikuOutputs c (θ.headD 0))
      (backOf ((ewmaPulled realFns 13 ewmaStep { c with com := Real.exp logcom } logcom).project (·.value)) logcomOf) ∧
    TrueGradient [logcom] (fun θ => flaxOutputs c (θ.headD 0))
      (backOf ((ewmaPulled realFns 1 flaxEwmaStep { c with com := Real.exp logcom } logcom).project (·.value)) logcomOf) := by
  have main : ∀ (keep : Nat) (step : EWMACfg ℝ → EWMAState ℝ → Fl ℝ → EWMAOut ℝ × EWMAState ℝ), TraceOf keep step → GoodStep step → CountsObs step →
      (∀ (xs : List (Fl ℝ)) (gs : List ℝ), gs.length = xs.length → (∀ x ∈ xs, NumOrNan x) → ∀ i : Nat, xs[i]? = some Fl.nan →
        (ewmaGrad realFns keep step { c with com := Real.exp logcom } logcom ⟨c.initial, Fl.fin 1, 0⟩ xs (gs.map Fl.fin)).xs[i]? = some (Fl.fin 0)) →
      TrueGradient [logcom] (fun θ xs => ((⟨⟨c.initial, .fin 1, 0⟩, step { c with com := Real.exp (θ.headD 0) }⟩ : Mealy _ _ _).run xs).map (·.value))
        (backOf ((ewmaPulled realFns keep step { c with com := Real.exp logcom } logcom).project (·.value)) logcomOf) := by
    intro keep step hT hG hN hz Xs ds dθ hX hd
    obtain ⟨dl, rfl⟩ := List.length_eq_one_iff.mp hd
    obtain ⟨Ys, ts, a1, a2, a3, a4⟩ := ewma_paths_from keep step hT hG hN { c with com := Real.exp logcom } ha logcom dl rfl
      (fun _ => ⟨c.initial, .fin 1, 0⟩) Xs ds hX 0 (fun _ => c.initial) (fun _ => .fin 1) 0 0 1 (by
        rcases hi with h | ⟨a, h⟩
        · rw [h]; exact Tracks.nan
        · rw [h]; exact Tracks.const a) (Tracks.const 1) hi rfl (by norm_num)
    refine ⟨Ys, ts, a1, a2, ?_, fun gs hl _ => ?_⟩
    · filter_upwards [a3] with ε hε
      simpa [shifted, Mealy.run] using hε
    · obtain ⟨gl, gm, gw, gx, b1, b2, b3⟩ := a4 gs hl
      refine ⟨[gl], gx, ?_, rfl, b2, fun t ht => ?_, ?_⟩
      · have hp := (project_grad (ewmaPulled realFns keep step { c with com := Real.exp logcom } logcom) (·.value) (pathAt Xs 0)
          ⟨c.initial, Fl.fin 1, 0⟩ (gs.map Fl.fin)).1
        rw [ewmaPulled_grad, b1] at hp
        unfold backOf
        have hp' : ((ewmaPulled realFns keep step { c with com := Real.exp logcom } logcom).project (·.value)).gradFrom
            ((ewmaPulled realFns keep step { c with com := Real.exp logcom } logcom).project (·.value)).m.init (pathAt Xs 0) (gs.map Fl.fin) = _ := hp
        rw [hp']
        rfl
      · have hxs : ∀ x ∈ pathAt Xs 0, NumOrNan x := by
          intro x hx
          obtain ⟨X, hX', rfl⟩ := List.mem_map.mp hx
          obtain ⟨i, hi, rfl⟩ := List.getElem_of_mem hX'
          exact tracks_numOrNan ((List.forall₂_iff_get.mp hX).2 i hi (by rw [← (List.forall₂_iff_get.mp hX).1]; exact hi))
        have := hz (pathAt Xs 0) gs (by simp [pathAt, hl]) hxs t ht
        rw [b1] at this
        simp only [List.getElem?_map] at this
        rw [List.getD_eq_getElem?_getD]
        cases hgx : gx[t]? with
        | none => rfl
        | some v => rw [hgx] at this; simpa using this
      · simpa [dotL] using b3
  refine ⟨main 13 ewmaStep trace_haiku good_haiku counts_haiku ?_, main 1 flaxEwmaStep trace_flax good_flax counts_flax ?_⟩
  · intro xs gs hl hx i hn
    exact (C185_missing_entry_gets_zero c ha logcom hi xs gs hl hx i hn).1
  · intro xs gs hl hx i hn
    exact (C185_missing_entry_gets_zero c ha logcom hi xs gs hl hx i hn).2

/-! ## Modules without parameters -/

theorem true_gradient_of {S CS : Type} (d : Pulled S (Fl ℝ) (Fl ℝ) CS (Fl ℝ) (Fl ℝ))
    (h : ∀ (Xs : List (ℝ → Fl ℝ)) (ds : List ℝ), List.Forall₂ Tracks Xs ds →
      ∃ ts : List ℝ, ts.length = Xs.length ∧ (∀ s, s < Xs.length → Tracks (fun ε => (d.m.run (pathAt Xs ε)).getD s .nan) (ts.getD s 0)) ∧
        ∀ gs : List ℝ, gs.length = Xs.length → (∀ t, (d.m.run (pathAt Xs 0))[t]? = some .nan → gs.getD t 0 = 0) →
          ∃ gx : List ℝ, (d.gradFrom d.m.init (pathAt Xs 0) (gs.map Fl.fin)).2 = gx.map Fl.fin ∧ gx.length = Xs.length ∧
            (∀ t, (pathAt Xs 0)[t]? = some .nan → gx.getD t 0 = 0) ∧ dotL gs ts = dotL gx ds) :
    TrueGradient [] (fun _ => d.m.run) (backOf d fun _ => []) := by
  intro Xs ds dθ hX hd
  obtain rfl : dθ = [] := by simpa using hd
  obtain ⟨ts, h1, h2, h3⟩ := h Xs ds hX
  have hY : ∀ ε, d.m.run (pathAt Xs ε) = pathAt ((List.range Xs.length).map fun s => fun ε => (d.m.run (pathAt Xs ε)).getD s .nan) ε := by
    intro ε
    apply List.ext_getElem
    · simp [pathAt]
    · intro i i1 i2
      simp only [pathAt, List.getElem_map, List.getElem_range]
      rw [List.getD_eq_getElem _ _ (by simpa [pathAt] using i1)]
  refine ⟨(List.range Xs.length).map fun s => fun ε => (d.m.run (pathAt Xs ε)).getD s .nan, ts, ?_, by simp,
    Filter.Eventually.of_forall hY, fun gs hl hg => ?_⟩
  · rw [List.forall₂_iff_get]
    refine ⟨by simp [h1], fun i i1 i2 => ?_⟩
    have hi : i < Xs.length := by simpa using i1
    have := h2 i hi
    rw [List.getD_eq_getElem _ _ i2] at this
    simpa using this
  · rw [← hY 0] at hg
    obtain ⟨gx, g1, g2, g3, g4⟩ := h3 gs hl hg
    exact ⟨[], gx, by unfold backOf; simp only [g1, List.map_nil], rfl, g2, g3, by simpa [dotL] using g4⟩

theorem tracks_sub {F G : ℝ → Fl ℝ} {t u : ℝ} (hF : Tracks F t) (hG : Tracks G u) :
    ∃ r, Tracks (fun ε => F ε - G ε) r ∧ (F 0 - G 0 ≠ .nan → r = t - u) := by
  rcases hF with ⟨f, f1, f2⟩ | ⟨f1, f2⟩
  · rcases hG with ⟨g, g1, g2⟩ | ⟨g1, g2⟩
    · exact ⟨t - u, Or.inl ⟨fun ε => f ε - g ε, by filter_upwards [f1, g1] with ε a b; rw [a, b, Fl.fin_sub], f2.fun_sub g2⟩, fun _ => rfl⟩
    · refine ⟨0, Or.inr ⟨by filter_upwards [f1, g1] with ε a b; rw [a, b]; rfl, rfl⟩, fun h => absurd ?_ h⟩
      rw [f1.self_of_nhds, g1.self_of_nhds]; rfl
  · refine ⟨0, Or.inr ⟨by filter_upwards [f1] with ε a; rw [a]; rfl, rfl⟩, fun h => absurd ?_ h⟩
    rw [f1.self_of_nhds]; rfl

theorem path_getD {Xs : List (ℝ → Fl ℝ)} {ds : List ℝ} (h : List.Forall₂ Tracks Xs ds) (t : Nat) :
    Tracks (fun ε => (pathAt Xs ε).getD t .nan) (ds.getD t 0) := by
  obtain ⟨h1, h2⟩ := List.forall₂_iff_get.mp h
  by_cases ht : t < Xs.length
  · have := h2 t ht (by omega)
    rw [List.getD_eq_getElem _ _ (by omega)]
    refine this.congr (Filter.Eventually.of_forall fun ε => ?_)
    simp only [pathAt]
    rw [List.getD_eq_getElem _ _ (by simpa using ht)]
    simp
  · rw [List.getD_eq_default _ _ (by omega)]
    refine Tracks.nan.congr (Filter.Eventually.of_forall fun ε => ?_)
    simp only [pathAt]
    rw [List.getD_eq_default _ _ (by simpa using ht)]

/-- The backward pass of a module that reads its Haiku Buffer. -/
theorem reads_grad {O : Type} {K : Type} [Field K] [LinearOrder K] [IsStrictOrderedRing K] (maxlen : Nat) (h0 : 0 < maxlen) (read : List (Fl K) → Fl K → List (Fl K))
    (d : Pulled (BufState (Fl K)) (Fl K) O (List (Fl K)) (Fl K) (Fl K)) (hs : ∀ s x, (d.m.step s x).2 = (bufferApply maxlen x s).2)
    (hp : ∀ s x g c, d.pull s x g c = bufferPull (List.zipWith (· + ·) (read (bufferApply maxlen x s).1 g) c))
    (hz : d.zeroS = List.replicate maxlen (Fl.fin 0)) (xs : List (Fl K)) : ∀ (s : BufState (Fl K)) (gs : List (Fl K)),
    s.buffer.length = maxlen → d.gradFrom s xs gs = bufferGradFrom maxlen read s xs gs := by
  have stop : ∀ s : BufState (Fl K), s.buffer.length = maxlen → (d.zeroS, ([] : List (Fl K))) = (s.buffer.map fun _ => Fl.fin 0, []) := by
    intro s hs
    rw [hz, List.map_const', hs]
  induction xs with
  | nil => intro s gs hl; exact stop s hl
  | cons x xs ih =>
    intro s gs hl
    cases gs with
    | nil => exact stop s hl
    | cons g gs =>
      obtain ⟨_, p2⟩ := bufferApply_push maxlen h0 s hl x
      have h := ih (bufferApply maxlen x s).2 gs (by rw [p2]; simp; omega)
      rw [Pulled.gradFrom, hs, h, hp]
      rfl

theorem getD_map_range (n : Nat) (f : Nat → ℝ) (s : Nat) (hs : s < n) : ((List.range n).map f).getD s 0 = f s := by
  rw [List.getD_eq_getElem _ _ (by simpa using hs), List.getElem_map, List.getElem_range]

/-- **C207**, Lag: its gradients are right. -/
theorem C207_lag (k : Nat) (fill : Fl ℝ) (hf : NumOrNan fill) :
    TrueGradient [] (fun _ => ((lagPulled k fill).project (·.getD .nan)).m.run) (backOf ((lagPulled k fill).project (·.getD .nan)) fun _ => []) := by
  refine true_gradient_of _ fun Xs ds hX => ?_
  have hlen := hX.length_eq
  have hrun : ∀ xs : List (Fl ℝ), ((lagPulled k fill).project (·.getD .nan)).m.run xs = ((lag k fill).run xs).map (·.getD .nan) := fun xs =>
    (project_grad (lagPulled k fill) (·.getD .nan) xs _ []).2
  have hval : ∀ ε s, s < Xs.length → (((lagPulled k fill).project (·.getD .nan)).m.run (pathAt Xs ε)).getD s .nan =
      if k ≤ s then (pathAt Xs ε).getD (s - k) .nan else fill := by
    intro ε s hs
    rw [hrun, List.getD_eq_getElem?_getD, List.getElem?_map, C03_lag_positions k fill _ s (by simpa [pathAt] using hs)]
    by_cases hk : k ≤ s
    · simp only [hk, if_true, Option.map_some, Option.getD_some, List.getD_eq_getElem?_getD]
    · simp only [hk, if_false, Option.map_some, Option.getD_some]
  refine ⟨(List.range Xs.length).map fun s => if k ≤ s then ds.getD (s - k) 0 else 0, by simp, fun s hs => ?_, fun gs hl hg => ?_⟩
  · rw [List.getD_eq_getElem _ _ (by simpa using hs), List.getElem_map, List.getElem_range]
    by_cases hk : k ≤ s
    · rw [if_pos hk]
      refine (path_getD hX (s - k)).congr (Filter.Eventually.of_forall fun ε => ?_)
      rw [hval ε s hs, if_pos hk]
    · rw [if_neg hk]
      have : Tracks (fun _ : ℝ => fill) 0 := by
        rcases hf with h | ⟨a, h⟩
        · rw [h]; exact Tracks.nan
        · rw [h]; exact Tracks.const a
      refine this.congr (Filter.Eventually.of_forall fun ε => ?_)
      rw [hval ε s hs, if_neg hk]
  · have hgrad : (((lagPulled k fill).project (·.getD .nan)).gradFrom ((lagPulled k fill).project (·.getD .nan)).m.init (pathAt Xs 0) (gs.map Fl.fin)).2 =
        ((List.range Xs.length).map fun t => gs.getD (t + k) 0).map Fl.fin := by
      have h1 := (project_grad (lagPulled k fill) (·.getD .nan) (pathAt Xs 0) (bufferInit (k + 1) fill) (gs.map Fl.fin)).1
      have h2 := reads_grad (k + 1) (by omega) lagPull (lagPulled k fill) (fun _ _ => rfl) (fun _ _ _ _ => rfl) rfl (pathAt Xs 0) (bufferInit (k + 1) fill)
        (gs.map Fl.fin) (by simp [bufferInit])
      have h3 := C206_lag k fill (pathAt Xs 0) gs (by simp [pathAt, hl])
      have h4 : (((lagPulled k fill).project (·.getD .nan)).gradFrom (bufferInit (k + 1) fill) (pathAt Xs 0) (gs.map Fl.fin)).2 =
          (List.range (pathAt Xs 0).length).map fun t => Fl.fin (gs.getD (t + k) 0) := by rw [h1, h2]; exact h3
      rw [List.map_map]
      refine Eq.trans h4 ?_
      simp only [pathAt, List.length_map]
      rfl
    refine ⟨_, hgrad, by simp, fun t ht => ?_, ?_⟩
    · have htl : t < Xs.length := by
        by_contra h
        rw [List.getElem?_eq_none (by simp [pathAt]; omega)] at ht; simp at ht
      rw [List.getD_eq_getElem _ _ (by simpa using htl), List.getElem_map, List.getElem_range]
      by_cases hk : t + k < Xs.length
      · refine hg (t + k) ?_
        have h1 := hval 0 (t + k) hk
        rw [if_pos (by omega), Nat.add_sub_cancel, List.getD_eq_getElem?_getD, List.getD_eq_getElem?_getD, ht] at h1
        rw [List.getElem?_eq_getElem (by simpa [pathAt] using hk)] at h1 ⊢
        simpa using h1
      · rw [List.getD_eq_default _ _ (by omega)]
    · rw [dotL_as_range _ _ (by simp [hl]), dotL_as_range _ _ (by simp [hlen]), List.length_map, List.length_range, ← hlen]
      have lhs : ∀ s ∈ Finset.range Xs.length, gs.getD s 0 * ((List.range Xs.length).map fun s => if k ≤ s then ds.getD (s - k) 0 else 0).getD s 0 =
          if k ≤ s then gs.getD s 0 * ds.getD (s - k) 0 else 0 := by
        intro s hs
        rw [getD_map_range _ _ _ (Finset.mem_range.mp hs)]
        split <;> simp
      have rhs : ∀ t ∈ Finset.range Xs.length, ((List.range Xs.length).map fun t => gs.getD (t + k) 0).getD t 0 * ds.getD t 0 =
          gs.getD (t + k) 0 * ds.getD t 0 := by
        intro t ht
        rw [getD_map_range _ _ _ (Finset.mem_range.mp ht)]
      rw [Finset.sum_congr rfl lhs, Finset.sum_congr rfl rhs]
      by_cases hk : k ≤ Xs.length
      · obtain ⟨m, hm⟩ : ∃ m, Xs.length = k + m := ⟨Xs.length - k, by omega⟩
        rw [hm, Finset.sum_range_add, Finset.sum_eq_zero (fun s hs => by rw [if_neg]; have := Finset.mem_range.mp hs; omega), zero_add,
          Nat.add_comm k m, Finset.sum_range_add, add_eq_left.mpr]
        · refine Finset.sum_congr rfl fun t _ => ?_
          rw [if_pos (by omega), Nat.add_sub_cancel_left, Nat.add_comm k t]
        · refine Finset.sum_eq_zero fun t ht => ?_
          rw [List.getD_eq_default _ _ (by omega), zero_mul]
      · rw [Finset.sum_eq_zero (fun s hs => by rw [if_neg]; have := Finset.mem_range.mp hs; omega), Finset.sum_eq_zero]
        intro t ht
        rw [List.getD_eq_default _ _ (by omega), zero_mul]

/-- **C207**, Diff: its gradients are right. -/
theorem C207_diff : TrueGradient [] (fun _ => ((diffPulled (K := ℝ)).project (·.getD .nan)).m.run) (backOf (diffPulled.project (·.getD .nan)) fun _ => []) := by
  refine true_gradient_of _ fun Xs ds hX => ?_
  have hlen := hX.length_eq
  have hrun : ∀ xs : List (Fl ℝ), ((diffPulled (K := ℝ)).project (·.getD .nan)).m.run xs = ((diff (K := ℝ)).run xs).map (·.getD .nan) := fun xs =>
    (project_grad (diffPulled (K := ℝ)) (·.getD .nan) xs _ []).2
  have hval : ∀ ε s, s < Xs.length → (((diffPulled (K := ℝ)).project (·.getD .nan)).m.run (pathAt Xs ε)).getD s .nan =
      if s = 0 then .nan else (pathAt Xs ε).getD s .nan - (pathAt Xs ε).getD (s - 1) .nan := by
    intro ε s hs
    rw [hrun, List.getD_eq_getElem?_getD, diff_outputs, if_pos (by simpa [pathAt] using hs)]; rfl
  have htr : ∀ s, ∃ r, s < Xs.length → Tracks (fun ε => (((diffPulled (K := ℝ)).project (·.getD .nan)).m.run (pathAt Xs ε)).getD s .nan) r ∧
      ((((diffPulled (K := ℝ)).project (·.getD .nan)).m.run (pathAt Xs 0)).getD s .nan ≠ .nan → 0 < s ∧ r = ds.getD s 0 - ds.getD (s - 1) 0) := by
    intro s
    by_cases h0 : s = 0
    · refine ⟨0, fun hs => ⟨Tracks.nan.congr (Filter.Eventually.of_forall fun ε => by rw [hval ε s hs, if_pos h0]), fun h => absurd ?_ h⟩⟩
      rw [hval 0 s hs, if_pos h0]
    · obtain ⟨r, r1, r2⟩ := tracks_sub (path_getD hX s) (path_getD hX (s - 1))
      refine ⟨r, fun hs => ⟨r1.congr (Filter.Eventually.of_forall fun ε => by rw [hval ε s hs, if_neg h0]), fun h => ⟨by omega, r2 ?_⟩⟩⟩
      rwa [hval 0 s hs, if_neg h0] at h
  choose ts hts using htr
  refine ⟨(List.range Xs.length).map ts, by simp, fun s hs => ?_, fun gs hl hg => ?_⟩
  · rw [getD_map_range _ _ _ hs]
    exact (hts s hs).1
  · have hgrad : (((diffPulled (K := ℝ)).project (·.getD .nan)).gradFrom ((diffPulled (K := ℝ)).project (·.getD .nan)).m.init (pathAt Xs 0) (gs.map Fl.fin)).2 =
        ((List.range Xs.length).map fun t => gs.getD t 0 - gs.getD (t + 1) 0).map Fl.fin := by
      have h1 := (project_grad (diffPulled (K := ℝ)) (·.getD .nan) (pathAt Xs 0) (bufferInit 2 .nan) (gs.map Fl.fin)).1
      have h2 := reads_grad 2 (by omega) diffPull (diffPulled (K := ℝ)) (fun _ _ => rfl) (fun _ _ _ _ => rfl) rfl (pathAt Xs 0) (bufferInit 2 .nan)
        (gs.map Fl.fin) (by simp [bufferInit])
      have h3 := C206_diff (pathAt Xs 0) gs (by simp [pathAt, hl])
      have h4 : (((diffPulled (K := ℝ)).project (·.getD .nan)).gradFrom (bufferInit 2 .nan) (pathAt Xs 0) (gs.map Fl.fin)).2 =
          (List.range (pathAt Xs 0).length).map fun t => Fl.fin (gs.getD t 0 - gs.getD (t + 1) 0) := by rw [h1, h2]; exact h3
      rw [List.map_map]
      refine Eq.trans h4 ?_
      simp only [pathAt, List.length_map]
      rfl
    have hnan : ∀ s, s < Xs.length → (((diffPulled (K := ℝ)).project (·.getD .nan)).m.run (pathAt Xs 0)).getD s .nan = .nan → gs.getD s 0 = 0 := by
      intro s hs hn
      refine hg s ?_
      rw [List.getElem?_eq_getElem (by simpa [pathAt] using hs)]
      rw [List.getD_eq_getElem _ _ (by simpa [pathAt] using hs)] at hn
      rw [hn]
    refine ⟨_, hgrad, by simp, fun t ht => ?_, ?_⟩
    · have htl : t < Xs.length := by
        by_contra h
        rw [List.getElem?_eq_none (by simp [pathAt]; omega)] at ht; simp at ht
      have hxt : (pathAt Xs 0).getD t .nan = .nan := by rw [List.getD_eq_getElem?_getD, ht]; rfl
      rw [getD_map_range _ _ _ htl]
      have z1 : gs.getD t 0 = 0 := by
        refine hnan t htl ?_
        rw [hval 0 t htl, hxt]
        split <;> rfl
      have z2 : gs.getD (t + 1) 0 = 0 := by
        by_cases h1 : t + 1 < Xs.length
        · refine hnan (t + 1) h1 ?_
          rw [hval 0 (t + 1) h1, if_neg (by omega), Nat.add_sub_cancel, hxt]
          cases (pathAt Xs 0).getD (t + 1) .nan <;> rfl
        · rw [List.getD_eq_default _ _ (by omega)]
      rw [z1, z2, sub_zero]
    · rw [dotL_as_range _ _ (by simp [hl]), dotL_as_range _ _ (by simp [hlen]), List.length_map, List.length_range, ← hlen]
      have lhs : ∀ s ∈ Finset.range Xs.length, gs.getD s 0 * ((List.range Xs.length).map ts).getD s 0 =
          gs.getD s 0 * ds.getD s 0 - (if 0 < s then gs.getD s 0 * ds.getD (s - 1) 0 else 0) := by
        intro s hs
        have hs' := Finset.mem_range.mp hs
        rw [getD_map_range _ _ _ hs']
        by_cases hn : (((diffPulled (K := ℝ)).project (·.getD .nan)).m.run (pathAt Xs 0)).getD s .nan = .nan
        · rw [hnan s hs' hn]; simp
        · obtain ⟨h0, h1⟩ := (hts s hs').2 hn
          rw [h1, if_pos h0]; ring
      have rhs : ∀ t ∈ Finset.range Xs.length, ((List.range Xs.length).map fun t => gs.getD t 0 - gs.getD (t + 1) 0).getD t 0 * ds.getD t 0 =
          gs.getD t 0 * ds.getD t 0 - gs.getD (t + 1) 0 * ds.getD t 0 := by
        intro t ht
        rw [getD_map_range _ _ _ (Finset.mem_range.mp ht)]; ring
      rw [Finset.sum_congr rfl lhs, Finset.sum_congr rfl rhs, Finset.sum_sub_distrib, Finset.sum_sub_distrib]
      congr 1
      cases hn : Xs.length with
      | zero => rfl
      | succ n =>
        rw [Finset.sum_range_succ', if_neg (by omega), add_zero, Finset.sum_range_succ, List.getD_eq_default gs _ (by omega), zero_mul, add_zero]
        refine Finset.sum_congr rfl fun t _ => ?_
        rw [if_pos (by omega), Nat.add_sub_cancel]

theorem ffillPulled_grad (xs : List (Fl ℝ)) : ∀ (v : Fl ℝ) (gs : List (Fl ℝ)), (ffillPulled (K := ℝ)).gradFrom v xs gs = ffillGradFrom xs gs := by
  induction xs with
  | nil => intro v gs; rfl
  | cons x xs ih =>
    intro v gs
    cases gs with
    | nil => rfl
    | cons g gs => rw [Pulled.gradFrom, ih]; rfl

/-- **C207**, Ffill: its gradients are right. -/
theorem C207_ffill : TrueGradient [] (fun _ => (ffill (K := ℝ)).run) (backOf (ffillPulled (K := ℝ)) fun _ => []) := by
  have key : ∀ (Xs : List (ℝ → Fl ℝ)) (ds : List ℝ), List.Forall₂ Tracks Xs ds → ∀ (V : ℝ → Fl ℝ) (tv : ℝ), Tracks V tv →
      ∃ (Ys : List (ℝ → Fl ℝ)) (ts : List ℝ), List.Forall₂ Tracks Ys ts ∧ Ys.length = Xs.length ∧
        (∀ᶠ ε in 𝓝 0, (ffill (K := ℝ)).outsFrom (V ε) (pathAt Xs ε) = pathAt Ys ε) ∧
        ∀ gs : List ℝ, gs.length = Xs.length → ∃ (gv : ℝ) (gx : List ℝ), ffillGradFrom (pathAt Xs 0) (gs.map Fl.fin) = (.fin gv, gx.map Fl.fin) ∧
          gx.length = Xs.length ∧ (∀ t, (pathAt Xs 0)[t]? = some .nan → gx.getD t 0 = 0) ∧ dotL gs ts = gv * tv + dotL gx ds := by
    intro Xs ds hX
    induction hX with
    | nil =>
      intro V tv hV
      refine ⟨[], [], .nil, rfl, Filter.Eventually.of_forall fun _ => rfl, fun gs hl => ?_⟩
      obtain rfl : gs = [] := by simpa using hl
      exact ⟨0, [], rfl, rfl, by simp, by simp [dotL]⟩
    | @cons X tx Xs ds hX hXs ih =>
      intro V tv hV
      have hV' : Tracks (fun ε => if (X ε).isNan then V ε else X ε) (if (X 0).isNan then tv else tx) := by
        cases hn : (X 0).isNan
        · refine hX.congr ?_
          filter_upwards [hX.masks] with ε hε
          rw [hε.1, hn]; rfl
        · refine hV.congr ?_
          filter_upwards [hX.masks] with ε hε
          rw [hε.1, hn]; rfl
      obtain ⟨Ys, ts, a1, a2, a3, a4⟩ := ih _ _ hV'
      refine ⟨(fun ε => if (X ε).isNan then V ε else X ε) :: Ys, (if (X 0).isNan then tv else tx) :: ts, .cons hV' a1, by simp [a2], ?_, fun gs hl => ?_⟩
      · filter_upwards [a3] with ε hε
        have e : (ffill (K := ℝ)).outsFrom (V ε) (pathAt (X :: Xs) ε) = (if (X ε).isNan then V ε else X ε) ::
            (ffill (K := ℝ)).outsFrom (if (X ε).isNan then V ε else X ε) (pathAt Xs ε) := rfl
        rw [e, hε]; rfl
      · obtain ⟨g, gs, rfl⟩ : ∃ g gs', gs = g :: gs' := by cases gs <;> simp_all
        obtain ⟨gv, gx, b1, b2, b3, b4⟩ := a4 gs (by simpa using hl)
        have e : ffillGradFrom (pathAt (X :: Xs) 0) ((g :: gs).map Fl.fin) =
            (if (X 0).isNan then Fl.fin g + (ffillGradFrom (pathAt Xs 0) (gs.map Fl.fin)).1 else Fl.fin 0,
             (if (X 0).isNan then Fl.fin 0 else Fl.fin g + (ffillGradFrom (pathAt Xs 0) (gs.map Fl.fin)).1) ::
              (ffillGradFrom (pathAt Xs 0) (gs.map Fl.fin)).2) := rfl
        refine ⟨if (X 0).isNan then g + gv else 0, (if (X 0).isNan then 0 else g + gv) :: gx, ?_, by simp [b2], fun t ht => ?_, ?_⟩
        · rw [e, b1]
          cases (X 0).isNan <;> simp
        · cases t with
          | zero =>
            have h0 : X 0 = .nan := by simpa [pathAt] using ht
            simp [h0, Fl.isNan]
          | succ t => exact b3 t (by simpa [pathAt] using ht)
        · simp only [dotL, List.zipWith_cons_cons, List.sum_cons] at b4 ⊢
          rw [b4]
          cases (X 0).isNan
          · simp only [Bool.false_eq_true, if_false]; ring
          · simp only [if_true]; ring
  intro Xs ds dθ hX hd
  obtain rfl : dθ = [] := by simpa using hd
  obtain ⟨Ys, ts, a1, a2, a3, a4⟩ := key Xs ds hX (fun _ => .nan) 0 Tracks.nan
  refine ⟨Ys, ts, a1, a2, a3, fun gs hl _ => ?_⟩
  obtain ⟨gv, gx, b1, b2, b3, b4⟩ := a4 gs hl
  refine ⟨[], gx, ?_, rfl, b2, b3, by rw [b4]; simp [dotL]⟩
  unfold backOf
  simp only [ffillPulled_grad, b1, List.map_nil]

theorem path_pattern {Xs : List (ℝ → Fl ℝ)} {ds : List ℝ} (h : List.Forall₂ Tracks Xs ds) :
    ∀ᶠ ε in 𝓝 0, (pathAt Xs ε).map Fl.isNan = (pathAt Xs 0).map Fl.isNan ∧ ∀ x ∈ pathAt Xs ε, NumOrNan x := by
  induction h with
  | nil => exact Filter.Eventually.of_forall fun _ => ⟨rfl, by simp [pathAt]⟩
  | @cons X t Xs ds hX _ ih =>
    have hn : ∀ᶠ ε in 𝓝 0, NumOrNan (X ε) := by
      rcases hX with ⟨f, h1, -⟩ | ⟨h1, -⟩
      · filter_upwards [h1] with ε h using Or.inr ⟨_, h⟩
      · filter_upwards [h1] with ε h using Or.inl h
    filter_upwards [ih, hX.masks, hn] with ε h1 h2 h3
    simp only [pathAt, List.map_cons, List.mem_cons] at h1 ⊢
    refine ⟨by rw [h1.1, h2.1], fun x hx => ?_⟩
    rcases hx with rfl | hx
    · exact h3
    · exact h1.2 x hx

/-- **C207**, RollingMean: its gradients are right. -/
theorem C207_rolling_mean (h mp : Nat) (h0 : 0 < h) :
    TrueGradient [] (fun _ => (rollingMean h mp).run) (backOf (rollingMeanPulled (K := ℝ) h mp) fun _ => []) := by
  refine true_gradient_of (rollingMeanPulled (K := ℝ) h mp) fun Xs ds hX => ?_
  have hlen := hX.length_eq
  have hp0 : ∀ x ∈ pathAt Xs 0, NumOrNan x := (path_pattern hX).self_of_nhds.2
  refine ⟨(List.range Xs.length).map fun s => share h mp (pathAt Xs 0) s * ∑ t ∈ Finset.range Xs.length, if t ≤ s ∧ s < t + h then ds.getD t 0 else 0,
    by simp, fun s hs => ?_, fun gs hl hg => ?_⟩
  · rw [getD_map_range _ _ _ hs]
    have hval : ∀ᶠ ε in 𝓝 0, ((rollingMeanPulled (K := ℝ) h mp).m.run (pathAt Xs ε)).getD s .nan = (if share (K := ℝ) h mp (pathAt Xs 0) s = 0 then .nan else
        .fin (share h mp (pathAt Xs 0) s * ∑ t ∈ Finset.range Xs.length, if t ≤ s ∧ s < t + h then numIn ((pathAt Xs ε).getD t .nan) else 0)) := by
      filter_upwards [path_pattern hX] with ε hε
      have := rolling_value h mp (pathAt Xs ε) hε.2 s (by simpa [pathAt] using hs)
      rw [List.getD_eq_getElem?_getD]
      show ((rollingMean h mp).run (pathAt Xs ε))[s]?.getD .nan = _
      rw [this, Option.getD_some, share_pattern h mp _ _ hε.1 s]
      simp only [pathAt, List.length_map]
      congr
    by_cases hz : share (K := ℝ) h mp (pathAt Xs 0) s = 0
    · rw [hz, zero_mul]
      refine Tracks.nan.congr ?_
      filter_upwards [hval] with ε hε
      rw [hε, if_pos hz]
    · refine Or.inl ⟨_, by filter_upwards [hval] with ε hε; rw [hε, if_neg hz], ?_⟩
      refine HasDerivAt.const_mul _ (HasDerivAt.fun_sum fun t _ => ?_)
      by_cases hw : t ≤ s ∧ s < t + h
      · simp only [if_pos hw]
        exact (path_getD hX t).deriv
      · simp only [if_neg hw]
        exact hasDerivAt_const _ _
  · have hgrad : ((rollingMeanPulled (K := ℝ) h mp).gradFrom (rollingMeanPulled (K := ℝ) h mp).m.init (pathAt Xs 0) (gs.map Fl.fin)).2 =
        (meanGradients h mp (pathAt Xs 0) gs).map Fl.fin := by
      rw [← rollingMeanGrad_eq h mp h0 _ gs (by simp [pathAt, hl])]
      have := rollingPulled_grad h mp h0 (pathAt Xs 0) (bufferInit h Fl.nan) (gs.map Fl.fin) (by simp [bufferInit])
      exact congrArg Prod.snd this
    have hxl : (pathAt Xs 0).length = Xs.length := by simp [pathAt]
    have hgx : ∀ t, t < Xs.length → (meanGradients h mp (pathAt Xs 0) gs).getD t 0 = if ((pathAt Xs 0).getD t .nan).isNan then 0 else
        ∑ s ∈ Finset.range Xs.length, if t ≤ s ∧ s < t + h then share h mp (pathAt Xs 0) s * gs.getD s 0 else 0 := by
      intro t ht
      unfold meanGradients
      rw [hxl, getD_map_range _ _ _ ht]
    refine ⟨_, hgrad, by simp [meanGradients, pathAt], fun t ht => ?_, ?_⟩
    · have htl : t < Xs.length := by
        by_contra h
        rw [List.getElem?_eq_none (by simp [pathAt]; omega)] at ht; simp at ht
      rw [hgx t htl, List.getD_eq_getElem?_getD, ht]
      rfl
    · rw [dotL_as_range _ _ (by simp [hl]), dotL_as_range _ _ (by simp [meanGradients, pathAt, hlen]), List.length_map, List.length_range, ← hlen]
      have lhs : ∀ s ∈ Finset.range Xs.length, gs.getD s 0 * ((List.range Xs.length).map fun s => share h mp (pathAt Xs 0) s *
            ∑ t ∈ Finset.range Xs.length, if t ≤ s ∧ s < t + h then ds.getD t 0 else 0).getD s 0 =
          ∑ t ∈ Finset.range Xs.length, if t ≤ s ∧ s < t + h then share h mp (pathAt Xs 0) s * gs.getD s 0 * ds.getD t 0 else 0 := by
        intro s hs
        rw [getD_map_range _ _ _ (Finset.mem_range.mp hs), Finset.mul_sum, Finset.mul_sum]
        refine Finset.sum_congr rfl fun t _ => ?_
        split <;> ring
      rw [Finset.sum_congr rfl lhs, Finset.sum_comm]
      refine Finset.sum_congr rfl fun t ht => ?_
      have ht' := Finset.mem_range.mp ht
      rw [hgx t ht']
      by_cases hn : ((pathAt Xs 0).getD t .nan).isNan
      · rw [if_pos hn, zero_mul]
        have hz : ds.getD t 0 = 0 := tracks_nan_zero (path_getD hX t) (by cases hh : (pathAt Xs 0).getD t .nan <;> simp_all [Fl.isNan])
        refine Finset.sum_eq_zero fun s _ => ?_
        rw [hz]; split <;> simp
      · rw [if_neg hn, Finset.sum_mul]
        refine Finset.sum_congr rfl fun s _ => ?_
        split <;> ring

/-! ## Pipelines -/

/-- EWMA (Haiku) of the outputs of EWMA, each with its own `logcom`: the gradients are right, in both parameters and in the inputs. -/
theorem C207_ewma_of_ewma (c₁ c₂ : EWMACfg ℝ) (a₁ : c₁.adjust ≠ .linear) (a₂ : c₂.adjust ≠ .linear) (i₁ : NumOrNan c₁.initial) (i₂ : NumOrNan c₂.initial)
    (l₁ l₂ : ℝ) :
    TrueGradient [l₁, l₂] (fun θ xs => haikuOutputs c₂ (θ.getD 1 0) (haikuOutputs c₁ (θ.getD 0 0) xs))
      (backOf (((ewmaPulled realFns 13 ewmaStep { c₁ with com := Real.exp l₁ } l₁).project (·.value)).chain
        ((ewmaPulled realFns 13 ewmaStep { c₂ with com := Real.exp l₂ } l₂).project (·.value))) fun c => [c.1.2.2, c.2.2.2]) := by
  have h := C207_pipeline _ _ logcomOf logcomOf [l₁] [l₂] _ _ (funext fun xs => ?_) (C207_ewma c₁ a₁ i₁ l₁).1 (C207_ewma c₂ a₂ i₂ l₂).1
  · intro Xs ds dθ hX hd
    obtain ⟨d₁, d₂, rfl⟩ := List.length_eq_two.mp hd
    exact h Xs ds [d₁, d₂] hX rfl
  · exact ((project_grad (ewmaPulled realFns 13 ewmaStep { c₁ with com := Real.exp l₁ } l₁) (·.value) xs _ []).2).symm

/-- `lambda x: EWMA(...)(RollingMean(h, mp)(Diff()(Ffill()(x))))`: the gradients are right, in `logcom` and in the inputs. -/
theorem C207_four_modules (c : EWMACfg ℝ) (ha : c.adjust ≠ .linear) (hi : NumOrNan c.initial) (h mp : Nat) (h0 : 0 < h) (logcom : ℝ) :
    TrueGradient [logcom] (fun θ xs => haikuOutputs c (θ.headD 0) ((rollingMean h mp).run (((diff (K := ℝ)).run ((ffill (K := ℝ)).run xs)).map (·.getD .nan))))
      (backOf (((((ffillPulled (K := ℝ)).chain (diffPulled.project (·.getD .nan))).chain (rollingMeanPulled h mp))).chain
        ((ewmaPulled realFns 13 ewmaStep { c with com := Real.exp logcom } logcom).project (·.value))) fun c => [c.2.2.2]) := by
  have p₁ := C207_pipeline ffillPulled (diffPulled.project (·.getD .nan)) _ _ [] [] _ _ rfl C207_ffill C207_diff
  have p₂ := C207_pipeline _ (rollingMeanPulled h mp) _ _ _ [] _ _ (funext fun xs => (chain_run _ _ xs).symm) p₁ (C207_rolling_mean h mp h0)
  have p₃ := C207_pipeline _ _ _ logcomOf _ [logcom] _ _ (funext fun xs => ?_) p₂ (C207_ewma c ha hi logcom).1
  · intro Xs ds dθ hX hd
    have q := p₃ Xs ds dθ hX hd
    have hr : ∀ xs : List (Fl ℝ), (diffPulled.project (·.getD .nan)).m.run xs = ((diff (K := ℝ)).run xs).map (·.getD .nan) := fun xs =>
      (project_grad (diffPulled (K := ℝ)) (·.getD .nan) xs _ []).2
    simp only [← hr]
    exact q
  · simp only [Pulled.chain, chain_run]
    rfl

/-- Along straight lines, `C207_true_gradient_is_derivative` applies. -/
example : ∃ gθ gx : List ℝ, gθ.length = 0 ∧ gx.length = 3 ∧
    ∀ dθ ds : List ℝ, dθ.length = 0 → ds.length = 3 →
      HasDerivAt (fun ε => weighted [2, 1, 5] ((ffill (K := ℝ)).run (List.zipWith (moved ε) [.fin 1, .nan, .fin 4] ds))) (dotL gθ dθ + dotL gx ds) 0 := by
  obtain ⟨gθ, gx, -, h2, h3, h4⟩ := C207_true_gradient_is_derivative _ _ _ C207_ffill [.fin 1, .nan, .fin 4] (by
      intro x hx
      simp only [List.mem_cons, List.not_mem_nil, or_false] at hx
      rcases hx with rfl | rfl | rfl
      · exact Or.inr ⟨1, rfl⟩
      · exact Or.inl rfl
      · exact Or.inr ⟨4, rfl⟩) [2, 1, 5] rfl (fun t ht => by
        match t with
        | 0 => simp [ffill, Mealy.run, Mealy.outsFrom, Fl.isNan] at ht
        | 1 => simp [ffill, Mealy.run, Mealy.outsFrom, Fl.isNan] at ht
        | 2 => simp [ffill, Mealy.run, Mealy.outsFrom, Fl.isNan] at ht
        | _ + 3 => rfl)
  exact ⟨gθ, gx, h2, h3, h4⟩

/-- Ffill, Diff, RollingMean of 2 and EWMA with `com = 1`. -/
example : (backOf (K := ℚ) ((((ffillPulled (K := ℚ)).chain (diffPulled.project (·.getD .nan))).chain (rollingMeanPulled 2 1)).chain
    ((ewmaPulled ⟨fun _ => 1, id⟩ 13 ewmaStep ⟨1, .yes, false, 0, .nan, 1⟩ 0).project (·.value))) (fun c => [c.2.2.2])
    [.fin 1, .nan, .fin 4, .fin 2] [.fin 0, .fin 0, .fin 0, .fin 1]).2 =
    [.fin (-3 / 7), .fin 0, .fin (1 / 7), .fin (2 / 7)] := by decide +kernel

end Verif.Props
