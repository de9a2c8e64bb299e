import Verif.Props.RoundedNaN
import Verif.Props.EWMVar

/-! # The covariance with rounded arithmetic -/

set_option linter.unusedSectionVars false
set_option linter.unusedSimpArgs false
set_option linter.unusedVariables false

namespace Verif.Props
open Model Spec Lemmas
open Model.Rounded (rnd)
variable {K : Type} [Field K] [LinearOrder K] [IsStrictOrderedRing K]
variable {R : K → Fl K} {u τ Ω : K}

/-! ## The exact EWMA of nearby inputs -/

/-- Two readings: both missing, or numbers at distance at most `η`, the second of size at most `B`. -/
def OptNear (η B : K) (a b : Option K) : Prop := (a = none ∧ b = none) ∨ ∃ y v, a = some y ∧ b = some v ∧ |y - v| ≤ η ∧ |v| ≤ B

theorem convex_near {q r m m' x x' η : K} (hq : 0 ≤ q) (hr : 0 < r) (h1 : |m' - m| ≤ η) (h2 : |x' - x| ≤ η) :
    |(q * m' + r * x') / (q + r) - (q * m + r * x) / (q + r)| ≤ η := by
  have := mean_sized (B := η) hq hr h1 h2
  have e : (q * m' + r * x') / (q + r) - (q * m + r * x) / (q + r) = (q * (m' - m) + r * (x' - x)) / (q + r) := by
    rw [← sub_div]; ring
  rwa [e]

theorem aRun_near (c : EWMACfg K) (hc : 0 ≤ c.com) {η B : K} (l l' : List (Option K)) (hl : List.Forall₂ (OptNear η B) l' l)
    (r' r : Option K × K) (h1 : OptNear η B r'.1 r.1) (h2 : r'.2 = r.2) (hw : 0 ≤ r.2) :
    OptNear η B (l'.foldl (aStep c) r').1 (l.foldl (aStep c) r).1 := by
  induction hl generalizing r r' with
  | nil => exact h1
  | @cons a b l' l hab _ ih =>
    rw [List.foldl_cons, List.foldl_cons]
    obtain ⟨m', w'⟩ := r'
    obtain ⟨m, w⟩ := r
    simp only at h1 h2 hw
    subst h2
    have hw2 : 0 ≤ (aStep c (m, w') b).2 := aStep_wt_nonneg c hc m w' hw b
    refine ih _ _ ?_ ?_ hw2
    · rcases hab with ⟨rfl, rfl⟩ | ⟨y, v, rfl, rfl, e1, e2⟩
      · exact h1
      · rcases h1 with ⟨rfl, rfl⟩ | ⟨n, k, rfl, rfl, e3, e4⟩
        · exact Or.inr ⟨y, v, rfl, rfl, e1, e2⟩
        · have q0 := aWt_nonneg c hc true w' hw
          have r0 := nw_pos c hc
          exact Or.inr ⟨_, _, rfl, rfl, convex_near q0 r0 e3 e1, mean_sized q0 r0 e4 e2⟩
    · rcases hab with ⟨rfl, rfl⟩ | ⟨y, v, rfl, rfl, e1, e2⟩ <;> rcases h1 with ⟨rfl, rfl⟩ | ⟨n, k, rfl, rfl, e3, e4⟩ <;> rfl

/-- Two inputs: both NaN, or numbers at distance at most `η`, the second of size at most `B`. -/
def InNear (η B : K) (a b : Fl K) : Prop := (a = .nan ∧ b = .nan) ∨ ∃ y v, a = .fin y ∧ b = .fin v ∧ |y - v| ≤ η ∧ |v| ≤ B

theorem inNear_reading {η B big : K} {a b : Fl K} (h : InNear η B a b) : OptNear η B (reading big a) (reading big b) := by
  rcases h with ⟨rfl, rfl⟩ | ⟨y, v, rfl, rfl, h1, h2⟩
  · exact Or.inl ⟨rfl, rfl⟩
  · exact Or.inr ⟨y, v, rfl, rfl, h1, h2⟩

theorem forall₂_take {α β : Type} {P : α → β → Prop} {l : List α} {l' : List β} (h : List.Forall₂ P l l') (n : Nat) :
    List.Forall₂ P (l.take n) (l'.take n) := by
  induction h generalizing n with
  | nil => simp
  | cons hab _ ih => cases n <;> simp [hab, ih]

/-- The exact EWMA of nearby streams: nearby averages, and no larger than the inputs. -/
theorem ewma_inputs_near (c : EWMACfg K) (hc : 0 ≤ c.com) {η B : K} (hη : 0 ≤ η) (hi : Sized B c.initial) (xs' xs : List (Fl K))
    (hx : List.Forall₂ (InNear η B) xs' xs) (t : Nat) (ht : t < xs.length) :
    ∃ o' o, ((ewma c).run xs')[t]? = some o' ∧ ((ewma c).run xs)[t]? = some o ∧ InNear η B o'.value o.value := by
  obtain ⟨o, e1, -, e2, -⟩ := ewma_at c hc xs t ht
  obtain ⟨o', e3, -, e4, -⟩ := ewma_at c hc xs' t (by rw [hx.length_eq]; exact ht)
  refine ⟨o', o, e3, e1, ?_⟩
  have hx' := forall₂_take hx (t + 1)
  have hr : List.Forall₂ (OptNear η B) ((xs'.take (t + 1)).map (reading c.big)) ((xs.take (t + 1)).map (reading c.big)) := by
    generalize xs'.take (t + 1) = a at *
    generalize xs.take (t + 1) = b at *
    clear * - hx'
    induction hx' with
    | nil => exact .nil
    | cons h _ ih => exact .cons (inNear_reading h) ih
  have hn : (observed ((xs'.take (t + 1)).map (reading c.big))).length = (observed ((xs.take (t + 1)).map (reading c.big))).length := by
    generalize (xs'.take (t + 1)).map (reading c.big) = a at *
    generalize (xs.take (t + 1)).map (reading c.big) = b at *
    clear * - hr
    induction hr with
    | nil => rfl
    | cons h _ ih =>
      simp only [observed] at ih ⊢
      rcases h with ⟨rfl, rfl⟩ | ⟨y, v, rfl, rfl, h1, h2⟩ <;> simpa using ih
  have hrun : OptNear η B (aRun c (readings c.big c.initial (xs'.take (t + 1)))).1 (aRun c (readings c.big c.initial (xs.take (t + 1)))).1 := by
    unfold aRun readings
    refine aRun_near c hc _ _ ?_ _ _ (Or.inl ⟨rfl, rfl⟩) rfl zero_le_one
    rcases hi with hi | ⟨v, hi, hv⟩
    · rw [hi]; exact hr
    · rw [hi]; exact .cons (Or.inr ⟨v, v, rfl, rfl, by simpa using hη, hv⟩) hr
  rw [e2, e4, hn]
  split
  · rcases hrun with ⟨h1, h2⟩ | ⟨y, v, h1, h2, h3, h4⟩
    · left
      rw [h1, h2]; exact ⟨rfl, rfl⟩
    · right
      rw [h1, h2]; exact ⟨y, v, rfl, rfl, h3, h4⟩
  · exact Or.inl ⟨rfl, rfl⟩

/-! ## One entry -/

section Cov
variable {ι κ : Type}

/-- The rounded covariance machine over a given scalar average. -/
def covRounded (R : K → Fl K) (step : EWMAState K → Fl K → EWMAOut K × EWMAState K) (ini : EWMAState K) (ι κ : Type) (ac : Bool) :
    Mealy (CovState ι κ K) ((ι → Fl K) × (κ → Fl K)) (ι → κ → Fl K) where
  init := ⟨fun _ _ => ini, fun _ => ini, fun _ => ini⟩
  step := Rounded.ewmcovStep R step ac

theorem covRounded_at (R : K → Fl K) (step : EWMAState K → Fl K → EWMAOut K × EWMAState K) (ini : EWMAState K)
    (ac : Bool) (ps : List ((ι → Fl K) × (κ → Fl K))) (t : Nat) (ht : t < ps.length) :
    let M : Mealy (EWMAState K) (Fl K) (EWMAOut K) := ⟨ini, step⟩
    ∃ C, ((covRounded R step ini ι κ ac).run ps)[t]? = some C ∧ ∀ i j, ∃ a b d,
      (M.run (ps.map fun p => Rounded.mul R (p.1 i) (p.2 j)))[t]? = some a ∧
      (M.run (ps.map fun p => p.1 i))[t]? = some b ∧
      (M.run (ps.map fun p => p.2 j))[t]? = some d ∧
      C i j = if ac then a.value else Rounded.sub R a.value (Rounded.mul R b.value d.value) := by
  intro M
  have hs : ∀ ps : List ((ι → Fl K) × (κ → Fl K)), let s := (covRounded R step ini ι κ ac).stateAfter ps
      s.xy = (fun i j => M.stateAfter (ps.map fun p => Rounded.mul R (p.1 i) (p.2 j))) ∧
      (ac = false → s.x = (fun i => M.stateAfter (ps.map fun p => p.1 i)) ∧
        s.y = fun j => M.stateAfter (ps.map fun p => p.2 j)) := by
    intro ps
    induction ps using List.reverseRecOn with
    | nil => exact ⟨rfl, fun _ => ⟨rfl, rfl⟩⟩
    | append_singleton ps p ih =>
      obtain ⟨h1, h2⟩ := ih
      simp only [Mealy.stateAfter_append_singleton, List.map_append, List.map_cons, List.map_nil]
      generalize (covRounded R step ini ι κ ac).stateAfter ps = s at *
      cases ac with
      | true => exact ⟨by simp [covRounded, Rounded.ewmcovStep, h1, M], fun h => by simp at h⟩
      | false =>
        obtain ⟨h3, h4⟩ := h2 rfl
        exact ⟨by simp [covRounded, Rounded.ewmcovStep, h1, M], fun _ => by simp [covRounded, Rounded.ewmcovStep, h3, h4, M]⟩
  obtain ⟨h1, h2⟩ := hs (ps.take t)
  rw [Mealy.run, Mealy.outsFrom_getElem?, List.getElem?_eq_getElem ht]
  refine ⟨_, rfl, fun i j => ?_⟩
  simp only [Mealy.run, Mealy.outsFrom_getElem?, List.getElem?_map, List.getElem?_eq_getElem ht,
    Option.map_some, ← List.map_take]
  refine ⟨_, _, _, rfl, rfl, rfl, ?_⟩
  rw [← Mealy.stateAfter, ← Mealy.stateAfter, ← Mealy.stateAfter, ← Mealy.stateAfter]
  generalize (covRounded R step ini ι κ ac).stateAfter (ps.take t) = s at *
  cases ac with
  | true => simp [covRounded, Rounded.ewmcovStep, h1, M]
  | false =>
    obtain ⟨h3, h4⟩ := h2 rfl
    simp [covRounded, Rounded.ewmcovStep, h1, h3, h4, M]

/-- A rounded product of two inputs. -/
theorem product_near (h : IsRounding R u τ Ω) (hu0 : 0 ≤ u) (hu : 64 * u ≤ 1) {B : K} (hB : 0 ≤ B) (hτ : τ ≤ B ^ 2) (hΩ : B ^ 2 ≤ Ω)
    {x y : Fl K} (hx : Sized B x) (hy : Sized B y) :
    InNear (u * B ^ 2) (B ^ 2) (Rounded.mul R x y) (x * y) ∧ Sized (65 / 64 * B ^ 2) (Rounded.mul R x y) := by
  rcases hx with rfl | ⟨a, rfl, ha⟩
  · have : (Fl.nan : Fl K) * y = .nan := by cases y <;> rfl
    simp [Rounded.mul, this, rnd, InNear, Sized]
  rcases hy with rfl | ⟨b, rfl, hb⟩
  · have : (Fl.fin a : Fl K) * .nan = .nan := rfl
    simp [Rounded.mul, this, rnd, InNear, Sized]
  have hab : |a * b| ≤ B ^ 2 := by
    rw [abs_mul, sq]; exact mul_le_mul ha hb (abs_nonneg _) hB
  obtain ⟨z, hz, ez⟩ := r_mul h a b (hab.trans hΩ)
  have ez' := le_of_max hu0 ez hab hτ
  refine ⟨Or.inr ⟨z, a * b, hz, by simp, ez', hab⟩, Or.inr ⟨z, hz, ?_⟩⟩
  have : z = (z - a * b) + a * b := by ring
  rw [this]
  have k := mul_le_mul_of_nonneg_right hu (sq_nonneg B)
  exact (abs_add_le _ _).trans (by linarith)

/-- The rounded covariance from nearby averages. -/
theorem cov_point (h : IsRounding R u τ Ω) (hu0 : 0 ≤ u) (hu : 64 * u ≤ 1) {B k : K} (hB : 0 ≤ B) (hτ : τ ≤ B ^ 2) (hΩ : 16 * B ^ 2 ≤ Ω)
    (hk : 40 ≤ k) (hku : k * u ≤ 5 / 8) {a' a b' b d' d : Fl K}
    (ha : Near (k * u * (65 / 64 * B ^ 2) + u * B ^ 2) a' a) (hb : Near (k * u * B) b' b) (hd : Near (k * u * B) d' d)
    (sa : Sized (B ^ 2) a) (sb : Sized B b) (sd : Sized B d) :
    Near (4 * k * u * B ^ 2) (Rounded.sub R a' (Rounded.mul R b' d')) (a - b * d) := by
  have nanl : ∀ z : Fl K, (Fl.nan : Fl K) - z = .nan := fun z => by cases z <;> rfl
  have nanr : ∀ z : Fl K, z - (Fl.nan : Fl K) = .nan := fun z => by cases z <;> rfl
  have mull : ∀ z : Fl K, (Fl.nan : Fl K) * z = .nan := fun z => by cases z <;> rfl
  have mulr : ∀ z : Fl K, z * (Fl.nan : Fl K) = .nan := fun z => by cases z <;> rfl
  rcases ha with ⟨rfl, rfl⟩ | ⟨a', a, rfl, rfl, ha⟩
  · left; simp [Rounded.sub, nanl, rnd]
  rcases hb with ⟨rfl, rfl⟩ | ⟨b', b, rfl, rfl, hb⟩
  · left; simp [Rounded.sub, Rounded.mul, mull, nanr, rnd]
  rcases hd with ⟨rfl, rfl⟩ | ⟨d', d, rfl, rfl, hd⟩
  · left; simp [Rounded.sub, Rounded.mul, mulr, nanr, rnd]
  have fin_of : ∀ {C x : K}, Sized C (.fin x) → |x| ≤ C := by
    intro C x hx
    rcases hx with hx | ⟨v, hv, h⟩
    · cases hx
    · cases hv; exact h
  replace sa := fin_of sa
  replace sb := fin_of sb
  replace sd := fin_of sd
  right
  set P := B ^ 2 with hP
  have hP0 : 0 ≤ P := sq_nonneg B
  have hkuB : k * u * B ≤ 5 / 8 * B := mul_le_mul_of_nonneg_right hku hB
  have hb' : |b'| ≤ 13 / 8 * B := by
    have : b' = (b' - b) + b := by ring
    rw [this]; exact (abs_add_le _ _).trans (by linarith)
  have hd' : |d'| ≤ 13 / 8 * B := by
    have : d' = (d' - d) + d := by ring
    rw [this]; exact (abs_add_le _ _).trans (by linarith)
  have hbd : |b' * d'| ≤ 169 / 64 * P := by
    rw [abs_mul]
    have := mul_le_mul hb' hd' (abs_nonneg _) (by positivity)
    rw [hP]; linarith
  have ebd : |b' * d' - b * d| ≤ 21 / 8 * (k * u * P) := by
    have e : b' * d' - b * d = b' * (d' - d) + (b' - b) * d := by ring
    rw [e]
    have k1 : |b' * (d' - d)| ≤ 13 / 8 * B * (k * u * B) := by
      rw [abs_mul]; exact mul_le_mul hb' hd (abs_nonneg _) (by positivity)
    have k2 : |(b' - b) * d| ≤ k * u * B * B := by
      rw [abs_mul]; exact mul_le_mul hb sd (abs_nonneg _) ((abs_nonneg _).trans hb)
    refine (abs_add_le _ _).trans ?_
    rw [hP]
    linarith
  obtain ⟨p, hp, ep⟩ := r_mul h b' d' (by linarith)
  have ep' := le_of_max hu0 ep hbd (by linarith)
  have huP : 64 * (u * P) ≤ P := by have := mul_le_mul_of_nonneg_right hu hP0; linarith
  have huP0 : 0 ≤ u * P := by positivity
  have hkuP : k * u * P ≤ 5 / 8 * P := mul_le_mul_of_nonneg_right hku hP0
  have h40 : 40 * (u * P) ≤ k * u * P := by have := mul_le_mul_of_nonneg_right hk huP0; linarith
  have ha' : |a'| ≤ 27 / 16 * P := by
    have : a' = (a' - a) + a := by ring
    rw [this]; exact (abs_add_le _ _).trans (by linarith)
  have hpb : |p| ≤ 173 / 64 * P := by
    have : p = (p - b' * d') + b' * d' := by ring
    rw [this]; exact (abs_add_le _ _).trans (by linarith)
  have hap : |a' - p| ≤ 5 * P := (abs_sub _ _).trans (by linarith)
  obtain ⟨y, hy, ey⟩ := r_sub h a' p (by linarith)
  have ey' := le_of_max hu0 ey hap (by linarith)
  refine ⟨y, a - b * d, by rw [hp]; exact hy, by simp, ?_⟩
  have e : y - (a - b * d) = (y - (a' - p)) + ((a' - a) - ((p - b' * d') + (b' * d' - b * d))) := by ring
  rw [e]
  refine (abs_add_le _ _).trans ?_
  have t1 := abs_sub (a' - a) ((p - b' * d') + (b' * d' - b * d))
  have t2 := abs_add_le (p - b' * d') (b' * d' - b * d)
  linarith

theorem near_trans {E F B : K} {a b c : Fl K} (h1 : Near E a b) (h2 : InNear F B b c) : Near (E + F) a c := by
  rcases h1 with ⟨rfl, rfl⟩ | ⟨x, y, rfl, rfl, h1⟩
  · rcases h2 with ⟨-, rfl⟩ | ⟨y, z, h2, -⟩
    · exact Or.inl ⟨rfl, rfl⟩
    · cases h2
  · rcases h2 with ⟨h2, -⟩ | ⟨y', z, h2, rfl, h3, h4⟩
    · cases h2
    · cases h2
      refine Or.inr ⟨x, z, rfl, rfl, ?_⟩
      have : x - z = (x - y) + (y - z) := by ring
      rw [this]; exact (abs_add_le _ _).trans (add_le_add h1 h3)

theorem inNear_sized {F B : K} {b c : Fl K} (h : InNear F B b c) : Sized B c := by
  rcases h with ⟨-, rfl⟩ | ⟨y, z, -, rfl, -, h4⟩
  · exact Or.inl rfl
  · exact Or.inr ⟨z, rfl, h4⟩

theorem inNear_refl {B : K} {a : Fl K} (h : Sized B a) : InNear 0 B a a := by
  rcases h with rfl | ⟨v, rfl, hv⟩
  · exact Or.inl ⟨rfl, rfl⟩
  · exact Or.inr ⟨v, v, rfl, rfl, by simp, hv⟩

theorem forall₂_map {α β γ : Type} {P : β → γ → Prop} (f : α → β) (g : α → γ) (l : List α) (h : ∀ x ∈ l, P (f x) (g x)) :
    List.Forall₂ P (l.map f) (l.map g) := by
  induction l with
  | nil => exact .nil
  | cons a l ih => exact .cons (h a (by simp)) (ih fun x hx => h x (by simp [hx]))

/-- The covariance, given the accuracy `k u B` of the averages of streams bounded by `B` that satisfy `ok`. -/
theorem cov_near_core (h : IsRounding R u τ Ω) (c : EWMACfg K) (B k : K) (hf2 : FormatFits u τ Ω c.com (65 / 64 * B ^ 2)) (hB : 0 ≤ B)
    (hk : 40 ≤ k) (hku : k * u ≤ 5 / 8) (hi : Sized B c.initial) (hi2 : Sized (B ^ 2) c.initial) (ok : List (Fl K) → Prop)
    (step : EWMAState K → Fl K → EWMAOut K × EWMAState K) (ini : EWMAState K)
    (acc : ∀ xs, ok xs → (∀ x ∈ xs, Sized B x) → ∀ t, t < xs.length → ∃ o' o,
      ((⟨ini, step⟩ : Mealy _ _ _).run xs)[t]? = some o' ∧ ((ewma c).run xs)[t]? = some o ∧ Near (k * u * B) o'.value o.value)
    (acc2 : ∀ xs, ok xs → (∀ x ∈ xs, Sized (65 / 64 * B ^ 2) x) → ∀ t, t < xs.length → ∃ o' o,
      ((⟨ini, step⟩ : Mealy _ _ _).run xs)[t]? = some o' ∧ ((ewma c).run xs)[t]? = some o ∧
      Near (k * u * (65 / 64 * B ^ 2)) o'.value o.value)
    (ac : Bool) (ps : List ((ι → Fl K) × (κ → Fl K))) (hp : ∀ p ∈ ps, (∀ i, Sized B (p.1 i)) ∧ ∀ j, Sized B (p.2 j))
    (hok : ∀ i j, ok (ps.map fun p => p.1 i) ∧ ok (ps.map fun p => p.2 j) ∧ ok (ps.map fun p => Rounded.mul R (p.1 i) (p.2 j)))
    (t : Nat) (ht : t < ps.length) :
    ∃ C' C, ((covRounded R step ini ι κ ac).run ps)[t]? = some C' ∧ ((ewmcov ι κ c ac).run ps)[t]? = some C ∧
      ∀ i j, Near (4 * k * u * B ^ 2) (C' i j) (C i j) := by
  obtain ⟨hc, hu0, hB2, f1, f2, f3, f4, f5⟩ := hf2
  have hu : 64 * u ≤ 1 := by nlinarith
  have hP0 : 0 ≤ B ^ 2 := sq_nonneg B
  have hτ : τ ≤ B ^ 2 := by
    rcases le_total τ 0 with h0 | h0
    · exact h0.trans hP0
    · have : 0 ≤ τ * c.com := by positivity
      linarith
  have hΩ : 16 * B ^ 2 ≤ Ω := by
    have : 0 ≤ B ^ 2 * c.com := by positivity
    linarith
  obtain ⟨C', hC', hE'⟩ := covRounded_at R step ini ac ps t ht
  obtain ⟨C, hC, hE⟩ := C23_ewmcov_entry c ac ps t ht
  refine ⟨C', C, hC', hC, fun i j => ?_⟩
  obtain ⟨a', b', d', p1, p2, p3, p4⟩ := hE' i j
  obtain ⟨a, b, d, q1, q2, q3, q4⟩ := hE i j
  obtain ⟨k1, k2, k3⟩ := hok i j
  have hprod : ∀ p ∈ ps, InNear (u * B ^ 2) (B ^ 2) (Rounded.mul R (p.1 i) (p.2 j)) (p.1 i * p.2 j) ∧
      Sized (65 / 64 * B ^ 2) (Rounded.mul R (p.1 i) (p.2 j)) := fun p hm =>
    product_near h hu0 hu hB hτ (by linarith) ((hp p hm).1 i) ((hp p hm).2 j)
  obtain ⟨oa', oa, e1, e2, e3⟩ := acc2 _ k3 (by
    intro x hx
    obtain ⟨p, hm, rfl⟩ := List.mem_map.mp hx
    exact (hprod p hm).2) t (by simpa using ht)
  obtain ⟨o1, o2, g1, g2, g3⟩ := ewma_inputs_near c hc (η := u * B ^ 2) (B := B ^ 2) (by positivity) hi2
    (ps.map fun p => Rounded.mul R (p.1 i) (p.2 j)) (ps.map fun p => p.1 i * p.2 j)
    (forall₂_map _ _ ps fun p hm => (hprod p hm).1) t (by simpa using ht)
  rw [p1, Option.some.injEq] at e1
  rw [g1, Option.some.injEq] at e2
  rw [q1, Option.some.injEq] at g2
  subst e1 e2 g2
  have na := near_trans e3 g3
  have sa := inNear_sized g3
  have sx : ∀ x ∈ ps.map (fun p => p.1 i), Sized B x := by
    intro x hx
    obtain ⟨p, hm, rfl⟩ := List.mem_map.mp hx
    exact (hp p hm).1 i
  have sy : ∀ x ∈ ps.map (fun p => p.2 j), Sized B x := by
    intro x hx
    obtain ⟨p, hm, rfl⟩ := List.mem_map.mp hx
    exact (hp p hm).2 j
  obtain ⟨ob', ob, e1, e2, nb⟩ := acc _ k1 sx t (by simpa using ht)
  obtain ⟨od', od, e3, e4, nd⟩ := acc _ k2 sy t (by simpa using ht)
  have bound : ∀ (f : (ι → Fl K) × (κ → Fl K) → Fl K) (o : EWMAOut K), (∀ x ∈ ps.map f, Sized B x) → ((ewma c).run (ps.map f))[t]? = some o →
      Sized B o.value := by
    intro f o hs ho
    obtain ⟨w', w, g1, g2, g3⟩ := ewma_inputs_near c hc (η := 0) (B := B) le_rfl hi (ps.map f) (ps.map f)
      (forall₂_map f f ps fun p hm => inNear_refl (hs _ (List.mem_map_of_mem hm))) t (by simpa using ht)
    rw [ho, Option.some.injEq] at g2
    subst g2
    exact inNear_sized g3
  have sb := bound _ _ sx e2
  have sd := bound _ _ sy e4
  rw [p2, Option.some.injEq] at e1
  rw [q2, Option.some.injEq] at e2
  rw [p3, Option.some.injEq] at e3
  rw [q3, Option.some.injEq] at e4
  subst e1 e2 e3 e4
  rw [p4, q4]
  cases ac with
  | true =>
    simp only [if_true]
    rcases na with na | ⟨y, v, n1, n2, n3⟩
    · exact Or.inl na
    · refine Or.inr ⟨y, v, n1, n2, n3.trans ?_⟩
      have huP : 0 ≤ u * B ^ 2 := by positivity
      have := mul_le_mul_of_nonneg_right hk huP
      linarith
  | false =>
    simp only [Bool.false_eq_true, if_false]
    exact cov_point h hu0 hu hB hτ hΩ hk hku na nb nd sa sb sd

/-- No value is NaN. -/
def CompleteData (ps : List ((ι → Fl K) × (κ → Fl K))) : Prop := ∀ p ∈ ps, (∀ i, p.1 i ≠ .nan) ∧ ∀ j, p.2 j ≠ .nan

theorem nanFree_product (h : IsMonotoneRounding R) {x y : Fl K} {B : K} (hx : Sized B x) (hy : Sized B y) (hx0 : x ≠ .nan) (hy0 : y ≠ .nan) :
    Rounded.mul R x y ≠ .nan := by
  rcases hx with rfl | ⟨a, rfl, -⟩
  · exact absurd rfl hx0
  rcases hy with rfl | ⟨b, rfl, -⟩
  · exact absurd rfl hy0
  exact h.number (a * b)

theorem com_precision {c : EWMACfg K} {B : K} (hf : FormatFits u τ Ω c.com B) : 40 * (1 + c.com) * u ≤ 5 / 8 := by
  have := hf.precision; linarith

/-- **C182** (Haiku): in floating point, on streams of any length of vectors with entries at most `B`, every entry of the covariance
returned at every step is within `160 u B² (1 + com)` of the exact one.  NaN is allowed with `ignore_na`. -/
theorem C182_ewmcov_rounding (h : IsRounding R u τ Ω) (c : EWMACfg K) (B : K) (hf : FormatFits u τ Ω c.com B)
    (hf2 : FormatFits u τ Ω c.com (65 / 64 * B ^ 2)) (hi : Sized B c.initial) (hi2 : Sized (B ^ 2) c.initial) (ac : Bool)
    (ps : List ((ι → Fl K) × (κ → Fl K))) (hp : ∀ p ∈ ps, (∀ i, Sized B (p.1 i)) ∧ ∀ j, Sized B (p.2 j))
    (hna : c.ignoreNa = true ∨ CompleteData ps) (t : Nat) (ht : t < ps.length) :
    ∃ C' C, ((Rounded.ewmcov R ι κ c ac).run ps)[t]? = some C' ∧ ((ewmcov ι κ c ac).run ps)[t]? = some C ∧
      ∀ i j, Near (160 * u * B ^ 2 * (1 + c.com)) (C' i j) (C i j) := by
  have hc := hf.com_nonneg
  have hi3 : Sized (65 / 64 * B ^ 2) c.initial := by
    rcases hi2 with hi2 | ⟨v, e, hv⟩
    · exact Or.inl hi2
    · exact Or.inr ⟨v, e, hv.trans (by have := sq_nonneg B; linarith)⟩
  have := cov_near_core (ι := ι) (κ := κ) h c B (40 * (1 + c.com)) hf2 hf.B_nonneg (by linarith) (com_precision hf) hi hi2
    (fun xs => c.ignoreNa = true ∨ ∀ x ∈ xs, x ≠ .nan) (Rounded.ewmaStep R c) (Rounded.ewma R c).init
    (fun xs hok hs t ht => by
      obtain ⟨o', o, e1, e2, -, e3⟩ := C178_ewma_rounding h c B hf hi xs hs hok t ht
      exact ⟨o', o, e1, e2, by convert e3 using 1; ring⟩)
    (fun xs hok hs t ht => by
      obtain ⟨o', o, e1, e2, -, e3⟩ := C178_ewma_rounding h c _ hf2 hi3 xs hs hok t ht
      exact ⟨o', o, e1, e2, by convert e3 using 1; ring⟩)
    ac ps hp
    (fun i j => by
      rcases hna with hna | hna
      · exact ⟨Or.inl hna, Or.inl hna, Or.inl hna⟩
      · refine ⟨Or.inr ?_, Or.inr ?_, Or.inr ?_⟩ <;>
        · intro x hx
          obtain ⟨p, hm, rfl⟩ := List.mem_map.mp hx
          first
          | exact (hna p hm).1 i
          | exact (hna p hm).2 j
          | exact nanFree_product h.toIsMonotoneRounding ((hp p hm).1 i) ((hp p hm).2 j) ((hna p hm).1 i) ((hna p hm).2 j))
    t ht
  obtain ⟨C', C, h1, h2, h3⟩ := this
  exact ⟨C', C, h1, h2, fun i j => by convert h3 i j using 1; ring⟩

/-- **C182** (Haiku), missing values not ignored (`adjust` True or False). -/
theorem C182_ewmcov_rounding_missing (h : IsRounding R u τ Ω) (c : EWMACfg K) (B : K) (hf : FormatFits u τ Ω c.com B)
    (hf2 : FormatFits u τ Ω c.com (65 / 64 * B ^ 2)) (hpr : 128 * u * (1 + c.com) ^ 3 ≤ 1) (hadj : c.adjust ≠ .linear)
    (hig : c.ignoreNa = false) (hi : Sized B c.initial) (hi2 : Sized (B ^ 2) c.initial) (ac : Bool)
    (ps : List ((ι → Fl K) × (κ → Fl K))) (hp : ∀ p ∈ ps, (∀ i, Sized B (p.1 i)) ∧ ∀ j, Sized B (p.2 j)) (t : Nat) (ht : t < ps.length) :
    ∃ C' C, ((Rounded.ewmcov R ι κ c ac).run ps)[t]? = some C' ∧ ((ewmcov ι κ c ac).run ps)[t]? = some C ∧
      ∀ i j, Near (320 * u * B ^ 2 * (1 + c.com) ^ 3) (C' i j) (C i j) := by
  have hc := hf.com_nonneg
  have hi3 : Sized (65 / 64 * B ^ 2) c.initial := by
    rcases hi2 with hi2 | ⟨v, e, hv⟩
    · exact Or.inl hi2
    · exact Or.inr ⟨v, e, hv.trans (by have := sq_nonneg B; linarith)⟩
  have h1 : 1 ≤ (1 + c.com) ^ 3 := one_le_pow₀ (by linarith)
  have := cov_near_core (ι := ι) (κ := κ) h c B (80 * (1 + c.com) ^ 3) hf2 hf.B_nonneg (by linarith) (by linarith) hi hi2
    (fun _ => True) (Rounded.ewmaStep R c) (Rounded.ewma R c).init
    (fun xs _ hs t ht => by
      obtain ⟨o', o, e1, e2, -, e3⟩ := C178_ewma_rounding_missing h c B hf hpr hadj hig hi xs hs t ht
      exact ⟨o', o, e1, e2, by convert e3 using 1; ring⟩)
    (fun xs _ hs t ht => by
      obtain ⟨o', o, e1, e2, -, e3⟩ := C178_ewma_rounding_missing h c _ hf2 hpr hadj hig hi3 xs hs t ht
      exact ⟨o', o, e1, e2, by convert e3 using 1; ring⟩)
    ac ps hp (fun _ _ => ⟨trivial, trivial, trivial⟩) t ht
  obtain ⟨C', C, h1, h2, h3⟩ := this
  exact ⟨C', C, h1, h2, fun i j => by convert h3 i j using 1; ring⟩

/-- **C182**, no missing values: the computed variances are at least `-160 u B² (1 + com)`. -/
theorem C182_variance_lower_bound [Fintype ι] (h : IsRounding R u τ Ω) (c : EWMACfg K) (B : K) (hf : FormatFits u τ Ω c.com B)
    (hf2 : FormatFits u τ Ω c.com (65 / 64 * B ^ 2)) (hini : c.initial = .nan) (ac : Bool)
    (xs : List (ι → K)) (hx : ∀ x ∈ xs, ∀ i, |x i| ≤ B) (t : Nat) (ht : t < xs.length) (hm : c.minPeriods ≤ t + 1) :
    ∃ C', ((Rounded.ewmcov R ι ι c ac).run (xs.map fun x => (fun i => .fin (x i), fun i => .fin (x i))))[t]? = some C' ∧
      ∀ i, ∃ v, C' i i = .fin v ∧ -(160 * u * B ^ 2 * (1 + c.com)) ≤ v := by
  obtain ⟨C, h1, -, -, h2⟩ := C23_ewmcov_psd c hf.com_nonneg hini ac xs t ht hm
  obtain ⟨C', D, h3, h4, h5⟩ := C182_ewmcov_rounding (ι := ι) (κ := ι) h c B hf hf2 (Or.inl hini) (Or.inl hini) ac
    (xs.map fun x => (fun i => Fl.fin (x i), fun i => Fl.fin (x i)))
    (by
      intro p hp
      obtain ⟨x, hm, rfl⟩ := List.mem_map.mp hp
      exact ⟨fun i => Or.inr ⟨_, rfl, hx x hm i⟩, fun i => Or.inr ⟨_, rfl, hx x hm i⟩⟩)
    (Or.inr (by
      intro p hp
      obtain ⟨x, hm, rfl⟩ := List.mem_map.mp hp
      exact ⟨fun i => by simp, fun i => by simp⟩)) t (by simpa using ht)
  rw [h1, Option.some.injEq] at h4
  subst h4
  refine ⟨C', h3, fun i => ?_⟩
  rcases h5 i i with ⟨-, h5⟩ | ⟨y, v, e1, e2, e3⟩
  · cases h5
  · cases e2
    refine ⟨y, e1, ?_⟩
    have := (abs_le.mp e3).1
    have := h2 i
    linarith

/-- **C182**: `EWMCov(x, x)` is exactly symmetric also in floating point, on every stream. -/
theorem C182_symmetric (R : K → Fl K) (c : EWMACfg K) (ac : Bool) (xs : List (ι → Fl K)) (t : Nat) (ht : t < xs.length) :
    ∃ C, ((Rounded.ewmcov R ι ι c ac).run (xs.map fun x => (x, x)))[t]? = some C ∧ ∀ i j, C i j = C j i := by
  obtain ⟨C, h1, h2⟩ := covRounded_at (ι := ι) (κ := ι) R (Rounded.ewmaStep R c) (Rounded.ewma R c).init ac (xs.map fun x => (x, x)) t
    (by simpa using ht)
  refine ⟨C, h1, fun i j => ?_⟩
  obtain ⟨a, b, d, e1, e2, e3, e4⟩ := h2 i j
  obtain ⟨a', b', d', f1, f2, f3, f4⟩ := h2 j i
  simp only [List.map_map, Function.comp_def] at e1 e2 e3 f1 f2 f3
  have hc : (fun x : ι → Fl K => Rounded.mul R (x j) (x i)) = fun x => Rounded.mul R (x i) (x j) := by
    funext x; simp only [Rounded.mul, Fl.mul_comm']
  rw [hc, e1, Option.some.injEq] at f1
  rw [e3, Option.some.injEq] at f2
  rw [e2, Option.some.injEq] at f3
  subst f1 f2 f3
  rw [e4, f4]
  simp only [Rounded.mul, Fl.mul_comm' b.value]

/-- With exact arithmetic the rounded covariance is the covariance. -/
theorem C182_exact (c : EWMACfg K) (ac : Bool) : Rounded.ewmcov Fl.fin ι κ c ac = ewmcov ι κ c ac := by
  have he : Rounded.ewmaStep Fl.fin c = ewmaStep c := congrArg Mealy.step (C178_exact_ewma c)
  unfold Rounded.ewmcov ewmcov
  congr 1
  funext s p
  simp only [Rounded.ewmcovStep, ewmcovStep, he, Rounded.mul, Rounded.sub, rnd_fin]

/-- With exact arithmetic the rounded Flax covariance is the Flax covariance. -/
theorem C182_flax_exact (c : EWMACfg K) (ac : Bool) : Rounded.flaxEwmcov Fl.fin ι κ c ac = flaxEwmcov ι κ c ac := by
  have he : Rounded.flaxEwmaStep Fl.fin c = flaxEwmaStep c := congrArg Mealy.step (C178_exact_flax_ewma c)
  unfold Rounded.flaxEwmcov flaxEwmcov
  congr 1
  funext s p
  simp only [Rounded.ewmcovStep, ewmcovStep, he, Rounded.mul, Rounded.sub, rnd_fin]

theorem sized_noInf {B : K} {x : Fl K} (h : Sized B x) : x ≠ .pinf ∧ x ≠ .ninf := by
  rcases h with rfl | ⟨v, rfl, -⟩ <;> simp

/-- **C182** (Flax). -/
theorem C182_flax_ewmcov_rounding (h : IsRounding R u τ Ω) (c : EWMACfg K) (B : K) (hf : FormatFits u τ Ω c.com B)
    (hf2 : FormatFits u τ Ω c.com (65 / 64 * B ^ 2)) (hi : Sized B c.initial) (hi2 : Sized (B ^ 2) c.initial) (ac : Bool)
    (ps : List ((ι → Fl K) × (κ → Fl K))) (hp : ∀ p ∈ ps, (∀ i, Sized B (p.1 i)) ∧ ∀ j, Sized B (p.2 j))
    (hna : c.ignoreNa = true ∨ CompleteData ps) (t : Nat) (ht : t < ps.length) :
    ∃ C' C, ((Rounded.flaxEwmcov R ι κ c ac).run ps)[t]? = some C' ∧ ((flaxEwmcov ι κ c ac).run ps)[t]? = some C ∧
      ∀ i j, Near (160 * u * B ^ 2 * (1 + c.com)) (C' i j) (C i j) := by
  have hc := hf.com_nonneg
  have hi3 : Sized (65 / 64 * B ^ 2) c.initial := by
    rcases hi2 with hi2 | ⟨v, e, hv⟩
    · exact Or.inl hi2
    · exact Or.inr ⟨v, e, hv.trans (by have := sq_nonneg B; linarith)⟩
  have hag := C16_flax_ewma_agrees c hc (sized_noInf hi)
  have := cov_near_core (ι := ι) (κ := κ) h c B (40 * (1 + c.com)) hf2 hf.B_nonneg (by linarith) (com_precision hf) hi hi2
    (fun xs => c.ignoreNa = true ∨ ∀ x ∈ xs, x ≠ .nan) (Rounded.flaxEwmaStep R c) (Rounded.flaxEwma R c).init
    (fun xs hok hs t ht => by
      obtain ⟨o', o, e1, e2, -, e3⟩ := C178_flax_ewma_rounding h c B hf hi xs hs hok t ht
      exact ⟨o', o, e1, by rw [← hag]; exact e2, by convert e3 using 1; ring⟩)
    (fun xs hok hs t ht => by
      obtain ⟨o', o, e1, e2, -, e3⟩ := C178_flax_ewma_rounding h c _ hf2 hi3 xs hs hok t ht
      exact ⟨o', o, e1, by rw [← hag]; exact e2, by convert e3 using 1; ring⟩)
    ac ps hp
    (fun i j => by
      rcases hna with hna | hna
      · exact ⟨Or.inl hna, Or.inl hna, Or.inl hna⟩
      · refine ⟨Or.inr ?_, Or.inr ?_, Or.inr ?_⟩ <;>
        · intro x hx
          obtain ⟨p, hm, rfl⟩ := List.mem_map.mp hx
          first
          | exact (hna p hm).1 i
          | exact (hna p hm).2 j
          | exact nanFree_product h.toIsMonotoneRounding ((hp p hm).1 i) ((hp p hm).2 j) ((hna p hm).1 i) ((hna p hm).2 j))
    t ht
  obtain ⟨C', C, h1, h2, h3⟩ := this
  refine ⟨C', C, h1, ?_, fun i j => by convert h3 i j using 1; ring⟩
  rw [C23_flax_ewmcov_agrees c hc (sized_noInf hi)]
  exact h2

end Cov

/-- **C183** is false: in float32 the Haiku `EWMCov(x, x)` gives a negative variance for the single observation 7 (`com = 2`,
`adjust=False`: the first mean is not 7 but the next float above) and for the constant stream 3 (`com = 2`, `adjust=True`, fifth step). -/
theorem C183_negative_variance_partial :
    let values (a : Adjust) (x : ℚ) (n : Nat) := ((Rounded.ewmcov float32.round Unit Unit ⟨2, a, false, 0, .nan, float32.largest⟩ false).run
      (List.replicate n (fun _ => .fin x, fun _ => .fin x))).map fun C => C () ()
    values .no 7 1 = [.fin (-1 / 131072)] ∧
      values .yes 3 5 = [.fin 0, .fin 0, .fin (1 / 1048576), .fin (1 / 1048576), .fin (-1 / 1048576)] := by
  decide +kernel

/-- The hypotheses of C182 are met in float32 with `com = 2`, entries up to 7. -/
example : FormatFits (1 / 2 ^ float32.prec) (2 ^ float32.emin) float32.largest (2 : ℚ) 7 ∧
    FormatFits (1 / 2 ^ float32.prec) (2 ^ float32.emin) float32.largest (2 : ℚ) (65 / 64 * 7 ^ 2) :=
  ⟨float32_fits 2 7 (by norm_num) (by norm_num) (by norm_num) (by norm_num),
    float32_fits 2 _ (by norm_num) (by norm_num) (by norm_num) (by norm_num)⟩

/-- The bound for the single observation 7: `160 * 49 * 3 / 2^24`; the computed variance is well within it. -/
example : |(-1 / 131072 : ℚ) - 0| ≤ 160 * (1 / 2 ^ 24) * 7 ^ 2 * (1 + 2) := by decide +kernel

end Verif.Props
