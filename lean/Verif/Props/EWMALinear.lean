import Verif.Props.EWMA
import Mathlib.Tactic.LinearCombination

/-! # Property C98: EWMA is a linear, monotone, translation-covariant filter that forgets its initial value -/

set_option linter.unusedSectionVars false
set_option linter.unusedSimpArgs false

namespace Verif.Props
open Model Spec Lemmas
variable {K : Type} [Field K] [LinearOrder K] [IsStrictOrderedRing K]

/-- Two floats are both NaN or both finite. -/
def SameGap (x y : Fl K) : Prop := (x = .nan ∧ y = .nan) ∨ (∃ a b, x = .fin a ∧ y = .fin b)

/-- Two streams of numbers with their NaN at the same places. -/
def SameGaps (xs ys : List (Fl K)) : Prop := List.Forall₂ SameGap xs ys

/-- Pairs of readings, from two streams with the same gaps. -/
def pairUp : Option K → Option K → Option (K × K)
  | some a, some b => some (a, b)
  | _, _ => none

/-- One step on a linear combination. -/
theorem aStep_comb (c : EWMACfg K) (hc : 0 ≤ c.com) (α β γ : K) (m o : Option (K × K)) (w : K) (hw : 0 ≤ w) :
    aStep c (m.map fun p => α * p.1 + β * p.2 + γ, w) (o.map fun p => α * p.1 + β * p.2 + γ) =
      ((pairUp (aStep c (m.map Prod.fst, w) (o.map Prod.fst)).1 (aStep c (m.map Prod.snd, w) (o.map Prod.snd)).1).map
        (fun p => α * p.1 + β * p.2 + γ), (aStep c (m.map Prod.fst, w) (o.map Prod.fst)).2) ∧
    (aStep c (m.map Prod.fst, w) (o.map Prod.fst)).2 = (aStep c (m.map Prod.snd, w) (o.map Prod.snd)).2 ∧
    ((aStep c (m.map Prod.fst, w) (o.map Prod.fst)).1.isSome = (aStep c (m.map Prod.snd, w) (o.map Prod.snd)).1.isSome) := by
  have h1 := aWt_nonneg c hc true w hw
  have h2 := nw_pos c hc
  have h3 : aWt c true w + nw c ≠ 0 := by positivity
  rcases m with _ | ⟨a, b⟩ <;> rcases o with _ | ⟨x, y⟩ <;> simp [aStep, pairUp]
  field_simp
  ring

theorem aRun_comb (c : EWMACfg K) (hc : 0 ≤ c.com) (α β γ : K) (l : List (Option (K × K))) :
    aRun c (l.map (Option.map fun p => α * p.1 + β * p.2 + γ)) =
      ((pairUp (aRun c (l.map (Option.map Prod.fst))).1 (aRun c (l.map (Option.map Prod.snd))).1).map
        (fun p => α * p.1 + β * p.2 + γ), (aRun c (l.map (Option.map Prod.fst))).2) ∧
    (aRun c (l.map (Option.map Prod.fst))).2 = (aRun c (l.map (Option.map Prod.snd))).2 ∧
    ((aRun c (l.map (Option.map Prod.fst))).1.isSome = (aRun c (l.map (Option.map Prod.snd))).1.isSome) := by
  induction l using List.reverseRecOn with
  | nil => simp [aRun, pairUp]
  | append_singleton l o ih =>
    simp only [List.map_append, List.map_cons, List.map_nil, aRun_snoc]
    obtain ⟨i1, i2, i3⟩ := ih
    have hw := aRun_wt_nonneg c hc (l.map (Option.map Prod.fst))
    rw [i1]
    generalize hA : aRun c (l.map (Option.map Prod.fst)) = A at *
    generalize hB : aRun c (l.map (Option.map Prod.snd)) = B at *
    obtain ⟨a, w⟩ := A
    obtain ⟨b, w'⟩ := B
    simp only at i2 i3 hw
    subst i2
    have e1 : a = (pairUp a b).map Prod.fst := by cases a <;> cases b <;> simp [pairUp] at i3 ⊢
    have e2 : b = (pairUp a b).map Prod.snd := by cases a <;> cases b <;> simp [pairUp] at i3 ⊢
    have := aStep_comb c hc α β γ (pairUp a b) o w hw
    rw [← e1, ← e2] at this
    exact this

/-- The stream of pairs of two streams with the same gaps. -/
theorem sameGaps_pairs {xs ys : List (Fl K)} (h : SameGaps xs ys) (big α β γ : K) :
    ∃ l : List (Option (K × K)), l.length = xs.length ∧ xs.map (reading big) = l.map (Option.map Prod.fst) ∧
      ys.map (reading big) = l.map (Option.map Prod.snd) ∧
      (List.zipWith (fun x y => Fl.fin α * x + Fl.fin β * y + Fl.fin γ) xs ys).map (reading big) =
        l.map (Option.map fun p => α * p.1 + β * p.2 + γ) := by
  induction h with
  | nil => exact ⟨[], by simp⟩
  | cons hx _ ih =>
    obtain ⟨l, h1, h2, h3, h4⟩ := ih
    rcases hx with ⟨rfl, rfl⟩ | ⟨a, b, rfl, rfl⟩
    · exact ⟨none :: l, by simp [h1], by simp [h2, reading], by simp [h3, reading], by simp [h4, reading]⟩
    · exact ⟨some (a, b) :: l, by simp [h1], by simp [h2, reading], by simp [h3, reading], by simp [h4, reading]⟩

theorem readings_pairs (big α β γ : K) {i j : Fl K} (hi : SameGap i j) {xs ys : List (Fl K)} (h : SameGaps xs ys) :
    ∃ l : List (Option (K × K)), readings big i xs = l.map (Option.map Prod.fst) ∧
      readings big j ys = l.map (Option.map Prod.snd) ∧
      readings big (Fl.fin α * i + Fl.fin β * j + Fl.fin γ)
        (List.zipWith (fun x y => Fl.fin α * x + Fl.fin β * y + Fl.fin γ) xs ys) =
          l.map (Option.map fun p => α * p.1 + β * p.2 + γ) := by
  obtain ⟨l, _, h2, h3, h4⟩ := sameGaps_pairs h big α β γ
  rcases hi with ⟨rfl, rfl⟩ | ⟨a, b, rfl, rfl⟩
  · exact ⟨l, by simp [readings, h2, reading], by simp [readings, h3, reading], by simp [readings, h4, reading]⟩
  · exact ⟨some (a, b) :: l, by simp [readings, h2, reading], by simp [readings, h3, reading], by simp [readings, h4, reading]⟩

theorem SameGaps.take {xs ys : List (Fl K)} (h : SameGaps xs ys) (n : Nat) : SameGaps (xs.take n) (ys.take n) :=
  List.forall₂_take n h

theorem SameGaps.nobs {xs ys : List (Fl K)} (h : SameGaps xs ys) (big : K) (α β γ : K) :
    (observed (xs.map (reading big))).length = (observed (ys.map (reading big))).length ∧
    (observed ((List.zipWith (fun x y => Fl.fin α * x + Fl.fin β * y + Fl.fin γ) xs ys).map (reading big))).length =
      (observed (xs.map (reading big))).length := by
  obtain ⟨l, _, h2, h3, h4⟩ := sameGaps_pairs h big α β γ
  rw [h2, h3, h4]
  clear h2 h3 h4
  constructor
  all_goals
    clear * -
    induction l with
    | nil => rfl
    | cons o l ih => cases o <;> simp_all [observed]

/-- C98, superposition: on two streams of numbers with NaN at the same places, the EWMA of `α·x + β·y + γ` is `α·EWMA(x) +
β·EWMA(y) + γ`, at every step, in every mode (the initial value being combined likewise); NaN outputs are at the same places. -/
theorem C98_ewma_superposition (c : EWMACfg K) (hc : 0 ≤ c.com) (α β γ : K) (i j : Fl K) (hi : SameGap i j)
    (xs ys : List (Fl K)) (h : SameGaps xs ys) :
    ((ewma { c with initial := Fl.fin α * i + Fl.fin β * j + Fl.fin γ }).run
      (List.zipWith (fun x y => Fl.fin α * x + Fl.fin β * y + Fl.fin γ) xs ys)).map (·.value) =
    List.zipWith (fun x y => Fl.fin α * x + Fl.fin β * y + Fl.fin γ)
      (((ewma { c with initial := i }).run xs).map (·.value)) (((ewma { c with initial := j }).run ys).map (·.value)) := by
  have hl : xs.length = ys.length := h.length_eq
  apply List.ext_getElem?
  intro t
  rw [List.getElem?_zipWith, List.getElem?_map, List.getElem?_map, List.getElem?_map]
  by_cases ht : t < xs.length
  · obtain ⟨o1, e1, -, v1, -⟩ := ewma_at { c with initial := i } hc xs t ht
    obtain ⟨o2, e2, -, v2, -⟩ := ewma_at { c with initial := j } hc ys t (hl ▸ ht)
    obtain ⟨o3, e3, -, v3, -⟩ := ewma_at { c with initial := Fl.fin α * i + Fl.fin β * j + Fl.fin γ } hc
      (List.zipWith (fun x y => Fl.fin α * x + Fl.fin β * y + Fl.fin γ) xs ys) t (by simp [← hl, ht])
    rw [e1, e2, e3]
    simp only [Option.map_some, Option.some.injEq]
    rw [v1, v2, v3]
    simp only [List.take_zipWith]
    obtain ⟨n1, n2⟩ := (h.take (t + 1)).nobs c.big α β γ
    rw [n2, n1]
    split
    · obtain ⟨l, r1, r2, r3⟩ := readings_pairs c.big α β γ hi (h.take (t + 1))
      rw [r1, r2, r3]
      obtain ⟨a1, a2, a3⟩ := aRun_comb c hc α β γ l
      change toFl (aRun c _).1 = Fl.fin α * toFl (aRun c _).1 + Fl.fin β * toFl (aRun c _).1 + Fl.fin γ
      rw [a1]
      revert a3
      generalize (aRun c (l.map (Option.map Prod.fst))).1 = p
      generalize (aRun c (l.map (Option.map Prod.snd))).1 = q
      intro a3
      cases p <;> cases q <;> simp_all [toFl, pairUp]
    · simp
  · rw [List.getElem?_eq_none (by simp [← hl]; omega), List.getElem?_eq_none (by simp; omega)]
    simp

theorem sameGaps_self {xs : List (Fl K)} (h : NoInf xs) : SameGaps xs xs := by
  induction xs with
  | nil => exact .nil
  | cons x xs ih =>
    refine .cons ?_ (ih fun y hy => h y (List.mem_cons_of_mem _ hy))
    have := h x List.mem_cons_self
    cases x with
    | nan => exact .inl ⟨rfl, rfl⟩
    | fin k => exact .inr ⟨k, k, rfl, rfl⟩
    | pinf => exact absurd rfl this.1
    | ninf => exact absurd rfl this.2

/-- C98, change of units: the EWMA of `a·x + b` is `a·EWMA(x) + b`, at every step, in every mode, for streams of numbers
and NaN. -/
theorem C98_ewma_affine (c : EWMACfg K) (hc : 0 ≤ c.com) (a b : K) (hi : c.initial ≠ .pinf ∧ c.initial ≠ .ninf)
    (xs : List (Fl K)) (h : NoInf xs) :
    ((ewma { c with initial := Fl.fin a * c.initial + Fl.fin b }).run (xs.map fun x => Fl.fin a * x + Fl.fin b)).map (·.value) =
      ((ewma c).run xs).map fun o => Fl.fin a * o.value + Fl.fin b := by
  have hs : SameGap c.initial c.initial := by
    cases hh : c.initial with
    | nan => exact .inl ⟨rfl, rfl⟩
    | fin k => exact .inr ⟨k, k, rfl, rfl⟩
    | pinf => exact absurd hh hi.1
    | ninf => exact absurd hh hi.2
  have key := C98_ewma_superposition c hc a 0 b _ _ hs xs xs (sameGaps_self h)
  have e : ∀ x : Fl K, (x ≠ .pinf ∧ x ≠ .ninf) → Fl.fin a * x + Fl.fin 0 * x + Fl.fin b = Fl.fin a * x + Fl.fin b := by
    intro x hx
    cases x <;> simp_all
  have e2 : List.zipWith (fun x y => Fl.fin a * x + Fl.fin 0 * y + Fl.fin b) xs xs = xs.map fun x => Fl.fin a * x + Fl.fin b := by
    rw [List.zipWith_self]
    exact List.map_congr_left fun x hx => e x (h x hx)
  rw [e _ hi, e2] at key
  rw [key, List.zipWith_self, List.map_map]
  apply List.map_congr_left
  intro o ho
  obtain ⟨t, ht, rfl⟩ := List.getElem_of_mem ho
  have ht' : t < xs.length := by simpa using ht
  obtain ⟨o1, e1, -, v1, -⟩ := ewma_at c hc xs t ht'
  rw [List.getElem?_eq_getElem ht, Option.some.injEq] at e1
  simp only [Function.comp]
  apply e
  change (((ewma c).run xs)[t]).value ≠ _ ∧ _
  rw [e1, v1]
  split
  · generalize (aRun c _).1 = q
    cases q <;> simp [toFl]
  · simp

/-- At the same instants, two streams of numbers (NaN at the same places), the first never above the second. -/
def Below (xs ys : List (Fl K)) : Prop :=
  List.Forall₂ (fun x y => (x = .nan ∧ y = .nan) ∨ ∃ a b, x = .fin a ∧ y = .fin b ∧ a ≤ b) xs ys

theorem Below.sameGaps {xs ys : List (Fl K)} (h : Below xs ys) : SameGaps xs ys :=
  h.imp fun _ _ h => h.elim .inl fun ⟨a, b, h1, h2, _⟩ => .inr ⟨a, b, h1, h2⟩

theorem aRun_mono (c : EWMACfg K) (hc : 0 ≤ c.com) (l : List (Option (K × K))) (hl : ∀ p, some p ∈ l → p.1 ≤ p.2)
    (a b : K) (ha : (aRun c (l.map (Option.map Prod.fst))).1 = some a)
    (hb : (aRun c (l.map (Option.map Prod.snd))).1 = some b) : a ≤ b := by
  induction l using List.reverseRecOn generalizing a b with
  | nil => simp [aRun] at ha
  | append_singleton l o ih =>
    have ih := ih fun p hp => hl p (by simp [hp])
    have ho : ∀ p, o = some p → p.1 ≤ p.2 := fun p hp => hl p (by simp [hp])
    simp only [List.map_append, List.map_cons, List.map_nil, aRun_snoc] at ha hb
    obtain ⟨-, i2, i3⟩ := aRun_comb c hc 1 1 0 l
    have hw := aRun_wt_nonneg c hc (l.map (Option.map Prod.fst))
    revert ha hb i2 i3 hw ih
    generalize aRun c (l.map (Option.map Prod.fst)) = A
    generalize aRun c (l.map (Option.map Prod.snd)) = B
    obtain ⟨m, w⟩ := A
    obtain ⟨m', w'⟩ := B
    intro ih ha hb i2 i3 hw
    simp only at i2 i3 hw ih
    subst i2
    rcases o with _ | ⟨x, y⟩
    · simp only [Option.map_none, aStep] at ha hb
      exact ih a b ha hb
    · have hxy := ho _ rfl
      rcases m with _ | m <;> rcases m' with _ | m'
      · simp only [Option.map_some, aStep, Option.some.injEq] at ha hb
        subst ha; subst hb; exact hxy
      · simp at i3
      · simp at i3
      · simp only [Option.map_some, aStep, Option.some.injEq] at ha hb
        subst ha; subst hb
        have h1 := aWt_nonneg c hc true w hw
        have h2 := nw_pos c hc
        have h3 := ih m m' rfl rfl
        apply div_le_div_of_nonneg_right _ (by positivity)
        have h4 := mul_le_mul_of_nonneg_left h3 h1
        have h5 := mul_le_mul_of_nonneg_left hxy h2.le
        simp only at hxy h5
        linarith

/-- C98, monotonicity: if one stream is never above another one (NaN at the same places, same for the initial values), neither is
its EWMA, and both are NaN at the same places. -/
theorem C98_ewma_monotone (c : EWMACfg K) (hc : 0 ≤ c.com) (i j : Fl K) (xs ys : List (Fl K))
    (hi : Below [i] [j]) (h : Below xs ys) :
    Below (((ewma { c with initial := i }).run xs).map (·.value)) (((ewma { c with initial := j }).run ys).map (·.value)) := by
  have hs := h.sameGaps
  have hl : xs.length = ys.length := h.length_eq
  have hij : SameGap i j := by
    have := hi.sameGaps
    cases this with
    | cons h _ => exact h
  refine List.forall₂_of_length_eq_of_get (by simp [hl]) ?_
  intro t h1 h2
  have ht : t < xs.length := by simpa using h1
  obtain ⟨o1, e1, -, v1, -⟩ := ewma_at { c with initial := i } hc xs t ht
  obtain ⟨o2, e2, -, v2, -⟩ := ewma_at { c with initial := j } hc ys t (hl ▸ ht)
  have e1' : ((ewma { c with initial := i }).run xs)[t]'(by simpa using ht) = o1 := by
    rw [List.getElem?_eq_getElem (by simpa using ht)] at e1
    exact Option.some.inj e1
  have e2' : ((ewma { c with initial := j }).run ys)[t]'(by simpa [← hl] using ht) = o2 := by
    rw [List.getElem?_eq_getElem (by simpa [← hl] using ht)] at e2
    exact Option.some.inj e2
  simp only [List.get_eq_getElem, List.getElem_map, e1', e2']
  rw [v1, v2]
  simp only
  rw [((hs.take (t + 1)).nobs c.big 1 1 0).1]
  split
  · have hz : ∃ l : List (Option (K × K)), readings c.big i (xs.take (t + 1)) = l.map (Option.map Prod.fst) ∧
        readings c.big j (ys.take (t + 1)) = l.map (Option.map Prod.snd) ∧ ∀ p, some p ∈ l → p.1 ≤ p.2 := by
      have gen : ∀ (us vs : List (Fl K)), Below us vs → ∃ l : List (Option (K × K)),
          us.map (reading c.big) = l.map (Option.map Prod.fst) ∧ vs.map (reading c.big) = l.map (Option.map Prod.snd) ∧
          ∀ p, some p ∈ l → p.1 ≤ p.2 := by
        intro us vs hb
        induction hb with
        | nil => exact ⟨[], by simp⟩
        | cons hx _ ih =>
          obtain ⟨l, q1, q2, q3⟩ := ih
          rcases hx with ⟨rfl, rfl⟩ | ⟨a, b, rfl, rfl, hab⟩
          · refine ⟨none :: l, by simp [q1, reading], by simp [q2, reading], ?_⟩
            intro p hp
            simp at hp
            exact q3 p hp
          · refine ⟨some (a, b) :: l, by simp [q1, reading], by simp [q2, reading], ?_⟩
            intro p hp
            simp only [List.mem_cons, Option.some.injEq] at hp
            rcases hp with rfl | hp
            · exact hab
            · exact q3 p hp
      obtain ⟨l, q1, q2, q3⟩ := gen _ _ (List.forall₂_take (t + 1) h)
      obtain ⟨l0, p1, p2, p3⟩ := gen _ _ hi
      rcases hij with ⟨rfl, rfl⟩ | ⟨a, b, rfl, rfl⟩
      · exact ⟨l, by simp [readings, reading, q1], by simp [readings, reading, q2], q3⟩
      · refine ⟨l0 ++ l, ?_, ?_, ?_⟩
        · rw [List.map_append, ← p1, ← q1]; simp [readings, reading]
        · rw [List.map_append, ← p2, ← q2]; simp [readings, reading]
        · intro p hp
          rcases List.mem_append.mp hp with hp | hp
          · exact p3 p hp
          · exact q3 p hp
    obtain ⟨l, r1, r2, r3⟩ := hz
    rw [r1, r2]
    have hm := aRun_mono c hc l r3
    obtain ⟨-, -, a3⟩ := aRun_comb c hc 1 1 0 l
    change (toFl (aRun c _).1 = _ ∧ toFl (aRun c _).1 = _) ∨ ∃ a b, toFl (aRun c _).1 = _ ∧ toFl (aRun c _).1 = _ ∧ _
    revert hm a3
    generalize (aRun c (l.map (Option.map Prod.fst))).1 = p
    generalize (aRun c (l.map (Option.map Prod.snd))).1 = q
    intro hm a3
    cases p <;> cases q <;> simp_all [toFl]
  · exact .inl ⟨rfl, rfl⟩

theorem aRun_forget (c : EWMACfg K) (ha : c.adjust = .no) (i j : K) (l : List K) :
    ∃ u v, aRun c (some i :: l.map some) = (some u, 1) ∧ aRun c (some j :: l.map some) = (some v, 1) ∧
      u - v = (1 - al c) ^ l.length * (i - j) := by
  induction l using List.reverseRecOn with
  | nil => exact ⟨i, j, by simp [aRun, aStep]⟩
  | append_singleton l x ih =>
    obtain ⟨u, v, h1, h2, h3⟩ := ih
    have e : ∀ k, aRun c (some k :: (l ++ [x]).map some) = aStep c (aRun c (some k :: l.map some)) (some x) := by
      intro k
      rw [← aRun_snoc]
      simp
    have hs : ∀ m, aStep c (some m, 1) (some x) = (some ((1 - al c) * m + al c * x), 1) := by
      intro m
      simp [aStep, aWt, nw, ha, Adjust.truthy]
    refine ⟨_, _, by rw [e, h1, hs], by rw [e, h2, hs], ?_⟩
    rw [List.length_append, List.length_singleton, pow_succ]
    linear_combination (1 - al c) * h3

/-- C98, forgetting: with `adjust=False` the influence of the initial value is multiplied by `1 - alpha` at each observation: after
`n` numbers, two filters started at `i` and `j` differ by exactly `(1 - alpha)^n · (i - j)`. -/
theorem C98_ewma_forgets (c : EWMACfg K) (α : K) (h0 : 0 < α) (h1 : α ≤ 1) (hcom : c.com = 1 / α - 1) (ha : c.adjust = .no)
    (hp : c.minPeriods = 0) (i j : K) (xs : List K) (hne : xs ≠ []) :
    ∃ u v, lastValue { c with initial := .fin i } (xs.map Fl.fin) = some (.fin u) ∧
      lastValue { c with initial := .fin j } (xs.map Fl.fin) = some (.fin v) ∧
      u - v = (1 - α) ^ xs.length * (i - j) := by
  have hc : 0 ≤ c.com := by
    rw [hcom, sub_nonneg, le_div_iff₀ h0]; linarith
  have hal : al c = α := by
    unfold al; rw [hcom]; field_simp; simp
  obtain ⟨u, v, e1, e2, e3⟩ := aRun_forget c ha i j xs
  refine ⟨u, v, ?_, ?_, hal ▸ e3⟩
  · rw [lastValue_eq { c with initial := .fin i } hc hp _ (by simpa using hne)]
    have : readings c.big (.fin i) (xs.map Fl.fin) = some i :: xs.map some := by
      simp [readings, reading, Function.comp_def]
    change some (toFl (aRun c (readings c.big (.fin i) _)).1) = _
    rw [this, e1]; rfl
  · rw [lastValue_eq { c with initial := .fin j } hc hp _ (by simpa using hne)]
    have : readings c.big (.fin j) (xs.map Fl.fin) = some j :: xs.map some := by
      simp [readings, reading, Function.comp_def]
    change some (toFl (aRun c (readings c.big (.fin j) _)).1) = _
    rw [this, e2]; rfl

example : SameGaps ([.fin 1, .nan, .fin 3] : List (Fl ℚ)) [.fin 5, .nan, .fin 0] :=
  .cons (.inr ⟨1, 5, rfl, rfl⟩) (.cons (.inl ⟨rfl, rfl⟩) (.cons (.inr ⟨3, 0, rfl, rfl⟩) .nil))
example : Below ([.fin 1, .nan, .fin 3] : List (Fl ℚ)) [.fin 5, .nan, .fin 3] :=
  .cons (.inr ⟨1, 5, rfl, rfl, by norm_num⟩) (.cons (.inl ⟨rfl, rfl⟩) (.cons (.inr ⟨3, 3, rfl, rfl, le_refl _⟩) .nil))
example : ((ewma (K := ℚ) ⟨1, .yes, false, 0, .nan, 1000⟩).run [.fin 1, .nan, .fin 3]).map (·.value) =
    [.fin 1, .fin 1, .fin (13 / 5)] := by decide +kernel
example : ((ewma (K := ℚ) ⟨1, .yes, false, 0, .nan, 1000⟩).run [.fin 12, .nan, .fin 32]).map (·.value) =
    [.fin (10 * 1 + 2), .fin 12, .fin (10 * (13 / 5) + 2)] := by decide +kernel

end Verif.Props
