import Mathlib.Data.List.Induction

/-!
# Streaming machines

Every wax-ml module is, once its parameters are fixed, a state together with a step function from
(state, input) to (output, new state): this is the `apply` function of
`hk.transform_with_state` / `flax_transform_with_state` (unroll.py:79, flax/core/transform.py:67-93).
-/

namespace Verif

/-- A streaming module: its fresh state and its step function. -/
structure Mealy (S I O : Type) where
  init : S
  step : S → I → O × S

namespace Mealy
variable {S I O : Type}

/-- State reached from `s` after consuming `xs`. -/
def stateFrom (m : Mealy S I O) (s : S) (xs : List I) : S :=
  xs.foldl (fun s x => (m.step s x).2) s

/-- Outputs produced from `s` while consuming `xs`. -/
def outsFrom (m : Mealy S I O) : S → List I → List O
  | _, [] => []
  | s, x :: xs => (m.step s x).1 :: outsFrom m (m.step s x).2 xs

/-- Outputs from the fresh state: what the user sees when feeding `xs` one by one. -/
def run (m : Mealy S I O) (xs : List I) : List O := m.outsFrom m.init xs

/-- State from the fresh state. -/
def stateAfter (m : Mealy S I O) (xs : List I) : S := m.stateFrom m.init xs

@[simp] theorem stateFrom_nil (m : Mealy S I O) (s : S) : m.stateFrom s [] = s := rfl
@[simp] theorem stateFrom_cons (m : Mealy S I O) (s : S) (x : I) (xs : List I) :
    m.stateFrom s (x :: xs) = m.stateFrom (m.step s x).2 xs := rfl
@[simp] theorem outsFrom_nil (m : Mealy S I O) (s : S) : m.outsFrom s [] = [] := rfl
@[simp] theorem outsFrom_cons (m : Mealy S I O) (s : S) (x : I) (xs : List I) :
    m.outsFrom s (x :: xs) = (m.step s x).1 :: m.outsFrom (m.step s x).2 xs := rfl

theorem stateFrom_append (m : Mealy S I O) (s : S) (xs ys : List I) :
    m.stateFrom s (xs ++ ys) = m.stateFrom (m.stateFrom s xs) ys := by
  simp [stateFrom]

theorem outsFrom_append (m : Mealy S I O) (s : S) (xs ys : List I) :
    m.outsFrom s (xs ++ ys) = m.outsFrom s xs ++ m.outsFrom (m.stateFrom s xs) ys := by
  induction xs generalizing s with
  | nil => rfl
  | cons x xs ih => simp [ih]

@[simp] theorem outsFrom_length (m : Mealy S I O) (s : S) (xs : List I) :
    (m.outsFrom s xs).length = xs.length := by
  induction xs generalizing s with
  | nil => rfl
  | cons x xs ih => simp [ih]

@[simp] theorem run_length (m : Mealy S I O) (xs : List I) : (m.run xs).length = xs.length := by
  simp [run]

theorem stateAfter_append_singleton (m : Mealy S I O) (xs : List I) (x : I) :
    m.stateAfter (xs ++ [x]) = (m.step (m.stateAfter xs) x).2 := by
  simp [stateAfter, stateFrom_append]

theorem run_append_singleton (m : Mealy S I O) (xs : List I) (x : I) :
    m.run (xs ++ [x]) = m.run xs ++ [(m.step (m.stateAfter xs) x).1] := by
  simp [run, stateAfter, outsFrom_append]

theorem outsFrom_getElem? (m : Mealy S I O) (s : S) (xs : List I) (t : Nat) :
    (m.outsFrom s xs)[t]? = xs[t]?.map fun x => (m.step (m.stateFrom s (xs.take t)) x).1 := by
  induction xs generalizing s t with
  | nil => simp
  | cons x xs ih =>
    cases t with
    | zero => simp
    | succ t => simp [ih]

/-- `m` computes `spec`: on every stream, the output at step `t` is `spec` of the inputs up to and
including step `t`. -/
def Computes (m : Mealy S I O) (spec : List I → O) : Prop :=
  ∀ (xs : List I) (t : Nat), t < xs.length → (m.run xs)[t]? = some (spec (xs.take (t + 1)))

/-- It is enough to check the output after each history `xs ++ [x]`. -/
theorem computes_of_step (m : Mealy S I O) (spec : List I → O)
    (h : ∀ xs x, (m.step (m.stateAfter xs) x).1 = spec (xs ++ [x])) : m.Computes spec := by
  intro xs t ht
  rw [run, outsFrom_getElem?, List.getElem?_eq_getElem ht]
  simp only [Option.map_some, Option.some.injEq]
  have := h (xs.take t) xs[t]
  rw [stateAfter] at this
  rw [this, List.take_append_getElem ht]

/-- Invariant rule: if a description `st` of the state is right at the start and preserved by each
step, it is right after every history. -/
theorem stateAfter_eq (m : Mealy S I O) (st : List I → S) (h0 : m.init = st [])
    (hs : ∀ xs x, (m.step (st xs) x).2 = st (xs ++ [x])) (xs : List I) :
    m.stateAfter xs = st xs := by
  induction xs using List.reverseRecOn with
  | nil => exact h0
  | append_singleton xs x ih => rw [stateAfter_append_singleton, ih, hs]

/-- Invariant rule for predicates relating history and state. -/
theorem stateAfter_inv (m : Mealy S I O) (P : List I → S → Prop) (h0 : P [] m.init)
    (hs : ∀ xs s x, P xs s → P (xs ++ [x]) (m.step s x).2) (xs : List I) :
    P xs (m.stateAfter xs) := by
  induction xs using List.reverseRecOn with
  | nil => exact h0
  | append_singleton xs x ih => rw [stateAfter_append_singleton]; exact hs _ _ _ ih

/-- Two machines related by a simulation have equal outputs on every stream. -/
theorem run_eq_of_sim {S' : Type} (m : Mealy S I O) (m' : Mealy S' I O) (R : S → S' → Prop)
    (h0 : R m.init m'.init)
    (hs : ∀ s s' x, R s s' → (m.step s x).1 = (m'.step s' x).1 ∧ R (m.step s x).2 (m'.step s' x).2)
    (xs : List I) : m.run xs = m'.run xs := by
  have : ∀ xs s s', R s s' → m.outsFrom s xs = m'.outsFrom s' xs := by
    intro xs
    induction xs with
    | nil => intros; rfl
    | cons x xs ih =>
      intro s s' h
      obtain ⟨h1, h2⟩ := hs s s' x h
      simp [h1, ih _ _ h2]
  exact this xs _ _ h0

/-- Two machines whose outputs agree after each prefix of `xs` agree on `xs`. -/
theorem run_eq_of_steps {S' O' : Type} (m : Mealy S I O) (m' : Mealy S' I O') (f : O' → O)
    (xs : List I)
    (h : ∀ t (ht : t < xs.length), (m.step (m.stateAfter (xs.take t)) xs[t]).1 =
      f (m'.step (m'.stateAfter (xs.take t)) xs[t]).1) :
    m.run xs = (m'.run xs).map f := by
  apply List.ext_getElem?
  intro t
  rw [List.getElem?_map, run, run, outsFrom_getElem?, outsFrom_getElem?]
  by_cases ht : t < xs.length
  · rw [List.getElem?_eq_getElem ht]
    simpa [stateAfter] using h t ht
  · rw [List.getElem?_eq_none (by omega)]; rfl

/-- Causality holds of every streaming machine: outputs on a prefix do not depend on what follows. -/
theorem run_take (m : Mealy S I O) (xs : List I) (n : Nat) :
    (m.run xs).take n = m.run (xs.take n) := by
  have := m.outsFrom_append m.init (xs.take n) (xs.drop n)
  rw [List.take_append_drop] at this
  rw [run, this]
  by_cases hn : n ≤ xs.length
  · rw [List.take_left' (by simp [hn])]; rfl
  · have hn' : xs.length ≤ n := by omega
    rw [List.drop_eq_nil_of_le hn']
    simp only [run, outsFrom_nil, List.append_nil]
    exact List.take_of_length_le (by simp; omega)

end Mealy
end Verif
