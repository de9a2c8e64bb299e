import Verif.Props.OptimNaN

/-! # C212: the same for the Flax optimisers -/

namespace Verif.Props
open Verif Verif.Spec Verif.Model Verif.Model.Optim
set_option linter.unusedSectionVars false

section
variable {S O X L A R : Type} {K : Type} [Field K] [LinearOrder K]

/-- An optimiser that leaves alone the leaf `q` as long as its gradients are 0. -/
def FlaxQuiet (optInit : Nested (Fl K) → O) (optUpdate : Nested (Fl K) → O → Nested (Fl K) → Nested (Fl K) × O) (q : List Name) : Prop :=
  ∃ inv : O → Prop, (∀ p, inv (optInit p)) ∧ ∀ g o p, inv o → (∀ w, (q, w) ∈ g → w = .fin 0) →
    inv (optUpdate g o p).2 ∧ ∀ w, (q, w) ∈ (optUpdate g o p).1 ↔ (q, w) ∈ p

theorem finiteVersion_of_not_fin (v : Fl K) (h : v.isFin = false) : finiteVersion 0 v = .fin 0 := by
  cases v with
  | fin a => simp [Fl.isFin] at h
  | nan => rfl
  | pinf => rfl
  | ninf => simp [finiteVersion]

/-- **C212**, Flax FuncOptimizer on a module: if the gradient of the trainable parameter `q` is NaN or infinite at every call, every call evaluates the module on parameters
in which `q` has its initial value `v` and no other, and reports the gradient 0 for it, whatever happens to the other parameters. -/
theorem C212_flax_func_frozen (c : FlaxFunc O X R (Fl K)) (init : X → Nested (Fl K)) (hinit : c.init = some init) (x : X) (xs : List X)
    (hupd : ∀ g o p, p ≠ [] → (c.optUpdate g o p).1 ≠ []) (q : List Name) (v : Fl K) (hv : (q, v) ∈ (nestedPartition c.pred (init x)).1)
    (huniq : ∀ w, (q, w) ∈ (nestedPartition c.pred (init x)).1 → w = v) (hnt : ∀ w, (q, w) ∉ (nestedPartition c.pred (init x)).2)
    (hq : FlaxQuiet c.optInit c.optUpdate q) (hg : ∀ θ N y w, (q, w) ∈ c.grad θ N y → w.isFin = false)
    (t : Nat) (ht : t < (x :: xs).length) :
    ∃ P g o, ((flaxFunc c).run (x :: xs))[t]? = some (c.apply P (x :: xs)[t], g, some o) ∧
      (∀ w, (q, w) ∈ P ↔ w = v) ∧ ∀ w, (q, w) ∈ g → w = .fin 0 := by
  obtain ⟨inv, i0, i1⟩ := hq
  obtain ⟨θ, o, h0, ho, h⟩ := C84_flax_func_follows_optimizer c init hinit x xs (by intro h; rw [h] at hv; simp at hv) hupd
  have hz : ∀ θ N y w, (q, w) ∈ ((c.grad θ N y).map fun pv => (pv.1, finiteVersion 0 pv.2)) → w = .fin 0 := by
    intro θ N y w hw
    obtain ⟨⟨p', v'⟩, h1, h2⟩ := List.mem_map.1 hw
    simp only [Prod.mk.injEq] at h2
    obtain ⟨rfl, rfl⟩ := h2
    exact finiteVersion_of_not_fin v' (hg θ N y v' h1)
  have key : ∀ k, k ≤ (x :: xs).length → inv (o k) ∧ ∀ w, (q, w) ∈ θ k ↔ w = v := by
    intro k
    induction k with
    | zero =>
      intro _
      refine ⟨by rw [ho]; exact i0 _, fun w => ?_⟩
      rw [h0]
      exact ⟨huniq w, fun e => e ▸ hv⟩
    | succ k ih =>
      intro hk
      obtain ⟨j1, j2⟩ := ih (by omega)
      obtain ⟨e1, e2, -⟩ := h k (by omega)
      obtain ⟨u1, u2⟩ := i1 _ (o k) (θ k) j1 (hz (θ k) (some (nestedPartition c.pred (init x)).2) (x :: xs)[k])
      exact ⟨by rw [e2]; exact u1, fun w => by rw [e1, u2 w, j2 w]⟩
  obtain ⟨-, -, e3⟩ := h t ht
  refine ⟨_, _, _, e3, fun w => ?_, hz _ _ _⟩
  rw [C52_flax_merge_params_partial, (key t (by omega)).2 w]
  exact ⟨fun h => h.elim id fun h => absurd h.1 (hnt w), Or.inl⟩

/-- **C212**, Flax OnlineOptimizer without projection, every parameter trainable, keys without "/": if the gradient of `q` is NaN at every call, every call returns parameters
in which `q` has its initial value, and the gradient 0 for it. -/
theorem C212_flax_online_frozen (big : K) (c : NConfig S O X L A (Fl K)) (hpred : ∀ a b v, c.pred a b v = true) (hproj : ∀ d, c.project d = d)
    (hplain : ∀ g o p, Plain p → Plain (c.optUpdate g o p).1) (p0 : Nested (Fl K)) (hp0 : Plain p0) (s0 : S) (xs : List X)
    (q : List Name) (v : Fl K) (hv : (q, v) ∈ p0) (huniq : ∀ w, (q, w) ∈ p0 → w = v)
    (hq : FlaxQuiet c.optInit c.optUpdate q) (hg : ∀ θ N s, ∀ y ∈ xs, ∀ w, (q, w) ∈ c.grad θ N s y → w = .nan)
    (out : L × A × Nested (Fl K) × Nested (Fl K)) (hout : out ∈ (flaxOnline big c p0 s0).run xs) :
    (∀ w, (q, w) ∈ out.2.2.2 ↔ w = v) ∧ ∀ w, (q, w) ∈ out.2.2.1 → w = .fin 0 := by
  obtain ⟨inv, i0, i1⟩ := hq
  obtain ⟨θ, o, h0, ho, h⟩ := C84_flax_online_follows_optimizer big c hpred (by intro g o p hp; rw [hproj]; exact hplain g o p hp) p0 hp0 s0 xs
  have hz : ∀ θ N s, ∀ y ∈ xs, ∀ w, (q, w) ∈ ((c.grad θ N s y).map fun pv => (pv.1, finiteVersion big pv.2)) → w = .fin 0 := by
    intro θ N s y hy w hw
    obtain ⟨⟨p', v'⟩, h1, h2⟩ := List.mem_map.1 hw
    simp only [Prod.mk.injEq] at h2
    obtain ⟨rfl, rfl⟩ := h2
    rw [hg θ N s y hy v' h1]
    rfl
  have key : ∀ k, k ≤ xs.length → inv (o k) ∧ ∀ w, (q, w) ∈ θ k ↔ w = v := by
    intro k
    induction k with
    | zero =>
      intro _
      refine ⟨by rw [ho]; exact i0 _, fun w => ?_⟩
      rw [h0]
      exact ⟨huniq w, fun e => e ▸ hv⟩
    | succ k ih =>
      intro hk
      obtain ⟨j1, j2⟩ := ih (by omega)
      obtain ⟨e1, e2, -⟩ := h k (by omega)
      obtain ⟨u1, u2⟩ := i1 _ (o k) (θ k) j1 (hz (θ k) [] s0 xs[k] (List.getElem_mem _))
      exact ⟨by rw [e2]; exact u1, fun w => by rw [e1, hproj, u2 w, j2 w]⟩
  obtain ⟨t, ht, he⟩ := List.mem_iff_getElem.1 hout
  have hl : t < xs.length := by rwa [Mealy.run, Mealy.outsFrom_length] at ht
  obtain ⟨-, -, e3⟩ := h t hl
  rw [List.getElem?_eq_getElem ht, he, Option.some_inj] at e3
  subst e3
  exact ⟨(key (t + 1) (by omega)).2, hz _ _ _ _ (List.getElem_mem _)⟩

/-- `optax.sgd(lr)` on the leaves of a nested dictionary. -/
def nestedSgd (lr : K) (g : Nested (Fl K)) (o : Unit) (p : Nested (Fl K)) : Nested (Fl K) × Unit :=
  (p.map fun qv => (qv.1, qv.2 + Fl.fin (-lr) * ((g.find? fun r => r.1 == qv.1).map (·.2)).getD (.fin 0)), o)

theorem nestedSgd_quiet (lr : K) (q : List Name) : FlaxQuiet (O := Unit) (fun _ => ()) (nestedSgd lr) q := by
  refine ⟨fun _ => True, fun _ => trivial, fun g o p _ hz => ⟨trivial, fun w => ?_⟩⟩
  have e : ∀ v : Fl K, v + Fl.fin (-lr) * ((g.find? fun r => r.1 == q).map (·.2)).getD (.fin 0) = v := by
    intro v
    have hd : ((g.find? fun r => r.1 == q).map (·.2)).getD (.fin 0) = Fl.fin (0 : K) := by
      cases hf : g.find? fun r => r.1 == q with
      | none => rfl
      | some r =>
        have h1 := List.find?_some hf
        have h2 := List.mem_of_find?_eq_some hf
        obtain ⟨r1, r2⟩ := r
        have h3 : r1 = q := by simpa using h1
        subst h3
        exact hz r2 h2
    have e2 : -lr * (0 : K) = 0 := by ring
    rw [hd, Fl.fin_mul, e2, add_fin_zero]
  simp only [nestedSgd, List.mem_map, Prod.mk.injEq]
  constructor
  · rintro ⟨⟨q', v'⟩, h1, rfl, rfl⟩
    simp only at h1 e ⊢
    rw [e]; exact h1
  · intro h
    exact ⟨(q, w), h, rfl, e w⟩

theorem nestedSgd_paths (lr : K) (g : Nested (Fl K)) (o : Unit) (p : Nested (Fl K)) : (nestedSgd lr g o p).1.map (·.1) = p.map (·.1) := by
  simp [nestedSgd]

end

section Cases

/-- A module with two parameters: the gradient of `w` is NaN, that of `b` is 2. -/
def exC212 : FlaxFunc Unit Unit (Nested (Fl ℚ)) (Fl ℚ) :=
  ⟨some fun _ => [([['w']], .fin 5), ([['b']], .fin 7)], fun P _ => P, fun _ _ _ => [([['w']], .nan), ([['b']], .fin 2)], fun _ => (), nestedSgd 1, fun _ _ _ => true⟩

/-- Concrete instance of C212 (`C212_flax_func_frozen`): the module is evaluated with `b` trained and `w` not. -/
example : ((flaxFunc exC212).run [(), (), ()]).map (·.1) =
    [[([['w']], .fin 5), ([['b']], .fin 7)], [([['w']], .fin 5), ([['b']], .fin 5)], [([['w']], .fin 5), ([['b']], .fin 3)]] := by decide +kernel
example (xs : List Unit) (t : Nat) (ht : t < (() :: xs).length) : ∃ P g o, ((flaxFunc exC212).run (() :: xs))[t]? = some (exC212.apply P (() :: xs)[t], g, some o) ∧
    (∀ w, ([['w']], w) ∈ P ↔ w = .fin 5) ∧ ∀ w, ([['w']], w) ∈ g → w = .fin 0 :=
  C212_flax_func_frozen exC212 _ rfl () xs (fun g o p hp h => hp (by simpa [nestedSgd_paths] using congrArg (List.map (·.1)) (show (nestedSgd 1 g o p).1 = [] from h)))
    [['w']] (.fin 5) (by decide +kernel) (fun w hw => by
      have e : (nestedPartition exC212.pred [([['w']], Fl.fin (5 : ℚ)), ([['b']], .fin 7)]).1 = [([['w']], .fin 5), ([['b']], .fin 7)] := by decide +kernel
      rw [e] at hw
      simpa using hw) (fun w hw => by
      have e : (nestedPartition exC212.pred [([['w']], Fl.fin (5 : ℚ)), ([['b']], .fin 7)]).2 = [] := by decide +kernel
      rw [e] at hw
      simp at hw) (nestedSgd_quiet 1 _) (fun _ _ _ w hw => by
      have e : exC212.grad = fun _ _ _ => [([['w']], .nan), ([['b']], .fin 2)] := rfl
      rw [e] at hw
      have : w = .nan := by simpa using hw
      rw [this]; rfl) t ht

/-- The same for the OnlineOptimizer. -/
def exC212N : NConfig Unit Unit Unit (Fl ℚ) Unit (Fl ℚ) :=
  ⟨fun _ _ _ => (.nan, ()), fun _ _ _ _ => [([['w']], .nan), ([['b']], .fin 2)], fun _ => (), nestedSgd 1, id, fun _ _ _ => true⟩
/-- Concrete instance of C212 (`C212_flax_online_frozen`). -/
example (xs : List Unit) (out : Fl ℚ × Unit × Nested (Fl ℚ) × Nested (Fl ℚ))
    (h : out ∈ (flaxOnline 1000 exC212N [([['w']], .fin 5), ([['b']], .fin 7)] ()).run xs) :
    (∀ w, ([['w']], w) ∈ out.2.2.2 ↔ w = .fin 5) ∧ ∀ w, ([['w']], w) ∈ out.2.2.1 → w = .fin 0 :=
  C212_flax_online_frozen 1000 exC212N (fun _ _ _ => rfl) (fun _ => rfl) (fun g o p hp => by
      intro q v hq
      obtain ⟨⟨q', v'⟩, h1, h2⟩ := List.mem_map.1 (show (q, v) ∈ List.map _ p from hq)
      cases h2
      exact hp _ _ h1) _ (by
      intro q v hq
      simp only [List.mem_cons, Prod.mk.injEq, List.not_mem_nil, or_false] at hq
      rcases hq with ⟨rfl, -⟩ | ⟨rfl, -⟩ <;> decide) () xs [['w']] (.fin 5) (by decide +kernel) (fun w hw => by simpa using hw) (nestedSgd_quiet 1 _)
    (fun _ _ _ _ _ w hw => by
      have e : exC212N.grad = fun _ _ _ _ => [([['w']], .nan), ([['b']], .fin 2)] := rfl
      rw [e] at hw
      simpa using hw) out h
example : ((flaxOnline 1000 exC212N [([['w']], .fin 5), ([['b']], .fin 7)] ()).run [(), ()]).map (·.2.2.2) =
    [[([['w']], .fin 5), ([['b']], .fin 5)], [([['w']], .fin 5), ([['b']], .fin 3)]] := by decide +kernel
end Cases

end Verif.Props
