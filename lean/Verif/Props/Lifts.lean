import Verif.Model.Lifts

/-! # Property C154: which random key each inner call of a lifted transform gets -/

set_option linter.unusedSectionVars false

namespace Verif.Props
open Model.Lifts

section lifts
variable {P S R I O : Type}

/-- The `t`-th key drawn from the sequence `k` (`next k` is the remaining sequence and the drawn key). -/
def drawnKey (next : R → R × R) (k : R) : Nat → R
  | 0 => (next k).2
  | t + 1 => drawnKey next (next k).1 t

/-- `os` and `s'` are the outputs and the final state of calls of `f`, one after the other from `s`, call `t` on the `t`-th
input with the key `keys t`. -/
def IsKeyedRun (f : Inner P S R I O) (p : P) (keys : Nat → Option R) (s : S) (xs : List I) (os : List O) (s' : S) : Prop :=
  ∃ ss : List S, ss.length = xs.length + 1 ∧ ss[0]? = some s ∧ ss[xs.length]? = some s' ∧ os.length = xs.length ∧
    ∀ (t : Nat) (x : I) (o : O) (a b : S), xs[t]? = some x → os[t]? = some o → ss[t]? = some a → ss[t + 1]? = some b →
      f.apply p a (keys t) x = .ok (o, b)

theorem vmap3_spec {A B C D : Type} (f : A → B → C → Except Unit D) (as : List A) (bs : List B) (cs : List C)
    (h1 : as.length = cs.length) (h2 : bs.length = cs.length) (ds : List D) :
    vmap3 f as bs cs = .ok ds ↔ ds.length = cs.length ∧
      ∀ (i : Nat) (a : A) (b : B) (c : C) (d : D), as[i]? = some a → bs[i]? = some b → cs[i]? = some c → ds[i]? = some d →
        f a b c = .ok d := by
  induction cs generalizing as bs ds with
  | nil =>
    have := List.length_eq_zero_iff.1 h1
    have := List.length_eq_zero_iff.1 h2
    subst_vars
    simp only [vmap3, Except.ok.injEq]
    constructor
    · rintro rfl; simp
    · rintro ⟨h, _⟩; exact (List.length_eq_zero_iff.1 h).symm
  | cons c cs ih =>
    cases as with
    | nil => simp at h1
    | cons a as =>
    cases bs with
    | nil => simp at h2
    | cons b bs =>
    have ih' := ih as bs (by simpa using h1) (by simpa using h2)
    simp only [vmap3, bind, Except.bind]
    cases hf : f a b c with
    | error e =>
      simp only [reduceCtorEq, false_iff, not_and]
      intro hl hall
      cases ds with
      | nil => simp at hl
      | cons d ds =>
        have := hall 0 a b c d rfl rfl rfl rfl
        rw [hf] at this; cases this
    | ok d0 =>
      simp only []
      cases hv : vmap3 f as bs cs with
      | error e =>
        simp only [reduceCtorEq, false_iff, not_and]
        intro hl hall
        cases ds with
        | nil => simp at hl
        | cons d ds =>
          have := (ih' ds).2 ⟨by simpa using hl, fun i a' b' c' d' ha hb hc hd =>
            hall (i + 1) a' b' c' d' (by simpa using ha) (by simpa using hb) (by simpa using hc) (by simpa using hd)⟩
          rw [hv] at this; cases this
      | ok ds0 =>
        simp only [Except.ok.injEq]
        have h0 := (ih' ds0).1 hv
        constructor
        · rintro rfl
          refine ⟨by simp [h0.1], ?_⟩
          intro i a' b' c' d' ha hb hc hd
          cases i with
          | zero => simp at ha hb hc hd; subst_vars; exact hf
          | succ i => exact h0.2 i a' b' c' d' (by simpa using ha) (by simpa using hb) (by simpa using hc) (by simpa using hd)
        · rintro ⟨hl, hall⟩
          cases ds with
          | nil => simp at hl
          | cons d ds =>
            have hd0 := hall 0 a b c d rfl rfl rfl rfl
            rw [hf, Except.ok.injEq] at hd0
            have := (ih' ds).2 ⟨by simpa using hl, fun i a' b' c' d' ha hb hc hd =>
              hall (i + 1) a' b' c' d' (by simpa using ha) (by simpa using hb) (by simpa using hc) (by simpa using hd)⟩
            rw [hv, Except.ok.injEq] at this
            rw [hd0, this]

/-- C154: `split_rng=True` with `init_rng=False` is refused: no initialisation and no application ever succeeds. -/
theorem C154_refused (f : Inner P S R I O) (next : R → R × R) (splitN : R → Nat → List R) (skipFirst : Bool)
    (key : Option R) (ps : List (P × S)) (p : P) (s : S) (xs : List I) :
    vmapLiftInit f next splitN true false key xs = .error () ∧ vmapLiftApply f next splitN true false key ps xs = .error () ∧
    unrollLiftInit f next skipFirst true false key xs = .error () ∧
    unrollLiftApply f next skipFirst true false key p s xs = .error () := by
  refine ⟨rfl, rfl, ?_, ?_⟩ <;> cases xs <;> rfl

/-- C154: by default (`init_rng=True`) a lifted module cannot be initialised without a key, even if it uses no random
numbers. -/
theorem C154_init_needs_key (f : Inner P S R I O) (next : R → R × R) (splitN : R → Nat → List R)
    (skipFirst splitRng : Bool) (xs : List I) :
    vmapLiftInit f next splitN splitRng true none xs = .error () ∧
    unrollLiftInit f next skipFirst splitRng true none xs = .error () := by
  constructor
  · cases splitRng <;> rfl
  · cases xs <;> cases splitRng <;> rfl

/-- C154: with `init_rng=False` no key is used: initialisation gives the same result with any key as without, and each batch
element is initialised by the function without a key. -/
theorem C154_init_keyless (f : Inner P S R I O) (next : R → R × R) (splitN : R → Nat → List R)
    (key : Option R) (xs : List I) :
    vmapLiftInit f next splitN false false key xs = vmapLiftInit f next splitN false false none xs ∧
    (∀ ps, vmapLiftInit f next splitN false false key xs = .ok ps → ps.length = xs.length ∧
      ∀ (b : Nat) (x : I) (q : P × S), xs[b]? = some x → ps[b]? = some q → f.init none x = .ok q) := by
  have e : ∀ key : Option R, vmapLiftInit f next splitN false false key xs =
      (vmap3 (fun (_ : I) (_ : I) (x : I) => f.init none x) xs xs xs).bind fun ps =>
        (vmap3 (fun (p : P × S) (_ : I) (x : I) => f.apply p.1 p.2 none x) ps xs xs).bind fun _ => .ok ps := by
    intro key
    simp only [vmapLiftInit, buildLift, initKey, vmapInner, vmapApply, bind, Except.bind, Bool.false_and, Bool.false_eq_true,
      if_false]
    cases vmap3 (fun (_ : I) (_ : I) (x : I) => f.init none x) xs xs xs with
    | error e => rfl
    | ok ps =>
      simp only []
      cases vmap3 (fun (p : P × S) (_ : I) (x : I) => f.apply p.1 p.2 none x) ps xs xs <;> rfl
  refine ⟨by rw [e, e], ?_⟩
  intro ps h
  rw [e] at h
  cases hv : vmap3 (fun (_ : I) (_ : I) (x : I) => f.init none x) xs xs xs with
  | error e => rw [hv] at h; cases h
  | ok ps0 =>
    rw [hv] at h
    simp only [Except.bind] at h
    have hps : ps0 = ps := by
      revert h
      cases vmap3 (fun (p : P × S) (_ : I) (x : I) => f.apply p.1 p.2 none x) ps0 xs xs with
      | error e => intro h; cases h
      | ok _ => intro h; exact Except.ok.inj h
    subst hps
    have := (vmap3_spec _ xs xs xs rfl rfl ps0).1 hv
    exact ⟨this.1, fun b x q hx hq => this.2 b x x x q hx hx hx hq⟩

/-- C154: with a key, each batch element is initialised with the first drawn key itself (`split_rng=False`: all elements
share it) or with its own part of it (`split_rng=True`). -/
theorem C154_vmap_init_keys (f : Inner P S R I O) (next : R → R × R) (splitN : R → Nat → List R)
    (hs : ∀ k n, (splitN k n).length = n) (splitRng : Bool) (k : R) (xs : List I) (ps : List (P × S))
    (h : vmapLiftInit f next splitN splitRng true (some k) xs = .ok ps) :
    ps.length = xs.length ∧ ∀ (b : Nat) (x : I) (q : P × S), xs[b]? = some x → ps[b]? = some q →
      f.init (if splitRng then (splitN (drawnKey next k 0) xs.length)[b]? else some (drawnKey next k 0)) x = .ok q := by
  have key : ∀ (splitRng : Bool), vmapLiftInit f next splitN splitRng true (some k) xs =
      (vmapInner f splitN splitRng (some (next k).2) xs).bind fun ps =>
        (vmapApply f next splitN splitRng (some (next k).1) ps xs).bind fun _ => .ok ps := by
    intro splitRng
    simp only [vmapLiftInit, buildLift, initKey, nextKey, bind, Except.bind, Bool.not_true, Bool.and_false,
      Bool.false_eq_true, if_false, if_true, Except.map]
  rw [key] at h
  cases hv : vmapInner f splitN splitRng (some (next k).2) xs with
  | error e => rw [hv] at h; cases h
  | ok ps0 =>
    rw [hv] at h
    simp only [Except.bind] at h
    have hps : ps0 = ps := by
      revert h
      cases vmapApply f next splitN splitRng (some (next k).1) ps0 xs with
      | error e => intro h; cases h
      | ok _ => intro h; exact Except.ok.inj h
    subst hps
    cases splitRng with
    | false =>
      have := (vmap3_spec _ xs xs xs rfl rfl ps0).1 hv
      exact ⟨this.1, fun b x q hx hq => this.2 b x x x q hx hx hx hq⟩
    | true =>
      have := (vmap3_spec _ (splitN (next k).2 xs.length) xs xs (hs _ _) rfl ps0).1 hv
      refine ⟨this.1, fun b x q hx hq => ?_⟩
      have hb : b < (splitN (next k).2 xs.length).length := by
        rw [hs]; exact (List.getElem?_eq_some_iff.1 hx).1
      have hr : (splitN (next k).2 xs.length)[b]? = some (splitN (next k).2 xs.length)[b] := List.getElem?_eq_getElem hb
      simp only [if_true, drawnKey, hr]
      exact this.2 b _ x x q hr hx hx hq

/-- C154: without `split_rng` (the default) no inner call gets a key when the module is applied: the result is the same
whatever key is given, and each batch element is the function applied without a key (so it raises if it asks for one). -/
theorem C154_vmap_keyless (f : Inner P S R I O) (next : R → R × R) (splitN : R → Nat → List R) (initRng : Bool)
    (key : Option R) (ps : List (P × S)) (xs : List I) (hl : ps.length = xs.length) (out : List (O × S)) :
    vmapLiftApply f next splitN false initRng key ps xs = .ok out ↔ out.length = xs.length ∧
      ∀ (b : Nat) (q : P × S) (x : I) (o : O × S), ps[b]? = some q → xs[b]? = some x → out[b]? = some o →
        f.apply q.1 q.2 none x = .ok o := by
  have e : vmapLiftApply f next splitN false initRng key ps xs =
      vmap3 (fun (p : P × S) (_ : I) (x : I) => f.apply p.1 p.2 none x) ps xs xs := by
    simp only [vmapLiftApply, buildLift, vmapApply, bind, Except.bind, Bool.false_and, Bool.false_eq_true, if_false]
    cases vmap3 (fun (p : P × S) (_ : I) (x : I) => f.apply p.1 p.2 none x) ps xs xs <;> rfl
  rw [e, vmap3_spec _ ps xs xs hl rfl]
  constructor
  · rintro ⟨h1, h2⟩; exact ⟨h1, fun b q x o hq hx ho => h2 b q x x o hq hx hx ho⟩
  · rintro ⟨h1, h2⟩
    refine ⟨h1, fun b q x x' o hq hx hx' ho => ?_⟩
    exact h2 b q x' o hq hx' ho

/-- C154: with `split_rng=True` the application needs a key, and then element `b` of the batch gets the `b`-th of the keys
obtained by splitting the first key drawn from the sequence given to `apply`. -/
theorem C154_vmap_split (f : Inner P S R I O) (next : R → R × R) (splitN : R → Nat → List R) (ps : List (P × S))
    (xs : List I) (hl : ps.length = xs.length) (hs : ∀ k n, (splitN k n).length = n) :
    vmapLiftApply f next splitN true true none ps xs = .error () ∧
    ∀ (k : R) (out : List (O × S)), vmapLiftApply f next splitN true true (some k) ps xs = .ok out ↔
      out.length = xs.length ∧
      ∀ (b : Nat) (q : P × S) (r : R) (x : I) (o : O × S), ps[b]? = some q → (splitN (drawnKey next k 0) xs.length)[b]? = some r →
        xs[b]? = some x → out[b]? = some o → f.apply q.1 q.2 (some r) x = .ok o := by
  refine ⟨rfl, fun k out => ?_⟩
  have e : vmapLiftApply f next splitN true true (some k) ps xs =
      vmap3 (fun (p : P × S) (r : R) (x : I) => f.apply p.1 p.2 (some r) x) ps (splitN (drawnKey next k 0) xs.length) xs := by
    simp only [vmapLiftApply, buildLift, vmapApply, nextKey, bind, Except.bind, Bool.not_true, Bool.and_false,
      Bool.false_eq_true, if_false, if_true, drawnKey]
    cases vmap3 (fun (p : P × S) (r : R) (x : I) => f.apply p.1 p.2 (some r) x) ps (splitN (next k).2 xs.length) xs <;> rfl
  rw [e, vmap3_spec _ ps _ xs hl (hs _ _)]

/-- C154: so, when splitting gives distinct keys, no two elements of the batch get the same one. -/
theorem C154_vmap_distinct (next : R → R × R) (splitN : R → Nat → List R) (k : R) (n : Nat)
    (hn : (splitN (drawnKey next k 0) n).Nodup) (b b' : Nat) (hb : b < (splitN (drawnKey next k 0) n).length) (hne : b ≠ b') :
    (splitN (drawnKey next k 0) n)[b]? ≠ (splitN (drawnKey next k 0) n)[b']? := by
  intro h
  exact hne ((List.getElem?_inj hb hn).1 h)

theorem keyedRun_nil (f : Inner P S R I O) (p : P) (keys : Nat → Option R) (s : S) (os : List O) (s' : S) :
    IsKeyedRun f p keys s [] os s' ↔ os = [] ∧ s = s' := by
  constructor
  · rintro ⟨ss, h1, h2, h3, h4, _⟩
    rw [List.length_nil] at h3
    rw [h2] at h3
    exact ⟨List.length_eq_zero_iff.1 h4, Option.some.inj h3⟩
  · rintro ⟨rfl, rfl⟩
    exact ⟨[s], rfl, rfl, rfl, rfl, by simp⟩

theorem keyedRun_cons (f : Inner P S R I O) (p : P) (keys : Nat → Option R) (s : S) (x : I) (xs : List I) (os : List O)
    (s' : S) :
    IsKeyedRun f p keys s (x :: xs) os s' ↔ ∃ o os' s1, os = o :: os' ∧ f.apply p s (keys 0) x = .ok (o, s1) ∧
      IsKeyedRun f p (fun t => keys (t + 1)) s1 xs os' s' := by
  constructor
  · rintro ⟨ss, h1, h2, h3, h4, h5⟩
    cases os with
    | nil => simp at h4
    | cons o os' =>
    cases ss with
    | nil => simp at h1
    | cons s0 ss =>
    simp only [List.getElem?_cons_zero, Option.some.injEq] at h2
    subst h2
    cases ss with
    | nil => simp at h1
    | cons s1 ss =>
    refine ⟨o, os', s1, rfl, h5 0 x o s0 s1 rfl rfl rfl rfl, s1 :: ss, by simpa using h1, rfl, by simpa using h3,
      by simpa using h4, ?_⟩
    intro t y o' a b hx ho ha hb
    exact h5 (t + 1) y o' a b (by simpa using hx) (by simpa using ho) (by simpa using ha) (by simpa using hb)
  · rintro ⟨o, os', s1, rfl, hf, ss, h1, h2, h3, h4, h5⟩
    refine ⟨s :: ss, by simp [h1], rfl, by simpa using h3, by simp [h4], ?_⟩
    intro t y o' a b hx ho ha hb
    cases t with
    | zero =>
      simp only [List.getElem?_cons_zero, Option.some.injEq] at hx ho ha
      simp only [List.getElem?_cons_succ] at hb
      rw [h2] at hb
      subst hx ho ha
      rw [hf, Option.some.inj hb]
    | succ t => exact h5 t y o' a b (by simpa using hx) (by simpa using ho) (by simpa using ha) (by simpa using hb)

theorem unrollSteps_spec (f : Inner P S R I O) (next : R → R × R) (splitRng : Bool) (p : P) (s : S) (key : Option R)
    (xs : List I) (os : List O) (s' : S) :
    unrollSteps f next splitRng p s key xs = .ok (os, s') ↔
      IsKeyedRun f p (fun t => if splitRng then key.map fun k => drawnKey next k t else none) s xs os s' := by
  induction xs generalizing s key os with
  | nil => simp [unrollSteps, keyedRun_nil, eq_comm]
  | cons x xs ih =>
    rw [keyedRun_cons]
    simp only [unrollSteps, bind, Except.bind]
    have hkey : (if splitRng = true then maybeNextKey next key else (none, key)).1 =
        (if splitRng then key.map fun k => drawnKey next k 0 else none) := by
      cases splitRng <;> cases key <;> rfl
    have hrest : ∀ t, (if splitRng then ((if splitRng = true then maybeNextKey next key else (none, key)).2).map
        fun k => drawnKey next k t else none) = (if splitRng then key.map fun k => drawnKey next k (t + 1) else none) := by
      intro t
      cases splitRng <;> cases key <;> rfl
    rw [hkey]
    cases hf : f.apply p s (if splitRng then key.map fun k => drawnKey next k 0 else none) x with
    | error e =>
      simp only [reduceCtorEq, false_iff, not_exists, not_and]
      intro o os' s1 _ h; cases h
    | ok r =>
      obtain ⟨o, s1⟩ := r
      simp only [Except.ok.injEq, Prod.mk.injEq]
      have := fun os => ih s1 (if splitRng = true then maybeNextKey next key else (none, key)).2 os
      simp only [hrest] at this
      cases hu : unrollSteps f next splitRng p s1 (if splitRng = true then maybeNextKey next key else (none, key)).2 xs with
      | error e =>
        simp only [hu, reduceCtorEq, false_iff] at this ⊢
        rintro ⟨o', os', s1', rfl, ⟨rfl, rfl⟩, h⟩
        exact this os' h
      | ok r =>
        obtain ⟨os0, s0⟩ := r
        simp only [hu, Except.ok.injEq, Prod.mk.injEq] at this ⊢
        constructor
        · rintro ⟨rfl, rfl⟩
          exact ⟨o, os0, s1, rfl, ⟨rfl, rfl⟩, (this os0).1 ⟨rfl, rfl⟩⟩
        · rintro ⟨o', os', s1', rfl, ⟨rfl, rfl⟩, h⟩
          obtain ⟨rfl, rfl⟩ := (this os').2 h
          exact ⟨rfl, rfl⟩

/-- C154: the unrolled module applies the function step by step from the stored state; with `split_rng=True` step `t` gets the
`t`-th key drawn from the sequence given to `apply` (no key if none was given), and never a key otherwise. -/
theorem C154_unroll_keys (f : Inner P S R I O) (next : R → R × R) (skipFirst splitRng : Bool) (key : Option R) (p : P)
    (s : S) (x : I) (xs : List I) (os : List O) (s' : S) :
    unrollLiftApply f next skipFirst splitRng true key p s (x :: xs) = .ok (os, s') ↔
      IsKeyedRun f p (fun t => if splitRng then key.map fun k => drawnKey next k t else none) s
        (if skipFirst then xs else x :: xs) os s' := by
  rw [← unrollSteps_spec]
  cases skipFirst <;> cases splitRng <;> simp [unrollLiftApply, buildLift, bind, Except.bind, skip]

/-- C154: initialisation of the unrolled module: the function is initialised on the first entry with the first drawn key (none
with `init_rng=False`), and what is stored is that initial state. -/
theorem C154_unroll_init (f : Inner P S R I O) (next : R → R × R) (skipFirst splitRng : Bool) (k : R) (x : I) (xs : List I)
    (p : P) (s : S) :
    (unrollLiftInit f next skipFirst splitRng true (some k) (x :: xs) = .ok (p, s) →
      f.init (some (drawnKey next k 0)) x = .ok (p, s)) ∧
    (unrollLiftInit f next skipFirst false false (some k) (x :: xs) = .ok (p, s) → f.init none x = .ok (p, s)) := by
  constructor
  · intro h
    simp only [unrollLiftInit, buildLift, initKey, nextKey, bind, Except.bind, Bool.not_true, Bool.and_false,
      Bool.false_eq_true, if_false, if_true, Except.map] at h
    change f.init (some (next k).2) x = _
    cases hi : f.init (some (next k).2) x with
    | error e => rw [hi] at h; cases h
    | ok r =>
      rw [hi] at h
      simp only [] at h
      split at h
      · cases h
      · exact congrArg _ (Except.ok.inj h)
  · intro h
    simp only [unrollLiftInit, buildLift, initKey, bind, Except.bind, Bool.not_false, Bool.false_and, Bool.false_eq_true,
      if_false] at h
    cases hi : f.init none x with
    | error e => rw [hi] at h; cases h
    | ok r =>
      rw [hi] at h
      simp only [] at h
      split at h
      · cases h
      · exact congrArg _ (Except.ok.inj h)

/-- A function that adds its key (or 0) to a running total; keys are numbers, drawing from `k` gives `k` and leaves `k + 1`. -/
def keyAdder : Inner Unit Nat Nat Nat Nat where
  init := fun _ _ => .ok ((), 0)
  apply := fun _ s r x => .ok (s + x + r.getD 0, s + x + r.getD 0)

example : unrollLiftApply keyAdder (fun k => (k + 1, k)) false true true (some 100) () 0 [1, 2] = .ok ([101, 204], 204) ∧
    unrollLiftApply keyAdder (fun k => (k + 1, k)) false false true (some 100) () 0 [1, 2] = .ok ([1, 3], 3) :=
  ⟨rfl, rfl⟩

example : vmapLiftApply keyAdder (fun k => (k + 1, k)) (fun k n => (List.range n).map (· + 10 * k)) true true (some 3)
    [((), 0), ((), 5)] [1, 1] = .ok [(31, 31), (37, 37)] := rfl

example : vmapLiftInit keyAdder (fun k => (k + 1, k)) (fun k n => (List.range n).map (· + 10 * k)) false false none [1, 1] =
    .ok [((), 0), ((), 0)] := rfl

end lifts
end Verif.Props
