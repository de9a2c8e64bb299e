import Verif.Model.Threads
import Verif.Props.Reports

/-! # C176: several threads; C177: the memory report -/

set_option linter.unusedSectionVars false

namespace Verif.Props
open Verif Model.Threads Model.Debug Model.Reports

section
variable {T Op : Type}

/-- Specification: a sequential history of calls, each with the number of its thread, in which every thread makes its calls in the
order of its program. -/
def IsInterleaving (programs : Nat → List Op) (l : List (Nat × Op)) : Prop :=
  ∀ i, (l.filter fun c => c.1 = i).map Prod.snd = programs i

/-- The object after a sequential history. -/
def sequential (o : Obj T Op) (t : T) (l : List (Nat × Op)) : T := (l.map Prod.snd).foldl o.apply t

/-- All threads have made all their calls. -/
def Finished (w : World T Op) : Prop := ∀ i, (w.threads i).pending = none ∧ (w.threads i).todo = []

/-- What the three objects have in common: the flag can be read and assigned; guarded methods do nothing when it is off; no method but
the two switches changes it. -/
structure Lawful (o : Obj T Op) : Prop where
  get_set : ∀ t b, o.enabled (o.setEnabled t b) = b
  set_get : ∀ t, o.setEnabled t (o.enabled t) = t
  set_set : ∀ t b c, o.setEnabled (o.setEnabled t b) c = o.setEnabled t c
  off : ∀ t op, o.kind op = .guarded → o.enabled t = false → o.apply t op = t
  keeps : ∀ t op, o.kind op = .guarded → o.enabled (o.apply t op) = o.enabled t
  on_enable : ∀ t op, o.kind op = .enable → o.apply t op = o.setEnabled t true
  on_disable : ∀ t op, o.kind op = .disable → o.apply t op = o.setEnabled t false

theorem sequential_append (o : Obj T Op) (t : T) (a b : List (Nat × Op)) : sequential o t (a ++ b) = sequential o (sequential o t a) b := by
  simp [sequential]

theorem sequential_one (o : Obj T Op) (t : T) (c : Nat × Op) : sequential o t [c] = o.apply t c.2 := rfl

/-- The calls of thread `i` in a history. -/
def callsOf (i : Nat) (l : List (Nat × Op)) : List Op := (l.filter fun c => c.1 = i).map Prod.snd

theorem callsOf_append (i : Nat) (a b : List (Nat × Op)) : callsOf i (a ++ b) = callsOf i a ++ callsOf i b := by simp [callsOf]

theorem callsOf_one (i j : Nat) (op : Op) : callsOf i [(j, op)] = if j = i then [op] else [] := by
  by_cases h : j = i <;> simp [callsOf, h]

variable {o : Obj T Op} (law : Lawful o) (t₀ : T) (programs : Nat → List Op)
include law

theorem work_on (t : T) (op : Op) (hk : o.kind op = .guarded) (he : o.enabled t = true) : work o t op = o.apply t op := by
  have h1 : o.setEnabled t true = t := by rw [← he]; exact law.set_get t
  have h2 : o.enabled (o.apply t op) = o.enabled t := law.keeps t op hk
  rw [work, h1, ← h2]
  exact law.set_get _

theorem enabled_work (t : T) (op : Op) : o.enabled (work o t op) = o.enabled t := law.get_set _ _

/-- What relates the threads to a sequential history. -/
structure Linear (w : World T Op) (l : List (Nat × Op)) : Prop where
  state : sequential o t₀ l = w.obj
  calls : ∀ i, callsOf i l ++ (w.threads i).pending.toList ++ (w.threads i).todo = programs i
  kinds : ∀ i op, (w.threads i).pending = some op → o.kind op = .guarded

/-- While the flag is off, calls that read it before can be put before the switch. -/
def Early (w : World T Op) (l : List (Nat × Op)) : Prop :=
  o.enabled w.obj = false → (∃ i, (w.threads i).pending ≠ none) →
    ∃ a b, l = a ++ b ∧ sequential o t₀ a = o.setEnabled w.obj true ∧
      (∀ s, o.enabled s = true → sequential o s b = o.setEnabled s false) ∧ ∀ i, (w.threads i).pending ≠ none → callsOf i b = []

omit law in
theorem calls_snoc {w : World T Op} {l : List (Nat × Op)} (L : Linear (o := o) t₀ programs w l) (i : Nat) (op : Op) (todo : List Op)
    (hp : (w.threads i).pending = none) (ht : (w.threads i).todo = op :: todo) :
    ∀ j, callsOf j (l ++ [(i, op)]) ++ ((if j = i then (⟨none, todo⟩ : Thread Op) else w.threads j).pending.toList) ++
      (if j = i then (⟨none, todo⟩ : Thread Op) else w.threads j).todo = programs j := by
  intro j
  have := L.calls j
  by_cases hj : j = i
  · subst hj
    rw [hp, ht] at this
    simpa [callsOf_append, callsOf_one] using this
  · rw [if_neg hj, callsOf_append, callsOf_one, if_neg (fun h => hj h.symm), List.append_nil]
    exact this

/-- A step, when no method but the guarded ones and the switches is used. -/
theorem linear_step_noLocked {w : World T Op} {l : List (Nat × Op)} (L : Linear (o := o) t₀ programs w l)
    (E : Early (o := o) t₀ w l) (i : Nat) (hno : ∀ op ∈ (w.threads i).todo, o.kind op ≠ .locked) :
    ∃ l', Linear (o := o) t₀ programs (w.step o i) l' ∧ Early (o := o) t₀ (w.step o i) l' := by
  obtain ⟨hs, hc, hk⟩ := L
  have L : Linear (o := o) t₀ programs w l := ⟨hs, hc, hk⟩
  cases hp : (w.threads i).pending with
  | some op =>
    have hnext : (w.threads i).next o w.obj = (work o w.obj op, ⟨none, (w.threads i).todo⟩) := by
      unfold Thread.next; rw [hp]
    have hw : w.step o i = ⟨work o w.obj op, fun j => if j = i then ⟨none, (w.threads i).todo⟩ else w.threads j⟩ := by
      simp only [World.step, hnext]
    rw [hw]
    have hkind := hk i op hp
    have hkinds : ∀ j op', (if j = i then (⟨none, (w.threads i).todo⟩ : Thread Op) else w.threads j).pending = some op' → o.kind op' = .guarded := by
      intro j op' h
      by_cases hj : j = i
      · simp [hj] at h
      · rw [if_neg hj] at h; exact hk j op' h
    cases he : o.enabled w.obj with
    | true =>
      refine ⟨l ++ [(i, op)], ⟨?_, ?_, hkinds⟩, ?_⟩
      · rw [sequential_append, hs, sequential_one, work_on law _ _ hkind he]
      · intro j
        have := hc j
        by_cases hj : j = i
        · subst hj
          rw [hp] at this
          simpa [callsOf_append, callsOf_one] using this
        · simp only [if_neg hj, callsOf_append, callsOf_one, if_neg (fun h : i = j => hj h.symm), List.append_nil]
          exact this
      · intro h
        rw [enabled_work law, he] at h
        exact absurd h (by simp)
    | false =>
      obtain ⟨a, b, rfl, ha, hb, hcb⟩ := E he ⟨i, by simp [hp]⟩
      have hib : callsOf i b = [] := hcb i (by simp [hp])
      have hu : o.enabled (o.apply (o.setEnabled w.obj true) op) = true := by rw [law.keeps _ _ hkind, law.get_set]
      have hwork : work o w.obj op = o.setEnabled (o.apply (o.setEnabled w.obj true) op) false := by rw [work, he]
      refine ⟨a ++ (i, op) :: b, ⟨?_, ?_, hkinds⟩, ?_⟩
      · have : a ++ (i, op) :: b = (a ++ [(i, op)]) ++ b := by simp
        rw [this, sequential_append, sequential_append, ha, sequential_one, hb _ hu, hwork]
      · intro j
        have := hc j
        have e : callsOf j (a ++ (i, op) :: b) = callsOf j a ++ (callsOf j [(i, op)] ++ callsOf j b) := by
          rw [← callsOf_append, ← callsOf_append]; rfl
        rw [e, callsOf_one]
        rw [callsOf_append] at this
        by_cases hj : j = i
        · subst hj
          rw [hp, hib] at this
          simpa [hib] using this
        · simp only [if_neg hj, if_neg (fun h : i = j => hj h.symm), List.nil_append]
          exact this
      · intro _ _
        refine ⟨a ++ [(i, op)], b, by simp, ?_, hb, ?_⟩
        · rw [sequential_append, ha, sequential_one, hwork, law.set_set]
          have := law.set_get (o.apply (o.setEnabled w.obj true) op)
          rw [hu] at this
          exact this.symm
        · intro j hj
          by_cases hji : j = i
          · simp [hji] at hj
          · simp only [if_neg hji] at hj
            exact hcb j hj
  | none =>
    cases ht : (w.threads i).todo with
    | nil =>
      have hnext : (w.threads i).next o w.obj = (w.obj, w.threads i) := by
        unfold Thread.next; rw [hp, ht]
      have hw : w.step o i = w := by
        simp only [World.step, hnext]
        cases w with
        | mk obj threads =>
          congr
          funext j
          by_cases hj : j = i
          · simp [hj]
          · simp [hj]
      rw [hw]
      exact ⟨l, L, E⟩
    | cons op todo =>
      have hnl := hno op (by simp [ht])
      have hkinds : ∀ (x : Option Op), (∀ y, x = some y → o.kind y = .guarded) →
          ∀ j op', (if j = i then (⟨x, todo⟩ : Thread Op) else w.threads j).pending = some op' → o.kind op' = .guarded := by
        intro x hx j op' h
        by_cases hj : j = i
        · rw [if_pos hj] at h; exact hx op' h
        · rw [if_neg hj] at h; exact hk j op' h
      have hpend : ∀ j, (if j = i then (⟨none, todo⟩ : Thread Op) else w.threads j).pending ≠ none → j ≠ i ∧ (w.threads j).pending ≠ none := by
        intro j h
        by_cases hj : j = i
        · simp [hj] at h
        · rw [if_neg hj] at h; exact ⟨hj, h⟩
      cases hkd : o.kind op with
      | guarded =>
        have hnext : (w.threads i).next o w.obj = (w.obj, ⟨if o.enabled w.obj then some op else none, todo⟩) := by
          unfold Thread.next; rw [hp, ht]; simp only [hkd]
        have hw : w.step o i = ⟨w.obj, fun j => if j = i then ⟨if o.enabled w.obj then some op else none, todo⟩ else w.threads j⟩ := by
          simp only [World.step, hnext]
        rw [hw]
        cases he : o.enabled w.obj with
        | true =>
          simp only [if_true]
          refine ⟨l, ⟨hs, ?_, hkinds _ (by intro y hy; cases hy; exact hkd)⟩, ?_⟩
          · intro j
            have := hc j
            by_cases hj : j = i
            · subst hj
              rw [hp, ht] at this
              simpa using this
            · simp only [if_neg hj]; exact this
          · intro h
            rw [he] at h; exact absurd h (by simp)
        | false =>
          simp only [Bool.false_eq_true, if_false]
          refine ⟨l ++ [(i, op)], ⟨?_, calls_snoc t₀ programs L i op todo hp ht, hkinds none (by simp)⟩, ?_⟩
          · rw [sequential_append, hs, sequential_one]; exact law.off _ _ hkd he
          · intro _ ⟨j, hj⟩
            obtain ⟨a, b, rfl, ha, hb, hcb⟩ := E he ⟨j, (hpend j hj).2⟩
            refine ⟨a, b ++ [(i, op)], by simp, ha, ?_, ?_⟩
            · intro s hs'
              rw [sequential_append, hb s hs', sequential_one]
              exact law.off _ _ hkd (law.get_set _ _)
            · intro k hk'
              obtain ⟨h1, h2⟩ := hpend k hk'
              rw [callsOf_append, hcb k h2, callsOf_one, if_neg (fun h => h1 h.symm)]; rfl
      | enable =>
        have hnext : (w.threads i).next o w.obj = (o.setEnabled w.obj true, ⟨none, todo⟩) := by
          unfold Thread.next; rw [hp, ht]; simp only [hkd]
        have hw : w.step o i = ⟨o.setEnabled w.obj true, fun j => if j = i then ⟨none, todo⟩ else w.threads j⟩ := by
          simp only [World.step, hnext]
        rw [hw]
        refine ⟨l ++ [(i, op)], ⟨?_, calls_snoc t₀ programs L i op todo hp ht, hkinds none (by simp)⟩, ?_⟩
        · rw [sequential_append, hs, sequential_one, law.on_enable _ _ hkd]
        · intro h
          rw [law.get_set] at h; exact absurd h (by simp)
      | disable =>
        have hnext : (w.threads i).next o w.obj = (o.setEnabled w.obj false, ⟨none, todo⟩) := by
          unfold Thread.next; rw [hp, ht]; simp only [hkd]
        have hw : w.step o i = ⟨o.setEnabled w.obj false, fun j => if j = i then ⟨none, todo⟩ else w.threads j⟩ := by
          simp only [World.step, hnext]
        rw [hw]
        refine ⟨l ++ [(i, op)], ⟨?_, calls_snoc t₀ programs L i op todo hp ht, hkinds none (by simp)⟩, ?_⟩
        · rw [sequential_append, hs, sequential_one, law.on_disable _ _ hkd]
        · intro _ ⟨j, hj⟩
          cases he : o.enabled w.obj with
          | true =>
            refine ⟨l, [(i, op)], rfl, ?_, ?_, ?_⟩
            · rw [hs, law.set_set]
              have := law.set_get w.obj
              rw [he] at this
              exact this.symm
            · intro s _
              rw [sequential_one, law.on_disable _ _ hkd]
            · intro k hk'
              rw [callsOf_one, if_neg (fun h => (hpend k hk').1 h.symm)]
          | false =>
            obtain ⟨a, b, rfl, ha, hb, hcb⟩ := E he ⟨j, (hpend j hj).2⟩
            refine ⟨a, b ++ [(i, op)], by simp, ?_, ?_, ?_⟩
            · rw [ha, law.set_set]
            · intro s hs'
              rw [sequential_append, hb s hs', sequential_one, law.on_disable _ _ hkd, law.set_set]
            · intro k hk'
              obtain ⟨h1, h2⟩ := hpend k hk'
              rw [callsOf_append, hcb k h2, callsOf_one, if_neg (fun h => h1 h.symm)]; rfl
      | locked => exact absurd hkd hnl

/-- A step, when the flag is never switched off. -/
theorem linear_step_noDisable {w : World T Op} {l : List (Nat × Op)} (L : Linear (o := o) t₀ programs w l)
    (E : ∀ i, (w.threads i).pending ≠ none → o.enabled w.obj = true) (keepLocked : ∀ t op, o.kind op = .locked → o.enabled (o.apply t op) = o.enabled t)
    (i : Nat) (hno : ∀ op ∈ (w.threads i).todo, o.kind op ≠ .disable) :
    ∃ l', Linear (o := o) t₀ programs (w.step o i) l' ∧ ∀ j, ((w.step o i).threads j).pending ≠ none → o.enabled (w.step o i).obj = true := by
  obtain ⟨hs, hc, hk⟩ := L
  have L : Linear (o := o) t₀ programs w l := ⟨hs, hc, hk⟩
  cases hp : (w.threads i).pending with
  | some op =>
    have he := E i (by simp [hp])
    have hkind := hk i op hp
    have hnext : (w.threads i).next o w.obj = (work o w.obj op, ⟨none, (w.threads i).todo⟩) := by
      unfold Thread.next; rw [hp]
    have hw : w.step o i = ⟨work o w.obj op, fun j => if j = i then ⟨none, (w.threads i).todo⟩ else w.threads j⟩ := by
      simp only [World.step, hnext]
    rw [hw]
    refine ⟨l ++ [(i, op)], ⟨?_, ?_, ?_⟩, ?_⟩
    · rw [sequential_append, hs, sequential_one, work_on law _ _ hkind he]
    · intro j
      have := hc j
      by_cases hj : j = i
      · subst hj
        rw [hp] at this
        simpa [callsOf_append, callsOf_one] using this
      · simp only [if_neg hj, callsOf_append, callsOf_one, if_neg (fun h : i = j => hj h.symm), List.append_nil]
        exact this
    · intro j op' h
      by_cases hj : j = i
      · simp [hj] at h
      · simp only [if_neg hj] at h; exact hk j op' h
    · intro _ _
      rw [enabled_work law]; exact he
  | none =>
    cases ht : (w.threads i).todo with
    | nil =>
      have hnext : (w.threads i).next o w.obj = (w.obj, w.threads i) := by
        unfold Thread.next; rw [hp, ht]
      have hw : w.step o i = w := by
        simp only [World.step, hnext]
        cases w with
        | mk obj threads =>
          congr
          funext j
          by_cases hj : j = i
          · simp [hj]
          · simp [hj]
      rw [hw]
      exact ⟨l, L, E⟩
    | cons op todo =>
      have hnd := hno op (by simp [ht])
      have hkinds : ∀ (x : Option Op), (∀ y, x = some y → o.kind y = .guarded) →
          ∀ j op', (if j = i then (⟨x, todo⟩ : Thread Op) else w.threads j).pending = some op' → o.kind op' = .guarded := by
        intro x hx j op' h
        by_cases hj : j = i
        · rw [if_pos hj] at h; exact hx op' h
        · rw [if_neg hj] at h; exact hk j op' h
      have hpend : ∀ j, (if j = i then (⟨none, todo⟩ : Thread Op) else w.threads j).pending ≠ none → (w.threads j).pending ≠ none := by
        intro j h
        by_cases hj : j = i
        · simp [hj] at h
        · rw [if_neg hj] at h; exact h
      cases hkd : o.kind op with
      | guarded =>
        have hnext : (w.threads i).next o w.obj = (w.obj, ⟨if o.enabled w.obj then some op else none, todo⟩) := by
          unfold Thread.next; rw [hp, ht]; simp only [hkd]
        have hw : w.step o i = ⟨w.obj, fun j => if j = i then ⟨if o.enabled w.obj then some op else none, todo⟩ else w.threads j⟩ := by
          simp only [World.step, hnext]
        rw [hw]
        cases he : o.enabled w.obj with
        | true =>
          simp only [if_true]
          refine ⟨l, ⟨hs, ?_, hkinds _ (by intro y hy; cases hy; exact hkd)⟩, by intro _ _; first | exact he | trivial⟩
          intro j
          have := hc j
          by_cases hj : j = i
          · subst hj
            rw [hp, ht] at this
            simpa using this
          · simp only [if_neg hj]; exact this
        | false =>
          simp only [Bool.false_eq_true, if_false]
          refine ⟨l ++ [(i, op)], ⟨?_, calls_snoc t₀ programs L i op todo hp ht, hkinds none (by simp)⟩, ?_⟩
          · rw [sequential_append, hs, sequential_one]; exact law.off _ _ hkd he
          · intro j hj
            exact absurd (E j (hpend j hj)) (by rw [he]; simp)
      | enable =>
        have hnext : (w.threads i).next o w.obj = (o.setEnabled w.obj true, ⟨none, todo⟩) := by
          unfold Thread.next; rw [hp, ht]; simp only [hkd]
        have hw : w.step o i = ⟨o.setEnabled w.obj true, fun j => if j = i then ⟨none, todo⟩ else w.threads j⟩ := by
          simp only [World.step, hnext]
        rw [hw]
        refine ⟨l ++ [(i, op)], ⟨?_, calls_snoc t₀ programs L i op todo hp ht, hkinds none (by simp)⟩, ?_⟩
        · rw [sequential_append, hs, sequential_one, law.on_enable _ _ hkd]
        · intro _ _; exact law.get_set _ _
      | disable => exact absurd hkd hnd
      | locked =>
        have hnext : (w.threads i).next o w.obj = (o.apply w.obj op, ⟨none, todo⟩) := by
          unfold Thread.next; rw [hp, ht]; simp only [hkd]
        have hw : w.step o i = ⟨o.apply w.obj op, fun j => if j = i then ⟨none, todo⟩ else w.threads j⟩ := by
          simp only [World.step, hnext]
        rw [hw]
        refine ⟨l ++ [(i, op)], ⟨?_, calls_snoc t₀ programs L i op todo hp ht, hkinds none (by simp)⟩, ?_⟩
        · rw [sequential_append, hs, sequential_one]
        · intro j hj
          rw [keepLocked _ _ hkd]
          exact E j (hpend j hj)

omit law in
theorem todo_sub {w : World T Op} {i j : Nat} {op : Op} (h : op ∈ ((w.step o i).threads j).todo) : op ∈ (w.threads j).todo := by
  simp only [World.step] at h
  by_cases hj : j = i
  · subst hj
    simp only [if_true] at h
    unfold Thread.next at h
    split at h
    · exact h
    · exact h
    · rename_i hp op' todo ht
      rw [ht]
      split at h <;> exact List.mem_cons_of_mem _ h
  · simpa [hj] using h

theorem threads_linear (keepLocked : ∀ t op, o.kind op = .locked → o.enabled (o.apply t op) = o.enabled t) (schedule : List Nat)
    (h : (∀ i, ∀ op ∈ programs i, o.kind op ≠ .locked) ∨ (∀ i, ∀ op ∈ programs i, o.kind op ≠ .disable)) :
    ∃ l, Linear (o := o) t₀ programs ((World.start t₀ programs).run o schedule) l := by
  rcases h with h | h
  · have key : ∀ (schedule : List Nat) (w : World T Op) (l : List (Nat × Op)), Linear (o := o) t₀ programs w l → Early (o := o) t₀ w l →
        (∀ i, ∀ op ∈ (w.threads i).todo, o.kind op ≠ .locked) → ∃ l', Linear (o := o) t₀ programs (w.run o schedule) l' := by
      intro schedule
      induction schedule with
      | nil => intro w l L _ _; exact ⟨l, L⟩
      | cons i s ih =>
        intro w l L E hno
        obtain ⟨l', L', E'⟩ := linear_step_noLocked law t₀ programs L E i (hno i)
        exact ih (w.step o i) l' L' E' (fun j op hop => hno j op (todo_sub hop))
    refine key schedule (World.start t₀ programs) [] ⟨rfl, fun i => by simp [World.start, callsOf], fun i op hp => by simp [World.start] at hp⟩ ?_ h
    rintro _ ⟨i, hi⟩
    simp [World.start] at hi
  · have key : ∀ (schedule : List Nat) (w : World T Op) (l : List (Nat × Op)), Linear (o := o) t₀ programs w l →
        (∀ i, (w.threads i).pending ≠ none → o.enabled w.obj = true) →
        (∀ i, ∀ op ∈ (w.threads i).todo, o.kind op ≠ .disable) → ∃ l', Linear (o := o) t₀ programs (w.run o schedule) l' := by
      intro schedule
      induction schedule with
      | nil => intro w l L _ _; exact ⟨l, L⟩
      | cons i s ih =>
        intro w l L E hno
        obtain ⟨l', L', E'⟩ := linear_step_noDisable law t₀ programs L E keepLocked i (hno i)
        exact ih (w.step o i) l' L' E' (fun j op hop => hno j op (todo_sub hop))
    refine key schedule (World.start t₀ programs) [] ⟨rfl, fun i => by simp [World.start, callsOf], fun i op hp => by simp [World.start] at hp⟩ ?_ h
    intro i hi
    simp [World.start] at hi

theorem threads_finished (keepLocked : ∀ t op, o.kind op = .locked → o.enabled (o.apply t op) = o.enabled t) (schedule : List Nat)
    (h : (∀ i, ∀ op ∈ programs i, o.kind op ≠ .locked) ∨ (∀ i, ∀ op ∈ programs i, o.kind op ≠ .disable))
    (hf : Finished ((World.start t₀ programs).run o schedule)) :
    ∃ l, IsInterleaving programs l ∧ ((World.start t₀ programs).run o schedule).obj = sequential o t₀ l := by
  obtain ⟨l, hs, hc, _⟩ := threads_linear law t₀ programs keepLocked schedule h
  refine ⟨l, fun i => ?_, hs.symm⟩
  have := hc i
  rw [(hf i).1, (hf i).2] at this
  simpa [callsOf] using this

end

/-! ## The three objects -/

section
variable {K : Type} [Field K] [LinearOrder K]

theorem profiler_lawful (cfg : Cfg K) : Lawful (profiler cfg) := by
  refine ⟨fun t b => rfl, fun t => rfl, fun t b c => rfl, ?_, ?_, ?_, ?_⟩
  · rintro t (r | _ | _ | _) hk he <;> simp only [profiler, reduceCtorEq] at hk he
    simp [profiler, Prof.apply, Prof.record, he]
  · rintro t (r | _ | _ | _) hk <;> simp only [profiler, reduceCtorEq] at hk
    simp only [profiler, Prof.apply, Prof.record]
    split <;> rfl
  · rintro t (r | _ | _ | _) hk <;> simp only [profiler, reduceCtorEq] at hk
    rfl
  · rintro t (r | _ | _ | _) hk <;> simp only [profiler, reduceCtorEq] at hk
    rfl

theorem tracker_lawful (interval : Nat) (threshold : K) (maxSnapshots : Nat) : Lawful (tracker interval threshold maxSnapshots) := by
  refine ⟨fun t b => rfl, fun t => rfl, fun t b c => rfl, ?_, ?_, ?_, ?_⟩
  · rintro t (⟨n, m, f⟩ | _ | _ | _) hk he <;> simp only [tracker, reduceCtorEq] at hk he
    simp [tracker, trackerApply, Tracker.take, he]
  · rintro t (⟨n, m, f⟩ | _ | _ | _) hk <;> simp only [tracker, reduceCtorEq] at hk
    simp only [tracker, trackerApply, Tracker.take]
    split
    · split <;> rfl
    · rfl
  · rintro t (⟨n, m, f⟩ | _ | _ | _) hk <;> simp only [tracker, reduceCtorEq] at hk
    rfl
  · rintro t (⟨n, m, f⟩ | _ | _ | _) hk <;> simp only [tracker, reduceCtorEq] at hk
    rfl

theorem debugger_lawful {C St In Out H : Type} (cfg : Config St H) : Lawful (debugger (C := C) (In := In) (Out := Out) cfg) := by
  refine ⟨fun t b => rfl, fun t => rfl, fun t b c => rfl, ?_, ?_, ?_, ?_⟩
  · intro t op hk he
    cases op <;> simp only [debugger, reduceCtorEq] at hk he
    simp [debugger, Debugger.apply, Debugger.step, he]
  · intro t op hk
    cases op <;> simp only [debugger, reduceCtorEq] at hk
    simp only [debugger, Debugger.apply, Debugger.step]
    split <;> rfl
  · intro t op hk
    cases op <;> simp only [debugger, reduceCtorEq] at hk
    rfl
  · intro t op hk
    cases op <;> simp only [debugger, reduceCtorEq] at hk
    rfl

/-- C176, what holds: however the threads that use one profiler are scheduled, once they have finished, the profiler is as after their
calls made one after the other, each thread's in its order, provided they do not both reset it and switch it off. -/
theorem C176_profiler_partial (cfg : Cfg K) (p : Prof K) (programs : Nat → List (POp K)) (schedule : List Nat)
    (h : (∀ i, .reset ∉ programs i) ∨ (∀ i, .disable ∉ programs i))
    (hf : Finished ((World.start p programs).run (profiler cfg) schedule)) :
    ∃ l, IsInterleaving programs l ∧
      ((World.start p programs).run (profiler cfg) schedule).obj = (l.map Prod.snd).foldl (Prof.apply cfg) p := by
  refine threads_finished (profiler_lawful cfg) p programs ?_ schedule ?_ hf
  · rintro t (r | _ | _ | _) hk <;> simp only [profiler, reduceCtorEq] at hk
    rfl
  · refine h.imp (fun h i op hop hk => ?_) (fun h i op hop hk => ?_)
    · cases op <;> simp only [profiler, reduceCtorEq] at hk
      exact h i hop
    · cases op <;> simp only [profiler, reduceCtorEq] at hk
      exact h i hop

/-- C176: the same for a memory tracker. -/
theorem C176_tracker_partial (interval : Nat) (threshold : K) (maxSnapshots : Nat) (t : Tracker K) (programs : Nat → List (TOp K))
    (schedule : List Nat) (h : (∀ i, .reset ∉ programs i) ∨ (∀ i, .disable ∉ programs i))
    (hf : Finished ((World.start t programs).run (tracker interval threshold maxSnapshots) schedule)) :
    ∃ l, IsInterleaving programs l ∧ ((World.start t programs).run (tracker interval threshold maxSnapshots) schedule).obj =
      (l.map Prod.snd).foldl (trackerApply interval threshold maxSnapshots) t := by
  refine threads_finished (tracker_lawful interval threshold maxSnapshots) t programs ?_ schedule ?_ hf
  · rintro t (⟨n, m, f⟩ | _ | _ | _) hk <;> simp only [tracker, reduceCtorEq] at hk
    rfl
  · refine h.imp (fun h i op hop hk => ?_) (fun h i op hop hk => ?_)
    · cases op <;> simp only [tracker, reduceCtorEq] at hk
      exact h i hop
    · cases op <;> simp only [tracker, reduceCtorEq] at hk
      exact h i hop

/-- C176: the same for a debugger, as long as it is not switched off while hooks are added or removed or the history is cleared. -/
theorem C176_debugger_partial {C St In Out H : Type} (cfg : Config St H) (d : Debugger C St In Out H)
    (programs : Nat → List (Model.Debug.Op C St In Out)) (schedule : List Nat)
    (h : (∀ i, ∀ op ∈ programs i, op ≠ .clear ∧ (∀ n k, op ≠ .addHook n k) ∧ ∀ n, op ≠ .removeHook n) ∨ (∀ i, .disable ∉ programs i))
    (hf : Finished ((World.start d programs).run (debugger cfg) schedule)) :
    ∃ l, IsInterleaving programs l ∧
      ((World.start d programs).run (debugger cfg) schedule).obj = (l.map Prod.snd).foldl (Debugger.apply cfg) d := by
  refine threads_finished (debugger_lawful cfg) d programs ?_ schedule ?_ hf
  · intro t op hk
    cases op <;> simp only [debugger, reduceCtorEq] at hk <;> rfl
  · refine h.imp (fun h i op hop hk => ?_) (fun h i op hop hk => ?_)
    · have := h i op hop
      cases op <;> simp only [debugger, reduceCtorEq] at hk
      · exact this.1 rfl
      · exact this.2.1 _ _ rfl
      · exact this.2.2 _ rfl
    · cases op <;> simp only [debugger, reduceCtorEq] at hk
      exact h i hop

/-- C176 fails: a thread that switches the profiler off and then resets it can find a recording in it afterwards, because another
thread had read the flag before; no order of the calls explains it. -/
theorem C176_reset_after_disable (cfg : Cfg K) (hm : 0 < cfg.maxHistory) (r : Reading K) :
    let programs : Nat → List (POp K) := fun i => if i = 0 then [.record r] else if i = 1 then [.disable, .reset] else []
    let w := (World.start Prof.init programs).run (profiler cfg) [0, 1, 1, 0]
    Finished w ∧ w.obj.enabled = false ∧ w.obj.metrics.length = 1 ∧ w.obj.stepCount = 1 ∧
    ∀ l, IsInterleaving programs l → ((l.map Prod.snd).foldl (Prof.apply cfg) Prof.init).metrics = [] := by
  intro programs w
  have hfin : Finished w := by
    intro i
    by_cases h0 : i = 0
    · subst h0; exact ⟨rfl, rfl⟩
    · by_cases h1 : i = 1
      · subst h1; exact ⟨rfl, rfl⟩
      · simp [w, World.run, World.step, World.start, h0, h1, programs]
  refine ⟨hfin, rfl, ?_, rfl, ?_⟩
  · have : w.obj.metrics = dequePush cfg.maxHistory [] (⟨1, r.moduleName, r.time, if cfg.trackMemory then r.memory else 0,
        if cfg.trackMemory then r.memory - 0 else 0, r.jit, r.input.size, r.output.size⟩ : PMetric K) := rfl
    rw [this]
    simp [dequePush]
    omega
  · intro l hl
    have h0 := hl 0
    have h1 := hl 1
    have hi : ∀ c ∈ l, c.1 = 0 ∨ c.1 = 1 := by
      intro c hc
      by_cases e0 : c.1 = 0
      · exact Or.inl e0
      · by_cases e1 : c.1 = 1
        · exact Or.inr e1
        · have h2 := hl c.1
          have : programs c.1 = [] := by simp [programs, e0, e1]
          rw [this, List.map_eq_nil_iff, List.filter_eq_nil_iff] at h2
          exact absurd (by simp) (h2 c hc)
    have p0 : programs 0 = [.record r] := rfl
    have p1 : programs 1 = [.disable, .reset] := rfl
    rw [p0] at h0
    rw [p1] at h1
    have hend : ∀ (l : List (Nat × POp K)) (p : Prof K), (∀ c ∈ l, c.1 = 0 ∨ c.1 = 1) →
        (l.filter fun c => c.1 = 0).map Prod.snd = [] ∨ (l.filter fun c => c.1 = 0).map Prod.snd = [.record r] →
        (((l.filter fun c => c.1 = 1).map Prod.snd = [.disable, .reset]) ∨
          ((l.filter fun c => c.1 = 1).map Prod.snd = [.reset] ∧ p.enabled = false) ∨
          ((l.filter fun c => c.1 = 1).map Prod.snd = [] ∧ p.enabled = false ∧ p.metrics = [])) →
        ((l.map Prod.snd).foldl (Prof.apply cfg) p).metrics = [] := by
      intro l
      induction l with
      | nil =>
        intro p _ _ h
        rcases h with h | h | h
        · simp at h
        · simp at h
        · exact h.2.2
      | cons c l ih =>
        intro p hc ha hb
        obtain ⟨i, op⟩ := c
        simp only [List.map_cons, List.foldl_cons]
        have hi : i = 0 ∨ i = 1 := hc (i, op) (by simp)
        rcases hi with hi | hi
        · subst hi
          simp only [List.filter_cons, decide_true, if_true, List.map_cons, Nat.zero_ne_one, decide_false, Bool.false_eq_true, if_false,
            List.cons.injEq, List.cons_ne_nil, false_or] at ha hb
          obtain ⟨rfl, ha⟩ := ha
          apply ih _ (fun c hc' => hc c (by simp [hc'])) (Or.inl ha)
          rcases hb with hb | hb | hb
          · exact Or.inl hb
          · have : Prof.apply cfg p (.record r) = p := by simp [Prof.apply, Prof.record, hb.2]
            rw [this]; exact Or.inr (Or.inl hb)
          · have : Prof.apply cfg p (.record r) = p := by simp [Prof.apply, Prof.record, hb.2.1]
            rw [this]; exact Or.inr (Or.inr hb)
        · subst hi
          simp only [List.filter_cons, decide_true, if_true, List.map_cons, Nat.one_ne_zero, decide_false, Bool.false_eq_true, if_false,
            List.cons.injEq, List.cons_ne_nil, false_and, or_false] at ha hb
          apply ih _ (fun c hc' => hc c (by simp [hc'])) ha
          rcases hb with ⟨rfl, hb⟩ | ⟨⟨rfl, hb⟩, he⟩
          · exact Or.inr (Or.inl ⟨hb, rfl⟩)
          · exact Or.inr (Or.inr ⟨hb, by simpa [Prof.apply, Prof.reset] using he, rfl⟩)
    exact hend l Prof.init hi (Or.inr h0) (Or.inl h1)

/-- C176, what follows for a profiler that several threads only record with: every recording is counted once, and the metrics kept are
the last `max_history` of some order of all of them, numbered without gaps. -/
theorem C176_profiler_counts [IsStrictOrderedRing K] (cfg : Cfg K) (programs : Nat → List (Reading K)) (schedule : List Nat)
    (hf : Finished ((World.start Prof.init (fun i => (programs i).map POp.record)).run (profiler cfg) schedule)) :
    ∃ rs : List (Nat × Reading K), (∀ i, (rs.filter fun c => c.1 = i).map Prod.snd = programs i) ∧
      ProfOk cfg (rs.map Prod.snd) ((World.start Prof.init (fun i => (programs i).map POp.record)).run (profiler cfg) schedule).obj := by
  obtain ⟨l, hl, he⟩ := C176_profiler_partial cfg Prof.init (fun i => (programs i).map POp.record) schedule
    (Or.inl (fun i h => by simp at h)) hf
  have hrec : ∀ c ∈ l, ∃ r, c.2 = POp.record r := by
    intro c hc
    have : c.2 ∈ (l.filter fun d => d.1 = c.1).map Prod.snd := List.mem_map_of_mem (by simp [hc])
    rw [hl c.1] at this
    obtain ⟨r, _, hr⟩ := List.mem_map.1 this
    exact ⟨r, hr.symm⟩
  have hex : ∃ rs : List (Nat × Reading K), l = rs.map fun c => (c.1, POp.record c.2) := by
    clear hl he
    induction l with
    | nil => exact ⟨[], rfl⟩
    | cons c l ih =>
      obtain ⟨rs, hrs⟩ := ih (fun c hc => hrec c (by simp [hc]))
      obtain ⟨r, hr⟩ := hrec c (by simp)
      refine ⟨(c.1, r) :: rs, ?_⟩
      rw [List.map_cons, ← hrs, ← hr]
  obtain ⟨rs, rfl⟩ := hex
  refine ⟨rs, fun i => ?_, ?_⟩
  · have := hl i
    have e : ((rs.map fun c => (c.1, POp.record c.2)).filter fun c => c.1 = i).map Prod.snd = ((rs.filter fun c => c.1 = i).map Prod.snd).map POp.record := by
      rw [List.filter_map, List.map_map, List.map_map]; rfl
    rw [e] at this
    exact List.map_injective_iff.2 (fun a b h => by cases h; rfl) this
  · rw [he]
    have e : (rs.map fun c => (c.1, POp.record c.2)).map Prod.snd = (rs.map Prod.snd).map POp.record := by
      rw [List.map_map, List.map_map]; rfl
    rw [e]
    have := C120_session cfg ((rs.map Prod.snd).map POp.record)
    rwa [live_records, List.nil_append] at this

/-- Non-vacuity: two threads, one recording each, interleaved; both read the flag first. -/
example : let s : World (Prof ℚ) (POp ℚ) := World.start Prof.init (fun i : Nat => if i < 2 then [POp.record ⟨"m", 1, 5, .none, .none, false⟩] else [])
    let w : World (Prof ℚ) (POp ℚ) := World.run (profiler ⟨true, 100, 10⟩) s [0, 1, 1, 0]
    (w.threads 0).todo.length = 0 ∧ (w.threads 1).todo.length = 0 ∧ (w.threads 0).pending.isNone ∧ (w.threads 1).pending.isNone ∧
    w.obj.stepCount = 2 ∧ w.obj.metrics.map (·.step) = [1, 2] := by decide +kernel

/-! ## C177 -/

/-- C177, what holds: made while nothing else runs, the report is an error exactly without snapshots; it says that there are no leaks
exactly if none was detected; otherwise it gives the numbers of leaks, of critical ones and of high ones, and details the first three
critical leaks in the order of their detection: as many as the critical ones it counts, up to three. -/
theorem C177_report_partial (t : Tracker K) :
    (report t = none ↔ t.snapshots = []) ∧
    (t.snapshots ≠ [] → t.leaks = [] → report t = some [.noLeaks]) ∧
    (t.snapshots ≠ [] → t.leaks ≠ [] → ∃ details, report t = some ([.total t.leaks.length,
        .critical (t.leaks.filter fun l => decide (100 < l.total)).length,
        .high (t.leaks.filter fun l => decide (¬ 100 < l.total ∧ 50 < l.total)).length] ++ details.map .detail) ∧
      details = (t.leaks.filter fun l => decide (100 < l.total)).take 3 ∧
      details.length = min 3 (t.leaks.filter fun l => decide (100 < l.total)).length) := by
  have hcrit : (fun l : Leak K => severity l.total == .critical) = fun l => decide (100 < l.total) := by
    funext l
    unfold severity
    split
    · simp [*]
    · split
      · simp [*]
      · split <;> simp [*]
  have hhigh : (fun l : Leak K => severity l.total == .high) = fun l => decide (¬ 100 < l.total ∧ 50 < l.total) := by
    funext l
    unfold severity
    split
    · simp [*]
    · split
      · simp [*]
      · split <;> simp [*]
  have hsum : t.snapshots ≠ [] → ∃ s, memSummary t = some s ∧ s.leaks = t.leaks.length ∧
      s.critical = (t.leaks.filter fun l => decide (100 < l.total)).length ∧
      s.high = (t.leaks.filter fun l => decide (¬ 100 < l.total ∧ 50 < l.total)).length := by
    intro hne
    have h1 : ∃ a, t.snapshots.head? = some a := by
      cases h : t.snapshots with
      | nil => exact absurd h hne
      | cons a _ => exact ⟨a, rfl⟩
    have h2 : ∃ a, t.snapshots.getLast? = some a := ⟨_, List.getLast?_eq_some_getLast hne⟩
    obtain ⟨a, ha⟩ := h1
    obtain ⟨b, hb⟩ := h2
    unfold memSummary
    rw [ha, hb]
    exact ⟨_, rfl, rfl, by simp only [hcrit], by simp only [hhigh]⟩
  refine ⟨⟨fun h => ?_, fun h => ?_⟩, fun hne hl => ?_, fun hne hl => ?_⟩
  · by_contra hne
    obtain ⟨s, hs, _⟩ := hsum hne
    simp [report, reportLines, hs] at h
  · simp [report, reportLines, memSummary, h]
  · obtain ⟨s, hs, h1, _⟩ := hsum hne
    simp [report, reportLines, hs, h1, hl]
  · obtain ⟨s, hs, h1, h2, h3⟩ := hsum hne
    refine ⟨_, ?_, rfl, ?_⟩
    · have : 0 < t.leaks.length := List.length_pos_of_ne_nil hl
      simp only [report, reportLines, hs, Option.map_some, h1, h2, h3, if_pos this, hcrit]
    · rw [List.length_take]

/-- C177 fails when another thread resets the tracker in between: the report then counts critical leaks and details none of them. -/
theorem C177_report_race (interval : Nat) (threshold : K) (maxSnapshots : Nat) (t : Tracker K) (hne : t.snapshots ≠ [])
    (hl : t.leaks ≠ []) :
    reportDuring interval threshold maxSnapshots t [.reset] = some [.total t.leaks.length,
        .critical (t.leaks.filter fun l => decide (100 < l.total)).length,
        .high (t.leaks.filter fun l => decide (¬ 100 < l.total ∧ 50 < l.total)).length] := by
  obtain ⟨details, h, hd, _⟩ := (C177_report_partial t).2.2 hne hl
  unfold report at h
  unfold reportDuring
  cases hs : memSummary t with
  | none => rw [hs] at h; simp [reportLines] at h
  | some s =>
    rw [hs] at h
    simp only [reportLines, Option.map_some, Option.some.injEq] at h ⊢
    simp only [List.foldl_cons, List.foldl_nil, trackerApply, trackerReset, List.filter_nil, List.take_nil, List.map_nil, List.append_nil]
    split at h
    · rename_i hp
      rw [if_pos hp]
      simp only [List.cons_append, List.nil_append, List.cons.injEq] at h
      rw [h.1, h.2.1, h.2.2.1]
    · simp at h

/-- Non-vacuity: two critical leaks and one high one. -/
example : ((report (K := ℚ) ⟨[⟨1, "m", 500, 0⟩], [⟨1, 200, 0, 1⟩, ⟨1, 60, 0, 1⟩, ⟨1, 300, 1, 2⟩], 1, true, none⟩).map fun ls =>
    ls.map fun l => match l with
      | .noLeaks => ("none", 0)
      | .total n => ("total", (n : ℚ))
      | .critical n => ("critical", (n : ℚ))
      | .high n => ("high", (n : ℚ))
      | .detail l => ("detail", l.total)) = some [("total", 3), ("critical", 2), ("high", 1), ("detail", 200), ("detail", 300)] := by
  decide +kernel

end

end Verif.Props
