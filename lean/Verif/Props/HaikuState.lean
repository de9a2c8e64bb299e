import Verif.Model.HaikuState

/-! # Property C110: Haiku's UpdateOnEvent freezes the state of the wrapped module, and nothing else -/

namespace Verif.Props
open Model.HaikuState
variable {V O : Type}

/-- The value of the state `n` of module `m`. -/
def entry (fr : Frame V) (m n : Name) : Option (StatePair V) := (fr.lookup m).bind (·.lookup n)

/-- `m` is the module `name`, a module inside it, or one of its registered submodules. -/
def Inside (name : Name) (subs : List Name) (m : Name) : Prop := m = name ∨ (∃ rest, m = name ++ '/' :: rest) ∨ m ∈ subs

/-- A dictionary of dictionaries, with state names that do not contain a slash. -/
structure WellNamed (fr : Frame V) : Prop where
  modules : (fr.map Prod.fst).Nodup
  states : ∀ mb ∈ fr, (mb.2.map Prod.fst).Nodup
  noSlash : ∀ mb ∈ fr, ∀ np ∈ mb.2, '/' ∉ np.1

/-- Two frames with the same modules and state names, in the same order. -/
def SameNames (a b : Frame V) : Prop := (a.map fun mb => (mb.1, mb.2.map Prod.fst)) = b.map fun mb => (mb.1, mb.2.map Prod.fst)

theorem concerned_iff (name : Name) (subs : List Name) (m : Name) : concerned name subs m = true ↔ Inside name subs m := by
  unfold concerned Inside
  simp only [Bool.or_eq_true, beq_iff_eq, List.isPrefixOf_iff_prefix, List.contains_iff_mem, or_assoc]
  refine or_congr_right (or_congr_left ?_)
  constructor
  · rintro ⟨r, h⟩
    exact ⟨r, by rw [← h]; simp⟩
  · rintro ⟨r, h⟩
    exact ⟨r, by rw [h]; simp⟩

theorem mem_of_lookupN {A : Type} (l : List (Name × A)) (k : Name) (v : A) (h : l.lookup k = some v) : (k, v) ∈ l := by
  induction l with
  | nil => simp at h
  | cons a l ih =>
    obtain ⟨a1, a2⟩ := a
    rw [List.lookup_cons] at h
    by_cases he : k = a1
    · subst he; simp at h; subst h; exact List.mem_cons_self
    · rw [beq_eq_false_iff_ne.mpr he] at h
      exact List.mem_cons_of_mem _ (ih h)

theorem lookupN_of_mem {A : Type} (l : List (Name × A)) (hn : (l.map Prod.fst).Nodup) (k : Name) (v : A) (h : (k, v) ∈ l) :
    l.lookup k = some v := by
  induction l with
  | nil => simp at h
  | cons a l ih =>
    obtain ⟨a1, a2⟩ := a
    simp only [List.map_cons, List.nodup_cons] at hn
    rw [List.lookup_cons]
    rcases List.mem_cons.mp h with h | h
    · cases h; simp
    · have : k ≠ a1 := fun e => hn.1 (e ▸ List.mem_map_of_mem (f := Prod.fst) h)
      rw [beq_eq_false_iff_ne.mpr this]
      exact ih hn.2 h

theorem lookupN_isSome {A : Type} (l : List (Name × A)) (k : Name) (v : A) (h : (k, v) ∈ l) : ∃ w, l.lookup k = some w := by
  induction l with
  | nil => simp at h
  | cons a l ih =>
    obtain ⟨a1, a2⟩ := a
    rw [List.lookup_cons]
    by_cases he : k = a1
    · exact ⟨a2, by simp [he]⟩
    · rw [beq_eq_false_iff_ne.mpr he]
      rcases List.mem_cons.mp h with h | h
      · cases h; exact absurd rfl he
      · exact ih h

theorem lookupN_map {A B : Type} (l : List (Name × A)) (g : Name → A → B) (k : Name) :
    (l.map fun x => (x.1, g x.1 x.2)).lookup k = (l.lookup k).map (g k) := by
  induction l with
  | nil => rfl
  | cons a l ih =>
    obtain ⟨a1, a2⟩ := a
    simp only [List.map_cons, List.lookup_cons]
    by_cases he : k = a1
    · subst he; simp
    · rw [beq_eq_false_iff_ne.mpr he, ih]

/-- A fully qualified name determines the module and the state name. -/
theorem fq_inj (m m' n n' : Name) (hn : '/' ∉ n) (hn' : '/' ∉ n') (h : m ++ '/' :: n = m' ++ '/' :: n') : m = m' ∧ n = n' := by
  induction m generalizing m' with
  | nil =>
    cases m' with
    | nil => exact ⟨rfl, by simpa using h⟩
    | cons c m' =>
      simp only [List.nil_append, List.cons_append, List.cons.injEq] at h
      exact absurd (h.2 ▸ List.mem_append_right _ List.mem_cons_self) hn
  | cons c m ih =>
    cases m' with
    | nil =>
      simp only [List.nil_append, List.cons_append, List.cons.injEq] at h
      exact absurd (h.2 ▸ List.mem_append_right _ List.mem_cons_self) hn'
    | cons c' m' =>
      simp only [List.cons_append, List.cons.injEq] at h
      obtain ⟨h1, h2⟩ := ih m' h.2
      exact ⟨by rw [h.1, h1], h2⟩

theorem mem_stateDict (name : Name) (subs : List Name) (fr : Frame V) (k : Name) (v : V) :
    (k, v) ∈ stateDict name subs fr ↔ ∃ m b n p, (m, b) ∈ fr ∧ (n, p) ∈ b ∧ concerned name subs m = true ∧ k = m ++ '/' :: n ∧
      v = p.current := by
  unfold stateDict
  simp only [List.mem_flatMap]
  constructor
  · rintro ⟨⟨m, b⟩, h1, h2⟩
    by_cases hc : concerned name subs m
    · simp only [hc, if_true, List.mem_map] at h2
      obtain ⟨⟨n, p⟩, h3, h4⟩ := h2
      cases h4
      exact ⟨m, b, n, p, h1, h3, hc, rfl, rfl⟩
    · simp [hc] at h2
  · rintro ⟨m, b, n, p, h1, h2, h3, rfl, rfl⟩
    exact ⟨(m, b), h1, by simp only [h3, if_true, List.mem_map]; exact ⟨(n, p), h2, rfl⟩⟩

theorem dictGet_stateDict (name : Name) (subs : List Name) (fr : Frame V) (hw : WellNamed fr) (m n : Name) (p : StatePair V)
    (b : List (Name × StatePair V)) (hm : (m, b) ∈ fr) (hn : (n, p) ∈ b) (hc : concerned name subs m = true) :
    dictGet (stateDict name subs fr) (m ++ '/' :: n) = some p.current := by
  have hmem : (m ++ '/' :: n, p.current) ∈ stateDict name subs fr :=
    (mem_stateDict name subs fr _ _).mpr ⟨m, b, n, p, hm, hn, hc, rfl, rfl⟩
  obtain ⟨v, hv⟩ := lookupN_isSome _ _ _ (List.mem_reverse.mpr hmem)
  have hv' := List.mem_reverse.mp (mem_of_lookupN _ _ _ hv)
  obtain ⟨m', b', n', p', h1, h2, -, h4, rfl⟩ := (mem_stateDict name subs fr _ _).mp hv'
  obtain ⟨e1, e2⟩ := fq_inj m m' n n' (hw.noSlash _ hm _ hn) (hw.noSlash _ h1 _ h2) h4
  subst e1; subst e2
  have eb : b = b' := by
    have g1 := lookupN_of_mem _ hw.modules _ _ hm
    have g2 := lookupN_of_mem _ hw.modules _ _ h1
    rw [g1] at g2
    exact Option.some.inj g2
  subst eb
  have ep : p = p' := by
    have g1 := lookupN_of_mem _ (hw.states _ hm) _ _ hn
    have g2 := lookupN_of_mem _ (hw.states _ hm) _ _ h2
    rw [g1] at g2
    exact Option.some.inj g2
  subst ep
  exact hv

theorem setBundle_ok (m : Name) (d : List (Name × V)) (g : Name → V) (b : List (Name × StatePair V))
    (h : ∀ np ∈ b, dictGet d (m ++ '/' :: np.1) = some (g np.1)) :
    setBundle m d b = .ok (b.map fun np => (np.1, { np.2 with current := g np.1 })) := by
  induction b with
  | nil => rfl
  | cons a b ih =>
    obtain ⟨n, p⟩ := a
    simp only [setBundle, h (n, p) List.mem_cons_self, ih fun x hx => h x (List.mem_cons_of_mem _ hx), List.map_cons]

theorem setState_ok (name : Name) (subs : List Name) (d : List (Name × V)) (g : Name → Name → V) (fr : Frame V)
    (h : ∀ mb ∈ fr, concerned name subs mb.1 = true → ∀ np ∈ mb.2, dictGet d (mb.1 ++ '/' :: np.1) = some (g mb.1 np.1)) :
    setState name subs d fr = .ok (fr.map fun mb => (mb.1, if concerned name subs mb.1 then
      mb.2.map fun np => (np.1, { np.2 with current := g mb.1 np.1 }) else mb.2)) := by
  induction fr with
  | nil => rfl
  | cons a fr ih =>
    obtain ⟨m, b⟩ := a
    have hi := ih fun x hx => h x (List.mem_cons_of_mem _ hx)
    by_cases hc : concerned name subs m
    · have hb := setBundle_ok m d (g m) b (h (m, b) List.mem_cons_self hc)
      simp only [setState, hc, if_true, hb, hi, List.map_cons]
    · simp only [setState, hc, Bool.false_eq_true, if_false, hi, List.map_cons]

theorem sameNames_mem (a b : Frame V) (h : SameNames a b) (m : Name) (bb : List (Name × StatePair V)) (hm : (m, bb) ∈ b) :
    ∃ ba, (m, ba) ∈ a ∧ ba.map Prod.fst = bb.map Prod.fst := by
  have : (m, bb.map Prod.fst) ∈ b.map fun mb => (mb.1, mb.2.map Prod.fst) := List.mem_map.mpr ⟨(m, bb), hm, rfl⟩
  rw [← h] at this
  obtain ⟨⟨m', ba⟩, h1, h2⟩ := List.mem_map.mp this
  simp only [Prod.mk.injEq] at h2
  exact ⟨ba, h2.1 ▸ h1, h2.2⟩

theorem wellNamed_of_same (a b : Frame V) (h : SameNames a b) (hw : WellNamed a) : WellNamed b where
  modules := by
    have := congrArg (List.map Prod.fst) h
    simp only [List.map_map] at this
    have e : b.map Prod.fst = a.map Prod.fst := this.symm
    rw [e]; exact hw.modules
  states := by
    rintro ⟨m, bb⟩ hm
    obtain ⟨ba, h1, h2⟩ := sameNames_mem a b h m bb hm
    change (bb.map Prod.fst).Nodup
    rw [← h2]
    exact hw.states _ h1
  noSlash := by
    rintro ⟨m, bb⟩ hm ⟨n, p⟩ hn
    obtain ⟨ba, h1, h2⟩ := sameNames_mem a b h m bb hm
    have : n ∈ ba.map Prod.fst := h2 ▸ List.mem_map.mpr ⟨(n, p), hn, rfl⟩
    obtain ⟨⟨n', p'⟩, h3, h4⟩ := List.mem_map.mp this
    simp only at h4
    rw [← h4]
    exact hw.noSlash _ h1 (n', p') h3

theorem stateDict_nil_iff (name : Name) (subs : List Name) (fr : Frame V) :
    stateDict name subs fr = [] ↔ ∀ mb ∈ fr, concerned name subs mb.1 = true → mb.2 = [] := by
  unfold stateDict
  rw [List.flatMap_eq_nil_iff]
  refine forall₂_congr fun mb _ => ?_
  by_cases hc : concerned name subs mb.1 <;> simp [hc]

/-- C110: when the event occurs, the state is the one left by the wrapped module. -/
theorem C110_event_keeps_new_state (name : Name) (subs : List Name) (run : Frame V → O × Frame V) (fr : Frame V)
    (hw : WellNamed fr) (hs : SameNames fr (run fr).2) :
    callOnEvent name subs run true fr = .ok ((run fr).1, (run fr).2) := by
  have hw2 := wellNamed_of_same _ _ hs hw
  unfold callOnEvent
  simp only [if_true]
  split
  · rfl
  · split
    · rfl
    · rename_i hp hd
      rw [setState_ok name subs (stateDict name subs (run fr).2)
        (fun m n => match entry (run fr).2 m n with
          | some p => p.current
          | none => (Classical.choice ⟨(List.head _ hd).2⟩)) (run fr).2]
      · simp only
        congr 2
        conv_rhs => rw [← List.map_id (run fr).2]
        apply List.map_congr_left
        rintro ⟨m, b⟩ hm
        by_cases hc : concerned name subs m
        · simp only [hc, if_true, id]
          congr 1
          conv_rhs => rw [← List.map_id b]
          apply List.map_congr_left
          rintro ⟨n, p⟩ hn
          have : entry (run fr).2 m n = some p := by
            unfold entry
            rw [lookupN_of_mem _ hw2.modules _ _ hm]
            exact lookupN_of_mem _ (hw2.states _ hm) _ _ hn
          simp only [this, id]
        · simp [hc]
      · rintro ⟨m, b⟩ hm hc ⟨n, p⟩ hn
        have : entry (run fr).2 m n = some p := by
          unfold entry
          rw [lookupN_of_mem _ hw2.modules _ _ hm]
          exact lookupN_of_mem _ (hw2.states _ hm) _ _ hn
        rw [dictGet_stateDict name subs (run fr).2 hw2 m n p b hm hn hc]
        simp only [this]

/-- C110: without an event, every state of the wrapped module and of the modules inside it has its old value back, and every
other module (in particular one whose name merely starts with the same characters) keeps what the call wrote. -/
theorem C110_no_event_restores (name : Name) (subs : List Name) (run : Frame V → O × Frame V) (fr : Frame V)
    (hw : WellNamed fr) (hs : SameNames fr (run fr).2) :
    ∃ fr', callOnEvent name subs run false fr = .ok ((run fr).1, fr') ∧ SameNames fr fr' ∧ ∀ m n,
      (Inside name subs m → entry fr' m n =
        (entry (run fr).2 m n).bind fun new => (entry fr m n).map fun old => ⟨new.initial, old.current⟩) ∧
      (¬ Inside name subs m → entry fr' m n = entry (run fr).2 m n) := by
  have hw2 := wellNamed_of_same _ _ hs hw
  -- the old pair behind each new one
  have hold : ∀ m b n p, (m, b) ∈ (run fr).2 → (n, p) ∈ b → ∃ q, entry fr m n = some q ∧
      (concerned name subs m = true → dictGet (stateDict name subs fr) (m ++ '/' :: n) = some q.current) := by
    intro m b n p hm hn
    obtain ⟨ba, h1, h2⟩ := sameNames_mem _ _ hs m b hm
    have : n ∈ ba.map Prod.fst := h2 ▸ List.mem_map.mpr ⟨(n, p), hn, rfl⟩
    obtain ⟨⟨n', q⟩, h3, h4⟩ := List.mem_map.mp this
    simp only at h4
    subst h4
    refine ⟨q, ?_, fun hc => dictGet_stateDict name subs fr hw m _ q ba h1 h3 hc⟩
    unfold entry
    rw [lookupN_of_mem _ hw.modules _ _ h1]
    exact lookupN_of_mem _ (hw.states _ h1) _ _ h3
  unfold callOnEvent
  simp only [Bool.false_eq_true, if_false]
  by_cases hp : stateDict name subs fr = []
  · refine ⟨(run fr).2, by rw [if_pos hp], hs, fun m n => ⟨fun hin => ?_, fun _ => rfl⟩⟩
    -- a stateless module
    have hc := (concerned_iff name subs m).mpr hin
    have : ∀ gr : Frame V, (∀ mb ∈ gr, concerned name subs mb.1 = true → mb.2 = []) → entry gr m n = none := by
      intro gr hg
      unfold entry
      cases hl : gr.lookup m with
      | none => rfl
      | some b =>
        have := hg (m, b) (mem_of_lookupN _ _ _ hl) hc
        simp only at this
        simp [this]
    rw [this (run fr).2]
    · rfl
    · rintro ⟨m', b⟩ hm' hc'
      obtain ⟨ba, h1, h2⟩ := sameNames_mem _ _ hs m' b hm'
      have e := (stateDict_nil_iff name subs fr).mp hp _ h1 hc'
      simp only at e
      rw [e] at h2
      simpa using h2.symm
  · rw [if_neg hp]
    have hne : Nonempty V := ⟨(List.head _ hp).2⟩
    let g : Name → Name → V := fun m n => match entry fr m n with
      | some p => p.current
      | none => Classical.choice hne
    rw [setState_ok name subs (stateDict name subs fr) g (run fr).2]
    · refine ⟨_, rfl, ?_, ?_⟩
      · unfold SameNames at hs ⊢
        rw [hs, List.map_map]
        apply List.map_congr_left
        rintro ⟨m, b⟩ _
        by_cases hc : concerned name subs m <;> simp [hc]
      · intro m n
        have e : entry ((run fr).2.map fun mb => (mb.1, if concerned name subs mb.1 then
            mb.2.map fun np => (np.1, { np.2 with current := g mb.1 np.1 }) else mb.2)) m n =
            ((run fr).2.lookup m).bind fun b => (if concerned name subs m then
              b.map fun np => (np.1, { np.2 with current := g m np.1 }) else b).lookup n := by
          unfold entry
          rw [lookupN_map (run fr).2 (fun m b => if concerned name subs m then
            b.map fun np => (np.1, { np.2 with current := g m np.1 }) else b)]
          cases (run fr).2.lookup m <;> rfl
        rw [e]
        constructor
        · intro hin
          have hc := (concerned_iff name subs m).mpr hin
          unfold entry
          cases hl : (run fr).2.lookup m with
          | none => rfl
          | some b =>
            simp only [hc, if_true, Option.bind_some]
            rw [lookupN_map b (fun n (p : StatePair V) => (⟨p.initial, g m n⟩ : StatePair V))]
            cases hb : b.lookup n with
            | none => rfl
            | some p =>
              obtain ⟨q, hq, -⟩ := hold m b n p (mem_of_lookupN _ _ _ hl) (mem_of_lookupN _ _ _ hb)
              simp only [Option.map_some, Option.bind_some, g, hq]
              unfold entry at hq
              rw [hq]
              rfl
        · intro hin
          have hc : concerned name subs m = false := by
            rw [Bool.eq_false_iff]
            exact fun h => hin ((concerned_iff name subs m).mp h)
          simp only [hc, Bool.false_eq_true, if_false, entry]
    · rintro ⟨m, b⟩ hm hc ⟨n, p⟩ hn
      obtain ⟨q, hq, hd⟩ := hold m b n p hm hn
      rw [hd hc]
      simp only [g, hq]

/-- C110, the assumption on state names is needed: a state `b/c` of module `a` and a state `c` of module `a/b` share one
fully qualified name, and the restore writes one value over the other. -/
theorem C110_slash_in_state_name :
    let fr : Frame Nat := [("a".toList, [("b/c".toList, ⟨0, 1⟩)]), ("a/b".toList, [("c".toList, ⟨0, 2⟩)])]
    (match callOnEvent "a".toList [] (fun f => ((), f)) false fr with
      | .ok r => some r.2
      | .error _ => none) =
      some [("a".toList, [("b/c".toList, ⟨0, 2⟩)]), ("a/b".toList, [("c".toList, ⟨0, 2⟩)])] := by decide

/-- A frame with the wrapped module `buf`, a module inside it and a neighbour `buf_1`. -/
def exFrame : Frame Nat :=
  [("buf".toList, [("x".toList, ⟨0, 1⟩)]), ("buf/sub".toList, [("x".toList, ⟨0, 2⟩)]), ("buf_1".toList, [("x".toList, ⟨0, 3⟩)])]

example : (match callOnEvent "buf".toList [] (fun f => ((), f.map fun mb => (mb.1, mb.2.map fun np => (np.1, ⟨np.2.initial, 9⟩))))
      false exFrame with
    | .ok r => some r.2
    | .error _ => none) = some
    [("buf".toList, [("x".toList, ⟨0, 1⟩)]), ("buf/sub".toList, [("x".toList, ⟨0, 2⟩)]), ("buf_1".toList, [("x".toList, ⟨0, 9⟩)])] := by
  decide

example : WellNamed exFrame := ⟨by decide, by decide, by decide⟩

end Verif.Props
