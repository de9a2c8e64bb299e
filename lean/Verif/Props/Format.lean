import Verif.Model.Format
import Verif.Model.EWMA
import Verif.Props.Pipeline
import Verif.Props.EWMA

/-! # C87–C90: formatting of outputs, and the pandas/xarray accessors -/

set_option linter.unusedSectionVars false
set_option linter.unusedVariables false

namespace Verif.Props
open Model.Format Model.Unroll Model.Pipeline Model.Stream

variable {α β γ L X : Type}

/-! ## Nested structures -/

mutual
theorem rebuild_leaves (f : α → β) : ∀ (t : PyTree α) (rest : List β),
    t.rebuild (t.leaves.map f ++ rest) = some (t.map f, rest)
  | .leaf a, rest => rfl
  | .node k cs, rest => by
    simp only [PyTree.leaves, PyTree.rebuild, PyTree.map, rebuildList_leaves f cs rest]
theorem rebuildList_leaves (f : α → β) : ∀ (cs : List (PyTree α)) (rest : List β),
    rebuildList cs ((leavesList cs).map f ++ rest) = some (mapList f cs, rest)
  | [], rest => rfl
  | c :: cs, rest => by
    simp only [leavesList, rebuildList, mapList, List.map_append, List.append_assoc,
      rebuild_leaves f c, rebuildList_leaves f cs rest]
end

mutual
theorem map_map_tree (f : α → β) (g : β → γ) : ∀ t : PyTree α, (t.map f).map g = t.map (g ∘ f)
  | .leaf a => rfl
  | .node k cs => by simp only [PyTree.map, mapList_mapList f g cs]
theorem mapList_mapList (f : α → β) (g : β → γ) : ∀ cs : List (PyTree α),
    mapList g (mapList f cs) = mapList (g ∘ f) cs
  | [] => rfl
  | c :: cs => by simp only [mapList, map_map_tree f g c, mapList_mapList f g cs]
end

mutual
theorem map_id_tree : ∀ t : PyTree α, t.map (fun a => a) = t
  | .leaf a => rfl
  | .node k cs => by simp only [PyTree.map, mapList_id cs]
theorem mapList_id : ∀ cs : List (PyTree α), mapList (fun a => a) cs = cs
  | [] => rfl
  | c :: cs => by simp only [mapList, map_id_tree c, mapList_id cs]
end

mutual
theorem leaves_map (f : α → β) : ∀ t : PyTree α, (t.map f).leaves = t.leaves.map f
  | .leaf a => rfl
  | .node k cs => by simp only [PyTree.map, PyTree.leaves, leavesList_map f cs]
theorem leavesList_map (f : α → β) : ∀ cs : List (PyTree α), leavesList (mapList f cs) = (leavesList cs).map f
  | [] => rfl
  | c :: cs => by simp only [mapList, leavesList, List.map_append, leaves_map f c, leavesList_map f cs]
end

mutual
theorem treedef_map (f : α → β) : ∀ t : PyTree α, (t.map f).treedef = t.treedef
  | .leaf a => rfl
  | .node k cs => by simp only [PyTree.map, PyTree.treedef, treedefList_map f cs, mapList_length f cs]
theorem treedefList_map (f : α → β) : ∀ cs : List (PyTree α), treedefList (mapList f cs) = treedefList cs
  | [] => rfl
  | c :: cs => by simp only [mapList, treedefList, treedef_map f c, treedefList_map f cs]
theorem mapList_length (f : α → β) : ∀ cs : List (PyTree α), (mapList f cs).length = cs.length
  | [] => rfl
  | c :: cs => by simp only [mapList, List.length_cons, mapList_length f cs]
end

theorem mapList_eq (f : α → β) : ∀ cs : List (PyTree α), mapList f cs = cs.map (PyTree.map f)
  | [] => rfl
  | c :: cs => by simp only [mapList, List.map_cons, mapList_eq f cs]

/-- The structure of a nested object: the same object with every leaf forgotten. -/
def skeleton (t : PyTree α) : PyTree Unit := t.map fun _ => ()

mutual
theorem treedef_prefix : ∀ (t : PyTree α) (u : PyTree β) (r r' : List Tok),
    t.treedef ++ r = u.treedef ++ r' → t.map (fun _ => ()) = u.map (fun _ => ()) ∧ r = r'
  | .leaf a, .leaf b, r, r', h => by
    simp only [PyTree.treedef, List.cons_append, List.nil_append, List.cons.injEq, true_and] at h
    exact ⟨rfl, h⟩
  | .leaf a, .node k cs, r, r', h => by simp [PyTree.treedef] at h
  | .node k cs, .leaf b, r, r', h => by simp [PyTree.treedef] at h
  | .node k cs, .node k' cs', r, r', h => by
    simp only [PyTree.treedef, List.cons_append, List.cons.injEq, Tok.node.injEq] at h
    obtain ⟨⟨hk, hl⟩, h⟩ := h
    have := treedefList_prefix cs cs' r r' hl h
    simp only [PyTree.map, hk, this.1]
    exact ⟨trivial, this.2⟩
theorem treedefList_prefix : ∀ (cs : List (PyTree α)) (cs' : List (PyTree β)) (r r' : List Tok),
    cs.length = cs'.length → treedefList cs ++ r = treedefList cs' ++ r' →
    mapList (fun _ => ()) cs = mapList (fun _ => ()) cs' ∧ r = r'
  | [], [], r, r', hl, h => by simpa [treedefList, mapList] using h
  | [], c :: cs', r, r', hl, h => by simp at hl
  | c :: cs, [], r, r', hl, h => by simp at hl
  | c :: cs, c' :: cs', r, r', hl, h => by
    simp only [treedefList, List.append_assoc] at h
    obtain ⟨h1, h2⟩ := treedef_prefix c c' _ _ h
    obtain ⟨h3, h4⟩ := treedefList_prefix cs cs' r r' (by simpa using hl) h2
    simp only [mapList, h1, h3]
    exact ⟨trivial, h4⟩
end

theorem treedef_iff (t : PyTree α) (u : PyTree β) : t.treedef = u.treedef ↔ skeleton t = skeleton u := by
  constructor
  · intro h
    exact (treedef_prefix t u [] [] (by simpa using h)).1
  · intro h
    rw [← treedef_map (fun _ => ()) t, ← treedef_map (fun _ => ()) u]
    exact congrArg PyTree.treedef h

theorem leaves_length_of_treedef (t : PyTree α) (u : PyTree β) (h : t.treedef = u.treedef) :
    t.leaves.length = u.leaves.length := by
  have := congrArg (fun t => (PyTree.leaves t).length) ((treedef_iff t u).1 h)
  simpa [skeleton, leaves_map] using this

/-- A tuple of leaves. -/
def leafTuple (as : List α) : PyTree α := .node .tuple (as.map .leaf)

theorem leafTuple_dims (l : List String) : dimsTuple l = leafTuple (l.map .str) := by
  simp [dimsTuple, leafTuple]

theorem leafTuple_map (f : α → β) (as : List α) : (leafTuple as).map f = leafTuple (as.map f) := by
  simp [leafTuple, PyTree.map, mapList_eq, Function.comp_def]

theorem leafTuple_leaves (as : List α) : (leafTuple as).leaves = as := by
  have : ∀ as : List α, leavesList (as.map PyTree.leaf) = as := by
    intro as
    induction as with
    | nil => rfl
    | cons a as ih => simp [leavesList, PyTree.leaves, ih]
  exact this as

/-- An object has the structure of a tuple of `n` leaves iff it is one. -/
theorem treedef_leafTuple (t : PyTree α) (bs : List β) :
    t.treedef = (leafTuple bs).treedef ↔ ∃ as : List α, as.length = bs.length ∧ t = leafTuple as := by
  rw [treedef_iff]
  simp only [skeleton, leafTuple_map]
  constructor
  · intro h
    cases t with
    | leaf a => simp [PyTree.map, leafTuple] at h
    | node k cs =>
      simp only [PyTree.map, leafTuple, PyTree.node.injEq, mapList_eq, List.map_map] at h
      obtain ⟨rfl, h⟩ := h
      have hl : cs.length = bs.length := by simpa using congrArg List.length h
      have hcs : ∀ c ∈ cs, ∃ a, c = PyTree.leaf a := by
        intro c hc
        have : c.map (fun _ => ()) ∈ List.map (PyTree.map fun _ => ()) cs := List.mem_map_of_mem hc
        rw [h] at this
        obtain ⟨b, _, hb⟩ := List.mem_map.1 this
        cases c with
        | leaf a => exact ⟨a, rfl⟩
        | node k cs => simp [PyTree.map] at hb
      have : ∃ as : List α, cs = as.map .leaf := by
        clear h hl
        induction cs with
        | nil => exact ⟨[], rfl⟩
        | cons c cs ih =>
          obtain ⟨a, ha⟩ := hcs c List.mem_cons_self
          obtain ⟨as, has⟩ := ih fun c hc => hcs c (List.mem_cons_of_mem _ hc)
          exact ⟨a :: as, by rw [ha, has]; rfl⟩
      obtain ⟨as, rfl⟩ := this
      exact ⟨as, by simpa using hl, rfl⟩
  · rintro ⟨as, hl, rfl⟩
    rw [leafTuple_map]
    congr 1
    apply List.ext_getElem <;> simp [hl]

/-! ## `mapM` over the leaves -/

theorem mapM_ok {E : Type} (conv : α → Except E β) (g : α → β) (l : List α) (h : ∀ a ∈ l, conv a = .ok (g a)) :
    l.mapM conv = .ok (l.map g) := by
  induction l with
  | nil => rfl
  | cons a l ih =>
    rw [List.mapM_cons, h a List.mem_cons_self, ih fun b hb => h b (List.mem_cons_of_mem _ hb)]
    rfl

theorem mapM_value (conv : α → Except Err β) (l : List α)
    (h : ∀ a ∈ l, conv a = .error .value ∨ ∃ b, conv a = .ok b) (hex : ∃ a ∈ l, conv a = .error .value) :
    l.mapM conv = .error .value := by
  induction l with
  | nil => simp at hex
  | cons a l ih =>
    rw [List.mapM_cons]
    rcases h a List.mem_cons_self with ha | ⟨b, hb⟩
    · rw [ha]; rfl
    · rw [hb]
      obtain ⟨a', ha', he⟩ := hex
      rcases List.mem_cons.1 ha' with rfl | ha'
      · rw [hb] at he; cases he
      · have := ih (fun b hb => h b (List.mem_cons_of_mem _ hb)) ⟨a', ha', he⟩
        rw [this]; rfl

theorem mapM_forall {E : Type} (conv : α → Except E β) (l : List α) (r : List β) (h : l.mapM conv = .ok r) :
    List.Forall₂ (fun a b => conv a = .ok b) l r := by
  induction l generalizing r with
  | nil => cases h; exact .nil
  | cons a l ih =>
    rw [List.mapM_cons] at h
    cases ha : conv a with
    | error e => rw [ha] at h; cases h
    | ok b =>
      cases hl : l.mapM conv with
      | error e => rw [ha, hl] at h; cases h
      | ok bs =>
        rw [ha, hl] at h
        cases h
        exact .cons ha (ih bs hl)

mutual
theorem rebuild_back (back : β → α) : ∀ (t : PyTree α) (vals rest : List β), vals.map back = t.leaves →
    ∃ u, t.rebuild (vals ++ rest) = some (u, rest) ∧ u.map back = t ∧ u.leaves = vals
  | .leaf a, vals, rest, h => by
    simp only [PyTree.leaves, List.map_eq_singleton_iff] at h
    obtain ⟨b, rfl, hb⟩ := h
    exact ⟨.leaf b, rfl, by simp [PyTree.map, hb], rfl⟩
  | .node k cs, vals, rest, h => by
    obtain ⟨us, h1, h2, h3⟩ := rebuildList_back back cs vals rest h
    exact ⟨.node k us, by simp only [PyTree.rebuild, h1], by simp only [PyTree.map, h2],
      by simp only [PyTree.leaves, h3]⟩
theorem rebuildList_back (back : β → α) : ∀ (cs : List (PyTree α)) (vals rest : List β),
    vals.map back = leavesList cs →
    ∃ us, rebuildList cs (vals ++ rest) = some (us, rest) ∧ mapList back us = cs ∧ leavesList us = vals
  | [], vals, rest, h => by
    simp only [leavesList, List.map_eq_nil_iff] at h
    subst h
    exact ⟨[], rfl, rfl, rfl⟩
  | c :: cs, vals, rest, h => by
    simp only [leavesList, List.map_eq_append_iff] at h
    obtain ⟨v1, v2, rfl, h1, h2⟩ := h
    obtain ⟨u, a1, a2, a3⟩ := rebuild_back back c v1 (v2 ++ rest) h1
    obtain ⟨us, b1, b2, b3⟩ := rebuildList_back back cs v2 rest h2
    refine ⟨u :: us, ?_, by simp only [mapList, a2, b2], by simp only [leavesList, a3, b3]⟩
    simp only [rebuildList, List.append_assoc, a1, b1]
end

/-- If each converted leaf remembers its array, so does the whole structure. -/
theorem rebuild_payload (back : β → α) (t : PyTree α) (vals : List β) (hv : vals.map back = t.leaves) :
    ∃ u, t.rebuild vals = some (u, []) ∧ u.map back = t ∧ u.leaves = vals := by
  have := rebuild_back back t vals [] hv
  simpa using this

theorem rebuild_map (f : α → β) (t : PyTree α) : t.rebuild (t.leaves.map f) = some (t.map f, []) := by
  simpa using rebuild_leaves f t []

/-! ## C87 -/

/-- A conversion that keeps the array: what every output format of wax does. -/
def Keeps (conv : Arr α → PyTree DimLeaf → Except Err X) (back : X → Arr α) : Prop :=
  ∀ a d x, conv a d = .ok x → back x = a

theorem formatWith_keeps (conv : Arr α → PyTree DimLeaf → Except Err X) (back : X → Arr α) (hk : Keeps conv back)
    (data : PyTree (Arr α)) (dims : PyTree DimLeaf) (t : PyTree X) (h : formatWith conv data dims = .ok t) :
    t.map back = data := by
  unfold formatWith at h
  split at h
  · next he =>
    cases hm : (data.leaves.zip dims.leaves).mapM (fun p => conv p.1 (.leaf p.2)) with
    | error e => simp [hm, bind, Except.bind] at h
    | ok vals =>
      simp only [hm, bind, Except.bind] at h
      have hv : vals.map back = data.leaves := by
        have hf := mapM_forall _ _ _ hm
        have hz : (data.leaves.zip dims.leaves).map (·.1) = data.leaves := by
          rw [List.map_fst_zip]
          exact (leaves_length_of_treedef data dims he).le
        rw [← hz]
        generalize data.leaves.zip dims.leaves = l at hf
        clear hz hm h
        induction hf with
        | nil => rfl
        | cons hab _ ih => simp only [List.map_cons, ih, hk _ _ _ hab]
      obtain ⟨u, h1, h2, _⟩ := rebuild_payload back data vals hv
      rw [h1] at h
      cases h
      exact h2
  · next he =>
    cases hm : data.leaves.mapM (fun a => conv a dims) with
    | error e => simp [hm, bind, Except.bind] at h
    | ok vals =>
      simp only [hm, bind, Except.bind] at h
      have hv : vals.map back = data.leaves := by
        have hf := mapM_forall _ _ _ hm
        generalize data.leaves = l at hf
        clear hm h
        induction hf with
        | nil => rfl
        | cons hab _ ih => simp only [List.map_cons, ih, hk _ _ _ hab]
      obtain ⟨u, h1, h2, _⟩ := rebuild_payload back data vals hv
      rw [h1] at h
      cases h
      exact h2

theorem toDataArray_keeps (coords : Coords L) : Keeps (toDataArray (α := α) coords) DataArray.arr := by
  intro a d x h
  unfold toDataArray at h
  cases hd : dimsOf d with
  | error e => simp [hd, bind, Except.bind] at h
  | ok v =>
    simp only [hd, bind, Except.bind] at h
    split at h
    · cases h
    · split at h
      · cases h; rfl
      · cases h

/-- The array behind a series or a frame. -/
def pandasArr : Pandas α L → Arr α
  | .series _ a => a
  | .frame _ _ a => a

theorem toDataframe_keeps (coords : Coords L) (n : Nat) : Keeps (toDataframe (α := α) coords n) pandasArr := by
  intro a d x h
  unfold toDataframe at h
  cases hd : toDataArray coords a d with
  | error e => simp [hd, bind, Except.bind] at h
  | ok v =>
    simp only [hd, bind, Except.bind] at h
    split at h <;> cases h <;> rfl

theorem toSeries_keeps (coords : Coords L) : Keeps (toSeries (α := α) coords) pandasArr := by
  intro a d x h
  unfold toSeries at h
  cases hd : toDataArray coords a d with
  | error e => simp [hd, bind, Except.bind] at h
  | ok v =>
    simp only [hd, bind, Except.bind] at h
    split at h <;> cases h <;> rfl

/-- C87: formatting as labelled arrays changes neither the nesting nor the values. -/
theorem C87_dataarray_keeps (coords : Coords L) (data : PyTree (Arr α)) (dims : PyTree DimLeaf)
    (t : PyTree (DataArray α L)) (h : formatDataarray coords data dims = .ok t) : t.map (·.arr) = data :=
  formatWith_keeps _ _ (toDataArray_keeps coords) data dims t h

/-- C87: the same for series. -/
theorem C87_series_keeps (coords : Coords L) (data : PyTree (Arr α)) (dims : PyTree DimLeaf)
    (t : PyTree (Pandas α L)) (h : formatSeries coords data dims = .ok t) : t.map pandasArr = data :=
  formatWith_keeps _ _ (toSeries_keeps coords) data dims t h

/-- C87: the same for data frames. -/
theorem C87_dataframe_keeps (coords : Coords L) (n : Nat) (data : PyTree (Arr α)) (dims : PyTree DimLeaf)
    (t : PyTree (Pandas α L)) (h : formatDataframe coords n data dims = .ok t) : t.map pandasArr = data := by
  unfold formatDataframe at h
  split at h
  · exact formatWith_keeps _ _ (toDataframe_keeps coords n) data dims t h
  · cases hl : data.leaves with
    | nil => simp [hl] at h
    | cons a as =>
      simp only [hl] at h
      cases hm : (a :: as).mapM (fun b => toDataframe coords n b (dimsFromData a)) with
      | error e => simp [hm] at h
      | ok vals =>
        simp only [hm] at h
        have hv : vals.map pandasArr = data.leaves := by
          rw [hl]
          have hf := mapM_forall _ _ _ hm
          generalize (a :: as) = l at hf
          have : ∀ (l : List (Arr α)) (vals : List (Pandas α L)), List.Forall₂ (fun b v =>
              toDataframe coords n b (dimsFromData a) = .ok v) l vals → vals.map pandasArr = l := by
            intro l vals hf
            induction hf with
            | nil => rfl
            | cons hab _ ih => simp only [List.map_cons, ih, toDataframe_keeps coords n _ _ _ hab]
          exact this _ _ hf
        obtain ⟨u, h1, h2, _⟩ := rebuild_payload pandasArr data vals hv
        rw [h1] at h
        cases h
        exact h2

/-- An array fits dimensions `l`: one axis each, and every known coordinate of these dimensions has the right length. -/
def Fits (coords : Coords L) (l : List String) (shape : List Nat) : Prop :=
  l.length = shape.length ∧ ∀ n labels, (n, labels) ∈ coords → n ∈ l → (n, labels.length) ∈ l.zip shape

/-- The labels given: the reference coordinates of the dimensions used. -/
def labelsFor (coords : Coords L) (l : List String) : Coords L := coords.filter fun c => l.contains c.1

theorem toDataArray_eq (coords : Coords L) (a : Arr α) (d : PyTree DimLeaf) (l : List String)
    (hd : dimsOf d = .ok (l, fun d => l.contains d)) :
    (Fits coords l a.shape → toDataArray coords a d = .ok ⟨a, l, labelsFor coords l⟩) ∧
    (¬ Fits coords l a.shape → toDataArray coords a d = .error .value) := by
  simp only [toDataArray, hd, bind, Except.bind]
  by_cases h1 : l.length = a.shape.length
  · rw [if_neg (by simpa using h1)]
    have : ((coords.filter fun c => l.contains c.1).all fun c =>
        (l.zip a.shape).any fun p => p.1 == c.1 && p.2 == c.2.length) = true ↔ Fits coords l a.shape := by
      simp only [List.all_eq_true, List.mem_filter, List.any_eq_true, Bool.and_eq_true, beq_iff_eq, Fits, h1, true_and,
        List.contains_iff_mem]
      constructor
      · intro h n labels hm hn
        obtain ⟨⟨p1, p2⟩, hp, e1, e2⟩ := h (n, labels) ⟨hm, hn⟩
        simp only at e1 e2
        subst e1 e2
        exact hp
      · rintro h ⟨n, labels⟩ ⟨hm, hn⟩
        exact ⟨_, h n labels hm hn, rfl, rfl⟩
    constructor
    · intro hf
      rw [if_pos (this.2 hf)]; rfl
    · intro hf
      rw [if_neg (fun h => hf (this.1 h))]
  · constructor
    · intro hf; exact absurd hf.1 h1
    · intro _; rw [if_pos (by simpa using h1)]

theorem dimsOf_tuple (l : List String) : dimsOf (dimsTuple l) = .ok (l, fun d => l.contains d) := by
  have : (l.map fun s => PyTree.leaf (DimLeaf.str s)).mapM dimName = some l := by
    induction l with
    | nil => rfl
    | cons s l ih => simp [List.map_cons, List.mapM_cons, ih, dimName]
  simp only [dimsTuple, dimsOf, this]

theorem formatWith_shared (conv : Arr α → PyTree DimLeaf → Except Err X) (data : PyTree (Arr α)) (dims : PyTree DimLeaf)
    (hne : data.treedef ≠ dims.treedef) (ok : Arr α → Prop) (g : Arr α → X)
    (h1 : ∀ a, ok a → conv a dims = .ok (g a)) (h2 : ∀ a, ¬ ok a → conv a dims = .error .value) :
    ((∀ a ∈ data.leaves, ok a) → formatWith conv data dims = .ok (data.map g)) ∧
    ((∃ a ∈ data.leaves, ¬ ok a) → formatWith conv data dims = .error .value) := by
  unfold formatWith
  rw [if_neg hne]
  constructor
  · intro h
    rw [mapM_ok (fun a => conv a dims) g data.leaves fun a ha => h1 a (h a ha)]
    simp only [bind, Except.bind, rebuild_map]
  · rintro ⟨a, ha, hn⟩
    rw [mapM_value (fun a => conv a dims) data.leaves (fun a ha => by
      by_cases h : ok a
      · exact .inr ⟨_, h1 a h⟩
      · exact .inl (h2 a h)) ⟨a, ha, h2 a hn⟩]
    rfl

theorem treedef_ne_tuple (data : PyTree α) (l : List String)
    (hne : ∀ as : List α, data = leafTuple as → as.length ≠ l.length) : data.treedef ≠ (dimsTuple l).treedef := by
  intro h
  rw [leafTuple_dims, treedef_leafTuple] at h
  obtain ⟨as, hl, hd⟩ := h
  exact hne as hd (by simpa using hl)

/-- C87: one tuple of dimension names for all outputs (and the output is not itself a tuple with that many arrays): every
array gets these dimensions with the reference coordinates; it is a ValueError unless all of them fit. -/
theorem C87_shared_dims (coords : Coords L) (data : PyTree (Arr α)) (l : List String)
    (hne : ∀ as, data = leafTuple as → as.length ≠ l.length) :
    ((∀ a ∈ data.leaves, Fits coords l a.shape) →
      formatDataarray coords data (dimsTuple l) = .ok (data.map fun a => ⟨a, l, labelsFor coords l⟩)) ∧
    ((∃ a ∈ data.leaves, ¬ Fits coords l a.shape) → formatDataarray coords data (dimsTuple l) = .error .value) :=
  formatWith_shared _ data _ (treedef_ne_tuple data l hne) _ _
    (fun a => (toDataArray_eq coords a _ l (dimsOf_tuple l)).1)
    (fun a => (toDataArray_eq coords a _ l (dimsOf_tuple l)).2)

/-- C87: with a structure of dimension lists (numpy arrays) parallel to the outputs, every array gets its own dimensions. -/
theorem C87_own_dims (coords : Coords L) (data : PyTree (Arr α)) (dims : PyTree (List String))
    (hs : skeleton data = skeleton dims) :
    ((∀ p ∈ data.leaves.zip dims.leaves, Fits coords p.2 p.1.shape) →
      ∃ t, formatDataarray coords data (dims.map .arr) = .ok t ∧ t.map (·.arr) = data ∧
        t.leaves.map (·.dims) = dims.leaves ∧ ∀ d ∈ t.leaves, d.coords = labelsFor coords d.dims) ∧
    ((∃ p ∈ data.leaves.zip dims.leaves, ¬ Fits coords p.2 p.1.shape) →
      formatDataarray coords data (dims.map .arr) = .error .value) := by
  have htd : data.treedef = (dims.map DimLeaf.arr).treedef := by
    rw [treedef_map]; exact (treedef_iff _ _).2 hs
  have hlen : data.leaves.length = dims.leaves.length := by
    have := leaves_length_of_treedef _ _ ((treedef_iff _ _).2 hs); exact this
  have hmap : (data.leaves.zip (dims.map DimLeaf.arr).leaves).mapM
        (fun p => toDataArray coords p.1 (.leaf p.2)) =
      (data.leaves.zip dims.leaves).mapM fun p => toDataArray coords p.1 (.leaf (.arr p.2)) := by
    rw [leaves_map, List.zip_map_right, List.mapM_map]
    rfl
  have hone : ∀ p : Arr α × List String, dimsOf (.leaf (.arr p.2)) = .ok (p.2, fun d => p.2.contains d) := fun p => rfl
  unfold formatDataarray formatWith
  rw [if_pos htd, hmap]
  constructor
  · intro h
    rw [mapM_ok _ (fun p : Arr α × List String => (⟨p.1, p.2, labelsFor coords p.2⟩ : DataArray α L)) _
      fun p hp => (toDataArray_eq coords p.1 _ p.2 (hone p)).1 (h p hp)]
    obtain ⟨u, e1, e2, e3⟩ := rebuild_payload (fun d : DataArray α L => d.arr) data
      ((data.leaves.zip dims.leaves).map fun p => (⟨p.1, p.2, labelsFor coords p.2⟩ : DataArray α L)) (by
        rw [List.map_map]
        exact List.map_fst_zip hlen.le)
    refine ⟨u, by simp only [bind, Except.bind, e1], e2, ?_, ?_⟩
    · rw [e3, List.map_map]
      exact List.map_snd_zip hlen.ge
    · rw [e3]
      intro d hd
      obtain ⟨p, _, rfl⟩ := List.mem_map.1 hd
      rfl
  · rintro ⟨p, hp, hn⟩
    rw [mapM_value _ _ (fun q hq => by
      by_cases h : Fits coords q.2 q.1.shape
      · exact .inr ⟨_, (toDataArray_eq coords q.1 _ q.2 (hone q)).1 h⟩
      · exact .inl ((toDataArray_eq coords q.1 _ q.2 (hone q)).2 h))
      ⟨p, hp, (toDataArray_eq coords p.1 _ p.2 (hone p)).2 hn⟩]
    rfl

/-- C87, a pitfall: a pair of outputs with a pair of dimension names is read as one name for each output: the second output
is labelled with the second dimension (if the sizes happen to agree). -/
theorem C87_pair_confusion (r c : String) (rl cl : List L) (a b : Arr α) (ha : a.shape = [rl.length])
    (hb : b.shape = [cl.length]) (h1 : ¬ r.toList <:+: c.toList) (h2 : ¬ c.toList <:+: r.toList) :
    formatDataarray [(r, rl), (c, cl)] (leafTuple [a, b]) (dimsTuple [r, c]) =
      .ok (leafTuple [⟨a, [r], [(r, rl)]⟩, ⟨b, [c], [(c, cl)]⟩]) := by
  have e : (leafTuple [a, b]).treedef = (dimsTuple [r, c]).treedef := rfl
  have hr : r.toList <:+: r.toList := List.infix_rfl
  have hc : c.toList <:+: c.toList := List.infix_rfl
  unfold formatDataarray formatWith
  rw [if_pos e]
  simp [leafTuple, dimsTuple, PyTree.leaves, leavesList, toDataArray, dimsOf, bind, Except.bind, List.mapM_cons, ha, hb,
    h1, h2, hr, hc, PyTree.rebuild, rebuildList, pure, Except.pure]

/-- C87, a pitfall: dimension names given as tuples inside a dictionary (instead of numpy arrays) are ignored: the array is
labelled with the *keys* of the dictionary, without the coordinates of the names. -/
theorem C87_dict_of_tuples (coords : Coords L) (k : String) (l : List String) (a : Arr α) (n : Nat)
    (ha : a.shape = [n]) (hk : k ∉ coords.map (·.1)) :
    formatDataarray coords (.node (.dict [k]) [.leaf a]) (.node (.dict [k]) [dimsTuple l]) =
      .ok (.node (.dict [k]) [.leaf ⟨a, [k], []⟩]) := by
  have hne : (PyTree.node (.dict [k]) [PyTree.leaf a]).treedef ≠ (PyTree.node (.dict [k]) [dimsTuple l]).treedef := by
    intro h
    rw [treedef_iff] at h
    simp [skeleton, PyTree.map, mapList, dimsTuple] at h
  have hf : Fits coords [k] a.shape := by
    rw [ha]
    refine ⟨rfl, fun m labels hm hmk => ?_⟩
    simp only [List.mem_singleton] at hmk
    subst hmk
    exact absurd (List.mem_map_of_mem (f := fun x : String × List L => x.1) hm) hk
  have hl : labelsFor coords [k] = [] := by
    simp only [labelsFor, List.filter_eq_nil_iff, List.contains_iff_mem, List.mem_singleton]
    intro c hc hck
    exact hk (hck ▸ List.mem_map_of_mem (f := fun x : String × List L => x.1) hc)
  have := (formatWith_shared (toDataArray coords) (.node (.dict [k]) [.leaf a]) (.node (.dict [k]) [dimsTuple l]) hne
    (fun a => Fits coords [k] a.shape) (fun a => ⟨a, [k], labelsFor coords [k]⟩)
    (fun a => (toDataArray_eq coords a _ [k] rfl).1) (fun a => (toDataArray_eq coords a _ [k] rfl).2)).1 (by
      intro b hb
      simp only [PyTree.leaves, leavesList, List.append_nil, List.mem_singleton] at hb
      rw [hb]; exact hf)
  unfold formatDataarray
  rw [this, hl]
  rfl

example : formatDataarray (L := Nat) (α := List Nat) [("time", [10, 20, 30]), ("col", [1, 2])]
    (.node (.dict ["m", "v"]) [.leaf ⟨[3, 2], [1]⟩, .leaf ⟨[3, 2], [2]⟩]) (dimsTuple ["time", "col"]) =
    .ok (.node (.dict ["m", "v"]) [
      .leaf ⟨⟨[3, 2], [1]⟩, ["time", "col"], [("time", [10, 20, 30]), ("col", [1, 2])]⟩,
      .leaf ⟨⟨[3, 2], [2]⟩, ["time", "col"], [("time", [10, 20, 30]), ("col", [1, 2])]⟩]) := by rfl
example : ∀ as, (PyTree.node (.dict ["m", "v"]) [.leaf 1, .leaf 2] : PyTree Nat) = leafTuple as → as.length ≠ 2 := by
  intro as h; simp [leafTuple] at h
example : ¬ "time".toList <:+: "col".toList ∧ ¬ "col".toList <:+: "time".toList := by decide

/-! ## C88: accessors -/

section
variable {T A P S R O : Type} [LinearOrder T] [Inhabited A]

theorem mealy_run_map {I J : Type} (m : Mealy S I O) (g : J → I) (xs : List J) :
    (⟨m.init, fun s j => m.step s (g j)⟩ : Mealy S J O).run xs = m.run (xs.map g) ∧
    (⟨m.init, fun s j => m.step s (g j)⟩ : Mealy S J O).stateAfter xs = m.stateAfter (xs.map g) := by
  have : ∀ (s : S), (⟨m.init, fun s j => m.step s (g j)⟩ : Mealy S J O).outsFrom s xs = m.outsFrom s (xs.map g) ∧
      (⟨m.init, fun s j => m.step s (g j)⟩ : Mealy S J O).stateFrom s xs = m.stateFrom s (xs.map g) := by
    induction xs with
    | nil => intro s; exact ⟨rfl, rfl⟩
    | cons x xs ih =>
      intro s
      simp only [Mealy.outsFrom_cons, Mealy.stateFrom_cons, List.map_cons]
      exact ⟨by rw [(ih _).1], (ih _).2⟩
  exact this m.init

theorem single_records (c : Config T) (enc : String → Option (Enc A)) (henc : enc "dataarray" = none) (n : String)
    (ts : List T) (v : Var A) (hd : v.dims.head? = some n) (hl : v.rows.length = ts.length)
    (hln : c.localTime = "" ∨ c.localTime = n) :
    records c enc ⟨[(n, ts)], [("dataarray", v)]⟩ = .ok (v.rows.map fun r => [("dataarray", .row r)]) := by
  have hloc : getLocalTime c.localTime [n] = .ok n := by
    unfold getLocalTime
    rcases hln with h | h
    · rw [if_pos h]
    · by_cases h0 : c.localTime = ""
      · rw [if_pos h0]
      · rw [if_neg h0, h]
  have htr : traceTimes c [(n, ts)] = .ok (ts.mapIdx fun i t => [(n, Out.single ⟨some t, (i : Int)⟩)]) := by
    simp only [traceTimes, hloc, bind, Except.bind, if_true]
  have hvi : varIndex [n] v = .ok (.time n) := varIndex_time [n] v n hd (by simp)
  simp only [records, htr, bind, Except.bind]
  have : ∀ ik ∈ (ts.mapIdx fun i t => [(n, (Out.single ⟨some t, (i : Int)⟩ : Out T Int))]).zipIdx,
      recordAt ⟨[(n, ts)], [("dataarray", v)]⟩ enc ik.1 ik.2 =
        .ok ((fun ik : List (String × Out T Int) × Nat => [("dataarray", Cell.row (v.rows.getD ik.2 []))]) ik) := by
    intro ik hik
    obtain ⟨ir, k⟩ := ik
    have hk := List.mem_zipIdx_iff_getElem?.1 hik
    simp only [List.getElem?_mapIdx, Option.map_eq_some_iff] at hk
    obtain ⟨t, ht, rfl⟩ := hk
    have hkr : k < v.rows.length := by
      rw [hl]; exact (List.getElem?_eq_some_iff.1 ht).1
    simp only [recordAt, List.map_cons, List.map_nil, List.mapM_cons, List.mapM_nil, cellAt, encodeVar, henc, hvi, bind,
      Except.bind, List.lookup_cons, beq_self_eq_true, accessVar, accessRow, pure, Except.pure]
    rw [if_neg (by omega), jnpIndex_nat _ k v.rows[k] (List.getElem?_eq_getElem hkr)]
    simp [List.getD_eq_getElem?_getD, List.getElem?_eq_getElem hkr]
  rw [mapM_ok _ _ _ this]
  congr 1
  apply List.ext_getElem?
  intro i
  simp only [List.getElem?_map, List.getElem?_zipIdx, List.getElem?_mapIdx, Nat.zero_add]
  by_cases hi : i < ts.length
  · rw [List.getElem?_eq_getElem hi, List.getElem?_eq_getElem (by omega : i < v.rows.length)]
    simp [List.getD_eq_getElem?_getD, List.getElem?_eq_getElem (by omega : i < v.rows.length)]
  · rw [List.getElem?_eq_none (by omega), List.getElem?_eq_none (by omega : v.rows.length ≤ i)]
    rfl

theorem unroll_comap {I J : Type} (f : Transformed P S R I O) (g : J → I) (split : R → R × R) (skip : Bool) (rng : Option R)
    (params : Option P) (state : Option S) (xs : List J) :
    unroll (⟨fun rng j => f.init rng (g j), fun p s rng j => f.apply p s rng (g j)⟩ : Transformed P S R J O) split skip true
      rng params state xs = unroll f split skip true rng params state (xs.map g) := by
  cases xs with
  | nil => rfl
  | cons x xs =>
    rw [C37_unroll_init, C37_unroll_init]
    simp only [List.map_cons]
    generalize params.getD (f.init rng (g x)).1 = p
    generalize state.getD (f.init rng (g x)).2 = s
    simp only [unrollApply, if_true]
    have hs : scanF (⟨fun rng j => f.init rng (g j), fun p s rng j => f.apply p s rng (g j)⟩ : Transformed P S R J O) split p
        = fun c j => scanF f split p c (g j) := by
      funext c j; rfl
    rw [hs, laxScan_map]
    cases skip <;> simp

/-- The module on the single variable of a one-variable dataset is the module on its rows. -/
theorem single_apply (c : Config T) (enc : String → Option (Enc A)) (henc : enc "dataarray" = none) (n : String)
    (ts : List T) (v : Var A) (hd : v.dims.head? = some n) (hl : v.rows.length = ts.length)
    (hln : c.localTime = "" ∨ c.localTime = n) (f : Transformed P S R (List A) O) (split : R → R × R) (skip : Bool)
    (rng : Option R) (params : Option P) (state : Option S) :
    streamApply c enc ⟨[(n, ts)], [("dataarray", v)]⟩ (moduleDataset f) split skip rng params state =
      unroll f split skip true rng params state v.rows := by
  have hrec := single_records c enc henc n ts v hd hl hln
  rw [C85_apply_is_unroll c enc _ _ split skip rng params state _ hrec]
  have e : (moduleDataset f : Transformed P S R (List (String × Cell A)) O) =
      ⟨fun rng j => f.init rng (moduleDataset.row j), fun p s rng j => f.apply p s rng (moduleDataset.row j)⟩ := rfl
  rw [e, unroll_comap]
  congr 1
  rw [List.map_map]
  conv_rhs => rw [← List.map_id v.rows]
  apply List.map_congr_left
  intro r _
  simp [moduleDataset.row, List.lookup_cons]

theorem unroll_length {I : Type} (f : Transformed P S R I O) (split : R → R × R) (skip : Bool) (rng : Option R)
    (params : Option P) (state : Option S) (xs : List I) (outs : List O) (s : S)
    (h : unroll f split skip true rng params state xs = .ok (outs, s)) :
    outs.length = if skip then xs.length - 1 else xs.length := by
  rw [C37_unroll_init] at h
  cases xs with
  | nil => cases h
  | cons x xs =>
    simp only [unrollApply, if_true, Except.ok.injEq, Prod.mk.injEq] at h
    rw [← h.1, laxScan_length]
    cases skip <;> simp

theorem unroll_ok {I : Type} (f : Transformed P S R I O) (split : R → R × R) (skip : Bool) (rng : Option R)
    (params : Option P) (state : Option S) (xs : List I) (hne : xs ≠ []) :
    ∃ outs s, unroll f split skip true rng params state xs = .ok (outs, s) := by
  rw [C37_unroll_init]
  cases xs with
  | nil => exact absurd rfl hne
  | cons x xs => exact ⟨_, _, rfl⟩

end

/-! ### Formatting against a frame -/

theorem fits_two (r c : String) (hrc : r ≠ c) (rl cl : List L) (shape : List Nat) :
    Fits [(r, rl), (c, cl)] [r, c] shape ↔ shape = [rl.length, cl.length] := by
  constructor
  · rintro ⟨h1, h2⟩
    match shape, h1 with
    | [a, b], _ =>
      have e1 := h2 r rl (by simp) (by simp)
      have e2 := h2 c cl (by simp) (by simp)
      simp only [List.zip_cons_cons, List.zip_nil_right, List.mem_cons, Prod.mk.injEq, List.not_mem_nil, or_false,
        true_and, hrc, false_and] at e1
      simp only [List.zip_cons_cons, List.zip_nil_right, List.mem_cons, Prod.mk.injEq, List.not_mem_nil, or_false,
        true_and, hrc.symm, false_and, false_or] at e2
      rw [e1, e2]
  · rintro rfl
    refine ⟨rfl, fun n labels hm hn => ?_⟩
    simp only [List.mem_cons, Prod.mk.injEq, List.not_mem_nil, or_false] at hm
    rcases hm with ⟨rfl, rfl⟩ | ⟨rfl, rfl⟩ <;> simp

theorem fits_one (r c : String) (hrc : r ≠ c) (rl cl : List L) (shape : List Nat) :
    Fits [(r, rl), (c, cl)] [r] shape ↔ shape = [rl.length] := by
  constructor
  · rintro ⟨h1, h2⟩
    match shape, h1 with
    | [a], _ =>
      have e1 := h2 r rl (by simp) (by simp)
      simp only [List.zip_cons_cons, List.zip_nil_right, List.mem_cons, Prod.mk.injEq, List.not_mem_nil, or_false,
        true_and] at e1
      rw [e1]
  · rintro rfl
    refine ⟨rfl, fun n labels hm hn => ?_⟩
    simp only [List.mem_cons, Prod.mk.injEq, List.not_mem_nil, or_false] at hm hn
    rcases hm with ⟨rfl, rfl⟩ | ⟨rfl, rfl⟩
    · simp
    · exact absurd hn.symm hrc

theorem fits_single (r : String) (rl : List L) (shape : List Nat) :
    Fits [(r, rl)] [r] shape ↔ shape = [rl.length] := by
  constructor
  · rintro ⟨h1, h2⟩
    match shape, h1 with
    | [a], _ =>
      have e1 := h2 r rl (by simp) (by simp)
      simp only [List.zip_cons_cons, List.zip_nil_right, List.mem_cons, Prod.mk.injEq, List.not_mem_nil, or_false,
        true_and] at e1
      rw [e1]
  · rintro rfl
    refine ⟨rfl, fun n labels hm hn => ?_⟩
    simp only [List.mem_cons, Prod.mk.injEq, List.not_mem_nil, or_false] at hm
    rcases hm with ⟨rfl, rfl⟩
    simp

theorem reduced_tuple (s : String) (l : List String) : reducedDims (dimsTuple (s :: l)) = .ok (dimsTuple [s]) := rfl

/-- Two attempts of `formatWith`, when neither dims structure is that of the data. -/
theorem twoAttempts (conv : Arr α → PyTree DimLeaf → Except Err X) (data : PyTree (Arr α)) (s : String) (l : List String)
    (hne : data.treedef ≠ (dimsTuple (s :: l)).treedef) (hne1 : data.treedef ≠ (dimsTuple [s]).treedef)
    (ok1 ok2 : Arr α → Prop) (g1 g2 : Arr α → X)
    (h1 : ∀ a, ok1 a → conv a (dimsTuple (s :: l)) = .ok (g1 a))
    (h1' : ∀ a, ¬ ok1 a → conv a (dimsTuple (s :: l)) = .error .value)
    (h2 : ∀ a, ok2 a → conv a (dimsTuple [s]) = .ok (g2 a))
    (h2' : ∀ a, ¬ ok2 a → conv a (dimsTuple [s]) = .error .value) :
    ((∀ a ∈ data.leaves, ok1 a) → formatOrReduce (formatWith conv data) (dimsTuple (s :: l)) = .ok (data.map g1)) ∧
    ((∃ a ∈ data.leaves, ¬ ok1 a) → (∀ a ∈ data.leaves, ok2 a) →
      formatOrReduce (formatWith conv data) (dimsTuple (s :: l)) = .ok (data.map g2)) ∧
    ((∃ a ∈ data.leaves, ¬ ok1 a) → (∃ a ∈ data.leaves, ¬ ok2 a) →
      formatOrReduce (formatWith conv data) (dimsTuple (s :: l)) = .error .value) := by
  have A := formatWith_shared conv data _ hne ok1 g1 h1 h1'
  have B := formatWith_shared conv data _ hne1 ok2 g2 h2 h2'
  refine ⟨fun h => ?_, fun h h' => ?_, fun h h' => ?_⟩
  · unfold formatOrReduce; rw [A.1 h]
  · unfold formatOrReduce; rw [A.2 h, reduced_tuple]; exact B.1 h'
  · unfold formatOrReduce; rw [A.2 h, reduced_tuple]; exact B.2 h'

theorem labels_two (r c : String) (rl cl : List L) :
    labelsFor [(r, rl), (c, cl)] [r, c] = [(r, rl), (c, cl)] := by
  simp [labelsFor]

theorem labels_one (r c : String) (hrc : r ≠ c) (rl cl : List L) :
    labelsFor [(r, rl), (c, cl)] [r] = [(r, rl)] := by
  simp [labelsFor, hrc.symm]

theorem toDataframe_two (r c : String) (hrc : r ≠ c) (rl cl : List L) (a : Arr α) :
    (a.shape = [rl.length, cl.length] → toDataframe [(r, rl), (c, cl)] 1 a (dimsTuple [r, c]) =
      .ok (.frame [(r, some rl)] [(c, some cl)] a)) ∧
    (a.shape ≠ [rl.length, cl.length] → toDataframe [(r, rl), (c, cl)] 1 a (dimsTuple [r, c]) = .error .value) := by
  have h := toDataArray_eq [(r, rl), (c, cl)] a _ [r, c] (dimsOf_tuple [r, c])
  rw [fits_two r c hrc] at h
  constructor
  · intro ha
    have hcr : (c == r) = false := by simpa using hrc.symm
    simp [toDataframe, h.1 ha, bind, Except.bind, DataArray.axes, labels_two, List.lookup_cons, hcr]
  · intro ha
    simp [toDataframe, h.2 ha, bind, Except.bind]

theorem toDataframe_one (r c : String) (hrc : r ≠ c) (rl cl : List L) (a : Arr α) :
    (a.shape = [rl.length] → toDataframe [(r, rl), (c, cl)] 1 a (dimsTuple [r]) = .ok (.series [(r, some rl)] a)) ∧
    (a.shape ≠ [rl.length] → toDataframe [(r, rl), (c, cl)] 1 a (dimsTuple [r]) = .error .value) := by
  have h := toDataArray_eq [(r, rl), (c, cl)] a _ [r] (dimsOf_tuple [r])
  rw [fits_one r c hrc] at h
  constructor
  · intro ha
    simp [toDataframe, h.1 ha, bind, Except.bind, DataArray.axes, labels_one r c hrc, List.lookup_cons]
  · intro ha
    simp [toDataframe, h.2 ha, bind, Except.bind]

theorem formatDataframe_tuple (coords : Coords L) (k : Nat) (data : PyTree (Arr α)) (s : String) (l : List String) :
    formatDataframe coords k data (dimsTuple (s :: l)) = formatWith (toDataframe coords k) data (dimsTuple (s :: l)) := by
  unfold formatDataframe
  exact if_pos (Or.inr rfl)

theorem formatOrReduce_frame (coords : Coords L) (k : Nat) (data : PyTree (Arr α)) (s : String) (l : List String) :
    formatOrReduce (formatDataframe coords k data) (dimsTuple (s :: l)) =
      formatOrReduce (formatWith (toDataframe coords k) data) (dimsTuple (s :: l)) := by
  unfold formatOrReduce
  rw [formatDataframe_tuple, reduced_tuple]
  simp only [formatDataframe_tuple]

/-- The output of a module that is not exactly a tuple of one or two arrays (those interfere with `format_dims`). -/
def PlainSig (sig : PyTree α) : Prop := ∀ as, sig = leafTuple as → as.length ≠ 1 ∧ as.length ≠ 2

theorem stackTree_treedef {O : Type} (sig : PyTree (List Nat × (O → X))) (outs : List O) :
    (stackTree sig outs).treedef = sig.treedef := treedef_map _ _

theorem stackTree_leaves {O : Type} (sig : PyTree (List Nat × (O → X))) (outs : List O) :
    (stackTree sig outs).leaves = sig.leaves.map fun l => ⟨outs.length :: l.1, outs.map l.2⟩ := leaves_map _ _

section
variable {T A P S R O : Type} [LinearOrder T] [Inhabited A]

/-- What makes a data frame: one row per date, at least one row, two axis names. -/
structure IsFrame (df : Frame T L A) : Prop where
  rows : df.rows.length = df.index.length
  nonempty : df.rows ≠ []
  names : df.rowDim ≠ df.colDim

/-- The stream settings used by the accessor on a frame. -/
def FrameConfig (c : Config T) (enc : String → Option (Enc A)) (rowDim : String) : Prop :=
  (c.localTime = "" ∨ c.localTime = rowDim) ∧ enc "dataarray" = none

theorem accessor_unroll {Y : Type} (c : Config T) (enc : String → Option (Enc A)) (n : String)
    (hc : FrameConfig c enc n) (ts : List T) (v : Var A) (hd : v.dims.head? = some n) (hl : v.rows.length = ts.length)
    (f : Transformed P S R (List A) O) (split : R → R × R) (skip : Bool) (rng : Option R) (params : Option P)
    (state : Option S) (outs : List O) (s : S) (hu : unroll f split skip true rng params state v.rows = .ok (outs, s))
    (sig : PyTree (List Nat × (O → X))) (fmt : PyTree (Arr (List X)) → PyTree DimLeaf → Except Err Y)
    (dims : PyTree DimLeaf) :
    accessorApply c enc ⟨[(n, ts)], [("dataarray", v)]⟩ (moduleDataset f) split skip rng params state sig fmt dims =
      match formatOrReduce (fmt (stackTree sig outs)) dims with
      | .error e => .error e
      | .ok y => .ok (y, s) := by
  unfold accessorApply
  rw [single_apply c enc hc.2 n ts v hd hl hc.1, hu]
  rfl

theorem tree_congr {Y : Type} (sig : PyTree β) (g g' : β → Y) (h : ∀ l ∈ sig.leaves, g l = g' l) : sig.map g = sig.map g' := by
  have h1 := rebuild_map g sig
  have h2 := rebuild_map g' sig
  rw [List.map_congr_left h, h2] at h1
  simpa using h1.symm

/-- The three cases of an accessor whose first attempt accepts entries of shape `sh1` and whose second one accepts `sh2`. -/
theorem accessor_cases {Y : Type} (c : Config T) (enc : String → Option (Enc A)) (n : String)
    (hc : FrameConfig c enc n) (ts : List T) (v : Var A) (hd : v.dims.head? = some n) (hl : v.rows.length = ts.length)
    (f : Transformed P S R (List A) O) (split : R → R × R) (rng : Option R) (params : Option P)
    (state : Option S) (outs : List O) (s : S) (hu : unroll f split false true rng params state v.rows = .ok (outs, s))
    (sig : PyTree (List Nat × (O → X))) (conv : Arr (List X) → PyTree DimLeaf → Except Err Y)
    (l : List String) (hne1 : ∀ as, sig = leafTuple as → as.length ≠ 1) (hnel : ∀ as, sig = leafTuple as → as.length ≠ (n :: l).length)
    (sh1 sh2 : List Nat) (g1 g2 : Arr (List X) → Y)
    (h1 : ∀ a, a.shape = ts.length :: sh1 → conv a (dimsTuple (n :: l)) = .ok (g1 a))
    (h1' : ∀ a, a.shape ≠ ts.length :: sh1 → conv a (dimsTuple (n :: l)) = .error .value)
    (h2 : ∀ a, a.shape = ts.length :: sh2 → conv a (dimsTuple [n]) = .ok (g2 a))
    (h2' : ∀ a, a.shape ≠ ts.length :: sh2 → conv a (dimsTuple [n]) = .error .value) :
    let result := accessorApply c enc ⟨[(n, ts)], [("dataarray", v)]⟩ (moduleDataset f) split false rng params state sig
      (formatWith conv) (dimsTuple (n :: l))
    ((∀ l ∈ sig.leaves, l.1 = sh1) → result = .ok (sig.map fun l => g1 ⟨ts.length :: sh1, outs.map l.2⟩, s)) ∧
    ((∃ l ∈ sig.leaves, l.1 ≠ sh1) → (∀ l ∈ sig.leaves, l.1 = sh2) →
      result = .ok (sig.map fun l => g2 ⟨ts.length :: sh2, outs.map l.2⟩, s)) ∧
    ((∃ l ∈ sig.leaves, l.1 ≠ sh1) → (∃ l ∈ sig.leaves, l.1 ≠ sh2) → result = .error .value) := by
  intro result
  have hlen : outs.length = ts.length := by
    rw [unroll_length _ _ _ _ _ _ _ _ _ hu, ← hl]; rfl
  have hres : result = _ := accessor_unroll c enc n hc ts v hd hl f split false rng params state outs s hu sig
    (formatWith conv) (dimsTuple (n :: l))
  have key := twoAttempts conv (stackTree sig outs) n l
    (by rw [stackTree_treedef]; exact treedef_ne_tuple sig _ hnel)
    (by rw [stackTree_treedef]; exact treedef_ne_tuple sig _ hne1)
    _ _ g1 g2 h1 h1' h2 h2'
  rw [stackTree_leaves] at key
  simp only [List.mem_map, forall_exists_index, and_imp, forall_apply_eq_imp_iff₂, exists_exists_and_eq_and,
    List.cons.injEq, hlen, true_and] at key
  refine ⟨fun h => ?_, fun hne h => ?_, fun h h' => ?_⟩
  · rw [hres, key.1 h]
    simp only [stackTree, map_map_tree]
    congr 2
    apply tree_congr
    intro l hl
    simp only [Function.comp_apply, hlen, h l hl]
  · obtain ⟨l0, a0, b0⟩ := hne
    rw [hres, key.2.1 l0 a0 b0 h]
    simp only [stackTree, map_map_tree]
    congr 2
    apply tree_congr
    intro l hl
    simp only [Function.comp_apply, hlen, h l hl]
  · obtain ⟨l0, a0, b0⟩ := h
    obtain ⟨l1, a1, b1⟩ := h'
    rw [hres, key.2.2 l0 a0 b0 l1 a1 b1]

theorem accessorApply_congr {Y : Type} (c : Config T) (enc : String → Option (Enc A)) (ds : Dataset T A)
    (f : Transformed P S R (List (String × Cell A)) O) (split : R → R × R) (skipFirst : Bool) (rng : Option R)
    (params : Option P) (state : Option S) (sig : PyTree (List Nat × (O → X)))
    (fmt fmt' : PyTree (Arr (List X)) → PyTree DimLeaf → Except Err Y) (dims : PyTree DimLeaf)
    (h : ∀ t, formatOrReduce (fmt t) dims = formatOrReduce (fmt' t) dims) :
    accessorApply c enc ds f split skipFirst rng params state sig fmt dims =
      accessorApply c enc ds f split skipFirst rng params state sig fmt' dims := by
  unfold accessorApply
  simp only [h]

/-- C88: applying a module to a data frame.  If every output has one entry per column, each becomes a frame with the same
index and columns; if every output is a scalar, each becomes a series on the index; anything else is a ValueError.  The
values are the outputs of the module fed with the rows one after the other, whatever parameters, state and key are given. -/
theorem C88_dataframe (c : Config T) (enc : String → Option (Enc A)) (nan : A) (df : Frame T L A) (hdf : IsFrame df)
    (hc : FrameConfig c enc df.rowDim) (f : Transformed P S R (List A) O) (split : R → R × R) (rng : Option R)
    (params : Option P) (state : Option S) (outs : List O) (s : S)
    (hu : unroll f split false true rng params state df.rows = .ok (outs, s))
    (sig : PyTree (List Nat × (O → X))) (hp : PlainSig sig) :
    let result := dataframeApply c enc nan df f split false rng params state sig none
    let index := [(df.rowDim, some (df.index.map (Sum.inl (β := L))))]
    let columns := [(df.colDim, some (df.columns.map (Sum.inr (α := T))))]
    ((∀ l ∈ sig.leaves, l.1 = [df.columns.length]) → result = .ok (sig.map fun l =>
      .frame index columns ⟨[df.index.length, df.columns.length], outs.map l.2⟩, s)) ∧
    ((∃ l ∈ sig.leaves, l.1 ≠ [df.columns.length]) → (∀ l ∈ sig.leaves, l.1 = []) → result = .ok (sig.map fun l =>
      .series index ⟨[df.index.length], outs.map l.2⟩, s)) ∧
    ((∃ l ∈ sig.leaves, l.1 ≠ [df.columns.length]) → (∃ l ∈ sig.leaves, l.1 ≠ []) → result = .error .value) := by
  intro result index columns
  have hres : result = accessorApply c enc (df.dataset nan) (moduleDataset f) split false rng params state sig
      (formatWith (toDataframe df.coords 1)) (dimsTuple [df.rowDim, df.colDim]) :=
    accessorApply_congr c enc _ _ split false rng params state sig _ _ _
      fun t => formatOrReduce_frame df.coords 1 t df.rowDim [df.colDim]
  have h2 : ∀ a : Arr (List X), _ := fun a => toDataframe_two df.rowDim df.colDim hdf.names
    (df.index.map (Sum.inl (β := L))) (df.columns.map (Sum.inr (α := T))) a
  have h1 : ∀ a : Arr (List X), _ := fun a => toDataframe_one df.rowDim df.colDim hdf.names
    (df.index.map (Sum.inl (β := L))) (df.columns.map (Sum.inr (α := T))) a
  simp only [List.length_map] at h1 h2
  rw [hres]
  exact accessor_cases c enc df.rowDim hc df.index ⟨[df.rowDim, df.colDim], df.rows, nan, 0⟩ rfl hdf.rows f split rng params
    state outs s hu sig (toDataframe df.coords 1) [df.colDim] (fun as h => (hp as h).1) (fun as h => (hp as h).2)
    [df.columns.length] [] (fun a => .frame index columns a) (fun a => .series index a)
    (fun a => (h2 a).1) (fun a => (h2 a).2) (fun a => (h1 a).1) (fun a => (h1 a).2)

/-- C88: the same for a two-dimensional labelled array. -/
theorem C88_dataarray (c : Config T) (enc : String → Option (Enc A)) (nan : A) (df : Frame T L A) (hdf : IsFrame df)
    (hc : FrameConfig c enc df.rowDim) (f : Transformed P S R (List A) O) (split : R → R × R) (rng : Option R)
    (params : Option P) (state : Option S) (outs : List O) (s : S)
    (hu : unroll f split false true rng params state df.rows = .ok (outs, s))
    (sig : PyTree (List Nat × (O → X))) (hp : PlainSig sig) :
    let result := dataarrayApply c enc nan df f split false rng params state sig none
    let index := (df.rowDim, df.index.map (Sum.inl (β := L)))
    let columns := (df.colDim, df.columns.map (Sum.inr (α := T)))
    ((∀ l ∈ sig.leaves, l.1 = [df.columns.length]) → result = .ok (sig.map fun l =>
      ⟨⟨[df.index.length, df.columns.length], outs.map l.2⟩, [df.rowDim, df.colDim], [index, columns]⟩, s)) ∧
    ((∃ l ∈ sig.leaves, l.1 ≠ [df.columns.length]) → (∀ l ∈ sig.leaves, l.1 = []) → result = .ok (sig.map fun l =>
      ⟨⟨[df.index.length], outs.map l.2⟩, [df.rowDim], [index]⟩, s)) ∧
    ((∃ l ∈ sig.leaves, l.1 ≠ [df.columns.length]) → (∃ l ∈ sig.leaves, l.1 ≠ []) → result = .error .value) := by
  intro result index columns
  have h2 : ∀ a : Arr (List X), _ := fun a => toDataArray_eq df.coords a _ _ (dimsOf_tuple [df.rowDim, df.colDim])
  have h1 : ∀ a : Arr (List X), _ := fun a => toDataArray_eq df.coords a _ _ (dimsOf_tuple [df.rowDim])
  simp only [Frame.coords, fits_two df.rowDim df.colDim hdf.names, fits_one df.rowDim df.colDim hdf.names,
    labels_two, labels_one df.rowDim df.colDim hdf.names, List.length_map] at h1 h2
  exact accessor_cases c enc df.rowDim hc df.index ⟨[df.rowDim, df.colDim], df.rows, nan, 0⟩ rfl hdf.rows f split rng params
    state outs s hu sig (toDataArray df.coords) [df.colDim] (fun as h => (hp as h).1) (fun as h => (hp as h).2)
    [df.columns.length] [] (fun a => ⟨a, [df.rowDim, df.colDim], [index, columns]⟩) (fun a => ⟨a, [df.rowDim], [index]⟩)
    (fun a => (h2 a).1) (fun a => (h2 a).2) (fun a => (h1 a).1) (fun a => (h1 a).2)

/-- C88: applying a module to a series: scalar outputs become series on the same index, anything else is a ValueError. -/
theorem C88_series (c : Config T) (enc : String → Option (Enc A)) (nan : A) (sr : Ser T A)
    (hrows : sr.values.length = sr.index.length)
    (hc : FrameConfig c enc sr.dim) (f : Transformed P S R (List A) O) (split : R → R × R) (rng : Option R)
    (params : Option P) (state : Option S) (outs : List O) (s : S)
    (hu : unroll f split false true rng params state (sr.values.map fun a => [a]) = .ok (outs, s))
    (sig : PyTree (List Nat × (O → X))) (hp : ∀ as, sig = leafTuple as → as.length ≠ 1) :
    let result := seriesApply c enc nan sr f split false rng params state sig none
    ((∀ l ∈ sig.leaves, l.1 = []) → result = .ok (sig.map fun l =>
      .series [(sr.dim, some sr.index)] ⟨[sr.index.length], outs.map l.2⟩, s)) ∧
    ((∃ l ∈ sig.leaves, l.1 ≠ []) → result = .error .value) := by
  intro result
  have hone : ∀ a : Arr (List X),
      (a.shape = [sr.index.length] → toSeries [(sr.dim, sr.index)] a (dimsTuple [sr.dim]) = .ok (.series [(sr.dim, some sr.index)] a)) ∧
      (a.shape ≠ [sr.index.length] → toSeries [(sr.dim, sr.index)] a (dimsTuple [sr.dim]) = .error .value) := by
    intro a
    have h := toDataArray_eq [(sr.dim, sr.index)] a _ _ (dimsOf_tuple [sr.dim])
    rw [fits_single] at h
    constructor
    · intro ha
      simp [toSeries, h.1 ha, bind, Except.bind, DataArray.axes, labelsFor, List.lookup_cons]
    · intro ha
      simp [toSeries, h.2 ha, bind, Except.bind]
  have key := accessor_cases c enc sr.dim hc sr.index ⟨[sr.dim], sr.values.map fun a => [a], nan, 0⟩ rfl (by simpa using hrows)
    f split rng params state outs s hu sig (toSeries [(sr.dim, sr.index)]) [] hp hp
    [] [] (fun a => .series [(sr.dim, some sr.index)] a) (fun a => .series [(sr.dim, some sr.index)] a)
    (fun a => (hone a).1) (fun a => (hone a).2) (fun a => (hone a).1) (fun a => (hone a).2)
  exact ⟨key.1, fun h => key.2.2 h h⟩

/-- C88: on a data frame, a Haiku module gives the outputs of the module fed with the rows one by one, and its final state. -/
theorem C88_dataframe_module (c : Config T) (enc : String → Option (Enc A)) (nan : A) (df : Frame T L A) (hdf : IsFrame df)
    (hc : FrameConfig c enc df.rowDim) (m : Mealy S (List A) (List X)) (split : R → R × R) (rng : Option R) :
    dataframeApply c enc nan df (haikuTransformed m) split false rng none none (.leaf ([df.columns.length], id)) none =
      .ok (.leaf (.frame [(df.rowDim, some (df.index.map .inl))] [(df.colDim, some (df.columns.map .inr))]
        ⟨[df.index.length, df.columns.length], m.run df.rows⟩), m.stateAfter df.rows) := by
  have hu := C37_unroll_haiku_module (R := R) m split rng df.rows hdf.nonempty
  have := (C88_dataframe c enc nan df hdf hc (haikuTransformed m) split rng none none _ _ hu
    (.leaf ([df.columns.length], id)) (fun as h => by simp [leafTuple] at h)).1 (by simp [PyTree.leaves])
  rw [this]
  simp [PyTree.map]

/-! ### `skip_first` -/

theorem mapM_head_error (conv : α → Except Err β) (a : α) (l : List α) (e : Err) (h : conv a = .error e) :
    (a :: l).mapM conv = .error e := by
  rw [List.mapM_cons, h]; rfl

theorem formatWith_head_error (conv : Arr α → PyTree DimLeaf → Except Err X) (data : PyTree (Arr α)) (n : String)
    (l : List String) (hne : data.leaves ≠ [])
    (h1 : ∀ a ∈ data.leaves, conv a (dimsTuple (n :: l)) = .error .value)
    (h2 : ∀ a ∈ data.leaves, conv a (.leaf (.str n)) = .error .value) :
    formatWith conv data (dimsTuple (n :: l)) = .error .value := by
  cases hl : data.leaves with
  | nil => exact absurd hl hne
  | cons a as =>
    have ha : a ∈ data.leaves := by rw [hl]; exact List.mem_cons_self
    unfold formatWith
    split
    · rw [leafTuple_dims, leafTuple_leaves, hl]
      simp only [List.map_cons, List.zip_cons_cons]
      rw [mapM_head_error (fun p : Arr α × DimLeaf => conv p.1 (.leaf p.2)) (a, .str n) _ .value (h2 a ha)]
      rfl
    · rw [hl, mapM_head_error (fun a => conv a (dimsTuple (n :: l))) a _ .value (h1 a ha)]
      rfl

theorem toDataArray_head (coords : Coords L) (n : String) (labels : List L) (hm : (n, labels) ∈ coords) (a : Arr α)
    (hh : ∀ sh, a.shape ≠ labels.length :: sh) :
    (∀ l, n ∉ l → toDataArray coords a (dimsTuple (n :: l)) = .error .value) ∧
    toDataArray coords a (.leaf (.str n)) = .error .value := by
  constructor
  · intro l hnl
    refine (toDataArray_eq coords a _ _ (dimsOf_tuple (n :: l))).2 ?_
    rintro ⟨h1, h2⟩
    have := h2 n labels hm List.mem_cons_self
    cases hsh : a.shape with
    | nil => rw [hsh] at this; simp at this
    | cons k sh =>
      rw [hsh] at this
      simp only [List.zip_cons_cons, List.mem_cons, Prod.mk.injEq, true_and] at this
      rcases this with h | h
      · exact hh sh (by rw [hsh, h])
      · exact hnl (List.of_mem_zip h).1
  · simp only [toDataArray, dimsOf, bind, Except.bind]
    split
    · rfl
    · next h =>
      simp only [List.length_singleton, ne_eq, not_not] at h
      rw [if_neg]
      intro hall
      rw [List.all_eq_true] at hall
      have := hall (n, labels) (by simp [List.mem_filter, hm])
      match hsh : a.shape, h with
      | [k], _ =>
        rw [hsh] at this
        simp only [List.zip_cons_cons, List.zip_nil_right, List.any_cons, List.any_nil, Bool.or_false, Bool.and_eq_true,
          beq_iff_eq, true_and] at this
        exact hh [] (by rw [hsh, this])

theorem skip_fails {Y : Type} (c : Config T) (enc : String → Option (Enc A)) (n : String)
    (hc : FrameConfig c enc n) (ts : List T) (v : Var A) (hd : v.dims.head? = some n) (hl : v.rows.length = ts.length)
    (hne : v.rows ≠ [])
    (f : Transformed P S R (List A) O) (split : R → R × R) (rng : Option R) (params : Option P)
    (state : Option S) (sig : PyTree (List Nat × (O → X))) (hs : sig.leaves ≠ [])
    (conv : Arr (List X) → PyTree DimLeaf → Except Err Y) (l : List String)
    (h1 : ∀ a, (∀ sh, a.shape ≠ ts.length :: sh) → conv a (dimsTuple (n :: l)) = .error .value)
    (h2 : ∀ a, (∀ sh, a.shape ≠ ts.length :: sh) → conv a (dimsTuple [n]) = .error .value)
    (h3 : ∀ a, (∀ sh, a.shape ≠ ts.length :: sh) → conv a (.leaf (.str n)) = .error .value) :
    accessorApply c enc ⟨[(n, ts)], [("dataarray", v)]⟩ (moduleDataset f) split true rng params state sig
      (formatWith conv) (dimsTuple (n :: l)) = .error .value := by
  obtain ⟨outs, s, hu⟩ := unroll_ok f split true rng params state v.rows hne
  rw [accessor_unroll c enc n hc ts v hd hl f split true rng params state outs s hu sig]
  have hlen := unroll_length _ _ _ _ _ _ _ _ _ hu
  simp only [if_true] at hlen
  have hpos : 0 < v.rows.length := List.length_pos_iff.2 hne
  have hsh : ∀ a ∈ (stackTree sig outs).leaves, ∀ sh, a.shape ≠ ts.length :: sh := by
    rw [stackTree_leaves]
    intro a ha sh h
    obtain ⟨l', _, rfl⟩ := List.mem_map.1 ha
    simp only [List.cons.injEq] at h
    omega
  have hnl : (stackTree sig outs).leaves ≠ [] := by
    rw [stackTree_leaves]; simpa using hs
  unfold formatOrReduce
  rw [formatWith_head_error conv _ n l hnl (fun a ha => h1 a (hsh a ha)) (fun a ha => h3 a (hsh a ha)), reduced_tuple]
  simp only
  rw [formatWith_head_error conv _ n [] hnl (fun a ha => h2 a (hsh a ha)) (fun a ha => h3 a (hsh a ha))]

/-- C88: with `skip_first` (and formatted outputs) there is one output less than dates: always a ValueError, for every
module with at least one output. -/
theorem C88_skip_first_raises (c : Config T) (enc : String → Option (Enc A)) (nan : A)
    (f : Transformed P S R (List A) O) (split : R → R × R) (rng : Option R)
    (params : Option P) (state : Option S) (sig : PyTree (List Nat × (O → X))) (hs : sig.leaves ≠ []) :
    (∀ df : Frame T L A, IsFrame df → FrameConfig c enc df.rowDim →
      dataframeApply c enc nan df f split true rng params state sig none = .error .value ∧
      dataarrayApply c enc nan df f split true rng params state sig none = .error .value) ∧
    (∀ sr : Ser T A, sr.values.length = sr.index.length → sr.values ≠ [] → FrameConfig c enc sr.dim →
      seriesApply c enc nan sr f split true rng params state sig none = .error .value) := by
  constructor
  · intro df hdf hc
    have hm : (df.rowDim, df.index.map (Sum.inl (β := L))) ∈ df.coords := by simp [Frame.coords]
    have hT : ∀ a : Arr (List X), (∀ sh, a.shape ≠ df.index.length :: sh) →
        toDataArray df.coords a (dimsTuple [df.rowDim, df.colDim]) = .error .value ∧
        toDataArray df.coords a (dimsTuple [df.rowDim]) = .error .value ∧
        toDataArray df.coords a (.leaf (.str df.rowDim)) = .error .value := by
      intro a ha
      have := toDataArray_head df.coords df.rowDim _ hm a (by simpa using ha)
      exact ⟨this.1 _ (by simpa using hdf.names), this.1 _ (by simp), this.2⟩
    constructor
    · have hres : dataframeApply c enc nan df f split true rng params state sig none =
          accessorApply c enc (df.dataset nan) (moduleDataset f) split true rng params state sig
          (formatWith (toDataframe df.coords 1)) (dimsTuple [df.rowDim, df.colDim]) :=
        accessorApply_congr c enc _ _ split true rng params state sig _ _ _
          fun t => formatOrReduce_frame df.coords 1 t df.rowDim [df.colDim]
      rw [hres]
      refine skip_fails c enc df.rowDim hc df.index ⟨[df.rowDim, df.colDim], df.rows, nan, 0⟩ rfl hdf.rows hdf.nonempty
        f split rng params state sig hs _ [df.colDim] ?_ ?_ ?_ <;> intro a ha
      · simp [toDataframe, (hT a ha).1, bind, Except.bind]
      · simp [toDataframe, (hT a ha).2.1, bind, Except.bind]
      · simp [toDataframe, (hT a ha).2.2, bind, Except.bind]
    · refine skip_fails c enc df.rowDim hc df.index ⟨[df.rowDim, df.colDim], df.rows, nan, 0⟩ rfl hdf.rows hdf.nonempty
        f split rng params state sig hs (toDataArray df.coords) [df.colDim] ?_ ?_ ?_ <;> intro a ha
      · exact (hT a ha).1
      · exact (hT a ha).2.1
      · exact (hT a ha).2.2
  · intro sr hrows hne hc
    have hm : (sr.dim, sr.index) ∈ [(sr.dim, sr.index)] := by simp
    refine skip_fails c enc sr.dim hc sr.index ⟨[sr.dim], sr.values.map fun a => [a], nan, 0⟩ rfl (by simpa using hrows)
      (by simpa using hne) f split rng params state sig hs (toSeries [(sr.dim, sr.index)]) [] ?_ ?_ ?_ <;> intro a ha
    · simp [toSeries, (toDataArray_head _ sr.dim _ hm a ha).1 [] (by simp), bind, Except.bind]
    · simp [toSeries, (toDataArray_head _ sr.dim _ hm a ha).1 [] (by simp), bind, Except.bind]
    · simp [toSeries, (toDataArray_head _ sr.dim _ hm a ha).2, bind, Except.bind]

/-- C88: on a Dataset the default `format_dims=()` never works: as soon as the run succeeds, formatting raises IndexError,
for every module with at least one output. -/
theorem C88_dataset_default_raises (c : Config T) (enc : String → Option (Enc A)) (ds : Dataset T A) (coords : Coords L)
    (f : Transformed P S R (List (String × Cell A)) O) (split : R → R × R) (skip : Bool) (rng : Option R)
    (params : Option P) (state : Option S) (sig : PyTree (List Nat × (O → X))) (hs : sig.leaves ≠ [])
    (outs : List O) (s : S) (hrun : streamApply c enc ds f split skip rng params state = .ok (outs, s)) :
    datasetApply c enc ds coords f split skip rng params state sig none = .error .index := by
  unfold datasetApply accessorApply
  rw [hrun]
  have hne : (stackTree sig outs).treedef ≠ (PyTree.node .tuple [] : PyTree DimLeaf).treedef := by
    rw [stackTree_treedef]
    intro h
    have := leaves_length_of_treedef _ _ h
    simp only [PyTree.leaves, leavesList, List.length_nil, List.length_eq_zero_iff] at this
    exact hs this
  have := (C87_shared_dims coords (stackTree sig outs) [] (fun as h hl => by
    rw [List.length_nil, List.length_eq_zero_iff] at hl
    subst hl
    exact hne (by rw [h]; rfl))).2 (by
      obtain ⟨l0, hl0⟩ := List.exists_mem_of_ne_nil _ hs
      refine ⟨⟨outs.length :: l0.1, outs.map l0.2⟩, ?_, ?_⟩
      · rw [stackTree_leaves]
        exact List.mem_map.2 ⟨l0, hl0, rfl⟩
      · rintro ⟨h, _⟩
        simp at h)
  have e : dimsTuple [] = (PyTree.node .tuple [] : PyTree DimLeaf) := rfl
  rw [e] at this
  simp only [Option.getD_none, formatOrReduce, this, reducedDims]

/-! ### Tuples of one or two outputs -/

theorem toDataframe_str (r c : String) (rl cl : List L) (a : Arr α) (h : ¬ c.toList <:+: r.toList) :
    toDataframe [(r, rl), (c, cl)] 1 a (.leaf (.str r)) = toDataframe [(r, rl), (c, cl)] 1 a (dimsTuple [r]) := by
  have hr : r.toList <:+: r.toList := List.infix_rfl
  have hrc : c ≠ r := by rintro rfl; exact h List.infix_rfl
  have e : toDataArray [(r, rl), (c, cl)] a (.leaf (.str r)) = toDataArray [(r, rl), (c, cl)] a (dimsTuple [r]) := by
    simp only [toDataArray, dimsOf_tuple]
    simp [dimsOf, bind, Except.bind, h, hr, hrc]
  simp only [toDataframe, e]

theorem toDataframe_str' (r c : String) (rl cl : List L) (a : Arr α) (h : ¬ r.toList <:+: c.toList) :
    toDataframe [(r, rl), (c, cl)] 1 a (.leaf (.str c)) = toDataframe [(r, rl), (c, cl)] 1 a (dimsTuple [c]) := by
  have hr : c.toList <:+: c.toList := List.infix_rfl
  have hrc : r ≠ c := by rintro rfl; exact h List.infix_rfl
  have e : toDataArray [(r, rl), (c, cl)] a (.leaf (.str c)) = toDataArray [(r, rl), (c, cl)] a (dimsTuple [c]) := by
    simp only [toDataArray, dimsOf_tuple]
    simp [dimsOf, bind, Except.bind, h, hr, hrc]
  simp only [toDataframe, e]

theorem toDataframe_col (r c : String) (hrc : r ≠ c) (rl cl : List L) (a : Arr α) :
    (a.shape = [cl.length] → toDataframe [(r, rl), (c, cl)] 1 a (dimsTuple [c]) = .ok (.series [(c, some cl)] a)) ∧
    (a.shape ≠ [cl.length] → toDataframe [(r, rl), (c, cl)] 1 a (dimsTuple [c]) = .error .value) := by
  have h := toDataArray_eq [(r, rl), (c, cl)] a _ [c] (dimsOf_tuple [c])
  have hf : Fits [(r, rl), (c, cl)] [c] a.shape ↔ a.shape = [cl.length] := by
    constructor
    · rintro ⟨h1, h2⟩
      have e1 := h2 c cl (by simp) (by simp)
      match hsh : a.shape, h1 with
      | [k], _ =>
        rw [hsh] at e1
        simp only [List.zip_cons_cons, List.zip_nil_right, List.mem_cons, Prod.mk.injEq, List.not_mem_nil, or_false,
          true_and] at e1
        rw [e1]
    · intro ha
      rw [ha]
      refine ⟨rfl, fun n labels hm hn => ?_⟩
      simp only [List.mem_cons, Prod.mk.injEq, List.not_mem_nil, or_false] at hm hn
      rcases hm with ⟨rfl, rfl⟩ | ⟨rfl, rfl⟩
      · exact absurd hn hrc
      · simp
  have hcr : (c == r) = false := by simpa using hrc.symm
  rw [hf] at h
  constructor
  · intro ha
    simp [toDataframe, h.1 ha, bind, Except.bind, DataArray.axes, labelsFor, List.lookup_cons, hrc]
  · intro ha
    simp [toDataframe, h.2 ha, bind, Except.bind]

/-- C88, a defect: a module that returns a *pair* of arrays, on a data frame, with the default `format_dims`.  The two names
of the axes are taken as one name for each output: two scalar outputs become two series on the index, unless there are as
many dates as columns, in which case the second one is labelled with the columns; and any other pair, such as two outputs with
one entry per column, is a ValueError (while any other nesting of such outputs is accepted, `C88_dataframe`). -/
theorem C88_pair (c : Config T) (enc : String → Option (Enc A)) (nan : A) (df : Frame T L A) (hdf : IsFrame df)
    (hc : FrameConfig c enc df.rowDim) (hs1 : ¬ df.rowDim.toList <:+: df.colDim.toList)
    (hs2 : ¬ df.colDim.toList <:+: df.rowDim.toList) (f : Transformed P S R (List A) O) (split : R → R × R) (rng : Option R)
    (params : Option P) (state : Option S) (outs : List O) (s : S)
    (hu : unroll f split false true rng params state df.rows = .ok (outs, s))
    (l1 l2 : List Nat × (O → X)) :
    dataframeApply c enc nan df f split false rng params state (leafTuple [l1, l2]) none =
      if l1.1 = [] ∧ l2.1 = [] then
        .ok (leafTuple [.series [(df.rowDim, some (df.index.map .inl))] ⟨[df.index.length], outs.map l1.2⟩,
          .series [if df.index.length = df.columns.length then (df.colDim, some (df.columns.map .inr))
            else (df.rowDim, some (df.index.map .inl))] ⟨[df.index.length], outs.map l2.2⟩], s)
      else .error .value := by
  have hlen : outs.length = df.index.length := by
    rw [unroll_length _ _ _ _ _ _ _ _ _ hu, ← hdf.rows]; rfl
  have hres : dataframeApply c enc nan df f split false rng params state (leafTuple [l1, l2]) none =
      accessorApply c enc (df.dataset nan) (moduleDataset f) split false rng params state (leafTuple [l1, l2])
      (formatWith (toDataframe df.coords 1)) (dimsTuple [df.rowDim, df.colDim]) :=
    accessorApply_congr c enc _ _ split false rng params state _ _ _ _
      fun t => formatOrReduce_frame df.coords 1 t df.rowDim [df.colDim]
  rw [hres]
  have hres2 := accessor_unroll c enc df.rowDim hc df.index ⟨[df.rowDim, df.colDim], df.rows, nan, 0⟩ rfl hdf.rows f split
    false rng params state outs s hu (leafTuple [l1, l2]) (formatWith (toDataframe df.coords 1))
    (dimsTuple [df.rowDim, df.colDim])
  refine hres2.trans ?_
  have hst : stackTree (leafTuple [l1, l2]) outs =
      leafTuple [⟨df.index.length :: l1.1, outs.map l1.2⟩, ⟨df.index.length :: l2.1, outs.map l2.2⟩] := by
    unfold stackTree
    rw [leafTuple_map, hlen]
    rfl
  rw [hst]
  generalize ha1 : (⟨df.index.length :: l1.1, outs.map l1.2⟩ : Arr (List X)) = a1
  generalize ha2 : (⟨df.index.length :: l2.1, outs.map l2.2⟩ : Arr (List X)) = a2
  have hA : formatWith (toDataframe df.coords 1) (leafTuple [a1, a2]) (dimsTuple [df.rowDim, df.colDim]) =
      match toDataframe df.coords 1 a1 (dimsTuple [df.rowDim]) with
      | .error e => .error e
      | .ok x1 => match toDataframe df.coords 1 a2 (dimsTuple [df.colDim]) with
        | .error e => .error e
        | .ok x2 => .ok (leafTuple [x1, x2]) := by
    have ht : (leafTuple [a1, a2]).treedef = (dimsTuple [df.rowDim, df.colDim]).treedef := rfl
    unfold formatWith
    rw [if_pos ht, leafTuple_dims, leafTuple_leaves, leafTuple_leaves]
    simp only [List.map_cons, List.map_nil, List.zip_cons_cons, List.zip_nil_right, List.mapM_cons, List.mapM_nil, bind,
      Except.bind, pure, Except.pure, Frame.coords]
    rw [toDataframe_str _ _ _ _ _ hs2, toDataframe_str' _ _ _ _ _ hs1]
    cases toDataframe [(df.rowDim, List.map Sum.inl df.index), (df.colDim, List.map Sum.inr df.columns)] 1 a1
        (dimsTuple [df.rowDim]) with
    | error e => rfl
    | ok x1 =>
      cases toDataframe [(df.rowDim, List.map Sum.inl df.index), (df.colDim, List.map Sum.inr df.columns)] 1 a2
          (dimsTuple [df.colDim]) with
      | error e => rfl
      | ok x2 => rfl
  have h1 : ∀ a : Arr (List X), _ := fun a => toDataframe_one df.rowDim df.colDim hdf.names
    (df.index.map (Sum.inl (β := L))) (df.columns.map (Sum.inr (α := T))) a
  have hcol : ∀ a : Arr (List X), _ := fun a => toDataframe_col df.rowDim df.colDim hdf.names
    (df.index.map (Sum.inl (β := L))) (df.columns.map (Sum.inr (α := T))) a
  simp only [List.length_map] at h1 hcol
  have hB := formatWith_shared (toDataframe df.coords 1) (leafTuple [a1, a2]) (dimsTuple [df.rowDim])
    (treedef_ne_tuple _ _ fun as h => by
      have := congrArg PyTree.leaves h
      rw [leafTuple_leaves, leafTuple_leaves] at this
      rw [← this]; simp) _ _ (fun a => (h1 a).1) (fun a => (h1 a).2)
  rw [leafTuple_leaves] at hB
  simp only [List.mem_cons, List.not_mem_nil, or_false, forall_eq_or_imp, forall_eq, exists_eq_or_imp, exists_eq_left,
    leafTuple_map, List.map_cons, List.map_nil] at hB
  have e1 : a1.shape = [df.index.length] ↔ l1.1 = [] := by rw [← ha1]; simp
  have e2 : a2.shape = [df.index.length] ↔ l2.1 = [] := by rw [← ha2]; simp
  unfold formatOrReduce
  rw [hA, reduced_tuple]
  by_cases c1 : l1.1 = []
  · have f1 := (h1 a1).1 (e1.2 c1)
    rw [show toDataframe df.coords 1 a1 (dimsTuple [df.rowDim]) = _ from f1]
    by_cases c2 : l2.1 = []
    · rw [if_pos ⟨c1, c2⟩]
      by_cases hn : df.index.length = df.columns.length
      · have f2 := (hcol a2).1 (by rw [← hn]; exact e2.2 c2)
        rw [show toDataframe df.coords 1 a2 (dimsTuple [df.colDim]) = _ from f2]
        rw [if_pos hn]
        simp only [← ha1, ← ha2, c1, c2]
      · have f2 := (hcol a2).2 (by
          rw [e2.2 c2]; simpa using hn)
        rw [show toDataframe df.coords 1 a2 (dimsTuple [df.colDim]) = _ from f2]
        simp only
        rw [hB.1 ⟨e1.2 c1, e2.2 c2⟩, if_neg hn]
        simp only [← ha1, ← ha2, c1, c2]
    · rw [if_neg (fun h => c2 h.2)]
      have f2 := (hcol a2).2 (by rw [← ha2]; simp [c2])
      rw [show toDataframe df.coords 1 a2 (dimsTuple [df.colDim]) = _ from f2]
      simp only
      rw [hB.2 (.inr fun h => c2 (e2.1 h))]
  · rw [if_neg (fun h => c1 h.1)]
    have f1 := (h1 a1).2 (fun h => c1 (e1.1 h))
    rw [show toDataframe df.coords 1 a1 (dimsTuple [df.rowDim]) = _ from f1]
    simp only
    rw [hB.2 (.inl fun h => c1 (e1.1 h))]

/-- A frame for the examples. -/
def demoFrame : Frame Nat String Nat := ⟨"time", "col", [10, 20, 30], ["a", "b"], [[1, 2], [3, 4], [5, 6]]⟩

/-- Running sum of a row. -/
def demoSum : Mealy Nat (List Nat) Nat := ⟨0, fun s x => (s + x.sum, s + x.sum)⟩

example : IsFrame demoFrame := ⟨rfl, by simp [demoFrame], by decide⟩
example : FrameConfig (A := Nat) (⟨"", fun _ => id, fun _ => true, fun _ => none⟩ : Config Nat) (fun _ => none) "time" :=
  ⟨.inl rfl, rfl⟩
example : dataframeApply (R := Unit) ⟨"", fun _ => id, fun _ => true, fun _ => none⟩ (fun _ => none) 0 demoFrame
    (haikuTransformed demoSum) (fun r => (r, r)) false none none none (.leaf ([], id)) none =
    .ok (.leaf (.series [("time", some [.inl 10, .inl 20, .inl 30])] ⟨[3], [3, 10, 21]⟩), 21) := by rfl
example : dataframeApply (R := Unit) ⟨"", fun _ => id, fun _ => true, fun _ => none⟩ (fun _ => none) 0 demoFrame
    (haikuTransformed demoSum) (fun r => (r, r)) true none none none (.leaf ([], id)) none = .error .value := by rfl

end

/-! ## C89: formatting by shape -/

theorem take_find (sh shape : List Nat) :
    ((List.range (sh.length + 1)).find? fun i => sh.take i == shape) =
      if shape <+: sh then some shape.length else none := by
  by_cases h : shape <+: sh
  · rw [if_pos h, List.find?_range_eq_some]
    have hl := h.length_le
    refine ⟨?_, by simp; omega, fun j hj => ?_⟩
    · rw [beq_iff_eq]
      exact (List.prefix_iff_eq_take.1 h).symm
    · simp only [Bool.not_eq_true', beq_eq_false_iff_ne, ne_eq]
      intro he
      have := congrArg List.length he
      simp only [List.length_take] at this
      omega
  · rw [if_neg h, List.find?_eq_none]
    intro i _ he
    rw [beq_iff_eq] at he
    exact h (he ▸ List.take_prefix i sh)

/-- C89: which dimensions `auto_format_with_shape` chooses: those of the *first* variable of the dataset whose shape starts
with the shape of the data; none if there is no such variable. -/
theorem C89_auto_dims (vars : List (List String × List Nat)) (shape : List Nat) :
    (autoDims vars shape = none ↔ ∀ v ∈ vars, ¬ shape <+: v.2) ∧
    (∀ ds, autoDims vars shape = some ds ↔ ∃ before v after, vars = before ++ v :: after ∧
      (∀ u ∈ before, ¬ shape <+: u.2) ∧ shape <+: v.2 ∧ ds = v.1.take shape.length) := by
  induction vars with
  | nil => simp [autoDims]
  | cons v vars ih =>
    obtain ⟨dims, sh⟩ := v
    simp only [autoDims, take_find]
    by_cases h : shape <+: sh
    · simp only [if_pos h]
      constructor
      · simp [h]
      · intro ds
        simp only [Option.some.injEq]
        constructor
        · intro e
          exact ⟨[], (dims, sh), vars, rfl, by simp, h, e.symm⟩
        · rintro ⟨before, v, after, e, hb, hv, hd⟩
          cases before with
          | nil => simp only [List.nil_append, List.cons.injEq] at e; rw [hd, ← e.1]
          | cons u before =>
            simp only [List.cons_append, List.cons.injEq] at e
            have h' := hb u List.mem_cons_self
            rw [← e.1] at h'
            exact absurd h h'
    · simp only [if_neg h]
      constructor
      · rw [ih.1]; simp [h]
      · intro ds
        rw [ih.2 ds]
        constructor
        · rintro ⟨before, v, after, e, hb, hv, hd⟩
          refine ⟨(dims, sh) :: before, v, after, by rw [e]; rfl, ?_, hv, hd⟩
          intro u hu
          rcases List.mem_cons.1 hu with rfl | hu
          · exact h
          · exact hb u hu
        · rintro ⟨before, v, after, e, hb, hv, hd⟩
          cases before with
          | nil =>
            simp only [List.nil_append, List.cons.injEq] at e
            have hv' := hv
            rw [← e.1] at hv'
            exact absurd hv' h
          | cons u before =>
            simp only [List.cons_append, List.cons.injEq] at e
            exact ⟨before, v, after, e.2, fun w hw => hb w (List.mem_cons_of_mem _ hw), hv, hd⟩

/-- What xarray guarantees of the reference dataset: one size per dimension, that of its coordinate. -/
def Consistent (coords : Coords L) (vars : List (List String × List Nat)) : Prop :=
  ∀ v ∈ vars, v.1.length = v.2.length ∧ v.1.Nodup ∧
    ∀ n labels, (n, labels) ∈ coords → n ∈ v.1 → (n, labels.length) ∈ v.1.zip v.2

/-- C89: against a consistent dataset, formatting by shape never fails: the data gets the dimensions above with their
coordinates; scalars, and data for which no variable matches, are returned as they are. -/
theorem C89_auto_format (coords : Coords L) (vars : List (List String × List Nat)) (hcons : Consistent coords vars)
    (a : Arr α) :
    (a.shape = [] → autoFormat coords vars a = .ok (.inl a)) ∧
    ((∀ v ∈ vars, ¬ a.shape <+: v.2) → autoFormat coords vars a = .ok (.inl a)) ∧
    (∀ before v after, vars = before ++ v :: after → (∀ u ∈ before, ¬ a.shape <+: u.2) → a.shape <+: v.2 →
      a.shape ≠ [] → autoFormat coords vars a =
        .ok (.inr ⟨a, v.1.take a.shape.length, labelsFor coords (v.1.take a.shape.length)⟩)) := by
  have H := C89_auto_dims vars a.shape
  refine ⟨fun h => ?_, fun h => ?_, fun before v after e hb hv hne => ?_⟩
  · unfold autoFormat
    cases hd : autoDims vars a.shape with
    | none => rfl
    | some ds =>
      obtain ⟨_, v, _, _, _, _, e⟩ := (H.2 ds).1 hd
      rw [h] at e
      simp at e
      subst e
      rfl
  · unfold autoFormat
    rw [H.1.2 h]
  · have hd := (H.2 _).2 ⟨before, v, after, e, hb, hv, rfl⟩
    have hvm : v ∈ vars := by rw [e]; simp
    obtain ⟨c1, c2, c3⟩ := hcons v hvm
    have hlen := hv.length_le
    have hk : 0 < a.shape.length := List.length_pos_iff.2 hne
    have hfit : Fits coords (v.1.take a.shape.length) a.shape := by
      refine ⟨by simp; omega, fun n labels hm hn => ?_⟩
      have hz := c3 n labels hm (List.mem_of_mem_take hn)
      rw [List.mem_iff_getElem?] at hz
      obtain ⟨i, hi⟩ := hz
      rw [List.zip_eq_zipWith, List.getElem?_zipWith] at hi
      cases h1 : v.1[i]? with
      | none => simp [h1] at hi
      | some n' =>
        cases h2 : v.2[i]? with
        | none => simp [h1, h2] at hi
        | some k =>
          simp only [h1, h2, Option.some.injEq, Prod.mk.injEq] at hi
          obtain ⟨rfl, rfl⟩ := hi
          obtain ⟨j, hj⟩ := List.mem_iff_getElem?.1 hn
          rw [List.getElem?_take] at hj
          split at hj
          · next hjk =>
            have hij : i = j := by
              obtain ⟨b1, b2⟩ := List.getElem?_eq_some_iff.1 h1
              obtain ⟨b3, b4⟩ := List.getElem?_eq_some_iff.1 hj
              exact (List.Nodup.getElem_inj_iff c2).1 (b2.trans b4.symm)
            subst hij
            rw [List.mem_iff_getElem?]
            refine ⟨i, ?_⟩
            rw [List.zip_eq_zipWith, List.getElem?_zipWith, List.getElem?_take, if_pos hjk, h1]
            have : a.shape[i]? = some labels.length := by
              rw [List.prefix_iff_eq_take.1 hv, List.getElem?_take, if_pos hjk, h2]
            rw [this]
          · cases hj
    have hds : ∃ s l, v.1.take a.shape.length = s :: l := by
      cases hh : v.1.take a.shape.length with
      | nil =>
        have := congrArg List.length hh
        simp only [List.length_take, List.length_nil] at this
        omega
      | cons s l => exact ⟨s, l, rfl⟩
    obtain ⟨s, l, hsl⟩ := hds
    have hf := (C87_shared_dims coords (.leaf a) (s :: l) (fun as h => by simp [leafTuple] at h)).1 (by
      intro b hb
      simp only [PyTree.leaves, List.mem_singleton] at hb
      rw [hb, ← hsl]; exact hfit)
    unfold autoFormat
    rw [hd, hsl]
    simp only [hf, PyTree.map]

/-- C89: on a nested structure every array is treated on its own. -/
theorem C89_tree (coords : Coords L) (vars : List (List String × List Nat)) (t : PyTree (Arr α))
    (g : Arr α → Arr α ⊕ DataArray α L) (hg : ∀ a ∈ t.leaves, autoFormat coords vars a = .ok (g a)) :
    treeAutoFormat coords vars t = .ok (t.map g) := by
  unfold treeAutoFormat
  rw [mapM_ok _ g _ hg]
  simp only [rebuild_map]

/-- C89, ambiguity: with two dimensions of equal size the shape does not say which one is meant; the order of the variables
decides. -/
theorem C89_ambiguous (a : Arr α) (h : a.shape = [2]) :
    autoFormat (L := Nat) [("x", [1, 2]), ("y", [3, 4])] [(["x"], [2]), (["y"], [2])] a =
      .ok (.inr ⟨a, ["x"], [("x", [1, 2])]⟩) ∧
    autoFormat (L := Nat) [("x", [1, 2]), ("y", [3, 4])] [(["y"], [2]), (["x"], [2])] a =
      .ok (.inr ⟨a, ["y"], [("y", [3, 4])]⟩) := by
  obtain ⟨sh, d⟩ := a
  simp only at h
  subst h
  exact ⟨rfl, rfl⟩

example : Consistent (L := Nat) [("x", [1, 2]), ("y", [3, 4, 5])] [(["x", "y"], [2, 3])] := by
  intro v hv
  simp only [List.mem_singleton] at hv
  subst hv
  refine ⟨rfl, by decide, fun n labels hm hn => ?_⟩
  simp only [List.mem_cons, Prod.mk.injEq, List.not_mem_nil, or_false] at hm
  rcases hm with ⟨rfl, rfl⟩ | ⟨rfl, rfl⟩ <;> simp

/-! ## C90: `ewm(...).mean()` -/

theorem rowMachine_column {S I O : Type} (m : Mealy S I O) (n : Nat) (rows : List (List I))
    (hw : ∀ r ∈ rows, r.length = n) (j : Nat) (hj : j < n) (di : I) (d : O) :
    ((rowMachine m n).run rows).map (fun r => r.getD j d) = m.run (rows.map fun r => r.getD j di) ∧
    ((rowMachine m n).stateAfter rows)[j]? = some (m.stateAfter (rows.map fun r => r.getD j di)) ∧
    ((rowMachine m n).stateAfter rows).length = n ∧ ∀ r ∈ (rowMachine m n).run rows, r.length = n := by
  have key : ∀ (rows : List (List I)) (ss : List S), (∀ r ∈ rows, r.length = n) → ∀ s, ss.length = n → ss[j]? = some s →
      (((rowMachine m n).outsFrom ss rows).map (fun r => r.getD j d) = m.outsFrom s (rows.map fun r => r.getD j di) ∧
      ((rowMachine m n).stateFrom ss rows)[j]? = some (m.stateFrom s (rows.map fun r => r.getD j di))) ∧
      ((rowMachine m n).stateFrom ss rows).length = n ∧ ∀ r ∈ (rowMachine m n).outsFrom ss rows, r.length = n := by
    intro rows
    induction rows with
    | nil => intro ss _ s hl hs; exact ⟨⟨rfl, hs⟩, hl, by simp⟩
    | cons r rows ih =>
      intro ss hw s hl hs
      have hr : r.length = n := hw r List.mem_cons_self
      have hrj : r[j]? = some (r.getD j di) := by
        rw [List.getD_eq_getElem?_getD, List.getElem?_eq_getElem (by omega)]; rfl
      have h1 : ((rowMachine m n).step ss r).1.getD j d = (m.step s (r.getD j di)).1 := by
        generalize r.getD j di = x at hrj
        rw [List.getD_eq_getElem?_getD]
        simp [rowMachine, List.getElem?_zipWith, hs, hrj]
      have h2 : ((rowMachine m n).step ss r).2[j]? = some (m.step s (r.getD j di)).2 := by
        generalize r.getD j di = x at hrj
        simp [rowMachine, List.getElem?_zipWith, hs, hrj]
      have h3 : ((rowMachine m n).step ss r).2.length = n := by simp [rowMachine, hl, hr]
      have h4 : ((rowMachine m n).step ss r).1.length = n := by simp [rowMachine, hl, hr]
      obtain ⟨⟨i1, i2⟩, i3, i4⟩ := ih ((rowMachine m n).step ss r).2 (fun r hr => hw r (List.mem_cons_of_mem _ hr)) _ h3 h2
      simp only [Mealy.outsFrom_cons, Mealy.stateFrom_cons, List.map_cons, List.cons.injEq]
      refine ⟨⟨⟨h1, i1⟩, i2⟩, i3, ?_⟩
      intro r' hr'
      rcases List.mem_cons.1 hr' with rfl | hr'
      · exact h4
      · exact i4 r' hr'
  have := key rows (List.replicate n m.init) hw m.init (by simp) (by simp [hj])
  exact ⟨this.1.1, this.1.2, this.2⟩

theorem ewmaValue_run {K : Type} [Field K] [LinearOrder K] (cfg : Model.EWMACfg K) (xs : List (Fl K)) :
    (ewmaValue cfg).run xs = ((Model.ewma cfg).run xs).map (·.value) := by
  have : ∀ s, (ewmaValue cfg).outsFrom s xs = ((Model.ewma cfg).outsFrom s xs).map (·.value) := by
    induction xs with
    | nil => intro s; rfl
    | cons x xs ih =>
      intro s
      simp only [Mealy.outsFrom_cons, List.map_cons]
      exact congrArg₂ List.cons rfl (ih _)
  exact this _

section
variable {T K R : Type} [LinearOrder T] [Field K] [LinearOrder K] [IsStrictOrderedRing K] [Inhabited K]

/-- C90: `df.wax.ewm(...).mean()` has the index and the columns of the frame, and each of its columns is the EWMA of the
corresponding column of the frame alone. -/
theorem C90_ewm_frame (c : Config T) (com alpha : Option K) (cfg : Model.EWMACfg K) (v : K)
    (hcom : Model.ewmaCom com alpha = .ok v) (df : Frame T L (Fl K)) (hdf : IsFrame df)
    (hw : ∀ r ∈ df.rows, r.length = df.columns.length) (hc : c.localTime = "" ∨ c.localTime = df.rowDim)
    (split : R → R × R) :
    ∃ out s, ewmMeanFrame c com alpha cfg df split = .ok (.leaf (.frame [(df.rowDim, some (df.index.map .inl))]
        [(df.colDim, some (df.columns.map .inr))] ⟨[df.index.length, df.columns.length], out⟩), s) ∧
      (∀ r ∈ out, r.length = df.columns.length) ∧
      ∀ j, j < df.columns.length → out.map (fun r => r.getD j Fl.nan) =
        ((Model.ewma { cfg with com := v }).run (df.rows.map fun r => r.getD j Fl.nan)).map (·.value) := by
  refine ⟨(rowMachine (ewmaValue { cfg with com := v }) df.columns.length).run df.rows,
    (rowMachine (ewmaValue { cfg with com := v }) df.columns.length).stateAfter df.rows, ?_, ?_, ?_⟩
  · unfold ewmMeanFrame
    rw [hcom]
    letI : Inhabited (Fl K) := ⟨Fl.nan⟩
    exact C88_dataframe_module c (fun _ => none) Fl.nan df hdf ⟨hc, rfl⟩ _ split none
  · intro r hr
    by_cases h0 : df.columns.length = 0
    · have : ∀ (rows : List (List (Fl K))) ss, ss.length = df.columns.length →
          ∀ r ∈ (rowMachine (ewmaValue { cfg with com := v }) df.columns.length).outsFrom ss rows, r.length = df.columns.length := by
        intro rows
        induction rows with
        | nil => intro ss _ r hr; simp at hr
        | cons x rows ih =>
          intro ss hss r hr
          rw [Mealy.outsFrom_cons] at hr
          rcases List.mem_cons.1 hr with rfl | hr
          · simp [rowMachine, hss, h0]
          · exact ih _ (by simp [rowMachine, hss, h0]) r hr
      exact this _ _ (by simp [rowMachine]) r hr
    · exact (rowMachine_column (ewmaValue { cfg with com := v }) df.columns.length df.rows hw 0 (by omega) Fl.nan Fl.nan).2.2.2 r hr
  · intro j hj
    rw [(rowMachine_column (ewmaValue { cfg with com := v }) df.columns.length df.rows hw j hj Fl.nan Fl.nan).1, ewmaValue_run]

/-- C90: with `adjust=True` and `alpha`, the cell at date `t` and column `j` is the exponentially weighted mean of the values of
column `j` up to `t` (NaN until `min_periods` observations), as in pandas. -/
theorem C90_ewm_cell (c : Config T) (α : K) (h0 : 0 < α) (h1 : α < 1) (cfg : Model.EWMACfg K) (ha : cfg.adjust = .yes)
    (df : Frame T L (Fl K)) (hdf : IsFrame df)
    (hw : ∀ r ∈ df.rows, r.length = df.columns.length) (hc : c.localTime = "" ∨ c.localTime = df.rowDim)
    (split : R → R × R) :
    ∃ out s, ewmMeanFrame c none (some α) cfg df split = .ok (.leaf (.frame [(df.rowDim, some (df.index.map .inl))]
        [(df.colDim, some (df.columns.map .inr))] ⟨[df.index.length, df.columns.length], out⟩), s) ∧
      ∀ t j, t < df.rows.length → j < df.columns.length →
        let column := (df.rows.take (t + 1)).map fun r => r.getD j Fl.nan
        let hist := Spec.readings cfg.big cfg.initial column
        ∃ r, out[t]? = some r ∧ r[j]? = some
          (if (Spec.observed (column.map (Spec.reading cfg.big))).length < cfg.minPeriods then Fl.nan
            else Spec.toFl (Spec.expMean (1 - α) (if cfg.ignoreNa then (Spec.observed hist).map some else hist))) := by
  have hcom : Model.ewmaCom none (some α) = .ok (1 / α - 1) := rfl
  obtain ⟨out, s, e, hlen, hcol⟩ := C90_ewm_frame c none (some α) cfg (1 / α - 1) hcom df hdf hw hc split
  refine ⟨out, s, e, fun t j ht hj => ?_⟩
  have hr := hcol j hj
  obtain ⟨o, ho, hn, hv⟩ := C16_ewma_adjust { cfg with com := 1 / α - 1 } α h0 h1 hcom ha
    (df.rows.map fun r => r.getD j Fl.nan) t (by simpa using ht)
  have hget := congrArg (fun l => l[t]?) hr
  simp only [List.getElem?_map, ho, Option.map_some] at hget
  cases hot : out[t]? with
  | none => rw [hot] at hget; cases hget
  | some r =>
    rw [hot] at hget
    simp only [Option.map_some, Option.some.injEq] at hget
    refine ⟨r, rfl, ?_⟩
    have hrl : r.length = df.columns.length := hlen r (List.mem_of_getElem? hot)
    rw [List.getD_eq_getElem?_getD, List.getElem?_eq_getElem (by omega)] at hget
    rw [List.getElem?_eq_getElem (by omega : j < r.length)]
    simp only [Option.getD_some] at hget
    rw [hget, hv, ← List.map_take]

/-- C90: on a series, `ewm(...).mean()` is the EWMA of the series on the same index. -/
theorem C90_ewm_series (c : Config T) (com alpha : Option K) (cfg : Model.EWMACfg K) (v : K)
    (hcom : Model.ewmaCom com alpha = .ok v) (sr : Ser T (Fl K)) (hl : sr.values.length = sr.index.length)
    (hne : sr.values ≠ []) (hc : c.localTime = "" ∨ c.localTime = sr.dim) (split : R → R × R) :
    ∃ s, ewmMeanSeries c com alpha cfg sr split = .ok (.leaf (.series [(sr.dim, some sr.index)]
        ⟨[sr.index.length], ((Model.ewma { cfg with com := v }).run sr.values).map (·.value)⟩), s) := by
  letI : Inhabited (Fl K) := ⟨Fl.nan⟩
  refine ⟨(rowMachine (ewmaValue { cfg with com := v }) 1).stateAfter (sr.values.map fun a => [a]), ?_⟩
  unfold ewmMeanSeries
  rw [hcom]
  have hu := C37_unroll_haiku_module (R := R) (rowMachine (ewmaValue { cfg with com := v }) 1) split none
    (sr.values.map fun a => [a]) (by simpa using hne)
  have := (C88_series c (fun _ => none) Fl.nan sr hl ⟨hc, rfl⟩ _ split none none none _ _ hu
    (.leaf ([], fun r : List (Fl K) => r.headD Fl.nan)) (fun as h => by simp [leafTuple] at h)).1 (by simp [PyTree.leaves])
  refine this.trans ?_
  have hcol := (rowMachine_column (ewmaValue { cfg with com := v }) 1 (sr.values.map fun a => [a]) (by simp) 0 (by omega)
    Fl.nan Fl.nan).1
  rw [ewmaValue_run, List.map_map] at hcol
  have e1 : (sr.values.map ((fun r : List (Fl K) => r.getD 0 Fl.nan) ∘ fun a => [a])) = sr.values := by
    conv_rhs => rw [← List.map_id sr.values]
    rfl
  rw [e1] at hcol
  have e2 : (fun r : List (Fl K) => r.headD Fl.nan) = fun r => r.getD 0 Fl.nan := by
    funext r; cases r <;> rfl
  simp only [PyTree.map, e2, hcol]

end

example : Model.ewmaCom none (some (1 / 2 : ℚ)) = .ok 1 := by decide +kernel

end Verif.Props
