import Verif.Model.Snapshots

/-!
# C125: snapshots taken by the debugger are isolated from the live state
-/

namespace Verif.Props
open Verif.Model.Snapshots

mutual
/-- The identities of the objects in a tree that the owner of the live state can modify. -/
def objIds : Obj → List Nat
  | .scalar _ => []
  | .jax _ => []
  | .np i _ => i.toList
  | .tuple l => objIdsL l
  | .list i l => i.toList ++ objIdsL l
  | .dict i d => i.toList ++ objIdsD d
def objIdsL : List Obj → List Nat
  | [] => []
  | x :: xs => objIds x ++ objIdsL xs
def objIdsD : List (String × Obj) → List Nat
  | [] => []
  | (_, x) :: xs => objIds x ++ objIdsD xs
end

mutual
/-- The identities of the numpy arrays in a tree. -/
def npIds : Obj → List Nat
  | .scalar _ => []
  | .jax _ => []
  | .np i _ => i.toList
  | .tuple l => npIdsL l
  | .list _ l => npIdsL l
  | .dict _ d => npIdsD d
def npIdsL : List Obj → List Nat
  | [] => []
  | x :: xs => npIds x ++ npIdsL xs
def npIdsD : List (String × Obj) → List Nat
  | [] => []
  | (_, x) :: xs => npIds x ++ npIdsD xs
end

mutual
/-- The value of a tree: what is printed, identities forgotten. -/
def value : Obj → Obj
  | .scalar v => .scalar v
  | .jax v => .jax v
  | .np _ v => .np none v
  | .tuple l => .tuple (valueL l)
  | .list _ l => .list none (valueL l)
  | .dict _ d => .dict none (valueD d)
def valueL : List Obj → List Obj
  | [] => []
  | x :: xs => value x :: valueL xs
def valueD : List (String × Obj) → List (String × Obj)
  | [] => []
  | (k, x) :: xs => (k, value x) :: valueD xs
end

mutual
/-- The number of nodes of a tree. -/
def nodes : Obj → Nat
  | .scalar _ => 1
  | .jax _ => 1
  | .np _ _ => 1
  | .tuple l => 1 + nodesL l
  | .list _ l => 1 + nodesL l
  | .dict _ d => 1 + nodesD d
def nodesL : List Obj → Nat
  | [] => 0
  | x :: xs => nodes x + nodesL xs
def nodesD : List (String × Obj) → Nat
  | [] => 0
  | (_, x) :: xs => nodes x + nodesD xs
end

/-- Specification: whatever the owner of the live state assigns, the value of the snapshot stays the same. -/
def Isolated (snap : Obj) : Prop :=
  ∀ muts : List (Nat × Obj), value (muts.foldl (fun o m => Obj.assign m.1 m.2 o) snap) = value snap

mutual
theorem assign_of_not_mem (a : Nat) (new : Obj) : ∀ o : Obj, a ∉ objIds o → Obj.assign a new o = o
  | .scalar _, _ => rfl
  | .jax _, _ => rfl
  | .np i v, h => by
    cases i with
    | none => simp [Obj.assign]
    | some b => simp only [objIds, Option.toList_some, List.mem_singleton] at h; simp [Obj.assign, Ne.symm h]
  | .tuple l, h => by rw [Obj.assign, assignL_of_not_mem a new l (by simpa [objIds] using h)]
  | .list i l, h => by
    simp only [objIds, List.mem_append, not_or] at h
    have hi : i ≠ some a := by rintro rfl; simp at h
    rw [Obj.assign, if_neg hi, assignL_of_not_mem a new l h.2]
  | .dict i d, h => by
    simp only [objIds, List.mem_append, not_or] at h
    have hi : i ≠ some a := by rintro rfl; simp at h
    rw [Obj.assign, if_neg hi, assignD_of_not_mem a new d h.2]
theorem assignL_of_not_mem (a : Nat) (new : Obj) : ∀ l : List Obj, a ∉ objIdsL l → assignL a new l = l
  | [], _ => rfl
  | x :: xs, h => by
    simp only [objIdsL, List.mem_append, not_or] at h
    rw [assignL, assign_of_not_mem a new x h.1, assignL_of_not_mem a new xs h.2]
theorem assignD_of_not_mem (a : Nat) (new : Obj) : ∀ d : List (String × Obj), a ∉ objIdsD d → assignD a new d = d
  | [], _ => rfl
  | (k, x) :: xs, h => by
    simp only [objIdsD, List.mem_append, not_or] at h
    rw [assignD, assign_of_not_mem a new x h.1, assignD_of_not_mem a new xs h.2]
end

mutual
theorem nodes_pos : ∀ o : Obj, 0 < nodes o
  | .scalar _ => by simp [nodes]
  | .jax _ => by simp [nodes]
  | .np _ _ => by simp [nodes]
  | .tuple _ => by simp [nodes]; omega
  | .list _ _ => by simp [nodes]; omega
  | .dict _ _ => by simp [nodes]; omega
end

mutual
theorem nodes_assign (a : Nat) (new : Obj) : ∀ o : Obj, a ∈ objIds o → nodes new ≤ nodes (Obj.assign a new o)
  | .scalar _, h => by simp [objIds] at h
  | .jax _, h => by simp [objIds] at h
  | .np i v, h => by
    cases i with
    | none => simp [objIds] at h
    | some b => simp only [objIds, Option.toList_some, List.mem_singleton] at h; simp [Obj.assign, h]
  | .tuple l, h => by
    rw [Obj.assign, nodes]
    have := nodesL_assign a new l (by simpa [objIds] using h)
    omega
  | .list i l, h => by
    rw [Obj.assign]
    split
    · exact Nat.le_refl _
    · rename_i hi
      have hm : a ∈ objIdsL l := by
        simp only [objIds, List.mem_append] at h
        rcases h with h | h
        · cases i with
          | none => simp at h
          | some b => simp only [Option.toList_some, List.mem_singleton] at h; exact absurd (by rw [h]) hi
        · exact h
      have := nodesL_assign a new l hm
      rw [nodes]; omega
  | .dict i d, h => by
    rw [Obj.assign]
    split
    · exact Nat.le_refl _
    · rename_i hi
      have hm : a ∈ objIdsD d := by
        simp only [objIds, List.mem_append] at h
        rcases h with h | h
        · cases i with
          | none => simp at h
          | some b => simp only [Option.toList_some, List.mem_singleton] at h; exact absurd (by rw [h]) hi
        · exact h
      have := nodesD_assign a new d hm
      rw [nodes]; omega
theorem nodesL_assign (a : Nat) (new : Obj) : ∀ l : List Obj, a ∈ objIdsL l → nodes new ≤ nodesL (assignL a new l)
  | [], h => by simp [objIdsL] at h
  | x :: xs, h => by
    simp only [objIdsL, List.mem_append] at h
    rw [assignL, nodesL]
    rcases h with h | h
    · have := nodes_assign a new x h; omega
    · have := nodesL_assign a new xs h; omega
theorem nodesD_assign (a : Nat) (new : Obj) : ∀ d : List (String × Obj), a ∈ objIdsD d → nodes new ≤ nodesD (assignD a new d)
  | [], h => by simp [objIdsD] at h
  | (k, x) :: xs, h => by
    simp only [objIdsD, List.mem_append] at h
    rw [assignD, nodesD]
    rcases h with h | h
    · have := nodes_assign a new x h; omega
    · have := nodesD_assign a new xs h; omega
end

mutual
theorem nodes_value : ∀ o : Obj, nodes (value o) = nodes o
  | .scalar _ => rfl
  | .jax _ => rfl
  | .np _ _ => rfl
  | .tuple l => by rw [value, nodes, nodes, nodesL_value l]
  | .list _ l => by rw [value, nodes, nodes, nodesL_value l]
  | .dict _ d => by rw [value, nodes, nodes, nodesD_value d]
theorem nodesL_value : ∀ l : List Obj, nodesL (valueL l) = nodesL l
  | [] => rfl
  | x :: xs => by rw [valueL, nodesL, nodesL, nodes_value x, nodesL_value xs]
theorem nodesD_value : ∀ d : List (String × Obj), nodesD (valueD d) = nodesD d
  | [] => rfl
  | (_, x) :: xs => by rw [valueD, nodesD, nodesD, nodes_value x, nodesD_value xs]
end

/-- A snapshot is isolated iff it contains no object that the owner of the live state can reach. -/
theorem isolated_iff (o : Obj) : Isolated o ↔ objIds o = [] := by
  constructor
  · intro h
    cases hi : objIds o with
    | nil => rfl
    | cons a l =>
      exfalso
      have ha : a ∈ objIds o := by rw [hi]; simp
      have h1 := nodes_assign a (.list none [o]) o ha
      have h2 := h [(a, .list none [o])]
      have h3 := congrArg nodes h2
      simp only [List.foldl_cons, List.foldl_nil, nodes_value] at h3
      rw [h3] at h1
      simp [nodes, nodesL] at h1
      omega
  · intro h muts
    have : muts.foldl (fun o m => Obj.assign m.1 m.2 o) o = o := by
      induction muts with
      | nil => rfl
      | cons m ms ih => rw [List.foldl_cons, assign_of_not_mem _ _ _ (by rw [h]; simp)]; exact ih
    rw [this]

mutual
theorem ids_copyTree : ∀ o : Obj, objIds o.copyTree = npIds o
  | .scalar _ => rfl
  | .jax _ => rfl
  | .np _ _ => rfl
  | .tuple l => by rw [Obj.copyTree, objIds, npIds, ids_copyL l]
  | .list _ l => by rw [Obj.copyTree, objIds, npIds, ids_copyL l]; rfl
  | .dict _ d => by rw [Obj.copyTree, objIds, npIds, ids_copyD d]; rfl
theorem ids_copyL : ∀ l : List Obj, objIdsL (Obj.copyTree.goL l) = npIdsL l
  | [] => rfl
  | x :: xs => by rw [Obj.copyTree.goL, objIdsL, npIdsL, ids_copyTree x, ids_copyL xs]
theorem ids_copyD : ∀ d : List (String × Obj), objIdsD (Obj.copyTree.goD d) = npIdsD d
  | [] => rfl
  | (_, x) :: xs => by rw [Obj.copyTree.goD, objIdsD, npIdsD, ids_copyTree x, ids_copyD xs]
end

mutual
theorem value_copyTree : ∀ o : Obj, value o.copyTree = value o
  | .scalar _ => rfl
  | .jax _ => rfl
  | .np _ _ => rfl
  | .tuple l => by rw [Obj.copyTree, value, value, value_copyL l]
  | .list _ l => by rw [Obj.copyTree, value, value, value_copyL l]
  | .dict _ d => by rw [Obj.copyTree, value, value, value_copyD d]
theorem value_copyL : ∀ l : List Obj, valueL (Obj.copyTree.goL l) = valueL l
  | [] => rfl
  | x :: xs => by rw [Obj.copyTree.goL, valueL, valueL, value_copyTree x, value_copyL xs]
theorem value_copyD : ∀ d : List (String × Obj), valueD (Obj.copyTree.goD d) = valueD d
  | [] => rfl
  | (_, x) :: xs => by rw [Obj.copyTree.goD, valueD, valueD, value_copyTree x, value_copyD xs]
end

mutual
theorem ids_shapes (shape : Obj → Int) : ∀ o : Obj, objIds (o.shapes shape) = []
  | .scalar _ => rfl
  | .jax _ => rfl
  | .np _ _ => rfl
  | .tuple l => by rw [Obj.shapes, objIds, ids_shapesL shape l]
  | .list _ l => by rw [Obj.shapes, objIds, ids_shapesL shape l]; rfl
  | .dict _ d => by rw [Obj.shapes, objIds, ids_shapesD shape d]; rfl
theorem ids_shapesL (shape : Obj → Int) : ∀ l : List Obj, objIdsL (Obj.shapes.goL shape l) = []
  | [] => rfl
  | x :: xs => by rw [Obj.shapes.goL, objIdsL, ids_shapes shape x, ids_shapesL shape xs]; rfl
theorem ids_shapesD (shape : Obj → Int) : ∀ d : List (String × Obj), objIdsD (Obj.shapes.goD shape d) = []
  | [] => rfl
  | (_, x) :: xs => by rw [Obj.shapes.goD, objIdsD, ids_shapes shape x, ids_shapesD shape xs]; rfl
end

/-- The part of a state whose values the history keeps: the "state" collection of a Flax state (a dictionary with "params" and
"state"), the whole of any other state. -/
def keptPart : Obj → Obj
  | .dict i d =>
    match d.lookup "params", d.lookup "state" with
    | some _, some s => s
    | _, _ => .dict i d
  | o => o

/-- C125: at the time it is taken, the history snapshot has the value of the state; for a Flax state it has the value of its
"state" collection, and only the shapes of the parameters. -/
theorem C125_history_value (shape : Obj → Int) (o : Obj) :
    (keptPart o = o ∧ value (historySnapshot shape o) = value o) ∨
    (∃ i d p s, o = .dict i d ∧ d.lookup "params" = some p ∧ d.lookup "state" = some s ∧
      value (historySnapshot shape o) = .dict none [("params_shapes", value (p.shapes shape)), ("state_values", value s)]) := by
  cases o with
  | scalar v => exact Or.inl ⟨rfl, rfl⟩
  | jax v => exact Or.inl ⟨rfl, rfl⟩
  | np i v => exact Or.inl ⟨rfl, rfl⟩
  | tuple l => exact Or.inl ⟨rfl, value_copyTree _⟩
  | list i l => exact Or.inl ⟨rfl, value_copyTree _⟩
  | dict i d =>
    cases hp : d.lookup "params" with
    | none => exact Or.inl ⟨by simp [keptPart, hp], by simp only [historySnapshot, hp]; exact value_copyTree _⟩
    | some p =>
      cases hs : d.lookup "state" with
      | none => exact Or.inl ⟨by simp [keptPart, hs], by simp only [historySnapshot, hp, hs]; exact value_copyTree _⟩
      | some s =>
        refine Or.inr ⟨i, d, p, s, rfl, hp, hs, ?_⟩
        simp only [historySnapshot, hp, hs]
        rw [value, valueD, valueD, valueD, value_copyTree]

/-- C125: exactly when is a snapshot of the state history isolated from the live state: iff the part it keeps contains no numpy
array (JAX arrays, numbers, tuples, lists and dictionaries, nested at will, are fine). -/
theorem C125_history_isolated_partial (shape : Obj → Int) (o : Obj) :
    Isolated (historySnapshot shape o) ↔ npIds (keptPart o) = [] := by
  rw [isolated_iff]
  cases o with
  | scalar v => exact Iff.rfl
  | jax v => exact Iff.rfl
  | np i v => exact Iff.rfl
  | tuple l => rw [historySnapshot, keptPart, ids_copyTree] <;> simp
  | list i l => rw [historySnapshot, keptPart, ids_copyTree] <;> simp
  | dict i d =>
    cases hp : d.lookup "params" with
    | none => simp only [historySnapshot, keptPart, hp]; rw [ids_copyTree]
    | some p =>
      cases hs : d.lookup "state" with
      | none => simp only [historySnapshot, keptPart, hp, hs]; rw [ids_copyTree]
      | some s =>
        simp only [historySnapshot, keptPart, hp, hs]
        simp [objIds, objIdsD, ids_shapes, ids_copyTree]

/-- C125: the inputs and outputs stored in a hook event are isolated iff they contain no numpy array, and have the right value. -/
theorem C125_data_isolated_partial (o : Obj) :
    value (dataSnapshot o) = value o ∧ (Isolated (dataSnapshot o) ↔ npIds o = []) :=
  ⟨value_copyTree o, by rw [isolated_iff, dataSnapshot, ids_copyTree]⟩

/-- The entries of a container. -/
def entries : Obj → List Obj
  | .tuple l => l
  | .list _ l => l
  | .dict _ d => d.map (·.2)
  | _ => []

theorem objIdsL_nil (l : List Obj) : objIdsL l = [] ↔ ∀ x ∈ l, objIds x = [] := by
  induction l with
  | nil => simp [objIdsL]
  | cons x xs ih => simp [objIdsL, ih]

theorem objIdsD_nil (d : List (String × Obj)) : objIdsD d = [] ↔ ∀ x ∈ d.map (·.2), objIds x = [] := by
  induction d with
  | nil => simp [objIdsD]
  | cons x xs ih => obtain ⟨k, x⟩ := x; simp [objIdsD, ih]

/-- C125: the state stored in a hook event has the right value when it is taken, and is isolated iff none of the entries of the
state is, or contains, an object that can be modified in place: only the outermost container is copied. -/
theorem C125_hook_isolated_partial (o : Obj) :
    value (hookSnapshot o) = value o ∧ (Isolated (hookSnapshot o) ↔ ∀ x ∈ entries o, objIds x = []) := by
  refine ⟨?_, ?_⟩
  · cases o <;> simp [hookSnapshot, value]
  · rw [isolated_iff]
    cases o with
    | scalar v => simp [hookSnapshot, entries, objIds]
    | jax v => simp [hookSnapshot, entries, objIds]
    | np i v => simp [hookSnapshot, entries, objIds]
    | tuple l => simp only [hookSnapshot, entries, objIds]; exact objIdsL_nil l
    | list i l => simp only [hookSnapshot, entries, objIds, Option.toList_none, List.nil_append]; exact objIdsL_nil l
    | dict i d => simp only [hookSnapshot, entries, objIds, Option.toList_none, List.nil_append]; exact objIdsD_nil d

/-- A Flax state with one module: `{"params": {}, "state": {"ewma": {"mean": jax array 5}}}`. -/
def flaxState : Obj :=
  .dict (some 0) [("params", .dict (some 1) []), ("state", .dict (some 2) [("ewma", .dict (some 3) [("mean", .jax 5)])])]

/-- C125 (negation of the full statement): the state stored in a hook event of a Flax state is not isolated: assigning
`state["state"]["ewma"]["mean"] = 7` later also changes the event. -/
theorem C125_hook_shares_witness : ¬ Isolated (hookSnapshot flaxState) ∧
    value (Obj.assign 3 (.dict (some 3) [("mean", .jax 7)]) (hookSnapshot flaxState)) ≠ value (hookSnapshot flaxState) := by
  refine ⟨?_, ?_⟩
  · rw [(C125_hook_isolated_partial flaxState).2]
    simp [entries, flaxState, objIds]
  · intro h
    have := congrArg (fun o => match o with | Obj.dict _ [_, (_, .dict _ [(_, .dict _ [(_, .jax v)])])] => v | _ => 0) h
    simp [hookSnapshot, flaxState, Obj.assign, assignD, value, valueD] at this

/-- C125: the history snapshot of that state is isolated. -/
example (shape : Obj → Int) : Isolated (historySnapshot shape flaxState) := by
  rw [C125_history_isolated_partial]; rfl

/-- C125 (negation of the full statement): a numpy array in the state is shared with the history. -/
theorem C125_numpy_shared_witness (shape : Obj → Int) :
    ¬ Isolated (historySnapshot shape (.dict (some 0) [("buffer", .np (some 1) 5)])) := by
  rw [C125_history_isolated_partial]
  simp [keptPart, npIds, npIdsD, List.lookup]

end Verif.Props
