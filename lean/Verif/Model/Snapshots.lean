/-!
# Copies of states taken by the debugger

`src/wax/flax/debug/debugger.py:131-160` (hook events) and `311-337` (state history).

Objects carry the identity under which the owner of the live state can reach them (`none`: nobody but the debugger has a
reference). Assigning into an object with identity `a` is seen in every tree that contains that object. Numbers, strings, tuples
and JAX arrays cannot be modified in place.

Simplifications: values are integers; an object's identity stands for the object (two nodes with the same identity are the same
object); copies never fail; classes with a `copy` method other than dict, list and numpy arrays are not modelled.
-/

namespace Verif.Model.Snapshots

/-- A Python value as a tree of objects with identities. Used for src/wax/flax/debug/debugger.py:328-337. -/
inductive Obj where
  | scalar (v : Int)
  | jax (v : Int)
  | np (id : Option Nat) (v : Int)
  | tuple (items : List Obj)
  | list (id : Option Nat) (items : List Obj)
  | dict (id : Option Nat) (items : List (String × Obj))

/-- src/wax/flax/debug/debugger.py:328-337 `_safe_copy_tree` and 143-154 `_safe_copy`: JAX arrays, dictionaries, lists and tuples are copied
recursively; anything else, a numpy array for instance, is returned as it is. -/
def Obj.copyTree : Obj → Obj
  | .scalar v => .scalar v
  | .jax v => .jax v
  | .np i v => .np i v
  | .tuple l => .tuple (goL l)
  | .list _ l => .list none (goL l)
  | .dict _ d => .dict none (goD d)
where
  goL : List Obj → List Obj
    | [] => []
    | x :: xs => x.copyTree :: goL xs
  goD : List (String × Obj) → List (String × Obj)
    | [] => []
    | (k, x) :: xs => (k, x.copyTree) :: goD xs

/-- src/wax/flax/debug/debugger.py:314-323 `_get_tree_shapes`: every leaf is replaced by its shape or the name of its type; the containers are new. -/
def Obj.shapes (shape : Obj → Int) : Obj → Obj
  | .scalar v => .scalar (shape (.scalar v))
  | .jax v => .scalar (shape (.jax v))
  | .np i v => .scalar (shape (.np i v))
  | .tuple l => .tuple (goL l)
  | .list _ l => .list none (goL l)
  | .dict _ d => .dict none (goD d)
where
  goL : List Obj → List Obj
    | [] => []
    | x :: xs => x.shapes shape :: goL xs
  goD : List (String × Obj) → List (String × Obj)
    | [] => []
    | (k, x) :: xs => (k, x.shapes shape) :: goD xs

/-- src/wax/flax/debug/debugger.py:297-312 `_safe_copy_state`, what is stored in the state history. -/
def historySnapshot (shape : Obj → Int) : Obj → Obj
  | .dict i d =>
    match d.lookup "params", d.lookup "state" with
    | some p, some s => .dict none [("params_shapes", p.shapes shape), ("state_values", s.copyTree)]
    | _, _ => (Obj.dict i d).copyTree
  | o => o.copyTree

/-- src/wax/flax/debug/debugger.py:131-141 `_deep_copy_state`, what a hook event stores: `state.copy()` for dictionaries, lists and numpy arrays,
which copies the container only; JAX arrays are copied; tuples and numbers have no `copy` method and are returned. -/
def hookSnapshot : Obj → Obj
  | .scalar v => .scalar v
  | .jax v => .jax v
  | .np _ v => .np none v
  | .tuple l => .tuple l
  | .list _ l => .list none l
  | .dict _ d => .dict none d

/-- src/wax/flax/debug/debugger.py:143-154 `_safe_copy`, what a hook event stores of inputs and outputs. -/
def dataSnapshot (o : Obj) : Obj := o.copyTree

mutual
/-- The tree seen after the owner of the live state gave the object with identity `a` the contents `new`.
See src/wax/flax/debug/debugger.py:328-337. -/
def Obj.assign (a : Nat) (new : Obj) : Obj → Obj
  | .scalar v => .scalar v
  | .jax v => .jax v
  | .np i v => if i = some a then new else .np i v
  | .tuple l => .tuple (assignL a new l)
  | .list i l => if i = some a then new else .list i (assignL a new l)
  | .dict i d => if i = some a then new else .dict i (assignD a new d)
termination_by structural x => x
/-- See src/wax/flax/debug/debugger.py:328-337. -/
def assignL (a : Nat) (new : Obj) : List Obj → List Obj
  | [] => []
  | x :: xs => Obj.assign a new x :: assignL a new xs
termination_by structural x => x
/-- See src/wax/flax/debug/debugger.py:328-337. -/
def assignD (a : Nat) (new : Obj) : List (String × Obj) → List (String × Obj)
  | [] => []
  | (k, x) :: xs => (k, Obj.assign a new x) :: assignD a new xs
termination_by structural x => x
end

end Verif.Model.Snapshots
