import Mathlib.Data.List.Basic

/-!
# Computation graph and nested graph of a streaming function

`src/wax/flax/visualization/computation_graph.py` and `src/wax/flax/visualization/nested_graph_viz.py`.

Simplifications: identifiers are lists of characters; `str.lower` is the lower case of ASCII; whether a fixed word occurs in
`str(params)` is an oracle `strHas`; colours, shapes, displayed parameters and the texts of the rendered files are left out.
-/

namespace Verif.Model.Viz

/-- Used for src/wax/flax/visualization/computation_graph.py:66-98. -/
abbrev Key := List Char

/-- A tree of Flax parameters: dictionaries in insertion order; everything that is not a `dict` is `other`.
Used for src/wax/flax/visualization/computation_graph.py:263-280. -/
inductive PVal
  | other
  | dict (items : List (Key × PVal))

/-- Python dictionary assignment `d[k] = v`: the position of an existing key is kept.
Used for src/wax/flax/visualization/computation_graph.py:248-259. -/
def put {V : Type} (d : List (Key × V)) (k : Key) (v : V) : List (Key × V) :=
  match d with
  | [] => [(k, v)]
  | (k', v') :: d => if k' = k then (k, v) :: d else (k', v') :: put d k v

/-- src/wax/flax/visualization/computation_graph.py:66-98 (identifier, name and module type). -/
structure Node where
  id : Key
  name : Key
  moduleType : String
deriving DecidableEq

/-- src/wax/flax/visualization/computation_graph.py:112-126, 155-157: nodes by identifier and the edges `(source, target)`. -/
structure Graph where
  nodes : List (Key × Node)
  edges : List (Key × Key)

/-- See src/wax/flax/visualization/computation_graph.py:112-126, 155-157. -/
def Graph.empty : Graph := ⟨[], []⟩

/-- `a in b` for strings. Used for src/wax/flax/visualization/computation_graph.py:263-280. -/
def occurs (a : String) (b : Key) : Bool := decide (a.toList <:+: b)

/-- src/wax/flax/visualization/computation_graph.py:242-245: the keys that make a dictionary a module with parameters. -/
def markers : List Key := ["kernel", "weight", "bias", "alpha", "scale", "logcom", "maxlen"].map String.toList

/-- Used for src/wax/flax/visualization/computation_graph.py:235-261. -/
def marked (items : List (Key × PVal)) : Bool := markers.any (fun m => items.any (fun kv => kv.1 = m))

/-- Used for src/wax/flax/visualization/computation_graph.py:263-280. -/
def hasKey (items : List (Key × PVal)) (k : String) : Bool := items.any (fun kv => kv.1 = k.toList)

/-- src/wax/flax/visualization/computation_graph.py:263-280. -/
def inferType (strHas : String → List (Key × PVal) → Bool) (name : Key) (items : List (Key × PVal)) : String :=
  let n := name.map Char.toLower
  if occurs "ewma" n || hasKey items "alpha" || hasKey items "logcom" then "EWMA"
  else if occurs "buffer" n || strHas "maxlen" items then "Buffer"
  else if occurs "attention" n || strHas "num_heads" items then "AttentionBasedStateSelector"
  else if occurs "hierarchical" n || occurs "state_machine" n then "HierarchicalStateMachine"
  else if occurs "composite" n || occurs "composition" n then "CompositeStateManager"
  else if hasKey items "kernel" || hasKey items "weight" then "Dense"
  else "Module"

/-- src/wax/flax/visualization/computation_graph.py:236. -/
def nodePath (parent key : Key) : Key := if parent = [] then key else parent ++ '.' :: key

/-- src/wax/flax/visualization/computation_graph.py:248-259: a node for the module, and an edge if the parent path is already a node. -/
def addModule (strHas : String → List (Key × PVal) → Bool) (g : Graph) (parent key : Key) (items : List (Key × PVal)) : Graph :=
  let p := nodePath parent key
  let nodes := put g.nodes p ⟨p, key, inferType strHas key items⟩
  ⟨nodes, if parent ≠ [] ∧ (nodes.any (fun kv => kv.1 = parent)) = true then g.edges ++ [(parent, p)] else g.edges⟩

mutual
/-- src/wax/flax/visualization/computation_graph.py:233-261. -/
def extract (strHas : String → List (Key × PVal) → Bool) : List (Key × PVal) → Key → Graph → Graph
  | [], _, g => g
  | (k, v) :: rest, parent, g => extract strHas rest parent (extractVal strHas v k parent g)
/-- src/wax/flax/visualization/computation_graph.py:235-261: one entry. -/
def extractVal (strHas : String → List (Key × PVal) → Bool) : PVal → Key → Key → Graph → Graph
  | .other, _, _, g => g
  | .dict items, k, parent, g =>
    if marked items then addModule strHas g parent k items else extract strHas items (nodePath parent k) g
end

/-- What `streaming_fn.init` gives, as distinguished by src/wax/flax/visualization/computation_graph.py:204-214: it raises; a pair `(params, state)`, or a
dictionary of variables with these parameters; anything else. -/
inductive InitResult
  | raises
  | params (items : List (Key × PVal))
  | unknown

/-- Used for src/wax/flax/visualization/computation_graph.py:159-192, 194-231, 282-297. -/
def mainId : Key := "main".toList

/-- src/wax/flax/visualization/computation_graph.py:159-192, 194-231, 282-297: analysis of a Flax function called `name`. -/
def analyzeFlax (strHas : String → List (Key × PVal) → Bool) (name : Key) (r : InitResult) (g : Graph) : Graph :=
  match r with
  | .raises => { g with nodes := put g.nodes mainId ⟨mainId, name, "Function"⟩ }
  | .params items =>
    let g := extract strHas items [] g
    { g with nodes := put g.nodes mainId ⟨mainId, name, "StreamingFunction"⟩ }
  | .unknown => { g with nodes := put g.nodes mainId ⟨mainId, name, "StreamingFunction"⟩ }

/-- src/wax/flax/visualization/computation_graph.py:282-297: analysis of a plain function. -/
def analyzePlain (name : Key) (g : Graph) : Graph := { g with nodes := put g.nodes mainId ⟨mainId, name, "Function"⟩ }

/-! ## Nested graph -/

/-- src/wax/flax/visualization/nested_graph_viz.py:86-105. -/
structure Hier where
  id : Key
  name : Key
  nodeType : String
  level : Nat
  parent : Option Key
  children : List Key
deriving DecidableEq

/-- src/wax/flax/visualization/nested_graph_viz.py:219-234. -/
def classify (n : Node) : String :=
  let t := n.moduleType.toList.map Char.toLower
  if occurs "ewma" t then "ewma"
  else if occurs "buffer" t then "buffer"
  else if occurs "state" t then "state"
  else if occurs "function" t then "function"
  else if occurs "module" t then "module"
  else "unknown"

/-- `".".join(s.split(".")[:-1])`: what precedes the last dot.
Used for src/wax/flax/visualization/nested_graph_viz.py:236-256. -/
def beforeLastDot (s : Key) : Key := ((s.reverse.dropWhile (fun c => c ≠ '.')).drop 1).reverse

/-- src/wax/flax/visualization/nested_graph_viz.py:236-256. -/
def inferParent (nodes : List (Key × Node)) (id : Key) : Option Key :=
  let byName := ((nodes.find? (fun kv => kv.1 ≠ id ∧ kv.2.moduleType = "Module" ∧ kv.1 <+: id))).map Prod.fst
  if '.' ∈ id ∧ nodes.any (fun kv => kv.1 = beforeLastDot id) then some (beforeLastDot id) else byName

/-- src/wax/flax/visualization/nested_graph_viz.py:97-100, applied to the entry `p` of the hierarchy. -/
def addChild (h : List (Key × Hier)) (p c : Key) : List (Key × Hier) :=
  h.map (fun kv => if kv.1 = p then (kv.1, { kv.2 with children := if c ∈ kv.2.children then kv.2.children else kv.2.children ++ [c] })
    else kv)

/-- src/wax/flax/visualization/nested_graph_viz.py:214-217: one iteration. -/
def linkToParent (h : List (Key × Hier)) (id : Key) (parent : Option Key) : List (Key × Hier) :=
  match parent with
  | none => h
  | some p => if p ≠ [] ∧ h.any (fun kv => kv.1 = p) = true then addChild h p id else h

/-- src/wax/flax/visualization/nested_graph_viz.py:186-217. -/
def extractHierarchy (nodes : List (Key × Node)) : List (Key × Hier) :=
  let h0 : List (Key × Hier) := nodes.map (fun kv => (kv.1, ⟨kv.1, kv.2.name, classify kv.2, 0, inferParent nodes kv.1, []⟩))
  h0.foldl (fun h kv => linkToParent h kv.1 kv.2.parent) h0

/-- src/wax/flax/visualization/nested_graph_viz.py:262-264: one node. -/
def groupRoot (gs : List (String × List Key)) (kv : Key × Hier) : List (String × List Key) :=
  if kv.2.parent = none then
    if gs.any (fun g => g.1 = kv.2.nodeType) then gs.map (fun g => if g.1 = kv.2.nodeType then (g.1, g.2 ++ [kv.1]) else g)
    else gs ++ [(kv.2.nodeType, [kv.1])]
  else gs

/-- src/wax/flax/visualization/nested_graph_viz.py:261-264: the roots grouped by type, in order of first appearance. -/
def rootGroups (h : List (Key × Hier)) : List (String × List Key) := h.foldl groupRoot []

/-- src/wax/flax/visualization/nested_graph_viz.py:270. -/
def clusterName (type : String) (n : Nat) : Key := "cluster_".toList ++ type.toList ++ '_' :: (Nat.repr n).toList

/-- src/wax/flax/visualization/nested_graph_viz.py:283-286: a root joins a cluster. -/
def joinCluster (c : Key) (h : List (Key × Hier)) (id : Key) : List (Key × Hier) :=
  addChild (h.map (fun kv => if kv.1 = id then (kv.1, { kv.2 with parent := some c }) else kv)) c id

/-- src/wax/flax/visualization/nested_graph_viz.py:268-288: one group; `n` is `cluster_id`. -/
def clusterGroup (minNodes : Nat) (s : List (Key × Hier) × Nat) (g : String × List Key) : List (Key × Hier) × Nat :=
  if minNodes ≤ g.2.length then
    let c := clusterName g.1 s.2
    let h := put s.1 c ⟨c, (g.1 ++ " Components").toList, "cluster", 0, none, []⟩
    (g.2.foldl (joinCluster c) h, s.2 + 1)
  else s

/-- src/wax/flax/visualization/nested_graph_viz.py:258-288. -/
def autoCluster (minNodes : Nat) (h : List (Key × Hier)) : List (Key × Hier) :=
  ((rootGroups h).foldl (clusterGroup minNodes) (h, 0)).1

/-- src/wax/flax/visualization/nested_graph_viz.py:293-307: the breadth-first loop, as the list of `(node, level)` in the order of assignment; `none` when the
fuel runs out. -/
def bfs (h : List (Key × Hier)) : Nat → List (Key × Nat) → List (Key × Nat) → Option (List (Key × Nat))
  | _, [], acc => some acc
  | 0, _ :: _, _ => none
  | n + 1, (x, l) :: q, acc =>
    match h.lookup x with
    | none => bfs h n q acc
    | some nd => bfs h n (q ++ nd.children.map (fun c => (c, l + 1))) (acc ++ [(x, l)])

/-- src/wax/flax/visualization/nested_graph_viz.py:292-296. -/
def roots (h : List (Key × Hier)) : List Key := (h.filter (fun kv => kv.2.parent = none)).map Prod.fst

/-- src/wax/flax/visualization/nested_graph_viz.py:302: the level a node ends up with: that of its last assignment. -/
def setLevels (h : List (Key × Hier)) (acc : List (Key × Nat)) : List (Key × Hier) :=
  h.map (fun kv => (kv.1, { kv.2 with level := (acc.reverse.lookup kv.1).getD kv.2.level }))

/-- src/wax/flax/visualization/nested_graph_viz.py:290-307. -/
def assignLevels (fuel : Nat) (h : List (Key × Hier)) : Option (List (Key × Hier) × List (Key × Nat)) :=
  (bfs h fuel ((roots h).map (fun x => (x, 0))) []).map (fun acc => (setLevels h acc, acc))

/-- src/wax/flax/visualization/nested_graph_viz.py:156-184: the analysis, from the graph of a fresh renderer. The second part is the order in which the levels
were assigned. -/
def analyzeNested (auto : Bool) (minNodes fuel : Nat) (g : Graph) : Option (List (Key × Hier) × List (Key × Nat)) :=
  let h := extractHierarchy g.nodes
  assignLevels fuel (if auto then autoCluster minNodes h else h)

/-- src/wax/flax/visualization/nested_graph_viz.py:309-311: `max(levels.keys())`, 0 without levels. -/
def maxLevel (acc : List (Key × Nat)) : Nat := acc.foldl (fun m xl => max m xl.2) 0

/-- src/wax/flax/visualization/nested_graph_viz.py:367-402: the identifiers of the nodes drawn, in order; the fuel bounds the depth of the recursion. -/
def render (h : List (Key × Hier)) : Nat → Option Key → Nat → List Key
  | 0, _, _ => []
  | n + 1, p, l =>
    (h.filter (fun kv => kv.2.parent = p ∧ kv.2.level = l)).flatMap (fun kv =>
      kv.2.id :: if kv.2.children ≠ [] then render h n (some kv.2.id) (l + 1) else [])

/-- src/wax/flax/visualization/nested_graph_viz.py:428-437, 682-690, 897-900: the parent-child edges. -/
def links (h : List (Key × Hier)) : List (Key × Key) := h.flatMap (fun kv => kv.2.children.map (fun c => (kv.2.id, c)))

/-- src/wax/flax/visualization/nested_graph_viz.py:651-691: the identifiers of the elements given to Cytoscape: nodes, then edges `f"{source}_{target}"`. -/
def cytoscapeIds (h : List (Key × Hier)) : List Key :=
  h.map (fun kv => kv.2.id) ++ (links h).map (fun e => e.1 ++ '_' :: e.2)

/-- `d[k] += 1` for a `defaultdict(int)`. Used for src/wax/flax/visualization/nested_graph_viz.py:982-1010. -/
def bump {K : Type} [DecidableEq K] (d : List (K × Nat)) (k : K) : List (K × Nat) :=
  if d.any (fun e => e.1 = k) then d.map (fun e => if e.1 = k then (k, e.2 + 1) else e) else d ++ [(k, 1)]

/-- Counting dictionary. Used for src/wax/flax/visualization/nested_graph_viz.py:982-1010. -/
def countBy {K : Type} [DecidableEq K] (ks : List K) : List (K × Nat) := ks.foldl bump []

/-- src/wax/flax/visualization/nested_graph_viz.py:982-1010: total number of nodes, maximal level, nodes by type, nodes by level. -/
def summary (h : List (Key × Hier)) (acc : List (Key × Nat)) : Nat × Nat × List (String × Nat) × List (Nat × Nat) :=
  (h.length, maxLevel acc, countBy (h.map (fun kv => kv.2.nodeType)), countBy (h.map (fun kv => kv.2.level)))

end Verif.Model.Viz
