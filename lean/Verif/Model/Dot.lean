/-! # Model: text export of computation graphs (src/wax/flax/visualization/computation_graph.py)

Texts are lists of characters.  `num` is Python's `str` of an integer. -/

namespace Verif.Model.Dot

/-- Used for src/wax/flax/visualization/computation_graph.py:299-308. -/
abbrev Text := List Char

/-- `sep.join(parts)`. Used for src/wax/flax/visualization/computation_graph.py:554-560. -/
def join (sep : Text) : List Text → Text
  | [] => []
  | [a] => a
  | a :: b :: l => a ++ sep ++ join sep (b :: l)

/-- Example inputs, as distinguished by src/wax/flax/visualization/computation_graph.py:299-308. -/
inductive Data where
  | array (shape : List Nat)
  | seq (len : Nat)
  | dict (items : List (Text × Data))
  | other

/-- A shape: a tuple of integers, or (for a dictionary) a tuple of strings.
Used for src/wax/flax/visualization/computation_graph.py:299-308. -/
inductive Shape where
  | dims (l : List Nat)
  | strs (l : List Text)

/-- The escapes of `repr` for the character `c` between quotes `q` (line breaks are not considered).
See src/wax/flax/visualization/computation_graph.py:299-308. -/
def escape (q c : Char) : Text := if c = q || c = '\\' then ['\\', c] else [c]

/-- `repr` of a string: single quotes, unless it contains single quotes and no double quotes.
See src/wax/flax/visualization/computation_graph.py:299-308. -/
def pyRepr (s : Text) : Text :=
  let q := if s.contains '\'' && !s.contains '"' then '"' else '\''
  [q] ++ s.flatMap (escape q) ++ [q]

/-- `str` of a tuple whose elements have the given `repr`. See src/wax/flax/visualization/computation_graph.py:554-560. -/
def tupleText (els : List Text) : Text :=
  match els with
  | [a] => ['('] ++ a ++ [',', ')']
  | els => ['('] ++ join [',', ' '] els ++ [')']

/-- `str` of a shape. Used for src/wax/flax/visualization/computation_graph.py:306. -/
def shapeText (num : Nat → Text) : Shape → Text
  | .dims l => tupleText (l.map num)
  | .strs l => tupleText (l.map pyRepr)

mutual
/-- src/wax/flax/visualization/computation_graph.py:299-308 `_get_shape`. -/
def getShape (num : Nat → Text) : Data → Shape
  | .array s => .dims s
  | .seq n => .dims [n]
  | .dict items => .strs (getShapes num items)
  | .other => .dims []
/-- src/wax/flax/visualization/computation_graph.py:306: `f"{k}: {self._get_shape(v)}"` for each entry. -/
def getShapes (num : Nat → Text) : List (Text × Data) → List Text
  | [] => []
  | (k, v) :: l => (k ++ [':', ' '] ++ shapeText num (getShape num v)) :: getShapes num l
end

/-- src/wax/flax/visualization/computation_graph.py:66-82 (`parameters` with the text of each value). -/
structure Node where
  id : Text
  name : Text
  moduleType : Text
  inputShapes : List (Text × Shape)
  parameters : List (Text × Text)
  color : Text
  style : Text
  shape : Text

/-- src/wax/flax/visualization/computation_graph.py:112-126. -/
structure Edge where
  source : Text
  target : Text
  label : Text
  color : Text
  style : Text

/-- src/wax/flax/visualization/computation_graph.py:130-157: the options that matter for texts, and the graph. -/
structure Graph where
  includeShapes : Bool
  includeParameters : Bool
  maxLabelLength : Nat
  nodes : List Node
  edges : List Edge

/-- The two characters `\n` of DOT labels. Used for src/wax/flax/visualization/computation_graph.py:554-560. -/
def nl : Text := ['\\', 'n']

/-- src/wax/flax/visualization/computation_graph.py:555-558: only non-empty tuples are shown. -/
def shownShape (num : Nat → Text) (ks : Text × Shape) : Option Text :=
  match ks.2 with
  | .dims [] => none
  | .strs [] => none
  | s => some (ks.1 ++ [':', ' '] ++ shapeText num s)

/-- src/wax/flax/visualization/computation_graph.py:545-553: name and type. -/
def nameParts (maxLen : Nat) (n : Node) : List Text :=
  [if maxLen < n.name.length then n.name.take maxLen ++ ['.', '.', '.'] else n.name] ++
  (if n.moduleType ≠ n.name then [['('] ++ n.moduleType ++ [')']] else [])

/-- src/wax/flax/visualization/computation_graph.py:554-560: the shapes. -/
def shapeParts (num : Nat → Text) (inc : Bool) (n : Node) : List Text :=
  let strs := n.inputShapes.filterMap (shownShape num)
  if inc && !n.inputShapes.isEmpty && !strs.isEmpty then [nl ++ join nl strs] else []

/-- src/wax/flax/visualization/computation_graph.py:562-567: the first three parameters. -/
def paramParts (inc : Bool) (n : Node) : List Text :=
  let strs := (n.parameters.take 3).map fun p => p.1 ++ ['='] ++ p.2
  if inc && !strs.isEmpty then [nl ++ join nl strs] else []

/-- src/wax/flax/visualization/computation_graph.py:543-568 `_create_node_label`. -/
def nodeLabel (num : Nat → Text) (g : Graph) (n : Node) : Text :=
  join nl (nameParts g.maxLabelLength n ++ shapeParts num g.includeShapes n ++ paramParts g.includeParameters n)

/-- src/wax/flax/visualization/computation_graph.py:516-522. -/
def nodeLine (num : Nat → Text) (g : Graph) (n : Node) : Text :=
  [' ', ' ', '"'] ++ n.id ++ ['"'] ++ " [label=\"".toList ++ nodeLabel num g n ++ ['"'] ++ (", color=\"".toList ++ n.color ++
    "\", style=\"".toList ++ n.style ++ "\", shape=\"".toList ++ n.shape ++ "\"];".toList)

/-- src/wax/flax/visualization/computation_graph.py:527-533: the attributes of an edge that are not the defaults. -/
def edgeAttrs (e : Edge) : List Text :=
  (if e.label ≠ [] then ["label=\"".toList ++ e.label ++ ['"']] else []) ++
  (if e.color ≠ "#424242".toList then ["color=\"".toList ++ e.color ++ ['"']] else []) ++
  (if e.style ≠ "solid".toList then ["style=\"".toList ++ e.style ++ ['"']] else [])

/-- src/wax/flax/visualization/computation_graph.py:535-536. -/
def edgeLine (e : Edge) : Text :=
  [' ', ' ', '"'] ++ e.source ++ ['"'] ++ " -> \"".toList ++ e.target ++ ['"'] ++
  ((if edgeAttrs e ≠ [] then [' ', '['] ++ join [',', ' '] (edgeAttrs e) ++ [']'] else []) ++ [';'])

/-- src/wax/flax/visualization/computation_graph.py:505-541 `_generate_dot_content`: the lines. -/
def dotLines (num : Nat → Text) (g : Graph) : List Text :=
  ["digraph WAX_ML_Pipeline {".toList, "  rankdir=LR;".toList, "  node [fontname=\"Arial\", fontsize=10];".toList,
    "  edge [fontname=\"Arial\", fontsize=8];".toList, []] ++
  g.nodes.map (nodeLine num g) ++ [[]] ++ g.edges.map edgeLine ++ [['}']]

/-- src/wax/flax/visualization/computation_graph.py:541. -/
def dotText (num : Nat → Text) (g : Graph) : Text := join ['\n'] (dotLines num g)

/-- src/wax/flax/visualization/computation_graph.py:286-297, 219-227: the node of a function analysed on the example input `x` (neither of its two module
types, "Function" and "StreamingFunction", matches an entry of the colour map of lines 82-99, so the colour is the default). -/
def mainNode (num : Nat → Text) (name moduleType : Text) (parameters : List (Text × Text)) (x : Data) : Node :=
  ⟨"main".toList, name, moduleType, [("input".toList, getShape num x)], parameters, "#4CAF50".toList, "filled".toList,
    "box".toList⟩

end Verif.Model.Dot
