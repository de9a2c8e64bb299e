import Verif.Model.Dot

/-! # Model: plain-text and HTML renderings of computation graphs (src/wax/flax/visualization/computation_graph.py)

Texts are lists of characters; `num` is Python's `str` of an integer, `dictRepr` the `str` of the dictionary of parameters of a node
(its values are numbers, strings and truth values, whose `repr` is not modelled). -/

namespace Verif.Model.Markup
open Verif.Model.Dot

/-- `str` of the dictionary of input shapes. Used for src/wax/flax/visualization/computation_graph.py:481-486. -/
def shapesText (num : Nat → Text) (d : List (Text × Shape)) : Text :=
  ['{'] ++ join [',', ' '] (d.map fun kv => pyRepr kv.1 ++ [':', ' '] ++ shapeText num kv.2) ++ ['}']

/-! ## src/wax/flax/visualization/computation_graph.py:310-326 `_simplify_params` -/

/-- Values of parameters, as distinguished by src/wax/flax/visualization/computation_graph.py:317-324. -/
inductive Param where
  | array (shape : List Nat)
  | scalar (text : Text)
  | dict (size : Nat)
  | other (typeName : Text)

/-- src/wax/flax/visualization/computation_graph.py:317-324: what is shown of one value. -/
def simplifyValue (num : Nat → Text) : Param → Text
  | .array s => "shape=".toList ++ tupleText (s.map num)
  | .scalar t => t
  | .dict n => "dict(".toList ++ num n ++ " items)".toList
  | .other t => t

/-- src/wax/flax/visualization/computation_graph.py:310-326 `_simplify_params` (the keys of `params` are distinct, so the new dictionary has its order). -/
def simplifyParams (num : Nat → Text) (includeParameters : Bool) (params : List (Text × Param)) : List (Text × Text) :=
  if !includeParameters then [] else params.map fun kv => (kv.1, simplifyValue num kv.2)

/-! ## src/wax/flax/visualization/computation_graph.py:475-503 `_render_text` -/

/-- src/wax/flax/visualization/computation_graph.py:481-486: the lines of one node. -/
def nodeLines (num : Nat → Text) (dictRepr : List (Text × Text) → Text) (g : Graph) (n : Node) : List Text :=
  [[' ', ' '] ++ n.id ++ [':', ' '] ++ n.name ++ [' ', '('] ++ n.moduleType ++ [')']] ++
  (if g.includeShapes && !n.inputShapes.isEmpty then ["    Input shapes: ".toList ++ shapesText num n.inputShapes] else []) ++
  (if g.includeParameters && !n.parameters.isEmpty then ["    Parameters: ".toList ++ dictRepr n.parameters] else [])

/-- src/wax/flax/visualization/computation_graph.py:493, 623: the label of an edge in brackets, if there is one. -/
def labelSuffix (e : Edge) : Text := if e.label ≠ [] then [' ', '['] ++ e.label ++ [']'] else []

/-- src/wax/flax/visualization/computation_graph.py:494. -/
def edgeText (e : Edge) : Text := [' ', ' '] ++ e.source ++ " -> ".toList ++ e.target ++ labelSuffix e

/-- src/wax/flax/visualization/computation_graph.py:477-494: the lines. -/
def textLines (num : Nat → Text) (dictRepr : List (Text × Text) → Text) (g : Graph) : List Text :=
  ["WAX-ML Streaming Pipeline Graph".toList, List.replicate 40 '=', [], "Nodes:".toList] ++
  g.nodes.flatMap (nodeLines num dictRepr g) ++ [[], "Edges:".toList] ++ g.edges.map edgeText

/-- src/wax/flax/visualization/computation_graph.py:496. -/
def textContent (num : Nat → Text) (dictRepr : List (Text × Text) → Text) (g : Graph) : Text :=
  join ['\n'] (textLines num dictRepr g)

/-! ## src/wax/flax/visualization/computation_graph.py:570-629 `_generate_html_content` -/

/-- src/wax/flax/visualization/computation_graph.py:602-613: the block of one node. -/
def nodeHtml (num : Nat → Text) (dictRepr : List (Text × Text) → Text) (g : Graph) (n : Node) : Text :=
  "\n        <div class=\"node\" style=\"background-color: ".toList ++ (n.color ++ ("20;\">\n            <strong>".toList ++ (n.name ++
    ("</strong> (".toList ++ (n.moduleType ++ (")\n            <br>ID: ".toList ++ (n.id ++ ("\n".toList ++
    ((if g.includeShapes && !n.inputShapes.isEmpty then "<br>Input shapes: ".toList ++ shapesText num n.inputShapes else []) ++
    ((if g.includeParameters && !n.parameters.isEmpty then "<br>Parameters: ".toList ++ dictRepr n.parameters else []) ++
    "</div>".toList))))))))))

/-- src/wax/flax/visualization/computation_graph.py:622-624: one edge. -/
def edgeHtml (e : Edge) : Text :=
  "<div class=\"edge\">".toList ++ (e.source ++ (" → ".toList ++ (e.target ++ (labelSuffix e ++ "</div>".toList))))

/-- src/wax/flax/visualization/computation_graph.py:594-629: the page from `<body>` on (lines 574-593, the document type, title and style sheet, are constant
and show nothing). -/
def bodyHtml (num : Nat → Text) (dictRepr : List (Text × Text) → Text) (g : Graph) : Text :=
  "<body>\n    <h1>WAX-ML Streaming Pipeline</h1>\n\n    <h2>Nodes (".toList ++ (num g.nodes.length ++ (")</h2>\n    <div>\n".toList ++
    (g.nodes.flatMap (nodeHtml num dictRepr g) ++ ("\n    </div>\n\n    <h2>Edges (".toList ++ (num g.edges.length ++
    (")</h2>\n    <div>\n".toList ++ (g.edges.flatMap edgeHtml ++ "\n    </div>\n</body>\n</html>\n".toList)))))))

end Verif.Model.Markup
