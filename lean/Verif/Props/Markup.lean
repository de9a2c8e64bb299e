import Verif.Model.Markup
import Verif.Props.Dot

/-! # C172, C173: plain-text and HTML renderings of computation graphs -/

set_option linter.unusedSectionVars false
set_option linter.unusedSimpArgs false

namespace Verif.Props
open Verif Model.Dot Spec.Dot Model.Markup

/-! ## What a browser shows (specification) -/

/-- Specification: after `<`, these characters begin a tag. -/
def beginsTag (c : Char) : Bool := c.isAlpha || c = '/' || c = '!' || c = '?'

/-- Specification: the text a browser shows: everything outside tags; a tag goes from `<`, followed by a character that begins a tag,
to the next `>`.  (Character references, which begin with `&`, and quoted `>` are not considered.) -/
def shownFrom : Bool → Text → Text
  | _, [] => []
  | true, c :: r => if c = '>' then shownFrom false r else shownFrom true r
  | false, c :: r => if c = '<' ∧ r.head?.any beginsTag then shownFrom true r else c :: shownFrom false r

/-- Specification: the text a browser shows. -/
def shown (t : Text) : Text := shownFrom false t

/-- Whether a text ends inside a tag. -/
def endsIn : Bool → Text → Bool
  | b, [] => b
  | true, c :: r => if c = '>' then endsIn false r else endsIn true r
  | false, c :: r => if c = '<' ∧ r.head?.any beginsTag then endsIn true r else endsIn false r

theorem shownFrom_append (a u : Text) (ha : a.getLast? ≠ some '<') (b : Bool) :
    shownFrom b (a ++ u) = shownFrom b a ++ shownFrom (endsIn b a) u := by
  induction a generalizing b with
  | nil => simp [shownFrom, endsIn]
  | cons c r ih =>
    have hr : r.getLast? ≠ some '<' := by
      cases r with
      | nil => simp
      | cons d r => simpa [List.getLast?_cons_cons] using ha
    cases b with
    | true =>
      simp only [List.cons_append, shownFrom, endsIn]
      split <;> exact ih hr _
    | false =>
      simp only [List.cons_append, shownFrom, endsIn]
      cases r with
      | nil =>
        have hc : c ≠ '<' := by simpa using ha
        simp [hc, shownFrom, endsIn]
      | cons d r =>
        simp only [List.cons_append, List.head?_cons]
        have h1 := ih hr true
        have h2 := ih hr false
        simp only [List.cons_append] at h1 h2
        by_cases hA : c = '<'
        · cases hB : beginsTag d
          · simp [hA, hB, h2]
          · simp [hA, hB, h1]
        · simp [hA, h2]

/-- A text with balanced tags, at the front. -/
theorem shown_append (a u : Text) (ha : a.getLast? ≠ some '<') (he : endsIn false a = false) : shown (a ++ u) = shown a ++ shown u := by
  rw [shown, shownFrom_append a u ha, he]; rfl

theorem endsIn_plain (t : Text) (h : '<' ∉ t) : endsIn false t = false := by
  induction t with
  | nil => rfl
  | cons c r ih =>
    have hc : c ≠ '<' := fun e => h (by simp [e])
    simp [endsIn, hc, ih (fun hm => h (by simp [hm]))]

theorem shown_self (t : Text) (h : '<' ∉ t) : shown t = t := by
  induction t with
  | nil => rfl
  | cons c r ih =>
    have hc : c ≠ '<' := fun e => h (by simp [e])
    have := ih (fun hm => h (by simp [hm]))
    simp only [shown] at this
    simp [shown, shownFrom, hc, this]

/-- Text without `<` is shown as it is. -/
theorem shown_plain (t u : Text) (h : '<' ∉ t) : shown (t ++ u) = t ++ shown u := by
  rw [shown_append t u (fun e => h (List.mem_of_getLast? e)) (endsIn_plain t h), shown_self t h]

theorem inTag_append (t u : Text) (h : '>' ∉ t) : shownFrom true (t ++ u) = shownFrom true u := by
  induction t with
  | nil => rfl
  | cons c r ih =>
    have hc : c ≠ '>' := fun e => h (by simp [e])
    simp [shownFrom, hc, ih (fun hm => h (by simp [hm]))]

/-- A tag is not shown. -/
theorem shown_tag (c : Char) (body u : Text) (hc : beginsTag c = true) (hb : '>' ∉ body) :
    shown ('<' :: c :: body ++ '>' :: u) = shown u := by
  have hc' : c ≠ '>' := by rintro rfl; exact absurd hc (by decide)
  have h1 : shownFrom true (body ++ '>' :: u) = shownFrom false u := by rw [inTag_append body _ hb]; simp [shownFrom]
  simp only [shown, List.cons_append, shownFrom, List.head?_cons, Option.any_some, hc, and_self, if_true, hc', if_false, h1]

/-! ## C172: the HTML page -/

/-- Texts that appear in a page as they are. -/
def PlainText (t : Text) : Prop := '<' ∉ t

/-- Specification: what the page is to show for a node. -/
def nodeShown (num : Nat → Text) (dictRepr : List (Text × Text) → Text) (g : Graph) (n : Node) : Text :=
  "\n        \n            ".toList ++ (n.name ++ (" (".toList ++ (n.moduleType ++ (")\n            ID: ".toList ++ (n.id ++ ("\n".toList ++
    ((if g.includeShapes = true ∧ n.inputShapes ≠ [] then "Input shapes: ".toList ++ shapesText num n.inputShapes else []) ++
    (if g.includeParameters = true ∧ n.parameters ≠ [] then "Parameters: ".toList ++ dictRepr n.parameters else []))))))))

/-- Specification: what the page is to show for an edge. -/
def edgeShown (e : Edge) : Text :=
  e.source ++ (" → ".toList ++ (e.target ++ if e.label = [] then [] else " [".toList ++ (e.label ++ "]".toList)))

/-- Nodes whose texts are plain; the colour is inside a tag. -/
def PlainNode (num : Nat → Text) (dictRepr : List (Text × Text) → Text) (n : Node) : Prop :=
  PlainText n.name ∧ PlainText n.moduleType ∧ PlainText n.id ∧ PlainText (shapesText num n.inputShapes) ∧
  PlainText (dictRepr n.parameters) ∧ '>' ∉ n.color

def PlainEdge (e : Edge) : Prop := PlainText e.source ∧ PlainText e.target ∧ PlainText e.label

section
variable (num : Nat → Text) (dictRepr : List (Text × Text) → Text)

theorem shown_lit (l : String) (u : Text) (l' : String) (h : l.toList.getLast? ≠ some '<' ∧ endsIn false l.toList = false ∧ shown l.toList = l'.toList) :
    shown (l.toList ++ u) = l'.toList ++ shown u := by
  rw [shown_append _ _ h.1 h.2.1, h.2.2]

/-- The part of a node before its name is not shown (except spaces). -/
theorem shown_nodeHead (color u : Text) (hc : '>' ∉ color) :
    shown ("\n        <div class=\"node\" style=\"background-color: ".toList ++ (color ++ ("20;\">\n            <strong>".toList ++ u))) =
      "\n        \n            ".toList ++ shown u := by
  have h1 : "\n        <div class=\"node\" style=\"background-color: ".toList.getLast? ≠ some '<' ∧
      endsIn false "\n        <div class=\"node\" style=\"background-color: ".toList = true ∧
      shown "\n        <div class=\"node\" style=\"background-color: ".toList = "\n        ".toList := by decide +kernel
  have h2 : "20;\">\n            <strong>".toList.getLast? ≠ some '<' ∧ endsIn true "20;\">\n            <strong>".toList = false ∧
      shownFrom true "20;\">\n            <strong>".toList = "\n            ".toList := by decide +kernel
  have h3 : "\n        \n            ".toList = "\n        ".toList ++ "\n            ".toList := by decide +kernel
  rw [shown, shownFrom_append _ _ h1.1, h1.2.1, inTag_append color _ hc, shownFrom_append _ _ h2.1, h2.2.1, h2.2.2, h3]
  have := h1.2.2
  simp only [shown] at this ⊢
  rw [this, List.append_assoc]

theorem shown_node (g : Graph) (n : Node) (h : PlainNode num dictRepr n) (u : Text) :
    shown (nodeHtml num dictRepr g n ++ u) = nodeShown num dictRepr g n ++ shown u := by
  obtain ⟨h1, h2, h3, h4, h5, h6⟩ := h
  have k0 : ∀ u, shown ("</div>".toList ++ u) = shown u := fun u => by
    rw [shown_lit "</div>" u "" (by decide +kernel)]; rfl
  have kp : ∀ u, shown ((if (g.includeParameters && !n.parameters.isEmpty) = true then "<br>Parameters: ".toList ++ dictRepr n.parameters else []) ++ u) =
      (if g.includeParameters = true ∧ n.parameters ≠ [] then "Parameters: ".toList ++ dictRepr n.parameters else []) ++ shown u := by
    intro u
    by_cases hc : g.includeParameters = true ∧ n.parameters ≠ []
    · rw [if_pos hc, if_pos (by simpa using hc), List.append_assoc, shown_lit "<br>Parameters: " _ "Parameters: " (by decide +kernel),
        shown_plain _ _ h5, List.append_assoc]
    · rw [if_neg hc, if_neg (by simpa using hc)]; rfl
  have ks : ∀ u, shown ((if (g.includeShapes && !n.inputShapes.isEmpty) = true then "<br>Input shapes: ".toList ++ shapesText num n.inputShapes else []) ++ u) =
      (if g.includeShapes = true ∧ n.inputShapes ≠ [] then "Input shapes: ".toList ++ shapesText num n.inputShapes else []) ++ shown u := by
    intro u
    by_cases hc : g.includeShapes = true ∧ n.inputShapes ≠ []
    · rw [if_pos hc, if_pos (by simpa using hc), List.append_assoc, shown_lit "<br>Input shapes: " _ "Input shapes: " (by decide +kernel),
        shown_plain _ _ h4, List.append_assoc]
    · rw [if_neg hc, if_neg (by simpa using hc)]; rfl
  unfold nodeHtml nodeShown
  simp only [List.append_assoc]
  rw [shown_nodeHead _ _ h6, shown_plain _ _ h1, shown_lit "</strong> (" _ " (" (by decide +kernel), shown_plain _ _ h2,
    shown_lit ")\n            <br>ID: " _ ")\n            ID: " (by decide +kernel), shown_plain _ _ h3,
    shown_lit "\n" _ "\n" (by decide +kernel), ks, kp, k0]

theorem shown_edge (e : Edge) (h : PlainEdge e) (u : Text) : shown (edgeHtml e ++ u) = edgeShown e ++ shown u := by
  obtain ⟨h1, h2, h3⟩ := h
  have k0 : ∀ u, shown ("</div>".toList ++ u) = shown u := fun u => by
    rw [shown_lit "</div>" u "" (by decide +kernel)]; rfl
  have kl : ∀ u, shown (labelSuffix e ++ u) = (if e.label = [] then [] else " [".toList ++ (e.label ++ "]".toList)) ++ shown u := by
    intro u
    have e1 : " [".toList = [' ', '['] := by decide +kernel
    have e2 : "]".toList = [']'] := by decide +kernel
    unfold labelSuffix
    by_cases hl : e.label = []
    · rw [if_neg (by simpa using hl), if_pos hl]; rfl
    · rw [if_pos hl, if_neg hl, shown_plain _ _ (by simp; exact h3), e1, e2]
      simp
  unfold edgeHtml edgeShown
  simp only [List.append_assoc]
  rw [shown_lit "<div class=\"edge\">" _ "" (by decide +kernel)]
  rw [shown_plain _ _ h1, shown_lit " → " _ " → " (by decide +kernel), shown_plain _ _ h2, kl, k0]
  simp

/-- C172, what holds: when the names, types and identifiers contain no `<`, the page shows, in order, every node with its name, type,
identifier and the requested details, and every edge with its ends and label, and their numbers. -/
theorem C172_page_partial (g : Graph) (hn : ∀ n ∈ g.nodes, PlainNode num dictRepr n) (he : ∀ e ∈ g.edges, PlainEdge e)
    (hnum : ∀ k, PlainText (num k)) :
    shown (bodyHtml num dictRepr g) =
      "\n    WAX-ML Streaming Pipeline\n\n    Nodes (".toList ++ (num g.nodes.length ++ (")\n    \n".toList ++
      (g.nodes.flatMap (nodeShown num dictRepr g) ++ ("\n    \n\n    Edges (".toList ++ (num g.edges.length ++ (")\n    \n".toList ++
      (g.edges.flatMap edgeShown ++ "\n    \n\n\n".toList))))))) := by
  have kn : ∀ (l : List Node), (∀ n ∈ l, PlainNode num dictRepr n) → ∀ u,
      shown (l.flatMap (nodeHtml num dictRepr g) ++ u) = l.flatMap (nodeShown num dictRepr g) ++ shown u := by
    intro l
    induction l with
    | nil => intro _ u; rfl
    | cons n l ih =>
      intro hl u
      simp only [List.flatMap_cons, List.append_assoc]
      rw [shown_node num dictRepr g n (hl n (by simp)), ih (fun m hm => hl m (by simp [hm]))]
  have ke : ∀ (l : List Edge), (∀ e ∈ l, PlainEdge e) → ∀ u, shown (l.flatMap edgeHtml ++ u) = l.flatMap edgeShown ++ shown u := by
    intro l
    induction l with
    | nil => intro _ u; rfl
    | cons n l ih =>
      intro hl u
      simp only [List.flatMap_cons, List.append_assoc]
      rw [shown_edge n (hl n (by simp)), ih (fun m hm => hl m (by simp [hm]))]
  have hend : shown "\n    </div>\n</body>\n</html>\n".toList = "\n    \n\n\n".toList := by decide +kernel
  unfold bodyHtml
  rw [shown_lit "<body>\n    <h1>WAX-ML Streaming Pipeline</h1>\n\n    <h2>Nodes (" _ "\n    WAX-ML Streaming Pipeline\n\n    Nodes (" (by decide +kernel),
    shown_plain _ _ (hnum _), shown_lit ")</h2>\n    <div>\n" _ ")\n    \n" (by decide +kernel), kn _ hn,
    shown_lit "\n    </div>\n\n    <h2>Edges (" _ "\n    \n\n    Edges (" (by decide +kernel), shown_plain _ _ (hnum _),
    shown_lit ")</h2>\n    <div>\n" _ ")\n    \n" (by decide +kernel), ke _ he, hend]

/-- C172 fails: a name that looks like a tag, as `<lambda>`, the name of every lambda expression, is not shown: the page shows what
it would show for a node without a name. -/
theorem C172_tag_names_hidden (g : Graph) (n : Node) (c : Char) (body : Text) (hc : beginsTag c = true) (hb : '>' ∉ body)
    (hname : n.name = '<' :: c :: body ++ ['>']) (hcol : '>' ∉ n.color) :
    shown (nodeHtml num dictRepr g n) = shown (nodeHtml num dictRepr g { n with name := [] }) := by
  unfold nodeHtml
  simp only [hname]
  rw [shown_nodeHead _ _ hcol, shown_nodeHead _ _ hcol]
  congr 1
  have := shown_tag c body ("</strong> (".toList ++ (n.moduleType ++ (")\n            <br>ID: ".toList ++ (n.id ++ ("\n".toList ++
    ((if g.includeShapes && !n.inputShapes.isEmpty then "<br>Input shapes: ".toList ++ shapesText num n.inputShapes else []) ++
    ((if g.includeParameters && !n.parameters.isEmpty then "<br>Parameters: ".toList ++ dictRepr n.parameters else []) ++
    "</div>".toList))))))) hc hb
  rw [List.nil_append, ← this, List.append_assoc]
  rfl

/-- Non-vacuity: a named function and a lambda expression. -/
example : (String.ofList (shown (nodeHtml (fun _ => ['7']) (fun _ => []) ⟨true, false, 20, [], []⟩
      (mainNode (fun _ => ['7']) "f".toList "Function".toList [] (.array [7])))) =
        "\n        \n            f (Function)\n            ID: main\nInput shapes: {'input': (7,)}") ∧
    (String.ofList (shown (nodeHtml (fun _ => ['7']) (fun _ => []) ⟨true, false, 20, [], []⟩
      (mainNode (fun _ => ['7']) "<lambda>".toList "Function".toList [] (.array [7])))) =
        "\n        \n             (Function)\n            ID: main\nInput shapes: {'input': (7,)}") := by decide +kernel

/-! ## C173: the plain text -/

/-- No line break. -/
def OneLine (t : Text) : Prop := '\n' ∉ t

/-- Nodes whose texts are single lines. -/
def LineNode (n : Node) : Prop :=
  OneLine n.id ∧ OneLine n.name ∧ OneLine n.moduleType ∧ OneLine (shapesText num n.inputShapes) ∧ OneLine (dictRepr n.parameters)

def LineEdge (e : Edge) : Prop := OneLine e.source ∧ OneLine e.target ∧ OneLine e.label

/-- C173: read line by line, the plain text is a heading, then for every node, in order, a line with its identifier, name and type,
followed by its shapes and parameters if these were asked for and it has any, then for every edge, in order, one line with its ends
and label. -/
theorem C173_text_lines (g : Graph) (hn : ∀ n ∈ g.nodes, LineNode num dictRepr n) (he : ∀ e ∈ g.edges, LineEdge e) :
    splitLines (textContent num dictRepr g) =
      ["WAX-ML Streaming Pipeline Graph".toList, "========================================".toList, [], "Nodes:".toList] ++
      (g.nodes.map fun n =>
        ["  ".toList ++ n.id ++ ": ".toList ++ n.name ++ " (".toList ++ n.moduleType ++ ")".toList] ++
        (if g.includeShapes = true ∧ n.inputShapes ≠ [] then ["    Input shapes: ".toList ++ shapesText num n.inputShapes] else []) ++
        (if g.includeParameters = true ∧ n.parameters ≠ [] then ["    Parameters: ".toList ++ dictRepr n.parameters] else [])).flatten ++
      [[], "Edges:".toList] ++
      (g.edges.map fun e => "  ".toList ++ e.source ++ " -> ".toList ++ e.target ++
        (if e.label = [] then [] else " [".toList ++ e.label ++ "]".toList)) := by
  have l1 : "  ".toList = [' ', ' '] := by decide +kernel
  have l2 : ": ".toList = [':', ' '] := by decide +kernel
  have l3 : " (".toList = [' ', '('] := by decide +kernel
  have l4 : ")".toList = [')'] := by decide +kernel
  have l5 : " [".toList = [' ', '['] := by decide +kernel
  have l6 : "]".toList = [']'] := by decide +kernel
  have l7 : "========================================".toList = List.replicate 40 '=' := by decide +kernel
  have hlines : textLines num dictRepr g = _ := rfl
  unfold textContent
  rw [splitLines_join]
  · rw [l1, l2, l3, l4, l5, l6, l7]
    unfold textLines
    congr 1
    · congr 2
      rw [List.flatMap_def]
      congr 1
      apply List.map_congr_left
      intro n _
      simp only [nodeLines]
      congr 2
      · congr 2
        · simp
      · simp
    · apply List.map_congr_left
      intro e _
      simp only [edgeText, labelSuffix]
      congr 1
      by_cases h : e.label = [] <;> simp [h]
  · simp [textLines]
  · intro l hl
    have c1 : '\n' ∉ "WAX-ML Streaming Pipeline Graph".toList := by decide +kernel
    have c2 : '\n' ∉ "Nodes:".toList := by decide +kernel
    have c3 : '\n' ∉ "Edges:".toList := by decide +kernel
    have c4 : '\n' ∉ "    Input shapes: ".toList := by decide +kernel
    have c5 : '\n' ∉ "    Parameters: ".toList := by decide +kernel
    have c6 : '\n' ∉ " -> ".toList := by decide +kernel
    simp only [textLines, List.mem_append, List.mem_cons, List.not_mem_nil, or_false, List.mem_flatMap, List.mem_map] at hl
    rcases hl with (((rfl | rfl | rfl | rfl) | ⟨n, hn', hl⟩) | rfl | rfl) | ⟨e, he', rfl⟩
    · exact c1
    · simp [List.mem_replicate]
    · simp
    · exact c2
    · obtain ⟨a1, a2, a3, a4, a5⟩ := hn n hn'
      unfold OneLine at a1 a2 a3 a4 a5
      simp only [nodeLines, List.mem_append, List.mem_singleton] at hl
      rcases hl with (rfl | hl) | hl
      · simp [a1, a2, a3]
      · split at hl
        · rw [List.mem_singleton] at hl; subst hl
          rw [List.mem_append]; exact not_or.2 ⟨c4, a4⟩
        · simp at hl
      · split at hl
        · rw [List.mem_singleton] at hl; subst hl
          rw [List.mem_append]; exact not_or.2 ⟨c5, a5⟩
        · simp at hl
    · simp
    · exact c3
    · obtain ⟨a1, a2, a3⟩ := he e he'
      unfold OneLine at a1 a2 a3
      have : '\n' ∉ labelSuffix e := by
        unfold labelSuffix
        split <;> simp [a3]
      unfold edgeText
      simp only [List.mem_append, not_or]
      exact ⟨⟨⟨⟨by simp, a1⟩, c6⟩, a2⟩, this⟩

/-- C173: parameters are shown only if asked for; then exactly the parameters of the module, in order, arrays by their shape, never
by their values, and dictionaries by their number of entries. -/
theorem C173_shown_parameters (inc : Bool) (params : List (Text × Param)) :
    (inc = false → simplifyParams num inc params = []) ∧
    (inc = true → (simplifyParams num inc params).map Prod.fst = params.map Prod.fst ∧
      ∀ k v, (k, v) ∈ params → ∃ t, (k, t) ∈ simplifyParams num inc params ∧
        (∀ s, v = .array s → t = "shape=".toList ++ tupleText (s.map num)) ∧
        (∀ s, v = .scalar s → t = s) ∧
        (∀ s, v = .dict s → t = "dict(".toList ++ num s ++ " items)".toList) ∧
        (∀ s, v = .other s → t = s)) := by
  constructor
  · rintro rfl; rfl
  · rintro rfl
    simp only [simplifyParams, Bool.not_true, Bool.false_eq_true, if_false, List.map_map]
    refine ⟨rfl, fun k v h => ⟨_, List.mem_map.2 ⟨_, h, rfl⟩, ?_, ?_, ?_, ?_⟩⟩ <;> (rintro s rfl; rfl)

/-- Non-vacuity: a graph of two nodes and an edge. -/
example : (splitLines (textContent (fun _ => ['7']) (fun _ => []) ⟨true, false, 20,
      [mainNode (fun _ => ['7']) "f".toList "Function".toList [] (.array [7]), ⟨"a.b".toList, "b".toList, "EWMA".toList, [], [], [], [], []⟩],
      [⟨"main".toList, "a.b".toList, "module".toList, [], []⟩]⟩)).map String.ofList =
    ["WAX-ML Streaming Pipeline Graph", "========================================", "", "Nodes:", "  main: f (Function)",
      "    Input shapes: {'input': (7,)}", "  a.b: b (EWMA)", "", "Edges:", "  main -> a.b [module]"] := by decide +kernel

end

end Verif.Props
