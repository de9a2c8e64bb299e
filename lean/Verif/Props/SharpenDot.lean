import Verif.Props.Dot
import Verif.Props.Panels

/-! # C158, C165: what a node label and an edge line say, and the default of a drop-down list -/

set_option linter.unusedSectionVars false
set_option linter.unusedSimpArgs false

namespace Verif.Props
open Model.Dot Spec.Dot

/-- The rows of a DOT label: the text between the two-character sequences `\n`. -/
def labelRows : Text → List Text
  | [] => [[]]
  | '\\' :: 'n' :: r => [] :: labelRows r
  | c :: r =>
    match labelRows r with
    | [] => [[c]]
    | a :: l => (c :: a) :: l

theorem labelRows_clean (t : Text) (h : CleanText t) : labelRows t = [t] := by
  induction t with
  | nil => rfl
  | cons c t ih =>
    have hc : c ≠ '\\' := (h c (by simp)).2.1
    have ht := ih fun d hd => h d (by simp [hd])
    unfold labelRows
    split
    · rename_i heq; cases heq
    · rename_i heq; simp at heq; exact absurd heq.1 hc
    · rename_i heq; simp at heq; obtain ⟨rfl, rfl⟩ := heq; rw [ht]

theorem labelRows_append (t u : Text) (h : CleanText t) : labelRows (t ++ (nl ++ u)) = t :: labelRows u := by
  induction t with
  | nil => rfl
  | cons c t ih =>
    have hc : c ≠ '\\' := (h c (by simp)).2.1
    have ht := ih fun d hd => h d (by simp [hd])
    rw [List.cons_append]
    conv_lhs => unfold labelRows
    split
    · rename_i heq; cases heq
    · rename_i heq; simp at heq; exact absurd heq.1 hc
    · rename_i heq; simp at heq; obtain ⟨rfl, rfl⟩ := heq; rw [ht]

theorem labelRows_nl (u : Text) : labelRows (nl ++ u) = [] :: labelRows u := labelRows_append [] u (by intro c hc; cases hc)

theorem labelRows_join (l : List Text) (hne : l ≠ []) (h : ∀ t ∈ l, CleanText t) : labelRows (join nl l) = l := by
  induction l with
  | nil => exact absurd rfl hne
  | cons a l ih =>
    cases l with
    | nil => exact labelRows_clean a (h a (by simp))
    | cons b l =>
      have : join nl (a :: b :: l) = a ++ (nl ++ join nl (b :: l)) := by simp [join]
      rw [this, labelRows_append _ _ (h a (by simp)), ih (by simp) fun t ht => h t (by simp [ht])]

theorem join_append (a b : List Text) (ha : a ≠ []) (hb : b ≠ []) : join nl (a ++ b) = join nl a ++ (nl ++ join nl b) := by
  induction a with
  | nil => exact absurd rfl ha
  | cons x a ih =>
    cases a with
    | nil =>
      cases b with
      | nil => exact absurd rfl hb
      | cons y b => simp [join]
    | cons z a => simp only [List.cons_append, join] at *; rw [ih (by simp)]; simp

/-- A block of lines of a label: nothing, or an empty line and then the lines. -/
def block (on : Prop) [Decidable on] (l : List Text) : List Text := if on ∧ l ≠ [] then [] :: l else []

/-- A shape that is not the empty tuple. -/
def HasText : Shape → Prop
  | .dims l => l ≠ []
  | .strs l => l ≠ []

instance (s : Shape) : Decidable (HasText s) := by unfold HasText; cases s <;> infer_instance

variable (num : Nat → Text) (hnum : ∀ n, CleanText (num n))
include hnum

theorem labelRows_block (pre : List Text) (hp : pre ≠ []) (hpre : ∀ t ∈ pre, CleanText t) (on : Bool) (l : List Text)
    (hl : ∀ t ∈ l, CleanText t) (on' : Bool) (l' : List Text) (hl' : ∀ t ∈ l', CleanText t) :
    labelRows (join nl (pre ++ (if on && !l.isEmpty then [nl ++ join nl l] else []) ++
      (if on' && !l'.isEmpty then [nl ++ join nl l'] else []))) = pre ++ block (on = true) l ++ block (on' = true) l' := by
  have key : ∀ (pre : List Text), pre ≠ [] → (∀ t ∈ pre, CleanText t) → ∀ u : Text,
      labelRows (join nl pre ++ (nl ++ u)) = pre ++ labelRows u := by
    intro pre hp hpre u
    induction pre with
    | nil => exact absurd rfl hp
    | cons a pre ih =>
      cases pre with
      | nil => exact labelRows_append a u (hpre a (by simp))
      | cons b pre =>
        have : join nl (a :: b :: pre) ++ (nl ++ u) = a ++ (nl ++ (join nl (b :: pre) ++ (nl ++ u))) := by simp [join]
        rw [this, labelRows_append _ _ (hpre a (by simp)), ih (by simp) fun t ht => hpre t (by simp [ht])]
        rfl
  have two : ∀ (on : Bool) (l : List Text), (if on && !l.isEmpty then [nl ++ join nl l] else ([] : List Text)) =
      (if on = true ∧ l ≠ [] then [nl ++ join nl l] else []) := by
    intro on l; cases on <;> cases l <;> rfl
  rw [two, two]
  unfold block
  by_cases h1 : on = true ∧ l ≠ []
  · by_cases h2 : on' = true ∧ l' ≠ []
    · rw [if_pos h1, if_pos h2, if_pos h1, if_pos h2, join_append _ _ (by simp) (by simp), join_append _ _ hp (by simp)]
      simp only [join]
      rw [List.append_assoc, List.append_assoc, key pre hp hpre]
      simp only [List.append_assoc]
      rw [labelRows_nl, key l h1.2 hl, labelRows_nl, labelRows_join l' h2.2 hl']
      simp
    · rw [if_pos h1, if_neg h2, if_pos h1, if_neg h2, List.append_nil, List.append_nil, join_append _ _ hp (by simp)]
      simp only [join]
      rw [key pre hp hpre, labelRows_nl, labelRows_join l h1.2 hl]
  · by_cases h2 : on' = true ∧ l' ≠ []
    · rw [if_neg h1, if_pos h2, if_neg h1, if_pos h2, List.append_nil, join_append _ _ hp (by simp)]
      simp only [join]
      rw [key pre hp hpre, labelRows_nl, labelRows_join l' h2.2 hl']
    · rw [if_neg h1, if_neg h2, if_neg h1, if_neg h2]
      simp only [List.append_nil]
      exact labelRows_join pre hp hpre

/-- C158: the rows of the label of a node: its name, cut to the maximal length and followed by `...` when it is longer; its type in
parentheses when it differs from the name; then, when shapes are asked for, an empty row and every shape that is not the empty
tuple; then, when parameters are asked for, an empty row and the first three parameters. -/
theorem C158_label_rows (g : Graph) (n : Node) (h : CleanNode n) :
    labelRows (nodeLabel num g n) =
      [if n.name.length ≤ g.maxLabelLength then n.name else n.name.take g.maxLabelLength ++ "...".toList] ++
      (if n.moduleType = n.name then [] else ["(".toList ++ n.moduleType ++ ")".toList]) ++
      block (g.includeShapes = true)
        ((n.inputShapes.filter fun ks => HasText ks.2).map fun ks => ks.1 ++ ": ".toList ++ shapeText num ks.2) ++
      block (g.includeParameters = true) ((n.parameters.take 3).map fun p => p.1 ++ "=".toList ++ p.2) := by
  obtain ⟨-, hname, htype, -, -, -, hshapes, hparams⟩ := h
  have hfm : n.inputShapes.filterMap (shownShape num) =
      (n.inputShapes.filter fun ks => HasText ks.2).map fun ks => ks.1 ++ ": ".toList ++ shapeText num ks.2 := by
    generalize n.inputShapes = l
    induction l with
    | nil => rfl
    | cons ks l ih =>
      obtain ⟨k, s⟩ := ks
      cases s with
      | dims d =>
        rw [List.filterMap_cons, List.filter_cons]
        cases d <;> simp [shownShape, HasText, ih]
      | strs d =>
        rw [List.filterMap_cons, List.filter_cons]
        cases d <;> simp [shownShape, HasText, ih]
  have hc : ∀ t ∈ n.inputShapes.filterMap (shownShape num), CleanText t := by
    intro t ht
    rw [hfm] at ht
    obtain ⟨ks, hks, rfl⟩ := List.mem_map.1 ht
    obtain ⟨hk, hs⟩ := hshapes ks (List.mem_of_mem_filter hks)
    refine clean_append.2 ⟨clean_append.2 ⟨hk, ?_⟩, clean_shape num hnum ks.2 hs⟩
    intro c hc; simp at hc; rcases hc with rfl | rfl <;> decide
  have hp : ∀ t ∈ (n.parameters.take 3).map (fun p => p.1 ++ ['='] ++ p.2), CleanText t := by
    intro t ht
    obtain ⟨p, hp, rfl⟩ := List.mem_map.1 ht
    obtain ⟨h1, h2⟩ := hparams p (List.mem_of_mem_take hp)
    refine clean_append.2 ⟨clean_append.2 ⟨h1, ?_⟩, h2⟩
    intro c hc; simp at hc; subst hc; decide
  have hsp : shapeParts num g.includeShapes n = if g.includeShapes && !(n.inputShapes.filterMap (shownShape num)).isEmpty then
      [nl ++ join nl (n.inputShapes.filterMap (shownShape num))] else [] := by
    unfold shapeParts
    cases n.inputShapes with
    | nil => simp
    | cons a l => simp only [List.isEmpty_cons, Bool.not_false, Bool.and_true]
  unfold nodeLabel
  rw [hsp]
  unfold paramParts
  have := labelRows_block num hnum (nameParts g.maxLabelLength n) (by simp [nameParts]) (nameParts_clean _ _ hname htype)
    g.includeShapes _ hc g.includeParameters _ hp
  rw [this, hfm]
  have e1 : (fun p : Text × Text => p.1 ++ ['='] ++ p.2) = fun p => p.1 ++ "=".toList ++ p.2 := by
    funext p; congr 2
  rw [e1]
  congr 2
  unfold nameParts
  congr 1
  · split_ifs with h1 h2 <;> first | rfl | omega
  · by_cases h2 : n.moduleType = n.name
    · rw [if_pos h2, if_neg (by simp [h2])]
    · rw [if_neg h2, if_pos h2]; rfl

omit hnum in
/-- C158: the line of an edge: source, target, and, in square brackets when there is one, each attribute among label, colour and
style that differs from its default (no label, `#424242`, `solid`). -/
theorem C158_edge_line (e : Edge) :
    let attrs : List (Text × Text × Text) := [("label".toList, e.label, []), ("color".toList, e.color, "#424242".toList), ("style".toList, e.style, "solid".toList)]
    let given : List Text := (attrs.filter fun a => a.2.1 ≠ a.2.2).map fun a => a.1 ++ "=\"".toList ++ a.2.1 ++ "\"".toList
    edgeLine e = "  \"".toList ++ e.source ++ "\" -> \"".toList ++ e.target ++ "\"".toList ++
      (if given = [] then [] else " [".toList ++ join ", ".toList given ++ "]".toList) ++ ";".toList := by
  intro attrs given
  have l1 : ("label=\"".toList : Text) = "label".toList ++ "=\"".toList := by decide +kernel
  have l2 : ("color=\"".toList : Text) = "color".toList ++ "=\"".toList := by decide +kernel
  have l3 : ("style=\"".toList : Text) = "style".toList ++ "=\"".toList := by decide +kernel
  have l4 : ("\"".toList : Text) = ['"'] := by decide +kernel
  have l5 : ("  \"".toList : Text) = [' ', ' ', '"'] := by decide +kernel
  have l6 : ("\" -> \"".toList : Text) = '"' :: " -> \"".toList := by decide +kernel
  have l7 : (", ".toList : Text) = [',', ' '] := by decide +kernel
  have l8 : (" [".toList : Text) = [' ', '['] := by decide +kernel
  have l9 : ("]".toList : Text) = [']'] := by decide +kernel
  have l10 : (";".toList : Text) = [';'] := by decide +kernel
  have hg : given = edgeAttrs e := by
    simp only [given, attrs, edgeAttrs]
    rw [l1, l2, l3, l4]
    generalize "#424242".toList = d2
    generalize "solid".toList = d3
    generalize "label".toList = k1
    generalize "color".toList = k2
    generalize "style".toList = k3
    generalize "=\"".toList = q
    by_cases h1 : e.label = [] <;> by_cases h2 : e.color = d2 <;> by_cases h3 : e.style = d3 <;>
      simp [h1, h2, h3, List.filter]
  rw [hg, l4, l5, l6, l7, l8, l9, l10]
  unfold edgeLine
  generalize " -> \"".toList = q
  by_cases h : edgeAttrs e = []
  · rw [if_pos h, if_neg (by simpa using h)]
    simp only [List.append_assoc, List.cons_append, List.nil_append]
  · rw [if_neg h, if_pos h]
    simp only [List.append_assoc, List.cons_append, List.nil_append]

example : String.ofList (edgeLine ⟨"a".toList, "b".toList, [], "#FF0000".toList, "solid".toList⟩) = "  \"a\" -> \"b\" [color=\"#FF0000\"];" := by
  decide +kernel

omit hnum in
/-- C158: the line of a node: its identifier, its label, and its colour, style and shape. -/
theorem C158_node_line (g : Graph) (n : Node) :
    nodeLine num g n = "  \"".toList ++ n.id ++ "\" [label=\"".toList ++ nodeLabel num g n ++ "\", color=\"".toList ++ n.color ++
      "\", style=\"".toList ++ n.style ++ "\", shape=\"".toList ++ n.shape ++ "\"];".toList := by
  have l5 : ("  \"".toList : Text) = [' ', ' ', '"'] := by decide +kernel
  have l6 : ("\" [label=\"".toList : Text) = '"' :: " [label=\"".toList := by decide +kernel
  have l7 : ("\", color=\"".toList : Text) = '"' :: ", color=\"".toList := by decide +kernel
  rw [l5, l6, l7]
  unfold nodeLine
  simp only [List.append_assoc, List.cons_append, List.nil_append]

omit hnum in
/-- C165: a drop-down list without options starts at "Option 1". -/
theorem C165_dropdown_default (c : Model.Panels.WidgetConfig) (ht : c.type = some "dropdown") (hv : c.value = none)
    (ho : c.options = none) : Model.Panels.widgetValue c = some (.text "Option 1") := by
  simp [Model.Panels.widgetValue, ht, hv, ho]

end Verif.Props
