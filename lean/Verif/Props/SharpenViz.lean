import Verif.Props.VizNested

/-! # Sharper statements, third part: which dictionaries are modules, and functions that cannot be analysed -/

set_option linter.unusedSectionVars false

namespace Verif.Props
open Verif Model.Viz

/-- C135: a dictionary of parameters counts as a module exactly if it has one of the seven keys. -/
theorem C135_module_dictionaries (items : List (Key × PVal)) :
    marked items = true ↔ Has items "kernel" ∨ Has items "weight" ∨ Has items "bias" ∨ Has items "alpha" ∨ Has items "scale" ∨
      Has items "logcom" ∨ Has items "maxlen" := by
  have h : ∀ k : String, (items.any fun kv => kv.1 = k.toList) = true ↔ Has items k := hasKey_iff items
  simp only [marked, markers, List.map_cons, List.map_nil, List.any_cons, List.any_nil, Bool.or_false, Bool.or_eq_true, h]

/-- C135: a plain function, and a Flax function whose `init` fails, is one node of type `Function` named after it; if `init` gives
something unknown, or no parameters, the node has type `StreamingFunction`.  The nodes found by earlier analyses with the same renderer
are kept, except an earlier `main`; so are the edges. -/
theorem C135_fallbacks (strHas : String → List (Key × PVal) → Bool) (name : Key) (g : Graph) :
    (analyzePlain name Graph.empty).nodes = [("main".toList, ⟨"main".toList, name, "Function"⟩)] ∧
    (analyzeFlax strHas name .raises Graph.empty).nodes = [("main".toList, ⟨"main".toList, name, "Function"⟩)] ∧
    (analyzeFlax strHas name .unknown Graph.empty).nodes = [("main".toList, ⟨"main".toList, name, "StreamingFunction"⟩)] ∧
    (analyzeFlax strHas name (.params []) Graph.empty).nodes = [("main".toList, ⟨"main".toList, name, "StreamingFunction"⟩)] ∧
    (analyzePlain name g).edges = g.edges ∧ (analyzeFlax strHas name .raises g).edges = g.edges ∧
    (analyzeFlax strHas name .unknown g).edges = g.edges ∧
    (∀ id, id ∈ (analyzePlain name g).nodes.map Prod.fst ↔ id = "main".toList ∨ id ∈ g.nodes.map Prod.fst) ∧
    (∀ id, id ∈ (analyzeFlax strHas name .raises g).nodes.map Prod.fst ↔ id = "main".toList ∨ id ∈ g.nodes.map Prod.fst) ∧
    (∀ id, id ∈ (analyzeFlax strHas name .unknown g).nodes.map Prod.fst ↔ id = "main".toList ∨ id ∈ g.nodes.map Prod.fst) := by
  refine ⟨rfl, rfl, rfl, ?_, rfl, rfl, rfl, fun id => mem_put_keys _ _ _ _, fun id => mem_put_keys _ _ _ _, fun id => mem_put_keys _ _ _ _⟩
  simp only [analyzeFlax, extract]
  rfl

/-- Non-vacuity: a scale makes a module, a statistic does not. -/
example : marked [("scale".toList, .other)] = true ∧ marked [("mean".toList, .other), ("params".toList, .dict [])] = false := by decide +kernel

end Verif.Props
