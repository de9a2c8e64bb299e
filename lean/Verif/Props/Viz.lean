import Verif.Model.Viz
import Mathlib.Data.List.Perm.Basic
import Mathlib.Data.List.Nodup
import Mathlib.Data.List.Infix
import Mathlib.Algebra.BigOperators.Group.List.Basic

/-!
# C135-C140: computation graph and nested graph
-/

set_option linter.unusedSectionVars false

namespace Verif.Props
open Verif.Model.Viz

/-! ## Dictionaries -/

section Put
variable {V : Type}

theorem mem_put_keys (d : List (Key × V)) (k : Key) (v : V) (k' : Key) :
    k' ∈ (put d k v).map Prod.fst ↔ k' = k ∨ k' ∈ d.map Prod.fst := by
  induction d with
  | nil => simp [put]
  | cons e d ih =>
    obtain ⟨a, b⟩ := e
    unfold put
    by_cases h : a = k
    · subst h; simp
    · simp only [h, if_false, List.map_cons, List.mem_cons, ih]; tauto

theorem mem_put (d : List (Key × V)) (k : Key) (v : V) (e : Key × V) (h : e ∈ put d k v) : e = (k, v) ∨ (e ∈ d ∧ (e.1 ≠ k ∨ ¬ (d.map Prod.fst).Nodup)) := by
  induction d with
  | nil => simp only [put, List.mem_singleton] at h; exact Or.inl h
  | cons x d ih =>
    obtain ⟨a, b⟩ := x
    unfold put at h
    by_cases ha : a = k
    · subst ha
      simp only [if_true, List.mem_cons] at h
      rcases h with h | h
      · exact Or.inl h
      · refine Or.inr ⟨by simp [h], ?_⟩
        by_cases he : e.1 = a
        · right
          intro hn
          simp only [List.map_cons, List.nodup_cons] at hn
          exact hn.1 (he ▸ List.mem_map_of_mem h)
        · exact Or.inl he
    · simp only [ha, if_false, List.mem_cons] at h
      rcases h with h | h
      · exact Or.inr ⟨by simp [h], Or.inl (by rw [h]; exact ha)⟩
      · rcases ih h with h | ⟨h, h2⟩
        · exact Or.inl h
        · refine Or.inr ⟨by simp [h], ?_⟩
          rcases h2 with h2 | h2
          · exact Or.inl h2
          · right; intro hn; simp only [List.map_cons, List.nodup_cons] at hn; exact h2 hn.2

theorem put_nodup (d : List (Key × V)) (k : Key) (v : V) (h : (d.map Prod.fst).Nodup) : ((put d k v).map Prod.fst).Nodup := by
  induction d with
  | nil => simp [put]
  | cons e d ih =>
    obtain ⟨a, b⟩ := e
    simp only [List.map_cons, List.nodup_cons] at h
    unfold put
    by_cases ha : a = k
    · subst ha; simpa using h
    · simp only [ha, if_false, List.map_cons, List.nodup_cons]
      refine ⟨fun hm => ?_, ih h.2⟩
      rcases (mem_put_keys d k v a).1 hm with e | e
      · exact ha e
      · exact h.1 e

theorem mem_put_self (d : List (Key × V)) (k : Key) (v : V) : (k, v) ∈ put d k v := by
  induction d with
  | nil => simp [put]
  | cons e d ih =>
    obtain ⟨a, b⟩ := e
    unfold put
    by_cases ha : a = k
    · simp [ha]
    · simp [ha, ih]

end Put

/-! ## C135: nodes and edges of the computation graph -/

/-- Specification: following the keys of `path` from a dictionary of parameters leads to the dictionary `inner`. -/
inductive DictAt : List (Key × PVal) → List Key → List (Key × PVal) → Prop
  | here {items k inner} : (k, PVal.dict inner) ∈ items → DictAt items [k] inner
  | inside {items k sub path inner} : (k, PVal.dict sub) ∈ items → DictAt sub path inner → DictAt items (k :: path) inner

/-- Specification: a module with parameters of its own at `path`: a dictionary with a key such as `kernel` or `bias`, inside
dictionaries without such keys. -/
inductive ModuleAt : List (Key × PVal) → List Key → List (Key × PVal) → Prop
  | here {items k inner} : (k, PVal.dict inner) ∈ items → marked inner = true → ModuleAt items [k] inner
  | inside {items k sub path inner} : (k, PVal.dict sub) ∈ items → marked sub = false → ModuleAt sub path inner →
      ModuleAt items (k :: path) inner

/-- Specification: the dotted name of a path. -/
def dotted (path : List Key) : Key := ['.'].intercalate path

theorem moduleAt_nil {path inner} : ¬ ModuleAt [] path inner := by
  intro h; cases h with
  | here h _ => simp at h
  | inside h _ _ => simp at h

theorem moduleAt_cons {k : Key} {v : PVal} {rest : List (Key × PVal)} {path inner} :
    ModuleAt ((k, v) :: rest) path inner ↔ ModuleAt [(k, v)] path inner ∨ ModuleAt rest path inner := by
  constructor
  · intro h
    cases h with
    | here hm hk =>
      rcases List.mem_cons.1 hm with e | e
      · left; exact .here (by simp [e]) hk
      · right; exact .here e hk
    | inside hm hk hs =>
      rcases List.mem_cons.1 hm with e | e
      · left; exact .inside (by simp [e]) hk hs
      · right; exact .inside e hk hs
  · rintro (h | h)
    · cases h with
      | here hm hk => exact .here (by simp at hm; simp [hm]) hk
      | inside hm hk hs => exact .inside (by simp at hm; simp [hm]) hk hs
    · cases h with
      | here hm hk => exact .here (by simp [hm]) hk
      | inside hm hk hs => exact .inside (by simp [hm]) hk hs

theorem moduleAt_single {k : Key} {items : List (Key × PVal)} {path inner} :
    ModuleAt [(k, .dict items)] path inner ↔
      (marked items = true ∧ path = [k] ∧ inner = items) ∨
      (marked items = false ∧ ∃ p, path = k :: p ∧ ModuleAt items p inner) := by
  constructor
  · intro h
    cases h with
    | here hm hk =>
      simp only [List.mem_singleton, Prod.mk.injEq, PVal.dict.injEq] at hm
      obtain ⟨rfl, rfl⟩ := hm
      exact Or.inl ⟨hk, rfl, rfl⟩
    | inside hm hk hs =>
      simp only [List.mem_singleton, Prod.mk.injEq, PVal.dict.injEq] at hm
      obtain ⟨rfl, rfl⟩ := hm
      exact Or.inr ⟨hk, _, rfl, hs⟩
  · rintro (⟨hk, rfl, rfl⟩ | ⟨hk, p, rfl, hs⟩)
    · exact .here (by simp) hk
    · exact .inside (by simp) hk hs

theorem moduleAt_other {k : Key} {path inner} : ¬ ModuleAt [(k, .other)] path inner := by
  intro h
  cases h with
  | here hm _ => simp at hm
  | inside hm _ _ => simp at hm

variable (strHas : String → List (Key × PVal) → Bool)

mutual
theorem extract_ids : ∀ (items : List (Key × PVal)) (parent : Key) (g : Graph) (id : Key),
    id ∈ (extract strHas items parent g).nodes.map Prod.fst ↔
      id ∈ g.nodes.map Prod.fst ∨ ∃ path inner, ModuleAt items path inner ∧ id = path.foldl nodePath parent
  | [], parent, g, id => by
    simp only [extract]
    constructor
    · exact Or.inl
    · rintro (h | ⟨_, _, h, _⟩)
      · exact h
      · exact absurd h moduleAt_nil
  | (k, v) :: rest, parent, g, id => by
    rw [extract, extract_ids rest, extractVal_ids v]
    simp only [moduleAt_cons (rest := rest)]
    constructor
    · rintro ((h | ⟨p, i, h, e⟩) | ⟨p, i, h, e⟩)
      · exact Or.inl h
      · exact Or.inr ⟨p, i, Or.inl h, e⟩
      · exact Or.inr ⟨p, i, Or.inr h, e⟩
    · rintro (h | ⟨p, i, h | h, e⟩)
      · exact Or.inl (Or.inl h)
      · exact Or.inl (Or.inr ⟨p, i, h, e⟩)
      · exact Or.inr ⟨p, i, h, e⟩
theorem extractVal_ids : ∀ (v : PVal) (k parent : Key) (g : Graph) (id : Key),
    id ∈ (extractVal strHas v k parent g).nodes.map Prod.fst ↔
      id ∈ g.nodes.map Prod.fst ∨ ∃ path inner, ModuleAt [(k, v)] path inner ∧ id = path.foldl nodePath parent
  | .other, k, parent, g, id => by
    simp only [extractVal]
    constructor
    · exact Or.inl
    · rintro (h | ⟨_, _, h, _⟩)
      · exact h
      · exact absurd h moduleAt_other
  | .dict items, k, parent, g, id => by
    simp only [extractVal, moduleAt_single]
    cases hm : marked items with
    | true =>
      simp only [if_true, addModule, mem_put_keys]
      constructor
      · rintro (h | h)
        · exact Or.inr ⟨[k], items, Or.inl ⟨trivial, rfl, rfl⟩, h⟩
        · exact Or.inl h
      · rintro (h | ⟨p, i, (⟨_, rfl, rfl⟩ | ⟨h, _⟩), e⟩)
        · exact Or.inr h
        · exact Or.inl e
        · cases h
    | false =>
      simp only [Bool.false_eq_true, if_false]
      rw [extract_ids items]
      constructor
      · rintro (h | ⟨p, i, h, e⟩)
        · exact Or.inl h
        · exact Or.inr ⟨k :: p, i, Or.inr ⟨trivial, p, rfl, h⟩, e⟩
      · rintro (h | ⟨p, i, (⟨h, _⟩ | ⟨_, q, rfl, h⟩), e⟩)
        · exact Or.inl h
        · cases h
        · exact Or.inr ⟨q, i, h, e⟩
end

mutual
theorem extract_nodes : ∀ (items : List (Key × PVal)) (parent : Key) (g : Graph) (e : Key × Node),
    e ∈ (extract strHas items parent g).nodes →
      e ∈ g.nodes ∨ ∃ path inner k, ModuleAt items path inner ∧ path.getLast? = some k ∧ e.1 = path.foldl nodePath parent ∧
        e.2 = ⟨e.1, k, inferType strHas k inner⟩
  | [], parent, g, e => by simp only [extract]; exact Or.inl
  | (k, v) :: rest, parent, g, e => by
    rw [extract]
    intro h
    rcases extract_nodes rest _ _ _ h with h | ⟨p, i, k', h, h2⟩
    · rcases extractVal_nodes v _ _ _ _ h with h | ⟨p, i, k', h, h2⟩
      · exact Or.inl h
      · exact Or.inr ⟨p, i, k', moduleAt_cons.2 (Or.inl h), h2⟩
    · exact Or.inr ⟨p, i, k', moduleAt_cons.2 (Or.inr h), h2⟩
theorem extractVal_nodes : ∀ (v : PVal) (k parent : Key) (g : Graph) (e : Key × Node),
    e ∈ (extractVal strHas v k parent g).nodes →
      e ∈ g.nodes ∨ ∃ path inner k', ModuleAt [(k, v)] path inner ∧ path.getLast? = some k' ∧ e.1 = path.foldl nodePath parent ∧
        e.2 = ⟨e.1, k', inferType strHas k' inner⟩
  | .other, k, parent, g, e => by simp only [extractVal]; exact Or.inl
  | .dict items, k, parent, g, e => by
    simp only [extractVal]
    cases hm : marked items with
    | true =>
      simp only [if_true, addModule]
      intro h
      rcases mem_put _ _ _ _ h with h | ⟨h, _⟩
      · exact Or.inr ⟨[k], items, k, moduleAt_single.2 (Or.inl ⟨hm, rfl, rfl⟩), rfl, by rw [h]; rfl, by rw [h]⟩
      · exact Or.inl h
    | false =>
      simp only [Bool.false_eq_true, if_false]
      intro h
      rcases extract_nodes items _ _ _ h with h | ⟨p, i, k', h, hl, h2⟩
      · exact Or.inl h
      · refine Or.inr ⟨k :: p, i, k', moduleAt_single.2 (Or.inr ⟨hm, p, rfl, h⟩), ?_, h2⟩
        cases p with
        | nil => simp at hl
        | cons a p => rw [List.getLast?_cons_cons]; exact hl
end

mutual
/-- Every level of the tree has distinct keys, none of them empty or with a dot: Flax's names of submodules. -/
def wellNamed : List (Key × PVal) → Bool
  | [] => true
  | (k, v) :: rest => decide (k ≠ []) && decide ('.' ∉ k) && rest.all (fun kv => decide (kv.1 ≠ k)) && wellNamedVal v && wellNamed rest
def wellNamedVal : PVal → Bool
  | .other => true
  | .dict items => wellNamed items
end

theorem wellNamed_nodup : ∀ (items : List (Key × PVal)), wellNamed items = true → (items.map Prod.fst).Nodup
  | [], _ => List.nodup_nil
  | (k, v) :: rest, h => by
    simp only [wellNamed, Bool.and_eq_true, List.all_eq_true, decide_eq_true_eq] at h
    rw [List.map_cons, List.nodup_cons]
    refine ⟨fun hm => ?_, wellNamed_nodup rest h.2⟩
    obtain ⟨e, he, h2⟩ := List.mem_map.1 hm
    exact h.1.1.2 e he h2

theorem wellNamed_mem : ∀ (items : List (Key × PVal)), wellNamed items = true → ∀ (k : Key) (v : PVal), (k, v) ∈ items →
    k ≠ [] ∧ '.' ∉ k ∧ wellNamedVal v = true
  | [], _, k, v, hm => by simp at hm
  | (k', v') :: rest, h, k, v, hm => by
    simp only [wellNamed, Bool.and_eq_true, List.all_eq_true, decide_eq_true_eq] at h
    rcases List.mem_cons.1 hm with e | e
    · simp only [Prod.mk.injEq] at e
      obtain ⟨rfl, rfl⟩ := e
      exact ⟨h.1.1.1.1, h.1.1.1.2, h.1.2⟩
    · exact wellNamed_mem rest h.2 k v e

theorem dictAt_names {items path inner} (h : DictAt items path inner) (hw : wellNamed items = true) :
    (∀ k ∈ path, k ≠ [] ∧ '.' ∉ k) ∧ path ≠ [] := by
  induction h with
  | here hm =>
    have := wellNamed_mem _ hw _ _ hm
    exact ⟨fun k hk => by simp at hk; rw [hk]; exact ⟨this.1, this.2.1⟩, by simp⟩
  | inside hm _ ih =>
    have h1 := wellNamed_mem _ hw _ _ hm
    have h2 := ih h1.2.2
    refine ⟨fun k hk => ?_, by simp⟩
    rcases List.mem_cons.1 hk with rfl | hk
    · exact ⟨h1.1, h1.2.1⟩
    · exact h2.1 k hk

theorem ModuleAt.dictAt {items path inner} (h : ModuleAt items path inner) : DictAt items path inner ∧ marked inner = true := by
  induction h with
  | here hm hk => exact ⟨.here hm, hk⟩
  | inside hm _ _ ih => exact ⟨.inside hm ih.1, ih.2⟩

theorem dictAt_unique {items path a} (h : DictAt items path a) (hw : wellNamed items = true) {b} (h2 : DictAt items path b) : a = b := by
  induction h with
  | here hm =>
    cases h2 with
    | here hm2 =>
      have := wellNamed_nodup _ hw
      have e := List.inj_on_of_nodup_map this hm hm2 rfl
      simpa using e
    | inside _ h3 => cases h3
  | inside hm hd ih =>
    cases h2 with
    | here _ => cases hd
    | inside hm2 h3 =>
      have := wellNamed_nodup _ hw
      have e := List.inj_on_of_nodup_map this hm hm2 rfl
      simp only [Prod.mk.injEq, PVal.dict.injEq, true_and] at e
      subst e
      exact ih (wellNamed_mem _ hw _ _ hm).2.2 h3

/-- Dotted names of non-empty dot-free keys determine the keys. -/
theorem dotted_inj : ∀ (p q : List Key), (∀ k ∈ p, k ≠ [] ∧ '.' ∉ k) → (∀ k ∈ q, k ≠ [] ∧ '.' ∉ k) → p ≠ [] → q ≠ [] →
    dotted p = dotted q → p = q := by
  intro p
  induction p with
  | nil => intro q _ _ h; exact absurd rfl h
  | cons a p ih =>
    intro q hp hq _ hqn he
    cases q with
    | nil => exact absurd rfl hqn
    | cons b q =>
      have ha := hp a (by simp)
      have hb := hq b (by simp)
      have key : ∀ (x y : Key) (u v : Key), '.' ∉ x → '.' ∉ y → x ++ '.' :: u = y ++ '.' :: v → x = y ∧ u = v := by
        intro x
        induction x with
        | nil =>
          intro y u v _ hy h
          cases y with
          | nil => simpa using h
          | cons c y => simp only [List.nil_append, List.cons_append, List.cons.injEq] at h; exact absurd (by simp [← h.1]) hy
        | cons c x ihx =>
          intro y u v hx hy h
          cases y with
          | nil => simp only [List.nil_append, List.cons_append, List.cons.injEq] at h; exact absurd (by simp [h.1]) hx
          | cons d y =>
            simp only [List.cons_append, List.cons.injEq] at h
            obtain ⟨h1, h2⟩ := ihx y u v (fun hm => hx (by simp [hm])) (fun hm => hy (by simp [hm])) h.2
            exact ⟨by rw [h.1, h1], h2⟩
      cases p with
      | nil =>
        cases q with
        | nil => simpa [dotted, List.intercalate] using he
        | cons c q =>
          exfalso
          apply ha.2
          have : a = b ++ '.' :: dotted (c :: q) := by simpa [dotted, List.intercalate] using he
          rw [this]; simp
      | cons c p =>
        cases q with
        | nil =>
          exfalso
          apply hb.2
          have : a ++ '.' :: dotted (c :: p) = b := by simpa [dotted, List.intercalate] using he
          rw [← this]; simp
        | cons d q =>
          have h : a ++ '.' :: dotted (c :: p) = b ++ '.' :: dotted (d :: q) := by simpa [dotted, List.intercalate] using he
          obtain ⟨h1, h2⟩ := key a b _ _ ha.2 hb.2 h
          rw [h1, ih (d :: q) (fun k hk => hp k (by simp [hk])) (fun k hk => hq k (by simp [hk])) (by simp) (by simp) h2]

theorem dotted_cons (a : Key) (p : List Key) (hp : p ≠ []) : dotted (a :: p) = a ++ '.' :: dotted p := by
  cases p with
  | nil => exact absurd rfl hp
  | cons b p => simp [dotted, List.intercalate]

theorem dotted_snoc (p : List Key) (k : Key) (hp : p ≠ []) : dotted (p ++ [k]) = dotted p ++ '.' :: k := by
  induction p with
  | nil => exact absurd rfl hp
  | cons a p ih =>
    cases p with
    | nil => simp [dotted, List.intercalate]
    | cons b p =>
      rw [List.cons_append, dotted_cons a _ (by simp), ih (by simp), dotted_cons a (b :: p) (by simp)]
      simp

theorem dotted_ne_nil (p : List Key) (hp : p ≠ []) (hk : ∀ k ∈ p, k ≠ []) : dotted p ≠ [] := by
  cases p with
  | nil => exact absurd rfl hp
  | cons a p =>
    cases p with
    | nil => simpa [dotted, List.intercalate] using hk a (by simp)
    | cons b p => rw [dotted_cons _ _ (by simp)]; simp

theorem foldl_nodePath (q : List Key) : ∀ (p : List Key), (∀ k ∈ p ++ q, k ≠ []) →
    q.foldl nodePath (dotted p) = dotted (p ++ q) := by
  induction q with
  | nil => simp
  | cons k q ih =>
    intro p hk
    have e : nodePath (dotted p) k = dotted (p ++ [k]) := by
      by_cases hp : p = []
      · subst hp; simp [nodePath, dotted, List.intercalate]
      · rw [nodePath, if_neg (dotted_ne_nil p hp (fun k hk' => hk k (by simp [hk']))), dotted_snoc p k hp]
    rw [List.foldl_cons, e, ih (p ++ [k]) (by simpa using hk)]
    simp

theorem nodePath_dotted (p : List Key) (k : Key) (hk : ∀ x ∈ p, x ≠ []) : nodePath (dotted p) k = dotted (p ++ [k]) := by
  by_cases hp : p = []
  · subst hp; simp [nodePath, dotted, List.intercalate]
  · rw [nodePath, if_neg (dotted_ne_nil p hp hk), dotted_snoc p k hp]

theorem foldl_nodePath_nil (q : List Key) (hk : ∀ k ∈ q, k ≠ []) : q.foldl nodePath [] = dotted q := by
  have := foldl_nodePath q [] (by simpa using hk)
  simpa [dotted, List.intercalate] using this

/-- C135: the analysis of a Flax function whose `init` gives parameters `items` shows exactly the function itself, as `main`, and
one node per module with parameters, identified by its dotted path; the node of a module carries its own name and the type inferred
from its name and parameters. -/
theorem C135_graph_nodes (name : Key) (items : List (Key × PVal)) (hw : wellNamed items = true) :
    let g := analyzeFlax strHas name (.params items) Graph.empty
    (∀ id, id ∈ g.nodes.map Prod.fst ↔ id = mainId ∨ ∃ path inner, ModuleAt items path inner ∧ id = dotted path) ∧
    (∀ id n, (id, n) ∈ g.nodes → n.id = id ∧ (id = mainId ∧ n.name = name ∧ n.moduleType = "StreamingFunction" ∨
      id ≠ mainId ∧ ∃ path inner k, ModuleAt items path inner ∧ id = dotted path ∧ path.getLast? = some k ∧ n.name = k ∧
        n.moduleType = inferType strHas k inner)) ∧
    (g.nodes.map Prod.fst).Nodup := by
  have hpath : ∀ path inner, ModuleAt items path inner → path.foldl nodePath [] = dotted path := by
    intro path inner h
    exact foldl_nodePath_nil path (fun k hk => ((dictAt_names h.dictAt.1 hw).1 k hk).1)
  have hnd : ∀ (items : List (Key × PVal)) (parent : Key) (g : Graph), (g.nodes.map Prod.fst).Nodup →
      ((extract strHas items parent g).nodes.map Prod.fst).Nodup := by
    intro items parent g hg
    exact extract_nodup items parent g hg
  intro g
  refine ⟨fun id => ?_, fun id n h => ?_, put_nodup _ _ _ (hnd _ _ _ (by simp [Graph.empty]))⟩
  · simp only [g, analyzeFlax, mem_put_keys, extract_ids]
    constructor
    · rintro (h | h | ⟨p, i, h, e⟩)
      · exact Or.inl h
      · simp [Graph.empty] at h
      · exact Or.inr ⟨p, i, h, by rw [e, hpath p i h]⟩
    · rintro (h | ⟨p, i, h, e⟩)
      · exact Or.inl h
      · exact Or.inr (Or.inr ⟨p, i, h, by rw [e, hpath p i h]⟩)
  · simp only [g, analyzeFlax] at h
    rcases mem_put _ _ _ _ h with e | ⟨h, h2⟩
    · simp only [Prod.mk.injEq] at e
      obtain ⟨rfl, rfl⟩ := e
      exact ⟨rfl, Or.inl ⟨rfl, rfl, rfl⟩⟩
    · have hne : id ≠ mainId := by
        rcases h2 with h2 | h2
        · exact h2
        · exact absurd (hnd items [] Graph.empty (by simp [Graph.empty])) h2
      rcases extract_nodes strHas _ _ _ _ h with h | ⟨p, i, k, hM, hl, h1, h3⟩
      · simp [Graph.empty] at h
      · simp only at h1 h3
        subst h3
        exact ⟨rfl, Or.inr ⟨hne, p, i, k, hM, by rw [h1, hpath p i hM], hl, rfl, rfl⟩⟩
where
  extract_nodup : ∀ (items : List (Key × PVal)) (parent : Key) (g : Graph), (g.nodes.map Prod.fst).Nodup →
      ((extract strHas items parent g).nodes.map Prod.fst).Nodup
    | [], _, g, hg => by simpa only [extract] using hg
    | (k, v) :: rest, parent, g, hg => by
      rw [extract]
      apply extract_nodup rest
      cases v with
      | other => simpa only [extractVal] using hg
      | dict items =>
        simp only [extractVal]
        split
        · exact put_nodup _ _ _ hg
        · exact extract_nodup items _ _ hg

/-! ## C136: edges of the computation graph -/

/-- Every edge joins two nodes. -/
def EdgesOk (g : Graph) : Prop := ∀ e ∈ g.edges, e.1 ∈ g.nodes.map Prod.fst ∧ e.2 ∈ g.nodes.map Prod.fst

theorem addModule_edges (g : Graph) (parent k : Key) (items : List (Key × PVal)) (h : EdgesOk g) :
    EdgesOk (addModule strHas g parent k items) := by
  intro e he
  simp only [addModule] at he ⊢
  simp only [mem_put_keys]
  have old : ∀ e ∈ g.edges, (e.1 = nodePath parent k ∨ e.1 ∈ g.nodes.map Prod.fst) ∧
      (e.2 = nodePath parent k ∨ e.2 ∈ g.nodes.map Prod.fst) := fun e he => ⟨Or.inr (h e he).1, Or.inr (h e he).2⟩
  split at he
  · rename_i hc
    rcases List.mem_append.1 he with he | he
    · exact old e he
    · simp only [List.mem_singleton] at he
      subst he
      refine ⟨?_, Or.inl rfl⟩
      rw [List.any_eq_true] at hc
      obtain ⟨x, hx, hp⟩ := hc.2
      simp only [decide_eq_true_eq] at hp
      have := (mem_put_keys _ _ _ _).1 (List.mem_map_of_mem (f := Prod.fst) hx)
      rwa [hp] at this
  · exact old e he

/-- C136, what holds: an edge always joins two nodes of the graph, whatever was analysed, and however often, with one renderer. -/
theorem C136_edges_join_nodes_partial : ∀ (items : List (Key × PVal)) (parent : Key) (g : Graph), EdgesOk g →
    EdgesOk (extract strHas items parent g)
  | [], _, g, hg => by simpa only [extract] using hg
  | (k, v) :: rest, parent, g, hg => by
    rw [extract]
    apply C136_edges_join_nodes_partial rest
    cases v with
    | other => simpa only [extractVal] using hg
    | dict items =>
      simp only [extractVal]
      split
      · exact addModule_edges strHas _ _ _ _ hg
      · exact C136_edges_join_nodes_partial items _ _ hg

/-- The invariant of the extraction from a fresh renderer. -/
def NoEdges (root : List (Key × PVal)) (g : Graph) : Prop :=
  g.edges = [] ∧ ∀ id ∈ g.nodes.map Prod.fst, ∃ path inner, DictAt root path inner ∧ marked inner = true ∧ id = dotted path

/-- What the extraction knows about the place `pre` it is at. -/
def Place (root : List (Key × PVal)) (pre : List Key) : Prop :=
  pre = [] ∨ ∃ inner, DictAt root pre inner ∧ marked inner = false

theorem addModule_noEdges (root : List (Key × PVal)) (hw : wellNamed root = true) (pre : List Key) (k : Key)
    (items : List (Key × PVal)) (hp : Place root pre) (hd : DictAt root (pre ++ [k]) items) (hm : marked items = true) (g : Graph)
    (hg : NoEdges root g) : NoEdges root (addModule strHas g (dotted pre) k items) := by
  have hnames := dictAt_names hd hw
  have hpre : ∀ x ∈ pre, x ≠ [] := fun x hx => (hnames.1 x (by simp [hx])).1
  have hids : ∀ id, id ∈ (put g.nodes (nodePath (dotted pre) k) (⟨nodePath (dotted pre) k, k, inferType strHas k items⟩ : Node)).map Prod.fst →
      ∃ path inner, DictAt root path inner ∧ marked inner = true ∧ id = dotted path := by
    intro id hid
    rcases (mem_put_keys _ _ _ _).1 hid with h | h
    · exact ⟨pre ++ [k], items, hd, hm, by rw [h, nodePath_dotted pre k hpre]⟩
    · exact hg.2 id h
  refine ⟨?_, hids⟩
  simp only [addModule]
  rw [if_neg, hg.1]
  rintro ⟨hne, hany⟩
  have hpn : pre ≠ [] := by
    rintro rfl; exact hne (by simp [dotted, List.intercalate])
  rcases hp with hp | ⟨inner, hdi, hmi⟩
  · exact hpn hp
  · rw [List.any_eq_true] at hany
    obtain ⟨x, hx, hxe⟩ := hany
    simp only [decide_eq_true_eq] at hxe
    obtain ⟨path, inner', hd', hm', he⟩ := hids x.1 (List.mem_map_of_mem hx)
    have h1 := dictAt_names hdi hw
    have h2 := dictAt_names hd' hw
    have := dotted_inj path pre h2.1 h1.1 h2.2 h1.2 (by rw [← he, hxe])
    subst this
    have := dictAt_unique hdi hw hd'
    subst this
    rw [hmi] at hm'
    cases hm'

theorem dictAt_snoc {root pre inner k items} (h : DictAt root pre inner) (hk : (k, PVal.dict items) ∈ inner) :
    DictAt root (pre ++ [k]) items := by
  induction h with
  | here hm => exact .inside hm (.here hk)
  | inside hm _ ih => exact .inside hm (ih hk)

theorem extract_noEdges (root : List (Key × PVal)) (hw : wellNamed root = true) :
    ∀ (items : List (Key × PVal)) (pre : List Key) (g : Graph), Place root pre →
      (∀ k sub, (k, PVal.dict sub) ∈ items → DictAt root (pre ++ [k]) sub) → NoEdges root g →
      NoEdges root (extract strHas items (dotted pre) g)
  | [], _, g, _, _, hg => by simpa only [extract] using hg
  | (k, v) :: rest, pre, g, hp, hsub, hg => by
    rw [extract]
    apply extract_noEdges root hw rest pre _ hp (fun k sub h => hsub k sub (by simp [h]))
    cases v with
    | other => simpa only [extractVal] using hg
    | dict items =>
      have hd := hsub k items (by simp)
      have hnames := dictAt_names hd hw
      have hpre : ∀ x ∈ pre, x ≠ [] := fun x hx => (hnames.1 x (by simp [hx])).1
      simp only [extractVal]
      split
      · rename_i hm
        exact addModule_noEdges strHas root hw pre k items hp hd hm g hg
      · rename_i hm
        rw [nodePath_dotted pre k hpre]
        exact extract_noEdges root hw items (pre ++ [k]) g (Or.inr ⟨items, hd, by simpa using hm⟩)
          (fun k' sub hk => dictAt_snoc hd hk) hg

/-- C136 fails: whatever the modules and however they are nested, the graph of a Flax function has no edge at all. -/
theorem C136_no_edges (name : Key) (items : List (Key × PVal)) (hw : wellNamed items = true) :
    (analyzeFlax strHas name (.params items) Graph.empty).edges = [] := by
  have := extract_noEdges strHas items hw items [] Graph.empty (Or.inl rfl) (fun k sub h => .here (by simpa using h))
    ⟨rfl, by simp [Graph.empty]⟩
  exact this.1

/-- A well-named tree with two modules, one of them nested, and a leaf that is not a module. -/
def vizDemo : List (Key × PVal) :=
  [("Dense_0".toList, .dict [("kernel".toList, .other), ("bias".toList, .other)]),
   ("block".toList, .dict [("norm".toList, .dict [("scale".toList, .other)]), ("extra".toList, .other)])]

example : wellNamed vizDemo = true := by decide +kernel
example : ((analyzeFlax (fun _ _ => false) "f".toList (.params vizDemo) Graph.empty).nodes.map (fun kv => (String.ofList kv.1, kv.2.moduleType))) =
    [("Dense_0", "Dense"), ("block.norm", "Module"), ("main", "StreamingFunction")] := by decide +kernel

/-- With keys that contain dots an edge is possible: the path of a dictionary is also the name of a module. -/
example : (analyzeFlax (fun _ _ => false) "f".toList (.params
    [("a.b".toList, .dict [("bias".toList, .other)]),
     ("a".toList, .dict [("b".toList, .dict [("c".toList, .dict [("bias".toList, .other)])])])]) Graph.empty).edges =
    [("a.b".toList, "a.b.c".toList)] := by decide +kernel

/-! ## Forests -/

/-- A hierarchy as the renderers need it: distinct keys that are the identifiers of their nodes, every parent present and listing
the node among its children exactly once, and no cycle. -/
structure Forest (h : List (Key × Hier)) : Prop where
  nodup : (h.map Prod.fst).Nodup
  ids : ∀ kv ∈ h, kv.2.id = kv.1
  children_nodup : ∀ kv ∈ h, kv.2.children.Nodup
  children_iff : ∀ kv ∈ h, ∀ c, c ∈ kv.2.children ↔ ∃ x ∈ h, x.1 = c ∧ x.2.parent = some kv.1
  parents : ∀ kv ∈ h, ∀ p, kv.2.parent = some p → p ∈ h.map Prod.fst
  acyclic : ∃ rank : Key → Nat, ∀ kv ∈ h, ∀ p, kv.2.parent = some p → rank p < rank kv.1

/-- Specification: the depth of a node is the number of its ancestors. -/
inductive DepthIs (h : List (Key × Hier)) : Key → Nat → Prop
  | root {kv} : kv ∈ h → kv.2.parent = none → DepthIs h kv.1 0
  | child {kv p n} : kv ∈ h → kv.2.parent = some p → DepthIs h p n → DepthIs h kv.1 (n + 1)

section ForestThms
variable {h : List (Key × Hier)}

theorem Forest.uniq (F : Forest h) {a b : Key × Hier} (ha : a ∈ h) (hb : b ∈ h) (e : a.1 = b.1) : a = b :=
  List.inj_on_of_nodup_map F.nodup ha hb e

theorem lookup_mem (F : Forest h) {kv : Key × Hier} (hm : kv ∈ h) : h.lookup kv.1 = some kv.2 := by
  have hn := F.nodup
  clear F
  induction h with
  | nil => simp at hm
  | cons a h ih =>
    obtain ⟨a1, a2⟩ := a
    simp only [List.map_cons, List.nodup_cons] at hn
    rw [List.lookup_cons]
    rcases List.mem_cons.1 hm with rfl | hm
    · simp
    · have : ¬ kv.1 = a1 := fun e => hn.1 (e ▸ List.mem_map_of_mem hm)
      have hb : (kv.1 == a1) = false := by simpa using this
      rw [hb]
      exact ih hm hn.2

theorem depth_mem {x n} (hd : DepthIs h x n) : x ∈ h.map Prod.fst := by
  cases hd with
  | root hm _ => exact List.mem_map_of_mem hm
  | child hm _ _ => exact List.mem_map_of_mem hm

theorem depth_unique (F : Forest h) {x n} (hd : DepthIs h x n) {m} (hd2 : DepthIs h x m) : n = m := by
  induction hd generalizing m with
  | @root kv hm hp =>
    generalize hx : kv.1 = x at hd2
    cases hd2 with
    | root => rfl
    | child hm2 hp2 _ =>
      have := F.uniq hm hm2 hx
      rw [this, hp2] at hp; cases hp
  | @child kv p n hm hp _ ih =>
    generalize hx : kv.1 = x at hd2
    cases hd2 with
    | root hm2 hp2 =>
      have := F.uniq hm hm2 hx
      rw [this, hp2] at hp; cases hp
    | child hm2 hp2 hd3 =>
      have := F.uniq hm hm2 hx
      rw [this, hp2] at hp
      simp only [Option.some.injEq] at hp
      subst hp
      rw [ih hd3]

theorem depth_exists (F : Forest h) : ∃ N, ∀ x ∈ h.map Prod.fst, ∃ n, n ≤ N ∧ DepthIs h x n := by
  obtain ⟨rank, hr⟩ := F.acyclic
  have key : ∀ r x, rank x = r → x ∈ h.map Prod.fst → ∃ n, n ≤ r ∧ DepthIs h x n := by
    intro r
    induction r using Nat.strongRecOn with
    | _ r ih =>
      intro x hx hm
      obtain ⟨kv, hkv, rfl⟩ := List.mem_map.1 hm
      cases hp : kv.2.parent with
      | none => exact ⟨0, Nat.zero_le _, .root hkv hp⟩
      | some p =>
        have hlt := hr kv hkv p hp
        obtain ⟨n, hn, hd⟩ := ih (rank p) (by omega) p rfl (F.parents kv hkv p hp)
        exact ⟨n + 1, by omega, .child hkv hp hd⟩
  refine ⟨(h.map (fun kv => rank kv.1)).foldr max 0, fun x hx => ?_⟩
  obtain ⟨n, hn, hd⟩ := key _ x rfl hx
  refine ⟨n, Nat.le_trans hn ?_, hd⟩
  clear hn hd n key hr F
  induction h with
  | nil => simp at hx
  | cons a h ih =>
    simp only [List.map_cons, List.mem_cons] at hx
    simp only [List.map_cons, List.foldr_cons]
    rcases hx with rfl | hx
    · exact Nat.le_max_left _ _
    · exact Nat.le_trans (ih hx) (Nat.le_max_right _ _)

/-- The children recorded for a key. -/
def childrenOf (h : List (Key × Hier)) (x : Key) : List Key := ((h.lookup x).map (fun n => n.children)).getD []

/-- The nodes of depth `k` in the order of the traversal. -/
def layer (h : List (Key × Hier)) : Nat → List Key
  | 0 => roots h
  | k + 1 => (layer h k).flatMap (childrenOf h)

theorem mem_layer (F : Forest h) (k : Nat) (x : Key) : x ∈ layer h k ↔ DepthIs h x k := by
  induction k generalizing x with
  | zero =>
    simp only [layer, roots, List.mem_map, List.mem_filter, decide_eq_true_eq]
    constructor
    · rintro ⟨kv, ⟨hm, hp⟩, rfl⟩; exact .root hm hp
    · intro hd; cases hd with
      | root hm hp => exact ⟨_, ⟨hm, hp⟩, rfl⟩
  | succ k ih =>
    simp only [layer, List.mem_flatMap, ih]
    constructor
    · rintro ⟨p, hd, hc⟩
      obtain ⟨kv, hkv, rfl⟩ := List.mem_map.1 (depth_mem hd)
      rw [childrenOf, lookup_mem F hkv] at hc
      obtain ⟨c, hc1, rfl, hc2⟩ := (F.children_iff kv hkv x).1 hc
      exact .child hc1 hc2 hd
    · intro hd
      cases hd with
      | @child kv p n hm hp hd2 =>
        obtain ⟨pv, hpv, rfl⟩ := List.mem_map.1 (depth_mem hd2)
        refine ⟨pv.1, hd2, ?_⟩
        rw [childrenOf, lookup_mem F hpv]
        exact (F.children_iff pv hpv kv.1).2 ⟨kv, hm, rfl, hp⟩

theorem layer_nodup (F : Forest h) (k : Nat) : (layer h k).Nodup := by
  induction k with
  | zero => exact List.Nodup.sublist (List.Sublist.map _ List.filter_sublist) F.nodup
  | succ k ih =>
    rw [layer, List.nodup_flatMap]
    refine ⟨fun x hx => ?_, ?_⟩
    · obtain ⟨kv, hkv, rfl⟩ := List.mem_map.1 (depth_mem ((mem_layer F k x).1 hx))
      rw [childrenOf, lookup_mem F hkv]
      exact F.children_nodup kv hkv
    · refine List.Pairwise.imp_of_mem ?_ ih
      intro a b ha hb hab c hca hcb
      obtain ⟨av, hav, rfl⟩ := List.mem_map.1 (depth_mem ((mem_layer F k a).1 ha))
      obtain ⟨bv, hbv, rfl⟩ := List.mem_map.1 (depth_mem ((mem_layer F k b).1 hb))
      rw [childrenOf, lookup_mem F hav] at hca
      rw [childrenOf, lookup_mem F hbv] at hcb
      obtain ⟨c1, hc1, e1, p1⟩ := (F.children_iff av hav c).1 hca
      obtain ⟨c2, hc2, e2, p2⟩ := (F.children_iff bv hbv c).1 hcb
      have := F.uniq hc1 hc2 (e1.trans e2.symm)
      subst this
      rw [p1] at p2
      exact hab (Option.some.inj p2)

theorem bfs_layer (L : List Key) (k : Nat) (hL : ∀ x ∈ L, (h.lookup x).isSome = true) :
    ∀ (n : Nat) (Q acc : List (Key × Nat)),
    bfs h (n + L.length) (L.map (fun x => (x, k)) ++ Q) acc =
      bfs h n (Q ++ (L.flatMap (childrenOf h)).map (fun c => (c, k + 1))) (acc ++ L.map (fun x => (x, k))) := by
  induction L with
  | nil => simp
  | cons x L ih =>
    intro n Q acc
    have hx := hL x (by simp)
    cases hl : h.lookup x with
    | none => rw [hl] at hx; cases hx
    | some nd =>
      have e : n + (x :: L).length = (n + L.length) + 1 := by simp; omega
      rw [e, List.map_cons, List.cons_append, bfs]
      simp only [hl]
      rw [List.append_assoc, ih (fun y hy => hL y (by simp [hy]))]
      simp [childrenOf, hl, List.append_assoc]

/-- The nodes of depth at least `k` and below `k + m`, by depth. -/
def layersFrom (h : List (Key × Hier)) (k : Nat) : Nat → List (Key × Nat)
  | 0 => []
  | m + 1 => (layer h k).map (fun x => (x, k)) ++ layersFrom h (k + 1) m

theorem bfs_layers (F : Forest h) (m : Nat) : ∀ (k n : Nat) (acc : List (Key × Nat)), layer h (k + m) = [] →
    bfs h (n + (layersFrom h k m).length) ((layer h k).map (fun x => (x, k))) acc = some (acc ++ layersFrom h k m) := by
  induction m with
  | zero =>
    intro k n acc hz
    rw [Nat.add_zero] at hz
    simp [hz, layersFrom, bfs]
  | succ m ih =>
    intro k n acc hz
    have hL : ∀ x ∈ layer h k, (h.lookup x).isSome = true := by
      intro x hx
      obtain ⟨kv, hkv, rfl⟩ := List.mem_map.1 (depth_mem ((mem_layer F k x).1 hx))
      rw [lookup_mem F hkv]; rfl
    have e : n + (layersFrom h k (m + 1)).length = (n + (layersFrom h (k + 1) m).length) + (layer h k).length := by
      simp [layersFrom]; omega
    have b := bfs_layer (h := h) (layer h k) k hL (n + (layersFrom h (k + 1) m).length) [] acc
    rw [List.append_nil, List.nil_append] at b
    rw [e, b]
    have := ih (k + 1) n (acc ++ (layer h k).map (fun x => (x, k))) (by rw [← hz]; congr 1; omega)
    rw [layer] at this
    rw [this, layersFrom, List.append_assoc]

theorem mem_layersFrom (F : Forest h) (m : Nat) : ∀ (k : Nat) (x : Key) (l : Nat),
    (x, l) ∈ layersFrom h k m ↔ k ≤ l ∧ l < k + m ∧ DepthIs h x l := by
  induction m with
  | zero => intro k x l; simp [layersFrom]; omega
  | succ m ih =>
    intro k x l
    simp only [layersFrom, List.mem_append, List.mem_map, Prod.mk.injEq, ih, mem_layer F]
    constructor
    · rintro (⟨y, hy, rfl, rfl⟩ | ⟨h1, h2, h3⟩)
      · exact ⟨Nat.le_refl _, by omega, hy⟩
      · exact ⟨by omega, by omega, h3⟩
    · rintro ⟨h1, h2, h3⟩
      by_cases e : k = l
      · subst e; exact Or.inl ⟨x, h3, rfl, rfl⟩
      · exact Or.inr ⟨by omega, by omega, h3⟩

theorem layersFrom_nodup (F : Forest h) (m : Nat) : ∀ k, ((layersFrom h k m).map Prod.fst).Nodup := by
  induction m with
  | zero => intro k; simp [layersFrom]
  | succ m ih =>
    intro k
    simp only [layersFrom, List.map_append, List.map_map]
    rw [List.nodup_append]
    refine ⟨?_, ih (k + 1), ?_⟩
    · have : (layer h k).map (Prod.fst ∘ fun x => (x, k)) = layer h k := by simp [Function.comp_def]
      rw [this]; exact layer_nodup F k
    · intro a ha b hb e
      subst e
      simp only [List.mem_map, Function.comp] at ha hb
      obtain ⟨x, hx, rfl⟩ := ha
      obtain ⟨⟨y, l⟩, hy, rfl⟩ := hb
      have h1 := (mem_layer F k _).1 hx
      have h2 := (mem_layersFrom F m (k + 1) y l).1 hy
      have := depth_unique F h1 h2.2.2
      omega

theorem layersFrom_sorted (m : Nat) : ∀ k, (layersFrom h k m).Pairwise (fun a b => a.2 ≤ b.2) ∧ ∀ a ∈ layersFrom h k m, k ≤ a.2 := by
  induction m with
  | zero => intro k; simp [layersFrom]
  | succ m ih =>
    intro k
    obtain ⟨h1, h2⟩ := ih (k + 1)
    simp only [layersFrom]
    refine ⟨?_, ?_⟩
    · rw [List.pairwise_append]
      refine ⟨?_, h1, ?_⟩
      · rw [List.pairwise_map]
        exact List.pairwise_of_forall (fun _ _ => Nat.le_refl _)
      · intro a ha b hb
        obtain ⟨x, _, rfl⟩ := List.mem_map.1 ha
        have := h2 b hb
        show k ≤ b.2
        omega
    · intro a ha
      rcases List.mem_append.1 ha with ha | ha
      · obtain ⟨x, _, rfl⟩ := List.mem_map.1 ha
        exact Nat.le_refl _
      · have := h2 a ha; omega

theorem depth_eq_iff_mem (F : Forest h) : ∃ acc : List (Key × Nat),
    (∃ N, ∀ fuel, N ≤ fuel → bfs h fuel ((roots h).map (fun x => (x, 0))) [] = some acc) ∧
    (acc.map Prod.fst).Perm (h.map Prod.fst) ∧ (∀ x l, (x, l) ∈ acc ↔ DepthIs h x l) ∧ acc.Pairwise (fun a b => a.2 ≤ b.2) := by
  obtain ⟨N, hN⟩ := depth_exists F
  have hz : layer h (0 + (N + 1)) = [] := by
    rw [List.eq_nil_iff_forall_not_mem]
    intro x hx
    have hd := (mem_layer F _ x).1 hx
    obtain ⟨n, hn, hd2⟩ := hN x (depth_mem hd)
    have := depth_unique F hd hd2
    omega
  have hmem : ∀ x l, (x, l) ∈ layersFrom h 0 (N + 1) ↔ DepthIs h x l := by
    intro x l
    rw [mem_layersFrom F]
    constructor
    · exact fun h => h.2.2
    · intro hd
      obtain ⟨n, hn, hd2⟩ := hN x (depth_mem hd)
      have := depth_unique F hd hd2
      exact ⟨Nat.zero_le _, by omega, hd⟩
  refine ⟨layersFrom h 0 (N + 1), ⟨(layersFrom h 0 (N + 1)).length, fun fuel hf => ?_⟩, ?_, hmem, (layersFrom_sorted _ _).1⟩
  · obtain ⟨n, rfl⟩ : ∃ n, fuel = n + (layersFrom h 0 (N + 1)).length := ⟨fuel - (layersFrom h 0 (N + 1)).length, by omega⟩
    have := bfs_layers F (N + 1) 0 n [] hz
    simpa [layer] using this
  · rw [List.perm_ext_iff_of_nodup (layersFrom_nodup F _ _) F.nodup]
    intro x
    constructor
    · intro hx
      obtain ⟨⟨y, l⟩, hy, rfl⟩ := List.mem_map.1 hx
      exact depth_mem ((hmem y l).1 hy)
    · intro hx
      obtain ⟨n, _, hd⟩ := hN x hx
      exact List.mem_map.2 ⟨(x, n), (hmem x n).2 hd, rfl⟩

end ForestThms

end Verif.Props
