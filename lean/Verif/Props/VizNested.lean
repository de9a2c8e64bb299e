import Verif.Props.Viz

/-!
# C137-C141: nested graph
-/

set_option linter.unusedSectionVars false
set_option linter.unusedSimpArgs false

namespace Verif.Props
open Verif.Model.Viz

/-! ## The hierarchy of the nodes of a graph is a forest -/

/-- What the analysis of a function gives: distinct, non-empty identifiers. -/
structure NamedNodes (nodes : List (Key × Node)) : Prop where
  nodup : (nodes.map Prod.fst).Nodup
  nonempty : ∀ kv ∈ nodes, kv.1 ≠ []

theorem beforeLastDot_prefix (s : Key) (hs : '.' ∈ s) : beforeLastDot s <+: s ∧ (beforeLastDot s).length < s.length := by
  have h1 : (s.reverse.dropWhile (fun c => decide (c ≠ '.'))).drop 1 <:+ s.reverse :=
    (List.drop_suffix _ _).trans (List.dropWhile_suffix _)
  refine ⟨?_, ?_⟩
  · have := List.reverse_prefix.2 h1
    rwa [List.reverse_reverse] at this
  · have hne : s.reverse ≠ [] := by
      intro h
      rw [List.reverse_eq_nil_iff] at h
      subst h; simp at hs
    have hl : (s.reverse.dropWhile (fun c => decide (c ≠ '.'))).length ≤ s.reverse.length := (List.dropWhile_suffix _).length_le
    have hpos : 0 < s.reverse.length := List.length_pos_of_ne_nil hne
    simp only [beforeLastDot, List.length_reverse, List.length_drop] at *
    omega

/-- The parent of a node is another node whose identifier is a proper prefix. -/
theorem inferParent_prefix {nodes : List (Key × Node)} {id p : Key} (h : inferParent nodes id = some p) :
    p ∈ nodes.map Prod.fst ∧ p <+: id ∧ p.length < id.length := by
  unfold inferParent at h
  simp only at h
  split at h
  · rename_i hc
    simp only [Option.some.injEq] at h
    subst h
    obtain ⟨hd, ha⟩ := hc
    rw [List.any_eq_true] at ha
    obtain ⟨x, hx, he⟩ := ha
    simp only [decide_eq_true_eq] at he
    exact ⟨he ▸ List.mem_map_of_mem hx, beforeLastDot_prefix id hd⟩
  · cases hf : nodes.find? (fun kv => decide (kv.1 ≠ id ∧ kv.2.moduleType = "Module" ∧ kv.1 <+: id)) with
    | none => rw [hf] at h; simp at h
    | some kv =>
      rw [hf] at h
      simp only [Option.map_some, Option.some.injEq] at h
      subst h
      have h1 := List.find?_some hf
      have h2 := List.mem_of_find?_eq_some hf
      simp only [decide_eq_true_eq] at h1
      refine ⟨List.mem_map_of_mem h2, h1.2.2, ?_⟩
      rcases Nat.lt_or_ge kv.1.length id.length with hlt | hge
      · exact hlt
      · exact absurd (h1.2.2.eq_of_length_le hge) h1.1

/-- The hierarchy with given children. -/
def setChildren (h : List (Key × Hier)) (done : List (Key × Hier)) : List (Key × Hier) :=
  h.map (fun kv => (kv.1, ⟨kv.2.id, kv.2.name, kv.2.nodeType, kv.2.level, kv.2.parent,
    (done.filter (fun x => x.2.parent = some kv.1)).map Prod.fst⟩))

theorem link_step (h : List (Key × Hier)) (hn : ∀ kv ∈ h, kv.1 ≠ []) (hp : ∀ kv ∈ h, ∀ p, kv.2.parent = some p → p ∈ h.map Prod.fst)
    (done : List (Key × Hier)) (e : Key × Hier) (he : e ∈ h) (hd : e.1 ∉ done.map Prod.fst) :
    linkToParent (setChildren h done) e.1 e.2.parent = setChildren h (done ++ [e]) := by
  cases hq : e.2.parent with
  | none => simp [linkToParent, setChildren, List.filter_append, hq]
  | some p =>
    have hm := hp e he p hq
    obtain ⟨pv, hpv, hpe⟩ := List.mem_map.1 hm
    have hc : p ≠ [] ∧ (setChildren h done).any (fun kv => decide (kv.1 = p)) = true := by
      refine ⟨hpe ▸ hn pv hpv, ?_⟩
      rw [List.any_eq_true]
      refine ⟨_, List.mem_map.2 ⟨pv, hpv, rfl⟩, ?_⟩
      simp [hpe]
    simp only [linkToParent]
    rw [if_pos hc]
    simp only [addChild, setChildren, List.map_map]
    apply List.map_congr_left
    intro kv hkv
    simp only [Function.comp]
    by_cases hk : kv.1 = p
    · have hni : e.1 ∉ (done.filter (fun x => decide (x.2.parent = some kv.1))).map Prod.fst := by
        intro hmem
        obtain ⟨x, hx, hxe⟩ := List.mem_map.1 hmem
        exact hd (hxe ▸ List.mem_map_of_mem (List.mem_filter.1 hx).1)
      rw [if_pos hk, if_neg hni]
      simp [List.filter_append, hq, hk]
    · have : ¬ p = kv.1 := fun h => hk h.symm
      rw [if_neg hk]
      simp [List.filter_append, hq, this]

theorem link_fold (h : List (Key × Hier)) (hn : ∀ kv ∈ h, kv.1 ≠ []) (hp : ∀ kv ∈ h, ∀ p, kv.2.parent = some p → p ∈ h.map Prod.fst) :
    ∀ (todo done : List (Key × Hier)), (∀ e ∈ todo, e ∈ h) → ((done ++ todo).map Prod.fst).Nodup →
      todo.foldl (fun h kv => linkToParent h kv.1 kv.2.parent) (setChildren h done) = setChildren h (done ++ todo) := by
  intro todo
  induction todo with
  | nil => intro done _ _; simp
  | cons e todo ih =>
    intro done hm hnd
    have hd : e.1 ∉ done.map Prod.fst := by
      intro hc
      rw [List.map_append, List.nodup_append] at hnd
      exact hnd.2.2 e.1 hc e.1 (by simp) rfl
    rw [List.foldl_cons, link_step h hn hp done e (hm e (by simp)) hd,
      ih (done ++ [e]) (fun x hx => hm x (by simp [hx])) (by simpa using hnd)]
    simp

/-- The entries before the children are recorded. -/
def bareHierarchy (nodes : List (Key × Node)) : List (Key × Hier) :=
  nodes.map (fun kv => (kv.1, ⟨kv.1, kv.2.name, classify kv.2, 0, inferParent nodes kv.1, []⟩))

theorem bare_keys (nodes : List (Key × Node)) : (bareHierarchy nodes).map Prod.fst = nodes.map Prod.fst := by
  simp [bareHierarchy, Function.comp_def]

theorem setChildren_keys (h done : List (Key × Hier)) : (setChildren h done).map Prod.fst = h.map Prod.fst := by
  simp [setChildren, Function.comp_def]

theorem extractHierarchy_eq {nodes : List (Key × Node)} (N : NamedNodes nodes) :
    extractHierarchy nodes = setChildren (bareHierarchy nodes) (bareHierarchy nodes) := by
  have hb : bareHierarchy nodes = setChildren (bareHierarchy nodes) [] := by
    simp [setChildren, bareHierarchy]
  have hn : ∀ kv ∈ bareHierarchy nodes, kv.1 ≠ [] := by
    intro kv hkv
    obtain ⟨x, hx, rfl⟩ := List.mem_map.1 hkv
    exact N.nonempty x hx
  have hp : ∀ kv ∈ bareHierarchy nodes, ∀ p, kv.2.parent = some p → p ∈ (bareHierarchy nodes).map Prod.fst := by
    intro kv hkv p hq
    obtain ⟨x, hx, rfl⟩ := List.mem_map.1 hkv
    rw [bare_keys]
    exact (inferParent_prefix hq).1
  have := link_fold (bareHierarchy nodes) hn hp (bareHierarchy nodes) [] (fun e he => he) (by
    rw [List.nil_append, bare_keys]; exact N.nodup)
  rw [← hb, List.nil_append] at this
  exact this

/-- Membership in the hierarchy. -/
theorem mem_extractHierarchy {nodes : List (Key × Node)} (N : NamedNodes nodes) (e : Key × Hier) (he : e ∈ extractHierarchy nodes) :
    ∃ n, (e.1, n) ∈ nodes ∧ e.2.id = e.1 ∧ e.2.name = n.name ∧ e.2.nodeType = classify n ∧ e.2.parent = inferParent nodes e.1 ∧
      e.2.children = (nodes.filter (fun x => inferParent nodes x.1 = some e.1)).map Prod.fst := by
  rw [extractHierarchy_eq N] at he
  obtain ⟨b, hb, rfl⟩ := List.mem_map.1 he
  obtain ⟨x, hx, rfl⟩ := List.mem_map.1 hb
  refine ⟨x.2, hx, rfl, rfl, rfl, rfl, ?_⟩
  simp only [bareHierarchy, List.filter_map, List.map_map]
  rfl

theorem extractHierarchy_keys {nodes : List (Key × Node)} (N : NamedNodes nodes) :
    (extractHierarchy nodes).map Prod.fst = nodes.map Prod.fst := by
  rw [extractHierarchy_eq N, setChildren_keys, bare_keys]

theorem extractHierarchy_forest {nodes : List (Key × Node)} (N : NamedNodes nodes) : Forest (extractHierarchy nodes) := by
  have hk := extractHierarchy_keys N
  refine ⟨by rw [hk]; exact N.nodup, ?_, ?_, ?_, ?_, ?_⟩
  · intro kv hkv
    obtain ⟨n, _, h, _⟩ := mem_extractHierarchy N kv hkv
    exact h
  · intro kv hkv
    obtain ⟨n, _, _, _, _, _, h⟩ := mem_extractHierarchy N kv hkv
    rw [h]
    exact List.Nodup.sublist (List.Sublist.map _ List.filter_sublist) N.nodup
  · intro kv hkv c
    obtain ⟨n, _, _, _, _, _, h⟩ := mem_extractHierarchy N kv hkv
    rw [h]
    constructor
    · intro hc
      obtain ⟨x, hx, rfl⟩ := List.mem_map.1 hc
      rw [List.mem_filter] at hx
      simp only [decide_eq_true_eq] at hx
      have : x.1 ∈ (extractHierarchy nodes).map Prod.fst := by rw [hk]; exact List.mem_map_of_mem hx.1
      obtain ⟨y, hy, hyx⟩ := List.mem_map.1 this
      obtain ⟨m, _, _, _, _, hpar, _⟩ := mem_extractHierarchy N y hy
      exact ⟨y, hy, hyx, by rw [hpar, hyx]; exact hx.2⟩
    · rintro ⟨y, hy, rfl, hpar⟩
      obtain ⟨m, hm, _, _, _, hpar2, _⟩ := mem_extractHierarchy N y hy
      refine List.mem_map.2 ⟨(y.1, m), List.mem_filter.2 ⟨hm, ?_⟩, rfl⟩
      simp only [decide_eq_true_eq]
      rw [← hpar2]; exact hpar
  · intro kv hkv p hp
    obtain ⟨n, _, _, _, _, hpar, _⟩ := mem_extractHierarchy N kv hkv
    rw [hpar] at hp
    rw [hk]
    exact (inferParent_prefix hp).1
  · refine ⟨List.length, fun kv hkv p hp => ?_⟩
    obtain ⟨n, _, _, _, _, hpar, _⟩ := mem_extractHierarchy N kv hkv
    rw [hpar] at hp
    exact (inferParent_prefix hp).2.2

/-! ## Clustering keeps it a forest -/

theorem any_key {V : Type} (h : List (Key × V)) (k : Key) : h.any (fun kv => decide (kv.1 = k)) = true ↔ k ∈ h.map Prod.fst := by
  rw [List.any_eq_true]
  constructor
  · rintro ⟨x, hx, he⟩
    simp only [decide_eq_true_eq] at he
    exact he ▸ List.mem_map_of_mem hx
  · intro hk
    obtain ⟨x, hx, he⟩ := List.mem_map.1 hk
    exact ⟨x, hx, by simp [he]⟩

theorem put_fresh {V : Type} (d : List (Key × V)) (k : Key) (v : V) (hk : k ∉ d.map Prod.fst) : put d k v = d ++ [(k, v)] := by
  induction d with
  | nil => rfl
  | cons e d ih =>
    obtain ⟨a, b⟩ := e
    simp only [List.map_cons, List.mem_cons, not_or] at hk
    rw [put, if_neg (fun h => hk.1 h.symm), ih hk.2, List.cons_append]

/-- A new root without children. -/
theorem forest_new {h : List (Key × Hier)} (F : Forest h) (c : Key) (nd : Hier) (hc : c ∉ h.map Prod.fst) (hid : nd.id = c)
    (hp : nd.parent = none) (hch : nd.children = []) : Forest (h ++ [(c, nd)]) := by
  have hnop : ∀ kv ∈ h, kv.2.parent ≠ some c := fun kv hkv hq => hc (F.parents kv hkv c hq)
  have hmem : ∀ kv, kv ∈ h ++ [(c, nd)] ↔ kv ∈ h ∨ kv = (c, nd) := by intro kv; simp
  refine ⟨?_, ?_, ?_, ?_, ?_, ?_⟩
  · rw [List.map_append, List.nodup_append]
    refine ⟨F.nodup, by simp, ?_⟩
    intro a ha b hb e
    simp only [List.map_cons, List.map_nil, List.mem_singleton] at hb
    subst hb; subst e
    exact hc ha
  · intro kv hkv
    rcases (hmem kv).1 hkv with h1 | rfl
    · exact F.ids kv h1
    · exact hid
  · intro kv hkv
    rcases (hmem kv).1 hkv with h1 | rfl
    · exact F.children_nodup kv h1
    · simp [hch]
  · intro kv hkv x
    rcases (hmem kv).1 hkv with h1 | rfl
    · rw [F.children_iff kv h1]
      constructor
      · rintro ⟨y, hy, h2⟩; exact ⟨y, (hmem y).2 (Or.inl hy), h2⟩
      · rintro ⟨y, hy, h2, h3⟩
        rcases (hmem y).1 hy with hy | rfl
        · exact ⟨y, hy, h2, h3⟩
        · rw [hp] at h3; cases h3
    · simp only [hch, List.not_mem_nil, false_iff]
      rintro ⟨y, hy, h2, h3⟩
      rcases (hmem y).1 hy with hy | rfl
      · exact hnop y hy h3
      · rw [hp] at h3; cases h3
  · intro kv hkv p hq
    rcases (hmem kv).1 hkv with h1 | rfl
    · rw [List.map_append, List.mem_append]; exact Or.inl (F.parents kv h1 p hq)
    · rw [hp] at hq; cases hq
  · obtain ⟨rank, hr⟩ := F.acyclic
    refine ⟨rank, fun kv hkv p hq => ?_⟩
    rcases (hmem kv).1 hkv with h1 | rfl
    · exact hr kv h1 p hq
    · rw [hp] at hq; cases hq

/-- What joining does to one entry. -/
def joined (c id : Key) (kv : Key × Hier) : Key × Hier :=
  (kv.1, ⟨kv.2.id, kv.2.name, kv.2.nodeType, kv.2.level, if kv.1 = id then some c else kv.2.parent,
    if kv.1 = c then kv.2.children ++ [id] else kv.2.children⟩)

theorem joinCluster_eq {h : List (Key × Hier)} (c id : Key) (hni : ∀ kv ∈ h, kv.1 = c → id ∉ kv.2.children) :
    joinCluster c h id = h.map (joined c id) := by
  simp only [joinCluster, addChild, List.map_map]
  apply List.map_congr_left
  intro kv hkv
  simp only [Function.comp, joined]
  have := hni kv hkv
  by_cases h1 : kv.1 = id
  · by_cases h2 : kv.1 = c
    · have hc : c = id := h2.symm.trans h1
      have h3 := this h2
      simp [h1, hc, h3]
    · have : ¬ id = c := fun e => h2 (h1.trans e)
      simp [h1, this]
  · by_cases h2 : kv.1 = c
    · have h4 : ¬ c = id := fun e => h1 (h2.trans e)
      have h3 := this h2
      simp [h1, h2, h4, h3]
    · simp [h1, h2]

theorem joined_keys (h : List (Key × Hier)) (c id : Key) : (h.map (joined c id)).map Prod.fst = h.map Prod.fst := by
  simp [joined, Function.comp_def]

/-- A root becomes a child of another root. -/
theorem forest_join {h : List (Key × Hier)} (F : Forest h) (c id : Key) (hne : id ≠ c)
    (hc : ∃ kv ∈ h, kv.1 = c ∧ kv.2.parent = none) (hid : ∃ kv ∈ h, kv.1 = id ∧ kv.2.parent = none) :
    joinCluster c h id = h.map (joined c id) ∧ Forest (h.map (joined c id)) := by
  obtain ⟨cv, hcv, hce, hcp⟩ := hc
  obtain ⟨iv, hiv, hie, hip⟩ := hid
  have hni : ∀ kv ∈ h, kv.1 = c → id ∉ kv.2.children := by
    intro kv hkv _ hm
    obtain ⟨x, hx, hxe, hxp⟩ := (F.children_iff kv hkv id).1 hm
    have := F.uniq hx hiv (hxe.trans hie.symm)
    rw [this, hip] at hxp; cases hxp
  have hk := joined_keys h c id
  have hpar : ∀ kv ∈ h, kv.1 = id → kv.2.parent = none := by
    intro kv hkv e
    rw [F.uniq hkv hiv (e.trans hie.symm), hip]
  refine ⟨joinCluster_eq c id hni, ?_, ?_, ?_, ?_, ?_, ?_⟩
  · rw [hk]; exact F.nodup
  · intro kv hkv
    obtain ⟨x, hx, rfl⟩ := List.mem_map.1 hkv
    exact F.ids x hx
  · intro kv hkv
    obtain ⟨x, hx, rfl⟩ := List.mem_map.1 hkv
    simp only [joined]
    split
    · rename_i he
      rw [List.nodup_append]
      refine ⟨F.children_nodup x hx, by simp, ?_⟩
      intro a ha b hb e
      simp only [List.mem_singleton] at hb
      subst hb; subst e
      exact hni x hx he ha
    · exact F.children_nodup x hx
  · intro kv hkv y
    obtain ⟨x, hx, rfl⟩ := List.mem_map.1 hkv
    have h1 : y ∈ (joined c id x).2.children ↔ y ∈ x.2.children ∨ (x.1 = c ∧ y = id) := by
      simp only [joined]
      split
      · rename_i he; simp [he]
      · rename_i he; simp [he]
    rw [h1, F.children_iff x hx]
    constructor
    · rintro (⟨z, hz, rfl, hzp⟩ | ⟨rfl, rfl⟩)
      · refine ⟨joined c id z, List.mem_map_of_mem hz, rfl, ?_⟩
        simp only [joined]
        rw [if_neg]
        · exact hzp
        · intro e; rw [hpar z hz e] at hzp; cases hzp
      · refine ⟨joined x.1 y iv, List.mem_map_of_mem hiv, hie, ?_⟩
        simp [joined, hie]
    · rintro ⟨w, hw, rfl, hwp⟩
      obtain ⟨z, hz, rfl⟩ := List.mem_map.1 hw
      simp only [joined] at hwp
      split at hwp
      · rename_i he
        simp only [Option.some.injEq] at hwp
        exact Or.inr ⟨hwp.symm, he⟩
      · exact Or.inl ⟨z, hz, rfl, hwp⟩
  · intro kv hkv p hq
    obtain ⟨x, hx, rfl⟩ := List.mem_map.1 hkv
    rw [hk]
    simp only [joined] at hq
    split at hq
    · simp only [Option.some.injEq] at hq
      subst hq
      exact hce ▸ List.mem_map_of_mem hcv
    · exact F.parents x hx p hq
  · obtain ⟨rank, hr⟩ := F.acyclic
    refine ⟨fun x => if x = c then 0 else rank x + 1, fun kv hkv p hq => ?_⟩
    obtain ⟨x, hx, rfl⟩ := List.mem_map.1 hkv
    simp only [joined] at hq
    show (if p = c then 0 else rank p + 1) < (if x.1 = c then 0 else rank x.1 + 1)
    split at hq
    · rename_i he
      simp only [Option.some.injEq] at hq
      subst hq
      rw [if_pos rfl, if_neg (by rw [he]; exact hne)]
      omega
    · have := hr x hx p hq
      have hxc : x.1 ≠ c := by
        intro e
        rw [F.uniq hx hcv (e.trans hce.symm), hcp] at hq
        cases hq
      rw [if_neg hxc]
      split
      · omega
      · omega

/-- A whole group joins. -/
def joinedAll (c : Key) (ids : List Key) (kv : Key × Hier) : Key × Hier :=
  (kv.1, ⟨kv.2.id, kv.2.name, kv.2.nodeType, kv.2.level, if kv.1 ∈ ids then some c else kv.2.parent,
    if kv.1 = c then kv.2.children ++ ids else kv.2.children⟩)

theorem forest_joinAll (c : Key) : ∀ (ids : List Key) {h : List (Key × Hier)}, Forest h → c ∉ ids → ids.Nodup →
    (∃ kv ∈ h, kv.1 = c ∧ kv.2.parent = none) → (∀ id ∈ ids, ∃ kv ∈ h, kv.1 = id ∧ kv.2.parent = none) →
    ids.foldl (joinCluster c) h = h.map (joinedAll c ids) ∧ Forest (h.map (joinedAll c ids)) := by
  intro ids
  induction ids with
  | nil =>
    intro h F _ _ _ _
    have : h.map (joinedAll c []) = h := by
      conv_rhs => rw [← List.map_id h]
      apply List.map_congr_left
      intro kv _
      simp [joinedAll]
    rw [this]
    exact ⟨rfl, F⟩
  | cons id ids ih =>
    intro h F hc hnd hcr hidr
    simp only [List.mem_cons, not_or] at hc
    simp only [List.nodup_cons] at hnd
    obtain ⟨he, F'⟩ := forest_join F c id (fun e => hc.1 e.symm) hcr (hidr id (by simp))
    have key := ih F' hc.2 hnd.2 (by
        obtain ⟨kv, hkv, h1, h2⟩ := hcr
        refine ⟨_, List.mem_map_of_mem hkv, h1, ?_⟩
        simp only [joined]
        rw [if_neg (by rw [h1]; exact hc.1), h2]) (by
        intro i hi
        obtain ⟨kv, hkv, h1, h2⟩ := hidr i (by simp [hi])
        refine ⟨_, List.mem_map_of_mem hkv, h1, ?_⟩
        simp only [joined]
        rw [if_neg (by rw [h1]; rintro rfl; exact hnd.1 hi), h2])
    have e2 : (h.map (joined c id)).map (joinedAll c ids) = h.map (joinedAll c (id :: ids)) := by
      rw [List.map_map]
      apply List.map_congr_left
      intro kv _
      simp only [Function.comp, joined, joinedAll, List.mem_cons]
      have hcid : ¬ id = c := fun e => hc.1 e.symm
      by_cases h1 : kv.1 = id
      · simp [h1, hcid]
      · by_cases h2 : kv.1 = c
        · have h3 : ¬ c = id := hc.1
          simp [h2, h3]
        · simp [h1, h2]
    rw [List.foldl_cons, he, key.1, e2]
    exact ⟨rfl, e2 ▸ key.2⟩

/-! ### The groups -/

/-- Specification: the roots of a type, in order. -/
def rootsOf (h : List (Key × Hier)) (t : String) : List Key :=
  (h.filter (fun kv => kv.2.parent = none ∧ kv.2.nodeType = t)).map Prod.fst

theorem rootGroups_spec (h : List (Key × Hier)) :
    ((rootGroups h).map Prod.fst).Nodup ∧ (∀ g ∈ rootGroups h, g.2 = rootsOf h g.1 ∧ g.2 ≠ []) ∧
    (∀ kv ∈ h, kv.2.parent = none → kv.2.nodeType ∈ (rootGroups h).map Prod.fst) := by
  induction h using List.reverseRecOn with
  | nil => simp [rootGroups]
  | append_singleton h kv ih =>
    obtain ⟨ih1, ih2, ih3⟩ := ih
    have hstep : rootGroups (h ++ [kv]) = groupRoot (rootGroups h) kv := by
      simp only [rootGroups, List.foldl_append, List.foldl_cons, List.foldl_nil]
    have hro : ∀ t, rootsOf (h ++ [kv]) t = rootsOf h t ++ (if kv.2.parent = none ∧ kv.2.nodeType = t then [kv.1] else []) := by
      intro t
      simp only [rootsOf, List.filter_append, List.map_append]
      congr 1
      by_cases hc : kv.2.parent = none ∧ kv.2.nodeType = t
      · simp [hc]
      · rw [if_neg hc]; simp [hc]
    rw [hstep, groupRoot]
    by_cases hp : kv.2.parent = none
    · rw [if_pos hp]
      split
      · rename_i ha
        rw [List.any_eq_true] at ha
        obtain ⟨g0, hg0, hg0e⟩ := ha
        simp only [decide_eq_true_eq] at hg0e
        have hkeys : ((rootGroups h).map (fun g => if g.1 = kv.2.nodeType then (g.1, g.2 ++ [kv.1]) else g)).map Prod.fst =
            (rootGroups h).map Prod.fst := by
          rw [List.map_map]
          apply List.map_congr_left
          intro g _
          simp only [Function.comp]
          split <;> rfl
        refine ⟨by rw [hkeys]; exact ih1, ?_, ?_⟩
        · intro g hg
          obtain ⟨g', hg', rfl⟩ := List.mem_map.1 hg
          obtain ⟨h1, h2⟩ := ih2 g' hg'
          by_cases hc : g'.1 = kv.2.nodeType
          · simp only [hc, if_true]
            rw [hro, if_pos ⟨hp, rfl⟩, h1, hc]
            exact ⟨rfl, by simp⟩
          · simp only [hc, if_false]
            rw [hro, if_neg (fun h => hc h.2.symm), List.append_nil]
            exact ⟨h1, h2⟩
        · intro x hx hxp
          rw [hkeys]
          rcases List.mem_append.1 hx with hx | hx
          · exact ih3 x hx hxp
          · simp only [List.mem_singleton] at hx
            subst hx
            exact hg0e ▸ List.mem_map_of_mem hg0
      · rename_i ha
        have hnew : kv.2.nodeType ∉ (rootGroups h).map Prod.fst := by
          intro hm
          obtain ⟨g, hg, he⟩ := List.mem_map.1 hm
          exact ha (List.any_eq_true.2 ⟨g, hg, by simp [he]⟩)
        refine ⟨?_, ?_, ?_⟩
        · rw [List.map_append, List.nodup_append]
          refine ⟨ih1, by simp, ?_⟩
          intro a ha' b hb e
          simp only [List.map_cons, List.map_nil, List.mem_singleton] at hb
          subst hb; subst e
          exact hnew ha'
        · intro g hg
          rcases List.mem_append.1 hg with hg | hg
          · obtain ⟨h1, h2⟩ := ih2 g hg
            rw [hro, if_neg, List.append_nil]
            · exact ⟨h1, h2⟩
            · rintro ⟨_, e⟩
              exact hnew (e ▸ List.mem_map_of_mem hg)
          · simp only [List.mem_singleton] at hg
            subst hg
            simp only
            rw [hro, if_pos ⟨hp, rfl⟩]
            have : rootsOf h kv.2.nodeType = [] := by
              simp only [rootsOf, List.map_eq_nil_iff, List.filter_eq_nil_iff, decide_eq_true_eq]
              rintro x hx ⟨hxp, hxt⟩
              exact hnew (hxt ▸ ih3 x hx hxp)
            rw [this]
            exact ⟨rfl, by simp⟩
        · intro x hx hxp
          rw [List.map_append, List.mem_append]
          rcases List.mem_append.1 hx with hx | hx
          · exact Or.inl (ih3 x hx hxp)
          · simp only [List.mem_singleton] at hx
            subst hx
            exact Or.inr (by simp)
    · rw [if_neg hp]
      refine ⟨ih1, ?_, ?_⟩
      · intro g hg
        rw [hro, if_neg (fun h => hp h.1), List.append_nil]
        exact ih2 g hg
      · intro x hx hxp
        rcases List.mem_append.1 hx with hx | hx
        · exact ih3 x hx hxp
        · simp only [List.mem_singleton] at hx
          subst hx
          exact absurd hxp hp

/-- The types that nodes are classified into. -/
def nodeTypes : List String := ["ewma", "buffer", "state", "function", "module", "unknown"]

theorem classify_mem (n : Node) : classify n ∈ nodeTypes := by
  simp only [classify]
  repeat' split
  all_goals simp [nodeTypes]

theorem nodeTypes_head : ∀ t ∈ nodeTypes, ∀ t' ∈ nodeTypes, t.toList.head? = t'.toList.head? → t = t' := by decide +kernel

theorem nodeTypes_ne : ∀ t ∈ nodeTypes, t.toList.head?.isSome = true := by decide +kernel

theorem head_cancel (p a b x y : Key) (h : p ++ a ++ x = p ++ b ++ y) (ha : a.head?.isSome = true) (hb : b.head?.isSome = true) :
    a.head? = b.head? := by
  rw [List.append_assoc, List.append_assoc] at h
  have := congrArg List.head? (List.append_cancel_left h)
  cases a with
  | nil => simp at ha
  | cons a0 a =>
    cases b with
    | nil => simp at hb
    | cons b0 b => simpa using this

theorem clusterName_inj {t t' : String} (ht : t ∈ nodeTypes) (ht' : t' ∈ nodeTypes) {n m : Nat}
    (h : clusterName t n = clusterName t' m) : t = t' :=
  nodeTypes_head t ht t' ht' (head_cancel _ _ _ _ _ h (nodeTypes_ne t ht) (nodeTypes_ne t' ht'))

/-- Specification: identifiers that do not look like clusters. -/
def NoClusterIds (h : List (Key × Hier)) : Prop := ∀ k ∈ h.map Prod.fst, ¬ "cluster_".toList <+: k

theorem clusterName_cluster (t : String) (n : Nat) : "cluster_".toList <+: clusterName t n := by
  have key : ∀ (a b c : Key), a <+: a ++ b ++ c := fun a b c => by rw [List.append_assoc]; exact List.prefix_append _ _
  exact key _ _ _

/-- Specification: `h'` is `h` with a cluster for each of the types `ts` that has at least `min` roots. -/
structure Clustered (minNodes : Nat) (h : List (Key × Hier)) (ts : List String) (h' : List (Key × Hier)) : Prop where
  forest : Forest h'
  old : ∀ kv ∈ h, ∃ kv' ∈ h', kv'.1 = kv.1 ∧ kv'.2.name = kv.2.name ∧ kv'.2.nodeType = kv.2.nodeType ∧
    kv'.2.children = kv.2.children ∧ (kv.2.parent ≠ none → kv'.2.parent = kv.2.parent) ∧
    (kv.2.parent = none → ¬ (kv.2.nodeType ∈ ts ∧ minNodes ≤ (rootsOf h kv.2.nodeType).length) → kv'.2.parent = none)
  new : ∀ kv' ∈ h', kv'.1 ∈ h.map Prod.fst ∨ ∃ t ∈ ts, ∃ n, kv'.1 = clusterName t n ∧ minNodes ≤ (rootsOf h t).length ∧
    kv'.2.nodeType = "cluster" ∧ kv'.2.parent = none ∧ kv'.2.children = rootsOf h t
  all : ∀ t ∈ ts, minNodes ≤ (rootsOf h t).length → ∃ n, clusterName t n ∈ h'.map Prod.fst

theorem rootsOf_mem {h : List (Key × Hier)} {t : String} {k : Key} (hk : k ∈ rootsOf h t) :
    ∃ kv ∈ h, kv.1 = k ∧ kv.2.parent = none ∧ kv.2.nodeType = t := by
  obtain ⟨kv, hkv, rfl⟩ := List.mem_map.1 hk
  rw [List.mem_filter] at hkv
  simp only [decide_eq_true_eq] at hkv
  exact ⟨kv, hkv.1, rfl, hkv.2.1, hkv.2.2⟩

theorem cluster_step {minNodes : Nat} {h : List (Key × Hier)} (Fh : Forest h) (hnc : NoClusterIds h)
    {ts : List String} {h' : List (Key × Hier)} (C : Clustered minNodes h ts h') (n : Nat)
    (hts : ∀ t ∈ ts, t ∈ nodeTypes) (t : String) (ht : t ∉ ts) (htn : t ∈ nodeTypes) :
    Clustered minNodes h (ts ++ [t]) (clusterGroup minNodes (h', n) (t, rootsOf h t)).1 := by
  simp only [clusterGroup]
  by_cases hmin : minNodes ≤ (rootsOf h t).length
  swap
  · rw [if_neg hmin]
    refine ⟨C.forest, ?_, ?_, ?_⟩
    · intro kv hkv
      obtain ⟨kv', h1, h2, h3, h4, h5, h6, h7⟩ := C.old kv hkv
      refine ⟨kv', h1, h2, h3, h4, h5, h6, fun hp hn => h7 hp (fun hh => hn ⟨by simp [hh.1], hh.2⟩)⟩
    · intro kv' hkv'
      rcases C.new kv' hkv' with h1 | ⟨t', h1, h2⟩
      · exact Or.inl h1
      · exact Or.inr ⟨t', by simp [h1], h2⟩
    · intro t' h1 h2
      rcases List.mem_append.1 h1 with h1 | h1
      · exact C.all t' h1 h2
      · simp only [List.mem_singleton] at h1
        subst h1
        exact absurd h2 hmin
  · rw [if_pos hmin]
    simp only
    generalize hcdef : clusterName t n = c
    have hck : c ∉ h'.map Prod.fst := by
      intro hm
      obtain ⟨kv', hkv', he⟩ := List.mem_map.1 hm
      rcases C.new kv' hkv' with h1 | ⟨t', h1, m, h2, _⟩
      · rw [he] at h1
        exact hnc c h1 (hcdef ▸ clusterName_cluster t n)
      · rw [he, ← hcdef] at h2
        have := clusterName_inj htn (hts t' h1) h2
        exact ht (this ▸ h1)
    rw [put_fresh _ _ _ hck]
    generalize hnd : (⟨c, (t ++ " Components").toList, "cluster", 0, none, []⟩ : Hier) = nd
    have F1 : Forest (h' ++ [(c, nd)]) := forest_new C.forest c nd hck (by rw [← hnd]) (by rw [← hnd]) (by rw [← hnd])
    have hch : c ∉ rootsOf h t := by
      intro hm
      obtain ⟨kv, hkv, he, _⟩ := rootsOf_mem hm
      exact hnc c (he ▸ List.mem_map_of_mem hkv) (hcdef ▸ clusterName_cluster t n)
    have hrn : (rootsOf h t).Nodup := List.Nodup.sublist (List.Sublist.map _ List.filter_sublist) Fh.nodup
    obtain ⟨he, F2⟩ := forest_joinAll c (rootsOf h t) F1 hch hrn ⟨(c, nd), by simp, rfl, by rw [← hnd]⟩ (by
      intro id hid
      obtain ⟨kv, hkv, h1, h2, h3⟩ := rootsOf_mem hid
      obtain ⟨kv', g1, g2, g3, g4, g5, g6, g7⟩ := C.old kv hkv
      exact ⟨kv', by simp [g1], g2.trans h1, g7 h2 (fun hh => ht (h3 ▸ hh.1))⟩)
    rw [he]
    refine ⟨F2, ?_, ?_, ?_⟩
    · intro kv hkv
      obtain ⟨kv', g1, g2, g3, g4, g5, g6, g7⟩ := C.old kv hkv
      have hkc : kv'.1 ≠ c := fun e => hck (e ▸ List.mem_map_of_mem g1)
      have hin : kv'.1 ∈ rootsOf h t ↔ kv.2.parent = none ∧ kv.2.nodeType = t := by
        constructor
        · intro hm
          obtain ⟨x, hx, x1, x2, x3⟩ := rootsOf_mem hm
          have := Fh.uniq hx hkv (x1.trans g2)
          subst this
          exact ⟨x2, x3⟩
        · rintro ⟨p1, p2⟩
          refine List.mem_map.2 ⟨kv, List.mem_filter.2 ⟨hkv, by simp [p1, p2]⟩, g2.symm⟩
      refine ⟨joinedAll c (rootsOf h t) kv', List.mem_map_of_mem (by simp [g1]), g2, g3, g4, ?_, ?_, ?_⟩
      · simp only [joinedAll]; rw [if_neg hkc]; exact g5
      · intro hp
        simp only [joinedAll]
        rw [if_neg (fun hm => hp (hin.1 hm).1)]
        exact g6 hp
      · intro hp hn
        simp only [joinedAll]
        rw [if_neg]
        · exact g7 hp (fun hh => hn ⟨by simp [hh.1], hh.2⟩)
        · intro hm
          have := (hin.1 hm).2
          exact hn ⟨by simp [this], by rw [this]; exact hmin⟩
    · intro kv' hkv'
      obtain ⟨x, hx, rfl⟩ := List.mem_map.1 hkv'
      rcases List.mem_append.1 hx with hx | hx
      · rcases C.new x hx with h1 | ⟨t', h1, m, h2, h3, h4, h5, h6⟩
        · exact Or.inl h1
        · right
          refine ⟨t', by simp [h1], m, h2, h3, h4, ?_, ?_⟩
          · simp only [joinedAll]
            rw [if_neg]
            · exact h5
            · intro hm
              obtain ⟨kv, hkv, k1, _⟩ := rootsOf_mem hm
              exact hnc x.1 (k1 ▸ List.mem_map_of_mem hkv) (h2 ▸ clusterName_cluster t' m)
          · simp only [joinedAll]
            have hxc : x.1 ≠ c := fun e => hck (e ▸ List.mem_map_of_mem hx)
            rw [if_neg hxc, h6]
      · simp only [List.mem_singleton] at hx
        subst hx
        right
        refine ⟨t, by simp, n, hcdef.symm, hmin, by rw [← hnd]; rfl, ?_, ?_⟩
        · simp only [joinedAll]
          rw [if_neg hch, ← hnd]
        · simp only [joinedAll, if_true]
          rw [← hnd, List.nil_append]
    · intro t' h1 h2
      have hkeys : ((h' ++ [(c, nd)]).map (joinedAll c (rootsOf h t))).map Prod.fst = h'.map Prod.fst ++ [c] := by
        simp [joinedAll, Function.comp_def]
      rw [hkeys]
      rcases List.mem_append.1 h1 with h1 | h1
      · obtain ⟨m, hm⟩ := C.all t' h1 h2
        exact ⟨m, by simp [hm]⟩
      · simp only [List.mem_singleton] at h1
        subst h1
        exact ⟨n, by simp [hcdef]⟩

theorem cluster_fold {minNodes : Nat} {h : List (Key × Hier)} (Fh : Forest h) (hnc : NoClusterIds h)
    : ∀ (gs : List (String × List Key)) (ts : List String) (h' : List (Key × Hier)) (n : Nat),
    Clustered minNodes h ts h' → (∀ t ∈ ts, t ∈ nodeTypes) → (∀ g ∈ gs, g.2 = rootsOf h g.1 ∧ g.1 ∈ nodeTypes) →
    (ts ++ gs.map Prod.fst).Nodup →
    Clustered minNodes h (ts ++ gs.map Prod.fst) (gs.foldl (clusterGroup minNodes) (h', n)).1 := by
  intro gs
  induction gs with
  | nil => intro ts h' n C _ _ _; simpa using C
  | cons g gs ih =>
    intro ts h' n C hts hgs hnd
    have hg := hgs g (by simp)
    have hgt : g.1 ∉ ts := by
      intro hm
      rw [List.nodup_append] at hnd
      exact hnd.2.2 g.1 hm g.1 (by simp) rfl
    have C' := cluster_step Fh hnc C n hts g.1 hgt hg.2
    have ge : g = (g.1, rootsOf h g.1) := by rw [← hg.1]
    rw [← ge] at C'
    rw [List.foldl_cons]
    have := ih (ts ++ [g.1]) _ (clusterGroup minNodes (h', n) g).2 C' (by
      intro t ht
      rcases List.mem_append.1 ht with ht | ht
      · exact hts t ht
      · simp only [List.mem_singleton] at ht; subst ht; exact hg.2) (fun x hx => hgs x (by simp [hx])) (by simpa using hnd)
    simpa using this

theorem autoCluster_clustered (minNodes : Nat) {h : List (Key × Hier)} (Fh : Forest h) (hnc : NoClusterIds h)
    (hty : ∀ kv ∈ h, kv.2.nodeType ∈ nodeTypes) :
    Clustered minNodes h ((rootGroups h).map Prod.fst) (autoCluster minNodes h) := by
  obtain ⟨g1, g2, g3⟩ := rootGroups_spec h
  have := cluster_fold (minNodes := minNodes) Fh hnc (rootGroups h) [] h 0 (by
    refine ⟨Fh, fun kv hkv => ⟨kv, hkv, rfl, rfl, rfl, rfl, fun _ => rfl, fun h _ => h⟩, fun kv hkv => Or.inl (List.mem_map_of_mem hkv), by simp⟩)
    (by simp) (by
      intro g hg
      refine ⟨(g2 g hg).1, ?_⟩
      obtain ⟨e, hne⟩ := g2 g hg
      obtain ⟨k, hk⟩ := List.exists_mem_of_ne_nil _ hne
      rw [e] at hk
      obtain ⟨kv, hkv, _, _, h3⟩ := rootsOf_mem hk
      exact h3 ▸ hty kv hkv) (by simpa using g1)
  simpa [autoCluster] using this

/-! ## C137: levels -/

/-- Identifiers that a clustered analysis needs. -/
def NoClusterNodes (nodes : List (Key × Node)) : Prop := ∀ kv ∈ nodes, ¬ "cluster_".toList <+: kv.1

theorem hierarchy_types {nodes : List (Key × Node)} (N : NamedNodes nodes) : ∀ kv ∈ extractHierarchy nodes, kv.2.nodeType ∈ nodeTypes := by
  intro kv hkv
  obtain ⟨n, _, _, _, h, _⟩ := mem_extractHierarchy N kv hkv
  rw [h]; exact classify_mem n

theorem hierarchy_noCluster {nodes : List (Key × Node)} (N : NamedNodes nodes) (hc : NoClusterNodes nodes) :
    NoClusterIds (extractHierarchy nodes) := by
  intro k hk
  rw [extractHierarchy_keys N] at hk
  obtain ⟨kv, hkv, rfl⟩ := List.mem_map.1 hk
  exact hc kv hkv

/-- The hierarchy before the levels are assigned. -/
def beforeLevels (auto : Bool) (minNodes : Nat) (nodes : List (Key × Node)) : List (Key × Hier) :=
  if auto then autoCluster minNodes (extractHierarchy nodes) else extractHierarchy nodes

theorem beforeLevels_forest (auto : Bool) (minNodes : Nat) {nodes : List (Key × Node)} (N : NamedNodes nodes)
    (hc : auto = true → NoClusterNodes nodes) : Forest (beforeLevels auto minNodes nodes) := by
  cases auto with
  | false => exact extractHierarchy_forest N
  | true => exact (autoCluster_clustered minNodes (extractHierarchy_forest N) (hierarchy_noCluster N (hc rfl)) (hierarchy_types N)).forest

theorem setLevels_keys (h : List (Key × Hier)) (acc : List (Key × Nat)) : (setLevels h acc).map Prod.fst = h.map Prod.fst := by
  simp [setLevels, Function.comp_def]

theorem setLevels_forest {h : List (Key × Hier)} (F : Forest h) (acc : List (Key × Nat)) : Forest (setLevels h acc) := by
  have hk := setLevels_keys h acc
  refine ⟨by rw [hk]; exact F.nodup, ?_, ?_, ?_, ?_, ?_⟩
  · intro kv hkv; obtain ⟨x, hx, rfl⟩ := List.mem_map.1 hkv; exact F.ids x hx
  · intro kv hkv; obtain ⟨x, hx, rfl⟩ := List.mem_map.1 hkv; exact F.children_nodup x hx
  · intro kv hkv c
    obtain ⟨x, hx, rfl⟩ := List.mem_map.1 hkv
    show c ∈ x.2.children ↔ _
    rw [F.children_iff x hx]
    constructor
    · rintro ⟨y, hy, h1, h2⟩; exact ⟨_, List.mem_map_of_mem hy, h1, h2⟩
    · rintro ⟨y, hy, h1, h2⟩; obtain ⟨z, hz, rfl⟩ := List.mem_map.1 hy; exact ⟨z, hz, h1, h2⟩
  · intro kv hkv p hp; obtain ⟨x, hx, rfl⟩ := List.mem_map.1 hkv; rw [hk]; exact F.parents x hx p hp
  · obtain ⟨rank, hr⟩ := F.acyclic
    exact ⟨rank, fun kv hkv p hp => by obtain ⟨x, hx, rfl⟩ := List.mem_map.1 hkv; exact hr x hx p hp⟩

theorem setLevels_depth {h : List (Key × Hier)} (acc : List (Key × Nat)) (x : Key) (n : Nat) (hd : DepthIs h x n) :
    DepthIs (setLevels h acc) x n := by
  induction hd with
  | @root kv hm hp =>
    exact DepthIs.root (kv := (kv.1, { kv.2 with level := (acc.reverse.lookup kv.1).getD kv.2.level })) (List.mem_map.2 ⟨kv, hm, rfl⟩) hp
  | @child kv p n hm hp _ ih =>
    exact DepthIs.child (kv := (kv.1, { kv.2 with level := (acc.reverse.lookup kv.1).getD kv.2.level })) (List.mem_map.2 ⟨kv, hm, rfl⟩) hp ih

theorem lookup_nodup {V : Type} (d : List (Key × V)) (hn : (d.map Prod.fst).Nodup) (k : Key) (v : V) (hm : (k, v) ∈ d) :
    d.lookup k = some v := by
  induction d with
  | nil => simp at hm
  | cons e d ih =>
    obtain ⟨a, b⟩ := e
    simp only [List.map_cons, List.nodup_cons] at hn
    rw [List.lookup_cons]
    rcases List.mem_cons.1 hm with e | e
    · simp only [Prod.mk.injEq] at e
      simp [e.1, e.2]
    · have : ¬ k = a := fun h => hn.1 (h ▸ List.mem_map_of_mem e)
      have hb : (k == a) = false := by simpa using this
      rw [hb]
      exact ih hn.2 e

/-- C137: the analysis of the nodes of any graph terminates; what it gives is a forest whose identifiers are those of the nodes (and,
with clustering, of the clusters); the level of every node is its depth, the number of its ancestors; `levels` lists every node exactly
once, under its depth, in increasing order of level. -/
theorem C137_levels (auto : Bool) (minNodes : Nat) (g : Graph) (N : NamedNodes g.nodes) (hc : auto = true → NoClusterNodes g.nodes) :
    ∃ (h : List (Key × Hier)) (acc : List (Key × Nat)),
      (∃ fuel₀, ∀ fuel, fuel₀ ≤ fuel → analyzeNested auto minNodes fuel g = some (h, acc)) ∧
      Forest h ∧ (∀ kv ∈ h, DepthIs h kv.1 kv.2.level) ∧
      (∀ kv ∈ g.nodes, kv.1 ∈ h.map Prod.fst) ∧ (auto = false → h.map Prod.fst = g.nodes.map Prod.fst) ∧
      (acc.map Prod.fst).Perm (h.map Prod.fst) ∧ (∀ kv ∈ h, (kv.1, kv.2.level) ∈ acc) ∧
      acc.Pairwise (fun a b => a.2 ≤ b.2) ∧ h = setLevels (beforeLevels auto minNodes g.nodes) acc := by
  have F := beforeLevels_forest auto minNodes N hc
  obtain ⟨acc, ⟨fuel₀, hf⟩, hperm, hdep, hsort⟩ := depth_eq_iff_mem F
  have hnd : (acc.map Prod.fst).Nodup := hperm.nodup_iff.2 F.nodup
  have hlev : ∀ kv ∈ beforeLevels auto minNodes g.nodes, ∃ l, (kv.1, l) ∈ acc ∧ (acc.reverse.lookup kv.1).getD kv.2.level = l := by
    intro kv hkv
    have : kv.1 ∈ acc.map Prod.fst := hperm.mem_iff.2 (List.mem_map_of_mem hkv)
    obtain ⟨⟨y, l⟩, hy, he⟩ := List.mem_map.1 this
    simp only at he
    subst he
    refine ⟨l, hy, ?_⟩
    rw [lookup_nodup acc.reverse (by rw [List.map_reverse, List.nodup_reverse]; exact hnd) _ l (by simpa using hy)]
    rfl
  refine ⟨setLevels (beforeLevels auto minNodes g.nodes) acc, acc, ⟨fuel₀, fun fuel hfu => ?_⟩, setLevels_forest F acc, ?_, ?_, ?_, ?_, ?_,
    hsort, rfl⟩
  · simp only [analyzeNested, assignLevels]
    have := hf fuel hfu
    simp only [beforeLevels] at this ⊢
    rw [this]
    rfl
  · intro kv hkv
    obtain ⟨x, hx, rfl⟩ := List.mem_map.1 hkv
    obtain ⟨l, h1, h2⟩ := hlev x hx
    show DepthIs _ x.1 ((acc.reverse.lookup x.1).getD x.2.level)
    rw [h2]
    exact setLevels_depth acc _ _ ((hdep _ _).1 h1)
  · intro kv hkv
    rw [setLevels_keys]
    have hk : kv.1 ∈ (extractHierarchy g.nodes).map Prod.fst := by
      rw [extractHierarchy_keys N]; exact List.mem_map_of_mem hkv
    cases auto with
    | false => exact hk
    | true =>
      obtain ⟨e, he, he2⟩ := List.mem_map.1 hk
      obtain ⟨kv', h1, h2, _⟩ := (autoCluster_clustered minNodes (extractHierarchy_forest N) (hierarchy_noCluster N (hc rfl))
        (hierarchy_types N)).old e he
      exact List.mem_map.2 ⟨kv', h1, h2.trans he2⟩
  · rintro rfl
    rw [setLevels_keys]
    exact extractHierarchy_keys N
  · rw [setLevels_keys]; exact hperm
  · intro kv hkv
    obtain ⟨x, hx, rfl⟩ := List.mem_map.1 hkv
    obtain ⟨l, h1, h2⟩ := hlev x hx
    show (x.1, (acc.reverse.lookup x.1).getD x.2.level) ∈ acc
    rw [h2]; exact h1

/-- Flax functions satisfy the hypotheses of C137. -/
theorem flax_named (strHas : String → List (Key × PVal) → Bool) (name : Key) (items : List (Key × PVal)) (hw : wellNamed items = true) :
    NamedNodes (analyzeFlax strHas name (.params items) Graph.empty).nodes := by
  obtain ⟨h1, _, h3⟩ := C135_graph_nodes strHas name items hw
  refine ⟨h3, fun kv hkv => ?_⟩
  rcases (h1 kv.1).1 (List.mem_map_of_mem hkv) with e | ⟨p, i, hm, e⟩
  · rw [e]; decide +kernel
  · rw [e]
    have := dictAt_names hm.dictAt.1 hw
    exact dotted_ne_nil p this.2 (fun k hk => (this.1 k hk).1)

/-! ## C138: nesting -/

/-- Modules of a Flax function never contain one another as far as the graph is concerned: the search does not go into a module. -/
theorem modules_not_nested {items p a} (h : ModuleAt items p a) (hw : wellNamed items = true) : ∀ {q b}, ModuleAt items q b → p <+: q → p = q := by
  induction h with
  | @here items k inner hm hk =>
    intro q b hq hpre
    cases hq with
    | here hm2 hk2 =>
      have := (List.cons_prefix_cons.1 hpre).1
      rw [this]
    | inside hm2 hk2 hs =>
      have hkk := (List.cons_prefix_cons.1 hpre).1
      subst hkk
      have e := List.inj_on_of_nodup_map (wellNamed_nodup _ hw) hm hm2 rfl
      simp only [Prod.mk.injEq, PVal.dict.injEq, true_and] at e
      subst e
      rw [hk] at hk2; cases hk2
  | @inside items k sub path inner hm hk hs ih =>
    intro q b hq hpre
    cases hq with
    | here hm2 hk2 =>
      have hh := List.cons_prefix_cons.1 hpre
      rw [List.prefix_nil] at hh
      rw [hh.1, hh.2]
    | inside hm2 hk2 hs2 =>
      have hh := List.cons_prefix_cons.1 hpre
      obtain ⟨hkk, hp⟩ := hh
      subst hkk
      have e := List.inj_on_of_nodup_map (wellNamed_nodup _ hw) hm hm2 rfl
      simp only [Prod.mk.injEq, PVal.dict.injEq, true_and] at e
      subst e
      rw [ih (wellNamed_mem _ hw _ _ hm).2.2 hs2 hp]

/-- C138 fails: whenever a node of a Flax function is drawn inside the node of another module, the path of that module does not
contain the path of the node: the nesting comes from the spelling of the names alone. -/
theorem C138_nesting_is_spurious (strHas : String → List (Key × PVal) → Bool) (name : Key) (items : List (Key × PVal)) (hw : wellNamed items = true)
    (kv : Key × Hier) (hkv : kv ∈ extractHierarchy (analyzeFlax strHas name (.params items) Graph.empty).nodes) (p : Key)
    (hp : kv.2.parent = some p) :
    p <+: kv.1 ∧ p ≠ kv.1 ∧
    ∀ path inner q inner', ModuleAt items path inner → p = dotted path → ModuleAt items q inner' → kv.1 = dotted q → ¬ path <+: q := by
  have N := flax_named strHas name items hw
  obtain ⟨n, _, _, _, _, hpar, _⟩ := mem_extractHierarchy N kv hkv
  rw [hpar] at hp
  have h1 := inferParent_prefix hp
  refine ⟨h1.2.1, fun e => ?_, ?_⟩
  · have := h1.2.2; rw [e] at this; omega
  · rintro path inner q inner' hm e hm' e' hpre
    have := modules_not_nested hm hw hm' hpre
    subst this
    have := h1.2.2
    rw [e, e'] at this
    omega

/-- Such nesting occurs: `norm_1` is drawn inside `norm`. -/
example : ((extractHierarchy (analyzeFlax (fun _ _ => false) "f".toList (.params
    [("norm".toList, .dict [("scale".toList, .other)]), ("norm_1".toList, .dict [("scale".toList, .other)])]) Graph.empty).nodes).map
      (fun kv => (String.ofList kv.1, kv.2.parent.map String.ofList))) =
    [("norm", none), ("norm_1", some "norm"), ("main", none)] := by decide +kernel

/-- C138, what holds: when no name of a module of type `Module` begins another identifier and no identifier contains a dot, every
node is a root: the drawing is flat, as the graph is. -/
theorem C138_flat_partial (nodes : List (Key × Node)) (N : NamedNodes nodes) (hdot : ∀ kv ∈ nodes, '.' ∉ kv.1)
    (hpre : ∀ a ∈ nodes, ∀ b ∈ nodes, a.2.moduleType = "Module" → a.1 <+: b.1 → a.1 = b.1) :
    ∀ kv ∈ extractHierarchy nodes, kv.2.parent = none ∧ kv.2.children = [] := by
  have key : ∀ kv ∈ nodes, inferParent nodes kv.1 = none := by
    intro kv hkv
    simp only [inferParent]
    rw [if_neg (fun h => hdot kv hkv h.1), Option.map_eq_none_iff, List.find?_eq_none]
    intro x hx
    simp only [decide_eq_true_eq, not_and]
    intro h1 h2 h3
    exact h1 (hpre x hx kv hkv h2 h3)
  intro kv hkv
  obtain ⟨n, hn, _, _, _, hpar, hch⟩ := mem_extractHierarchy N kv hkv
  refine ⟨by rw [hpar]; exact key _ hn, ?_⟩
  rw [hch, List.map_eq_nil_iff, List.filter_eq_nil_iff]
  intro x hx
  rw [key x hx]
  simp

/-! ## C139: rendering -/

/-- `y` is the ancestor of `x` at distance `k`. -/
inductive UpTo (h : List (Key × Hier)) : Key → Key → Nat → Prop
  | self {kv} : kv ∈ h → UpTo h kv.1 kv.1 0
  | step {kv p y k} : kv ∈ h → kv.2.parent = some p → UpTo h p y k → UpTo h kv.1 y (k + 1)

section Render
variable {h : List (Key × Hier)}

theorem up_mem {x y k} (u : UpTo h x y k) : x ∈ h.map Prod.fst ∧ y ∈ h.map Prod.fst := by
  induction u with
  | self hm => exact ⟨List.mem_map_of_mem hm, List.mem_map_of_mem hm⟩
  | step hm _ _ ih => exact ⟨List.mem_map_of_mem hm, ih.2⟩

theorem up_unique (F : Forest h) {x y k} (u : UpTo h x y k) {z} (v : UpTo h x z k) : y = z := by
  induction u generalizing z with
  | @self kv hm =>
    generalize hx : kv.1 = x at v
    cases v with
    | self _ => rfl
  | @step kv p y k hm hp _ ih =>
    generalize hx : kv.1 = x at v
    cases v with
    | step hm2 hp2 v2 =>
      have := F.uniq hm hm2 hx
      subst this
      rw [hp] at hp2
      simp only [Option.some.injEq] at hp2
      subst hp2
      exact ih v2

theorem up_depth {x y k} (u : UpTo h x y k) {n} (hy : DepthIs h y n) : DepthIs h x (n + k) := by
  induction u with
  | self _ => exact hy
  | step hm hp _ ih => exact .child hm hp (ih hy)

/-- The last step of an ascent. -/
theorem up_last {x y k} (u : UpTo h x y (k + 1)) : ∃ kv ∈ h, kv.2.parent = some y ∧ UpTo h x kv.1 k := by
  generalize hk : k + 1 = m at u
  induction u generalizing k with
  | self _ => omega
  | @step kv p y j hm hp u2 ih =>
    have : j = k := by omega
    subst this
    cases j with
    | zero =>
      cases u2 with
      | self hm2 => exact ⟨kv, hm, hp, .self hm⟩
    | succ j =>
      obtain ⟨c, hc, hcp, hcu⟩ := ih rfl
      exact ⟨c, hc, hcp, .step hm hp hcu⟩

theorem up_snoc {x c k} (u : UpTo h x c k) : ∀ {y : Key} {kv : Key × Hier}, kv ∈ h → kv.1 = c → kv.2.parent = some y → (∃ yv ∈ h, yv.1 = y) →
    (∀ a ∈ h, ∀ b ∈ h, a.1 = b.1 → a = b) → UpTo h x y (k + 1) := by
  induction u with
  | @self cv hm =>
    intro y kv hkv hc hp hy huq
    have := huq kv hkv cv hm hc
    subst this
    obtain ⟨yv, hyv, rfl⟩ := hy
    exact .step hkv hp (.self hyv)
  | step hm hp _ ih =>
    intro y kv hkv hc hp2 hy huq
    exact .step hm hp (ih hkv hc hp2 hy huq)

/-- The entries drawn at one level of the recursion. -/
def drawn (h : List (Key × Hier)) (p : Option Key) (l : Nat) : List (Key × Hier) :=
  h.filter (fun kv => kv.2.parent = p ∧ kv.2.level = l)

/-- Without the shortcut for nodes without children. -/
theorem render_eq (F : Forest h) (n : Nat) (p : Option Key) (l : Nat) :
    render h (n + 1) p l = (drawn h p l).flatMap (fun kv => kv.1 :: render h n (some kv.1) (l + 1)) := by
  rw [render]
  refine List.flatMap_congr (fun kv hkv => ?_)
  have hm := (List.mem_filter.1 hkv).1
  rw [F.ids kv hm]
  by_cases hc : kv.2.children = []
  · rw [if_neg (by simpa using hc)]
    have : render h n (some kv.1) (l + 1) = [] := by
      cases n with
      | zero => rfl
      | succ n =>
        rw [render, List.filter_eq_nil_iff.2]
        · rfl
        · intro x hx
          simp only [decide_eq_true_eq, not_and]
          intro hxp
          have := (F.children_iff kv hm x.1).2 ⟨x, hx, rfl, hxp⟩
          rw [hc] at this; simp at this
    rw [this]
  · rw [if_pos (by simpa using hc)]

/-- Below a node: its proper descendants within the fuel. -/
theorem mem_render_some (F : Forest h) (L : ∀ kv ∈ h, DepthIs h kv.1 kv.2.level) (n : Nat) : ∀ (y : Key) (l : Nat), DepthIs h y l →
    ∀ x, x ∈ render h n (some y) (l + 1) ↔ ∃ k, k < n ∧ UpTo h x y (k + 1) := by
  induction n with
  | zero => intro y l _ x; simp [render]
  | succ n ih =>
    intro y l hy x
    rw [render_eq F]
    simp only [List.mem_flatMap, List.mem_cons]
    constructor
    · rintro ⟨kv, hkv, hx⟩
      simp only [drawn, List.mem_filter, decide_eq_true_eq] at hkv
      obtain ⟨hm, hp, hl⟩ := hkv
      have hd : DepthIs h kv.1 (l + 1) := .child hm hp hy
      have hyv : ∃ yv ∈ h, yv.1 = y := List.mem_map.1 (F.parents kv hm y hp)
      rcases hx with rfl | hx
      · obtain ⟨yv, hyv, rfl⟩ := hyv
        exact ⟨0, by omega, .step hm hp (.self hyv)⟩
      · obtain ⟨k, hk, hu⟩ := (ih kv.1 (l + 1) hd x).1 hx
        exact ⟨k + 1, by omega, up_snoc hu hm rfl hp hyv (fun a ha b hb e => F.uniq ha hb e)⟩
    · rintro ⟨k, hk, hu⟩
      obtain ⟨kv, hm, hp, hu2⟩ := up_last hu
      have hd : DepthIs h kv.1 (l + 1) := .child hm hp hy
      have hl : kv.2.level = l + 1 := depth_unique F (L kv hm) hd
      refine ⟨kv, by simp only [drawn, List.mem_filter, decide_eq_true_eq]; exact ⟨hm, hp, hl⟩, ?_⟩
      cases k with
      | zero =>
        left
        generalize hz : kv.1 = z at hu2
        cases hu2 with
        | self _ => rfl
      | succ k => exact Or.inr ((ih kv.1 (l + 1) hd x).2 ⟨k, by omega, hu2⟩)

theorem drawn_nodup (F : Forest h) (p : Option Key) (l : Nat) : ((drawn h p l).map Prod.fst).Nodup :=
  List.Nodup.sublist (List.Sublist.map _ List.filter_sublist) F.nodup

theorem drawn_depth (L : ∀ kv ∈ h, DepthIs h kv.1 kv.2.level) {p l kv} (hkv : kv ∈ drawn h p l) : kv ∈ h ∧ DepthIs h kv.1 l := by
  simp only [drawn, List.mem_filter, decide_eq_true_eq] at hkv
  exact ⟨hkv.1, hkv.2.2 ▸ L kv hkv.1⟩

theorem render_nodup (F : Forest h) (L : ∀ kv ∈ h, DepthIs h kv.1 kv.2.level) (n : Nat) : ∀ (p : Option Key) (l : Nat),
    (render h n p l).Nodup := by
  induction n with
  | zero => intro p l; simp [render]
  | succ n ih =>
    intro p l
    rw [render_eq F, List.nodup_flatMap]
    refine ⟨fun kv hkv => ?_, ?_⟩
    · obtain ⟨hm, hd⟩ := drawn_depth L hkv
      rw [List.nodup_cons]
      refine ⟨fun hin => ?_, ih _ _⟩
      obtain ⟨k, _, hu⟩ := (mem_render_some F L n kv.1 l hd kv.1).1 hin
      have := depth_unique F (up_depth hu hd) hd
      omega
    · have hn := drawn_nodup F p l
      have hn2 : (drawn h p l).Pairwise (fun a b => a.1 ≠ b.1) := by
        rw [List.Nodup, List.pairwise_map] at hn
        exact hn
      refine List.Pairwise.imp_of_mem ?_ hn2
      intro a b ha hb hab x hxa hxb
      obtain ⟨ham, had⟩ := drawn_depth L ha
      obtain ⟨hbm, hbd⟩ := drawn_depth L hb
      have up : ∀ {c : Key × Hier}, c ∈ h → DepthIs h c.1 l → x ∈ c.1 :: render h n (some c.1) (l + 1) →
          ∃ k, UpTo h x c.1 k ∧ DepthIs h x (l + k) := by
        intro c hc hcd hx
        rcases List.mem_cons.1 hx with rfl | hx
        · exact ⟨0, .self hc, hcd⟩
        · obtain ⟨k, _, hu⟩ := (mem_render_some F L n c.1 l hcd x).1 hx
          exact ⟨k + 1, hu, up_depth hu hcd⟩
      obtain ⟨k, hu, hdk⟩ := up ham had hxa
      obtain ⟨j, hv, hdj⟩ := up hbm hbd hxb
      have : k = j := by have := depth_unique F hdk hdj; omega
      subst this
      exact hab (up_unique F hu hv)

/-- The root above a node. -/
theorem up_root {x n} (hd : DepthIs h x n) : ∃ kv ∈ h, kv.2.parent = none ∧ UpTo h x kv.1 n := by
  induction hd with
  | root hm hp => exact ⟨_, hm, hp, .self hm⟩
  | child hm hp _ ih =>
    obtain ⟨r, hr, hrp, hu⟩ := ih
    exact ⟨r, hr, hrp, .step hm hp hu⟩

theorem render_perm (F : Forest h) (L : ∀ kv ∈ h, DepthIs h kv.1 kv.2.level) (n : Nat) (hn : ∀ kv ∈ h, kv.2.level < n) :
    (render h n none 0).Perm (h.map Prod.fst) := by
  rw [List.perm_ext_iff_of_nodup (render_nodup F L n none 0) F.nodup]
  intro x
  cases n with
  | zero =>
    have : h = [] := by
      cases h with
      | nil => rfl
      | cons a h => have := hn a (by simp); omega
    subst this
    simp [render]
  | succ n =>
    rw [render_eq F]
    simp only [List.mem_flatMap, List.mem_cons]
    constructor
    · rintro ⟨kv, hkv, hx⟩
      obtain ⟨hm, hd⟩ := drawn_depth L hkv
      rcases hx with rfl | hx
      · exact List.mem_map_of_mem hm
      · obtain ⟨k, _, hu⟩ := (mem_render_some F L n kv.1 0 hd x).1 hx
        exact (up_mem hu).1
    · intro hx
      obtain ⟨xv, hxv, rfl⟩ := List.mem_map.1 hx
      have hd := L xv hxv
      have hlt := hn xv hxv
      obtain ⟨r, hr, hrp, hu⟩ := up_root hd
      have hr0 : DepthIs h r.1 0 := .root hr hrp
      refine ⟨r, ?_, ?_⟩
      · simp only [drawn, List.mem_filter, decide_eq_true_eq]
        exact ⟨hr, hrp, depth_unique F (L r hr) hr0⟩
      · cases hk : xv.2.level with
        | zero =>
          rw [hk] at hu
          generalize hz : xv.1 = z at hu
          left
          generalize hw : r.1 = w at hu
          cases hu with
          | self _ => rfl
        | succ k =>
          rw [hk] at hu
          exact Or.inr ((mem_render_some F L n r.1 0 hr0 _).2 ⟨k, by omega, hu⟩)

theorem mem_links (F : Forest h) (a b : Key) : (a, b) ∈ links h ↔ ∃ kv ∈ h, kv.1 = b ∧ kv.2.parent = some a := by
  simp only [links, List.mem_flatMap, List.mem_map, Prod.mk.injEq]
  constructor
  · rintro ⟨kv, hkv, c, hc, h1, rfl⟩
    obtain ⟨x, hx, h2, h3⟩ := (F.children_iff kv hkv c).1 hc
    exact ⟨x, hx, h2, by rw [h3, ← F.ids kv hkv, h1]⟩
  · rintro ⟨x, hx, rfl, hp⟩
    obtain ⟨pv, hpv, rfl⟩ := List.mem_map.1 (F.parents x hx a hp)
    exact ⟨pv, hpv, x.1, (F.children_iff pv hpv x.1).2 ⟨x, hx, rfl, hp⟩, F.ids pv hpv, rfl⟩

theorem links_nodup (F : Forest h) : ((links h).map Prod.snd).Nodup := by
  have e : (links h).map Prod.snd = h.flatMap (fun kv => kv.2.children) := by
    simp [links, List.map_flatMap, Function.comp_def]
  rw [e, List.nodup_flatMap]
  refine ⟨fun kv hkv => F.children_nodup kv hkv, ?_⟩
  have hn := F.nodup
  rw [List.Nodup, List.pairwise_map] at hn
  refine List.Pairwise.imp_of_mem ?_ hn
  intro a b ha hb hab c hca hcb
  obtain ⟨x, hx, x1, x2⟩ := (F.children_iff a ha c).1 hca
  obtain ⟨y, hy, y1, y2⟩ := (F.children_iff b hb c).1 hcb
  have := F.uniq hx hy (x1.trans y1.symm)
  subst this
  rw [x2] at y2
  exact hab (Option.some.inj y2)

theorem links_roots_perm (F : Forest h) : ((links h).map Prod.snd ++ roots h).Perm (h.map Prod.fst) := by
  rw [List.perm_ext_iff_of_nodup _ F.nodup]
  · intro x
    rw [List.mem_append]
    constructor
    · rintro (hx | hx)
      · obtain ⟨⟨a, b⟩, hab, rfl⟩ := List.mem_map.1 hx
        obtain ⟨kv, hkv, he, _⟩ := (mem_links F a b).1 hab
        exact he ▸ List.mem_map_of_mem hkv
      · obtain ⟨kv, hkv, rfl⟩ := List.mem_map.1 hx
        exact List.mem_map_of_mem (List.mem_filter.1 hkv).1
    · intro hx
      obtain ⟨kv, hkv, rfl⟩ := List.mem_map.1 hx
      cases hp : kv.2.parent with
      | none => exact Or.inr (List.mem_map.2 ⟨kv, List.mem_filter.2 ⟨hkv, by simp [hp]⟩, rfl⟩)
      | some p => exact Or.inl (List.mem_map.2 ⟨(p, kv.1), (mem_links F p kv.1).2 ⟨kv, hkv, rfl, hp⟩, rfl⟩)
  · rw [List.nodup_append]
    refine ⟨links_nodup F, List.Nodup.sublist (List.Sublist.map _ List.filter_sublist) F.nodup, ?_⟩
    intro a ha b hb e
    subst e
    obtain ⟨⟨p, c⟩, hpc, rfl⟩ := List.mem_map.1 ha
    obtain ⟨x, hx, x1, x2⟩ := (mem_links F p c).1 hpc
    obtain ⟨y, hy, y1⟩ := List.mem_map.1 hb
    rw [List.mem_filter] at hy
    simp only [decide_eq_true_eq] at hy
    have := F.uniq hx hy.1 (x1.trans y1.symm)
    subst this
    rw [hy.2] at x2; cases x2

end Render

theorem bfs_mono (h : List (Key × Hier)) : ∀ (n : Nat) (q acc a : List (Key × Nat)), bfs h n q acc = some a → ∀ m, n ≤ m → bfs h m q acc = some a
  | 0, [], acc, a => by intro hb m _; cases m <;> simpa [bfs] using hb
  | 0, _ :: _, acc, a => by intro hb; simp [bfs] at hb
  | n + 1, [], acc, a => by intro hb m _; cases m <;> simpa [bfs] using hb
  | n + 1, (x, l) :: q, acc, a => by
    intro hb m hm
    cases m with
    | zero => omega
    | succ m =>
      rw [bfs] at hb ⊢
      cases hx : h.lookup x with
      | none => rw [hx] at hb; exact bfs_mono h n _ _ _ hb m (by omega)
      | some nd => rw [hx] at hb; exact bfs_mono h n _ _ _ hb m (by omega)

/-- C137 for the analysis that was run. -/
theorem C137_result (auto : Bool) (minNodes : Nat) (g : Graph) (N : NamedNodes g.nodes) (hc : auto = true → NoClusterNodes g.nodes)
    (fuel : Nat) (h : List (Key × Hier)) (acc : List (Key × Nat)) (hr : analyzeNested auto minNodes fuel g = some (h, acc)) :
    Forest h ∧ (∀ kv ∈ h, DepthIs h kv.1 kv.2.level) ∧ (acc.map Prod.fst).Perm (h.map Prod.fst) ∧
    (∀ kv ∈ h, (kv.1, kv.2.level) ∈ acc) ∧ h = setLevels (beforeLevels auto minNodes g.nodes) acc := by
  obtain ⟨h', acc', ⟨f0, hf⟩, F, L, _, _, P, M, _, E⟩ := C137_levels auto minNodes g N hc
  have same : h = h' ∧ acc = acc' := by
    have mono := bfs_mono (beforeLevels auto minNodes g.nodes)
    simp only [analyzeNested, assignLevels] at hr
    cases hb : bfs (beforeLevels auto minNodes g.nodes) fuel ((roots (beforeLevels auto minNodes g.nodes)).map (fun x => (x, 0))) [] with
    | none => simp only [beforeLevels] at hb; rw [hb] at hr; simp at hr
    | some a =>
      have h1 := mono fuel _ _ a hb (max fuel f0) (Nat.le_max_left _ _)
      have h2 := hf (max fuel f0) (Nat.le_max_right _ _)
      simp only [analyzeNested, assignLevels] at h2
      simp only [beforeLevels] at hb h1
      rw [h1] at h2
      rw [hb] at hr
      simp only [Option.map_some, Option.some.injEq, Prod.mk.injEq] at h2 hr
      exact ⟨by rw [← hr.1, ← h2.1], by rw [← hr.2, ← h2.2]⟩
  obtain ⟨rfl, rfl⟩ := same
  exact ⟨F, L, P, M, E⟩

/-- C139: whatever graph was analysed, the Graphviz drawing contains every node exactly once, and a dashed edge from `a` to `b`
exactly when `a` is the parent of `b`, once; so there are as many edges as nodes that are not roots. -/
theorem C139_rendering_partial (auto : Bool) (minNodes : Nat) (g : Graph) (N : NamedNodes g.nodes) (hc : auto = true → NoClusterNodes g.nodes)
    (fuel : Nat) (h : List (Key × Hier)) (acc : List (Key × Nat)) (hr : analyzeNested auto minNodes fuel g = some (h, acc)) :
    (∀ depth, (∀ kv ∈ h, kv.2.level < depth) → (render h depth none 0).Perm (h.map Prod.fst)) ∧
    (∀ a b, (a, b) ∈ links h ↔ ∃ kv ∈ h, kv.1 = b ∧ kv.2.parent = some a) ∧ (links h).Nodup ∧
    (links h).length + (roots h).length = h.length := by
  obtain ⟨F, L, _⟩ := C137_result auto minNodes g N hc fuel h acc hr
  refine ⟨fun d hd => render_perm F L d hd, mem_links F, List.Nodup.of_map _ (links_nodup F), ?_⟩
  have := (links_roots_perm F).length_eq
  simpa using this

/-- Inside the box of a node: exactly its descendants, each once. -/
theorem C139_box (auto : Bool) (minNodes : Nat) (g : Graph) (N : NamedNodes g.nodes) (hc : auto = true → NoClusterNodes g.nodes)
    (fuel : Nat) (h : List (Key × Hier)) (acc : List (Key × Nat)) (hr : analyzeNested auto minNodes fuel g = some (h, acc))
    (kv : Key × Hier) (hkv : kv ∈ h) (depth : Nat) :
    (render h depth (some kv.1) (kv.2.level + 1)).Nodup ∧
    ∀ x, x ∈ render h depth (some kv.1) (kv.2.level + 1) ↔ ∃ k, k < depth ∧ UpTo h x kv.1 (k + 1) := by
  obtain ⟨F, L, _⟩ := C137_result auto minNodes g N hc fuel h acc hr
  exact ⟨render_nodup F L _ _ _, fun x => mem_render_some F L depth kv.1 kv.2.level (L kv hkv) x⟩

/-- Graph with three modules of type `Module`. -/
def cytoDemo : Graph := analyzeFlax (fun _ _ => false) "f".toList (.params
  [("a".toList, .dict [("scale".toList, .other)]), ("a_b".toList, .dict [("scale".toList, .other)]),
   ("a_a_b".toList, .dict [("scale".toList, .other)])]) Graph.empty

/-- C139 fails for Cytoscape: the identifier of the edge from `a` to `a_b` is the identifier of the node `a_a_b`. -/
theorem C139_cytoscape_ids_clash :
    ∃ h acc, analyzeNested false 2 100 cytoDemo = some (h, acc) ∧ ¬ (cytoscapeIds h).Nodup := by
  obtain ⟨h, acc, ⟨f0, hf⟩, _⟩ := C137_levels false 2 cytoDemo (flax_named _ _ _ (by decide +kernel)) (by simp)
  have hs : (analyzeNested false 2 100 cytoDemo).isSome = true := by decide +kernel
  have hc : (analyzeNested false 2 100 cytoDemo).any (fun r => decide ((cytoscapeIds r.1).Nodup)) = false := by decide +kernel
  cases hr : analyzeNested false 2 100 cytoDemo with
  | none => rw [hr] at hs; cases hs
  | some r =>
    rw [hr] at hc
    refine ⟨r.1, r.2, rfl, ?_⟩
    simpa using hc

/-- The identifiers of the nodes given to Cytoscape are distinct, and so are its edges as pairs; when no identifier contains an
underscore all the identifiers are distinct. -/
theorem C139_cytoscape_ids_partial (auto : Bool) (minNodes : Nat) (g : Graph) (N : NamedNodes g.nodes) (hc : auto = true → NoClusterNodes g.nodes)
    (fuel : Nat) (h : List (Key × Hier)) (acc : List (Key × Nat)) (hr : analyzeNested auto minNodes fuel g = some (h, acc))
    (hu : ∀ kv ∈ h, '_' ∉ kv.1) : (cytoscapeIds h).Nodup := by
  obtain ⟨F, L, _⟩ := C137_result auto minNodes g N hc fuel h acc hr
  have he : h.map (fun kv => kv.2.id) = h.map Prod.fst := List.map_congr_left (fun kv hkv => F.ids kv hkv)
  have hl : ∀ e ∈ links h, '_' ∉ e.1 ∧ '_' ∉ e.2 := by
    intro e hem
    obtain ⟨kv, hkv, h1, h2⟩ := (mem_links F e.1 e.2).1 hem
    refine ⟨?_, h1 ▸ hu kv hkv⟩
    obtain ⟨pv, hpv, h3⟩ := List.mem_map.1 (F.parents kv hkv e.1 h2)
    exact h3 ▸ hu pv hpv
  rw [cytoscapeIds, he, List.nodup_append]
  refine ⟨F.nodup, ?_, ?_⟩
  · refine (List.nodup_map_iff_inj_on (List.Nodup.of_map _ (links_nodup F))).2 ?_
    intro a ha b hb hab
    have key : ∀ (x y : Key) (u v : Key), '_' ∉ x → '_' ∉ y → x ++ '_' :: u = y ++ '_' :: v → x = y ∧ u = v := by
      intro x
      induction x with
      | nil =>
        intro y u v _ hy h
        cases y with
        | nil => simpa using h
        | cons c y => simp only [List.nil_append, List.cons_append, List.cons.injEq] at h; exact absurd (by simp [← h.1]) hy
      | cons c x ihx =>
        intro y u v hx hy h
        cases y with
        | nil => simp only [List.nil_append, List.cons_append, List.cons.injEq] at h; exact absurd (by simp [h.1]) hx
        | cons d y =>
          simp only [List.cons_append, List.cons.injEq] at h
          obtain ⟨h1, h2⟩ := ihx y u v (fun hm => hx (by simp [hm])) (fun hm => hy (by simp [hm])) h.2
          exact ⟨by rw [h.1, h1], h2⟩
    obtain ⟨h1, h2⟩ := key a.1 b.1 a.2 b.2 (hl a ha).1 (hl b hb).1 hab
    exact Prod.ext h1 h2
  · intro a ha b hb e
    subst e
    obtain ⟨kv, hkv, rfl⟩ := List.mem_map.1 ha
    obtain ⟨l, _, hle⟩ := List.mem_map.1 hb
    apply hu kv hkv
    rw [← hle]
    simp

/-! ## C140: summary -/

theorem countBy_spec {K : Type} [DecidableEq K] (ks : List K) :
    ((countBy ks).map Prod.fst).Nodup ∧ (∀ k c, (k, c) ∈ countBy ks ↔ 0 < c ∧ c = ks.count k) := by
  induction ks using List.reverseRecOn with
  | nil =>
    refine ⟨by simp [countBy], fun k c => ?_⟩
    simp only [countBy, List.foldl_nil, List.not_mem_nil, List.count_nil, false_iff]
    omega
  | append_singleton ks k0 ih =>
    obtain ⟨ih1, ih2⟩ := ih
    have hstep : countBy (ks ++ [k0]) = bump (countBy ks) k0 := by
      simp only [countBy, List.foldl_append, List.foldl_cons, List.foldl_nil]
    have hcount : ∀ k, (ks ++ [k0]).count k = ks.count k + if k = k0 then 1 else 0 := by
      intro k
      rw [List.count_append, List.count_singleton]
      by_cases e : k = k0
      · subst e; simp
      · have : (k0 == k) = false := by simpa using (fun h => e h.symm)
        simp [e, this]
    rw [hstep, bump]
    split
    · rename_i ha
      rw [List.any_eq_true] at ha
      obtain ⟨e0, he0, hk0⟩ := ha
      simp only [decide_eq_true_eq] at hk0
      have hkeys : ((countBy ks).map (fun e => if e.1 = k0 then (k0, e.2 + 1) else e)).map Prod.fst = (countBy ks).map Prod.fst := by
        rw [List.map_map]
        apply List.map_congr_left
        intro e _
        simp only [Function.comp]
        split
        · rename_i h; exact h.symm
        · rfl
      refine ⟨by rw [hkeys]; exact ih1, fun k c => ?_⟩
      rw [hcount]
      simp only [List.mem_map]
      constructor
      · rintro ⟨e, he, hec⟩
        have := (ih2 e.1 e.2).1 he
        by_cases h1 : e.1 = k0
        · simp only [h1, if_true, Prod.mk.injEq] at hec
          obtain ⟨rfl, rfl⟩ := hec
          rw [h1] at this
          simp only [if_true]; omega
        · simp only [h1, if_false] at hec
          subst hec
          simp only at h1
          simp only [h1, if_false]; omega
      · rintro ⟨hc, hce⟩
        by_cases h1 : k = k0
        · subst h1
          simp only [if_true] at hce
          have h2 := (ih2 e0.1 e0.2).1 he0
          rw [hk0] at h2
          refine ⟨e0, he0, ?_⟩
          simp only [hk0, if_true, Prod.mk.injEq, true_and]
          omega
        · simp only [h1, if_false] at hce
          refine ⟨(k, c), (ih2 k c).2 ⟨hc, by omega⟩, ?_⟩
          simp [h1]
    · rename_i ha
      have hnew : k0 ∉ (countBy ks).map Prod.fst := by
        intro hm
        obtain ⟨e, he, h1⟩ := List.mem_map.1 hm
        exact ha (List.any_eq_true.2 ⟨e, he, by simp [h1]⟩)
      have hz : ks.count k0 = 0 := by
        by_contra hne
        exact hnew (List.mem_map.2 ⟨(k0, ks.count k0), (ih2 _ _).2 ⟨by omega, rfl⟩, rfl⟩)
      refine ⟨?_, fun k c => ?_⟩
      · rw [List.map_append, List.nodup_append]
        refine ⟨ih1, by simp, ?_⟩
        intro a ha' b hb e
        simp only [List.map_cons, List.map_nil, List.mem_singleton] at hb
        subst hb; subst e
        exact hnew ha'
      · rw [hcount, List.mem_append, List.mem_singleton, Prod.mk.injEq, ih2]
        by_cases h1 : k = k0
        · subst h1; simp only [true_and, if_true, hz]; omega
        · simp only [h1, false_and, if_false, or_false, Nat.add_zero]

theorem countBy_sum {K : Type} [DecidableEq K] (ks : List K) : ((countBy ks).map Prod.snd).sum = ks.length := by
  induction ks using List.reverseRecOn with
  | nil => rfl
  | append_singleton ks k0 ih =>
    obtain ⟨ih1, _⟩ := countBy_spec ks
    have hstep : countBy (ks ++ [k0]) = bump (countBy ks) k0 := by
      simp only [countBy, List.foldl_append, List.foldl_cons, List.foldl_nil]
    rw [hstep, List.length_append, List.length_singleton, ← ih, bump]
    generalize countBy ks = d at ih1
    split
    · rename_i ha
      induction d with
      | nil => simp at ha
      | cons e d ihd =>
        obtain ⟨a, b⟩ := e
        simp only [List.map_cons, List.nodup_cons] at ih1
        by_cases h1 : a = k0
        · subst h1
          have : d.map (fun e => if e.1 = a then (a, e.2 + 1) else e) = d := by
            conv_rhs => rw [← List.map_id d]
            apply List.map_congr_left
            intro e he
            rw [if_neg]
            · rfl
            · intro h; exact ih1.1 (h ▸ List.mem_map_of_mem he)
          simp only [List.map_cons, if_true, this, List.sum_cons]
          omega
        · have ha' : d.any (fun e => decide (e.1 = k0)) = true := by simpa [h1] using ha
          have := ihd ih1.2 ha'
          simp only [List.map_cons, h1, if_false, List.sum_cons, this]
          omega
    · simp

theorem maxLevel_spec (acc : List (Key × Nat)) : (∀ e ∈ acc, e.2 ≤ maxLevel acc) ∧ (acc ≠ [] → ∃ e ∈ acc, e.2 = maxLevel acc) := by
  induction acc using List.reverseRecOn with
  | nil => simp
  | append_singleton acc e ih =>
    have hs : maxLevel (acc ++ [e]) = max (maxLevel acc) e.2 := by simp [maxLevel, List.foldl_append]
    rw [hs]
    refine ⟨?_, fun _ => ?_⟩
    · intro x hx
      rcases List.mem_append.1 hx with hx | hx
      · exact Nat.le_trans (ih.1 x hx) (Nat.le_max_left _ _)
      · simp only [List.mem_singleton] at hx; subst hx; exact Nat.le_max_right _ _
    · rcases Nat.le_total e.2 (maxLevel acc) with hle | hle
      · rw [Nat.max_eq_left hle]
        by_cases ha : acc = []
        · subst ha
          refine ⟨e, by simp, ?_⟩
          simp only [maxLevel, List.foldl_nil] at hle ⊢
          omega
        · obtain ⟨x, hx, hxe⟩ := ih.2 ha
          exact ⟨x, by simp [hx], hxe⟩
      · rw [Nat.max_eq_right hle]
        exact ⟨e, by simp, rfl⟩

/-- C140: the summary of an analysis: the total counts the nodes; the maximal level is the largest depth; for every node type, and
every level, the number of nodes of that type, at that depth; both tables add up to the total. -/
theorem C140_summary (auto : Bool) (minNodes : Nat) (g : Graph) (N : NamedNodes g.nodes) (hc : auto = true → NoClusterNodes g.nodes)
    (fuel : Nat) (h : List (Key × Hier)) (acc : List (Key × Nat)) (hr : analyzeNested auto minNodes fuel g = some (h, acc)) :
    let s := summary h acc
    s.1 = h.length ∧
    (∀ kv ∈ h, kv.2.level ≤ s.2.1) ∧ (h ≠ [] → ∃ kv ∈ h, DepthIs h kv.1 s.2.1) ∧
    (∀ t c, (t, c) ∈ s.2.2.1 ↔ 0 < c ∧ c = (h.map (fun kv => kv.2.nodeType)).count t) ∧
    (∀ l c, (l, c) ∈ s.2.2.2 ↔ 0 < c ∧ c = (h.map (fun kv => kv.2.level)).count l) ∧
    (s.2.2.1.map Prod.snd).sum = s.1 ∧ (s.2.2.2.map Prod.snd).sum = s.1 := by
  obtain ⟨F, L, P, M, _⟩ := C137_result auto minNodes g N hc fuel h acc hr
  obtain ⟨m1, m2⟩ := maxLevel_spec acc
  refine ⟨rfl, fun kv hkv => m1 _ (M kv hkv), fun hne => ?_, fun t c => (countBy_spec _).2 t c, fun l c => (countBy_spec _).2 l c, ?_, ?_⟩
  · have hacc : acc ≠ [] := by
      rintro rfl
      have := P.length_eq
      simp only [List.map_nil, List.length_nil, List.length_map] at this
      exact hne (List.eq_nil_of_length_eq_zero this.symm)
    obtain ⟨e, he, hee⟩ := m2 hacc
    have hk : e.1 ∈ h.map Prod.fst := P.mem_iff.1 (List.mem_map_of_mem he)
    obtain ⟨kv, hkv, hke⟩ := List.mem_map.1 hk
    have h1 := M kv hkv
    have hnd : (acc.map Prod.fst).Nodup := P.nodup_iff.2 F.nodup
    have := List.inj_on_of_nodup_map hnd h1 he hke
    refine ⟨kv, hkv, ?_⟩
    show DepthIs h kv.1 (maxLevel acc)
    rw [← hee, ← this]
    exact L kv hkv
  · simp [summary, countBy_sum]
  · simp [summary, countBy_sum]

/-! ## C141: automatic clusters -/

/-- C141: with clustering, every type with at least `minNodes` root nodes gets exactly one cluster, which is a root and whose children
are exactly those nodes in order; types with fewer roots are left alone; nodes that had a parent keep it; nothing else is added. -/
theorem C141_clusters (minNodes : Nat) (nodes : List (Key × Node)) (N : NamedNodes nodes) (hc : NoClusterNodes nodes) :
    let h := extractHierarchy nodes
    let h' := autoCluster minNodes h
    (∀ kv ∈ h, ∃ kv' ∈ h', kv'.1 = kv.1 ∧ kv'.2.name = kv.2.name ∧ kv'.2.nodeType = kv.2.nodeType ∧ kv'.2.children = kv.2.children ∧
      (kv.2.parent ≠ none → kv'.2.parent = kv.2.parent) ∧
      (kv.2.parent = none → (rootsOf h kv.2.nodeType).length < minNodes → kv'.2.parent = none)) ∧
    (∀ t, rootsOf h t ≠ [] → minNodes ≤ (rootsOf h t).length → ∃ c ∈ h', c.2.nodeType = "cluster" ∧ c.2.parent = none ∧
      c.2.children = rootsOf h t ∧ ∀ k ∈ rootsOf h t, ∃ kv' ∈ h', kv'.1 = k ∧ kv'.2.parent = some c.1) ∧
    (∀ kv' ∈ h', kv'.1 ∉ h.map Prod.fst → kv'.2.nodeType = "cluster" ∧ kv'.2.parent = none ∧
      ∃ t, minNodes ≤ (rootsOf h t).length ∧ kv'.2.children = rootsOf h t ∧ rootsOf h t ≠ []) ∧
    (∀ a ∈ h', ∀ b ∈ h', a.1 ∉ h.map Prod.fst → b.1 ∉ h.map Prod.fst → a.2.children = b.2.children → a = b) := by
  intro h h'
  have C := autoCluster_clustered minNodes (extractHierarchy_forest N) (hierarchy_noCluster N hc) (hierarchy_types N)
  obtain ⟨g1, g2, g3⟩ := rootGroups_spec h
  have hne : ∀ t ∈ (rootGroups h).map Prod.fst, rootsOf h t ≠ [] := by
    intro t ht
    obtain ⟨g, hg, rfl⟩ := List.mem_map.1 ht
    obtain ⟨e1, e2⟩ := g2 g hg
    rw [← e1]; exact e2
  have hmem : ∀ t, rootsOf h t ≠ [] → t ∈ (rootGroups h).map Prod.fst := by
    intro t ht
    obtain ⟨k, hk⟩ := List.exists_mem_of_ne_nil _ ht
    obtain ⟨kv, hkv, _, h2, h3⟩ := rootsOf_mem hk
    exact h3 ▸ g3 kv hkv h2
  have hnew : ∀ kv' ∈ h', kv'.1 ∉ h.map Prod.fst → kv'.2.nodeType = "cluster" ∧ kv'.2.parent = none ∧
      ∃ t, minNodes ≤ (rootsOf h t).length ∧ kv'.2.children = rootsOf h t ∧ rootsOf h t ≠ [] := by
    intro kv' hkv' hk
    rcases C.new kv' hkv' with h1 | ⟨t, h1, n, _, h3, h4, h5, h6⟩
    · exact absurd h1 hk
    · exact ⟨h4, h5, t, h3, h6, hne t h1⟩
  refine ⟨?_, ?_, hnew, ?_⟩
  · intro kv hkv
    obtain ⟨kv', a1, a2, a3, a4, a5, a6, a7⟩ := C.old kv hkv
    exact ⟨kv', a1, a2, a3, a4, a5, a6, fun hp hlt => a7 hp (fun hh => Nat.not_le_of_lt hlt hh.2)⟩
  · intro t ht hmin
    obtain ⟨n, hn⟩ := C.all t (hmem t ht) hmin
    obtain ⟨c, hcm, hce⟩ := List.mem_map.1 hn
    have hold : c.1 ∉ h.map Prod.fst := by
      intro hm
      exact hierarchy_noCluster N hc c.1 hm (hce ▸ clusterName_cluster t n)
    rcases C.new c hcm with h1 | ⟨t', h1, m, h2, h3, h4, h5, h6⟩
    · exact absurd h1 hold
    · have htn : t ∈ nodeTypes := by
        obtain ⟨k, hk⟩ := List.exists_mem_of_ne_nil _ ht
        obtain ⟨kv, hkv, _, _, x3⟩ := rootsOf_mem hk
        exact x3 ▸ hierarchy_types N kv hkv
      have htn' : t' ∈ nodeTypes := by
        obtain ⟨k, hk⟩ := List.exists_mem_of_ne_nil _ (hne t' h1)
        obtain ⟨kv, hkv, _, _, x3⟩ := rootsOf_mem hk
        exact x3 ▸ hierarchy_types N kv hkv
      have : t = t' := clusterName_inj htn htn' (hce.symm.trans h2)
      subst this
      refine ⟨c, hcm, h4, h5, h6, fun k hk => ?_⟩
      have := (C.forest.children_iff c hcm k).1 (h6 ▸ hk)
      obtain ⟨x, hx, x1, x2⟩ := this
      exact ⟨x, hx, x1, x2⟩
  · intro a ha b hb hka hkb hch
    obtain ⟨_, _, t, _, e1, e2⟩ := hnew a ha hka
    obtain ⟨k, hk⟩ := List.exists_mem_of_ne_nil _ (e1 ▸ e2)
    obtain ⟨x, hx, x1, x2⟩ := (C.forest.children_iff a ha k).1 hk
    obtain ⟨y, hy, y1, y2⟩ := (C.forest.children_iff b hb k).1 (hch ▸ hk)
    have := C.forest.uniq hx hy (x1.trans y1.symm)
    subst this
    rw [x2] at y2
    exact C.forest.uniq ha hb (Option.some.inj y2)

theorem joinAll_keys (c : Key) (ids : List Key) : ∀ h : List (Key × Hier), (ids.foldl (joinCluster c) h).map Prod.fst = h.map Prod.fst := by
  induction ids with
  | nil => intro h; rfl
  | cons id ids ih =>
    intro h
    rw [List.foldl_cons, ih, joinCluster, addChild, List.map_map, List.map_map]
    apply List.map_congr_left
    intro kv _
    simp only [Function.comp]
    split <;> split <;> rfl

theorem clusterFold_keys (minNodes : Nat) (gs : List (String × List Key)) : ∀ (h : List (Key × Hier)) (n : Nat),
    (∀ g ∈ gs, g.1 ∈ nodeTypes ∧ ∀ m, clusterName g.1 m ∉ h.map Prod.fst) → (gs.map Prod.fst).Nodup →
    ((gs.foldl (clusterGroup minNodes) (h, n)).1).map Prod.fst =
      h.map Prod.fst ++ ((gs.filter (fun g => minNodes ≤ g.2.length)).zipIdx n).map (fun x => clusterName x.1.1 x.2) := by
  induction gs with
  | nil => intro h n _ _; simp
  | cons g gs ih =>
    intro h n hfresh hnd
    simp only [List.map_cons, List.nodup_cons] at hnd
    rw [List.foldl_cons, clusterGroup]
    by_cases hm : minNodes ≤ g.2.length
    · have hg := hfresh g (by simp)
      rw [if_pos hm]
      have hk : ((g.2.foldl (joinCluster (clusterName g.1 n)) (put h (clusterName g.1 n)
          ⟨clusterName g.1 n, (g.1 ++ " Components").toList, "cluster", 0, none, []⟩)).map Prod.fst) = h.map Prod.fst ++ [clusterName g.1 n] := by
        rw [joinAll_keys, put_fresh _ _ _ (hg.2 n), List.map_append]; rfl
      simp only
      rw [ih _ (n + 1) _ hnd.2, hk, List.filter_cons_of_pos (by simpa using hm), List.zipIdx_cons, List.map_cons, List.append_assoc]
      · rfl
      · intro x hx
        refine ⟨(hfresh x (by simp [hx])).1, fun m => ?_⟩
        rw [hk, List.mem_append, not_or]
        refine ⟨(hfresh x (by simp [hx])).2 m, ?_⟩
        rw [List.mem_singleton]
        intro e
        have := clusterName_inj (hfresh x (by simp [hx])).1 hg.1 e
        exact hnd.1 (this ▸ List.mem_map_of_mem hx)
    · rw [if_neg hm, ih h n (fun x hx => hfresh x (by simp [hx])) hnd.2, List.filter_cons_of_neg (by simpa using hm)]

/-- C141: the clusters follow the nodes, numbered from 0 in the order in which their types first appear among the roots. -/
theorem C141_cluster_names (minNodes : Nat) (nodes : List (Key × Node)) (N : NamedNodes nodes) (hc : NoClusterNodes nodes) :
    ∃ types : List String, types.Nodup ∧
      (∀ t, t ∈ types ↔ rootsOf (extractHierarchy nodes) t ≠ [] ∧ minNodes ≤ (rootsOf (extractHierarchy nodes) t).length) ∧
      (autoCluster minNodes (extractHierarchy nodes)).map Prod.fst =
        nodes.map Prod.fst ++ types.zipIdx.map (fun x => clusterName x.1 x.2) := by
  obtain ⟨g1, g2, g3⟩ := rootGroups_spec (extractHierarchy nodes)
  have hty : ∀ t, rootsOf (extractHierarchy nodes) t ≠ [] → t ∈ nodeTypes ∧ t ∈ (rootGroups (extractHierarchy nodes)).map Prod.fst := by
    intro t ht
    obtain ⟨k, hk⟩ := List.exists_mem_of_ne_nil _ ht
    obtain ⟨kv, hkv, _, h2, h3⟩ := rootsOf_mem hk
    exact ⟨h3 ▸ hierarchy_types N kv hkv, h3 ▸ g3 kv hkv h2⟩
  refine ⟨((rootGroups (extractHierarchy nodes)).filter (fun g => minNodes ≤ g.2.length)).map Prod.fst, ?_, ?_, ?_⟩
  · exact List.Nodup.sublist (List.Sublist.map _ List.filter_sublist) g1
  · intro t
    simp only [List.mem_map, List.mem_filter, decide_eq_true_eq]
    constructor
    · rintro ⟨g, ⟨hg, hm⟩, rfl⟩
      obtain ⟨e1, e2⟩ := g2 g hg
      rw [← e1]; exact ⟨e2, hm⟩
    · rintro ⟨h1, h2⟩
      obtain ⟨g, hg, rfl⟩ := List.mem_map.1 (hty t h1).2
      exact ⟨g, ⟨hg, by rw [(g2 g hg).1]; exact h2⟩, rfl⟩
  · rw [autoCluster, clusterFold_keys minNodes _ _ 0 _ g1, extractHierarchy_keys N, List.zipIdx_map, List.map_map]
    · rfl
    · intro g hg
      obtain ⟨e1, e2⟩ := g2 g hg
      refine ⟨(hty g.1 (e1 ▸ e2)).1, fun m hm => ?_⟩
      exact hierarchy_noCluster N hc _ hm (clusterName_cluster g.1 m)

/-- Two modules of the same type are put into a cluster. -/
example : ((analyzeNested true 2 100 (analyzeFlax (fun _ _ => false) "f".toList (.params
    [("Dense_0".toList, .dict [("kernel".toList, .other)]), ("ema".toList, .dict [("alpha".toList, .other)]),
     ("Dense_1".toList, .dict [("kernel".toList, .other)])]) Graph.empty)).map (fun r => r.1.map (fun kv => (String.ofList kv.1, kv.2.level,
       kv.2.parent.map String.ofList)))) =
    some [("Dense_0", 1, some "cluster_unknown_0"), ("ema", 0, none), ("Dense_1", 1, some "cluster_unknown_0"), ("main", 0, none),
      ("cluster_unknown_0", 0, none)] := by decide +kernel

example : NoClusterNodes (analyzeFlax (fun _ _ => false) "f".toList (.params vizDemo) Graph.empty).nodes := by
  have : ∀ kv ∈ (analyzeFlax (fun _ _ => false) "f".toList (.params vizDemo) Graph.empty).nodes.map Prod.fst,
      ¬ "cluster_".toList <+: kv := by decide +kernel
  intro kv hkv
  exact this kv.1 (List.mem_map_of_mem hkv)

/-- Without the hypothesis the clustered hierarchy need not be a forest: a module called `cluster_ewma_0` becomes its own parent, and
it and the other members of the cluster are never given a level or drawn. -/
theorem C141_name_clash : ((analyzeNested true 2 100 (analyzeFlax (fun _ _ => false) "f".toList (.params
    [("cluster_ewma_0".toList, .dict [("alpha".toList, .other)]), ("ema".toList, .dict [("alpha".toList, .other)])]) Graph.empty)).map
      (fun r => (r.1.map (fun kv => (String.ofList kv.1, kv.2.parent.map String.ofList)), (render r.1 100 none 0).map String.ofList))) =
    some ([("cluster_ewma_0", some "cluster_ewma_0"), ("ema", some "cluster_ewma_0"), ("main", none)], ["main"]) := by decide +kernel

/-! ## C142: inferred types -/

/-- The name of a module contains a word, in any case. -/
def Says (name : Key) (w : String) : Prop := w.toList <:+: name.map Char.toLower

/-- The parameters of a module have an entry. -/
def Has (items : List (Key × PVal)) (k : String) : Prop := ∃ v, (k.toList, v) ∈ items

theorem hasKey_iff (items : List (Key × PVal)) (k : String) : hasKey items k = true ↔ Has items k := by
  simp only [hasKey, List.any_eq_true, decide_eq_true_eq, Has]
  constructor
  · rintro ⟨⟨a, v⟩, h1, rfl⟩; exact ⟨v, h1⟩
  · rintro ⟨v, h1⟩; exact ⟨_, h1, rfl⟩

/-- C142: what the type inferred for a module means, and the colour class it gets in the nested graph. The first rule that applies
decides, so a `Dense` layer is recognised only if its name and parameters trigger none of the others; all layers that are neither
averages nor buffers nor state managers, `Dense` ones included, end up in the class `unknown` or `module`. -/
theorem C142_types (strHas : String → List (Key × PVal) → Bool) (name : Key) (items : List (Key × PVal)) (id : Key) :
    let ty := inferType strHas name items
    let ewma := Says name "ewma" ∨ Has items "alpha" ∨ Has items "logcom"
    let buffer := Says name "buffer" ∨ strHas "maxlen" items = true
    let attention := Says name "attention" ∨ strHas "num_heads" items = true
    let machine := Says name "hierarchical" ∨ Says name "state_machine"
    let composite := Says name "composite" ∨ Says name "composition"
    let dense := Has items "kernel" ∨ Has items "weight"
    (ty = "EWMA" ↔ ewma) ∧
    (ty = "Buffer" ↔ ¬ ewma ∧ buffer) ∧
    (ty = "AttentionBasedStateSelector" ↔ ¬ ewma ∧ ¬ buffer ∧ attention) ∧
    (ty = "HierarchicalStateMachine" ↔ ¬ ewma ∧ ¬ buffer ∧ ¬ attention ∧ machine) ∧
    (ty = "CompositeStateManager" ↔ ¬ ewma ∧ ¬ buffer ∧ ¬ attention ∧ ¬ machine ∧ composite) ∧
    (ty = "Dense" ↔ ¬ ewma ∧ ¬ buffer ∧ ¬ attention ∧ ¬ machine ∧ ¬ composite ∧ dense) ∧
    (ty = "Module" ↔ ¬ ewma ∧ ¬ buffer ∧ ¬ attention ∧ ¬ machine ∧ ¬ composite ∧ ¬ dense) ∧
    classify ⟨id, name, ty⟩ = (if ty = "EWMA" then "ewma" else if ty = "Buffer" then "buffer" else if ty = "Dense" then "unknown"
      else if ty = "Module" then "module" else "state") := by
  intro ty ewma buffer attention machine composite dense
  have hs : ∀ w, occurs w (name.map Char.toLower) = true ↔ Says name w := fun w => by simp [occurs, Says]
  have h1 : (occurs "ewma" (name.map Char.toLower) || hasKey items "alpha" || hasKey items "logcom") = true ↔ ewma := by
    simp only [Bool.or_eq_true, hs, hasKey_iff, ewma, or_assoc]
  have h2 : (occurs "buffer" (name.map Char.toLower) || strHas "maxlen" items) = true ↔ buffer := by
    simp only [Bool.or_eq_true, hs, buffer]
  have h3 : (occurs "attention" (name.map Char.toLower) || strHas "num_heads" items) = true ↔ attention := by
    simp only [Bool.or_eq_true, hs, attention]
  have h4 : (occurs "hierarchical" (name.map Char.toLower) || occurs "state_machine" (name.map Char.toLower)) = true ↔ machine := by
    simp only [Bool.or_eq_true, hs, machine]
  have h5 : (occurs "composite" (name.map Char.toLower) || occurs "composition" (name.map Char.toLower)) = true ↔ composite := by
    simp only [Bool.or_eq_true, hs, composite]
  have h6 : (hasKey items "kernel" || hasKey items "weight") = true ↔ dense := by
    simp only [Bool.or_eq_true, hasKey_iff, dense]
  have c1 : classify ⟨id, name, "EWMA"⟩ = "ewma" := rfl_of ⟨id, name, "EWMA"⟩ "EWMA" rfl "ewma" (by decide +kernel)
  have c2 : classify ⟨id, name, "Buffer"⟩ = "buffer" := rfl_of ⟨id, name, "Buffer"⟩ "Buffer" rfl "buffer" (by decide +kernel)
  have c3 : classify ⟨id, name, "AttentionBasedStateSelector"⟩ = "state" := rfl_of ⟨id, name, "AttentionBasedStateSelector"⟩ "AttentionBasedStateSelector" rfl "state" (by decide +kernel)
  have c4 : classify ⟨id, name, "HierarchicalStateMachine"⟩ = "state" := rfl_of ⟨id, name, "HierarchicalStateMachine"⟩ "HierarchicalStateMachine" rfl "state" (by decide +kernel)
  have c5 : classify ⟨id, name, "CompositeStateManager"⟩ = "state" := rfl_of ⟨id, name, "CompositeStateManager"⟩ "CompositeStateManager" rfl "state" (by decide +kernel)
  have c6 : classify ⟨id, name, "Dense"⟩ = "unknown" := rfl_of ⟨id, name, "Dense"⟩ "Dense" rfl "unknown" (by decide +kernel)
  have c7 : classify ⟨id, name, "Module"⟩ = "module" := rfl_of ⟨id, name, "Module"⟩ "Module" rfl "module" (by decide +kernel)
  have hty : ty = (if (occurs "ewma" (name.map Char.toLower) || hasKey items "alpha" || hasKey items "logcom") = true then "EWMA"
      else if (occurs "buffer" (name.map Char.toLower) || strHas "maxlen" items) = true then "Buffer"
      else if (occurs "attention" (name.map Char.toLower) || strHas "num_heads" items) = true then "AttentionBasedStateSelector"
      else if (occurs "hierarchical" (name.map Char.toLower) || occurs "state_machine" (name.map Char.toLower)) = true then "HierarchicalStateMachine"
      else if (occurs "composite" (name.map Char.toLower) || occurs "composition" (name.map Char.toLower)) = true then "CompositeStateManager"
      else if (hasKey items "kernel" || hasKey items "weight") = true then "Dense"
      else "Module") := rfl
  clear_value ty ewma buffer attention machine composite dense
  revert h1 h2 h3 h4 h5 h6 hty
  generalize (occurs "ewma" (name.map Char.toLower) || hasKey items "alpha" || hasKey items "logcom") = b1
  generalize (occurs "buffer" (name.map Char.toLower) || strHas "maxlen" items) = b2
  generalize (occurs "attention" (name.map Char.toLower) || strHas "num_heads" items) = b3
  generalize (occurs "hierarchical" (name.map Char.toLower) || occurs "state_machine" (name.map Char.toLower)) = b4
  generalize (occurs "composite" (name.map Char.toLower) || occurs "composition" (name.map Char.toLower)) = b5
  generalize (hasKey items "kernel" || hasKey items "weight") = b6
  intro h1 h2 h3 h4 h5 h6 hty
  simp only [← h1, ← h2, ← h3, ← h4, ← h5, ← h6]
  clear h1 h2 h3 h4 h5 h6 hs
  subst hty
  cases b1
  case true => simp [c1]
  cases b2
  case true => simp [c2]
  cases b3
  case true => simp [c3]
  cases b4
  case true => simp [c4]
  cases b5
  case true => simp [c5]
  cases b6
  case true => simp [c6]
  case false => simp [c7]
where
  rfl_of (n : Node) (ty : String) (h : n.moduleType = ty) (r : String) (hr : classify ⟨[], [], ty⟩ = r) : classify n = r := by
    subst h; exact hr

end Verif.Props
