import Verif.Model.Pipeline
import Verif.Spec.Pipeline
import Verif.Props.Stream
import Verif.Props.Unroll
import Verif.Props.ARMA

/-! # Properties C85, C86: from a dataset to the outputs of a module -/

set_option linter.unusedSectionVars false

namespace Verif.Props
open Model.Stream Model.Unroll Model.Pipeline Spec Lemmas
variable {T A P S R O : Type} [LinearOrder T] [Inhabited A]

/-! ## The transform over step numbers is the module over records -/

theorem laxScan_map {C X Y Z : Type} (g : C → Y → C × Z) (h : X → Y) (c : C) (xs : List X) :
    laxScan (fun c x => g c (h x)) c xs = laxScan g c (xs.map h) := by
  induction xs generalizing c with
  | nil => rfl
  | cons x xs ih => simp [laxScan, ih]

theorem range_getD {α : Type} (l : List α) (d : α) : (List.range l.length).map (fun k => l.getD k d) = l := by
  apply List.ext_getElem?
  intro i
  by_cases hi : i < l.length
  · simp [List.getElem?_range hi, List.getElem?_eq_getElem hi]
  · rw [List.getElem?_eq_none (by simp; omega), List.getElem?_eq_none (by omega)]

theorem unroll_transformDataset (f : Transformed P S R (List (String × Cell A)) O) (split : R → R × R) (skip : Bool)
    (rng : Option R) (params : Option P) (state : Option S) (recs : List (List (String × Cell A))) :
    unroll (transformDataset f recs) split skip true rng params state (List.range recs.length) =
      unroll f split skip true rng params state recs := by
  cases recs with
  | nil => rfl
  | cons r0 recs =>
    have hmap := range_getD (r0 :: recs) ([] : List (String × Cell A))
    have happ : ∀ p s, unrollApply (transformDataset f (r0 :: recs)) split skip true p s rng
        (List.range (r0 :: recs).length) = unrollApply f split skip true p s rng (r0 :: recs) := by
      intro p s
      simp only [unrollApply, if_true]
      have hs : scanF (transformDataset f (r0 :: recs)) split p =
          fun c k => scanF f split p c ((r0 :: recs).getD k []) := by
        funext c k; rfl
      rw [hs, laxScan_map]
      cases skip
      · simp only [Bool.false_eq_true, if_false, hmap]
      · simp only [if_true, List.map_drop, hmap]
    have hr : List.range (r0 :: recs).length = 0 :: (List.range recs.length).map (· + 1) := by
      rw [List.length_cons, List.range_succ_eq_map]
    have hi : unrollInit (transformDataset f (r0 :: recs)) rng (List.range (r0 :: recs).length) =
        unrollInit f rng (r0 :: recs) := by
      rw [hr]; rfl
    unfold unroll
    rw [hi]
    simp only [happ]

/-! ## The traced indices -/

/-- The data of time dimension `n` beside empty data in the other dimensions. -/
def oneVar {V : Type} [Inhabited V] (n : String) (rows : List V) (times : List (String × List T)) :
    List (String × List (T × V)) :=
  times.map fun nt => (nt.1, if nt.1 = n then nt.2.mapIdx fun i t => (t, rows.getD i default)
    else nt.2.map fun t => (t, default))

theorem mapIdx_zip {V : Type} [Inhabited V] (ts : List T) (rows : List V) (h : rows.length = ts.length) :
    (ts.mapIdx fun i t => (t, rows.getD i default)) = ts.zip rows := by
  apply List.ext_getElem?
  intro i
  rw [List.getElem?_mapIdx, List.zip_eq_zipWith, List.getElem?_zipWith]
  by_cases hi : i < ts.length
  · rw [List.getElem?_eq_getElem hi]
    have hi' : i < rows.length := by omega
    simp [List.getElem?_eq_getElem hi', List.getD_eq_getElem?_getD]
  · rw [List.getElem?_eq_none (by omega)]; simp

theorem traceDataset_times {V W : Type} (xs : List (T × V)) (ys : List (T × W)) (h : xs.map (·.1) = ys.map (·.1)) :
    traceDataset xs = traceDataset ys := by
  apply List.ext_getElem?
  intro i
  simp only [traceDataset, List.getElem?_mapIdx]
  have hi := congrArg (fun l => l[i]?) h
  simp only [List.getElem?_map] at hi
  cases hx : xs[i]? with
  | none => rw [hx] at hi; cases hy : ys[i]? with
    | none => rfl
    | some y => rw [hy] at hi; simp at hi
  | some x => rw [hx] at hi; cases hy : ys[i]? with
    | none => rw [hy] at hi; simp at hi
    | some y => rw [hy] at hi; simp at hi; simp [hi]

theorem mapIdx_fst {V : Type} (ts : List T) (g : Nat → V) : (ts.mapIdx fun i t => (t, g i)).map (·.1) = ts := by
  apply List.ext_getElem?
  intro i
  simp only [List.getElem?_map, List.getElem?_mapIdx]
  cases ts[i]? <;> rfl

theorem oneVar_trace {V : Type} [Inhabited V] (n : String) (rows : List V) (times : List (String × List T)) :
    (oneVar n rows times).map (fun nd => (nd.1, traceDataset nd.2)) =
      times.map fun nt => (nt.1, traceDataset (nt.2.map fun t => (t, ()))) := by
  unfold oneVar
  rw [List.map_map]
  apply List.map_congr_left
  intro nt _
  simp only [Function.comp, Prod.mk.injEq, true_and]
  apply traceDataset_times
  split
  · rw [mapIdx_fst]; simp [Function.comp_def]
  · simp [Function.comp_def]

theorem oneVar_names {V : Type} [Inhabited V] (n : String) (rows : List V) (times : List (String × List T)) :
    (oneVar n rows times).map (·.1) = times.map (·.1) := by
  unfold oneVar
  rw [List.map_map]; rfl

theorem oneVar_lookup {V : Type} [Inhabited V] (n : String) (rows : List V) (times : List (String × List T))
    (ts : List T) (h : times.lookup n = some ts) (hl : rows.length = ts.length) :
    (oneVar n rows times).lookup n = some (ts.zip rows) := by
  unfold oneVar
  rw [lookup_map_snd times (fun m (l : List T) => if m = n then l.mapIdx fun i t => (t, rows.getD i default)
    else l.map fun t => (t, default)) n, h]
  simp only [Option.map_some, if_true, mapIdx_zip ts rows hl]

theorem oneVar_lookup_ne {V : Type} [Inhabited V] (n m : String) (rows : List V) (times : List (String × List T))
    (ts : List T) (h : times.lookup m = some ts) (hne : m ≠ n) :
    (oneVar n rows times).lookup m = some (ts.map fun t => (t, default)) := by
  unfold oneVar
  rw [lookup_map_snd times (fun m (l : List T) => if m = n then l.mapIdx fun i t => (t, rows.getD i default)
    else l.map fun t => (t, default)) m, h]
  simp [hne]

/-- Several time dimensions: tracing is merging positions. -/
theorem traceTimes_many (c : Config T) (times : List (String × List T)) (irecs : List (List (String × Out T Int)))
    (h : traceTimes c times = .ok irecs) (n m : String) (ts us : List T) (hn : times.lookup n = some ts)
    (hm : times.lookup m = some us) (hne : n ≠ m) :
    merge c.localTime c.index (times.map fun nt => (nt.1, traceDataset (nt.2.map fun t => (t, ())))) = .ok irecs := by
  match times, h, hn, hm with
  | [], h, _, _ => simp [traceTimes] at h
  | [(a, l)], h, hn, hm =>
    exfalso
    simp only [List.lookup_cons, List.lookup_nil] at hn hm
    apply hne
    by_cases h1 : (n == a) = true
    · by_cases h2 : (m == a) = true
      · rw [beq_iff_eq] at h1 h2; rw [h1, h2]
      · simp [h2] at hm
    · simp [h1] at hn
  | _ :: _ :: _, h, _, _ => exact h

/-- Reading the data of a secondary time dimension at the traced positions gives what merging the data gives. -/
theorem trace_data {V : Type} [Inhabited V] (c : Config T) (times : List (String × List T))
    (irecs : List (List (String × Out T Int))) (h : traceTimes c times = .ok irecs) (ln : String) (locals : List T)
    (hln : getLocalTime c.localTime (times.map (·.1)) = .ok ln) (hloc : times.lookup ln = some locals)
    (n : String) (ts : List T) (hn : times.lookup n = some ts) (hne : n ≠ ln) (rows : List V)
    (hl : rows.length = ts.length) (init : V) :
    ∃ recs, merge c.localTime (fun m => ⟨c.embed m, c.ffill m, c.maxlen m, init⟩) (oneVar n rows times) = .ok recs ∧
      irecs.length = recs.length ∧
      ∀ (k : Nat) (r : List (String × Out T V)) (ir : List (String × Out T Int)), recs[k]? = some r →
        irecs[k]? = some ir → r.lookup n = (ir.lookup n).map (mapOut (accessData init rows)) := by
  have hmerge := traceTimes_many c times irecs h n ln ts locals hn hloc hne
  obtain ⟨hall, ln', loc', h1, h2⟩ := (C32_merge_total _ _ _).mp ⟨irecs, hmerge⟩
  have hex : ∃ recs, merge c.localTime (fun m => (⟨c.embed m, c.ffill m, c.maxlen m, init⟩ : SecCfg T V))
      (oneVar n rows times) = .ok recs := by
    rw [C32_merge_total]
    refine ⟨?_, ln, locals.map fun t => (t, default), by rw [oneVar_names]; exact hln,
      oneVar_lookup_ne n ln rows times locals hloc (Ne.symm hne)⟩
    intro nd hnd
    obtain ⟨nt, hnt, rfl⟩ := List.mem_map.mp hnd
    have := hall (nt.1, traceDataset (nt.2.map fun t => (t, ()))) (List.mem_map.mpr ⟨nt, hnt, rfl⟩)
    refine ⟨?_, this.2⟩
    have hne' : nt.2 ≠ [] := by
      intro hc
      apply this.1
      rw [hc]; rfl
    intro hc
    have hlen := congrArg List.length hc
    apply hne'
    have : nt.2.length = 0 := by
      dsimp only at hlen
      split at hlen <;> simpa using hlen
    exact List.length_eq_zero_iff.mp this
  obtain ⟨recs, hrecs⟩ := hex
  refine ⟨recs, hrecs, ?_⟩
  obtain ⟨irecs', hi, hlen, hacc⟩ := C36_trace_access _ _ _ _ hrecs
  rw [oneVar_trace] at hi
  have : irecs' = irecs := by
    have e : merge c.localTime c.index
      (times.map fun nt => (nt.1, traceDataset (nt.2.map fun t => (t, ())))) = .ok irecs' := hi
    rw [hmerge] at e; exact (Except.ok.inj e).symm
  subst this
  refine ⟨hlen, ?_⟩
  intro k r ir hr hir
  have := hacc n (ts.zip rows) (oneVar_lookup n rows times ts hn hl) k r ir hr hir
  rw [List.map_snd_zip (by omega)] at this
  exact this

theorem mapM_getElem {X Y : Type} (f : X → Except Unit Y) (l : List X) (r : List Y) (h : l.mapM f = .ok r) :
    r.length = l.length ∧ ∀ (k : Nat) x, l[k]? = some x → ∃ y, r[k]? = some y ∧ f x = .ok y := by
  induction l generalizing r with
  | nil =>
    have : r = [] := by
      simp only [List.mapM_nil, pure, Except.pure] at h
      exact (Except.ok.inj h).symm
    subst this
    exact ⟨rfl, fun k x hx => by simp at hx⟩
  | cons a l ih =>
    simp only [List.mapM_cons] at h
    cases hf : f a with
    | error e => simp [hf, bind, Except.bind] at h
    | ok b =>
      cases hr : l.mapM f with
      | error e => simp [hf, hr, bind, Except.bind] at h
      | ok r' =>
        have e : r = b :: r' := by
          simp [hf, hr, bind, Except.bind, pure, Except.pure] at h; exact h.symm
        subst e
        obtain ⟨h1, h2⟩ := ih r' hr
        refine ⟨by simp [h1], ?_⟩
        intro k x hx
        cases k with
        | zero => simp at hx; subst hx; exact ⟨b, rfl, hf⟩
        | succ k => simpa using h2 k x (by simpa using hx)

/-- The local dimension: record `k` reads position `k`. -/
theorem trace_local (c : Config T) (times : List (String × List T))
    (irecs : List (List (String × Out T Int))) (h : traceTimes c times = .ok irecs) :
    ∃ ln locals, getLocalTime c.localTime (times.map (·.1)) = .ok ln ∧ times.lookup ln = some locals ∧
      irecs.length = locals.length ∧
      ∀ (k : Nat) t, locals[k]? = some t →
        ∃ ir : List (String × Out T Int), irecs[k]? = some ir ∧ ir.lookup ln = some (Out.single ⟨some t, (k : Int)⟩) := by
  match times, h with
  | [], h => simp [traceTimes] at h
  | [(a, l)], h =>
    simp only [traceTimes] at h
    cases hg : getLocalTime c.localTime [a] with
    | error e => simp [hg, bind, Except.bind] at h
    | ok ln =>
      simp only [hg, bind, Except.bind] at h
      by_cases hla : ln = a
      · subst hla
        simp only [if_true, Except.ok.injEq] at h
        subst h
        refine ⟨ln, l, hg, by simp, by simp, ?_⟩
        intro k t hk
        refine ⟨[(ln, Out.single ⟨some t, (k : Int)⟩)], by simp [List.getElem?_mapIdx, hk], by simp⟩
      · simp [hla] at h
  | p :: q :: rest, h =>
    obtain ⟨ln, locals, h1, h2, h3, h4⟩ := C32_merge_one_per_local _ _ _ _ h
    rw [List.map_map] at h1
    have hlk := lookup_map_snd (p :: q :: rest) (fun _ (l : List T) => traceDataset (l.map fun t => (t, ()))) ln
    rw [hlk] at h2
    cases hl : (p :: q :: rest).lookup ln with
    | none => rw [hl] at h2; simp at h2
    | some l =>
      rw [hl] at h2
      simp only [Option.map_some, Option.some.injEq] at h2
      subst h2
      refine ⟨ln, l, h1, hl, by rw [h3]; simp [traceDataset], ?_⟩
      intro k t hk
      exact h4 k t (k : Int) (by simp [traceDataset, hk])

/-! ## Cells -/

/-- What the record shows for an output of the merged data. -/
def cellOf : Out T (List A) → Cell A
  | .single o => .row o.value
  | .stacked os => .buffer (os.map fun o => o.value)

theorem jnpIndex_mem (rows : List (List A)) (h : rows ≠ []) (i : Int) : jnpIndex rows i ∈ rows := by
  unfold jnpIndex
  dsimp only
  have hpos : 0 < rows.length := List.length_pos_iff.mpr h
  set j := if i < 0 then i + rows.length else i
  have hlt : (max 0 (min j ((rows.length : Int) - 1))).toNat < rows.length := by omega
  rw [List.getD_eq_getElem?_getD, List.getElem?_eq_getElem hlt]
  exact List.getElem_mem hlt

theorem accessRow_eq (init : A) (rows : List (List A)) (w : Nat) (hw : ∀ r ∈ rows, r.length = w) (hne : rows ≠ [])
    (i : Int) : accessRow init rows i = accessData (List.replicate w init) rows i := by
  unfold accessRow accessData
  split
  · have := hw _ (jnpIndex_mem rows hne i)
    rw [← this]
    exact List.map_const' ..
  · rfl

theorem accessVar_eq (v : Var A) (w : Nat) (hw : ∀ r ∈ v.rows, r.length = w) (hne : v.rows ≠ []) (o : Out T Int)
    (hd : (∃ x, o = .single x) ∨ v.dims.length + v.extra = 1) :
    accessVar v o = .ok (cellOf (mapOut (accessData (List.replicate w v.init) v.rows) o)) := by
  cases o with
  | single x => simp only [accessVar, cellOf, mapOut, mapObs, accessRow_eq v.init v.rows w hw hne]
  | stacked os =>
    rcases hd with ⟨x, hx⟩ | hd
    · simp at hx
    · simp only [accessVar, hd, if_true, cellOf, mapOut, mapObs, List.map_map, Function.comp_def,
        accessRow_eq v.init v.rows w hw hne]

/-- What is shown of the available rows: the last one, or a buffer of the last ones in which the first row appears
twice. -/
def shownCell (maxlen : Option Nat) (miss : List A) (rows : List (List A)) : Cell A :=
  match maxlen with
  | none => .row (rows.getLastD miss)
  | some m => .buffer (window m miss (dup rows))

theorem cellOf_showOut (cfg : SecCfg T (List A)) (l : List (T × List A)) :
    cellOf (showOut cfg ((dup l).map obsOf)) = shownCell cfg.maxlen cfg.init (l.map (·.2)) := by
  unfold showOut shownCell
  cases cfg.maxlen with
  | none =>
    simp only [cellOf, List.getLast?_map, dup_getLast?]
    cases h : l.getLast? with
    | none =>
      rw [List.getLast?_eq_none_iff] at h
      subst h; rfl
    | some p =>
      have : (l.map (·.2)).getLast? = some p.2 := by rw [List.getLast?_map, h]; rfl
      simp [obsOf, this]
  | some m =>
    simp only [cellOf]
    rw [← window_map]
    congr 2
    cases l <;> simp [dup, obsOf, Function.comp_def]

theorem records_at (c : Config T) (enc : String → Option (Enc A)) (ds : Dataset T A)
    (recs : List (List (String × Cell A))) (h : records c enc ds = .ok recs) :
    ∃ irecs, traceTimes c ds.times = .ok irecs ∧ recs.length = irecs.length ∧
      ∀ (k : Nat) ir, irecs[k]? = some ir → ∃ r, recs[k]? = some r ∧ recordAt ds enc ir k = .ok r := by
  unfold records at h
  cases ht : traceTimes c ds.times with
  | error e => simp [ht, bind, Except.bind] at h
  | ok irecs =>
    simp only [ht, bind, Except.bind] at h
    obtain ⟨h1, h2⟩ := mapM_getElem _ _ _ h
    refine ⟨irecs, rfl, by simpa using h1, ?_⟩
    intro k ir hk
    exact h2 k (ir, k) (by simp [List.getElem?_zipIdx, hk])

theorem varIndex_time (names : List String) (v : Var A) (n : String) (hd : v.dims.head? = some n)
    (hn : n ∈ names) : varIndex names v = .ok (.time n) := by
  unfold varIndex
  cases hv : v.dims with
  | nil => rw [hv] at hd; simp at hd
  | cons d rest =>
    rw [hv] at hd
    simp only [List.head?_cons, Option.some.injEq] at hd
    subst hd
    simp [hn]

theorem encodeVar_dims (enc : String → Option (Enc A)) (name : String) (v : Var A) :
    (encodeVar enc name v).dims = v.dims ∧ (encodeVar enc name v).init = v.init := by
  unfold encodeVar
  cases enc name <;> exact ⟨rfl, rfl⟩

theorem mem_of_lookup' {B : Type} (l : List (String × B)) (n : String) (b : B) (h : l.lookup n = some b) :
    n ∈ l.map (·.1) := by
  induction l with
  | nil => simp at h
  | cons a l ih =>
    obtain ⟨m, a⟩ := a
    simp only [List.lookup_cons] at h
    by_cases hn : n = m
    · simp [hn]
    · simp only [beq_false_of_ne hn] at h
      simp [ih h]

/-- The cell of a variable of a secondary time dimension. -/
theorem sec_cell (c : Config T) (enc : String → Option (Enc A)) (ds : Dataset T A)
    (recs : List (List (String × Cell A))) (h : records c enc ds = .ok recs) (ln : String) (locals : List T)
    (hln : getLocalTime c.localTime (ds.times.map (·.1)) = .ok ln) (hloc : ds.times.lookup ln = some locals)
    (name : String) (var : Var A) (hv : ds.vars.lookup name = some var) (n : String) (hd : var.dims.head? = some n)
    (ts : List T) (hn : ds.times.lookup n = some ts) (hne : n ≠ ln)
    (hlen : (encodeVar enc name var).rows.length = ts.length)
    (w : Nat) (hw : ∀ r ∈ (encodeVar enc name var).rows, r.length = w)
    (hdim : c.maxlen n = none ∨ var.dims.length + (encodeVar enc name var).extra = 1)
    (hs : ts.Pairwise (· ≤ ·)) (hclock : (locals.map (c.embed n)).Pairwise (· ≤ ·))
    (k : Nat) (t : T) (hk : locals[k]? = some t) :
    ∃ r : List (String × Cell A), recs[k]? = some r ∧ r.lookup name = some (
      let rows := (encodeVar enc name var).rows
      let miss := List.replicate w var.init
      if c.ffill n = true ∨ (rowsBeforePrev (c.embed n) ts rows locals k).length < (rowsBefore ts rows (c.embed n t)).length
      then shownCell (c.maxlen n) miss (rowsBefore ts rows (c.embed n t))
      else shownCell (c.maxlen n) miss []) := by
  obtain ⟨irecs, htr, hlr, hat⟩ := records_at c enc ds recs h
  obtain ⟨ln', loc', a1, a2, a3, _⟩ := trace_local c ds.times irecs htr
  rw [hln] at a1; cases a1
  rw [hloc] at a2; cases a2
  have hkl : k < locals.length := by
    rcases Nat.lt_or_ge k locals.length with h | h
    · exact h
    · rw [List.getElem?_eq_none h] at hk; simp at hk
  set v := encodeVar enc name var with hvdef
  set rows := v.rows with hrows
  set miss := List.replicate w var.init with hmiss
  obtain ⟨drecs, hm, hml, hacc⟩ := trace_data c ds.times irecs htr ln locals hln hloc n ts hn hne rows hlen miss
  have hki : k < irecs.length := by omega
  obtain ⟨r, hr, hrec⟩ := hat k irecs[k] (List.getElem?_eq_getElem hki)
  refine ⟨r, hr, ?_⟩
  obtain ⟨cell, hcell, hlk⟩ := mapM_lookup
    (cellAt (ds.times.map (fun x : String × List T => x.1)) enc irecs[k] k) ds.vars r hrec name var hv
  rw [hlk]
  congr 1
  -- the merged data at step k
  have hs' : TimeSorted (ts.zip rows) := by
    unfold TimeSorted
    rw [List.map_fst_zip (by omega)]; exact hs
  have hclock' : (((locals.map fun t => (t, (default : List A))).map fun p => c.embed n p.1)).Pairwise (· ≤ ·) := by
    rw [List.map_map]; exact hclock
  obtain ⟨dr, hdr, hdl⟩ := merge_out c.localTime (fun m => ⟨c.embed m, c.ffill m, c.maxlen m, miss⟩) _ drecs hm ln
    (locals.map fun t => (t, default)) (by rw [oneVar_names]; exact hln)
    (oneVar_lookup_ne n ln rows ds.times locals hloc (Ne.symm hne)) n (ts.zip rows)
    (oneVar_lookup n rows ds.times ts hn hlen) hne hs' hclock' k t default (by simp [hk])
  have hrel := hacc k dr irecs[k] hdr (List.getElem?_eq_getElem hki)
  rw [hdl] at hrel
  cases ho : irecs[k].lookup n with
  | none => rw [ho] at hrel; simp at hrel
  | some o =>
    rw [ho] at hrel
    simp only [Option.map_some, Option.some.injEq] at hrel
    have hvd := encodeVar_dims enc name var
    rw [← hvdef] at hvd
    have hvi : varIndex (ds.times.map (·.1)) v = .ok (.time n) :=
      varIndex_time _ v n (by rw [hvd.1]; exact hd) (mem_of_lookup' _ _ _ hn)
    have hcell' : accessVar v o = .ok cell := by
      have := hcell
      simp only [cellAt, ← hvdef, hvi, bind, Except.bind, ho] at this
      exact this
    have htsne : rows ≠ [] := by
      intro hc
      have : ts = [] := List.length_eq_zero_iff.mp (by rw [← hlen, hc]; rfl)
      obtain ⟨hall, _⟩ := (C32_merge_total _ _ _).mp ⟨drecs, hm⟩
      have hmem : (n, ts.zip rows) ∈ oneVar n rows ds.times := by
        have hl := oneVar_lookup n rows ds.times ts hn hlen
        have : ∀ (l : List (String × List (T × List A))), l.lookup n = some (ts.zip rows) → (n, ts.zip rows) ∈ l := by
          intro l
          induction l with
          | nil => intro h; simp at h
          | cons a l ih =>
            obtain ⟨m, a⟩ := a
            intro h
            simp only [List.lookup_cons] at h
            by_cases hnm : n = m
            · subst hnm
              simp at h
              simp [h]
            · simp only [beq_false_of_ne hnm] at h
              exact List.mem_cons_of_mem _ (ih h)
        exact this _ hl
      have := (hall _ hmem).1
      apply this
      rw [hc]; simp
    have hform : cellOf (mapOut (accessData miss rows) o) = cell := by
      have := accessVar_eq v w hw htsne o (by
        rcases hdim with hd' | hd'
        · left
          cases o with
          | single x => exact ⟨x, rfl⟩
          | stacked os =>
            exfalso
            simp only [mapOut] at hrel
            split at hrel <;> simp [showOut, hd'] at hrel
        · right; rw [hvd.1]; exact hd')
      rw [hvd.2, hcell'] at this
      exact (Except.ok.inj this).symm
    rw [← hform, ← hrel]
    have hnow : ((seen (ts.zip rows) (c.embed n t)).map (·.2)) = rowsBefore ts rows (c.embed n t) := rfl
    have hlen1 : (rowsBefore ts rows (c.embed n t)).length = (seen (ts.zip rows) (c.embed n t)).length := by
      rw [← hnow, List.length_map]
    have hprev : (rowsBeforePrev (c.embed n) ts rows locals k).length =
        (seenPrev (c.embed n) (ts.zip rows) (locals.map fun t => (t, (default : List A))) k).length := by
      cases k with
      | zero => rfl
      | succ k =>
        simp only [rowsBeforePrev, seenPrev, List.getElem?_map]
        cases locals[k]? with
        | none => rfl
        | some u => simp [rowsBefore, seen]
    dsimp only
    rw [hlen1, hprev]
    split
    · exact cellOf_showOut _ _
    · exact cellOf_showOut (⟨c.embed n, c.ffill n, c.maxlen n, miss⟩ : SecCfg T (List A)) []

theorem jnpIndex_nat (rows : List (List A)) (k : Nat) (r : List A) (h : rows[k]? = some r) : jnpIndex rows (k : Int) = r := by
  have hk : k < rows.length := by
    rcases Nat.lt_or_ge k rows.length with h' | h'
    · exact h'
    · rw [List.getElem?_eq_none h'] at h; simp at h
  have := accessData_index (V := List A) [] rows k hk
  unfold accessData at this
  rw [if_neg (by omega)] at this
  rw [this]
  rw [List.getElem?_eq_getElem hk] at h
  exact Option.some.inj h

/-- The cell of any variable, from the traced record. -/
theorem cell_at (c : Config T) (enc : String → Option (Enc A)) (ds : Dataset T A)
    (recs : List (List (String × Cell A))) (h : records c enc ds = .ok recs) (k : Nat) (hk : k < recs.length)
    (name : String) (var : Var A) (hv : ds.vars.lookup name = some var) :
    ∃ irecs, traceTimes c ds.times = .ok irecs ∧ recs.length = irecs.length ∧ ∃ (r : List (String × Cell A)) (ir : List (String × Out T Int))
      (cell : Cell A), recs[k]? = some r ∧
      irecs[k]? = some ir ∧ cellAt (ds.times.map (·.1)) enc ir k name var = .ok cell ∧ r.lookup name = some cell := by
  obtain ⟨irecs, htr, hlr, hat⟩ := records_at c enc ds recs h
  have hki : k < irecs.length := by omega
  obtain ⟨r, hr, hrec⟩ := hat k irecs[k] (List.getElem?_eq_getElem hki)
  obtain ⟨cell, hcell, hlk⟩ := mapM_lookup
    (cellAt (ds.times.map (fun x : String × List T => x.1)) enc irecs[k] k) ds.vars r hrec name var hv
  exact ⟨irecs, htr, hlr, r, irecs[k], cell, hr, List.getElem?_eq_getElem hki, hcell, hlk⟩

/-! ## C85 -/

/-- C85: applying a module to a dataset is unrolling it over the records of the dataset, with the same treatment of
parameters, state, key and `skip_first`. -/
theorem C85_apply_is_unroll (c : Config T) (enc : String → Option (Enc A)) (ds : Dataset T A)
    (f : Transformed P S R (List (String × Cell A)) O) (split : R → R × R) (skip : Bool) (rng : Option R)
    (params : Option P) (state : Option S) (recs : List (List (String × Cell A))) (h : records c enc ds = .ok recs) :
    streamApply c enc ds f split skip rng params state = unroll f split skip true rng params state recs := by
  unfold streamApply
  rw [h]
  exact unroll_transformDataset f split skip rng params state recs

/-- C85: a Haiku module given a dataset returns what the fresh module returns when fed the records one by one, and its
final state. -/
theorem C85_apply_module (c : Config T) (enc : String → Option (Enc A)) (ds : Dataset T A)
    (m : Mealy S (List (String × Cell A)) O) (split : R → R × R) (rng : Option R)
    (recs : List (List (String × Cell A))) (h : records c enc ds = .ok recs) (hne : recs ≠ []) :
    streamApply c enc ds (haikuTransformed m) split false rng none none = .ok (m.run recs, m.stateAfter recs) := by
  rw [C85_apply_is_unroll c enc ds _ split false rng none none recs h]
  exact C37_unroll_haiku_module m split rng recs hne

/-- C85: there is one record per local time. -/
theorem C85_one_record_per_local (c : Config T) (enc : String → Option (Enc A)) (ds : Dataset T A)
    (recs : List (List (String × Cell A))) (h : records c enc ds = .ok recs) :
    ∃ ln locals, getLocalTime c.localTime (ds.times.map (·.1)) = .ok ln ∧ ds.times.lookup ln = some locals ∧
      recs.length = locals.length := by
  obtain ⟨irecs, htr, hlr, _⟩ := records_at c enc ds recs h
  obtain ⟨ln, locals, a1, a2, a3, _⟩ := trace_local c ds.times irecs htr
  exact ⟨ln, locals, a1, a2, by omega⟩

/-- C85: at step `k` a variable of the local time dimension shows its row `k` (encoded). -/
theorem C85_local_row (c : Config T) (enc : String → Option (Enc A)) (ds : Dataset T A)
    (recs : List (List (String × Cell A))) (h : records c enc ds = .ok recs) (ln : String)
    (hln : getLocalTime c.localTime (ds.times.map (·.1)) = .ok ln)
    (name : String) (var : Var A) (hv : ds.vars.lookup name = some var) (hd : var.dims.head? = some ln)
    (k : Nat) (hk : k < recs.length) (row : List A) (hrow : (encodeVar enc name var).rows[k]? = some row) :
    ∃ r : List (String × Cell A), recs[k]? = some r ∧ r.lookup name = some (.row row) := by
  obtain ⟨irecs, htr, hlr, r, ir, cell, hr, hir, hcell, hlk⟩ := cell_at c enc ds recs h k hk name var hv
  refine ⟨r, hr, ?_⟩
  obtain ⟨ln', loc', a1, a2, a3, a4⟩ := trace_local c ds.times irecs htr
  rw [hln] at a1; cases a1
  obtain ⟨ir', hir', hlook⟩ := a4 k loc'[k] (List.getElem?_eq_getElem (by omega))
  rw [hir] at hir'; cases hir'
  have hvd := encodeVar_dims enc name var
  have hvi : varIndex (ds.times.map (·.1)) (encodeVar enc name var) = .ok (.time ln) :=
    varIndex_time _ _ ln (by rw [hvd.1]; exact hd) (mem_of_lookup' _ _ _ a2)
  simp only [cellAt, hvi, bind, Except.bind, hlook, accessVar, accessRow, Except.ok.injEq] at hcell
  rw [if_neg (by omega), jnpIndex_nat _ k row hrow] at hcell
  rw [hlk, hcell]

/-- C85: a variable of a forward-filled, unbuffered secondary time dimension shows its last row strictly before the embedded
local time (as-of join), or a row of missing values. -/
theorem C85_ffill_asof (c : Config T) (enc : String → Option (Enc A)) (ds : Dataset T A)
    (recs : List (List (String × Cell A))) (h : records c enc ds = .ok recs) (ln : String) (locals : List T)
    (hln : getLocalTime c.localTime (ds.times.map (·.1)) = .ok ln) (hloc : ds.times.lookup ln = some locals)
    (name : String) (var : Var A) (hv : ds.vars.lookup name = some var) (n : String) (hd : var.dims.head? = some n)
    (ts : List T) (hn : ds.times.lookup n = some ts) (hne : n ≠ ln)
    (hlen : (encodeVar enc name var).rows.length = ts.length)
    (w : Nat) (hw : ∀ r ∈ (encodeVar enc name var).rows, r.length = w)
    (hff : c.ffill n = true) (hbuf : c.maxlen n = none)
    (hs : ts.Pairwise (· ≤ ·)) (hclock : (locals.map (c.embed n)).Pairwise (· ≤ ·))
    (k : Nat) (t : T) (hk : locals[k]? = some t) :
    ∃ r : List (String × Cell A), recs[k]? = some r ∧ r.lookup name =
      some (.row (asOf (List.replicate w var.init) ts (encodeVar enc name var).rows (c.embed n t))) := by
  obtain ⟨r, hr, hl⟩ := sec_cell c enc ds recs h ln locals hln hloc name var hv n hd ts hn hne hlen w hw (Or.inl hbuf) hs
    hclock k t hk
  refine ⟨r, hr, ?_⟩
  rw [hl]
  simp only [hff, true_or, if_true, shownCell, hbuf, asOf]

/-- C85: without forward fill the last row is shown at the steps at which new rows became available, missing values at the
others. -/
theorem C85_no_ffill (c : Config T) (enc : String → Option (Enc A)) (ds : Dataset T A)
    (recs : List (List (String × Cell A))) (h : records c enc ds = .ok recs) (ln : String) (locals : List T)
    (hln : getLocalTime c.localTime (ds.times.map (·.1)) = .ok ln) (hloc : ds.times.lookup ln = some locals)
    (name : String) (var : Var A) (hv : ds.vars.lookup name = some var) (n : String) (hd : var.dims.head? = some n)
    (ts : List T) (hn : ds.times.lookup n = some ts) (hne : n ≠ ln)
    (hlen : (encodeVar enc name var).rows.length = ts.length)
    (w : Nat) (hw : ∀ r ∈ (encodeVar enc name var).rows, r.length = w)
    (hff : c.ffill n = false) (hbuf : c.maxlen n = none)
    (hs : ts.Pairwise (· ≤ ·)) (hclock : (locals.map (c.embed n)).Pairwise (· ≤ ·))
    (k : Nat) (t : T) (hk : locals[k]? = some t) :
    ∃ r : List (String × Cell A), recs[k]? = some r ∧ r.lookup name = some (.row (
      if (rowsBeforePrev (c.embed n) ts (encodeVar enc name var).rows locals k).length <
          (rowsBefore ts (encodeVar enc name var).rows (c.embed n t)).length
      then asOf (List.replicate w var.init) ts (encodeVar enc name var).rows (c.embed n t)
      else List.replicate w var.init)) := by
  obtain ⟨r, hr, hl⟩ := sec_cell c enc ds recs h ln locals hln hloc name var hv n hd ts hn hne hlen w hw (Or.inl hbuf) hs
    hclock k t hk
  refine ⟨r, hr, ?_⟩
  rw [hl]
  simp only [hff, Bool.false_eq_true, false_or, shownCell, hbuf, asOf]
  split <;> rfl

/-- C85: a one-dimensional variable of a forward-filled secondary dimension buffered with `m` shows, once `m` rows are
available, the last `m` rows strictly before the embedded local time. (Before that, see C35.) -/
theorem C85_buffered (c : Config T) (enc : String → Option (Enc A)) (ds : Dataset T A)
    (recs : List (List (String × Cell A))) (h : records c enc ds = .ok recs) (ln : String) (locals : List T)
    (hln : getLocalTime c.localTime (ds.times.map (·.1)) = .ok ln) (hloc : ds.times.lookup ln = some locals)
    (name : String) (var : Var A) (hv : ds.vars.lookup name = some var) (n : String) (hd : var.dims.head? = some n)
    (ts : List T) (hn : ds.times.lookup n = some ts) (hne : n ≠ ln)
    (hlen : (encodeVar enc name var).rows.length = ts.length)
    (w : Nat) (hw : ∀ r ∈ (encodeVar enc name var).rows, r.length = w)
    (hff : c.ffill n = true) (m : Nat) (hbuf : c.maxlen n = some m)
    (hone : var.dims.length + (encodeVar enc name var).extra = 1)
    (hs : ts.Pairwise (· ≤ ·)) (hclock : (locals.map (c.embed n)).Pairwise (· ≤ ·))
    (k : Nat) (t : T) (hk : locals[k]? = some t)
    (hfull : m ≤ (rowsBefore ts (encodeVar enc name var).rows (c.embed n t)).length) :
    ∃ r : List (String × Cell A), recs[k]? = some r ∧ r.lookup name = some (.buffer (
      (rowsBefore ts (encodeVar enc name var).rows (c.embed n t)).drop
        ((rowsBefore ts (encodeVar enc name var).rows (c.embed n t)).length - m))) := by
  obtain ⟨r, hr, hl⟩ := sec_cell c enc ds recs h ln locals hln hloc name var hv n hd ts hn hne hlen w hw (Or.inr hone) hs
    hclock k t hk
  refine ⟨r, hr, ?_⟩
  rw [hl]
  simp only [hff, true_or, if_true, shownCell, hbuf]
  generalize rowsBefore ts (encodeVar enc name var).rows (c.embed n t) = l at hfull
  congr 2
  cases l with
  | nil =>
    simp only [List.length_nil, Nat.le_zero] at hfull
    subst hfull; rfl
  | cons x xs =>
    simp only [List.length_cons] at hfull
    simp only [dup, window, List.length_cons]
    have a1 : m - (xs.length + 1 + 1) = 0 := by omega
    have a3 : xs.length + 1 + 1 - m = (xs.length + 1 - m) + 1 := by omega
    rw [a1, a3]
    simp

/-- C85: a scalar variable without time dimension shows its value at every step. -/
theorem C85_scalar (c : Config T) (enc : String → Option (Enc A)) (ds : Dataset T A)
    (recs : List (List (String × Cell A))) (h : records c enc ds = .ok recs)
    (name : String) (var : Var A) (hv : ds.vars.lookup name = some var) (hd : var.dims = [])
    (x : List A) (hx : (encodeVar enc name var).rows = [x])
    (k : Nat) (hk : k < recs.length) :
    ∃ r : List (String × Cell A), recs[k]? = some r ∧ r.lookup name = some (.row x) := by
  obtain ⟨irecs, htr, hlr, r, ir, cell, hr, hir, hcell, hlk⟩ := cell_at c enc ds recs h k hk name var hv
  refine ⟨r, hr, ?_⟩
  have hvd := (encodeVar_dims enc name var).1
  rw [hd] at hvd
  have hc : accessRow (encodeVar enc name var).init [x] (constIndexScalar k) = x := by
    have := C36_scalar_constant (V := List A) [] x k
    unfold accessData at this
    unfold accessRow
    have h0 : ¬ (constIndexScalar k < 0) := by unfold constIndexScalar; omega
    rw [if_neg h0] at this ⊢
    exact this
  simp only [cellAt, varIndex, hvd, List.any_nil, Bool.false_eq_true, if_false, if_true, bind, Except.bind] at hcell
  by_cases he : (encodeVar enc name var).extra = 0
  · simp only [he, if_true, hx, hc, Except.ok.injEq] at hcell
    rw [hlk, hcell]
  · simp [he] at hcell

/-- What xarray guarantees of a dataset, and what the user is responsible for: distinct variable names, one row per time,
rows of equal width, sorted times, an embedded local clock that does not go back, and no buffered matrices. -/
structure WellFormed (c : Config T) (enc : String → Option (Enc A)) (ds : Dataset T A) (ln : String) (locals : List T)
    (w : String → Nat) : Prop where
  unique : (ds.vars.map (·.1)).Nodup
  islocal : getLocalTime c.localTime (ds.times.map (·.1)) = .ok ln
  haslocal : ds.times.lookup ln = some locals
  aligned : ∀ name var n ts, ds.vars.lookup name = some var → var.dims.head? = some n → ds.times.lookup n = some ts →
    var.rows.length = ts.length
  rect : ∀ name var, ds.vars.lookup name = some var → ∀ r ∈ (encodeVar enc name var).rows, r.length = w name
  sorted : ∀ n ts, ds.times.lookup n = some ts → ts.Pairwise (· ≤ ·)
  clock : ∀ n, n ≠ ln → (locals.map (c.embed n)).Pairwise (· ≤ ·)
  flat : ∀ name var n, ds.vars.lookup name = some var → var.dims.head? = some n → n ≠ ln →
    c.maxlen n = none ∨ var.dims.length + (encodeVar enc name var).extra = 1

theorem encodeVar_length (enc : String → Option (Enc A)) (name : String) (v : Var A) :
    (encodeVar enc name v).rows.length = v.rows.length := by
  unfold encodeVar
  cases enc name <;> simp

theorem lookup_of_mem {B : Type} (l : List (String × B)) (hnd : (l.map (·.1)).Nodup) (n : String) (b : B)
    (h : (n, b) ∈ l) : l.lookup n = some b := by
  induction l with
  | nil => simp at h
  | cons a l ih =>
    obtain ⟨m, a⟩ := a
    simp only [List.map_cons, List.nodup_cons] at hnd
    simp only [List.lookup_cons]
    rcases List.mem_cons.mp h with e | e
    · cases e; simp
    · have : n ≠ m := by
        rintro rfl
        exact hnd.1 (List.mem_map.mpr ⟨_, e, rfl⟩)
      simp only [beq_false_of_ne this]
      exact ih hnd.2 e

theorem lookup_some_of_mem {B : Type} (l : List (String × B)) (n : String) (h : n ∈ l.map (·.1)) :
    ∃ b, l.lookup n = some b := by
  induction l with
  | nil => simp at h
  | cons a l ih =>
    obtain ⟨m, a⟩ := a
    simp only [List.lookup_cons]
    by_cases hn : n = m
    · subst hn; exact ⟨a, by simp⟩
    · simp only [beq_false_of_ne hn]
      exact ih (by simpa [hn] using h)

/-- What a traced record holds for a secondary dimension: an entry, and a single position if it is not buffered. -/
theorem trace_entry (c : Config T) (times : List (String × List T))
    (irecs : List (List (String × Out T Int))) (h : traceTimes c times = .ok irecs) (ln : String) (locals : List T)
    (hln : getLocalTime c.localTime (times.map (·.1)) = .ok ln) (hloc : times.lookup ln = some locals)
    (n : String) (ts : List T) (hn : times.lookup n = some ts)
    (hs : n ≠ ln → ts.Pairwise (· ≤ ·)) (hclock : n ≠ ln → (locals.map (c.embed n)).Pairwise (· ≤ ·))
    (k : Nat) (ir : List (String × Out T Int)) (hir : irecs[k]? = some ir) :
    ∃ o, ir.lookup n = some o ∧ (n = ln ∨ c.maxlen n = none → ∃ x, o = .single x) := by
  obtain ⟨ln', loc', a1, a2, a3, a4⟩ := trace_local c times irecs h
  rw [hln] at a1; cases a1
  rw [hloc] at a2; cases a2
  have hki : k < irecs.length := by
    rcases Nat.lt_or_ge k irecs.length with h | h
    · exact h
    · rw [List.getElem?_eq_none h] at hir; simp at hir
  obtain ⟨ir', hir', hl'⟩ := a4 k locals[k] (List.getElem?_eq_getElem (by omega))
  rw [hir] at hir'; cases hir'
  by_cases hne : n = ln
  · subst hne
    exact ⟨_, hl', fun _ => ⟨_, rfl⟩⟩
  · obtain ⟨drecs, hm, hml, hacc⟩ := trace_data c times irecs h ln locals hln hloc n ts hn hne
      (ts.map fun _ => ()) (by simp) ()
    have hs' : TimeSorted (ts.zip (ts.map fun _ => ())) := by
      unfold TimeSorted
      rw [List.map_fst_zip (by simp)]; exact hs hne
    obtain ⟨dr, hdr, hdl⟩ := merge_out c.localTime (fun m => ⟨c.embed m, c.ffill m, c.maxlen m, ()⟩) _ drecs hm ln
      (locals.map fun t => (t, default)) (by rw [oneVar_names]; exact hln)
      (oneVar_lookup_ne n ln _ times locals hloc (Ne.symm hne)) n (ts.zip (ts.map fun _ => ()))
      (oneVar_lookup n _ times ts hn (by simp)) hne hs' (by rw [List.map_map]; exact hclock hne) k locals[k] default
      (by simp [List.getElem?_eq_getElem (show k < locals.length by omega)])
    have hrel := hacc k dr ir hdr hir
    rw [hdl] at hrel
    cases ho : ir.lookup n with
    | none => rw [ho] at hrel; simp at hrel
    | some o =>
      refine ⟨o, rfl, ?_⟩
      rintro (h' | h')
      · exact absurd h' hne
      · rw [ho] at hrel
        cases o with
        | single x => exact ⟨x, rfl⟩
        | stacked os =>
          exfalso
          simp only [Option.map_some, Option.some.injEq, mapOut] at hrel
          split at hrel <;> simp [showOut, h'] at hrel

/-- C85: a dataset whose time dimensions are non-empty, and whose variables either have a time dimension first or none at
all, is accepted. -/
theorem C85_accepts (c : Config T) (enc : String → Option (Enc A)) (ds : Dataset T A) (ln : String) (locals : List T)
    (w : String → Nat) (hwf : WellFormed c enc ds ln locals w)
    (hne : ∀ nt ∈ ds.times, nt.2 ≠ [] ∧ c.maxlen nt.1 ≠ some 0)
    (hvars : ∀ nv ∈ ds.vars, (∃ n, nv.2.dims.head? = some n ∧ n ∈ ds.times.map (·.1)) ∨
      ((∀ d ∈ nv.2.dims, d ∉ ds.times.map (·.1)) ∧ (nv.2.dims = [] → (encodeVar enc nv.1 nv.2).extra = 0))) :
    ∃ recs, records c enc ds = .ok recs ∧ recs ≠ [] := by
  have htr : ∃ irecs, traceTimes c ds.times = .ok irecs := by
    have hl := hwf.islocal
    have hh := hwf.haslocal
    match hds : ds.times, hl, hh with
    | [], _, hh => simp at hh
    | [(a, l)], hl, hh =>
      have : ln = a := by
        simp only [List.lookup_cons, List.lookup_nil] at hh
        by_cases h1 : (ln == a) = true
        · rwa [beq_iff_eq] at h1
        · simp [h1] at hh
      subst this
      simp only [List.map_cons, List.map_nil] at hl
      refine ⟨l.mapIdx fun i t => [(ln, Out.single ⟨some t, (i : Int)⟩)], ?_⟩
      simp only [traceTimes, hl, bind, Except.bind, if_true]
    | p :: q :: rest, hl, hh =>
      show ∃ irecs, merge c.localTime c.index _ = .ok irecs
      rw [C32_merge_total]
      refine ⟨?_, ln, traceDataset (locals.map fun t => (t, ())), by rw [List.map_map]; exact hl, ?_⟩
      · intro nd hnd
        obtain ⟨nt, hnt, rfl⟩ := List.mem_map.mp hnd
        rw [← hds] at hnt
        have := hne nt hnt
        refine ⟨?_, this.2⟩
        intro hc
        apply this.1
        have hlen := congrArg List.length hc
        simp [traceDataset] at hlen
        exact hlen
      · rw [lookup_map_snd _ (fun _ (l : List T) => traceDataset (l.map fun t => (t, ()))) ln, hh]; rfl
  obtain ⟨irecs, htr⟩ := htr
  obtain ⟨ln', loc', a1, a2, a3, a4⟩ := trace_local c ds.times irecs htr
  rw [hwf.islocal] at a1; cases a1
  rw [hwf.haslocal] at a2; cases a2
  have hrec : ∃ recs, (irecs.zipIdx.mapM fun ik => recordAt ds enc ik.1 ik.2) = .ok recs := by
    rw [mapM_ok_iff]
    rintro ⟨ir, k⟩ hik
    rw [List.mem_zipIdx_iff_getElem?] at hik
    unfold recordAt
    rw [mapM_ok_iff]
    rintro ⟨name, var⟩ hnv
    have hlk := lookup_of_mem ds.vars hwf.unique name var hnv
    have hvd := encodeVar_dims enc name var
    suffices hc : ∃ cell, cellAt (ds.times.map (·.1)) enc ir k name var = .ok cell by
      obtain ⟨cell, hc⟩ := hc
      exact ⟨(name, cell), by simp only [hc, bind, Except.bind]⟩
    rcases hvars (name, var) hnv with ⟨n, hhead, hmem⟩ | ⟨hno, hex⟩
    · have hvi : varIndex (ds.times.map (·.1)) (encodeVar enc name var) = .ok (.time n) :=
        varIndex_time _ _ n (by rw [hvd.1]; exact hhead) hmem
      obtain ⟨ts, hts⟩ := lookup_some_of_mem ds.times n hmem
      obtain ⟨o, ho, hsing⟩ := trace_entry c ds.times irecs htr ln locals hwf.islocal hwf.haslocal n ts hts
        (fun _ => hwf.sorted n ts hts) (hwf.clock n) k ir hik
      simp only [cellAt, hvi, bind, Except.bind, ho]
      cases o with
      | single x => exact ⟨_, rfl⟩
      | stacked os =>
        have hnl : n ≠ ln := fun e => by obtain ⟨x, hx⟩ := hsing (Or.inl e); simp at hx
        rcases hwf.flat name var n hlk hhead hnl with hf | hf
        · obtain ⟨x, hx⟩ := hsing (Or.inr hf); simp at hx
        · rw [← hvd.1] at hf
          exact ⟨_, by simp only [accessVar, hf, if_true]; rfl⟩
    · have hany : (encodeVar enc name var).dims.any (fun d => (ds.times.map (·.1)).contains d) = false := by
        rw [hvd.1, List.any_eq_false]
        intro d hd
        simpa using hno d hd
      by_cases hd : var.dims = []
      · have := hex hd
        rw [← hvd.1] at hd
        dsimp only at this
        simp only [cellAt, varIndex, hd, List.any_nil, Bool.false_eq_true, if_false, if_true, this, bind, Except.bind]
        exact ⟨_, rfl⟩
      · rw [← hvd.1] at hd
        simp only [cellAt, varIndex, hany, Bool.false_eq_true, if_false, hd, bind, Except.bind]
        exact ⟨_, rfl⟩
  obtain ⟨recs, hrec⟩ := hrec
  refine ⟨recs, by simp only [records, htr, bind, Except.bind]; exact hrec, ?_⟩
  have hl := (mapM_getElem _ _ _ hrec).1
  simp only [List.length_zipIdx] at hl
  have hlne : locals ≠ [] := by
    have : ∀ (l : List (String × List T)) , l.lookup ln = some locals → (ln, locals) ∈ l := by
      intro l
      induction l with
      | nil => intro h; simp at h
      | cons a l ih =>
        obtain ⟨m, a⟩ := a
        intro h
        simp only [List.lookup_cons] at h
        by_cases hnm : ln = m
        · subst hnm
          simp at h
          simp [h]
        · simp only [beq_false_of_ne hnm] at h
          exact List.mem_cons_of_mem _ (ih h)
    exact (hne _ (this _ hwf.haslocal)).1
  rintro rfl
  apply hlne
  apply List.length_eq_zero_iff.mp
  simp at hl
  omega

/-- C85: a variable whose time dimension is not the first one is refused (as soon as there is one step). -/
theorem C85_rejects_time_not_first (c : Config T) (enc : String → Option (Enc A)) (ds : Dataset T A) (nv : String × Var A)
    (hnv : nv ∈ ds.vars) (d n : String) (rest : List String) (hd : nv.2.dims = d :: rest)
    (hno : d ∉ ds.times.map (·.1)) (hn : n ∈ rest) (ht : n ∈ ds.times.map (·.1))
    (recs : List (List (String × Cell A))) (h : records c enc ds = .ok recs) : recs = [] := by
  obtain ⟨irecs, htr, hlr, hat⟩ := records_at c enc ds recs h
  cases irecs with
  | nil => exact List.length_eq_zero_iff.mp hlr
  | cons ir irecs =>
    exfalso
    obtain ⟨r, _, hrec⟩ := hat 0 ir rfl
    obtain ⟨cell, hc⟩ := (mapM_ok_iff _ _).mp ⟨r, hrec⟩ nv hnv
    have hvd := (encodeVar_dims enc nv.1 nv.2).1
    rw [hd] at hvd
    have hany : (d :: rest).any (fun d => (ds.times.map (·.1)).contains d) = true := by
      rw [List.any_eq_true]
      exact ⟨n, List.mem_cons_of_mem _ hn, by simpa using ht⟩
    have hc0 : (ds.times.map (·.1)).contains d = false := by simpa using hno
    simp only [cellAt, varIndex, hvd, hany, if_true, hc0, Bool.false_eq_true, if_false, bind, Except.bind] at hc
    simp at hc

/-! ## C86 -/

/-- Two datasets look the same up to local step `k` (local time `t`): same names, dimensions and missing values, the
local rows up to row `k` agree, every secondary variable agrees on the rows strictly before the embedded local time, and the
variables without time dimension agree. -/
structure SameUpTo (c : Config T) (ds ds' : Dataset T A) (ln : String) (k : Nat) (t : T) : Prop where
  times : ds'.times.map (·.1) = ds.times.map (·.1)
  names : ds'.vars.map (·.1) = ds.vars.map (·.1)
  same : ∀ name var var', ds.vars.lookup name = some var → ds'.vars.lookup name = some var' →
    var'.dims = var.dims ∧ var'.init = var.init ∧ var'.extra = var.extra
  locals : ∀ name var var', ds.vars.lookup name = some var → ds'.vars.lookup name = some var' →
    var.dims.head? = some ln → var'.rows.take (k + 1) = var.rows.take (k + 1)
  secondary : ∀ name var var' n ts ts', ds.vars.lookup name = some var → ds'.vars.lookup name = some var' →
    var.dims.head? = some n → n ≠ ln → ds.times.lookup n = some ts → ds'.times.lookup n = some ts' →
    seen (ts'.zip var'.rows) (c.embed n t) = seen (ts.zip var.rows) (c.embed n t)
  constants : ∀ name var var', ds.vars.lookup name = some var → ds'.vars.lookup name = some var' →
    (∀ d ∈ var.dims, d ∉ ds.times.map (·.1)) → var'.rows = var.rows

theorem assoc_ext {B : Type} (l l' : List (String × B)) (hk : l.map (·.1) = l'.map (·.1)) (hnd : (l.map (·.1)).Nodup)
    (h : ∀ n ∈ l.map (·.1), l.lookup n = l'.lookup n) : l = l' := by
  induction l generalizing l' with
  | nil => cases l' with
    | nil => rfl
    | cons b l' => simp at hk
  | cons a l ih => cases l' with
    | nil => simp at hk
    | cons b l' =>
      obtain ⟨m, a⟩ := a
      obtain ⟨m', b⟩ := b
      simp only [List.map_cons, List.cons.injEq] at hk
      obtain ⟨rfl, hk⟩ := hk
      simp only [List.map_cons, List.nodup_cons] at hnd
      have h0 := h m (by simp)
      simp only [List.lookup_cons, beq_self_eq_true, Option.some.injEq] at h0
      subst h0
      rw [ih l' hk hnd.2]
      intro n hn
      have := h n (by simp [hn])
      have hne : n ≠ m := fun e => hnd.1 (e ▸ hn)
      simpa only [List.lookup_cons, beq_false_of_ne hne] using this

theorem record_names (ds : Dataset T A) (enc : String → Option (Enc A)) (ir : List (String × Out T Int)) (k : Nat)
    (r : List (String × Cell A)) (h : recordAt ds enc ir k = .ok r) : r.map (·.1) = ds.vars.map (·.1) := by
  obtain ⟨h1, h2⟩ := mapM_getElem _ _ _ h
  apply List.ext_getElem?
  intro i
  simp only [List.getElem?_map]
  cases hv : ds.vars[i]? with
  | none =>
    rw [List.getElem?_eq_none_iff] at hv
    rw [List.getElem?_eq_none (by omega)]
    rfl
  | some nv =>
    obtain ⟨y, hy, hf⟩ := h2 i nv hv
    rw [hy]
    cases hc : cellAt (ds.times.map (·.1)) enc ir k nv.1 nv.2 with
    | error e => simp [hc, bind, Except.bind] at hf
    | ok cell =>
      simp only [hc, bind, Except.bind, Except.ok.injEq] at hf
      rw [← hf]; rfl

/-- The rows before a time, after encoding. -/
theorem rowsBefore_encode (enc : String → Option (Enc A)) (name : String) (v : Var A) (ts : List T) (e : T) :
    rowsBefore ts (encodeVar enc name v).rows e =
      ((seen (ts.zip v.rows) e).map fun p => match enc name with | none => p.2 | some e => e.row p.2) := by
  unfold rowsBefore encodeVar seen
  cases enc name with
  | none => rfl
  | some en =>
    simp only
    rw [List.zip_map_right, List.filter_map, List.map_map]
    rfl

theorem seen_of_le (data data' : List (T × List A)) {e e' : T} (hle : e ≤ e') (h : seen data' e' = seen data e') :
    seen data' e = seen data e := by
  rw [← seen_seen data hle, ← seen_seen data' hle, h]

/-- The records of two datasets that look the same up to step `k` agree at each step up to `k`. -/
theorem record_agree (c : Config T) (enc : String → Option (Enc A)) (ds ds' : Dataset T A) (ln : String)
    (locals locals' : List T) (w : String → Nat) (hwf : WellFormed c enc ds ln locals w)
    (hwf' : WellFormed c enc ds' ln locals' w) (recs recs' : List (List (String × Cell A)))
    (h : records c enc ds = .ok recs) (h' : records c enc ds' = .ok recs')
    (k : Nat) (t : T) (hk : locals[k]? = some t) (hclock : locals'.take (k + 1) = locals.take (k + 1))
    (hsame : SameUpTo c ds ds' ln k t) (j : Nat) (hj : j ≤ k) : recs[j]? = recs'[j]? ∧ j < recs.length ∧ j < recs'.length := by
  have hloclt : ∀ i, i ≤ k → locals'[i]? = locals[i]? := by
    intro i hi
    have := congrArg (fun l => l[i]?) hclock
    simpa [List.getElem?_take, show i < k + 1 by omega] using this
  have hkl : k < locals.length := by
    rcases Nat.lt_or_ge k locals.length with h | h
    · exact h
    · rw [List.getElem?_eq_none h] at hk; simp at hk
  have hkl' : k < locals'.length := by
    rcases Nat.lt_or_ge k locals'.length with h | h
    · exact h
    · have := hloclt k (Nat.le_refl _)
      rw [List.getElem?_eq_none h, hk] at this; simp at this
  obtain ⟨u, hu⟩ : ∃ u, locals[j]? = some u := ⟨locals[j], List.getElem?_eq_getElem (by omega)⟩
  have hu' : locals'[j]? = some u := by rw [hloclt j hj, hu]
  have hlen : recs.length = locals.length := by
    obtain ⟨a, b, h1, h2, h3⟩ := C85_one_record_per_local c enc ds recs h
    rw [hwf.islocal] at h1; cases h1
    rw [hwf.haslocal] at h2; cases h2
    exact h3
  have hlen' : recs'.length = locals'.length := by
    obtain ⟨a, b, h1, h2, h3⟩ := C85_one_record_per_local c enc ds' recs' h'
    rw [hwf'.islocal] at h1; cases h1
    rw [hwf'.haslocal] at h2; cases h2
    exact h3
  have hjr : j < recs.length := by omega
  have hjr' : j < recs'.length := by omega
  refine ⟨?_, hjr, hjr'⟩
  rw [List.getElem?_eq_getElem hjr, List.getElem?_eq_getElem hjr']
  congr 1
  -- keys
  obtain ⟨irecs, htr, hlr, hat⟩ := records_at c enc ds recs h
  obtain ⟨irecs', htr', hlr', hat'⟩ := records_at c enc ds' recs' h'
  obtain ⟨r, hr, hrec⟩ := hat j irecs[j] (List.getElem?_eq_getElem (by omega))
  obtain ⟨r', hr', hrec'⟩ := hat' j irecs'[j] (List.getElem?_eq_getElem (by omega))
  rw [List.getElem?_eq_getElem hjr] at hr
  rw [List.getElem?_eq_getElem hjr'] at hr'
  have hr := Option.some.inj hr
  have hr' := Option.some.inj hr'
  rw [hr, hr']
  have hkeys := record_names ds enc _ _ r hrec
  have hkeys' := record_names ds' enc _ _ r' hrec'
  apply assoc_ext r r' (by rw [hkeys, hkeys', hsame.names]) (by rw [hkeys]; exact hwf.unique)
  intro name hname
  rw [hkeys] at hname
  obtain ⟨var, hv⟩ := lookup_some_of_mem ds.vars name hname
  obtain ⟨var', hv'⟩ := lookup_some_of_mem ds'.vars name (by rw [hsame.names]; exact hname)
  obtain ⟨hd, hi, hx⟩ := hsame.same name var var' hv hv'
  have hgr : ∀ q : List (String × Cell A), recs[j]? = some q → q = r := by
    intro q hq; rw [List.getElem?_eq_getElem hjr, hr] at hq; exact (Option.some.inj hq).symm
  have hgr' : ∀ q : List (String × Cell A), recs'[j]? = some q → q = r' := by
    intro q hq; rw [List.getElem?_eq_getElem hjr', hr'] at hq; exact (Option.some.inj hq).symm
  have hed := encodeVar_dims enc name var
  have hed' := encodeVar_dims enc name var'
  by_cases htime : ∃ n, var.dims.head? = some n ∧ n ∈ ds.times.map (·.1)
  · obtain ⟨n, hhead, hmem⟩ := htime
    have hhead' : var'.dims.head? = some n := by rw [hd]; exact hhead
    obtain ⟨ts, hts⟩ := lookup_some_of_mem ds.times n hmem
    obtain ⟨ts', hts'⟩ := lookup_some_of_mem ds'.times n (by rw [hsame.times]; exact hmem)
    have hal := hwf.aligned name var n ts hv hhead hts
    have hal' := hwf'.aligned name var' n ts' hv' hhead' hts'
    by_cases hnl : n = ln
    · subst hnl
      rw [hwf.haslocal] at hts; cases hts
      rw [hwf'.haslocal] at hts'; cases hts'
      have hrows := hsame.locals name var var' hv hv' hhead
      have hrj : var'.rows[j]? = var.rows[j]? := by
        have := congrArg (fun l => l[j]?) hrows
        simpa [List.getElem?_take, show j < k + 1 by omega] using this
      have hej : (encodeVar enc name var').rows[j]? = (encodeVar enc name var).rows[j]? := by
        unfold encodeVar
        cases enc name with
        | none => exact hrj
        | some e => simp [hrj]
      obtain ⟨row, hrow⟩ : ∃ row, (encodeVar enc name var).rows[j]? = some row :=
        ⟨_, List.getElem?_eq_getElem (by rw [encodeVar_length]; omega)⟩
      obtain ⟨q, hq, hql⟩ := C85_local_row c enc ds recs h n hwf.islocal name var hv hhead j hjr row hrow
      obtain ⟨q', hq', hql'⟩ := C85_local_row c enc ds' recs' h' n hwf'.islocal name var' hv' hhead' j hjr' row
        (by rw [hej]; exact hrow)
      rw [← hgr q hq, ← hgr' q' hq', hql, hql']
    · have hle : c.embed n u ≤ c.embed n t := by
        rcases Nat.lt_or_ge j k with hlt | hge
        · have := List.pairwise_iff_getElem.mp (hwf.clock n hnl) j k (by simp; omega) (by simpa using hkl) hlt
          rw [List.getElem_map, List.getElem_map] at this
          rw [List.getElem?_eq_getElem hkl] at hk
          rw [List.getElem?_eq_getElem (by omega)] at hu
          rw [Option.some.inj hk, Option.some.inj hu] at this
          exact this
        · have : j = k := by omega
          subst this
          rw [hk] at hu
          rw [Option.some.inj hu]
      have hsk := hsame.secondary name var var' n ts ts' hv hv' hhead hnl hts hts'
      have hnow : rowsBefore ts' (encodeVar enc name var').rows (c.embed n u) =
          rowsBefore ts (encodeVar enc name var).rows (c.embed n u) := by
        rw [rowsBefore_encode, rowsBefore_encode, seen_of_le _ _ hle hsk]
      have hprev : rowsBeforePrev (c.embed n) ts' (encodeVar enc name var').rows locals' j =
          rowsBeforePrev (c.embed n) ts (encodeVar enc name var).rows locals j := by
        cases j with
        | zero => rfl
        | succ i =>
          simp only [rowsBeforePrev]
          rw [hloclt i (by omega)]
          have hil : i < locals.length := by omega
          rw [List.getElem?_eq_getElem hil]
          simp only
          have hle' : c.embed n locals[i] ≤ c.embed n t := by
            have := List.pairwise_iff_getElem.mp (hwf.clock n hnl) i k (by simp; omega) (by simpa using hkl) (by omega)
            rw [List.getElem_map, List.getElem_map] at this
            rw [List.getElem?_eq_getElem hkl] at hk
            rw [Option.some.inj hk] at this
            exact this
          rw [rowsBefore_encode, rowsBefore_encode, seen_of_le _ _ hle' hsk]
      obtain ⟨q, hq, hql⟩ := sec_cell c enc ds recs h ln locals hwf.islocal hwf.haslocal name var hv n hhead ts hts hnl
        (by rw [encodeVar_length]; exact hal) (w name) (hwf.rect name var hv) (hwf.flat name var n hv hhead hnl)
        (hwf.sorted n ts hts) (hwf.clock n hnl) j u hu
      obtain ⟨q', hq', hql'⟩ := sec_cell c enc ds' recs' h' ln locals' hwf'.islocal hwf'.haslocal name var' hv' n hhead'
        ts' hts' hnl (by rw [encodeVar_length]; exact hal') (w name) (hwf'.rect name var' hv')
        (hwf'.flat name var' n hv' hhead' hnl) (hwf'.sorted n ts' hts') (hwf'.clock n hnl) j u hu'
      rw [← hgr q hq, ← hgr' q' hq', hql, hql']
      simp only [hnow, hprev, hi]
  · -- no time dimension (a time dimension elsewhere would have been refused)
    have hnone : ∀ d ∈ var.dims, d ∉ ds.times.map (·.1) := by
      intro d hdm hdt
      cases hvd : var.dims with
      | nil => rw [hvd] at hdm; simp at hdm
      | cons d0 rest =>
        have h0 : d0 ∉ ds.times.map (·.1) := fun hm => htime ⟨d0, by rw [hvd]; rfl, hm⟩
        rw [hvd] at hdm
        have hrest : d ∈ rest := by
          rcases List.mem_cons.mp hdm with e | e
          · exact absurd (e ▸ hdt) h0
          · exact e
        have hmem : (name, var) ∈ ds.vars := by
          have : ∀ (l : List (String × Var A)), l.lookup name = some var → (name, var) ∈ l := by
            intro l
            induction l with
            | nil => intro h; simp at h
            | cons a l ih =>
              obtain ⟨m, a⟩ := a
              intro h
              simp only [List.lookup_cons] at h
              by_cases hnm : name = m
              · subst hnm
                simp at h
                simp [h]
              · simp only [beq_false_of_ne hnm] at h
                exact List.mem_cons_of_mem _ (ih h)
          exact this _ hv
        have := C85_rejects_time_not_first c enc ds (name, var) hmem d0 d rest hvd h0 hrest hdt recs h
        rw [this] at hjr
        simp at hjr
    have hrows := hsame.constants name var var' hv hv' hnone
    have heq : var' = var := by
      cases var; cases var'
      simp_all
    obtain ⟨_, htr2, _, q, ir, cell, hq, hir, hc, hl⟩ := cell_at c enc ds recs h j hjr name var hv
    obtain ⟨_, htr2', _, q', ir', cell', hq', hir', hc', hl'⟩ := cell_at c enc ds' recs' h' j hjr' name var' hv'
    rw [← hgr q hq, ← hgr' q' hq', hl, hl']
    subst heq
    have hany : (encodeVar enc name var').dims.any (fun d => (ds.times.map (·.1)).contains d) = false := by
      rw [hed.1, List.any_eq_false]
      intro d hdm
      simpa using hnone d hdm
    rw [hsame.times] at hc'
    have hce : cellAt (ds.times.map (·.1)) enc ir j name var' = cellAt (ds.times.map (·.1)) enc ir' j name var' := by
      simp only [cellAt, varIndex, hany, Bool.false_eq_true, if_false, bind, Except.bind]
      by_cases hd0 : (encodeVar enc name var').dims = []
      · by_cases he0 : (encodeVar enc name var').extra = 0 <;> simp [hd0, he0]
      · simp [hd0]
    rw [hce, hc'] at hc
    rw [Except.ok.inj hc]

theorem unroll_take (f : Transformed P S R (List (String × Cell A)) O) (split : R → R × R) (rng : Option R)
    (params : Option P) (state : Option S) (xs ys : List (List (String × Cell A))) (k : Nat)
    (hk : ys.take (k + 1) = xs.take (k + 1)) (o o' : List O) (s s' : S)
    (h : unroll f split false true rng params state xs = .ok (o, s))
    (h' : unroll f split false true rng params state ys = .ok (o', s')) : o'.take (k + 1) = o.take (k + 1) := by
  rw [C37_unroll_init] at h h'
  cases xs with
  | nil => simp at h
  | cons x xs =>
    cases ys with
    | nil => simp at h'
    | cons y ys =>
      have e : y = x := by simpa using (congrArg List.head? hk)
      subst e
      simp only at h h'
      set p := params.getD (f.init rng y).1
      set s0 := state.getD (f.init rng y).2
      have key : ∀ zs o s, unrollApply f split false true p s0 rng zs = .ok (o, s) →
          o.take (k + 1) = (laxScan (scanF f split p) (s0, rng) (zs.take (k + 1))).2 := by
        intro zs o s hz
        simp only [unrollApply, Bool.false_eq_true, if_false, if_true, Except.ok.injEq, Prod.mk.injEq] at hz
        rw [← hz.1]
        conv_lhs => rw [← List.take_append_drop (k + 1) zs, laxScan_append]
        rcases Nat.lt_or_ge k zs.length with hl | hl
        · rw [List.take_left' (by rw [laxScan_length]; simp; omega)]
        · have : zs.drop (k + 1) = [] := List.drop_eq_nil_of_le (by omega)
          rw [this]
          simp only [laxScan, List.append_nil]
          rw [List.take_of_length_le (by rw [laxScan_length]; simp)]
      rw [key _ _ _ h, key _ _ _ h', hk]

/-- C86: the outputs of a module applied to a dataset are causal.  If two datasets look the same up to local step `k`
(everything later in the local stream, and everything not strictly before the embedded local time in the secondary streams,
may differ), then all the outputs up to and including step `k` are the same: whatever the module, its parameters, its initial
state, its key, forward filling and buffering. -/
theorem C86_apply_causal (c : Config T) (enc : String → Option (Enc A)) (ds ds' : Dataset T A) (ln : String)
    (locals locals' : List T) (w : String → Nat) (hwf : WellFormed c enc ds ln locals w)
    (hwf' : WellFormed c enc ds' ln locals' w)
    (f : Transformed P S R (List (String × Cell A)) O) (split : R → R × R) (rng : Option R)
    (params : Option P) (state : Option S) (o o' : List O) (s s' : S)
    (h : streamApply c enc ds f split false rng params state = .ok (o, s))
    (h' : streamApply c enc ds' f split false rng params state = .ok (o', s'))
    (k : Nat) (t : T) (hk : locals[k]? = some t) (hclock : locals'.take (k + 1) = locals.take (k + 1))
    (hsame : SameUpTo c ds ds' ln k t) : o'.take (k + 1) = o.take (k + 1) := by
  cases hr : records c enc ds with
  | error e => simp [streamApply, hr, bind, Except.bind] at h
  | ok recs =>
    cases hr' : records c enc ds' with
    | error e => simp [streamApply, hr', bind, Except.bind] at h'
    | ok recs' =>
      rw [C85_apply_is_unroll c enc ds f split false rng params state recs hr] at h
      rw [C85_apply_is_unroll c enc ds' f split false rng params state recs' hr'] at h'
      refine unroll_take f split rng params state recs recs' k ?_ o o' s s' h h'
      apply List.ext_getElem?
      intro j
      simp only [List.getElem?_take]
      split
      · exact (record_agree c enc ds ds' ln locals locals' w hwf hwf' recs recs' hr hr' k t hk hclock hsame j
          (by omega)).1.symm
      · rfl

/-- C86, what it needs the strict inequality for: nothing at or after the embedded local time is ever shown; a change of the
observation exactly at local time 10 changes nothing at step 0 (time 10) but is seen at step 1 (time 20). -/
theorem C86_boundary :
    records (T := Nat) (A := Nat) ⟨"loc", fun _ => id, fun _ => true, fun _ => none⟩ (fun _ => none)
      ⟨[("loc", [10, 20]), ("sec", [5, 10])], [("x", ⟨["loc"], [[1], [2]], 99, 0⟩), ("y", ⟨["sec"], [[7], [8]], 99, 0⟩)]⟩ =
      .ok [[("x", .row [1]), ("y", .row [7])], [("x", .row [2]), ("y", .row [8])]] ∧
    records (T := Nat) (A := Nat) ⟨"loc", fun _ => id, fun _ => true, fun _ => none⟩ (fun _ => none)
      ⟨[("loc", [10, 20]), ("sec", [5, 10])], [("x", ⟨["loc"], [[1], [2]], 99, 0⟩), ("y", ⟨["sec"], [[7], [88]], 99, 0⟩)]⟩ =
      .ok [[("x", .row [1]), ("y", .row [7])], [("x", .row [2]), ("y", .row [88])]] := by
  constructor <;> rfl

/-- A dataset with a local, a forward-filled, a buffered dimension and a scalar. -/
example : records (T := Nat) (A := Nat)
    ⟨"loc", fun _ => id, fun n => n == "a", fun n => if n == "b" then some 2 else none⟩ (fun _ => none)
    ⟨[("loc", [10, 20]), ("a", [5, 12]), ("b", [1, 2, 3])],
      [("x", ⟨["loc", "f"], [[1, 2], [3, 4]], 99, 0⟩), ("y", ⟨["a"], [[7], [8]], 99, 0⟩),
       ("z", ⟨["b"], [[1], [2], [3]], 99, 0⟩), ("s", ⟨[], [[42]], 99, 0⟩)]⟩ =
    .ok [[("x", .row [1, 2]), ("y", .row [7]), ("z", .buffer [[2], [3]]), ("s", .row [42])],
      [("x", .row [3, 4]), ("y", .row [8]), ("z", .buffer [[99], [99]]), ("s", .row [42])]] := by rfl

example : WellFormed (T := Nat) (A := Nat) ⟨"loc", fun _ => id, fun _ => true, fun _ => none⟩ (fun _ => none)
    ⟨[("loc", [10, 20])], [("x", ⟨["loc"], [[1], [2]], 99, 0⟩)]⟩ "loc" [10, 20] (fun _ => 1) where
  unique := by simp
  islocal := rfl
  haslocal := rfl
  aligned := by
    intro name var n ts h1 h2 h3
    simp only [List.lookup_cons, List.lookup_nil] at h1 h3
    split at h1
    · cases h1
      simp only [List.head?_cons, Option.some.injEq] at h2
      subst h2
      simp at h3
      subst h3; rfl
    · simp at h1
  rect := by
    intro name var h1 r hr
    simp only [List.lookup_cons, List.lookup_nil] at h1
    split at h1
    · cases h1
      simp [encodeVar] at hr
      rcases hr with rfl | rfl <;> rfl
    · simp at h1
  sorted := by
    intro n ts h3
    simp only [List.lookup_cons, List.lookup_nil] at h3
    split at h3
    · cases h3; simp
    · simp at h3
  clock := by intro n _; simp
  flat := by intro _ _ _ _ _ _; exact Or.inl rfl

end Verif.Props
