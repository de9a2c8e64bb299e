import Verif.Model.Profiled
import Verif.Props.Reports

/-! # Properties C168 and C169: profiled steps and JIT compilations -/

set_option linter.unusedSectionVars false

namespace Verif.Props
open Verif.Model.Debug Verif.Model.Reports Verif.Model.Profiled

variable {K : Type} [Field K] [LinearOrder K] [IsStrictOrderedRing K]

/-- The recordings in the body of a block. -/
def bodyReadings : List (BodyAct K) → List (Reading K)
  | [] => []
  | .record r :: acts => r :: bodyReadings acts
  | _ :: acts => bodyReadings acts

/-- What a block was last marked with (false if never). -/
def lastMark : Bool → List (BodyAct K) → Bool
  | b, [] => b
  | _, .mark b :: acts => lastMark b acts
  | b, _ :: acts => lastMark b acts

theorem acts_fold (cfg : Cfg K) (acts : List (BodyAct K)) (p : Prof K) (b : Bool) :
    acts.foldl (act cfg) (p, b) = (((bodyReadings acts).map POp.record).foldl (Prof.apply cfg) p, lastMark b acts) := by
  induction acts generalizing p b with
  | nil => rfl
  | cons a acts ih =>
    cases a with
    | record r => simp only [List.foldl_cons, act, bodyReadings, lastMark, List.map_cons]; rw [ih]; rfl
    | mark b' => simp only [List.foldl_cons, act, bodyReadings, lastMark]; rw [ih]
    | compile => simp only [List.foldl_cons, act, bodyReadings, lastMark]; rw [ih]

/-- The recordings of a block. -/
def blockReadings (name : String) (acts : List (BodyAct K)) (time mem : K) : List (Reading K) :=
  bodyReadings acts ++ [⟨name, time, mem, .none, .none, lastMark false acts⟩]

/-- C169: a `with profiler.start_step(name)` block makes exactly one recording of its own, of its name and duration, after those of its
body, whether its body returns or raises, and it counts as a compilation iff the body last marked it so; compilations that happen in the
body change nothing. -/
theorem C169_block (cfg : Cfg K) (name : String) (acts : List (BodyAct K)) (time mem : K) (p : Prof K) :
    block cfg name acts time mem p = ((blockReadings name acts time mem).map POp.record).foldl (Prof.apply cfg) p := by
  unfold block
  rw [acts_fold]
  simp [blockReadings, Prof.apply]

/-- The recordings of one call through `profile_streaming`. -/
def callReadings (detailed : Bool) (name : String) (c : PCall K) : List (Reading K) :=
  match c.output with
  | none => [⟨name, c.time, c.mem2, .none, .none, false⟩]
  | some o => profiledReadings detailed name c.input o c.time c.mem1 c.mem2

theorem call_readings (detailed : Bool) (name : String) (c : PCall K) :
    blockReadings name (c.acts detailed name) c.time c.mem2 = callReadings detailed name c := by
  have h : ∀ (n : Nat) (rest : List (BodyAct K)), bodyReadings (List.replicate n .compile ++ rest) = bodyReadings rest ∧
      ∀ b, lastMark b (List.replicate n .compile ++ rest) = lastMark b rest := by
    intro n rest
    induction n with
    | zero => exact ⟨rfl, fun _ => rfl⟩
    | succ n ih => exact ⟨ih.1, ih.2⟩
  unfold blockReadings PCall.acts callReadings
  rw [(h _ _).1, (h _ _).2]
  cases c.output <;> rfl

theorem session_ops (cfg : Cfg K) (detailed : Bool) (name : String) (calls : List (PCall K)) :
    session cfg detailed name calls =
      ((calls.flatMap (callReadings detailed name)).map POp.record).foldl (Prof.apply cfg) Prof.init := by
  have : ∀ (calls : List (PCall K)) (p : Prof K), calls.foldl (PCall.run cfg detailed name) p =
      ((calls.flatMap (callReadings detailed name)).map POp.record).foldl (Prof.apply cfg) p := by
    intro calls
    induction calls with
    | nil => intro p; rfl
    | cons c cs ih =>
      intro p
      simp only [List.foldl_cons, List.flatMap_cons, List.map_append, List.foldl_append]
      rw [ih, PCall.run, C169_block, call_readings]
  exact this calls _

theorem session_live (detailed : Bool) (name : String) (calls : List (PCall K)) :
    live true [] ((calls.flatMap (callReadings detailed name)).map POp.record) = calls.flatMap (callReadings detailed name) := by
  rw [live_records]; rfl

theorem pmetrics_jit (track : Bool) (n : Nat) (last : K) (rs : List (Reading K)) (h : ∀ r ∈ rs, r.jit = false) :
    ∀ m ∈ pmetrics track n last rs, m.jit = false := by
  induction rs generalizing n last with
  | nil => simp [pmetrics]
  | cons r rs ih =>
    intro m hm
    simp only [pmetrics, List.mem_cons] at hm
    rcases hm with rfl | hm
    · exact h r List.mem_cons_self
    · exact ih _ _ (fun r hr => h r (List.mem_cons_of_mem _ hr)) m hm

theorem callReadings_jit (detailed : Bool) (name : String) (calls : List (PCall K)) :
    ∀ r ∈ calls.flatMap (callReadings detailed name), r.jit = false := by
  intro r hr
  obtain ⟨c, -, hc⟩ := List.mem_flatMap.1 hr
  unfold callReadings at hc
  cases h : c.output with
  | none => simp only [h, List.mem_singleton] at hc; rw [hc]
  | some o =>
    simp only [h, profiledReadings, List.mem_cons, List.not_mem_nil, or_false] at hc
    rcases hc with rfl | rfl <;> rfl

theorem callReadings_ne (detailed : Bool) (name : String) (calls : List (PCall K)) (hne : calls ≠ []) :
    calls.flatMap (callReadings detailed name) ≠ [] := by
  cases calls with
  | nil => exact absurd rfl hne
  | cons c cs =>
    simp only [List.flatMap_cons, callReadings]
    cases c.output <;> simp [profiledReadings]

/-- C168 (false of the code; what it does): however many compilations the calls cause, the summary of a session of calls through
`profile_streaming` counts none and compiling too often is never reported. -/
theorem C168_no_compilation_counted_partial (root : K → K) (hr : IsRoot root) (cfg : Cfg K) (hmax : 0 < cfg.maxHistory) (detailed : Bool)
    (name : String) (calls : List (PCall K)) (duration : K) (hne : calls ≠ []) :
    let p := session cfg detailed name calls
    (∃ s, (p.finalize root duration).summary root p = some s ∧ s.jits = 0) ∧ Advice.jit ∉ p.advice root := by
  have hl := session_live detailed name calls
  have hn : live true [] ((calls.flatMap (callReadings detailed name)).map POp.record) ≠ [] := by
    rw [hl]; exact callReadings_ne detailed name calls hne
  have hj : ∀ m ∈ latest cfg.maxHistory (pmetrics cfg.trackMemory 0 0 (calls.flatMap (callReadings detailed name))), m.jit = false :=
    fun m hm => pmetrics_jit _ _ _ _ (callReadings_jit detailed name calls) m (List.mem_of_mem_drop hm)
  have hf : (latest cfg.maxHistory (pmetrics cfg.trackMemory 0 0 (calls.flatMap (callReadings detailed name)))).filter (fun m => m.jit) = [] := by
    rw [List.filter_eq_nil_iff]
    intro m hm
    simp [hj m hm]
  simp only
  rw [session_ops]
  refine ⟨?_, ?_⟩
  · obtain ⟨s, h1, h2, -⟩ := C120_summary root hr cfg hmax _ duration hn
    refine ⟨s, h1, ?_⟩
    rw [h2.jits, hl, hf]; rfl
  · rw [C121_advice_iff root hr cfg hmax _ hn, hl]
    rintro ⟨-, h⟩
    simp only [Due, hf] at h
    simp at h

/-- C168: compilations are counted only where the program itself marks its steps: over a session of `start_step` blocks with no other
recordings that fits the history, the summary counts the blocks last marked as compiling. -/
theorem C168_marked_steps_partial (root : K → K) (hr : IsRoot root) (cfg : Cfg K) (blocks : List (String × List Bool × K × K))
    (hne : blocks ≠ []) (hfit : blocks.length ≤ cfg.maxHistory) (duration : K) :
    let p := blocks.foldl (fun p b => block cfg b.1 (b.2.1.map .mark) b.2.2.1 b.2.2.2 p) Prof.init
    ∃ s, (p.finalize root duration).summary root p = some s ∧
      s.jits = (blocks.filter fun b => b.2.1.getLast?.getD false).length := by
  have hb : ∀ (l : List Bool) (b : Bool), bodyReadings (l.map (BodyAct.mark : Bool → BodyAct K)) = [] ∧
      lastMark b (l.map (BodyAct.mark : Bool → BodyAct K)) = l.getLast?.getD b := by
    intro l
    induction l with
    | nil => intro b; exact ⟨rfl, rfl⟩
    | cons x l ih =>
      intro b
      refine ⟨(ih x).1, ?_⟩
      simp only [List.map_cons, lastMark, (ih x).2, List.getLast?_cons]
      cases l.getLast? <;> rfl
  let rd : String × List Bool × K × K → Reading K := fun b => ⟨b.1, b.2.2.1, b.2.2.2, .none, .none, b.2.1.getLast?.getD false⟩
  have hp : ∀ (bs : List (String × List Bool × K × K)) (p : Prof K),
      bs.foldl (fun p b => block cfg b.1 (b.2.1.map .mark) b.2.2.1 b.2.2.2 p) p =
        ((bs.map rd).map POp.record).foldl (Prof.apply cfg) p := by
    intro bs
    induction bs with
    | nil => intro p; rfl
    | cons b bs ih =>
      intro p
      simp only [List.foldl_cons, List.map_cons]
      rw [ih, C169_block, blockReadings, (hb _ false).1, (hb _ false).2]
      rfl
  have hj : ∀ (rs : List (Reading K)) (n : Nat) (last : K),
      ((pmetrics cfg.trackMemory n last rs).filter fun m => m.jit).length = (rs.filter fun r => r.jit).length := by
    intro rs
    induction rs with
    | nil => intro n last; rfl
    | cons r rs ih =>
      intro n last
      simp only [pmetrics, List.filter_cons]
      split <;> simp [ih]
  simp only
  rw [hp]
  have hl : live true [] ((blocks.map rd).map POp.record) = blocks.map rd := by rw [live_records]; rfl
  have hpos : 0 < blocks.length := List.length_pos_iff.2 hne
  obtain ⟨s, h1, h2, -⟩ := C120_summary root hr cfg (by omega) ((blocks.map rd).map POp.record) duration (by rw [hl]; simpa using hne)
  refine ⟨s, h1, ?_⟩
  rw [h2.jits, hl]
  have hlat : latest cfg.maxHistory (pmetrics cfg.trackMemory 0 0 (blocks.map rd)) = pmetrics cfg.trackMemory 0 0 (blocks.map rd) := by
    unfold latest
    rw [pmetrics_length, List.length_map, Nat.sub_eq_zero_of_le hfit, List.drop_zero]
  rw [hlat, hj, List.filter_map, List.length_map]
  rfl

/-- C169 (false of the code for `profile_streaming`; what it does): a call that returns counts as two steps and one that raises as one;
hence when no call raises and the history holds them all, the average time reported is half the average duration of the calls, and
when durations are not negative the minimum reported is 0. -/
theorem C169_calls_counted_twice_partial (root : K → K) (hr : IsRoot root) (cfg : Cfg K) (hmax : 0 < cfg.maxHistory) (detailed : Bool)
    (name : String) (calls : List (PCall K)) (duration : K) (hne : calls ≠ []) :
    let p := session cfg detailed name calls
    ∃ s, (p.finalize root duration).summary root p = some s ∧
      s.totalSteps = 2 * (calls.filter fun c => c.output.isSome).length + (calls.filter fun c => !c.output.isSome).length ∧
      ((∀ c ∈ calls, c.output.isSome) → 2 * calls.length ≤ cfg.maxHistory →
        2 * s.avgMs * (calls.length : K) = 1000 * (calls.map (·.time)).sum ∧ ((∀ c ∈ calls, 0 ≤ c.time) → s.minMs = 0)) := by
  have hl := session_live detailed name calls
  have hn : live true [] ((calls.flatMap (callReadings detailed name)).map POp.record) ≠ [] := by
    rw [hl]; exact callReadings_ne detailed name calls hne
  simp only
  rw [session_ops]
  obtain ⟨s, h1, h2, -⟩ := C120_summary root hr cfg hmax _ duration hn
  rw [hl] at h2
  have hlen : (calls.flatMap (callReadings detailed name)).length =
      2 * (calls.filter fun c => c.output.isSome).length + (calls.filter fun c => !c.output.isSome).length := by
    clear h1 h2 hn hl hne
    induction calls with
    | nil => rfl
    | cons c cs ih =>
      rw [List.flatMap_cons, List.length_append, ih, List.filter_cons, List.filter_cons]
      unfold callReadings
      cases c.output <;> simp [profiledReadings] <;> omega
  refine ⟨s, h1, ?_, ?_⟩
  · rw [h2.steps, hlen]
  · intro hall hfit
    have hlen2 : (calls.flatMap (callReadings detailed name)).length = 2 * calls.length := by
      rw [hlen, List.filter_eq_self.2 (fun c hc => hall c hc), List.filter_eq_nil_iff.2 (fun c hc => by simp [hall c hc])]
      simp
    have hlat : latest cfg.maxHistory (pmetrics cfg.trackMemory 0 0 (calls.flatMap (callReadings detailed name))) =
        pmetrics cfg.trackMemory 0 0 (calls.flatMap (callReadings detailed name)) := by
      unfold latest
      rw [pmetrics_length, hlen2, Nat.sub_eq_zero_of_le hfit, List.drop_zero]
    have htimes : ∀ (rs : List (Reading K)) (n : Nat) (last : K), (pmetrics cfg.trackMemory n last rs).map (·.time) = rs.map (·.time) := by
      intro rs
      induction rs with
      | nil => intro n last; rfl
      | cons r rs ih => intro n last; simp [pmetrics, ih]
    have hsum : ((calls.flatMap (callReadings detailed name)).map (·.time)).sum = (calls.map (·.time)).sum := by
      clear h1 h2 hn hl hne hlen hlen2 hlat hfit hall
      induction calls with
      | nil => rfl
      | cons c cs ih =>
        rw [List.flatMap_cons, List.map_append, List.sum_append, ih, List.map_cons, List.sum_cons]
        congr 1
        unfold callReadings
        cases c.output <;> simp [profiledReadings]
    constructor
    · have := h2.avg
      rw [hlat, pmetrics_length, hlen2, htimes, hsum] at this
      push_cast at this
      rw [← this]; ring
    · intro hnn
      have hmin := h2.minMs
      rw [hlat] at hmin
      have e : (pmetrics cfg.trackMemory 0 0 (calls.flatMap (callReadings detailed name))).map (fun m => m.time * 1000) =
          (calls.flatMap (callReadings detailed name)).map fun r => r.time * 1000 := by
        have := congrArg (List.map (· * (1000 : K))) (htimes (calls.flatMap (callReadings detailed name)) 0 0)
        simpa [Function.comp_def] using this
      rw [e] at hmin
      have hmem : (0 : K) ∈ (calls.flatMap (callReadings detailed name)).map fun r => r.time * 1000 := by
        cases calls with
        | nil => exact absurd rfl hne
        | cons c cs =>
          have := hall c List.mem_cons_self
          cases ho : c.output with
          | none => simp [ho] at this
          | some o =>
            refine List.mem_map.2 ⟨⟨name, 0, c.mem1, if detailed then c.input else .none, if detailed then o else .none, false⟩, ?_, by simp⟩
            rw [List.flatMap_cons]
            refine List.mem_append_left _ ?_
            simp [callReadings, ho, profiledReadings]
      have hge : ∀ x ∈ (calls.flatMap (callReadings detailed name)).map (fun r => r.time * 1000), 0 ≤ x := by
        intro x hx
        obtain ⟨r, hr', rfl⟩ := List.mem_map.1 hx
        obtain ⟨c, hc, hrc⟩ := List.mem_flatMap.1 hr'
        have h0 := hnn c hc
        unfold callReadings at hrc
        cases ho : c.output with
        | none => simp only [ho, List.mem_singleton] at hrc; rw [hrc]; positivity
        | some o =>
          simp only [ho, profiledReadings, List.mem_cons, List.not_mem_nil, or_false] at hrc
          rcases hrc with rfl | rfl
          · simp
          · show 0 ≤ c.time * 1000
            positivity
      exact le_antisymm (hmin.2 0 hmem) (hge _ hmin.1)

/-- C169: with detailed tracking the sizes of a returning call's first argument and of its result appear on one of its two recordings, and
nothing on the other; without it, or when the call raises, on neither. -/
theorem C169_sizes (detailed : Bool) (name : String) (c : PCall K) :
    ((callReadings detailed name c).map fun r => (r.input.size, r.output.size)) =
      match c.output with
      | none => [(0, 0)]
      | some o => [if detailed then (c.input.size, o.size) else (0, 0), (0, 0)] := by
  unfold callReadings
  cases c.output with
  | none => simp [Data.size]
  | some o => cases detailed <;> simp [profiledReadings, Data.size]

/-- Non-vacuity: three calls, one of them raising, with compilations in each. -/
example : (session (K := ℚ) ⟨true, 10, 100⟩ true "f" [⟨.num, some (.jaxArray 8), 1, 2, 5, 6⟩, ⟨.num, none, 3, 1, 7, 8⟩,
      ⟨.num, some .num, 2, 4, 9, 9⟩]).metrics.map (fun m => (m.step, m.time, m.jit, m.inputSize, m.outputSize)) =
    [(1, 0, false, 8, 8), (2, 2, false, 0, 0), (3, 1, false, 0, 0), (4, 0, false, 8, 8), (5, 4, false, 0, 0)] := by
  decide +kernel

end Verif.Props
