import Verif.Model.Breakpoint

/-! # Property C155: interactive breakpoints -/

set_option linter.unusedSectionVars false
set_option linter.unusedSimpArgs false

namespace Verif.Props
open Model.Debug Model.Breakpoint

section breakpoint
variable {C St In Out H : Type}

/-- The typed words that leave the prompt. -/
def leaves (norm : String → String) (l : String) : Bool := ["c", "continue", "q", "quit"].contains (norm l)

/-- What is printed in answer to a line that does not leave the prompt. -/
def answer (norm : String → String) (e : Event St In Out) (l : String) : Shown St In Out :=
  if ["s", "state"].contains (norm l) then .state e.state
  else if ["i", "input"].contains (norm l) then .input e.input
  else if ["o", "output"].contains (norm l) then .output e.output
  else if ["h", "help"].contains (norm l) then .help
  else .unknown (norm l)

/-- C155: at a breakpoint, lines are answered in order up to the first that continues or quits; that one is consumed and the
following ones are left for the next breakpoint.  The session is interrupted exactly when that line is `q` or `quit` (after
the last line, at end of file, execution continues). -/
theorem C155_prompt (norm : String → String) (e : Event St In Out) (lines : List String) :
    let front := lines.takeWhile fun l => !leaves norm l
    let back := lines.dropWhile fun l => !leaves norm l
    prompt norm e lines = (front.map (answer norm e), back.drop 1,
      (back.head?.map fun l => ["q", "quit"].contains (norm l)).getD false) := by
  intro front back
  simp only [front, back]
  induction lines with
  | nil => rfl
  | cons l ls ih =>
    by_cases h1 : norm l = "c" ∨ norm l = "continue"
    · have hp : parse norm l = .cont := by simp [parse, h1]
      have hl : leaves norm l = true := by rcases h1 with h | h <;> simp [leaves, h]
      have hq : ["q", "quit"].contains (norm l) = false := by rcases h1 with h | h <;> rw [h] <;> decide
      simp [prompt, hp, List.takeWhile_cons, List.dropWhile_cons, hl, hq]
      rcases h1 with h | h <;> simp [h]
    by_cases h6 : norm l = "q" ∨ norm l = "quit"
    · have hp : parse norm l = .quit := by rcases h6 with h | h <;> simp [parse, h]
      have hl : leaves norm l = true := by rcases h6 with h | h <;> simp [leaves, h]
      simp [prompt, hp, List.takeWhile_cons, List.dropWhile_cons, hl]
      rcases h6 with h | h <;> simp [h]
    · have hl : leaves norm l = false := by
        rw [not_or] at h1 h6
        simp [leaves, h1, h6]
      have hp : prompt norm e (l :: ls) =
          (answer norm e l :: (prompt norm e ls).1, (prompt norm e ls).2) := by
        simp only [prompt, answer, parse, h1, h6, if_false, List.contains_cons, List.contains_nil, Bool.or_false,
          Bool.or_eq_true, beq_iff_eq]
        by_cases h2 : norm l = "s" ∨ norm l = "state"
        · simp only [h2, if_true]
        by_cases h3 : norm l = "i" ∨ norm l = "input"
        · simp only [h2, h3, if_true, if_false]
        by_cases h4 : norm l = "o" ∨ norm l = "output"
        · simp only [h2, h3, h4, if_true, if_false]
        by_cases h5 : norm l = "h" ∨ norm l = "help"
        · simp only [h2, h3, h4, h5, if_true, if_false]
        · simp only [h2, h3, h4, h5, if_false]
      rw [hp, ih]
      simp [List.takeWhile_cons, List.dropWhile_cons, hl]

theorem hookLoop_continue (norm : String → String) (breaks : String → Bool) (e : Event St In Out)
    (hooks : List (String × Hook C St In Out)) (lines : List String)
    (h : (hookLoop norm breaks e hooks lines).2.2.2 = false) :
    (hookLoop norm breaks e hooks lines).1 = hooks.map fun p => (p.1, p.2.onStep e) := by
  induction hooks generalizing lines with
  | nil => rfl
  | cons p rest ih =>
    obtain ⟨n, hk⟩ := p
    unfold hookLoop at h ⊢
    split
    · next hc =>
      rw [if_pos hc] at h
      simp only [] at h ⊢
      split
      · next hq => rw [if_pos hq] at h; simp at h
      · next hq =>
        rw [if_neg hq] at h
        simp only [List.map_cons]
        rw [ih _ h]
    · next hc =>
      rw [if_neg hc] at h
      simp only [List.map_cons]
      rw [ih _ h]

theorem prompt_quit (norm : String → String) (e : Event St In Out) (lines : List String)
    (h : (prompt norm e lines).2.2 = true) : ∃ l ∈ lines, ["q", "quit"].contains (norm l) = true := by
  rw [C155_prompt] at h
  cases hb : (lines.dropWhile fun l => !leaves norm l).head? with
  | none => simp [hb] at h
  | some l =>
    simp only [hb, Option.map_some, Option.getD_some] at h
    exact ⟨l, (List.dropWhile_suffix _).subset (List.mem_of_mem_head? hb), h⟩

theorem prompt_rest (norm : String → String) (e : Event St In Out) (lines : List String) (l : String)
    (h : l ∈ (prompt norm e lines).2.1) : l ∈ lines := by
  rw [C155_prompt] at h
  exact (List.dropWhile_suffix _).subset (List.mem_of_mem_drop h)

theorem hookLoop_quit_line (norm : String → String) (breaks : String → Bool) (e : Event St In Out)
    (hooks : List (String × Hook C St In Out)) (lines : List String)
    (h : (hookLoop norm breaks e hooks lines).2.2.2 = true) : ∃ l ∈ lines, ["q", "quit"].contains (norm l) = true := by
  induction hooks generalizing lines with
  | nil => simp [hookLoop] at h
  | cons p rest ih =>
    obtain ⟨n, hk⟩ := p
    unfold hookLoop at h
    split at h
    · simp only [] at h
      split at h
      · next hq => exact prompt_quit norm e lines hq
      · obtain ⟨l, hl, hc⟩ := ih _ h
        exact ⟨l, prompt_rest norm e lines l hl, hc⟩
    · exact ih _ h

/-- C155: unless the user quits, a debugger with breakpoints ends each step as one without: same step count, histories, hooks,
events and hit counts.  It is never interrupted when no typed line is `q` or `quit`. -/
theorem C155_continue (norm : String → String) (breaks : String → Bool) (cfg : Config St H) (d : Debugger C St In Out H)
    (name : String) (state : St) (input : In) (output : Out) (time : Option Nat) (lines : List String) :
    let r := stepAt norm breaks cfg d name state input output time lines
    (r.2.2.2 = false → r.1 = d.step cfg name state input output time) ∧
    ((∀ l ∈ lines, ["q", "quit"].contains (norm l) = false) → r.2.2.2 = false) := by
  intro r
  constructor
  · intro h
    simp only [r, stepAt, Debugger.step] at h ⊢
    by_cases hd : d.enabled
    · simp only [hd, if_true] at h ⊢
      rw [hookLoop_continue norm breaks _ d.hooks lines h]
    · simp only [hd, if_false, Bool.false_eq_true]
  · intro h
    simp only [r, stepAt]
    by_cases hd : d.enabled
    · simp only [hd, if_true]
      by_contra hc
      obtain ⟨l, hl, hq⟩ := hookLoop_quit_line norm breaks _ d.hooks lines (by simpa using hc)
      rw [h l hl] at hq; cases hq
    · simp only [hd, if_false, Bool.false_eq_true]

/-- C155: when the user quits at a breakpoint, the hooks before it and the breakpoint itself have seen the step (the event is
recorded), the hooks after it have not; the step is counted and kept in the histories. -/
theorem C155_quit (norm : String → String) (breaks : String → Bool) (cfg : Config St H) (d : Debugger C St In Out H)
    (name : String) (state : St) (input : In) (output : Out) (time : Option Nat) (lines : List String)
    (h : (stepAt norm breaks cfg d name state input output time lines).2.2.2 = true) :
    let e : Event St In Out := ⟨d.currentStep + 1, name, state, input, output⟩
    let d' := (stepAt norm breaks cfg d name state input output time lines).1
    ∃ (before after : List (String × Hook C St In Out)) (n : String) (hk : Hook C St In Out),
      d.hooks = before ++ (n, hk) :: after ∧ breaks n = true ∧ (hk.check e).1 = true ∧
      d'.hooks = (before.map fun p => (p.1, p.2.onStep e)) ++ (n, hk.onStep e) :: after ∧
      (hk.onStep e).hitCount = hk.hitCount + 1 ∧ (hk.onStep e).events = dequePush hk.maxEvents hk.events e ∧
      d'.currentStep = d.currentStep + 1 ∧
      d'.stateHistory = (d.step cfg name state input output time).stateHistory ∧
      d'.execTimes = (d.step cfg name state input output time).execTimes := by
  intro e d'
  have hd : d.enabled = true := by
    by_contra hc
    simp [stepAt, hc] at h
  simp only [stepAt, hd, if_true] at h
  have key : ∀ (hooks : List (String × Hook C St In Out)) (lines : List String),
      (hookLoop norm breaks e hooks lines).2.2.2 = true →
      ∃ (before after : List (String × Hook C St In Out)) (n : String) (hk : Hook C St In Out),
        hooks = before ++ (n, hk) :: after ∧ breaks n = true ∧ (hk.check e).1 = true ∧
        (hookLoop norm breaks e hooks lines).1 = (before.map fun p => (p.1, p.2.onStep e)) ++ (n, hk.onStep e) :: after := by
    intro hooks
    induction hooks with
    | nil => intro lines h; simp [hookLoop] at h
    | cons p rest ih =>
      obtain ⟨n, hk⟩ := p
      intro lines h
      unfold hookLoop at h ⊢
      by_cases hc : ((hk.check e).1 && breaks n) = true
      · rw [if_pos hc] at h ⊢
        simp only [] at h ⊢
        rw [Bool.and_eq_true] at hc
        by_cases hq : (prompt norm e lines).2.2 = true
        · rw [if_pos hq]
          exact ⟨[], rest, n, hk, rfl, hc.2, hc.1, rfl⟩
        · rw [if_neg hq] at h ⊢
          obtain ⟨b, a, m, g, h1, h2, h3, h4⟩ := ih _ h
          exact ⟨(n, hk) :: b, a, m, g, by rw [h1]; rfl, h2, h3, by simp only [h4]; rfl⟩
      · rw [if_neg hc] at h ⊢
        obtain ⟨b, a, m, g, h1, h2, h3, h4⟩ := ih _ h
        exact ⟨(n, hk) :: b, a, m, g, by rw [h1]; rfl, h2, h3, by simp only [h4]; rfl⟩
  obtain ⟨b, a, n, hk, h1, h2, h3, h4⟩ := key d.hooks lines h
  have hon : hk.onStep e = (hk.check e).2.trigger e := by unfold Hook.onStep; simp only [h3, if_true]
  have hch : (hk.check e).2.hitCount = hk.hitCount ∧ (hk.check e).2.events = hk.events ∧
      (hk.check e).2.maxEvents = hk.maxEvents := by
    unfold Hook.check
    split
    · split <;> exact ⟨rfl, rfl, rfl⟩
    · exact ⟨rfl, rfl, rfl⟩
  refine ⟨b, a, n, hk, h1, h2, h3, ?_, ?_, ?_, ?_, ?_, ?_⟩
  · simp only [d', stepAt, hd, if_true]; exact h4
  · rw [hon, ← hch.1]; rfl
  · rw [hon, ← hch.2.1, ← hch.2.2]; rfl
  · simp only [d', stepAt, hd, if_true]
  · simp only [d', stepAt, Debugger.step, hd, if_true]
  · simp only [d', stepAt, Debugger.step, hd, if_true]

/-- C155: for a function under the debugging decorator: unless the user quits its result is returned unchanged; when the user
quits, the call raises after the function has run (the result and the new state are lost to the caller). -/
theorem C155_decorated {P R E V : Type} (norm : String → String) (breaks : String → Bool) (cfg : Config V H) (name : String)
    (apply : P → V → R → In → Except E (Out × V)) (d : Debugger C V In Out H) (p : P) (s : V) (rng : R) (x : In)
    (time : Option Nat) (lines : List String) (o : Out) (s' : V) (ha : apply p s rng x = .ok (o, s')) :
    let q := stepAt norm breaks cfg d name s' x o time lines
    let r := debugApplyAt norm breaks cfg name apply d p s rng x time lines
    (q.2.2.2 = false → r.1 = .ok (some (o, s'))) ∧ (q.2.2.2 = true → r.1 = .ok none) ∧ r.2.1 = q.1 := by
  intro q r
  simp only [r, q, debugApplyAt, ha]
  refine ⟨fun h => by simp [h], fun h => by simp [h], trivial⟩

/-- A hook that fires on every step. -/
def always : Hook Unit Nat Nat Nat := ⟨some fun c _ => (some true, c), (), 10, [], true, 0⟩

example :
    let d : Debugger Unit Nat Nat Nat Nat := ⟨[("a", always), ("b", always)], [], [], [], 0, true⟩
    let r := stepAt id (fun _ => true) ⟨true, true, 5, id⟩ d "m" 7 1 2 none ["state", "c", "what", "q", "left"]
    r.2.1.length = 2 ∧ r.2.2 = (["left"], true) ∧ r.1.currentStep = 1 ∧ r.1.hooks.map (fun p => p.2.hitCount) = [1, 1] := by
  decide

example :
    let d : Debugger Unit Nat Nat Nat Nat := ⟨[("a", always), ("b", always)], [], [], [], 0, true⟩
    let r := stepAt id (fun _ => true) ⟨true, true, 5, id⟩ d "m" 7 1 2 none ["quit"]
    r.2.2.2 = true ∧ r.1.hooks.map (fun p => p.2.hitCount) = [1, 0] := by
  decide

end breakpoint
end Verif.Props
