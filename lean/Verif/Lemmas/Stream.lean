import Verif.Spec.Stream
import Verif.Lemmas.Windows

/-! # Invariants of `Stream.merge` -/

set_option linter.unusedSectionVars false

namespace Verif.Lemmas
open Model.Stream Spec
variable {T V W : Type} [LinearOrder T]

/-- What a stream shows when `pre` is what it has delivered so far. -/
def showOut (c : SecCfg T V) (pre : List (Obs T V)) : Out T V :=
  match c.maxlen with
  | none => .single (pre.getLast?.getD (initObs c))
  | some m => .stacked (window m (initObs c) pre)

def lastN {α : Type} (m : Nat) (l : List α) : List α := l.drop (l.length - m)

/-- Contents of the deque. -/
def bufOf (c : SecCfg T V) (pre : List (Obs T V)) : List (Obs T V) :=
  match c.maxlen with
  | none => []
  | some m => lastN m (initObs c :: pre)

theorem window_cons_fill {α : Type} (m : Nat) (f : α) (l : List α) : window m f (f :: l) = window m f l := by
  unfold window
  rcases Nat.lt_or_ge l.length m with h | h
  · have e1 : m - l.length = (m - (f :: l).length) + 1 := by simp; omega
    have e2 : (f :: l).length - m = 0 := by simp; omega
    have e3 : l.length - m = 0 := by omega
    rw [e1, e2, e3, List.replicate_succ']; simp
  · have e1 : m - l.length = 0 := by omega
    have e2 : m - (f :: l).length = 0 := by simp; omega
    have e3 : (f :: l).length - m = (l.length - m) + 1 := by simp; omega
    rw [e1, e2, e3]; simp

theorem dequePush_lastN (m : Nat) (l : List (Obs T V)) (x : Obs T V) :
    dequePush m (lastN m l) x = lastN m (l ++ [x]) := by
  unfold dequePush lastN
  apply List.ext_getElem?
  intro i
  simp only [List.getElem?_drop, List.length_append, List.length_drop, List.length_singleton]
  by_cases hm : m = 0
  · subst hm
    rw [List.getElem?_eq_none (by simp), List.getElem?_eq_none (by simp)]
  by_cases hl : l.length ≤ m
  · have e : l.length - m = 0 := by omega
    rw [e]; simp only [List.drop_zero, Nat.sub_zero]
  · rw [← List.drop_append_of_le_length (by omega), List.getElem?_drop]
    congr 1; omega

theorem dequeToList_lastN (m : Nat) (f : Obs T V) (l : List (Obs T V)) :
    dequeToList m f (lastN m l) = window m f l := by
  unfold dequeToList lastN window
  rw [List.length_drop]
  congr 2; omega

theorem bufTransform_bufOf (c : SecCfg T V) (pre : List (Obs T V)) (x : Obs T V) :
    bufTransform c (bufOf c pre) x = (bufOf c (pre ++ [x]), showOut c (pre ++ [x])) := by
  unfold bufTransform bufOf showOut
  cases c.maxlen with
  | none => simp
  | some m =>
    simp only [dequePush_lastN, dequeToList_lastN, List.cons_append, window_cons_fill]

theorem drain_eq (c : SecCfg T V) (e : T) (rest pre : List (Obs T V)) :
    drain c e rest (bufOf c pre) (showOut c pre) =
      ((rest.dropWhile (before e)).head?, (rest.dropWhile (before e)).tail,
        bufOf c (pre ++ rest.takeWhile (before e)), showOut c (pre ++ rest.takeWhile (before e))) := by
  induction rest generalizing pre with
  | nil => simp [drain]
  | cons q rest ih =>
    unfold drain
    by_cases hq : before e q = true
    · simp only [hq, if_true, bufTransform_bufOf, ih]
      simp [hq]
    · simp [hq]

/-- Delivered so far, after the local times `ts`. -/
def delivered (c : SecCfg T V) (gen : List (Obs T V)) (ts : List T) : List (Obs T V) :=
  match ts.getLast? with
  | none => []
  | some t => gen.takeWhile (before (c.embed t))

theorem before_mono {e e' : T} (h : e ≤ e') (o : Obs T V) (hb : before e o = true) : before e' o = true := by
  unfold before at *
  cases ho : o.time with
  | none => simp [ho] at hb
  | some t => simp only [ho, decide_eq_true_eq] at *; exact lt_of_lt_of_le hb h

theorem takeWhile_split {α : Type} (p q : α → Bool) (h : ∀ x, p x = true → q x = true) (l : List α) :
    l.takeWhile q = l.takeWhile p ++ (l.dropWhile p).takeWhile q := by
  induction l with
  | nil => rfl
  | cons x l ih =>
    by_cases hp : p x = true
    · simp [hp, h x hp, ih]
    · simp [hp]

theorem dropWhile_split {α : Type} (p q : α → Bool) (h : ∀ x, p x = true → q x = true) (l : List α) :
    l.dropWhile q = (l.dropWhile p).dropWhile q := by
  induction l with
  | nil => rfl
  | cons x l ih =>
    by_cases hp : p x = true
    · simp [hp, h x hp, ih]
    · simp [hp]

/-- The state of a secondary stream after the local times `ts`. -/
def secStateOf (c : SecCfg T V) (gen : List (Obs T V)) (ts : List T) : SecState T V :=
  let post := match ts.getLast? with
    | none => gen
    | some t => gen.dropWhile (before (c.embed t))
  ⟨post.head?, post.tail, bufOf c (delivered c gen ts),
    if c.ffill then showOut c (delivered c gen ts) else showOut c []⟩

theorem secStep_eq (c : SecCfg T V) (gen : List (Obs T V)) (ts : List T) (t : T)
    (hm : ∀ u, ts.getLast? = some u → c.embed u ≤ c.embed t) :
    secStep c (secStateOf c gen ts) t =
      (if c.ffill = true ∨ (delivered c gen ts).length < (delivered c gen (ts ++ [t])).length
        then showOut c (delivered c gen (ts ++ [t])) else showOut c [],
        secStateOf c gen (ts ++ [t])) := by
  set e := c.embed t with he
  have hlast : (ts ++ [t]).getLast? = some t := by simp
  -- the undelivered part
  set post := (match ts.getLast? with
    | none => gen
    | some u => gen.dropWhile (before (c.embed u))) with hpost
  have hdel : delivered c gen (ts ++ [t]) = delivered c gen ts ++ post.takeWhile (before e) := by
    simp only [delivered, hlast, hpost]
    cases hl : ts.getLast? with
    | none => simp [he]
    | some u => exact takeWhile_split _ _ (fun x hx => before_mono (hm u hl) x hx) gen
  have hpost' : gen.dropWhile (before e) = post.dropWhile (before e) := by
    simp only [hpost]
    cases hl : ts.getLast? with
    | none => rfl
    | some u => exact dropWhile_split _ _ (fun x hx => before_mono (hm u hl) x hx) gen
  have hnew : secStateOf c gen (ts ++ [t]) =
      ⟨(post.dropWhile (before e)).head?, (post.dropWhile (before e)).tail,
        bufOf c (delivered c gen (ts ++ [t])),
        if c.ffill then showOut c (delivered c gen (ts ++ [t])) else showOut c []⟩ := by
    simp only [secStateOf, hlast, ← he, hpost']
  have hold : secStateOf c gen ts = ⟨post.head?, post.tail, bufOf c (delivered c gen ts),
      if c.ffill then showOut c (delivered c gen ts) else showOut c []⟩ := rfl
  rw [hnew, hdel, hold]
  unfold secStep
  cases hp : post with
  | nil =>
    simp only [List.head?_nil, List.takeWhile_nil, List.dropWhile_nil, List.append_nil, List.tail_nil,
      Nat.lt_irrefl, or_false]
  | cons p rest =>
    simp only [List.head?_cons, List.tail_cons]
    by_cases hb : before e p = true
    · rw [if_pos (by rw [← he]; exact hb), bufTransform_bufOf]
      simp only [drain_eq, ← he]
      have h1 : (p :: rest).takeWhile (before e) = p :: rest.takeWhile (before e) := by simp [hb]
      have h2 : (p :: rest).dropWhile (before e) = rest.dropWhile (before e) := by simp [hb]
      rw [h1, h2]
      have h3 : delivered c gen ts ++ [p] ++ rest.takeWhile (before e) =
        delivered c gen ts ++ p :: rest.takeWhile (before e) := by simp
      rw [h3, if_pos (Or.inr (by simp))]
      congr 1
      cases c.ffill <;> simp
    · rw [if_neg (by rw [← he]; exact hb)]
      have h1 : (p :: rest).takeWhile (before e) = [] := by simp [hb]
      have h2 : (p :: rest).dropWhile (before e) = p :: rest := by simp [hb]
      rw [h1, h2]
      simp

theorem sec_state (c : SecCfg T V) (gen : List (Obs T V)) (s0 : SecState T V)
    (h0 : s0 = secStateOf c gen []) (ts : List T) (hm : (ts.map c.embed).Pairwise (· ≤ ·)) :
    (secMachine c s0).stateAfter ts = secStateOf c gen ts := by
  induction ts using List.reverseRecOn with
  | nil => simp [Mealy.stateAfter, secMachine, h0]
  | append_singleton ts t ih =>
    rw [List.map_append, List.pairwise_append] at hm
    rw [Mealy.stateAfter_append_singleton, ih hm.1]
    have := secStep_eq c gen ts t (fun u hu => hm.2.2 _ (List.mem_map_of_mem (List.mem_of_getLast? hu)) _ (by simp))
    simp only [secMachine, this]

theorem secInit_eq (c : SecCfg T V) (gen : List (Obs T V)) (s0 : SecState T V) (h : secInit c gen = .ok s0) :
    s0 = secStateOf c gen [] ∧ gen ≠ [] ∧ c.maxlen ≠ some 0 := by
  unfold secInit at h
  cases gen with
  | nil => simp at h
  | cons o rest =>
    simp only at h
    split at h
    · simp at h
    · rename_i hm
      refine ⟨?_, by simp, hm⟩
      simp only [Except.ok.injEq] at h
      rw [← h]
      have hb : bufTransform c [] (initObs c) = (bufOf c [], showOut c []) := by
        unfold bufTransform bufOf showOut
        cases hc : c.maxlen with
        | none => simp
        | some m =>
          have e : lastN m ([] : List (Obs T V)) = [] := by simp [lastN]
          have p := dequePush_lastN m [] (initObs c)
          rw [e] at p
          simp only [p, dequeToList_lastN, List.nil_append, window_cons_fill]
      rw [hb]
      simp [secStateOf, delivered]

/-- Outputs of a secondary stream, for a clock whose embedding is non-decreasing. -/
theorem sec_run (c : SecCfg T V) (gen : List (Obs T V)) (s0 : SecState T V) (h : secInit c gen = .ok s0)
    (ts : List T) (hm : (ts.map c.embed).Pairwise (· ≤ ·)) (k : Nat) (t : T) (hk : ts[k]? = some t) :
    ((secMachine c s0).run ts)[k]? =
      some (if c.ffill = true ∨ (delivered c gen (ts.take k)).length < (gen.takeWhile (before (c.embed t))).length
        then showOut c (gen.takeWhile (before (c.embed t))) else showOut c []) := by
  have hlt : k < ts.length := by
    rcases Nat.lt_or_ge k ts.length with h | h
    · exact h
    · rw [List.getElem?_eq_none h] at hk; simp at hk
  have ht : ts[k] = t := by rw [List.getElem?_eq_getElem hlt] at hk; simpa using hk
  have hsplit : ts.take k ++ [t] = ts.take (k + 1) := by rw [← ht, List.take_append_getElem hlt]
  have hmk : ((ts.take k ++ [t]).map c.embed).Pairwise (· ≤ ·) := by
    rw [hsplit, List.map_take]; exact hm.sublist (List.take_sublist _ _)
  rw [List.map_append, List.pairwise_append] at hmk
  rw [Mealy.run, Mealy.outsFrom_getElem?, hk, Option.map_some]
  have hs := sec_state c gen s0 (secInit_eq c gen s0 h).1 (ts.take k) hmk.1
  unfold Mealy.stateAfter at hs
  rw [hs]
  have := secStep_eq c gen (ts.take k) t
    (fun u hu => hmk.2.2 _ (List.mem_map_of_mem (List.mem_of_getLast? hu)) _ (by simp))
  simp only [secMachine, this]
  have hd : delivered c gen (ts.take k ++ [t]) = gen.takeWhile (before (c.embed t)) := by
    simp [delivered]
  rw [hd]

/-! ## The merged stream, name by name -/

theorem lookup_map_snd {A B : Type} (l : List (String × A)) (g : String → A → B) (n : String) :
    (l.map fun ns => (ns.1, g ns.1 ns.2)).lookup n = (l.lookup n).map (g n) := by
  induction l with
  | nil => rfl
  | cons a l ih =>
    obtain ⟨m, a⟩ := a
    simp only [List.map_cons, List.lookup_cons, ih]
    by_cases hn : n = m
    · subst hn; simp
    · simp [beq_false_of_ne hn]

theorem mapM_lookup {A B : Type} (f : String → A → Except Unit B) (l : List (String × A)) (r : List (String × B))
    (h : (l.mapM fun na => do let b ← f na.1 na.2; Except.ok (na.1, b)) = .ok r) (n : String) (a : A)
    (ha : l.lookup n = some a) : ∃ b, f n a = .ok b ∧ r.lookup n = some b := by
  induction l generalizing r with
  | nil => simp at ha
  | cons x l ih =>
    obtain ⟨m, x⟩ := x
    simp only [List.mapM_cons] at h
    cases hf : f m x with
    | error e => simp [hf, bind, Except.bind] at h
    | ok b =>
      cases hr : l.mapM fun na => do let b ← f na.1 na.2; Except.ok (na.1, b) with
      | error e =>
        simp only [bind, Except.bind] at hr
        simp [hf, hr, bind, Except.bind] at h
      | ok r' =>
        have e : r = (m, b) :: r' := by
          simp only [bind, Except.bind] at hr
          simp [hf, hr, bind, Except.bind, pure, Except.pure] at h; exact h.symm
        subst e
        simp only [List.lookup_cons] at ha ⊢
        by_cases hn : n = m
        · subst hn
          simp only [beq_self_eq_true, Option.some.injEq] at ha ⊢
          subst ha
          exact ⟨b, hf, rfl⟩
        · simp only [beq_false_of_ne hn] at ha ⊢
          exact ih r' hr ha

theorem mapM_ok_iff {A B : Type} (f : A → Except Unit B) (l : List A) :
    (∃ r, l.mapM f = .ok r) ↔ ∀ a ∈ l, ∃ b, f a = .ok b := by
  induction l with
  | nil => exact ⟨fun _ => by simp, fun _ => ⟨[], rfl⟩⟩
  | cons a l ih =>
    simp only [List.mapM_cons]
    cases hf : f a with
    | error e => simp [bind, Except.bind, hf]
    | ok b =>
      cases hr : l.mapM f with
      | error e =>
        rw [hr] at ih
        constructor
        · rintro ⟨r, h⟩; simp [bind, Except.bind] at h
        · intro h
          obtain ⟨r, h⟩ := ih.mpr fun a ha => h a (by simp [ha])
          simp at h
      | ok r =>
        constructor
        · intro _ x hx
          rcases List.mem_cons.mp hx with rfl | hx
          · exact ⟨b, hf⟩
          · exact ih.mp ⟨r, hr⟩ x hx
        · intro _; exact ⟨b :: r, rfl⟩

theorem mergeMachine_lookup (ln : String) (cfg : String → SecCfg T V) (sts : List (String × SecState T V))
    (n : String) (hn : n ≠ ln) (s : SecState T V) (hs : sts.lookup n = some s) (los : List (T × V)) :
    ((mergeMachine ln cfg sts).run los).map (fun r => r.lookup n) =
      ((secMachine (cfg n) s).run (los.map (·.1))).map some := by
  have key : ∀ (sts0 : List (String × SecState T V)) (s0 : SecState T V) (los : List (T × V))
      (sts : List (String × SecState T V)) (s : SecState T V), sts.lookup n = some s →
      ((mergeMachine ln cfg sts0).outsFrom sts los).map (fun r => r.lookup n) =
        ((secMachine (cfg n) s0).outsFrom s (los.map (·.1))).map some := by
    intro sts0 s0 los
    induction los with
    | nil => intros; rfl
    | cons lo los ih =>
      intro sts s hs
      have e1 : ((mergeStep ln cfg sts lo).1).lookup n = some (secStep (cfg n) s lo.1).1 := by
        have := lookup_map_snd sts (fun m st => if m = ln then Out.single (⟨some lo.1, lo.2⟩ : Obs T V)
          else (secStep (cfg m) st lo.1).1) n
        rw [hs] at this
        simp only [hn, if_false, Option.map_some] at this
        rw [← this]
        simp only [mergeStep, List.map_map]
        congr 1
        apply List.map_congr_left
        intro ns _
        simp only [Function.comp]
        split <;> rfl
      have e2 : ((mergeStep ln cfg sts lo).2).lookup n = some (secStep (cfg n) s lo.1).2 := by
        have := lookup_map_snd sts (fun m st => if m = ln then st else (secStep (cfg m) st lo.1).2) n
        rw [hs] at this
        simp only [hn, if_false, Option.map_some] at this
        rw [← this]
        simp only [mergeStep, List.map_map]
        congr 1
        apply List.map_congr_left
        intro ns _
        simp only [Function.comp]
        split <;> rfl
      have h := ih (mergeStep ln cfg sts lo).2 _ e2
      simp only [Mealy.outsFrom_cons, List.map_cons]
      simp only [mergeMachine, secMachine] at h ⊢
      rw [h, e1]
  exact key sts s los sts s hs

theorem mergeMachine_local (ln : String) (cfg : String → SecCfg T V) (sts : List (String × SecState T V))
    (hs : ∃ s, sts.lookup ln = some s) (los : List (T × V)) :
    ((mergeMachine ln cfg sts).run los).map (fun r => r.lookup ln) =
      los.map fun p => some (Out.single (obsOf p)) := by
  have key : ∀ (sts0 : List (String × SecState T V)) (los : List (T × V)) (sts : List (String × SecState T V)),
      (∃ s, sts.lookup ln = some s) →
      ((mergeMachine ln cfg sts0).outsFrom sts los).map (fun r => r.lookup ln) =
        los.map fun p => some (Out.single (obsOf p)) := by
    intro sts0 los
    induction los with
    | nil => intros; rfl
    | cons lo los ih =>
      rintro sts ⟨s, hs⟩
      have e1 : ((mergeStep ln cfg sts lo).1).lookup ln = some (Out.single (obsOf lo)) := by
        have := lookup_map_snd sts (fun m st => if m = ln then Out.single (⟨some lo.1, lo.2⟩ : Obs T V)
          else (secStep (cfg m) st lo.1).1) ln
        rw [hs] at this
        simp only [if_true, Option.map_some] at this
        rw [obsOf, ← this]
        simp only [mergeStep, List.map_map]
        congr 1
        apply List.map_congr_left
        intro ns _
        simp only [Function.comp]
        split <;> rfl
      have e2 : ((mergeStep ln cfg sts lo).2).lookup ln = some s := by
        have := lookup_map_snd sts (fun m st => if m = ln then st else (secStep (cfg m) st lo.1).2) ln
        rw [hs] at this
        simp only [if_true, Option.map_some] at this
        rw [← this]
        simp only [mergeStep, List.map_map]
        congr 1
        apply List.map_congr_left
        intro ns _
        simp only [Function.comp]
        split <;> rfl
      have h := ih (mergeStep ln cfg sts lo).2 ⟨_, e2⟩
      simp only [Mealy.outsFrom_cons, List.map_cons]
      simp only [mergeMachine] at h ⊢
      rw [h, e1]
  exact key sts los sts hs

/-- Initialisation of one dataset's stream. -/
def startSec (c : SecCfg T V) (data : List (T × V)) : Except Unit (SecState T V) :=
  (startStream (data.map obsOf)).bind (secInit c)

/-- `merge`, name by name. -/
theorem merge_ok (lt : String) (cfg : String → SecCfg T V) (datasets : List (String × List (T × V)))
    (recs : List (List (String × Out T V))) (h : merge lt cfg datasets = .ok recs) :
    ∃ ln locals, getLocalTime lt (datasets.map (·.1)) = .ok ln ∧ datasets.lookup ln = some locals ∧
      recs.length = locals.length ∧
      recs.map (fun r => r.lookup ln) = locals.map (fun p => some (Out.single (obsOf p))) ∧
      ∀ n data, datasets.lookup n = some data → ∃ s, startSec (cfg n) data = .ok s ∧
        (n ≠ ln → recs.map (fun r => r.lookup n) = ((secMachine (cfg n) s).run (locals.map (·.1))).map some) := by
  unfold merge at h
  have hf : (fun nd : String × List (T × V) => do
      let gen ← startStream (nd.2.map fun p => (⟨some p.1, p.2⟩ : Obs T V))
      let s ← secInit (cfg nd.1) gen
      Except.ok (nd.1, s)) = (fun nd => do
      let b ← startSec (cfg nd.1) nd.2
      Except.ok (nd.1, b)) := by
    funext nd
    simp only [startSec, bind, Except.bind]
    have : (nd.2.map fun p => (⟨some p.1, p.2⟩ : Obs T V)) = nd.2.map obsOf := rfl
    rw [this]
    cases startStream (nd.2.map obsOf) <;> rfl
  rw [hf] at h
  cases hsts : (datasets.mapM fun nd => do let b ← startSec (cfg nd.1) nd.2; Except.ok (nd.1, b)) with
  | error e =>
    simp only [bind, Except.bind] at hsts
    simp [hsts, bind, Except.bind] at h
  | ok sts =>
    have hsts' := hsts
    simp only [bind, Except.bind] at hsts'
    simp only [hsts', bind, Except.bind] at h
    cases hl : getLocalTime lt (datasets.map (·.1)) with
    | error e => simp [hl] at h
    | ok ln =>
      simp only [hl] at h
      cases hd : datasets.lookup ln with
      | none => simp [hd] at h
      | some locals =>
        simp only [hd, Except.ok.injEq] at h
        subst h
        have hall := mapM_lookup (fun n d => startSec (cfg n) d) datasets sts hsts
        refine ⟨ln, locals, rfl, hd, by simp, ?_, ?_⟩
        · obtain ⟨b, _, hb⟩ := hall ln locals hd
          exact mergeMachine_local ln cfg sts ⟨b, hb⟩ locals
        · intro n data hn
          obtain ⟨b, hb1, hb2⟩ := hall n data hn
          exact ⟨b, hb1, fun hne => mergeMachine_lookup ln cfg sts n hne b hb2 locals⟩

theorem startSec_ok (c : SecCfg T V) (data : List (T × V)) (s : SecState T V) (h : startSec c data = .ok s) :
    ∃ d rest, data = d :: rest ∧ c.maxlen ≠ some 0 ∧
      secInit c (obsOf d :: data.map obsOf) = .ok s := by
  cases data with
  | nil => simp [startSec, startStream, Except.bind] at h
  | cons d rest =>
    have h' : secInit c (obsOf d :: (d :: rest).map obsOf) = .ok s := by
      simpa [startSec, startStream, Except.bind] using h
    exact ⟨d, rest, rfl, (secInit_eq c _ s h').2.2, h'⟩

theorem startSec_iff (c : SecCfg T V) (data : List (T × V)) :
    (∃ s, startSec c data = .ok s) ↔ data ≠ [] ∧ c.maxlen ≠ some 0 := by
  constructor
  · rintro ⟨s, h⟩
    obtain ⟨d, rest, rfl, hm, _⟩ := startSec_ok c data s h
    exact ⟨by simp, hm⟩
  · rintro ⟨h1, h2⟩
    cases data with
    | nil => exact absurd rfl h1
    | cons d rest =>
      cases h : startSec c (d :: rest) with
      | ok s => exact ⟨s, rfl⟩
      | error e => simp [startSec, startStream, Except.bind, secInit, h2] at h

theorem before_obsOf (e : T) (p : T × V) : before e (obsOf p) = decide (p.1 < e) := rfl

/-- On a sorted dataset, delivered = seen. -/
theorem takeWhile_seen (data : List (T × V)) (hs : TimeSorted data) (e : T) :
    (data.map obsOf).takeWhile (before e) = (seen data e).map obsOf := by
  induction data with
  | nil => rfl
  | cons d data ih =>
    have hs' : TimeSorted data := by
      unfold TimeSorted at *; rw [List.map_cons, List.pairwise_cons] at hs; exact hs.2
    rw [List.map_cons, List.takeWhile_cons, before_obsOf, seen, List.filter_cons]
    by_cases h : d.1 < e
    · simp only [h, decide_true, if_true, ih hs', List.map_cons]
      rfl
    · simp only [h, decide_false, Bool.false_eq_true, if_false]
      have : data.filter (fun p => decide (p.1 < e)) = [] := by
        rw [List.filter_eq_nil_iff]
        intro p hp
        unfold TimeSorted at hs
        rw [List.map_cons, List.pairwise_cons] at hs
        have := hs.1 p.1 (List.mem_map_of_mem hp)
        simp only [decide_eq_true_eq, not_lt]
        exact le_trans (not_lt.mp h) this
      rw [this]; rfl

/-- The generator repeats the first observation. -/
def dup {α : Type} : List α → List α
  | [] => []
  | x :: xs => x :: x :: xs

theorem takeWhile_gen (d : T × V) (rest : List (T × V)) (hs : TimeSorted (d :: rest)) (e : T) :
    (obsOf d :: (d :: rest).map obsOf).takeWhile (before e) = (dup (seen (d :: rest) e)).map obsOf := by
  rw [List.takeWhile_cons, takeWhile_seen _ hs]
  by_cases h : d.1 < e
  · rw [if_pos (by rw [before_obsOf]; simpa using h)]
    simp [seen, h, dup]
  · rw [if_neg (by rw [before_obsOf]; simpa using h)]
    have hn : seen (d :: rest) e = [] := by
      rw [seen, List.filter_eq_nil_iff]
      intro p hp
      simp only [decide_eq_true_eq, not_lt]
      rcases List.mem_cons.mp hp with rfl | hp
      · exact not_lt.mp h
      · unfold TimeSorted at hs
        rw [List.map_cons, List.pairwise_cons] at hs
        exact le_trans (not_lt.mp h) (hs.1 p.1 (List.mem_map_of_mem hp))
    rw [hn]; rfl

theorem dup_length {α : Type} (l : List α) : (dup l).length = if l = [] then 0 else l.length + 1 := by
  cases l <;> simp [dup]

theorem dup_getLast? {α : Type} (l : List α) : (dup l).getLast? = l.getLast? := by
  cases l with
  | nil => rfl
  | cons a l => simp [dup]

/-- previous embedded local time, if any. -/
theorem seen_length_mono (data : List (T × V)) {e e' : T} (h : e ≤ e') :
    (seen data e).length ≤ (seen data e').length := by
  unfold seen
  induction data with
  | nil => simp
  | cons d data ih =>
    simp only [List.filter_cons]
    by_cases h1 : d.1 < e
    · have h2 : d.1 < e' := lt_of_lt_of_le h1 h
      simp [h1, h2]; exact ih
    · by_cases h2 : d.1 < e'
      · simp [h1, h2]; omega
      · simp [h1, h2]; exact ih

theorem seenPrev_eq (embed : T → T) (data locals : List (T × V)) (k : Nat) (hk : k ≤ locals.length) :
    seenPrev embed data locals k = ((locals.take k).getLast?.map fun p => seen data (embed p.1)).getD [] := by
  cases k with
  | zero => simp [seenPrev]
  | succ k =>
    have : (locals.take (k + 1)).getLast? = locals[k]? := by
      rw [List.getLast?_eq_getElem?, List.length_take, List.getElem?_take]
      have : min (k + 1) locals.length - 1 = k := by omega
      rw [this, if_pos (by omega)]
    rw [seenPrev, this]

/-- Output of `merge` for a secondary stream with sorted times, at step `k`. -/
theorem merge_out (lt : String) (cfg : String → SecCfg T V) (datasets : List (String × List (T × V)))
    (recs : List (List (String × Out T V))) (h : merge lt cfg datasets = .ok recs)
    (ln : String) (locals : List (T × V)) (hln : getLocalTime lt (datasets.map (·.1)) = .ok ln)
    (hloc : datasets.lookup ln = some locals)
    (n : String) (data : List (T × V)) (hn : datasets.lookup n = some data) (hne : n ≠ ln)
    (hs : TimeSorted data) (hclock : (locals.map fun p => (cfg n).embed p.1).Pairwise (· ≤ ·))
    (k : Nat) (t : T) (v : V) (hk : locals[k]? = some (t, v)) :
    ∃ r, recs[k]? = some r ∧ r.lookup n = some (
      let prev := seenPrev (cfg n).embed data locals k
      let now := seen data ((cfg n).embed t)
      if (cfg n).ffill = true ∨ prev.length < now.length then showOut (cfg n) ((dup now).map obsOf)
      else showOut (cfg n) []) := by
  obtain ⟨ln', locals', e1, e2, hlen, _, hall⟩ := merge_ok lt cfg datasets recs h
  rw [hln] at e1; cases e1
  rw [hloc] at e2; cases e2
  obtain ⟨s, hs0, hrun⟩ := hall n data hn
  have hrun := hrun hne
  obtain ⟨d, rest, rfl, hml, hinit⟩ := startSec_ok _ _ _ hs0
  have hk' : (locals.map (·.1))[k]? = some t := by simp [hk]
  have hm : ((locals.map (·.1)).map (cfg n).embed).Pairwise (· ≤ ·) := by
    rw [List.map_map]; exact hclock
  have hr := sec_run (cfg n) _ s hinit (locals.map (·.1)) hm k t hk'
  have hkl : k < recs.length := by
    rw [hlen]
    rcases Nat.lt_or_ge k locals.length with h | h
    · exact h
    · rw [List.getElem?_eq_none h] at hk; simp at hk
  refine ⟨recs[k], List.getElem?_eq_getElem hkl, ?_⟩
  have hget := congrArg (fun l => l[k]?) hrun
  simp only [List.getElem?_map, hr, List.getElem?_eq_getElem hkl, Option.map_some, Option.some.injEq] at hget
  rw [hget]
  congr 1
  rw [takeWhile_gen d rest hs]
  have hdel : delivered (cfg n) (obsOf d :: (d :: rest).map obsOf) ((locals.map (·.1)).take k) =
      (dup (seenPrev (cfg n).embed (d :: rest) locals k)).map obsOf := by
    rw [seenPrev_eq _ _ _ _ (by omega)]
    unfold delivered
    rw [← List.map_take, List.getLast?_map]
    cases (locals.take k).getLast? with
    | none => rfl
    | some p => exact takeWhile_gen d rest hs _
  rw [hdel]
  set prev := seenPrev (cfg n).embed (d :: rest) locals k with hprev
  set now := seen (d :: rest) ((cfg n).embed t) with hnow
  have hle : prev.length ≤ now.length := by
    rw [hprev, hnow, seenPrev_eq _ _ _ _ (by omega)]
    cases hl : (locals.take k).getLast? with
    | none => simp
    | some p =>
      apply seen_length_mono
      have hp : p ∈ locals.take k := List.mem_of_getLast? hl
      obtain ⟨j, hj, hpj⟩ := List.mem_iff_getElem.mp hp
      simp only [List.length_take] at hj
      have hjl : j < locals.length := by omega
      have hkl' : k < locals.length := by omega
      rw [List.getElem_take] at hpj
      have := List.pairwise_iff_getElem.mp hclock j k (by simpa using hjl) (by simpa using hkl') (by omega)
      rw [List.getElem_map, List.getElem_map] at this
      rw [List.getElem?_eq_getElem hkl'] at hk
      simp only [Option.some.injEq] at hk
      rw [hk, hpj] at this
      exact this
  have hiff : ((dup prev).map obsOf).length < ((dup now).map (obsOf (V := V))).length ↔ prev.length < now.length := by
    simp only [List.length_map, dup_length]
    cases prev <;> cases now <;> simp at hle ⊢
  simp only [hiff]

end Verif.Lemmas
