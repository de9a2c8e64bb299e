import Verif.Model.Windows
import Verif.Spec.Windows
import Mathlib.Data.List.Rotate
import Mathlib.Data.List.GetD

/-! # Helper lemmas for windows -/

set_option linter.unusedSectionVars false

namespace Verif
open Model Spec

theorem window_nil {α : Type} (n : Nat) (fill : α) : window n fill [] = List.replicate n fill := by
  simp [window]

@[simp] theorem window_length {α : Type} (n : Nat) (fill : α) (h : List α) :
    (window n fill h).length = n := by
  simp [window]; omega

/-- Recording one more value drops the oldest entry of the window and appends the value. -/
theorem window_snoc {α : Type} (n : Nat) (hn : 0 < n) (fill : α) (h : List α) (x : α) :
    window n fill (h ++ [x]) = (window n fill h).drop 1 ++ [x] := by
  unfold window
  by_cases hl : h.length < n
  · have e1 : h.length - n = 0 := by omega
    have e2 : (h ++ [x]).length - n = 0 := by simp; omega
    rw [e1, e2]
    obtain ⟨k, hk⟩ : ∃ k, n - h.length = k + 1 := ⟨n - h.length - 1, by omega⟩
    have e3 : n - (h ++ [x]).length = k := by simp; omega
    rw [hk, e3]
    simp [List.replicate_succ]
  · have e1 : n - h.length = 0 := by omega
    have e2 : n - (h ++ [x]).length = 0 := by simp; omega
    rw [e1, e2]
    have e3 : (h ++ [x]).length - n = (h.length - n) + 1 := by simp; omega
    rw [e3]
    simp only [List.replicate_zero, List.nil_append]
    rw [List.drop_append_of_le_length (by omega), List.drop_drop]

theorem bufferApply_window {α : Type} (n : Nat) (fill : α) (h : List α) (x : α) :
    bufferApply n x ⟨window n fill h, min h.length n, n - min h.length n⟩ =
      (window n fill (h ++ [x]),
        ⟨window n fill (h ++ [x]), min (h ++ [x]).length n, n - min (h ++ [x]).length n⟩) := by
  have hlen : min (min h.length n + 1) n = min (h ++ [x]).length n := by simp; omega
  have hb : ((window n fill h).drop 1 ++ (window n fill h).take 1).set
      (((window n fill h).drop 1 ++ (window n fill h).take 1).length - 1) x
      = window n fill (h ++ [x]) := by
    rcases Nat.eq_zero_or_pos n with rfl | hn
    · simp [window]
    · rw [window_snoc n hn]
      have hl : ((window n fill h).take 1).length = 1 := by simp; omega
      obtain ⟨a, ha⟩ := List.length_eq_one_iff.mp hl
      rw [ha]
      simp
  simp only [bufferApply, hb, hlen]

theorem buffer_stateAfter {α : Type} (n : Nat) (fill : α) (h : List α) :
    (buffer n fill).stateAfter h =
      ⟨window n fill h, min h.length n, n - min h.length n⟩ := by
  apply Mealy.stateAfter_eq _
    (fun h => (⟨window n fill h, min h.length n, n - min h.length n⟩ : BufState α))
  · simp [buffer, bufferInit, window_nil]
  · intro xs x
    simp only [buffer, bufferApply_window]

theorem window_getElem? {α : Type} (n : Nat) (fill : α) (h : List α) (i : Nat) (hi : i < n) :
    (window n fill h)[i]? =
      some (if i + h.length < n then fill else h.getD (i + h.length - n) fill) := by
  unfold window
  split
  · rename_i hlt
    rw [List.getElem?_append_left (by simp; omega)]
    rw [List.getElem?_replicate, if_pos (by omega)]
  · rename_i hge
    rw [List.getElem?_append_right (by simp; omega)]
    simp only [List.length_replicate, List.getElem?_drop]
    have : h.length - n + (i - (n - h.length)) = i + h.length - n := by omega
    rw [this, List.getElem?_eq_getElem (by omega), List.getD_eq_getElem _ _ (by omega)]

theorem window_ago {α : Type} (n : Nat) (fill : α) (h : List α) (i : Nat) (hi : i < n) :
    (window n fill h)[i]? = some (ago (n - 1 - i) fill h) := by
  rw [window_getElem? _ _ _ _ hi]
  congr 1
  unfold ago
  split
  · rw [List.getD_eq_default]; simp; omega
  · rw [List.getD_eq_getElem?_getD, List.getD_eq_getElem?_getD, List.getElem?_reverse (by omega)]
    congr 2; omega

/-! ### the circular buffer -/

theorem i32_id {x : Int} (h1 : -(2 ^ 31) ≤ x) (h2 : x < 2 ^ 31) : i32 x = x := by
  unfold i32; rw [Int.bmod_def]; omega

theorem emod_toNat (a m : Nat) : (((a : Int)) % (m : Int)).toNat = a % m := by
  rw [← Int.natCast_emod]; exact Int.toNat_natCast _

theorem filterMap_range_getElem? {α : Type} (r : List α) :
    ((List.range r.length).filterMap fun i => r[i]?) = r := by
  induction r using List.reverseRecOn with
  | nil => rfl
  | append_singleton r a ih =>
    simp only [List.length_append, List.length_singleton, List.range_succ, List.filterMap_append]
    have e1 : List.filterMap (fun i => (r ++ [a])[i]?) (List.range r.length)
        = List.filterMap (fun i => r[i]?) (List.range r.length) := by
      apply List.filterMap_congr
      intro i hi
      rw [List.getElem?_append_left (List.mem_range.mp hi)]
    rw [e1]
    simp [ih]

theorem ordered_eq_rotate {α : Type} (m : Nat) (hm : 0 < m) (hm2 : m ≤ 2 ^ 30) (l : List α)
    (hl : l.length = m) (idx : Int) :
    ((List.range m).filterMap fun (i : Nat) =>
      l[((i32 ((i : Int) + idx % (m : Int))) % (m : Int)).toNat]?)
      = l.rotate (idx % (m : Int)).toNat := by
  have hp : 0 ≤ idx % (m : Int) := Int.emod_nonneg _ (by omega)
  have hp2 : idx % (m : Int) < m := Int.emod_lt_of_pos _ (by omega)
  generalize hq : idx % (m : Int) = q at *
  obtain ⟨p, rfl⟩ := Int.eq_ofNat_of_zero_le hp
  have key : ∀ i ∈ List.range m,
      l[((i32 ((i : Int) + ((p : Nat) : Int))) % (m : Int)).toNat]? = (l.rotate p)[i]? := by
    intro i hi
    have hi' : i < m := List.mem_range.mp hi
    have : (i : Int) + (p : Int) < 2 ^ 31 := by omega
    rw [i32_id (by omega) this]
    have e : (((i : Int) + (p : Int)) % (m : Int)).toNat = (i + p) % m := by
      rw [← Int.natCast_add]; exact emod_toNat _ _
    rw [e, List.getElem?_rotate (by omega), hl]
  have : ((List.range m).filterMap fun (i : Nat) =>
      l[((i32 ((i : Int) + ((p : Nat) : Int))) % (m : Int)).toNat]?)
      = (List.range m).filterMap fun (i : Nat) => (l.rotate p)[i]? :=
    List.filterMap_congr key
  rw [this]
  have hr : (l.rotate p).length = m := by simp [hl]
  simp only [Int.toNat_natCast]
  have := filterMap_range_getElem? (l.rotate p)
  rwa [hr] at this

theorem rotate_set_succ {α : Type} (l : List α) (p : Nat) (hp : p < l.length) (x : α) :
    (l.set p x).rotate (p + 1) = (l.rotate p).drop 1 ++ [x] := by
  have h1 : (l.set p x).rotate (p + 1) = (l.set p x).drop (p + 1) ++ (l.set p x).take (p + 1) :=
    List.rotate_eq_drop_append_take (by simp; omega)
  rw [h1, List.rotate_eq_drop_append_take (by omega), List.drop_set_of_lt (by omega)]
  rw [List.drop_append_of_le_length (by simp; omega), List.drop_drop, List.append_assoc]
  congr 1
  rw [List.take_add_one, List.take_set_of_le (by omega)]
  simp [hp]

/-- Coupling invariant: rotating the physical buffer by the write position gives the window. -/
theorem circ_stateAfter {α : Type} (m : Nat) (hm : 0 < m) (hm2 : m ≤ 2 ^ 30) (fill : α)
    (h : List α) (hh : h.length < 2 ^ 31) :
    ∃ phys : List α, (circBuffer m fill).stateAfter h =
        ⟨phys, (min h.length m : Nat), (h.length : Int)⟩ ∧ phys.length = m ∧
        phys.rotate (h.length % m) = window m fill h := by
  induction h using List.reverseRecOn with
  | nil => exact ⟨List.replicate m fill, rfl, by simp, by simp [window_nil]⟩
  | append_singleton h x ih =>
    obtain ⟨phys, h1, h2, h3⟩ := ih (by simp at hh; omega)
    have hl : h.length + 1 < 2 ^ 31 := by simpa using hh
    rw [Mealy.stateAfter_append_singleton, h1]
    have hpos : h.length % m < m := Nat.mod_lt _ hm
    have e0 : (((h.length : Int) % (m : Int))).toNat = h.length % m := emod_toNat _ _
    refine ⟨phys.set (h.length % m) x, ?_, by simp [h2], ?_⟩
    · simp only [circBuffer, circStep, e0]
      rw [i32_id (x := (h.length : Int) + 1) (by omega) (by omega), i32_id (by omega) (by omega)]
      congr 1
      · simp; omega
      · simp
    · have hr := rotate_set_succ phys (h.length % m) (by omega) x
      rw [window_snoc m hm, ← h3, ← hr]
      have : (h ++ [x]).length = h.length + 1 := by simp
      rw [this, ← List.rotate_mod]
      simp only [List.length_set, h2]
      rw [← List.rotate_mod (phys.set _ x) (h.length % m + 1)]
      simp only [List.length_set, h2]
      congr 1
      simp [Nat.add_mod]

theorem circ_step_out {α : Type} (m : Nat) (hm : 0 < m) (hm2 : m ≤ 2 ^ 30) (fill : α)
    (h : List α) (x : α) (hh : h.length + 1 < 2 ^ 31) :
    ((circBuffer m fill).step ((circBuffer m fill).stateAfter h) x).1 =
      (window m fill (h ++ [x]), ((min (h.length + 1) m : Nat) : Int), ((h.length + 1 : Nat) : Int)) := by
  obtain ⟨phys, h1, h2, h3⟩ := circ_stateAfter m hm hm2 fill (h ++ [x]) (by simpa using hh)
  rw [Mealy.stateAfter_append_singleton] at h1
  generalize (circBuffer m fill).stateAfter h = s at *
  have hb : s.buffer.set (s.writeIdx % (m : Int)).toNat x = phys := congrArg CircState.buffer h1
  have hl : min (i32 (s.lenBuffer + 1)) (m : Int) = ((min (h ++ [x]).length m : Nat) : Int) :=
    congrArg CircState.lenBuffer h1
  have hi : i32 (s.writeIdx + 1) = (((h ++ [x]).length : Nat) : Int) :=
    congrArg CircState.writeIdx h1
  simp only [circBuffer, circStep, hb, hl, hi]
  rw [ordered_eq_rotate m hm hm2 phys h2]
  have e0 : ((((h ++ [x]).length : Nat) : Int) % (m : Int)).toNat = (h ++ [x]).length % m :=
    emod_toNat _ _
  rw [e0, h3]
  simp

theorem i32_succ (x : Int) : i32 (i32 x + 1) = i32 (x + 1) := by
  unfold i32; simp

theorem i32_emod (x : Int) (m : Nat) (hm : m ∣ 2 ^ 32) : i32 x % (m : Int) = x % (m : Int) := by
  unfold i32
  rw [Int.bmod_eq_emod]
  obtain ⟨k, hk⟩ := hm
  have e : ((2 ^ 32 : Nat) : Int) = (m : Int) * k := by rw [hk]; push_cast; rfl
  rw [Int.sub_emod]
  have h1 : ((if x % ((2 ^ 32 : Nat) : Int) ≥ (((2 ^ 32 : Nat) : Int) + 1) / 2 then 2 ^ 32 else 0 : Nat) : Int)
      % (m : Int) = 0 := by
    split
    · rw [e]; exact Int.mul_emod_right _ _
    · simp
  rw [h1, Int.sub_zero, Int.emod_emod_of_dvd _ (Int.dvd_refl _), Int.emod_emod_of_dvd]
  exact ⟨k, e⟩

attribute [local irreducible] i32

/-- The same coupling invariant for ever, when the buffer size divides `2^32`: the wrapped write index
keeps the right residue. -/
theorem circ_stateAfter_dvd {α : Type} (m : Nat) (hm : 0 < m) (hm2 : m ≤ 2 ^ 30) (hd : ∀ x : Int, i32 x % (m : Int) = x % (m : Int))
    (fill : α) (h : List α) :
    ∃ phys : List α, (circBuffer m fill).stateAfter h =
        ⟨phys, (min h.length m : Nat), i32 (h.length : Int)⟩ ∧ phys.length = m ∧
        phys.rotate (h.length % m) = window m fill h := by
  induction h using List.reverseRecOn with
  | nil => exact ⟨List.replicate m fill, by simp [Mealy.stateAfter, Mealy.stateFrom, circBuffer, i32_id], by simp, by simp [window_nil]⟩
  | append_singleton h x ih =>
    obtain ⟨phys, h1, h2, h3⟩ := ih
    rw [Mealy.stateAfter_append_singleton, h1]
    have hpos : h.length % m < m := Nat.mod_lt _ hm
    have e0 : ((i32 (h.length : Int) % (m : Int))).toNat = h.length % m := by
      rw [hd]; exact emod_toNat _ _
    refine ⟨phys.set (h.length % m) x, ?_, by simp [h2], ?_⟩
    · simp only [circBuffer, circStep, e0]
      rw [i32_succ, i32_id (x := ((min h.length m : Nat) : Int) + 1) (by omega) (by omega)]
      congr 1
      · simp; omega
      · simp
    · have hr := rotate_set_succ phys (h.length % m) (by omega) x
      rw [window_snoc m hm, ← h3, ← hr]
      have : (h ++ [x]).length = h.length + 1 := by simp
      rw [this, ← List.rotate_mod]
      simp only [List.length_set, h2]
      rw [← List.rotate_mod (phys.set _ x) (h.length % m + 1)]
      simp only [List.length_set, h2]
      congr 1
      simp [Nat.add_mod]

theorem circ_step_out_dvd {α : Type} (m : Nat) (hm : 0 < m) (hm2 : m ≤ 2 ^ 30) (hd : ∀ x : Int, i32 x % (m : Int) = x % (m : Int))
    (fill : α) (h : List α) (x : α) :
    ((circBuffer m fill).step ((circBuffer m fill).stateAfter h) x).1 =
      (window m fill (h ++ [x]), ((min (h.length + 1) m : Nat) : Int), i32 ((h.length + 1 : Nat) : Int)) := by
  obtain ⟨phys, h1, h2, h3⟩ := circ_stateAfter_dvd m hm hm2 hd fill (h ++ [x])
  rw [Mealy.stateAfter_append_singleton] at h1
  generalize (circBuffer m fill).stateAfter h = s at *
  have hb : s.buffer.set (s.writeIdx % (m : Int)).toNat x = phys := congrArg CircState.buffer h1
  have hl : min (i32 (s.lenBuffer + 1)) (m : Int) = ((min (h ++ [x]).length m : Nat) : Int) :=
    congrArg CircState.lenBuffer h1
  have hi : i32 (s.writeIdx + 1) = i32 (((h ++ [x]).length : Nat) : Int) :=
    congrArg CircState.writeIdx h1
  simp only [circBuffer, circStep, hb, hl, hi]
  rw [ordered_eq_rotate m hm hm2 phys h2]
  have e0 : (i32 (((h ++ [x]).length : Nat) : Int) % (m : Int)).toNat = (h ++ [x]).length % m := by
    rw [hd]; exact emod_toNat _ _
  rw [e0, h3]
  simp

/-! ### valid values -/

section
variable {K : Type} [Field K] [LinearOrder K]

theorem valid_append (a b : List (Fl K)) : valid (a ++ b) = valid a ++ valid b := by
  simp [valid]

theorem lastValid_snoc (h : List (Fl K)) (x : Fl K) :
    lastValid (h ++ [x]) = if x.isNan then lastValid h else x := by
  unfold lastValid
  rw [valid_append]
  cases hx : x.isNan <;> simp [valid, hx]

theorem ffill_stateAfter (h : List (Fl K)) : (ffill (K := K)).stateAfter h = lastValid h := by
  apply Mealy.stateAfter_eq _ lastValid
  · rfl
  · intro xs x; simp [ffill, lastValid_snoc]

end
end Verif
