import Verif.Props.Encode

/-! # C204: dates of other units through the encoders

The encoders work on int64 nanoseconds.  Dates in other units (`datetime.datetime` has microseconds) are converted first, and the conversion wraps silently. -/

namespace Verif.Props
open Verif Model Spec

theorem wrap64_shift (x : Int) : (∃ j, wrap64 x = x + 2 ^ 64 * j) ∧ -(2 ^ 63) ≤ wrap64 x ∧ wrap64 x < 2 ^ 63 := by
  unfold wrap64
  refine ⟨⟨-Int.bdiv x (2 ^ 64), ?_⟩, ?_, ?_⟩
  · have := Int.bmod_add_bdiv x (2 ^ 64)
    omega
  · have := Int.le_bmod (x := x) (m := 2 ^ 64) (by decide)
    omega
  · have := Int.bmod_lt (x := x) (m := 2 ^ 64) (by decide)
    omega

theorem toNs_range (k n : Int) : -(2 ^ 63) ≤ toNs k n ∧ toNs k n < 2 ^ 63 := by
  unfold toNs natInt
  split
  · decide
  · exact (wrap64_shift _).2

/-- **C204**, what holds: a date in a unit of `k` nanoseconds is always encoded without error, and decoding gives the same instant exactly when its count of
nanoseconds is in the range of int64.  What is missing of C204: the other dates do not round-trip, they are silently replaced by others. -/
theorem C204_units_partial (k n : Int) (hn : n ≠ -(2 ^ 63)) :
    ∃ c, encodeDatetime64Unit k n = .ok c ∧ (decodeInt64 c = n * k ↔ -(2 ^ 63) ≤ n * k ∧ n * k < 2 ^ 63) := by
  obtain ⟨h1, h2⟩ := toNs_range k n
  obtain ⟨c, hc, hd⟩ := C27_int64_roundtrip (toNs k n) h1 h2
  refine ⟨c, hc, ?_⟩
  have e : toNs k n = wrap64 (n * k) := if_neg hn
  rw [hd]
  constructor
  · intro h; rw [h] at h1 h2; exact ⟨h1, h2⟩
  · rintro ⟨a, b⟩; rw [e, wrap64_of_range _ a b]

/-- NaT round-trips in every unit. -/
theorem C204_nat (k : Int) : ∃ c, encodeDatetime64Unit k (-(2 ^ 63)) = .ok c ∧ decodeInt64 c = -(2 ^ 63) ∧ decodeDatetime c = none := by
  obtain ⟨c, hc, hd⟩ := C27_int64_roundtrip (-(2 ^ 63)) (by decide) (by decide)
  exact ⟨c, hc, hd, if_pos hd⟩

/-- **C204** for `datetime.datetime`: every date is encoded without error, and `decode_datetime` gives it back exactly when it is within int64 nanoseconds of the epoch
(from September 1677 to April 2262); any other date is decoded, without error, as another date. -/
theorem C204_datetime_partial (us : Int) (hr : -(2 ^ 63) < us ∧ us < 2 ^ 63) :
    ∃ c, encodeDatetime us = .ok c ∧ (decodeDatetime c = some us ↔ -(2 ^ 63) ≤ us * 1000 ∧ us * 1000 < 2 ^ 63) := by
  obtain ⟨h1, h2⟩ := toNs_range 1000 us
  obtain ⟨c, hc, hd⟩ := C27_int64_roundtrip (toNs 1000 us) h1 h2
  refine ⟨c, hc, ?_⟩
  have e : toNs 1000 us = wrap64 (us * 1000) := if_neg (by unfold natInt; omega)
  obtain ⟨⟨j, hj⟩, w1, w2⟩ := wrap64_shift (us * 1000)
  unfold decodeDatetime
  rw [hd, e]
  constructor
  · intro h
    split at h
    · cases h
    · simp only [Option.some.injEq] at h
      have hj0 : j = 0 := by omega
      subst hj0
      omega
  · rintro ⟨a, b⟩
    rw [wrap64_of_range _ a b, if_neg (by unfold natInt; omega)]
    congr 1
    omega

/-- New Year 2500 is decoded as 14 June 1915 at 00:25:26.290448. -/
theorem C204_far_date_wrong : ∃ c, encodeDatetime 16725225600000000 = .ok c ∧ decodeDatetime c = some (-1721518473709552) := by
  exact ⟨_, rfl, by decide⟩

/-- `floor_datetime` of a date in any unit, as long as it is in range and not in the first incomplete day: the midnight before. -/
theorem C204_floor_units (k n : Int) (hn : n ≠ -(2 ^ 63)) (h1 : minDay ≤ n * k) (h2 : n * k < 2 ^ 63) :
    floorDatetimeUnit "d" k n = .ok (midnight (n * k)) := by
  have e : toNs k n = n * k := by
    rw [toNs, if_neg (show ¬ n = natInt from hn)]
    exact wrap64_of_range _ (by simp only [minDay, nsPerDay] at h1; omega) h2
  rw [floorDatetimeUnit, e, floorDatetime, if_pos rfl, floor_range _ h1 h2]
  rfl

theorem mapM_encode (k : Int) (l : List Int) (h : ∀ n ∈ l, n ≠ -(2 ^ 63) ∧ -(2 ^ 63) ≤ n * k ∧ n * k < 2 ^ 63) :
    ∃ cs, l.mapM (encodeDatetime64Unit k) = .ok cs ∧ cs.length = l.length ∧ cs.map decodeInt64 = l.map (· * k) := by
  induction l with
  | nil => exact ⟨[], rfl, rfl, rfl⟩
  | cons n l ih =>
    obtain ⟨cs, c1, c2, c3⟩ := ih (fun m hm => h m (by simp [hm]))
    obtain ⟨hn, a, b⟩ := h n (by simp)
    obtain ⟨c, hc, hd⟩ := C204_units_partial k n hn
    refine ⟨c :: cs, ?_, by simp [c2], by simp [c3, hd.mpr ⟨a, b⟩]⟩
    rw [List.mapM_cons, hc, c1]
    rfl

/-- **C204** for arrays: `datetime64_encoder` encodes a non-empty one-dimensional array of dates in range, in any unit, and decoding gives the same instants
in the same order; it refuses every other shape. -/
theorem C204_datetime64_encoder (k : Int) (v : LabelArr Int) (hwf : v.WF) :
    (∀ m, v.shape = [m + 1] → (∀ n ∈ v.flat, n ≠ -(2 ^ 63) ∧ -(2 ^ 63) ≤ n * k ∧ n * k < 2 ^ 63) →
      ∃ cs, datetimesEncode k v = .ok cs ∧ datetimesDecode cs = .ok ⟨v.shape, v.flat.map (· * k)⟩) ∧
    ((¬ ∃ m, v.shape = [m + 1]) → ∃ e, datetimesEncode k v = .error e) := by
  obtain ⟨shape, flat⟩ := v
  constructor
  · rintro m hm h
    simp only at hm h
    subst hm
    obtain ⟨cs, c1, c2, c3⟩ := mapM_encode k flat h
    have hl : flat.length = m + 1 := by simpa [LabelArr.WF] using hwf
    refine ⟨cs, c1, ?_⟩
    rw [datetimesDecode, if_neg (by intro h0; rw [h0] at c2; simp [hl] at c2), c2, c3, hl]
  · intro h
    match shape, h with
    | [], _ => exact ⟨_, rfl⟩
    | 0 :: _, _ => exact ⟨_, rfl⟩
    | [m + 1], h => exact absurd ⟨m, rfl⟩ h
    | (m + 1) :: a :: b, _ => exact ⟨_, rfl⟩

/-- Two days, in units of days. -/
example : ∃ cs, datetimesEncode 86400000000000 ⟨[2], [18262, 0]⟩ = .ok cs ∧
    datetimesDecode cs = .ok ⟨[2], [1577836800000000000, 0]⟩ := ⟨_, rfl, by decide⟩

example : floorDatetimeUnit "d" 3600000000000 438311 = .ok 1577836800000000000 := by decide

end Verif.Props
