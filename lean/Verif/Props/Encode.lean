import Verif.Model.Encode
import Verif.Spec.Time
import Mathlib.Tactic.Linarith

/-! # Properties C27–C30: encodings -/

namespace Verif.Props
open Model Spec

/-! ## C27 -/

theorem encodeBits_fst (s : BitVec 64) : (encodeBits s).1.toNat = s.toNat / 2 ^ 32 := by
  have h := s.isLt
  have e : (encodeBits s).1 = (s >>> 32).setWidth 32 := by
    apply BitVec.eq_of_getLsbD_eq
    intro i hi
    simp only [encodeBits, BitVec.getLsbD_setWidth, BitVec.getLsbD_and, BitVec.getLsbD_sshiftRight,
      BitVec.getLsbD_ushiftRight]
    have : (0xFFFFFFFF#64).getLsbD i = true := by
      have : (0xFFFFFFFF#64) = (BitVec.allOnes 32).setWidth 64 := by decide
      rw [this, BitVec.getLsbD_setWidth, BitVec.getLsbD_allOnes]; simp; omega
    rw [this]
    have h2 : 32 + i < 64 := by omega
    have h3 : ¬ 64 ≤ i := by omega
    simp [h2, h3, hi]
  rw [e, BitVec.toNat_setWidth, BitVec.toNat_ushiftRight, Nat.shiftRight_eq_div_pow]
  omega

theorem encodeBits_snd (s : BitVec 64) : (encodeBits s).2.toNat = s.toNat % 2 ^ 32 := by
  have e : (encodeBits s).2 = s.setWidth 32 := by
    apply BitVec.eq_of_getLsbD_eq
    intro i hi
    simp only [encodeBits, BitVec.getLsbD_setWidth, BitVec.getLsbD_and]
    have : (0xFFFFFFFF#64).getLsbD i = true := by
      have : (0xFFFFFFFF#64) = (BitVec.allOnes 32).setWidth 64 := by decide
      rw [this, BitVec.getLsbD_setWidth, BitVec.getLsbD_allOnes]; simp; omega
    rw [this]; simp
  rw [e, BitVec.toNat_setWidth]

theorem decode_bits (c : BitVec 32 × BitVec 32) :
    ((c.1.setWidth 64 <<< 32) + c.2.setWidth 64 : BitVec 64).toNat = c.1.toNat * 2 ^ 32 + c.2.toNat := by
  have h1 := c.1.isLt
  have h2 := c.2.isLt
  rw [BitVec.toNat_add, BitVec.toNat_shiftLeft, BitVec.toNat_setWidth, BitVec.toNat_setWidth, Nat.shiftLeft_eq]
  omega

theorem decodeInt64_eq (c : BitVec 32 × BitVec 32) : decodeInt64 c =
    if c.1.toNat < 2 ^ 31 then (c.1.toNat * 2 ^ 32 + c.2.toNat : Int)
    else (c.1.toNat * 2 ^ 32 + c.2.toNat : Int) - 2 ^ 64 := by
  have h1 := c.1.isLt
  have h2 := c.2.isLt
  rw [decodeInt64, BitVec.toInt_eq_toNat_cond, decode_bits]
  split <;> split <;> omega

theorem decode_encodeBits (s : BitVec 64) : decodeInt64 (encodeBits s) = s.toInt := by
  rw [decodeInt64]
  congr 1
  apply BitVec.eq_of_toNat_eq
  rw [decode_bits, encodeBits_fst, encodeBits_snd]
  omega

/-- C27: every int64 (negative included) is encoded without error, and decoding gives it back. -/
theorem C27_int64_roundtrip (n : Int) (h1 : -(2 ^ 63) ≤ n) (h2 : n < 2 ^ 63) :
    ∃ c, encodeInt64 (.int n) = .ok c ∧ decodeInt64 c = n := by
  refine ⟨_, if_pos ⟨h1, h2⟩, ?_⟩
  rw [decode_encodeBits, BitVec.toInt_ofInt]
  apply Int.bmod_eq_of_le <;> omega

/-- C27: int64 is the exact domain: anything else is rejected (OverflowError for larger integers, TypeError for
non-integers and arrays). -/
theorem C27_int64_domain (s : Seed) :
    (∃ c, encodeInt64 s = .ok c) ↔ ∃ n : Int, s = .int n ∧ -(2 ^ 63) ≤ n ∧ n < 2 ^ 63 := by
  cases s with
  | int n =>
    simp only [encodeInt64]
    split
    · rename_i h; exact ⟨fun _ => ⟨n, rfl, h⟩, fun _ => ⟨_, rfl⟩⟩
    · rename_i h
      constructor
      · rintro ⟨c, hc⟩; simp at hc
      · rintro ⟨m, hm, hh⟩; simp at hm; subst hm; exact absurd hh h
  | otherScalar => simp [encodeInt64]
  | shaped => simp [encodeInt64]

/-- C27: two's complement value of the pair: a code is the high and low 32 bits of the integer, as unsigned numbers. -/
theorem C27_int64_halves (n : Int) (h1 : -(2 ^ 63) ≤ n) (h2 : n < 2 ^ 63) :
    ∃ c, encodeInt64 (.int n) = .ok c ∧ (c.1.toNat : Int) = (n / 2 ^ 32) % 2 ^ 32 ∧ (c.2.toNat : Int) = n % 2 ^ 32 := by
  obtain ⟨c, hc, hd⟩ := C27_int64_roundtrip n h1 h2
  refine ⟨c, hc, ?_⟩
  rw [decodeInt64_eq] at hd
  have := c.1.isLt
  have := c.2.isLt
  split at hd <;> omega

/-- C27: encoding is injective. -/
theorem C27_int64_injective (n m : Int) (c : BitVec 32 × BitVec 32) (hn : encodeInt64 (.int n) = .ok c)
    (hm : encodeInt64 (.int m) = .ok c) : n = m := by
  have key : ∀ k, encodeInt64 (.int k) = .ok c → decodeInt64 c = k := by
    intro k hk
    obtain ⟨j, hj, a, b⟩ := (C27_int64_domain (.int k)).mp ⟨_, hk⟩
    cases hj
    obtain ⟨c', hc', hd⟩ := C27_int64_roundtrip k a b
    rw [hk] at hc'; cases hc'; exact hd
  rw [← key n hn, ← key m hm]

/-- C27: every pair of uint32 is the code of the int64 it decodes to. -/
theorem C27_int64_surjective (c : BitVec 32 × BitVec 32) : encodeInt64 (.int (decodeInt64 c)) = .ok c := by
  have h := decodeInt64_eq c
  have h1 := c.1.isLt
  have h2 := c.2.isLt
  have a : -(2 ^ 63) ≤ decodeInt64 c ∧ decodeInt64 c < 2 ^ 63 := by rw [h]; split <;> omega
  obtain ⟨c', hc', e1, e2⟩ := C27_int64_halves _ a.1 a.2
  rw [hc']
  congr 1
  rw [h] at e1 e2
  apply Prod.ext <;> apply BitVec.eq_of_toNat_eq
  · split at e1 <;> omega
  · split at e2 <;> omega

/-- C27: dates (int64 nanoseconds, NaT included) round-trip. -/
theorem C27_datetime64_roundtrip (ns : BitVec 64) : decodeDatetime64 (encodeDatetime64 ns) = ns := by
  rw [decodeDatetime64, encodeDatetime64, decode_encodeBits, BitVec.ofInt_toInt]

example : encodeInt64 (.int (-1)) = .ok (0xFFFFFFFF#32, 0xFFFFFFFF#32) := by decide
example : decodeInt64 (0xFFFFFFFF#32, 0xFFFFFFFF#32) = -1 := by decide

/-! ## C28 -/

/-- C28, the part that holds: on two int64 of the same sign (two dates on the same side of 1970, say) `less` compares
like `<`. -/
theorem C28_less_same_sign_partial (a b : Int) (ca cb : BitVec 32 × BitVec 32)
    (ha : encodeInt64 (.int a) = .ok ca) (hb : encodeInt64 (.int b) = .ok cb) (h : 0 ≤ a ↔ 0 ≤ b) :
    less ca cb = true ↔ a < b := by
  obtain ⟨_, e, a1, a2⟩ := (C27_int64_domain _).mp ⟨_, ha⟩
  cases e
  obtain ⟨_, e, b1, b2⟩ := (C27_int64_domain _).mp ⟨_, hb⟩
  cases e
  obtain ⟨c, hc, x1, x2⟩ := C27_int64_halves a a1 a2
  rw [ha] at hc; cases hc
  obtain ⟨c, hc, y1, y2⟩ := C27_int64_halves b b1 b2
  rw [hb] at hc; cases hc
  unfold less
  split
  · simp; omega
  · split
    · simp; omega
    · split <;> simp <;> omega

/-- C28, where it fails: across zero (1970 for dates) `less` answers exactly the opposite of `<`. -/
theorem C28_less_mixed_sign_wrong (a b : Int) (ca cb : BitVec 32 × BitVec 32)
    (ha : encodeInt64 (.int a) = .ok ca) (hb : encodeInt64 (.int b) = .ok cb) (h : ¬(0 ≤ a ↔ 0 ≤ b)) :
    less ca cb = true ↔ b < a := by
  obtain ⟨_, e, a1, a2⟩ := (C27_int64_domain _).mp ⟨_, ha⟩
  cases e
  obtain ⟨_, e, b1, b2⟩ := (C27_int64_domain _).mp ⟨_, hb⟩
  cases e
  obtain ⟨c, hc, x1, x2⟩ := C27_int64_halves a a1 a2
  rw [ha] at hc; cases hc
  obtain ⟨c, hc, y1, y2⟩ := C27_int64_halves b b1 b2
  rw [hb] at hc; cases hc
  unfold less
  split
  · simp; omega
  · split
    · simp; omega
    · split <;> simp <;> omega

/-- C28: whatever the signs, `less` is a strict total order on codes. -/
theorem C28_less_strict_total (x y z : BitVec 32 × BitVec 32) :
    less x x = false ∧ (less x y = true → less y z = true → less x z = true) ∧
      (x ≠ y → (less x y = true ∨ less y x = true)) := by
  have key : ∀ u v : BitVec 32 × BitVec 32, less u v = true ↔
      u.1.toNat < v.1.toNat ∨ (u.1.toNat = v.1.toNat ∧ u.2.toNat < v.2.toNat) := by
    intro u v
    unfold less
    split
    · simp; omega
    · split
      · simp; omega
      · split <;> simp <;> omega
  refine ⟨?_, ?_, ?_⟩
  · rw [Bool.eq_false_iff, ne_eq, key]; omega
  · rw [key, key, key]; omega
  · intro hne
    rw [key, key]
    by_cases h1 : x.1.toNat = y.1.toNat
    · by_cases h2 : x.2.toNat = y.2.toNat
      · exact absurd (Prod.ext (BitVec.eq_of_toNat_eq h1) (BitVec.eq_of_toNat_eq h2)) hne
      · omega
    · omega

example : less (encodeBits (BitVec.ofInt 64 (-1))) (encodeBits (BitVec.ofInt 64 0)) = false := by decide
example : less (encodeBits (BitVec.ofInt 64 5)) (encodeBits (BitVec.ofInt 64 (2 ^ 33))) = true := by decide

/-! ## C29 -/

/-- The first midnight representable in int64 nanoseconds. -/
def minDay : Int := -106751 * nsPerDay

theorem wrap64_of_range (x : Int) (h1 : -(2 ^ 63) ≤ x) (h2 : x < 2 ^ 63) : wrap64 x = x := by
  unfold wrap64
  apply Int.bmod_eq_of_le <;> omega

theorem floor_range (t : Int) (h1 : minDay ≤ t) (h2 : t < 2 ^ 63) :
    wrap64 (t / dayNs * dayNs) = t / dayNs * dayNs := by
  apply wrap64_of_range <;> simp only [minDay, dayNs, nsPerDay] at * <;> omega

/-- C29: for every int64 time from the first representable midnight on, the result is the greatest multiple of a day that
is `≤` the argument. -/
theorem C29_floor_greatest (t : Int) (h1 : minDay ≤ t) (h2 : t < 2 ^ 63) :
    ∃ f, floorDatetime "d" t = .ok f ∧ nsPerDay ∣ f ∧ f ≤ t ∧ ∀ g, nsPerDay ∣ g → g ≤ t → g ≤ f := by
  refine ⟨t / dayNs * dayNs, ?_, ⟨t / dayNs, by simp only [dayNs, nsPerDay]; omega⟩, ?_, ?_⟩
  · simp [floorDatetime, floor_range t h1 h2]
  · simp only [dayNs, nsPerDay]; omega
  · rintro g ⟨k, rfl⟩ hg
    simp only [dayNs, nsPerDay] at *; omega

/-- C29: hence idempotent, monotone, and less than a day below the argument. -/
theorem C29_floor_idempotent_monotone (t u : Int) (h1 : minDay ≤ t) (h2 : t ≤ u) (h3 : u < 2 ^ 63) :
    ∃ f g, floorDatetime "d" t = .ok f ∧ floorDatetime "d" u = .ok g ∧ floorDatetime "d" f = .ok f ∧ f ≤ g ∧
      f ≤ t ∧ t < f + nsPerDay := by
  refine ⟨t / dayNs * dayNs, u / dayNs * dayNs, ?_, ?_, ?_, ?_, ?_, ?_⟩
  · simp [floorDatetime, floor_range t h1 (by omega)]
  · simp [floorDatetime, floor_range u (by omega) h3]
  · rw [floorDatetime, if_pos rfl, floor_range]
    · congr 1; simp only [dayNs, nsPerDay]; omega
    · simp only [minDay, dayNs, nsPerDay] at *; omega
    · simp only [dayNs, nsPerDay]; omega
  all_goals simp only [dayNs, nsPerDay]; omega

/-- C29: other frequencies are refused. -/
theorem C29_floor_freq (freq : String) (t : Int) : (∃ f, floorDatetime freq t = .ok f) ↔ freq = "d" := by
  unfold floorDatetime
  split <;> simp_all

/-- C29: flooring a datekey is flooring the date it encodes. -/
theorem C29_floor_datekey (t : Int) (h1 : minDay ≤ t) (h2 : t < 2 ^ 63) (c : BitVec 32 × BitVec 32)
    (hc : encodeInt64 (.int t) = .ok c) :
    ∃ c', floorJaxDatekey c = .ok c' ∧ floorDatetime "d" t = .ok (decodeInt64 c') := by
  have hmin : -(2 ^ 63) ≤ t := by simp only [minDay, dayNs, nsPerDay] at h1; omega
  obtain ⟨c0, h0, hd⟩ := C27_int64_roundtrip t hmin h2
  rw [hc] at h0; cases h0
  have hr := floor_range t h1 h2
  obtain ⟨c', hc', hd'⟩ := C27_int64_roundtrip (t / dayNs * dayNs)
    (by simp only [minDay, dayNs, nsPerDay] at *; omega) (by simp only [dayNs, nsPerDay]; omega)
  refine ⟨c', ?_, ?_⟩
  · simp only [floorJaxDatekey, hd, hr, hc']
  · simp only [floorDatetime, if_true, hr, hd']

/-- C29, the excluded times: in the part of int64 below the first representable midnight (less than one day, NaT =
`-2^63` included) the product wraps and the "floor" lies *after* the argument. -/
theorem C29_floor_wraps (t : Int) (h1 : -(2 ^ 63) ≤ t) (h2 : t < minDay) :
    ∃ f, floorDatetime "d" t = .ok f ∧ t < f := by
  refine ⟨_, by simp [floorDatetime]; rfl, ?_⟩
  have : t / dayNs * dayNs = -106752 * dayNs := by simp only [minDay, dayNs, nsPerDay] at *; omega
  rw [this]
  have : wrap64 (-106752 * dayNs) = -106752 * dayNs + 2 ^ 64 := by decide
  rw [this]
  simp only [minDay, dayNs, nsPerDay] at *; omega

example : minDay ≤ 1234567890123456789 ∧ (1234567890123456789 : Int) < 2 ^ 63 := by decide
example : floorDatetime "d" 1234567890123456789 = .ok 1234483200000000000 := by decide

/-! ## C30 -/

section
variable {α : Type} [LinearOrder α]

theorem mem_classes (vs : List α) (x : α) : x ∈ classes vs ↔ x ∈ vs := by simp [classes]

theorem classes_nodup (vs : List α) : (classes vs).Nodup :=
  (List.perm_insertionSort _ _).nodup_iff.mpr (List.nodup_dedup _)

theorem classes_sorted (vs : List α) : (classes vs).Pairwise (· < ·) := by
  have h1 : (classes vs).Pairwise (· ≤ ·) := List.pairwise_insertionSort _ _
  exact (h1.and (classes_nodup vs)).imp fun h => lt_of_le_of_ne h.1 h.2

theorem leTransform_ok (cs v : List α) (h : ∀ x ∈ v, x ∈ cs) :
    leTransform cs v = .ok (v.map fun x => cs.idxOf x) := by
  induction v with
  | nil => rfl
  | cons x v ih =>
    have := ih (fun y hy => h y (by simp [hy]))
    simp only [leTransform] at this
    simp only [leTransform, List.mapM_cons, this]
    simp [h x (by simp)]
    rfl

theorem leInverse_idx (cs v : List α) (h : ∀ x ∈ v, x ∈ cs) :
    leInverse cs (v.map fun x => cs.idxOf x) = .ok v := by
  induction v with
  | nil => rfl
  | cons x v ih =>
    have := ih (fun y hy => h y (by simp [hy]))
    simp only [leInverse] at this
    have hx : cs[cs.idxOf x]? = some x := by
      have hl := List.idxOf_lt_length_of_mem (h x (by simp))
      rw [List.getElem?_eq_getElem hl, List.getElem_idxOf hl]
    simp only [leInverse, List.map_cons, List.mapM_cons, this, hx]
    rfl

/-- C30: decoding the codes of an array gives back the array, shape included, for every array of labels with at least
one dimension; and the codes are smaller than the number of distinct labels. -/
theorem C30_string_roundtrip (a : LabelArr α) (hwf : a.WF) (hd : 1 ≤ a.shape.length) :
    ∃ codes, stringEncode a a = .ok codes ∧ stringDecode a codes = .ok a ∧
      codes.length = a.flat.length ∧ ∀ k ∈ codes, k < a.flat.toFinset.card := by
  have hall : ∀ x ∈ a.flat, x ∈ classes a.flat := fun x hx => (mem_classes _ _).mpr hx
  refine ⟨a.flat.map fun x => (classes a.flat).idxOf x, ?_, ?_, by simp, ?_⟩
  · unfold stringEncode
    split
    · exact leTransform_ok _ _ hall
    · rw [if_pos (by omega)]; exact leTransform_ok _ _ hall
  · unfold stringDecode
    rw [leInverse_idx _ _ hall]
    simp only [bind, Except.bind]
    split
    · exact if_pos hwf
    · have hs : a.shape.length = 1 := by omega
      obtain ⟨n, hn⟩ := List.length_eq_one_iff.mp hs
      obtain ⟨sh, fl⟩ := a
      simp only at hn
      subst hn
      simp [LabelArr.WF] at hwf
      simp [hwf]
  · intro k hk
    obtain ⟨x, hx, rfl⟩ := List.mem_map.mp hk
    have := List.idxOf_lt_length_of_mem (hall x hx)
    simpa [classes, List.card_toFinset] using this

/-- C30: codes compare like labels. -/
theorem C30_string_order (values : List α) (x y : α) (hx : x ∈ values) (hy : y ∈ values) :
    ∃ i j, leTransform (classes values) [x] = .ok [i] ∧ leTransform (classes values) [y] = .ok [j] ∧
      (i < j ↔ x < y) ∧ (i = j ↔ x = y) := by
  have mx := (mem_classes values x).mpr hx
  have my := (mem_classes values y).mpr hy
  refine ⟨(classes values).idxOf x, (classes values).idxOf y, ?_, ?_, ?_, ?_⟩
  · rw [leTransform_ok _ _ (by simpa using mx)]; rfl
  · rw [leTransform_ok _ _ (by simpa using my)]; rfl
  · have lx := List.idxOf_lt_length_of_mem mx
    have ly := List.idxOf_lt_length_of_mem my
    have hs := List.pairwise_iff_getElem.mp (classes_sorted values)
    constructor
    · intro h
      have := hs _ _ lx ly h
      rwa [List.getElem_idxOf, List.getElem_idxOf] at this
    · intro h
      by_contra hge
      rcases Nat.lt_or_ge ((classes values).idxOf y) ((classes values).idxOf x) with h' | h'
      · have := hs _ _ ly lx h'
        rw [List.getElem_idxOf, List.getElem_idxOf] at this
        exact absurd h (not_lt_of_gt this)
      · have e : (classes values).idxOf x = (classes values).idxOf y := by omega
        rw [List.idxOf_inj mx] at e
        subst e; exact lt_irrefl _ h
  · exact List.idxOf_inj mx

/-- C30: unseen labels are refused, known ones never are. -/
theorem C30_string_unseen (values : List α) (v : List α) :
    (∃ codes, leTransform (classes values) v = .ok codes) ↔ ∀ x ∈ v, x ∈ values := by
  constructor
  · rintro ⟨codes, h⟩
    induction v generalizing codes with
    | nil => simp
    | cons x v ih =>
      simp only [leTransform, List.mapM_cons] at h
      by_cases hx : x ∈ classes values
      · simp only [hx, if_true] at h
        cases hr : List.mapM (fun x => if x ∈ classes values then Except.ok ((classes values).idxOf x)
            else Except.error EncErr.value) v with
        | error e => rw [hr] at h; simp [bind, Except.bind] at h
        | ok r =>
          intro y hy
          rcases List.mem_cons.mp hy with rfl | hy
          · exact (mem_classes _ _).mp hx
          · exact ih r hr y hy
      · simp [hx, bind, Except.bind] at h
  · intro h
    exact ⟨_, leTransform_ok _ _ fun x hx => (mem_classes _ _).mpr (h x hx)⟩

end

/-- C30: decoding an encoded dataset gives back the dataset, for every dataset on whose variables the encoders
round-trip; variables without an encoder are passed through. -/
theorem C30_dataset_roundtrip {V : Type} (encoders : List (String × Encoder V)) (ds : List (String × V))
    (h : ∀ d v e, (d, v) ∈ ds → encoders.lookup d = some e → ∃ c, e.encode v = .ok c ∧ e.decode c = .ok v) :
    ∃ ds', encodeDataset encoders ds = .ok ds' ∧ decodeDataset encoders ds' = .ok ds ∧
      ds'.map (·.1) = ds.map (·.1) ∧
      ∀ d v, (d, v) ∈ ds → encoders.lookup d = none → (d, v) ∈ ds' := by
  induction ds with
  | nil => exact ⟨[], rfl, rfl, rfl, by simp⟩
  | cons dv ds ih =>
    obtain ⟨d, v⟩ := dv
    obtain ⟨ds', h1, h2, h3, h4⟩ := ih fun d v e hm hl => h d v e (by simp [hm]) hl
    simp only [encodeDataset] at h1
    simp only [decodeDataset] at h2
    cases hl : encoders.lookup d with
    | none =>
      refine ⟨(d, v) :: ds', ?_, ?_, by simp [h3], ?_⟩
      · simp only [encodeDataset, List.mapM_cons, hl, h1]; rfl
      · simp only [decodeDataset, List.mapM_cons, hl, h2]; rfl
      · intro d' v' hm hn
        rcases List.mem_cons.mp hm with e | hm
        · rw [e]; simp
        · exact List.mem_cons_of_mem _ (h4 d' v' hm hn)
    | some e =>
      obtain ⟨c, hc, hdc⟩ := h d v e (by simp) hl
      refine ⟨(d, c) :: ds', ?_, ?_, by simp [h3], ?_⟩
      · simp only [encodeDataset, List.mapM_cons, hl, h1, hc]; rfl
      · simp only [decodeDataset, List.mapM_cons, hl, h2, hdc]; rfl
      · intro d' v' hm hn
        rcases List.mem_cons.mp hm with e' | hm
        · cases e'; rw [hl] at hn; cases hn
        · exact List.mem_cons_of_mem _ (h4 d' v' hm hn)

example : leTransform (classes [3, 1, 3, 2]) [3, 1, 3, 2] = .ok [2, 0, 2, 1] := by decide +kernel
example : (⟨[2, 2], [3, 1, 3, 2]⟩ : LabelArr Nat).WF := rfl

end Verif.Props
