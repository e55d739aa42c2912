import Verif.Props.Bits
/-!
# C02 and C04 for start bits in front of the data (`bufio/bits_reader.go`, `bufio/bits_writer.go`)

With `Props/Bits.lean` this says what `ReadBits` and `WriteBits` do for all arguments.
-/
namespace Avf
open Go

theorem tdiv_before {k : Nat} (hk : k < 8) : (-(k : Int)).tdiv 8 = 0 := by
  rw [Int.neg_tdiv, tdiv8]
  omega

theorem bitIndex_before {k : Nat} (hk : k < 8) : (7 - (-(k : Int)).tmod 8).toNat = 7 + k := by
  rw [Int.neg_tmod, tmod8]
  omega

theorem shift_out (b : Byte) {j : Nat} (hj : 8 ≤ j) : b >>> j = 0 := by
  apply BitVec.eq_of_toNat_eq
  rw [BitVec.toNat_ushiftRight, Nat.shiftRight_eq_div_pow]
  have : 2 ^ 8 ≤ 2 ^ j := Nat.pow_le_pow_right (by omega) hj
  rw [Nat.div_eq_of_lt (by have := b.isLt; omega)]
  rfl

theorem one_shifted_out {j : Nat} (hj : 8 ≤ j) : (1 : Byte) <<< j = 0 := by
  apply BitVec.eq_of_getLsbD_eq
  intro i hi
  rw [BitVec.getLsbD_shiftLeft]
  have : i < j := by omega
  simp [this]

theorem toByte_shifted_out (v : BitVec 64) {j : Nat} (hj : 8 ≤ j) : toByte (v <<< j) = 0 := by
  apply BitVec.eq_of_getLsbD_eq
  intro i hi
  unfold toByte
  rw [BitVec.getLsbD_setWidth, BitVec.getLsbD_shiftLeft]
  have : i < j := by omega
  simp [this]

theorem readBitsLoop_before (data : Bytes) : ∀ (k : Nat), k < 8 → ∀ n, readBitsLoop data (-(k : Int)) n 0 = readBitsLoop data 0 (n - k) 0
  | 0, _, n => by simp
  | k + 1, hk, 0 => by simp [readBitsLoop]
  | k + 1, hk, n + 1 => by
    have e1 := tdiv_before hk
    have e2 := bitIndex_before hk
    conv => lhs; unfold readBitsLoop
    simp only [e1, e2]
    cases data with
    | nil =>
      rw [if_pos (by simp)]
      cases h : n + 1 - (k + 1) with
      | zero => rfl
      | succ m =>
        unfold readBitsLoop
        simp
    | cons b bs =>
      rw [if_neg (by simp)]
      have hidx : idxI (b :: bs) 0 = ok b := rfl
      rw [hidx, ok_bind, shift_out b (by omega)]
      have e3 : -((k + 1 : Nat) : Int) + 1 = -(k : Int) := by omega
      rw [e3, Nat.add_sub_add_right]
      exact readBitsLoop_before _ k (by omega) n

/-- **C04** start bits from -7 to -1: the bits in front of the data are zeros. -/
theorem C04_readBits_before (data : Bytes) (start n : Int) (h1 : -8 < start) (h2 : start < 0) :
    readBits data start n = readBits data 0 (n + start) := by
  unfold readBits
  have := readBitsLoop_before data (-start).toNat (by omega) n.toNat
  rw [show (-(((-start).toNat : Nat) : Int)) = start by omega] at this
  rw [this]
  congr 1
  omega

/-- **C04**: the arguments with which `ReadBits` panics are exactly a start bit of -8 or less with a positive width. -/
theorem C04_panics_iff (data : Bytes) (start n : Int) : (∃ v, readBits data start n = ok v) ↔ (start ≤ -8 → n ≤ 0) := by
  constructor
  · rintro ⟨v, hv⟩ hs
    rcases Int.lt_or_le 0 n with hn | hn
    · have := C04_readBits_negative_start_panics data start (n.toNat - 1) hs
      rw [show ((n.toNat - 1 + 1 : Nat) : Int) = n by omega, hv] at this
      cases this
    · exact hn
  · intro h
    rcases Int.lt_or_le 0 n with hn | hn
    · rcases Int.lt_or_le start 0 with h0 | h0
      · rw [C04_readBits_before data start n (by omega) h0]
        rcases Int.lt_or_le 0 (n + start) with h3 | h3
        · have := readBits_eq data 0 (n + start).toNat
          rw [show (((n + start).toNat : Nat) : Int) = n + start by omega] at this
          exact ⟨_, this⟩
        · exact ⟨_, C04_readBits_negative_width _ _ _ h3⟩
      · have := readBits_eq data start.toNat n.toNat
        rw [show ((start.toNat : Nat) : Int) = start by omega, show ((n.toNat : Nat) : Int) = n by omega] at this
        exact ⟨_, this⟩
    · exact ⟨_, C04_readBits_negative_width _ _ _ hn⟩

theorem writeBitsLoop_before (v : BitVec 64) (data : Bytes) : ∀ (k : Nat), k < 8 → ∀ n,
    writeBitsLoop data (-(k : Int)) v n = writeBitsLoop data 0 v (n - k)
  | 0, _, n => by simp
  | k + 1, hk, 0 => by simp [writeBitsLoop]
  | k + 1, hk, n + 1 => by
    have e1 := tdiv_before hk
    have e2 := bitIndex_before hk
    conv => lhs; unfold writeBitsLoop
    simp only [e1, e2]
    cases data with
    | nil =>
      rw [if_pos (by simp)]
      cases h : n + 1 - (k + 1) with
      | zero => rfl
      | succ m =>
        unfold writeBitsLoop
        simp
    | cons b bs =>
      rw [if_neg (by simp)]
      have hidx : idxI (b :: bs) 0 = ok b := rfl
      have hset : setIdx (b :: bs) (0 : Int).toNat b = ok (b :: bs) := rfl
      rw [hidx, ok_bind, one_shifted_out (by omega), toByte_shifted_out _ (by omega)]
      have hb : (b &&& ~~~(0 : Byte)) ||| 0 = b := by
        rw [show ~~~(0 : Byte) = BitVec.allOnes 8 from rfl, BitVec.and_allOnes]
        simp
      rw [hb, hset, ok_bind]
      have e3 : -((k + 1 : Nat) : Int) + 1 = -(k : Int) := by omega
      rw [e3, Nat.add_sub_add_right]
      exact writeBitsLoop_before v _ k (by omega) n

/-- **C02** start bits from -7 to -1: what would be in front of the data is dropped, and the rest of the field is written from the start. -/
theorem C02_writeBits_before (data : Bytes) (start n : Int) (v : BitVec 64) (h1 : -8 < start) (h2 : start < 0) :
    writeBits data start n v = writeBits data 0 (n + start) v := by
  unfold writeBits
  have := writeBitsLoop_before v data (-start).toNat (by omega) n.toNat
  rw [show (-(((-start).toNat : Nat) : Int)) = start by omega] at this
  rw [this]
  congr 1
  omega

/-- **C02**: the arguments with which `WriteBits` panics are exactly a start bit of -8 or less with a positive width. -/
theorem C02_panics_iff (data : Bytes) (start n : Int) (v : BitVec 64) : (∃ d, writeBits data start n v = ok d) ↔ (start ≤ -8 → n ≤ 0) := by
  constructor
  · rintro ⟨d, hd⟩ hs
    rcases Int.lt_or_le 0 n with hn | hn
    · exfalso
      have ht : start.tdiv 8 < 0 := by
        have : start = -((-start).toNat : Int) := by omega
        rw [this, Int.neg_tdiv, tdiv8]; omega
      unfold writeBits at hd
      rw [show n.toNat = (n.toNat - 1) + 1 by omega] at hd
      unfold writeBitsLoop at hd
      simp only at hd
      rw [if_neg (by omega)] at hd
      simp [idxI, ht] at hd
    · exact hn
  · intro h
    rcases Int.lt_or_le 0 n with hn | hn
    · rcases Int.lt_or_le start 0 with h0 | h0
      · rw [C02_writeBits_before data start n v (by omega) h0]
        obtain ⟨d, hd, _⟩ := C02_writeBits_frame data 0 (n + start).toNat v
        refine ⟨d, ?_⟩
        unfold writeBits at hd ⊢
        rw [Int.toNat_natCast] at hd
        exact hd
      · obtain ⟨d, hd, _⟩ := C02_writeBits_frame data start.toNat n.toNat v
        refine ⟨d, ?_⟩
        rw [show ((start.toNat : Nat) : Int) = start by omega, show ((n.toNat : Nat) : Int) = n by omega] at hd
        exact hd
    · refine ⟨data, ?_⟩
      unfold writeBits
      rw [show n.toNat = 0 by omega]
      rfl

/-! Concrete cases: three bits in front of the data. -/

example : readBits [0xFF, 0x00] (-3) 5 = ok 3 := by decide
example : readBits [0xFF, 0x00] (-8) 5 = Go.panic := by decide
example : writeBits [0, 0] (-3) 8 0xFF = ok [0xF8, 0] := by decide
example : writeBits [0, 0] (-8) 8 0xFF = Go.panic := by decide

end Avf
