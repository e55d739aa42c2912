import Verif.Lemmas.HevcRecord
/-! # The header of the HEVC record: lemmas -/
namespace Avf
open Go

theorem bits_split (data : Bytes) (k n : Nat) :
    bits data = bits (data.take k) ++ (bits ((data.drop k).take n) ++ bits (data.drop (k + n))) := by
  have h1 : data = data.take k ++ ((data.drop k).take n ++ data.drop (k + n)) := by
    rw [← List.drop_drop, List.take_append_drop, List.take_append_drop]
  conv => lhs; rw [h1]
  simp [bits]

/-- A field inside bytes `k..k+n`. -/
theorem bitField_in (data : Bytes) (k n j w : Nat) (h : k + n ≤ data.length) (hw : j + w ≤ 8 * n) :
    bitField data (8 * k + j) w = bitsVal (((bits ((data.drop k).take n)).drop j).take w) := by
  unfold bitField
  rw [bits_split data k n, ← List.drop_drop]
  have h1 : (bits (data.take k)).length = 8 * k := by rw [bits_length, List.length_take]; omega
  have h2 : (bits ((data.drop k).take n)).length = 8 * n := by rw [bits_length, List.length_take, List.length_drop]; omega
  rw [List.drop_append_of_le_length (l₁ := bits (data.take k)) (by omega), List.drop_of_length_le (l := bits (data.take k)) (by omega), List.nil_append,
    List.drop_append_of_le_length (by omega), List.take_append_of_le_length (by rw [List.length_drop]; omega)]

theorem bitField_byte (data : Bytes) (k j w : Nat) (h : k < data.length) (hw : j + w ≤ 8) :
    bitField data (8 * k + j) w = bitsVal (((byteBits data[k]).drop j).take w) := by
  rw [bitField_in data k 1 j w (by omega) (by omega)]
  have : (data.drop k).take 1 = [data[k]] := by
    rw [List.take_one, List.head?_drop, List.getElem?_eq_getElem h]; rfl
  rw [this]
  simp [bits]

theorem beNat_eq_bits (d : Bytes) : beNat d = bitsVal (bits d) := by
  induction d with
  | nil => rfl
  | cons b d ih =>
    have hb : ∀ b : Byte, bitsVal (byteBits b) = b.toNat := by decide
    have h1 : bits (b :: d) = byteBits b ++ bits d := rfl
    rw [h1, bitsVal_append, hb, bits_length, ← ih, beNat_cons, Nat.pow_mul, Nat.mul_comm]

theorem beNat_append (a b : Bytes) : beNat (a ++ b) = beNat a * 256 ^ b.length + beNat b := by
  induction a with
  | nil => simp [beNat]
  | cons c a ih =>
    rw [List.cons_append, beNat_cons, ih, beNat_cons, List.length_append, Nat.pow_add, Nat.add_mul]
    have : 256 ^ a.length * 256 ^ b.length * c.toNat = 256 ^ a.length * c.toNat * 256 ^ b.length := by
      rw [Nat.mul_assoc, Nat.mul_assoc, Nat.mul_comm (256 ^ b.length)]
    omega

theorem bitsVal_drop (l : List Bool) (j : Nat) : bitsVal (l.drop j) = bitsVal l % 2 ^ (l.length - j) := by
  have h1 := bitsVal_append (l.take j) (l.drop j)
  rw [List.take_append_drop, List.length_drop] at h1
  have h2 := bitsVal_lt (l.drop j)
  rw [List.length_drop] at h2
  rw [h1, Nat.mul_comm, Nat.mul_add_mod, Nat.mod_eq_of_lt h2]

/-- A field of `n` whole bytes but for the first `j` bits. -/
theorem bitField_bytes (data : Bytes) (k n j : Nat) (h : k + n ≤ data.length) (hj : j ≤ 8 * n) :
    bitField data (8 * k + j) (8 * n - j) = beNat ((data.drop k).take n) % 2 ^ (8 * n - j) := by
  have hl : (bits ((data.drop k).take n)).length = 8 * n := by rw [bits_length, List.length_take, List.length_drop]; omega
  rw [bitField_in data k n j _ h (by omega), List.take_of_length_le (by rw [List.length_drop]; omega), bitsVal_drop, hl,
    beNat_eq_bits]

/-- Everything but the lists. -/
def HEVCRecord.hdr (r : HEVCRecord) : HEVCRecord := { r with vpsList := [], spsList := [], ppsList := [], ppsCap := 0, shared := false }

theorem hevcFold_hdr (grow : Nat → Nat) (xs : List (Byte × List Bytes)) (r : HEVCRecord) :
    (xs.foldl (hevcArrayAdd grow) r).hdr = r.hdr := by
  have h1 : ∀ t r u, (hevcAdd grow t r u).hdr = r.hdr := by
    intro t r u
    unfold hevcAdd
    split
    · rfl
    · split
      · rfl
      · split
        · split <;> rfl
        · rfl
  have h2 : ∀ r x, (hevcArrayAdd grow r x).hdr = r.hdr := by
    rintro r ⟨t, us⟩
    unfold hevcArrayAdd
    simp only
    induction us generalizing r with
    | nil => rfl
    | cons u us ih => rw [List.foldl_cons, ih, h1]
  induction xs generalizing r with
  | nil => rfl
  | cons x xs ih => rw [List.foldl_cons, ih, h2]

/-- The header fields are the bit fields of ISO/IEC 14496-15, except that `LengthSizeMinusOne` holds the length size itself. -/
def HeaderOf (r : HEVCRecord) (data : Bytes) : Prop :=
      r.configurationVersion.toNat = bitField data 0 8 ∧ r.generalProfileSpace.toNat = bitField data 8 2 ∧
      r.generalTierFlag.toNat = bitField data 10 1 ∧ r.generalProfileIdc.toNat = bitField data 11 5 ∧
      r.generalProfileCompatibilityFlags.toNat = bitField data 16 32 ∧ r.generalConstraintIndicatorFlags.toNat = bitField data 48 48 ∧
      r.generalLevelIdc.toNat = bitField data 96 8 ∧ r.minSpatialSegmentationIdc.toNat = bitField data 108 12 ∧
      r.parallelismType.toNat = bitField data 126 2 ∧ r.chromaFormat.toNat = bitField data 134 2 ∧
      r.bitDepthLumaMinus8.toNat = bitField data 141 3 ∧ r.bitDepthChromaMinus8.toNat = bitField data 149 3 ∧
      r.avgFrameRate.toNat = bitField data 152 16 ∧ r.constantFrameRate.toNat = bitField data 168 2 ∧
      r.numTemporalLayers.toNat = bitField data 170 3 ∧ r.temporalIdNested.toNat = bitField data 173 1 ∧
      r.lengthSizeMinusOne.toNat = bitField data 174 2 + 1 ∧ r.numOfArrays.toNat = bitField data 176 8

theorem hevcHeader_fields (rec : HEVCRecord) (data : Bytes) (h : 23 ≤ data.length) :
    ∃ r, hevcHeader rec data = ok r ∧
      HeaderOf r data := by
  unfold hevcHeader
  rw [idx_of_lt (by omega), idx_of_lt (by omega), uint32At_eq _ _ (by omega), uint32At_eq _ _ (by omega), uint16At_eq _ _ (by omega),
    idx_of_lt (by omega), uint16At_eq _ _ (by omega), idx_of_lt (by omega), idx_of_lt (by omega), idx_of_lt (by omega),
    idx_of_lt (by omega), uint16At_eq _ _ (by omega), idx_of_lt (by omega), idx_of_lt (by omega)]
  simp only [ok_bind, pure_def]
  refine ⟨_, rfl, ?_⟩
  unfold HeaderOf
  simp only
  have b8 : ∀ b : Byte, b.toNat = bitsVal (((byteBits b).drop 0).take 8) := by decide
  have b2 : ∀ b : Byte, (b >>> 6 &&& 3).toNat = bitsVal (((byteBits b).drop 0).take 2) := by decide
  have b1 : ∀ b : Byte, (b >>> 5 &&& 1).toNat = bitsVal (((byteBits b).drop 2).take 1) := by decide
  have b5 : ∀ b : Byte, (b &&& 0x1F).toNat = bitsVal (((byteBits b).drop 3).take 5) := by decide
  have b62 : ∀ b : Byte, (b &&& 3).toNat = bitsVal (((byteBits b).drop 6).take 2) := by decide
  have b53 : ∀ b : Byte, (b &&& 7).toNat = bitsVal (((byteBits b).drop 5).take 3) := by decide
  have b23 : ∀ b : Byte, (b >>> 3 &&& 7).toNat = bitsVal (((byteBits b).drop 2).take 3) := by decide
  have b51 : ∀ b : Byte, (b >>> 2 &&& 1).toNat = bitsVal (((byteBits b).drop 5).take 1) := by decide
  have bl : ∀ b : Byte, ((b &&& 3) + 1).toNat = bitsVal (((byteBits b).drop 6).take 2) + 1 := by decide
  have hlt : ∀ k n, beNat ((data.drop k).take n) < 256 ^ n := by
    intro k n
    refine Nat.lt_of_lt_of_le (beNat_lt _) (Nat.pow_le_pow_right (by omega) ?_)
    rw [List.length_take]; omega
  refine ⟨?_, ?_, ?_, ?_, ?_, ?_, ?_, ?_, ?_, ?_, ?_, ?_, ?_, ?_, ?_, ?_, ?_, ?_⟩
  · rw [b8]; exact (bitField_byte data 0 0 8 (by omega) (by omega)).symm
  · rw [b2]; exact (bitField_byte data 1 0 2 (by omega) (by omega)).symm
  · rw [b1]; exact (bitField_byte data 1 2 1 (by omega) (by omega)).symm
  · rw [b5]; exact (bitField_byte data 1 3 5 (by omega) (by omega)).symm
  · rw [BitVec.toNat_ofNat]; exact (bitField_bytes data 2 4 0 (by omega) (by omega)).symm
  · rw [show bitField data 48 48 = _ from bitField_bytes data 6 6 0 (by omega) (by omega)]
    have hsp : (data.drop 6).take 6 = (data.drop 6).take 4 ++ (data.drop 10).take 2 := by
      rw [show 6 = 4 + 2 from rfl, List.take_add, List.drop_drop]
    have h4 := hlt 6 4
    have h2 := hlt 10 2
    have hl2 : ((data.drop 10).take 2).length = 2 := by rw [List.length_take, List.length_drop]; omega
    have h6 := hlt 6 6
    rw [Nat.mod_eq_of_lt (by omega), hsp, beNat_append, hl2]
    rw [BitVec.toNat_or, BitVec.toNat_shiftLeft, BitVec.toNat_setWidth, BitVec.toNat_setWidth, BitVec.toNat_ofNat, BitVec.toNat_ofNat]
    rw [Nat.mod_eq_of_lt (a := beNat ((data.drop 6).take 4)) (by omega), Nat.mod_eq_of_lt (a := beNat ((data.drop 6).take 4)) (by omega),
      Nat.mod_eq_of_lt (a := beNat ((data.drop 10).take 2)) (by omega), Nat.mod_eq_of_lt (a := beNat ((data.drop 10).take 2)) (by omega),
      Nat.shiftLeft_eq, Nat.mod_eq_of_lt (by omega), ← Nat.shiftLeft_eq, ← Nat.shiftLeft_add_eq_or_of_lt (i := 16) (b := beNat ((data.drop 10).take 2)) (by omega), Nat.shiftLeft_eq]
  · rw [b8]; exact (bitField_byte data 12 0 8 (by omega) (by omega)).symm
  · rw [BitVec.toNat_and, BitVec.toNat_ofNat, show (0x0FFF : BitVec 16).toNat = 2 ^ 12 - 1 from rfl, Nat.and_two_pow_sub_one_eq_mod,
      Nat.mod_mod_of_dvd _ (by decide)]
    exact (bitField_bytes data 13 2 4 (by omega) (by omega)).symm
  · rw [b62]; exact (bitField_byte data 15 6 2 (by omega) (by omega)).symm
  · rw [b62]; exact (bitField_byte data 16 6 2 (by omega) (by omega)).symm
  · rw [b53]; exact (bitField_byte data 17 5 3 (by omega) (by omega)).symm
  · rw [b53]; exact (bitField_byte data 18 5 3 (by omega) (by omega)).symm
  · rw [BitVec.toNat_ofNat]; exact (bitField_bytes data 19 2 0 (by omega) (by omega)).symm
  · rw [b2]; exact (bitField_byte data 21 0 2 (by omega) (by omega)).symm
  · rw [b23]; exact (bitField_byte data 21 2 3 (by omega) (by omega)).symm
  · rw [b51]; exact (bitField_byte data 21 5 1 (by omega) (by omega)).symm
  · rw [bl, show bitField data 174 2 = _ from bitField_byte data 21 6 2 (by omega) (by omega)]
  · rw [b8]; exact (bitField_byte data 22 0 8 (by omega) (by omega)).symm

end Avf
