import Verif.Model.Utils
import Verif.Spec.Aac
import Verif.Lemmas.HevcFields
/-! # ADTS headers and AudioSpecificConfig -/
namespace Avf
open Go

/-- The seven bytes `SetADtsHeader` writes. -/
def adtsBytes (mpegId aot index ch size : BitVec 64) : Bytes :=
  [0xFF, 0xF1 ||| ((toByte mpegId &&& 0x1) <<< 3),
   ((toByte aot &&& 0x3) <<< 6) ||| ((toByte index &&& 0xF) <<< 2) ||| ((toByte ch >>> 2) &&& 0x1),
   (toByte ch <<< 6) ||| toByte (size.sshiftRight 11 &&& 0x3),
   toByte (size.sshiftRight 3), (toByte (size &&& 0x7) <<< 5) ||| 0x1F, 0xFC]

theorem or_f0 (x : Byte) : (0xF0 ||| x) ||| 0x1 = 0xF1 ||| x := by
  rw [BitVec.or_assoc, BitVec.or_comm x, ← BitVec.or_assoc]; rfl

theorem setADtsHeader_long (header : Bytes) (mpegId aot index ch size : BitVec 64) (h : 7 ≤ header.length) :
    setADtsHeader header mpegId aot index ch size = ok (adtsBytes mpegId aot index ch size ++ header.drop 7) := by
  match header, h with
  | a :: b :: c :: d :: e :: f :: g :: rest, _ =>
    simp [setADtsHeader, setIdx, orIdx, idx, adtsBytes]
    exact or_f0 _

theorem setADtsHeader_short (header : Bytes) (mpegId aot index ch size : BitVec 64) (h : header.length < 7) :
    setADtsHeader header mpegId aot index ch size = panic := by
  match header, h with
  | [], _ => simp [setADtsHeader, setIdx]
  | [_], _ => simp [setADtsHeader, setIdx]
  | [_, _], _ => simp [setADtsHeader, setIdx, orIdx, idx]
  | [_, _, _], _ => simp [setADtsHeader, setIdx, orIdx, idx]
  | [_, _, _, _], _ => simp [setADtsHeader, setIdx, orIdx, idx]
  | [_, _, _, _, _], _ => simp [setADtsHeader, setIdx, orIdx, idx]
  | [_, _, _, _, _, _], _ => simp [setADtsHeader, setIdx, orIdx, idx]

/-- The fields of the header that is written. -/
def adtsWritten (mpegId aot index ch size : BitVec 64) : Adts where
  id := mpegId.toNat % 2
  layer := 0
  protectionAbsent := 1
  profile := aot.toNat % 4
  samplingIndex := index.toNat % 16
  privateBit := 0
  channelConfig := ch.toNat % 8
  original := 0
  home := 0
  copyrightBit := 0
  copyrightStart := 0
  frameLength := size.toNat % 8192
  fullness := 0x7FF
  blocks := 0

theorem adtsBytes_bits (mpegId aot index ch size : BitVec 64) :
    bits (adtsBytes mpegId aot index ch size) = (adtsWritten mpegId aot index ch size).bits := by
  have tb : ∀ (x : BitVec 64) (k n : Nat), (x.toNat % 2 ^ n).testBit k = (decide (k < n) && x.getLsbD k) := by
    intro x k n; rw [Nat.testBit_mod_two_pow]; rfl
  have t1 := fun k => tb mpegId k 1
  have t2 := fun k => tb aot k 2
  have t3 := fun k => tb index k 4
  have t4 := fun k => tb ch k 3
  have t5 := fun k => tb size k 13
  simp only [Nat.reducePow] at t1 t2 t3 t4 t5
  simp [adtsBytes, bits, byteBits, Adts.bits, adtsWritten, fieldBits, toByte, t1, t2, t3, t4, t5, BitVec.getElem_sshiftRight]
  decide

/-! ## Reading -/

theorem adtsField_eq (a : BitVec 64) (s n : Nat) (m : BitVec 64) (hm : m = BitVec.ofNat 64 (2 ^ n - 1)) (h : s + n ≤ 63) :
    adtsField a s m = ((a.toNat / 2 ^ s % 2 ^ n : Nat) : Int) := by
  have key : (a.sshiftRight s &&& m).toNat = a.toNat / 2 ^ s % 2 ^ n := by
    apply Nat.eq_of_testBit_eq
    intro i
    rw [hm, Nat.testBit_mod_two_pow, Nat.testBit_div_two_pow]
    show (a.sshiftRight s &&& BitVec.ofNat 64 (2 ^ n - 1)).getLsbD i = _
    rw [BitVec.getLsbD_and, BitVec.getLsbD_sshiftRight, BitVec.getLsbD_ofNat, Nat.testBit_two_pow_sub_one]
    by_cases hi : i < n
    · have h1 : ¬ 64 ≤ i := by omega
      have h2 : s + i < 64 := by omega
      have h3 : i < 64 := by omega
      simp [hi, h2, h3, h1, BitVec.getLsbD, Nat.add_comm]
    · simp [hi]
  unfold adtsField
  rw [BitVec.toInt_eq_toNat_of_lt, key]
  rw [key]
  have : a.toNat / 2 ^ s % 2 ^ n < 2 ^ n := Nat.mod_lt _ (by positivity)
  have : 2 ^ n ≤ 2 ^ 63 := Nat.pow_le_pow_right (by omega) (by omega)
  omega

theorem bitsVal_slice (l : List Bool) (i n : Nat) (h : i + n ≤ l.length) :
    bitsVal l / 2 ^ (l.length - i - n) % 2 ^ n = bitsVal ((l.drop i).take n) := by
  have e : l = l.take i ++ ((l.drop i).take n ++ l.drop (i + n)) := by
    rw [← List.drop_drop, List.take_append_drop, List.take_append_drop]
  have hl : (l.drop (i + n)).length = l.length - i - n := by simp; omega
  have hm : ((l.drop i).take n).length = n := by simp; omega
  conv => lhs; arg 1; arg 1; rw [e]
  rw [bitsVal_append, bitsVal_append, ← hl, List.length_append, hm, Nat.pow_add, ← Nat.mul_assoc, ← Nat.add_assoc,
    ← Nat.add_mul, Nat.mul_comm, Nat.mul_add_div (by positivity), Nat.div_eq_of_lt (bitsVal_lt _), Nat.add_zero,
    Nat.add_comm, Nat.add_mul_mod_self_right, Nat.mod_eq_of_lt]
  have := bitsVal_lt ((l.drop i).take n); rwa [hm] at this

theorem toNat_shl_or (x y : BitVec 64) (k : Nat) (hy : y.toNat < 2 ^ k) (h : x.toNat * 2 ^ k + y.toNat < 2 ^ 64) :
    (x <<< k ||| y).toNat = x.toNat * 2 ^ k + y.toNat := by
  rw [BitVec.toNat_or, BitVec.toNat_shiftLeft, Nat.mod_eq_of_lt, ← Nat.shiftLeft_add_eq_or_of_lt hy, Nat.shiftLeft_eq]
  rw [Nat.shiftLeft_eq]; omega

/-- The header that is read is the number its first seven bytes spell. -/
theorem readADts_long (data : Bytes) (h : 7 ≤ data.length) (hs : beNat (data.take 2) / 16 = 0xFFF) :
    readADtsFixedHeader data = ok (BitVec.ofNat 64 (beNat (data.take 7))) := by
  have e16 : uint16At data 0 = ok (BitVec.ofNat 16 (beNat ((data.drop 0).take 2))) := uint16At_eq data 0 (by omega)
  unfold readADtsFixedHeader
  rw [e16, ok_bind]
  have l2 := beNat_lt (data.take 2)
  have sync : (BitVec.ofNat 16 (beNat ((data.drop 0).take 2)) >>> 4 : BitVec 16) = 0xFFF := by
    apply BitVec.eq_of_toNat_eq
    rw [BitVec.toNat_ushiftRight, BitVec.toNat_ofNat, List.drop_zero, Nat.mod_eq_of_lt, Nat.shiftRight_eq_div_pow, hs]; rfl
    simpa [show min 2 data.length = 2 by omega] using l2
  rw [if_neg (by simp only [ne_eq, not_not]; exact sync)]
  match data, h with
  | d0 :: d1 :: d2 :: d3 :: d4 :: d5 :: d6 :: rest, _ =>
    have e32 : uint32At (d3 :: d4 :: d5 :: d6 :: rest) 0 = _ := uint32At_eq _ 0 (by simp)
    have es : sliceFrom (d0 :: d1 :: d2 :: d3 :: d4 :: d5 :: d6 :: rest) 3 = ok (d3 :: d4 :: d5 :: d6 :: rest) := by
      simp [sliceFrom]
    simp only [idx, List.getElem?_cons_zero, List.getElem?_cons_succ, ok_bind, es]
    rw [e32, ok_bind]
    congr 1
    apply BitVec.eq_of_toNat_eq
    have b0 := d0.isLt; have b1 := d1.isLt; have b2 := d2.isLt
    have bl := beNat_lt [d3, d4, d5, d6]
    have b6 := beNat_lt [d0, d1, d2, d3, d4, d5, d6]
    simp only [List.length_cons, List.length_nil] at bl b6
    have e7 : beNat [d0, d1, d2, d3, d4, d5, d6] = (d0.toNat * 65536 + d1.toNat * 256 + d2.toNat) * 2 ^ 32 + beNat [d3, d4, d5, d6] := by
      simp only [beNat_cons, List.length_cons, List.length_nil]; omega
    have el : ((BitVec.ofNat 32 (beNat [d3, d4, d5, d6])).setWidth 64 : BitVec 64).toNat = beNat [d3, d4, d5, d6] := by
      simp; omega
    have w : ∀ d : Byte, (d.setWidth 64 : BitVec 64).toNat = d.toNat := fun d => by simp; omega
    have e1 := toNat_shl_or (d1.setWidth 64) (d2.setWidth 64) 8 (by rw [w]; omega) (by rw [w, w]; omega)
    have e2 := toNat_shl_or (d0.setWidth 64) (d1.setWidth 64 <<< 8 ||| d2.setWidth 64) 16 (by rw [e1, w, w]; omega)
      (by rw [e1, w, w, w]; omega)
    rw [e1, w, w, w] at e2
    have e3 := toNat_shl_or (d0.setWidth 64 <<< 16 ||| (d1.setWidth 64 <<< 8 ||| d2.setWidth 64))
      ((BitVec.ofNat 32 (beNat [d3, d4, d5, d6])).setWidth 64) 32 (by rw [el]; omega) (by rw [e2, el]; omega)
    rw [e2, el] at e3
    rw [BitVec.or_assoc (d0.setWidth 64 <<< 16)]
    refine e3.trans ?_
    rw [BitVec.toNat_ofNat]
    show _ = beNat [d0, d1, d2, d3, d4, d5, d6] % _
    rw [Nat.mod_eq_of_lt (by omega), e7]
    omega

theorem readADts_nosync (data : Bytes) (h : 2 ≤ data.length) (hs : beNat (data.take 2) / 16 ≠ 0xFFF) :
    readADtsFixedHeader data = err "not find syncword" := by
  have e16 : uint16At data 0 = ok (BitVec.ofNat 16 (beNat ((data.drop 0).take 2))) := uint16At_eq data 0 (by omega)
  unfold readADtsFixedHeader
  rw [e16, ok_bind, if_pos]
  intro h'
  apply hs
  have := congrArg BitVec.toNat h'
  have l2 := beNat_lt (data.take 2)
  rw [BitVec.toNat_ushiftRight, BitVec.toNat_ofNat, List.drop_zero, Nat.mod_eq_of_lt, Nat.shiftRight_eq_div_pow] at this
  · exact this
  · simpa [show min 2 data.length = 2 by omega] using l2

theorem readADts_short (data : Bytes) (h : data.length < 7) (hs : data.length < 2 ∨ beNat (data.take 2) / 16 = 0xFFF) :
    readADtsFixedHeader data = panic := by
  by_cases h2 : data.length < 2
  · match data, h2 with
    | [], _ => simp [readADtsFixedHeader, uint16At, idx]
    | [_], _ => simp [readADtsFixedHeader, uint16At, idx]
  have hs' := hs.resolve_left h2
  have e16 : uint16At data 0 = ok (BitVec.ofNat 16 (beNat ((data.drop 0).take 2))) := uint16At_eq data 0 (by omega)
  unfold readADtsFixedHeader
  rw [e16, ok_bind]
  have l2 := beNat_lt (data.take 2)
  have sync : (BitVec.ofNat 16 (beNat ((data.drop 0).take 2)) >>> 4 : BitVec 16) = 0xFFF := by
    apply BitVec.eq_of_toNat_eq
    rw [BitVec.toNat_ushiftRight, BitVec.toNat_ofNat, List.drop_zero, Nat.mod_eq_of_lt, Nat.shiftRight_eq_div_pow, hs']; rfl
    simpa [show min 2 data.length = 2 by omega] using l2
  rw [if_neg (by simp only [ne_eq, not_not]; exact sync)]
  match data, h, h2 with
  | [], _, h => exact absurd h (by simp)
  | [_], _, h => exact absurd h (by simp)
  | [_, _], _, _ => simp [idx]
  | [_, _, _], _, _ => simp [idx, sliceFrom, uint32At]
  | [_, _, _, _], _, _ => simp [idx, sliceFrom, uint32At]
  | [_, _, _, _, _], _, _ => simp [idx, sliceFrom, uint32At]
  | [_, _, _, _, _, _], _, _ => simp [idx, sliceFrom, uint32At]

/-- One field of a header, read by the accessor with shift `s` and mask `m`. -/
theorem adtsField_bits (data : Bytes) (f : Adts) (hb : bits (data.take 7) = f.bits) (s n v : Nat) (m : BitVec 64)
    (hm : m = BitVec.ofNat 64 (2 ^ n - 1)) (h : s + n ≤ 56) (hv : v < 2 ^ n)
    (hf : (f.bits.drop (56 - s - n)).take n = fieldBits n v) :
    adtsField (BitVec.ofNat 64 (beNat (data.take 7))) s m = (v : Int) := by
  have hl : f.bits.length = 56 := rfl
  have hn : (BitVec.ofNat 64 (beNat (data.take 7))).toNat = bitsVal f.bits := by
    rw [BitVec.toNat_ofNat, Nat.mod_eq_of_lt, beNat_eq_bits, hb]
    have := beNat_lt (data.take 7)
    have h7 : 256 ^ (data.take 7).length ≤ 256 ^ 7 := Nat.pow_le_pow_right (by omega) (by simp)
    omega
  have := bitsVal_slice f.bits (56 - s - n) n (by omega)
  rw [hl, hf, bitsVal_fieldBits, Nat.mod_eq_of_lt hv, show 56 - (56 - s - n) - n = s by omega] at this
  rw [adtsField_eq _ s n m hm (by omega), hn, this]

/-- The first twelve bits are ones exactly when the first 16-bit word starts with FFF. -/
theorem sync_bits (data : Bytes) (h : 2 ≤ data.length) :
    beNat (data.take 2) / 16 = 0xFFF ↔ (bits data).take 12 = List.replicate 12 true := by
  match data, h with
  | a :: b :: rest, _ =>
    have h1 : beNat ((a :: b :: rest).take 2) = a.toNat * 256 + b.toNat := by
      simp [beNat]; omega
    have h2 : (bits (a :: b :: rest)).take 12 = byteBits a ++ (byteBits b).take 4 := by
      simp [bits, byteBits]
    rw [h1, h2]
    have hb := b.isLt
    have e : (a.toNat * 256 + b.toNat) / 16 = 0xFFF ↔ a.toNat = 255 ∧ b.toNat / 16 = 15 := by omega
    rw [e]
    have h3 : ∀ a : Byte, a.toNat = 255 ↔ byteBits a = List.replicate 8 true := by decide
    have h4 : ∀ b : Byte, b.toNat / 16 = 15 ↔ (byteBits b).take 4 = List.replicate 4 true := by decide
    rw [h3, h4]
    constructor
    · rintro ⟨h, h'⟩; rw [h, h']; rfl
    · intro h
      exact List.append_inj h (by simp [byteBits])

/-! ## AudioSpecificConfig -/

theorem asc_values (a b : Byte) (rest : Bytes) (o i c : Nat) (t : List Bool) (ho : o < 32) (hi : i < 16) (hc : c < 16)
    (h : bits (a :: b :: rest) = ascBits o i c ++ t) :
    (a >>> 3).toNat = o ∧ (((a &&& 7) <<< 1) ||| (b >>> 7)).toNat = i ∧ ((b >>> 3) &&& 0xF).toNat = c := by
  have hb2 : bits [a, b] = ascBits o i c ++ t.take 3 := by
    have := congrArg (List.take 16) h
    simpa [bits, byteBits, ascBits, fieldBits] using this
  have hl : (ascBits o i c ++ t.take 3).length = 16 := by rw [← hb2, bits_length]; rfl
  have hv : beNat [a, b] = bitsVal (ascBits o i c ++ t.take 3) := by rw [beNat_eq_bits, hb2]
  have h1 : beNat [a, b] = a.toNat * 256 + b.toNat := by simp [beNat]; omega
  have s1 := bitsVal_slice (ascBits o i c ++ t.take 3) 0 5 (by omega)
  have s2 := bitsVal_slice (ascBits o i c ++ t.take 3) 5 4 (by omega)
  have s3 := bitsVal_slice (ascBits o i c ++ t.take 3) 9 4 (by omega)
  rw [hl, ← hv, h1] at s1 s2 s3
  rw [show ((ascBits o i c ++ t.take 3).drop 0).take 5 = fieldBits 5 o from rfl, bitsVal_fieldBits] at s1
  rw [show ((ascBits o i c ++ t.take 3).drop 5).take 4 = fieldBits 4 i from rfl, bitsVal_fieldBits] at s2
  rw [show ((ascBits o i c ++ t.take 3).drop 9).take 4 = fieldBits 4 c from rfl, bitsVal_fieldBits] at s3
  have ha := a.isLt
  have hb := b.isLt
  have k1 : (a >>> 3).toNat = a.toNat / 8 := by rw [BitVec.toNat_ushiftRight, Nat.shiftRight_eq_div_pow]
  have k2 : (((a &&& 7) <<< 1) ||| (b >>> 7)).toNat = a.toNat % 8 * 2 + b.toNat / 128 := by
    have e1 : ∀ a : Byte, a &&& 7 = BitVec.ofNat 8 (a.toNat % 8) := by decide
    have e2 : ∀ b : Byte, b >>> 7 = BitVec.ofNat 8 (b.toNat / 128) := by decide
    have e3 : ∀ x < 8, ∀ y < 2, (((BitVec.ofNat 8 x) <<< 1) ||| (BitVec.ofNat 8 y)).toNat = x * 2 + y := by decide
    rw [e1, e2, e3 _ (by omega) _ (by omega)]
  have k3 : ∀ b : Byte, ((b >>> 3) &&& 0xF).toNat = b.toNat / 8 % 16 := by decide
  rw [k1, k2, k3]
  refine ⟨?_, ?_, ?_⟩ <;> omega

end Avf
