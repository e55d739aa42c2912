import Verif.Spec.Bits
import Verif.Model.Bits
namespace Avf
open Go

@[simp] theorem bits_nil : bits [] = [] := rfl
@[simp] theorem bits_cons (b : Byte) (d : Bytes) : bits (b :: d) = byteBits b ++ bits d := rfl
@[simp] theorem byteBits_length (b : Byte) : (byteBits b).length = 8 := rfl
@[simp] theorem bits_append (a b : Bytes) : bits (a ++ b) = bits a ++ bits b := by
  simp [bits, List.flatMap_append]
@[simp] theorem bits_length (d : Bytes) : (bits d).length = 8 * d.length := by
  induction d with
  | nil => rfl
  | cons b d ih => simp [ih]; omega

theorem byteBits_getElem? (b : Byte) (k : Nat) (h : k < 8) : (byteBits b)[k]? = some (b.getLsbD (7 - k)) := by
  have : k = 0 ∨ k = 1 ∨ k = 2 ∨ k = 3 ∨ k = 4 ∨ k = 5 ∨ k = 6 ∨ k = 7 := by omega
  rcases this with h | h | h | h | h | h | h | h <;> subst h <;> rfl

theorem bits_getElem? (d : Bytes) (k : Nat) :
    (bits d)[k]? = d[k / 8]?.map (fun b => b.getLsbD (7 - k % 8)) := by
  induction d generalizing k with
  | nil => simp
  | cons b d ih =>
    rw [bits_cons]
    by_cases h : k < 8
    · rw [List.getElem?_append_left (by simpa using h), byteBits_getElem? b k h]
      have h0 : k / 8 = 0 := by omega
      have h1 : k % 8 = k := by omega
      simp [h0, h1]
    · rw [List.getElem?_append_right (by simp; omega), byteBits_length, ih]
      have h0 : k / 8 = (k - 8) / 8 + 1 := by omega
      have h1 : k % 8 = (k - 8) % 8 := by omega
      rw [h0, h1]; simp

@[simp] theorem fieldBits_length (n v : Nat) : (fieldBits n v).length = n := by
  induction n with
  | zero => rfl
  | succ n ih => simp [fieldBits, ih]

theorem bitsVal_foldl (l : List Bool) (a : Nat) :
    l.foldl (fun a b => 2 * a + b.toNat) a = a * 2 ^ l.length + bitsVal l := by
  induction l generalizing a with
  | nil => simp [bitsVal]
  | cons b l ih =>
    simp only [List.foldl_cons, bitsVal, List.length_cons]
    rw [ih, ih (2 * 0 + b.toNat)]
    simp only [Nat.mul_zero, Nat.zero_add, Nat.pow_succ]
    grind

@[simp] theorem bitsVal_nil : bitsVal [] = 0 := rfl
theorem bitsVal_cons (b : Bool) (l : List Bool) : bitsVal (b :: l) = b.toNat * 2 ^ l.length + bitsVal l := by
  simp only [bitsVal, List.foldl_cons]; rw [bitsVal_foldl]; simp [bitsVal]
theorem bitsVal_append (a b : List Bool) : bitsVal (a ++ b) = bitsVal a * 2 ^ b.length + bitsVal b := by
  simp only [bitsVal, List.foldl_append]; rw [bitsVal_foldl]; simp [bitsVal]
theorem bitsVal_snoc (l : List Bool) (b : Bool) : bitsVal (l ++ [b]) = 2 * bitsVal l + b.toNat := by
  simp [bitsVal]
theorem bitsVal_lt (l : List Bool) : bitsVal l < 2 ^ l.length := by
  induction l with
  | nil => simp
  | cons b l ih =>
    rw [bitsVal_cons, List.length_cons, Nat.pow_succ]
    cases b <;> simp <;> omega

theorem bitsVal_fieldBits (n v : Nat) : bitsVal (fieldBits n v) = v % 2 ^ n := by
  induction n with
  | zero => simp [fieldBits, Nat.mod_one]
  | succ n ih =>
    rw [fieldBits, bitsVal_cons, ih, fieldBits_length, Nat.mod_pow_succ, Nat.testBit_eq_decide_div_mod_eq]
    rcases Nat.mod_two_eq_zero_or_one (v / 2 ^ n) with h | h <;> simp [h]
    omega

theorem fieldBits_getElem? (n v i : Nat) (h : i < n) : (fieldBits n v)[i]? = some (v.testBit (n - 1 - i)) := by
  induction n generalizing i with
  | zero => omega
  | succ n ih =>
    cases i with
    | zero => simp [fieldBits]
    | succ i =>
      simp only [fieldBits, List.getElem?_cons_succ]
      rw [ih i (by omega)]
      congr 2; omega

/-- index arithmetic for a non-negative current bit -/
theorem tdiv8 (k : Nat) : ((k : Int)).tdiv 8 = ((k / 8 : Nat) : Int) := by
  rw [Int.tdiv_eq_ediv_of_nonneg (by omega)]; omega
theorem tmod8 (k : Nat) : ((k : Int)).tmod 8 = ((k % 8 : Nat) : Int) := by
  rw [Int.tmod_eq_emod_of_nonneg (by omega)]; omega
theorem bitIdx8 (k : Nat) : (7 - ((k % 8 : Nat) : Int)).toNat = 7 - k % 8 := by omega

theorem byte_bit (b : Byte) (j : Nat) :
    (((b >>> j) &&& 0x01).setWidth 64 : BitVec 64) = BitVec.ofNat 64 (b.getLsbD j).toNat := by
  apply BitVec.eq_of_toNat_eq
  simp only [BitVec.toNat_setWidth, BitVec.toNat_and, BitVec.toNat_ushiftRight, BitVec.toNat_ofNat]
  have h1 : BitVec.toNat (1 : Byte) = 1 := by decide
  rw [h1, Nat.and_one_is_mod, BitVec.getLsbD, Nat.testBit, Nat.one_and_eq_mod_two]
  rcases Nat.mod_two_eq_zero_or_one (b.toNat >>> j) with h | h <;> simp [h]

theorem shl_or_bit (a : Nat) (c : Bool) :
    ((BitVec.ofNat 64 a) <<< 1 ||| BitVec.ofNat 64 c.toNat : BitVec 64) = BitVec.ofNat 64 (2 * a + c.toNat) := by
  have hx : ∀ x : BitVec 64, (x <<< 1 ||| BitVec.ofNat 64 c.toNat) = x <<< 1 + BitVec.ofNat 64 c.toNat := by
    intro x
    rw [BitVec.add_eq_or_of_and_eq_zero]
    apply BitVec.eq_of_getLsbD_eq
    intro i hi
    cases c <;> simp [BitVec.getLsbD_one]
    omega
  rw [hx]
  apply BitVec.eq_of_toNat_eq
  simp [BitVec.toNat_add, BitVec.toNat_shiftLeft, Nat.shiftLeft_eq]
  omega

/-! ### ReadBits -/

theorem readBitsLoop_spec (data : Bytes) (n k a : Nat) :
    readBitsLoop data k n (BitVec.ofNat 64 a) =
      ok (BitVec.ofNat 64 (a * 2 ^ (((bits data).drop k).take n).length + bitsVal (((bits data).drop k).take n))) := by
  induction n generalizing k a with
  | zero => simp [readBitsLoop]
  | succ n ih =>
    rw [readBitsLoop]
    simp only [tdiv8, tmod8, bitIdx8]
    by_cases h : data.length ≤ k / 8
    · have hk : (bits data).length ≤ k := by simp; omega
      rw [if_pos (by exact_mod_cast h), List.drop_eq_nil_of_le hk]
      simp
    · have hlt : k / 8 < data.length := by omega
      rw [if_neg (by omega)]
      have hi : idxI data ((k / 8 : Nat) : Int) = ok data[k / 8] := by
        simp only [idxI]
        rw [if_neg (by omega), Int.toNat_natCast, idx_of_lt hlt]
      rw [hi]
      simp only [ok_bind, byte_bit, shl_or_bit]
      have hk1 : ((k : Int) + 1) = ((k + 1 : Nat) : Int) := by omega
      rw [hk1, ih]
      have hb : (bits data)[k]? = some (data[k / 8].getLsbD (7 - k % 8)) := by
        rw [bits_getElem?, List.getElem?_eq_getElem hlt]; rfl
      have hd : (bits data).drop k = data[k / 8].getLsbD (7 - k % 8) :: (bits data).drop (k + 1) := by
        obtain ⟨hkl, hke⟩ := List.getElem?_eq_some_iff.mp hb
        rw [List.drop_eq_getElem_cons hkl, hke]
      rw [hd]
      simp only [List.take_succ_cons, List.length_cons]
      rw [bitsVal_cons, Nat.pow_succ]
      congr 2
      grind

theorem readBits_eq (data : Bytes) (s n : Nat) :
    readBits data s n = ok (BitVec.ofNat 64 (bitsVal (((bits data).drop s).take n))) := by
  have := readBitsLoop_spec data n s 0
  simpa [readBits] using this

/-! ### WriteBits -/

theorem byte_set_bit (b : Byte) (v : BitVec 64) (n i k : Nat) (hi : i < 8) (hk : k < 8) :
    ((b &&& ~~~((1 : Byte) <<< (7 - i))) ||| toByte (((v >>> n) &&& 0x01) <<< (7 - i))).getLsbD (7 - k) =
      if k = i then v.getLsbD n else b.getLsbD (7 - k) := by
  have h7 : 7 - k < 8 := by omega
  simp only [BitVec.getLsbD_or, BitVec.getLsbD_and, BitVec.getLsbD_not, BitVec.getLsbD_shiftLeft, h7,
    BitVec.getLsbD_setWidth, BitVec.getLsbD_ushiftRight]
  have h1 : ∀ j, BitVec.getLsbD (1 : BitVec 64) j = decide (j = 0) := by
    intro j; rw [show (1 : BitVec 64) = 1#64 from rfl, BitVec.getLsbD_one]; simp
  have h8 : ∀ j, BitVec.getLsbD (1 : BitVec 8) j = decide (j = 0) := by
    intro j; rw [show (1 : BitVec 8) = 1#8 from rfl, BitVec.getLsbD_one]; simp
  have h64 : 7 - k < 64 := by omega
  by_cases h : k = i
  · subst h; simp [h64]
  · simp only [if_neg h, h1, h8]
    by_cases h2 : 7 - k < 7 - i
    · simp [h2]
    · have : ¬ (7 - k - (7 - i) = 0) := by omega
      simp [this]

theorem bits_set_bit (data : Bytes) (v : BitVec 64) (n c : Nat) (h : c / 8 < data.length) :
    bits (data.set (c / 8) ((data[c / 8] &&& ~~~((1 : Byte) <<< (7 - c % 8))) |||
        toByte (((v >>> n) &&& 0x01) <<< (7 - c % 8)))) = (bits data).set c (v.getLsbD n) := by
  apply List.ext_getElem?
  intro k
  rw [bits_getElem?, List.getElem?_set, List.getElem?_set, bits_getElem?, bits_length]
  by_cases h1 : c / 8 = k / 8
  · have hk : k / 8 < data.length := by omega
    rw [if_pos h1, if_pos h]
    simp only [Option.map_some]
    rw [byte_set_bit data[c / 8] v n (c % 8) (k % 8) (by omega) (by omega)]
    by_cases h2 : k % 8 = c % 8
    · have hck : c = k := by omega
      rw [if_pos h2, if_pos hck, if_pos (by omega)]
    · have hck : c ≠ k := by omega
      rw [if_neg h2, if_neg hck, List.getElem?_eq_getElem hk]
      simp [h1]
  · have hck : c ≠ k := by intro h; subst h; exact h1 rfl
    rw [if_neg h1, if_neg hck]

theorem overwrite_set_cons {α : Type u} (l : List α) (c : Nat) (x : α) (xs : List α) (h : c < l.length) :
    overwrite (l.set c x) (c + 1) xs = overwrite l c (x :: xs) := by
  apply List.ext_getElem?
  intro k
  rw [getElem?_overwrite (by simp; omega), getElem?_overwrite (by omega), List.getElem?_set]
  simp only [List.length_set, List.length_cons]
  by_cases h1 : k = c
  · subst h1
    rw [if_neg (by omega), if_pos (by omega), if_pos (by omega)]
    simp [h]
  · by_cases h2 : c + 1 ≤ k ∧ k < c + 1 + xs.length ∧ k < l.length
    · rw [if_pos h2, if_pos (by omega)]
      have : k - c = (k - (c + 1)) + 1 := by omega
      rw [this, List.getElem?_cons_succ]
    · rw [if_neg h2, if_neg (by omega), if_neg (by omega)]

/-- All that `WriteBits` does, seen on the bit string. -/
theorem writeBitsLoop_spec (v : BitVec 64) (n : Nat) : ∀ (data : Bytes) (c : Nat),
    ∃ d', writeBitsLoop data c v n = ok d' ∧ d'.length = data.length ∧
      bits d' = if c ≤ (bits data).length then overwrite (bits data) c (fieldBits n v.toNat) else bits data := by
  induction n with
  | zero => intro data c; exact ⟨data, rfl, rfl, by simp [fieldBits, overwrite_nil]⟩
  | succ n ih =>
    intro data c
    rw [writeBitsLoop]
    simp only [tdiv8, tmod8, bitIdx8]
    by_cases h : data.length ≤ c / 8
    · refine ⟨data, by rw [if_pos (by exact_mod_cast h)], rfl, ?_⟩
      by_cases hc : c ≤ (bits data).length
      · have hcl : c = (bits data).length := by simp at hc ⊢; omega
        rw [if_pos hc, hcl, overwrite, List.take_length, List.drop_eq_nil_of_le (by omega)]
        simp
      · rw [if_neg hc]
    · have hlt : c / 8 < data.length := by omega
      rw [if_neg (by omega)]
      have hi : idxI data ((c / 8 : Nat) : Int) = ok data[c / 8] := by
        simp only [idxI]
        rw [if_neg (by omega), Int.toNat_natCast, idx_of_lt hlt]
      rw [hi]
      simp only [ok_bind, Int.toNat_natCast, setIdx_of_lt hlt]
      have hk1 : ((c : Int) + 1) = ((c + 1 : Nat) : Int) := by omega
      rw [hk1]
      obtain ⟨d', h1, h2, h3⟩ := ih (data.set (c / 8) ((data[c / 8] &&& ~~~((1 : Byte) <<< (7 - c % 8))) |||
        toByte (((v >>> n) &&& 0x01) <<< (7 - c % 8)))) (c + 1)
      refine ⟨d', h1, by simpa using h2, ?_⟩
      have hcl : c < (bits data).length := by simp; omega
      rw [h3, bits_set_bit data v n c hlt, if_pos (by simp at hcl ⊢; omega), if_pos (by omega)]
      rw [overwrite_set_cons _ _ _ _ hcl]
      rfl

end Avf
