import Verif.Model.BytesBuf
import Verif.Spec.Bits
import Verif.Lemmas.Bits
/-! Helper lemmas for the byte cursor. -/
namespace Avf
open Go

/-! ## big-endian numbers -/

theorem beNat_snoc (l : Bytes) (b : Byte) : beNat (l ++ [b]) = 256 * beNat l + b.toNat := by simp [beNat]

theorem beNat_foldl (l : Bytes) : ∀ a, l.foldl (fun a b => 256 * a + b.toNat) a = 256 ^ l.length * a + beNat l := by
  induction l with
  | nil => simp [beNat]
  | cons b l ih =>
    intro a
    simp only [List.foldl_cons, beNat, List.length_cons, Nat.pow_succ]
    rw [ih, ih (256 * 0 + b.toNat), Nat.mul_add, ← Nat.mul_assoc]
    simp; omega

theorem beNat_cons (b : Byte) (l : Bytes) : beNat (b :: l) = 256 ^ l.length * b.toNat + beNat l := by
  simp only [beNat, List.foldl_cons]; rw [beNat_foldl]; simp [beNat]

theorem beNat_lt (l : Bytes) : beNat l < 256 ^ l.length := by
  induction l with
  | nil => simp [beNat]
  | cons b l ih =>
    rw [beNat_cons, List.length_cons, Nat.pow_succ]
    have : b.toNat ≤ 255 := by have := b.isLt; omega
    calc 256 ^ l.length * b.toNat + beNat l < 256 ^ l.length * b.toNat + 256 ^ l.length := by omega
      _ ≤ 256 ^ l.length * 255 + 256 ^ l.length := by
        have := Nat.mul_le_mul_left (256 ^ l.length) this; omega
      _ = 256 ^ l.length * 256 := by omega

@[simp] theorem beBytes_length (k v : Nat) : (beBytes k v).length = k := by
  induction k with
  | zero => rfl
  | succ k ih => simp [beBytes, ih]

theorem beNat_beBytes (k v : Nat) : beNat (beBytes k v) = v % 256 ^ k := by
  induction k with
  | zero => simp [beBytes, beNat, Nat.mod_one]
  | succ k ih =>
    rw [beBytes, beNat_cons, ih, beBytes_length, Nat.mod_pow_succ, BitVec.toNat_ofNat]
    simp only [show 2 ^ 8 = 256 from rfl]; omega

theorem beBytes_beNat (l : Bytes) : beBytes l.length (beNat l) = l := by
  induction l with
  | nil => rfl
  | cons b l ih =>
    rw [List.length_cons, beBytes, beNat_cons]
    have h := beNat_lt l
    congr 1
    · rw [Nat.mul_add_div (Nat.pow_pos (by omega)), Nat.div_eq_of_lt h]
      simp
    · have : ∀ k v u, k ≤ l.length → beBytes k (256 ^ l.length * u + v) = beBytes k v := by
        intro k
        induction k with
        | zero => intros; rfl
        | succ k ihk =>
          intro v u hk
          simp only [beBytes]
          rw [ihk v u (by omega)]
          congr 1
          have : 256 ^ l.length * u = 256 ^ k * (256 * (256 ^ (l.length - k - 1) * u)) := by
            rw [← Nat.mul_assoc, ← Nat.mul_assoc]
            congr 1
            rw [← Nat.pow_succ, ← Nat.pow_add]
            congr 1; omega
          rw [this, Nat.mul_add_div (Nat.pow_pos (by omega))]
          apply BitVec.eq_of_toNat_eq
          simp only [BitVec.toNat_ofNat]
          omega
      rw [this _ _ _ (Nat.le_refl _), ih]

/-- Bytes written by `PutUint16`/`PutUint32`/`PutUint64` are the base-256 digits. -/
theorem be16_eq (v : BitVec 16) : be16 v = beBytes 2 v.toNat := by
  simp [be16, beBytes, toByte, ← BitVec.toNat_inj, Nat.shiftRight_eq_div_pow]

theorem be32_eq (v : BitVec 32) : be32 v = beBytes 4 v.toNat := by
  simp [be32, beBytes, toByte, ← BitVec.toNat_inj, Nat.shiftRight_eq_div_pow]

theorem be64_eq (v : BitVec 64) : be64 v = beBytes 8 v.toNat := by
  simp [be64, beBytes, toByte, ← BitVec.toNat_inj, Nat.shiftRight_eq_div_pow]

/-- Adding one more significant byte with `|` and `<<`. -/
theorem or_shl_byte {w : Nat} (x : BitVec w) (b : Byte) (k : Nat) (hx : x.toNat < 2 ^ k) (hk : k + 8 ≤ w) :
    (x ||| (b.setWidth w <<< k)).toNat = 2 ^ k * b.toNat + x.toNat := by
  have hb := b.isLt
  rw [BitVec.toNat_or, BitVec.toNat_shiftLeft, BitVec.toNat_setWidth]
  have h8 : 2 ^ 8 ≤ 2 ^ w := Nat.pow_le_pow_right (by omega) (by omega)
  rw [Nat.mod_eq_of_lt (a := b.toNat) (by omega), Nat.shiftLeft_eq]
  have : b.toNat * 2 ^ k < 2 ^ w := by
    calc b.toNat * 2 ^ k < 2 ^ 8 * 2 ^ k := Nat.mul_lt_mul_of_pos_right hb (Nat.pow_pos (by omega))
      _ = 2 ^ (8 + k) := by rw [Nat.pow_add]
      _ ≤ 2 ^ w := Nat.pow_le_pow_right (by omega) (by omega)
  rw [Nat.mod_eq_of_lt this, Nat.mul_comm, Nat.two_pow_add_eq_or_of_lt hx, Nat.or_comm]

theorem setWidth_byte_toNat {w : Nat} (b : Byte) (h : 8 ≤ w) : (b.setWidth w).toNat = b.toNat := by
  rw [BitVec.toNat_setWidth]
  exact Nat.mod_eq_of_lt (Nat.lt_of_lt_of_le b.isLt (Nat.pow_le_pow_right (by omega) h))

theorem take_drop_two {α : Type u} (l : List α) (o : Nat) (h : o + 2 ≤ l.length) :
    (l.drop o).take 2 = [l[o], l[o+1]] := by
  rw [List.drop_eq_getElem_cons (by omega), List.drop_eq_getElem_cons (by omega)]; rfl

theorem take_drop_three {α : Type u} (l : List α) (o : Nat) (h : o + 3 ≤ l.length) :
    (l.drop o).take 3 = [l[o], l[o+1], l[o+2]] := by
  rw [List.drop_eq_getElem_cons (by omega), List.drop_eq_getElem_cons (by omega), List.drop_eq_getElem_cons (by omega)]
  rfl

theorem take_drop_four {α : Type u} (l : List α) (o : Nat) (h : o + 4 ≤ l.length) :
    (l.drop o).take 4 = [l[o], l[o+1], l[o+2], l[o+3]] := by
  rw [List.drop_eq_getElem_cons (by omega), List.drop_eq_getElem_cons (by omega), List.drop_eq_getElem_cons (by omega),
    List.drop_eq_getElem_cons (by omega)]
  rfl

theorem take_drop_eight {α : Type u} (l : List α) (o : Nat) (h : o + 8 ≤ l.length) :
    (l.drop o).take 8 = [l[o], l[o+1], l[o+2], l[o+3], l[o+4], l[o+5], l[o+6], l[o+7]] := by
  rw [show (8 : Nat) = 4 + 4 from rfl, List.take_add, List.drop_drop, take_drop_four _ _ (by omega),
    take_drop_four _ _ (by omega)]
  rfl

theorem uint16At_eq (s : Bytes) (o : Nat) (h : o + 2 ≤ s.length) :
    uint16At s o = ok (BitVec.ofNat 16 (beNat ((s.drop o).take 2))) := by
  unfold uint16At
  rw [idx_of_lt (by omega), idx_of_lt (by omega)]
  simp only [ok_bind, pure_def]
  rw [take_drop_two _ _ h]
  congr 1
  have h0 := s[o].isLt
  have h1 := s[o+1].isLt
  apply BitVec.eq_of_toNat_eq
  rw [or_shl_byte _ _ _ (by rw [setWidth_byte_toNat _ (by omega)]; omega) (by omega), setWidth_byte_toNat _ (by omega)]
  simp only [beNat, List.foldl, BitVec.toNat_ofNat]
  omega

theorem uint24At_eq (s : Bytes) (o : Nat) (h : o + 3 ≤ s.length) :
    uint24At s o = ok (BitVec.ofNat 32 (beNat ((s.drop o).take 3))) := by
  unfold uint24At
  rw [idx_of_lt (by omega), idx_of_lt (by omega), idx_of_lt (by omega)]
  simp only [ok_bind, pure_def]
  rw [take_drop_three _ _ h]
  congr 1
  have h0 := s[o].isLt
  have h1 := s[o+1].isLt
  have h2 := s[o+2].isLt
  have e : ∀ a b c : BitVec 32, a ||| b ||| c = c ||| b ||| a := by
    intro a b c; rw [BitVec.or_comm, BitVec.or_comm a b, ← BitVec.or_assoc]
  rw [e]
  have e1 := or_shl_byte (s[o+2].setWidth 32) s[o+1] 8 (by rw [setWidth_byte_toNat _ (by omega)]; omega) (by omega)
  rw [setWidth_byte_toNat _ (by omega)] at e1
  apply BitVec.eq_of_toNat_eq
  rw [or_shl_byte _ _ _ (by omega) (by omega), e1]
  simp only [beNat, List.foldl, BitVec.toNat_ofNat]
  omega

theorem uint32At_eq (s : Bytes) (o : Nat) (h : o + 4 ≤ s.length) :
    uint32At s o = ok (BitVec.ofNat 32 (beNat ((s.drop o).take 4))) := by
  unfold uint32At
  rw [idx_of_lt (by omega), idx_of_lt (by omega), idx_of_lt (by omega), idx_of_lt (by omega)]
  simp only [ok_bind, pure_def]
  rw [take_drop_four _ _ h]
  congr 1
  have h0 := s[o].isLt
  have h1 := s[o+1].isLt
  have h2 := s[o+2].isLt
  have h3 := s[o+3].isLt
  have e1 := or_shl_byte (s[o+3].setWidth 32) s[o+2] 8 (by rw [setWidth_byte_toNat _ (by omega)]; omega) (by omega)
  rw [setWidth_byte_toNat _ (by omega)] at e1
  have e2 := or_shl_byte _ s[o+1] 16 (by rw [e1]; omega) (by omega)
  rw [e1] at e2
  apply BitVec.eq_of_toNat_eq
  rw [or_shl_byte _ _ _ (by omega) (by omega), e2]
  simp only [beNat, List.foldl, BitVec.toNat_ofNat]
  omega

theorem uint64At_eq (s : Bytes) (o : Nat) (h : o + 8 ≤ s.length) :
    uint64At s o = ok (BitVec.ofNat 64 (beNat ((s.drop o).take 8))) := by
  unfold uint64At
  rw [idx_of_lt (by omega), idx_of_lt (by omega), idx_of_lt (by omega), idx_of_lt (by omega),
    idx_of_lt (by omega), idx_of_lt (by omega), idx_of_lt (by omega), idx_of_lt (by omega)]
  simp only [ok_bind, pure_def]
  rw [take_drop_eight _ _ h]
  congr 1
  have h0 := s[o].isLt
  have h1 := s[o+1].isLt
  have h2 := s[o+2].isLt
  have h3 := s[o+3].isLt
  have h4 := s[o+4].isLt
  have h5 := s[o+5].isLt
  have h6 := s[o+6].isLt
  have h7 := s[o+7].isLt
  have e1 := or_shl_byte (s[o+7].setWidth 64) s[o+6] 8 (by rw [setWidth_byte_toNat _ (by omega)]; omega) (by omega)
  rw [setWidth_byte_toNat _ (by omega)] at e1
  have e2 := or_shl_byte _ s[o+5] 16 (by rw [e1]; omega) (by omega)
  rw [e1] at e2
  have e3 := or_shl_byte _ s[o+4] 24 (by rw [e2]; omega) (by omega)
  rw [e2] at e3
  have e4 := or_shl_byte _ s[o+3] 32 (by rw [e3]; omega) (by omega)
  rw [e3] at e4
  have e5 := or_shl_byte _ s[o+2] 40 (by rw [e4]; omega) (by omega)
  rw [e4] at e5
  have e6 := or_shl_byte _ s[o+1] 48 (by rw [e5]; omega) (by omega)
  rw [e5] at e6
  apply BitVec.eq_of_toNat_eq
  rw [or_shl_byte _ _ _ (by omega) (by omega), e6]
  simp only [beNat, List.foldl, BitVec.toNat_ofNat]
  omega

theorem uint16At_panic (s : Bytes) (o : Nat) (h : s.length < o + 2) : uint16At s o = panic := by
  unfold uint16At
  by_cases h0 : o < s.length
  · rw [idx_of_lt h0, idx_of_ge (i := o + 1) (by omega)]; rfl
  · rw [idx_of_ge (by omega)]; rfl

theorem uint24At_panic (s : Bytes) (o : Nat) (h : s.length < o + 3) : uint24At s o = panic := by
  unfold uint24At
  by_cases h0 : o < s.length
  · rw [idx_of_lt h0]
    by_cases h1 : o + 1 < s.length
    · rw [idx_of_lt h1, idx_of_ge (i := o + 2) (by omega)]; rfl
    · rw [idx_of_ge (i := o + 1) (by omega)]; rfl
  · rw [idx_of_ge (by omega)]; rfl

theorem uint32At_panic (s : Bytes) (o : Nat) (h : s.length < o + 4) : uint32At s o = panic := by
  unfold uint32At
  by_cases h0 : o < s.length
  · rw [idx_of_lt h0]
    by_cases h1 : o + 1 < s.length
    · rw [idx_of_lt h1]
      by_cases h2 : o + 2 < s.length
      · rw [idx_of_lt h2, idx_of_ge (i := o + 3) (by omega)]; rfl
      · rw [idx_of_ge (i := o + 2) (by omega)]; rfl
    · rw [idx_of_ge (i := o + 1) (by omega)]; rfl
  · rw [idx_of_ge (by omega)]; rfl

/-! ## The cursor -/

/-- An int argument is a 64-bit two's complement number. -/
def I64 (x : Int) : Prop := -2 ^ 63 ≤ x ∧ x < 2 ^ 63

namespace BytesBuf

/-- A cursor as its users see it: `Offset()` between 0 and the buffer length.  (Slice lengths are ints.) -/
structure Valid (b : BytesBuf) : Prop where
  len : b.length = b.data.length
  lo : 0 ≤ b.offset
  hi : b.offset ≤ b.length
  fits : (b.data.length : Int) < 2 ^ 63

/-- What a cursor move has to do: succeed iff the target lies in `[0, length]`. -/
def moveSpec (b : BytesBuf) (size : Int) : Prop := 0 ≤ b.offset + size ∧ b.offset + size ≤ b.length

instance (b : BytesBuf) (size : Int) : Decidable (moveSpec b size) := by unfold moveSpec; infer_instance

theorem peekN_ok {b : BytesBuf} {size : Int} (hv : b.Valid) (h : b.moveSpec size) :
    b.peekN size = (.ok (), { b with offset := b.offset + size }) := by
  obtain ⟨h1, h2, h3, h4⟩ := hv
  obtain ⟨h5, h6⟩ := h
  unfold peekN
  rw [wrap64_of_range (by omega) (by omega)]
  simp only
  rw [if_neg (by omega)]

theorem peekN_err {b : BytesBuf} {size : Int} (hv : b.Valid) (hi : I64 size) (h : ¬ b.moveSpec size) :
    ∃ e, b.peekN size = (.error e, b) := by
  obtain ⟨h1, h2, h3, h4⟩ := hv
  unfold moveSpec at h
  unfold I64 at hi
  refine ⟨"slice bounds out of range", ?_⟩
  unfold peekN
  simp only
  rw [if_pos]
  unfold wrap64
  omega

theorem valid_setData {d : Bytes} (h : (d.length : Int) < 2 ^ 63) : (setData d).Valid :=
  ⟨rfl, by simp [setData], by simp [setData], h⟩

theorem Valid.move {b : BytesBuf} {size : Int} (hv : b.Valid) (h : b.moveSpec size) :
    Valid { b with offset := b.offset + size } := ⟨hv.len, h.1, h.2, hv.fits⟩

end BytesBuf
end Avf
