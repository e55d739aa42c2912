import Verif.Props.Bits
/-!
# C86: whole bytes through a bit reader or writer (`ReadBytes`, `WriteBytes`, `Seek`)

Vocabulary: `bits`, `fieldBits` (`Verif/Spec/Bits.lean`); `writeFields`, `readFields` of C03 are sequences of `Write` and
`Read` calls.
-/
namespace Avf
open Go

/-- Full claim of **C86**: `ReadBytes(n)` returns the next `n` bytes of the bit stream, and `WriteBytes(d)` stores the bytes
of `d` at the current bit and nothing else. -/
def C86_claim : Prop :=
  (∀ (data : Bytes) (o n : Nat), o + 8 * n ≤ 8 * data.length →
    ∃ s, (BitsReader.mk data o).readBytes n = ok (s, ⟨data, ((o + 8 * n : Nat) : Int)⟩) ∧
      bits s = ((bits data).drop o).take (8 * n)) ∧
  (∀ (data d : Bytes) (o : Nat), o + 8 * d.length ≤ 8 * data.length →
    ∃ data', (BitsWriter.mk data o).writeBytes d = ok ⟨data', ((o + 8 * d.length : Nat) : Int)⟩ ∧
      bits data' = overwrite (bits data) o (bits d))

theorem bits_drop (d : Bytes) (k : Nat) : bits (d.drop k) = (bits d).drop (8 * k) := by
  apply List.ext_getElem?
  intro i
  rw [bits_getElem?, List.getElem?_drop, List.getElem?_drop, bits_getElem?, show (8 * k + i) / 8 = k + i / 8 by omega,
    show (8 * k + i) % 8 = i % 8 by omega]

theorem bits_take (d : Bytes) (k : Nat) : bits (d.take k) = (bits d).take (8 * k) := by
  apply List.ext_getElem?
  intro i
  rw [bits_getElem?, List.getElem?_take, List.getElem?_take, bits_getElem?]
  by_cases h : i < 8 * k
  · rw [if_pos h, if_pos (by omega)]
  · rw [if_neg h, if_neg (by omega)]; rfl

theorem bits_overwrite (d s : Bytes) (k : Nat) : bits (overwrite d k s) = overwrite (bits d) (8 * k) (bits s) := by
  unfold overwrite
  rw [bits_append, bits_append, bits_take, bits_take, bits_drop, bits_length, bits_length,
    show 8 * (d.length - k) = 8 * d.length - 8 * k by omega, show 8 * (k + s.length) = 8 * k + 8 * s.length by omega]

theorem bits_injective {a b : Bytes} (h : bits a = bits b) : a = b := by
  have hl : a.length = b.length := by
    have := congrArg List.length h
    simp only [bits_length] at this
    omega
  apply List.ext_getElem hl
  intro i h1 h2
  apply BitVec.eq_of_getLsbD_eq
  intro j hj
  have := congrArg (fun l : List Bool => l[8 * i + (7 - j)]?) h
  simp only [bits_getElem?] at this
  rw [show (8 * i + (7 - j)) / 8 = i by omega, show (8 * i + (7 - j)) % 8 = 7 - j by omega, List.getElem?_eq_getElem h1,
    List.getElem?_eq_getElem h2] at this
  simpa [show 7 - (7 - j) = j by omega] using this

theorem byteBits_field (b : Byte) : byteBits b = fieldBits 8 b.toNat := rfl

/-! ## Reading -/

/-- **C86** `ReadBytes` of any number of bytes at any bit: it returns the bytes from the byte that contains the current bit
on, and panics exactly if there are not enough of them. -/
theorem C86_read_exact (data : Bytes) (o n : Nat) :
    (BitsReader.mk data o).readBytes n =
      if o / 8 + n ≤ data.length then ok ((data.drop (o / 8)).take n, ⟨data, ((o + 8 * n : Nat) : Int)⟩) else Go.panic := by
  unfold BitsReader.readBytes sliceI
  dsimp only
  rw [show (o : Int) + 8 * (n : Int) = ((o + 8 * n : Nat) : Int) by omega, tdiv8, tdiv8,
    show (o + 8 * n) / 8 = o / 8 + n by omega]
  by_cases h : o / 8 + n ≤ data.length
  · rw [if_pos (by omega), if_pos h, ok_bind, pure_def, Int.toNat_natCast, Int.toNat_natCast, List.drop_take,
      Nat.add_sub_cancel_left]
  · rw [if_neg (by omega), if_neg h]; rfl

/-- **C86** on a byte boundary: the next `n` bytes of the bit stream, which are also what `n` calls `Read(8)` return. -/
theorem C86_read_aligned_partial (data : Bytes) (o n : Nat) (ha : o % 8 = 0) (hfit : o + 8 * n ≤ 8 * data.length) :
    ∃ s, (BitsReader.mk data o).readBytes n = ok (s, ⟨data, ((o + 8 * n : Nat) : Int)⟩) ∧
      bits s = ((bits data).drop o).take (8 * n) ∧
      readFields ⟨data, o⟩ (List.replicate n 8) = ok (s.map (·.setWidth 64), ⟨data, ((o + 8 * n : Nat) : Int)⟩) := by
  have hb : bits ((data.drop (o / 8)).take n) = ((bits data).drop o).take (8 * n) := by
    rw [bits_take, bits_drop, show 8 * (o / 8) = o by omega]
  refine ⟨(data.drop (o / 8)).take n, by rw [C86_read_exact, if_pos (by omega)], hb, ?_⟩
  have hn : ((data.drop (o / 8)).take n).length = n := by rw [List.length_take, List.length_drop]; omega
  generalize (data.drop (o / 8)).take n = s at hb hn
  have hw : fieldsWidth (s.map fun b => (8, b.setWidth 64)) = 8 * n := by
    rw [← hn]
    have : ∀ s : Bytes, fieldsWidth (s.map fun b => (8, b.setWidth 64)) = 8 * s.length := by
      intro s
      induction s with
      | nil => rfl
      | cons b s ih =>
        simp only [fieldsWidth, List.map_cons, List.sum_cons, List.length_cons] at ih ⊢
        omega
    exact this s
  have := readFields_spec (s.map fun b => (8, b.setWidth 64)) data o
    (by intro f hf; obtain ⟨b, _, rfl⟩ := List.mem_map.1 hf; simp) (by
      rw [hw, ← hb, List.flatMap_map]
      show s.flatMap byteBits = _
      congr 1)
  rw [hw, List.map_map, List.map_map] at this
  rw [show List.replicate n 8 = s.map ((fun f : Nat × BitVec 64 => f.1) ∘ fun b => (8, b.setWidth 64)) by
    rw [← hn]; exact (List.map_const' ..).symm, this]
  congr 2
  apply List.map_congr_left
  intro b _
  apply BitVec.eq_of_toNat_eq
  simp only [Function.comp, BitVec.toNat_ofNat, BitVec.toNat_setWidth]
  omega

/-- **C86** between byte boundaries the bytes come from the boundary before the current bit, so bits that were already read
are returned again and the rest of the last byte is not. -/
theorem C86_read_rounds_down (data : Bytes) (o n : Nat) (hfit : o + 8 * n ≤ 8 * data.length) :
    ∃ s, (BitsReader.mk data o).readBytes n = ok (s, ⟨data, ((o + 8 * n : Nat) : Int)⟩) ∧
      bits s = ((bits data).drop (o - o % 8)).take (8 * n) := by
  refine ⟨(data.drop (o / 8)).take n, by rw [C86_read_exact, if_pos (by omega)], ?_⟩
  rw [bits_take, bits_drop, show 8 * (o / 8) = o - o % 8 by omega]

/-- **C86** before the first byte (`Seek` accepts negative lengths) `ReadBytes` panics. -/
theorem C86_read_negative_panics (data : Bytes) (o n : Int) (h : o ≤ -8) : (BitsReader.mk data o).readBytes n = Go.panic := by
  have h1 : o.tdiv 8 < 0 := by
    have : o = -((-o).toNat : Int) := by omega
    rw [this, Int.neg_tdiv, tdiv8]; omega
  unfold BitsReader.readBytes sliceI
  dsimp only
  rw [if_neg (by omega)]; rfl

/-! ## Writing -/

/-- **C86** `WriteBytes` at any bit: the bytes that fit are stored from the byte that contains the current bit on, all other
bytes stay, the offset advances over all bytes; it panics exactly if that byte is behind the end of the data. -/
theorem C86_write_exact (data d : Bytes) (o : Nat) :
    (data.length < o / 8 → (BitsWriter.mk data o).writeBytes d = Go.panic) ∧
    (o / 8 ≤ data.length → ∃ data', (BitsWriter.mk data o).writeBytes d = ok ⟨data', ((o + 8 * d.length : Nat) : Int)⟩ ∧
      data'.length = data.length ∧
      ∀ k, data'[k]? = if o / 8 ≤ k ∧ k < o / 8 + d.length ∧ k < data.length then d[k - o / 8]? else data[k]?) := by
  unfold BitsWriter.writeBytes
  dsimp only
  rw [tdiv8, if_neg (by omega), Int.toNat_natCast]
  constructor
  · intro h
    rw [copyAt, if_neg (by omega)]; rfl
  · intro h
    refine ⟨overwrite data (o / 8) d, ?_, length_overwrite h, fun k => getElem?_overwrite h⟩
    rw [copyAt_of_le h, ok_bind, pure_def]
    congr 2

theorem writeBytes_nat {data d : Bytes} {o : Nat} (h : o / 8 ≤ data.length) :
    (BitsWriter.mk data o).writeBytes d = ok ⟨overwrite data (o / 8) d, ((o + 8 * d.length : Nat) : Int)⟩ := by
  unfold BitsWriter.writeBytes
  dsimp only
  rw [tdiv8, if_neg (by omega), Int.toNat_natCast, copyAt_of_le h, ok_bind, pure_def]
  congr 2

/-- **C86** on a byte boundary: exactly the addressed bits change, and the result is the same as that of one call
`Write(8, b)` for every byte, also when the bytes do not fit. -/
theorem C86_write_aligned_partial (data d : Bytes) (o : Nat) (ha : o % 8 = 0) (ho : o ≤ 8 * data.length) :
    ∃ data', (BitsWriter.mk data o).writeBytes d = ok ⟨data', ((o + 8 * d.length : Nat) : Int)⟩ ∧
      bits data' = overwrite (bits data) o (bits d) ∧
      writeFields ⟨data, o⟩ (d.map fun b => (8, b.setWidth 64)) = ok ⟨data', ((o + 8 * d.length : Nat) : Int)⟩ := by
  refine ⟨overwrite data (o / 8) d, writeBytes_nat (by omega), by rw [bits_overwrite, show 8 * (o / 8) = o by omega], ?_⟩
  have past : ∀ (d : Bytes) (o : Nat), 8 * data.length ≤ o →
      ∀ data₁ : Bytes, data₁.length = data.length →
      writeFields ⟨data₁, o⟩ (d.map fun b => (8, b.setWidth 64)) = ok ⟨data₁, ((o + 8 * d.length : Nat) : Int)⟩ := by
    intro d
    induction d with
    | nil => intro o _ data₁ _; rfl
    | cons b d ih =>
      intro o h data₁ h1
      have hw : (BitsWriter.mk data₁ o).write (8 : Nat) (b.setWidth 64) = ok ⟨data₁, ((o + 8 : Nat) : Int)⟩ := by
        unfold BitsWriter.write writeBits
        show (writeBitsLoop data₁ (o : Int) _ (7 + 1) >>= _) = _
        rw [writeBitsLoop]
        simp only [tdiv8]
        rw [if_pos (by omega), ok_bind, pure_def]
        congr 2
      rw [List.map_cons, writeFields, hw, ok_bind, ih (o + 8) (by omega) data₁ h1]
      congr 2
      simp only [List.length_cons]; omega
  obtain ⟨k, rfl⟩ : ∃ k, o = 8 * k := ⟨o / 8, by omega⟩
  rw [show 8 * k / 8 = k by omega]
  have hk : k ≤ data.length := by omega
  clear ha ho
  induction d generalizing data k with
  | nil => rw [overwrite_nil]; rfl
  | cons b d ih =>
    by_cases hlt : k < data.length
    · have hw : (BitsWriter.mk data ((8 * k : Nat) : Int)).write (8 : Nat) (b.setWidth 64) = ok ⟨data.set k b, ((8 * (k + 1) : Nat) : Int)⟩ := by
        obtain ⟨d', h1, h2, h3⟩ := writeBitsLoop_spec (b.setWidth 64) 8 data (8 * k)
        unfold BitsWriter.write writeBits
        rw [Int.toNat_natCast, h1, ok_bind, pure_def]
        have : d' = data.set k b := by
          apply bits_injective
          rw [h3, if_pos (by rw [bits_length]; omega), show (BitVec.setWidth 64 b).toNat = b.toNat by
            simp only [BitVec.toNat_setWidth]; omega, ← byteBits_field, show byteBits b = bits [b] by simp, ← bits_overwrite,
            ← overwrite_set_cons _ _ _ _ hlt, overwrite_nil]
        rw [this]
        congr 2
      rw [List.map_cons, writeFields, hw, ok_bind, ih (data.set k b)
        (fun d o h data₁ h1 => past d o (by simpa using h) data₁ (by simpa using h1)) (k + 1) (by simp; omega),
        overwrite_set_cons _ _ _ _ hlt]
      congr 2
      simp only [List.length_cons]; omega
    · rw [past _ _ (by omega) data rfl]
      congr 2
      rw [overwrite, List.take_of_length_le (by omega), show data.length - k = 0 by omega, List.drop_eq_nil_of_le (by omega)]
      simp

/-- **C86** between byte boundaries the bytes overwrite the bits before the current one, back to the boundary. -/
theorem C86_write_rounds_down (data d : Bytes) (o : Nat) (ho : o / 8 ≤ data.length) :
    ∃ data', (BitsWriter.mk data o).writeBytes d = ok ⟨data', ((o + 8 * d.length : Nat) : Int)⟩ ∧
      bits data' = overwrite (bits data) (o - o % 8) (bits d) :=
  ⟨_, writeBytes_nat ho, by rw [bits_overwrite, show 8 * (o / 8) = o - o % 8 by omega]⟩

/-- **C86** before the first byte `WriteBytes` panics, even with nothing to write. -/
theorem C86_write_negative_panics (data d : Bytes) (o : Int) (h : o ≤ -8) : (BitsWriter.mk data o).writeBytes d = Go.panic := by
  have h1 : o.tdiv 8 < 0 := by
    have : o = -((-o).toNat : Int) := by omega
    rw [this, Int.neg_tdiv, tdiv8]; omega
  unfold BitsWriter.writeBytes
  dsimp only
  rw [if_pos h1]

/-! ## Both -/

/-- **C86** bytes that fit are read back from the same position, on a byte boundary or not: both sides round down. -/
theorem C86_round_trip (data d : Bytes) (o : Nat) (hfit : o / 8 + d.length ≤ data.length) :
    ∃ w, (BitsWriter.mk data o).writeBytes d = ok w ∧
      ∃ r, (BitsReader.mk w.data o).readBytes d.length = ok (d, r) ∧ r.offset = w.offset := by
  refine ⟨_, writeBytes_nat (by omega), ⟨overwrite data (o / 8) d, ((o + 8 * d.length : Nat) : Int)⟩, ?_, rfl⟩
  dsimp only
  rw [C86_read_exact, length_overwrite (by omega), if_pos hfit, take_drop_overwrite hfit]

/-- **C86** bytes that do not fit are dropped silently when written, and reading the same number of bytes panics. -/
theorem C86_truncated_panics (data d : Bytes) (o : Nat) (h1 : o / 8 ≤ data.length) (h2 : data.length < o / 8 + d.length) :
    ∃ w, (BitsWriter.mk data o).writeBytes d = ok w ∧ (BitsReader.mk w.data o).readBytes d.length = Go.panic := by
  refine ⟨_, writeBytes_nat h1, ?_⟩
  dsimp only
  rw [C86_read_exact, length_overwrite h1, if_neg (by omega)]

/-- **C86** `Seek` moves over the same bits as `Read` and `Write` of that width, without touching the data; seeking back
undoes it. -/
theorem C86_seek (data : Bytes) (o n : Nat) (v : BitVec 64) :
    (∃ x, (BitsReader.mk data o).read n = ok (x, (BitsReader.mk data o).seek n)) ∧
    (∃ w, (BitsWriter.mk data o).write n v = ok w ∧ w.offset = ((BitsWriter.mk data o).seek n).offset) ∧
    ((BitsReader.mk data o).seek n).seek (-n) = ⟨data, o⟩ ∧ ((BitsWriter.mk data o).seek n).seek (-n) = ⟨data, o⟩ ∧
    ((BitsWriter.mk data o).seek n).data = data := by
  refine ⟨⟨BitVec.ofNat 64 (bitsVal (((bits data).drop o).take n)), ?_⟩, ?_, ?_, ?_, rfl⟩
  · unfold BitsReader.read
    rw [readBits_eq]; rfl
  · obtain ⟨d', h1, _⟩ := C02_writeBits_frame data o n v
    exact ⟨⟨d', o + n⟩, by unfold BitsWriter.write; rw [h1]; rfl, rfl⟩
  · simp only [BitsReader.seek]; congr 1; omega
  · simp only [BitsWriter.seek]; congr 1; omega

/-- **C86** is false of the code: four bits are read, then `ReadBytes(1)` returns them again; four bits are written, then
`WriteBytes` destroys them. -/
theorem C86_violated : ¬ C86_claim ∧
    (do let (v, r) ← (BitsReader.mk [0xAB, 0xCD] 0).read 4; let (s, _) ← r.readBytes 1; return (v, s) : Go (BitVec 64 × Bytes)) =
      ok (0xA, [0xAB]) ∧
    (do let w ← (BitsWriter.mk [0, 0] 0).write 4 0xF; let w ← w.writeBytes [0x0C]; return w.data : Go Bytes) = ok [0x0C, 0] := by
  refine ⟨?_, by decide +kernel, by decide +kernel⟩
  intro h
  obtain ⟨s, h1, h2⟩ := h.1 [0xAB, 0xCD] 4 1 (by decide)
  rw [C86_read_exact, if_pos (by decide)] at h1
  cases h1
  revert h2
  decide

example : (BitsReader.mk [1, 2, 3, 4] 8).readBytes 2 = ok ([2, 3], ⟨[1, 2, 3, 4], 24⟩) := by decide +kernel
example : (BitsWriter.mk [1, 2, 3, 4] 16).writeBytes [7, 8, 9] = ok ⟨[1, 2, 7, 8], 40⟩ := by decide +kernel
example : (BitsReader.mk [1, 2, 3, 4] 16).readBytes 3 = Go.panic := by decide +kernel
example : (BitsWriter.mk [1, 2] 24).writeBytes [] = Go.panic := by decide +kernel
/-- Reading backwards: one byte back from the third bit is an empty slice, not a panic, and the offset is negative. -/
example : (BitsReader.mk [1, 2] 3).readBytes (-1) = ok ([], ⟨[1, 2], -5⟩) := by decide +kernel

end Avf
