import Verif.Lemmas.Bits
/-!
# C01–C04: bit-level access (`bufio/bits_reader.go`, `bufio/bits_writer.go`)

Vocabulary (`Verif/Spec/Bits.lean`): `bits d` is the bit string of `d`, MSB first; `fieldBits n v` is the `n`-bit field
holding `v`; `bitsVal` is the number a bit string denotes.
-/
namespace Avf
open Go

/-- **C04** `ReadBits` is the big-endian number formed by the existing bits of the range, in 64-bit arithmetic, for
every slice, start and width; it never panics. -/
theorem C04_readBits (data : Bytes) (start n : Nat) :
    readBits data start n = ok (BitVec.ofNat 64 (bitsVal (((bits data).drop start).take n))) :=
  readBits_eq data start n

/-- **C04** with a width of at most 64 nothing is lost: the numeric value is exact. -/
theorem C04_readBits_value (data : Bytes) (start n : Nat) (hn : n ≤ 64) :
    ∃ v, readBits data start n = ok v ∧ v.toNat = bitsVal (((bits data).drop start).take n) := by
  refine ⟨_, readBits_eq data start n, ?_⟩
  rw [BitVec.toNat_ofNat, Nat.mod_eq_of_lt]
  refine Nat.lt_of_lt_of_le (bitsVal_lt _) (Nat.pow_le_pow_right (by omega) ?_)
  rw [List.length_take]; omega

/-- **C04** negative widths read nothing. -/
theorem C04_readBits_negative_width (data : Bytes) (start n : Int) (hn : n ≤ 0) : readBits data start n = ok 0 := by
  have : n.toNat = 0 := by omega
  simp [readBits, this, readBitsLoop]

/-- **C04** (edge) a start bit of -8 or less is an index panic as soon as a bit is read from a non-empty slice. -/
theorem C04_readBits_negative_start_panics (data : Bytes) (start : Int) (n : Nat) (hs : start ≤ -8) :
    readBits data start (n + 1 : Nat) = panic := by
  have h1 : start.tdiv 8 < 0 := by
    have : start = -((-start).toNat : Int) := by omega
    rw [this, Int.neg_tdiv, tdiv8]; omega
  simp only [readBits, Int.toNat_natCast, readBitsLoop]
  rw [if_neg (by omega)]
  simp [idxI, h1]

/-- **C02** `WriteBits` with a non-negative start never panics, keeps the length, and the bit string afterwards is the old
one with exactly the addressed bits (those that exist) replaced by the field. -/
theorem C02_writeBits_frame (data : Bytes) (start n : Nat) (v : BitVec 64) :
    ∃ d', writeBits data start n v = ok d' ∧ d'.length = data.length ∧
      ∀ k, (bits d')[k]? =
        if start ≤ k ∧ k < start + n ∧ k < 8 * data.length then some (v.getLsbD (n - 1 - (k - start)))
        else (bits data)[k]? := by
  obtain ⟨d', h1, h2, h3⟩ := writeBitsLoop_spec v n data start
  refine ⟨d', by simpa [writeBits] using h1, h2, ?_⟩
  intro k
  rw [h3]
  split
  · rename_i h
    rw [getElem?_overwrite h, fieldBits_length, bits_length]
    split
    · rename_i h'
      rw [fieldBits_getElem? _ _ _ (by omega)]; rfl
    · rfl
  · rename_i h
    rw [if_neg (by simp at h; omega)]

/-- **C01** what `WriteBits` stored, `ReadBits` returns: the low `n` bits of the value. -/
theorem C01_write_read (data : Bytes) (start n : Nat) (v : BitVec 64) (hn : n ≤ 64) (hfit : start + n ≤ 8 * data.length) :
    ∃ d', writeBits data start n v = ok d' ∧
      ∃ r, readBits d' start n = ok r ∧ r.toNat = v.toNat % 2 ^ n := by
  obtain ⟨d', h1, h2, h3⟩ := writeBitsLoop_spec v n data start
  refine ⟨d', by simpa [writeBits] using h1, ?_⟩
  obtain ⟨r, hr, hv⟩ := C04_readBits_value d' start n hn
  refine ⟨r, hr, ?_⟩
  rw [hv, h3, if_pos (by simp; omega)]
  have := take_drop_overwrite (l := bits data) (a := fieldBits n v.toNat) (o := start) (by simpa using hfit)
  rw [fieldBits_length] at this
  rw [this, bitsVal_fieldBits]

/-- Write all fields, one `BitsWriter.Write` after the other. -/
def writeFields (w : BitsWriter) : List (Nat × BitVec 64) → Go BitsWriter
  | [] => ok w
  | (n, v) :: fs => do
    let w' ← w.write n v
    writeFields w' fs

/-- Read fields of the given widths, one `BitsReader.Read` after the other. -/
def readFields (r : BitsReader) : List Nat → Go (List (BitVec 64) × BitsReader)
  | [] => ok ([], r)
  | n :: ns => do
    let (v, r') ← r.read n
    let (vs, r'') ← readFields r' ns
    return (v :: vs, r'')

/-- Total width of a field list. -/
def fieldsWidth (fs : List (Nat × BitVec 64)) : Nat := (fs.map (·.1)).sum

theorem writeFields_spec (fs : List (Nat × BitVec 64)) : ∀ (data : Bytes) (o : Nat),
    o + fieldsWidth fs ≤ 8 * data.length →
    ∃ d', writeFields ⟨data, o⟩ fs = ok ⟨d', ((o + fieldsWidth fs : Nat) : Int)⟩ ∧ d'.length = data.length ∧
      bits d' = overwrite (bits data) o (fs.flatMap fun f => fieldBits f.1 f.2.toNat) := by
  induction fs with
  | nil => intro data o _; exact ⟨data, by simp [writeFields, fieldsWidth], rfl, by simp [overwrite_nil]⟩
  | cons f fs ih =>
    obtain ⟨n, v⟩ := f
    intro data o h
    have hw : fieldsWidth ((n, v) :: fs) = n + fieldsWidth fs := by simp [fieldsWidth]
    rw [hw] at h ⊢
    obtain ⟨d1, h1, h2, h3⟩ := writeBitsLoop_spec v n data o
    rw [if_pos (by simp; omega)] at h3
    obtain ⟨d', h4, h5, h6⟩ := ih d1 (o + n) (by omega)
    refine ⟨d', ?_, by omega, ?_⟩
    · simp only [writeFields, BitsWriter.write, writeBits, Int.toNat_natCast]
      rw [h1]
      simp only [ok_bind, pure_def]
      have : ((o : Int) + (n : Int)) = ((o + n : Nat) : Int) := by omega
      rw [this, h4]
      congr 3; omega
    · have := overwrite_overwrite (l := bits data) (a := fieldBits n v.toNat)
        (b := fs.flatMap fun f => fieldBits f.1 f.2.toNat) (o := o) (by simp; omega)
      rw [fieldBits_length] at this
      rw [h6, h3, this]
      rfl

theorem readFields_spec (fs : List (Nat × BitVec 64)) : ∀ (data : Bytes) (o : Nat),
    (∀ f ∈ fs, f.1 ≤ 64) →
    ((bits data).drop o).take (fieldsWidth fs) = fs.flatMap (fun f => fieldBits f.1 f.2.toNat) →
    readFields ⟨data, o⟩ (fs.map (·.1)) =
      ok (fs.map (fun f => BitVec.ofNat 64 (f.2.toNat % 2 ^ f.1)), ⟨data, ((o + fieldsWidth fs : Nat) : Int)⟩) := by
  induction fs with
  | nil => intro data o _ _; simp [readFields, fieldsWidth]
  | cons f fs ih =>
    obtain ⟨n, v⟩ := f
    intro data o hw h
    have hfw : fieldsWidth ((n, v) :: fs) = n + fieldsWidth fs := by simp [fieldsWidth]
    rw [hfw] at h ⊢
    simp only [List.flatMap_cons] at h
    have h1 : ((bits data).drop o).take n = fieldBits n v.toNat := by
      have := congrArg (List.take n) h
      rw [List.take_take, Nat.min_eq_left (by omega), List.take_append_of_le_length (by simp),
        List.take_of_length_le (l := fieldBits n v.toNat) (by simp)] at this
      exact this
    have h2 : ((bits data).drop (o + n)).take (fieldsWidth fs) = fs.flatMap (fun f => fieldBits f.1 f.2.toNat) := by
      have := congrArg (List.drop n) h
      rw [List.drop_take, List.drop_drop, Nat.add_sub_cancel_left, List.drop_append_of_le_length (by simp),
        List.drop_eq_nil_of_le (as := fieldBits n v.toNat) (by simp)] at this
      exact this
    simp only [List.map_cons, readFields, BitsReader.read]
    rw [readBits_eq, h1, bitsVal_fieldBits]
    simp only [ok_bind, pure_def]
    have : ((o : Int) + (n : Int)) = ((o + n : Nat) : Int) := by omega
    rw [this, ih data (o + n) (fun f hf => hw f (List.mem_cons_of_mem _ hf)) h2]
    simp only [ok_bind]
    congr 3; omega

/-- **C03** any list of fields of width at most 64 that fits is read back, field by field, with the same widths; every
value comes back truncated to its width. -/
theorem C03_fields_roundtrip (data : Bytes) (o : Nat) (fs : List (Nat × BitVec 64)) (hw : ∀ f ∈ fs, f.1 ≤ 64)
    (hfit : o + fieldsWidth fs ≤ 8 * data.length) :
    ∃ d', writeFields ⟨data, o⟩ fs = ok ⟨d', ((o + fieldsWidth fs : Nat) : Int)⟩ ∧
      readFields ⟨d', o⟩ (fs.map (·.1)) =
        ok (fs.map (fun f => BitVec.ofNat 64 (f.2.toNat % 2 ^ f.1)), ⟨d', ((o + fieldsWidth fs : Nat) : Int)⟩) := by
  obtain ⟨d', h1, h2, h3⟩ := writeFields_spec fs data o hfit
  refine ⟨d', h1, readFields_spec fs d' o hw ?_⟩
  have hl : ∀ fs : List (Nat × BitVec 64), (fs.flatMap fun f => fieldBits f.1 f.2.toNat).length = fieldsWidth fs := by
    intro fs; simp [fieldsWidth, List.length_flatMap]
  rw [h3, ← hl fs]
  exact take_drop_overwrite (by rw [hl]; simpa using hfit)

/-! Non-vacuity: concrete cases that meet the hypotheses. -/

example : (13 : Nat) ≤ 64 ∧ 5 + 13 ≤ 8 * ([0xFF, 0x00, 0xAA] : Bytes).length := by decide
example : writeBits [0xFF, 0x00, 0xAA] 5 13 0x1234 = ok [0xFC, 0x8D, 0x2A] := by decide +kernel
example : readBits [0xFC, 0x8D, 0x2A] 5 13 = ok 0x1234 := by decide +kernel
example : (∀ f ∈ [((3 : Nat), (5 : BitVec 64)), (11, 1000), (7, 77)], f.1 ≤ 64) ∧
    1 + fieldsWidth [((3 : Nat), (5 : BitVec 64)), (11, 1000), (7, 77)] ≤ 8 * ([1, 2, 3] : Bytes).length := by decide
example : (-9 : Int) ≤ -8 := by decide

end Avf
