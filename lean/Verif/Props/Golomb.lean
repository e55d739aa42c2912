import Verif.Lemmas.Golomb
/-!
# C11–C13: the Exp-Golomb bit reader (`bufio/golomb_reader.go`)

`g.todo` is the bit string the reader has not delivered yet; for a fresh reader it is `bits data`.
-/
namespace Avf
open Go
namespace Golomb

/-- What a bit reader has to do for an `n`-bit field: deliver the number formed by the next `n` bits and leave exactly the
rest, or fail with EOF if fewer than `n` bits are left. -/
def ReadsField {w : Nat} (r : Go (BitVec w × Golomb)) (g : Golomb) (n : Nat) : Prop :=
  (n ≤ g.todo.length → ∃ v g', r = ok (v, g') ∧ v.toNat = bitsVal (g.todo.take n) ∧ g'.Ok ∧ g'.todo = g.todo.drop n) ∧
  (g.todo.length < n → r = err "EOF")

theorem bitsVal_take_lt (l : List Bool) (n w : Nat) (h : n ≤ w) : bitsVal (l.take n) < 2 ^ w := by
  refine Nat.lt_of_lt_of_le (bitsVal_lt _) (Nat.pow_le_pow_right (by omega) ?_)
  rw [List.length_take]; omega

/-- **C11** `ReadBits(n)`, `n ≤ 64`. -/
theorem C11_readBits (g : Golomb) (hg : g.Ok) (n : Nat) (hn : n ≤ 64) : ReadsField (g.readBits n) g n := by
  obtain ⟨h1, h2⟩ := readBitsLoop_spec n 0 g hg
  constructor
  · intro h
    obtain ⟨g', e1, e2, e3⟩ := h1 h
    refine ⟨_, g', by simpa [readBits] using e1, ?_, e2, e3⟩
    rw [BitVec.toNat_ofNat, Nat.mod_eq_of_lt (bitsVal_take_lt _ _ _ hn)]
  · intro h; simpa [readBits] using h2 h

/-- **C11** `ReadBits32(n)`, `n ≤ 32`. -/
theorem C11_readBits32 (g : Golomb) (hg : g.Ok) (n : Nat) (hn : n ≤ 32) : ReadsField (g.readBits32 n) g n := by
  obtain ⟨h1, h2⟩ := readBits32Loop_spec n 0 g hg
  constructor
  · intro h
    obtain ⟨g', e1, e2, e3⟩ := h1 h
    refine ⟨_, g', by simpa [readBits32] using e1, ?_, e2, e3⟩
    rw [BitVec.toNat_ofNat, Nat.mod_eq_of_lt (bitsVal_take_lt _ _ _ hn)]
  · intro h; simpa [readBits32] using h2 h

/-- **C11** `ReadBits64(n)`, `n ≤ 64`. -/
theorem C11_readBits64 (g : Golomb) (hg : g.Ok) (n : Nat) (hn : n ≤ 64) : ReadsField (g.readBits64 n) g n := by
  obtain ⟨h1, h2⟩ := readBits64Loop_spec n 0 g hg
  constructor
  · intro h
    obtain ⟨g', e1, e2, e3⟩ := h1 h
    refine ⟨_, g', by simpa [readBits64] using e1, ?_, e2, e3⟩
    rw [BitVec.toNat_ofNat, Nat.mod_eq_of_lt (bitsVal_take_lt _ _ _ hn)]
  · intro h; simpa [readBits64] using h2 h

/-- **C11** `ReadBit`. -/
theorem C11_readBit (g : Golomb) (hg : g.Ok) : ReadsField g.readBit g 1 := by
  constructor
  · intro h
    cases ht : g.todo with
    | nil => rw [ht] at h; simp at h
    | cons b bs =>
      obtain ⟨g', h1, h2, h3⟩ := readBit_cons hg ht
      exact ⟨_, g', h1, by cases b <;> rfl, h2, by simpa using h3⟩
  · intro h
    exact readBit_nil (List.length_eq_zero_iff.mp (by omega)) hg

/-- **C11** a reader made from bytes starts with exactly their bits. -/
theorem C11_start (d : Bytes) : (ofBytes d).Ok ∧ (ofBytes d).todo = bits d := ⟨ok_ofBytes d, todo_ofBytes d⟩

/-- **C12** the code word of every `v < 2^33 - 1`, followed by anything, is decoded to `v`; exactly the code word is
consumed. -/
theorem C12_ue_roundtrip (g : Golomb) (hg : g.Ok) (v : Nat) (hv : v < 2 ^ 33 - 1) (rest : List Bool)
    (h : g.todo = ueBits v ++ rest) :
    ∃ r g', g.readUE = ok (r, g') ∧ r.toNat = v ∧ g'.Ok ∧ g'.todo = rest := by
  have hk : Nat.log2 (v + 1) ≤ 32 := by
    have := (Nat.log2_lt (n := v + 1) (k := 33) (by omega)).mpr (by omega)
    omega
  have hlo : 2 ^ Nat.log2 (v + 1) ≤ v + 1 := Nat.log2_self_le (by omega)
  have hhi : v + 1 < 2 ^ (Nat.log2 (v + 1) + 1) := Nat.lt_log2_self
  unfold ueBits at h
  generalize Nat.log2 (v + 1) = k at *
  have hbit : (v + 1).testBit k = true := by
    rw [Nat.testBit_eq_decide_div_mod_eq]
    have : (v + 1) / 2 ^ k = 1 := by
      rw [Nat.pow_succ] at hhi
      have h1 : 1 ≤ (v + 1) / 2 ^ k := (Nat.le_div_iff_mul_le (Nat.pow_pos (by omega))).mpr (by omega)
      have h2 : (v + 1) / 2 ^ k < 2 := (Nat.div_lt_iff_lt_mul (Nat.pow_pos (by omega))).mpr (by omega)
      omega
    rw [this]; rfl
  simp only [fieldBits, hbit, List.cons_append, List.append_assoc] at h
  obtain ⟨g1, h1, h2, h3⟩ := ueZeros_spec k 0 g true _ hg (by omega) (.inl rfl) h
  obtain ⟨h4, _⟩ := readBitsLoop_spec k 0 g1 h2
  obtain ⟨g', h5, h6, h7⟩ := h4 (by rw [h3]; simp)
  rw [h3] at h5 h7
  rw [List.take_append_of_le_length (by simp), List.take_of_length_le (by simp), bitsVal_fieldBits] at h5
  rw [List.drop_append_of_le_length (by simp), List.drop_eq_nil_of_le (by simp)] at h7
  refine ⟨BitVec.ofNat 64 ((v + 1) % 2 ^ k) + ((1 : BitVec 64) <<< k - 1), g', ?_, ?_, h6, by simpa using h7⟩
  · unfold readUE
    rw [h1]
    simp only [ok_bind, Nat.zero_add, readBits, Int.toNat_natCast]
    have e0 : (0 : BitVec 64) = BitVec.ofNat 64 (2 ^ k * 0) := by simp
    rw [e0, h5]
    simp only [ok_bind, pure_def, Nat.mul_zero, Nat.zero_add]
  · have hp : 2 ^ k ≤ 2 ^ 32 := Nat.pow_le_pow_right (by omega) hk
    have hp0 : 0 < 2 ^ k := Nat.pow_pos (by omega)
    have hmod : (v + 1) % 2 ^ k = v + 1 - 2 ^ k := by
      rw [Nat.mod_eq_sub_mod hlo, Nat.mod_eq_of_lt]
      rw [Nat.pow_succ] at hhi; omega
    have hsh : ((1 : BitVec 64) <<< k - 1).toNat = 2 ^ k - 1 := by
      rw [BitVec.toNat_sub, BitVec.toNat_shiftLeft]
      rw [show BitVec.toNat (1 : BitVec 64) = 1 from rfl, Nat.one_shiftLeft, Nat.mod_eq_of_lt (a := 2 ^ k) (by omega)]
      omega
    rw [BitVec.toNat_add, hsh, BitVec.toNat_ofNat, hmod]
    omega

/-- **C13** the full claim: `ReadSE` returns the 64-bit two's complement of the signed value. -/
def C13_claim : Prop := ∀ (g : Golomb) (v : Int) (rest : List Bool), g.Ok → -2 ^ 32 < v → v < 2 ^ 32 →
  g.todo = seBits v ++ rest → ∃ g', g.readSE = ok (BitVec.ofInt 64 v, g') ∧ g'.todo = rest

/-- **C13** is false of the code: the code word `011` of -1 is decoded to 2^63 - 1. -/
theorem C13_se_violated : ¬ C13_claim := by
  intro h
  obtain ⟨g', h1, _⟩ := h (ofBytes [0x60]) (-1) [false, false, false, false, false] (by simp) (by decide) (by decide)
    (by decide +kernel)
  have : (ofBytes [0x60]).readSE = ok (BitVec.ofNat 64 (2 ^ 63 - 1), ⟨[], 0x60, 5⟩) := by decide +kernel
  rw [this] at h1
  simp only [Go.ok.injEq, Prod.mk.injEq] at h1
  exact absurd h1.1 (by decide)

/-- **C13** (partial: negative values come out without their sign bit).  For every signed value in range the decoder
consumes exactly the code word; for `v ≥ 0` the result is exact, for `v < 0` it is `2^63 + v`. -/
theorem C13_se_partial (g : Golomb) (hg : g.Ok) (v : Int) (hlo : -2 ^ 32 < v) (hhi : v < 2 ^ 32) (rest : List Bool)
    (h : g.todo = seBits v ++ rest) :
    ∃ r g', g.readSE = ok (r, g') ∧ (r.toNat : Int) = (if 0 ≤ v then v else 2 ^ 63 + v) ∧ g'.Ok ∧ g'.todo = rest := by
  obtain ⟨r, g', h1, h2, h3, h4⟩ := C12_ue_roundtrip g hg (seCode v) (by unfold seCode; split <;> omega) rest h
  have hand : (r &&& 1 ≠ 0) ↔ seCode v % 2 = 1 := by
    rw [Ne, ← BitVec.toNat_inj, BitVec.toNat_and, show BitVec.toNat (1 : BitVec 64) = 1 from rfl, h2,
      Nat.and_one_is_mod]
    simp
  unfold readSE
  rw [h1]
  simp only [ok_bind]
  by_cases hp : 0 < v
  · have hs : seCode v = (2 * v - 1).toNat := by simp [seCode, hp]
    rw [if_pos (hand.mpr (by omega))]
    refine ⟨_, g', rfl, ?_, h3, h4⟩
    rw [if_pos (by omega), BitVec.toNat_udiv, BitVec.toNat_add, h2, show BitVec.toNat (1 : BitVec 64) = 1 from rfl,
      show BitVec.toNat (2 : BitVec 64) = 2 from rfl]
    omega
  · have hs : seCode v = (-2 * v).toNat := by simp [seCode, hp]
    rw [if_neg (by rw [hand]; omega)]
    refine ⟨_, g', rfl, ?_, h3, h4⟩
    rw [BitVec.toNat_udiv, BitVec.toNat_neg, h2, show BitVec.toNat (2 : BitVec 64) = 2 from rfl]
    by_cases h0 : v = 0
    · subst h0; simp [hs]
    · rw [if_neg (by omega)]; omega

/-- **C13** (partial) hence the low 63 bits – in particular the low byte, which is what the scaling-list code uses – are
those of the signed value. -/
theorem C13_se_mod_partial (g : Golomb) (hg : g.Ok) (v : Int) (hlo : -2 ^ 32 < v) (hhi : v < 2 ^ 32) (rest : List Bool)
    (h : g.todo = seBits v ++ rest) :
    ∃ r g', g.readSE = ok (r, g') ∧ (r.toNat : Int) % 2 ^ 63 = v % 2 ^ 63 ∧ (r.toNat : Int) % 256 = v % 256 ∧
      g'.todo = rest := by
  obtain ⟨r, g', h1, h2, _, h4⟩ := C13_se_partial g hg v hlo hhi rest h
  refine ⟨r, g', h1, ?_, ?_, h4⟩ <;> (split at h2 <;> omega)

/-! Non-vacuity. -/
example : (ofBytes [0xA5, 0x3C]).todo.length = 16 ∧ (ofBytes [0xA5, 0x3C]).Ok := ⟨by decide +kernel, by simp⟩
example : (ofBytes [0xA5, 0x3C]).readBits 11 = ok (0b10100101001, ⟨[], 0x3C, 5⟩) := by decide +kernel
example : ueBits 7 = [false, false, false, true, false, false, false] := by decide +kernel
example : (ofBytes [0b00010001]).todo = ueBits 7 ++ [true] := by decide +kernel
example : seBits (-3) = ueBits 6 ∧ seBits 3 = ueBits 5 := by decide +kernel
example : (ofBytes [0b00111010]).todo = seBits (-3) ++ [false, true, false] := by decide +kernel

end Golomb
end Avf
