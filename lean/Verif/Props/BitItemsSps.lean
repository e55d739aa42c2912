import Verif.Props.BitItems
import Verif.Props.Sps
/-!
# C128: parameter sets that were written with the bit writer
-/
namespace Avf
open Go

/-- The bits that the fields stand for. -/
def spelled (fs : List (Nat × BitVec 64)) : List Bool := fs.flatMap fun f => fieldBits f.1 f.2.toNat

theorem writeFields_start (data : Bytes) (fs : List (Nat × BitVec 64)) (hfit : fieldsWidth fs ≤ 8 * data.length) :
    ∃ d', writeFields ⟨data, 0⟩ fs = ok ⟨d', (fieldsWidth fs : Nat)⟩ ∧ bits d' = spelled fs ++ (bits data).drop (fieldsWidth fs) := by
  obtain ⟨d', h1, _, h3⟩ := writeFields_spec fs data 0 (by omega)
  have hl := length_fields fs
  rw [overwrite_fit (by rw [hl]; simpa using hfit), hl, List.take_zero, List.nil_append, Nat.zero_add] at h3
  rw [Nat.zero_add] at h1
  exact ⟨d', h1, h3⟩

/-- **C128** an H.264 parameter set, written with a `BitsWriter` in fields of any widths into any memory, is parsed to what was written. -/
theorem C128_avc_sps (undef : Int) (s : H264Sps) (h : s.Ok) (hk : s.Known) (fs : List (Nat × BitVec 64)) (hf : spelled fs = s.bits)
    (data : Bytes) (hfit : fieldsWidth fs ≤ 8 * data.length) (code : Bytes) (hc : code ∈ spsCodes) (hdr : Byte) (hh : hdr ≠ 0) :
    ∃ d' r, writeFields ⟨data, 0⟩ fs = ok ⟨d', (fieldsWidth fs : Nat)⟩ ∧ avcParseSPS undef (code ++ hdr :: d') = ok r ∧ SpsReported s r := by
  obtain ⟨d', h1, h2⟩ := writeFields_start data fs hfit
  rw [hf] at h2
  obtain ⟨r, e1, e2⟩ := C48_parse_partial undef s h hk code hc hdr hh d' _ h2
  exact ⟨d', r, h1, e1, e2⟩

/-- **C128** the same for H.265, where the bytes that were written are escaped. -/
theorem C128_hevc_sps (s : H265Sps) (h : s.Ok) (fs : List (Nat × BitVec 64)) (hf : spelled fs = s.bits)
    (data : Bytes) (hfit : fieldsWidth fs ≤ 8 * data.length) (code : Bytes) (hc : code ∈ spsCodes) (h0 h1 : Byte) (hh : h0 ≠ 0) :
    ∃ d' r, writeFields ⟨data, 0⟩ fs = ok ⟨d', (fieldsWidth fs : Nat)⟩ ∧ hevcParseSPS (code ++ h0 :: h1 :: escape d') = ok r ∧ HevcReported s r := by
  obtain ⟨d', e1, e2⟩ := writeFields_start data fs hfit
  rw [hf] at e2
  obtain ⟨r, e3, e4⟩ := C51_parse s h code hc h0 h1 hh d' _ e2
  exact ⟨d', r, e1, e3, e4⟩

/-- One field for each bit. -/
def bitFields (l : List Bool) : List (Nat × BitVec 64) := l.map fun b => (1, if b then 1 else 0)

theorem spelled_bitFields (l : List Bool) : spelled (bitFields l) = l := by
  induction l with
  | nil => rfl
  | cons b l ih =>
    show fieldBits 1 (if b then (1 : BitVec 64) else 0).toNat ++ spelled (bitFields l) = b :: l
    rw [ih]
    cases b <;> rfl

/-- **C128** so whatever parameter set there is, it can be written. -/
theorem C128_spelled (l : List Bool) : ∃ fs, spelled fs = l ∧ fieldsWidth fs = l.length := by
  refine ⟨bitFields l, spelled_bitFields l, ?_⟩
  rw [← length_fields]
  exact congrArg List.length (spelled_bitFields l)

theorem Golomb.readSingles (o : Nat) : ∀ g : Golomb, g.Ok → o ≤ g.todo.length →
    ∃ g', g.readItems (List.replicate o (.field 1 0)) = ok ((g.todo.take o).map Bool.toNat, g') ∧ g'.Ok ∧ g'.todo = g.todo.drop o := by
  induction o with
  | zero => intro g hg _; exact ⟨g, rfl, hg, rfl⟩
  | succ o ih =>
    intro g hg hl
    obtain ⟨v, g1, e1, e2, e3, e4⟩ := (Golomb.C11_readBits g hg 1 (by omega)).1 (by omega)
    obtain ⟨g2, f1, f2, f3⟩ := ih g1 e3 (by rw [e4, List.length_drop]; omega)
    refine ⟨g2, ?_, f2, by rw [f3, e4, List.drop_drop, Nat.add_comm]⟩
    rw [List.replicate_succ, readItems, BitItem.readBy]
    erw [e1]
    rw [ok_bind]
    dsimp only
    rw [f1, ok_bind, e2, e4]
    cases ht : g.todo with
    | nil => rw [ht] at hl; simp at hl
    | cons b l => cases b <;> rfl

/-- **C128** the readers of the theorems above exist before each bit: one gets there by reading bit by bit, and reads the bits themselves. -/
theorem C128_everywhere (data : Bytes) (o : Nat) (ho : o ≤ 8 * data.length) :
    ∃ g, (Golomb.ofBytes data).readItems (List.replicate o (.field 1 0)) = ok (((bits data).take o).map Bool.toNat, g) ∧ g.Ok ∧
      g.todo = (bits data).drop o := by
  obtain ⟨h1, h2⟩ := Golomb.C11_start data
  have := Golomb.readSingles o (Golomb.ofBytes data) h1 (by rw [h2]; simpa using ho)
  rwa [h2] at this

/-- A parameter set with all options, written bit by bit over 60 bytes of ones. -/
example : ∃ d' r, writeFields ⟨List.replicate 60 0xFF#8, 0⟩ (bitFields exFull.bits) = ok ⟨d', 329⟩ ∧
    avcParseSPS 0 ([0, 0, 0, 1] ++ 0x67 :: d') = ok r ∧ SpsReported exFull r := by
  have hw : fieldsWidth (bitFields exFull.bits) = 329 := by decide +kernel
  obtain ⟨d', r, h1, h2, h3⟩ := C128_avc_sps 0 exFull exFull_ok (fun _ => ⟨by decide, by decide⟩) (bitFields exFull.bits)
    (spelled_bitFields _) (List.replicate 60 0xFF#8) (by rw [hw]; decide) [0, 0, 0, 1] (by decide) 0x67 (by decide)
  rw [hw] at h1
  exact ⟨d', r, h1, h2, h3⟩

end Avf
