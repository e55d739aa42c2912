import Verif.Spec.BitItems
import Verif.Props.Bits
import Verif.Props.Golomb
/-!
# C128: the bit readers agree with each other and with the bit writer
-/
namespace Avf
open Go

/-- **C128** in step: a `BitsReader` and a `GolombBitReader` before the same bit read the same field and are then before the same bit again; at the
end of the data one reads the bits that are left as a shorter number and the other fails. -/
theorem C128_in_step (data : Bytes) (o n : Nat) (hn : n ≤ 64) (g : Golomb) (hg : g.Ok) (hs : g.todo = (bits data).drop o) :
    ∃ v, (⟨data, o⟩ : BitsReader).read n = ok (v, ⟨data, ((o + n : Nat) : Int)⟩) ∧
      if n ≤ 8 * data.length - o then
        (∃ g', g.readBits n = ok (v, g') ∧ g'.Ok ∧ g'.todo = (bits data).drop (o + n)) ∧
        ∃ g', g.readBits64 n = ok (v, g') ∧ g'.Ok ∧ g'.todo = (bits data).drop (o + n)
      else v.toNat = bitsVal g.todo ∧ g.readBits n = err "EOF" ∧ g.readBits64 n = err "EOF" := by
  obtain ⟨v, h1, h2⟩ := C04_readBits_value data o n hn
  refine ⟨v, ?_, ?_⟩
  · unfold BitsReader.read
    dsimp only
    rw [h1]
    simp only [ok_bind, pure_def]
    congr 3
  · have hl : g.todo.length = 8 * data.length - o := by rw [hs]; simp
    obtain ⟨a1, a2⟩ := Golomb.C11_readBits g hg n hn
    obtain ⟨b1, b2⟩ := Golomb.C11_readBits64 g hg n hn
    rw [← hs] at h2
    split
    · obtain ⟨v1, g1, e1, e2, e3, e4⟩ := a1 (by omega)
      obtain ⟨v2, g2, f1, f2, f3, f4⟩ := b1 (by omega)
      have ev1 : v1 = v := BitVec.eq_of_toNat_eq (by rw [e2, h2])
      have ev2 : v2 = v := BitVec.eq_of_toNat_eq (by rw [f2, h2])
      rw [hs, List.drop_drop] at e4 f4
      exact ⟨⟨g1, ev1 ▸ e1, e3, e4⟩, g2, ev2 ▸ f1, f3, f4⟩
    · refine ⟨?_, a2 (by omega), b2 (by omega)⟩
      rw [h2, List.take_of_length_le (by omega)]

theorem fieldBits_zero (n : Nat) : fieldBits n 0 = List.replicate n false := by
  induction n with
  | zero => rfl
  | succ n ih => simp [fieldBits, ih, List.replicate_succ]

/-- The bits of the fields of an item. -/
def BitItem.code (i : BitItem) : List Bool := i.fields.flatMap fun f => fieldBits f.1 f.2.toNat

theorem BitItem.code_ue (v : Nat) (h : v < 2 ^ 33 - 1) : (BitItem.ue v).code = ueBits v := by
  have : (BitVec.ofNat 64 (v + 1)).toNat = v + 1 := by
    rw [BitVec.toNat_ofNat, Nat.mod_eq_of_lt (by omega)]
  simp only [code, fields, ueBits, List.flatMap_cons, List.flatMap_nil, List.append_nil, this]
  rw [show (0 : BitVec 64).toNat = 0 from rfl, fieldBits_zero]

theorem BitItem.readBy_code (i : BitItem) (hi : i.Small) (g : Golomb) (hg : g.Ok) (rest : List Bool) (h : g.todo = i.code ++ rest) :
    ∃ r g', i.readBy g = ok (r, g') ∧ r.toNat = i.value ∧ g'.Ok ∧ g'.todo = rest := by
  cases i with
  | field n v =>
    have hc : g.todo = fieldBits n v.toNat ++ rest := by simpa [code, fields] using h
    obtain ⟨r, g', e1, e2, e3, e4⟩ := (Golomb.C11_readBits g hg n hi).1 (by rw [hc]; simp)
    refine ⟨r, g', e1, ?_, e3, ?_⟩
    · rw [e2, hc, List.take_append_of_le_length (by simp), List.take_of_length_le (by simp), bitsVal_fieldBits]
      rfl
    · rw [e4, hc, List.drop_append_of_le_length (by simp), List.drop_eq_nil_of_le (by simp), List.nil_append]
  | ue v =>
    rw [BitItem.code_ue v hi] at h
    exact Golomb.C12_ue_roundtrip g hg v hi rest h

theorem Golomb.readItems_code (is : List BitItem) : ∀ (g : Golomb) (rest : List Bool), g.Ok → (∀ i ∈ is, i.Small) →
    g.todo = is.flatMap BitItem.code ++ rest →
    ∃ g', g.readItems is = ok (is.map BitItem.value, g') ∧ g'.Ok ∧ g'.todo = rest := by
  induction is with
  | nil => intro g rest hg _ h; exact ⟨g, rfl, hg, by simpa using h⟩
  | cons i is ih =>
    intro g rest hg hi h
    rw [List.flatMap_cons, List.append_assoc] at h
    obtain ⟨r, g1, e1, e2, e3, e4⟩ := i.readBy_code (hi i (by simp)) g hg _ h
    obtain ⟨g2, f1, f2, f3⟩ := ih g1 rest e3 (fun j hj => hi j (by simp [hj])) e4
    refine ⟨g2, ?_, f2, f3⟩
    simp only [readItems, e1, ok_bind, f1, pure_def, e2, List.map_cons]

theorem length_fields (fs : List (Nat × BitVec 64)) : (fs.flatMap fun f => fieldBits f.1 f.2.toNat).length = fieldsWidth fs := by
  induction fs with
  | nil => rfl
  | cons f fs ih => simp only [List.flatMap_cons, List.length_append, ih, fieldBits_length, fieldsWidth, List.map_cons, List.sum_cons]

/-- **C128** syntax elements written with a `BitsWriter` at any bit of any data are read back by every `GolombBitReader` that stands before that bit.
The reader is then before the bit after them, and what lies before and after them is as it was. -/
theorem C128_written (data : Bytes) (o : Nat) (is : List BitItem) (hi : ∀ i ∈ is, i.Small)
    (hfit : o + fieldsWidth (is.flatMap BitItem.fields) ≤ 8 * data.length) :
    ∃ d', writeFields ⟨data, o⟩ (is.flatMap BitItem.fields) = ok ⟨d', ((o + fieldsWidth (is.flatMap BitItem.fields) : Nat) : Int)⟩ ∧
      d'.length = data.length ∧ (bits d').take o = (bits data).take o ∧
      ∀ g : Golomb, g.Ok → g.todo = (bits d').drop o →
        ∃ g', g.readItems is = ok (is.map BitItem.value, g') ∧ g'.Ok ∧
          g'.todo = (bits data).drop (o + fieldsWidth (is.flatMap BitItem.fields)) := by
  obtain ⟨d', h1, h2, h3⟩ := writeFields_spec (is.flatMap BitItem.fields) data o hfit
  have hl := length_fields (is.flatMap BitItem.fields)
  have hb : (bits data).length = 8 * data.length := by simp
  rw [overwrite_fit (by omega), hl] at h3
  have ht : ((bits data).take o).length = o := by rw [List.length_take]; omega
  refine ⟨d', h1, h2, ?_, ?_⟩
  · rw [h3, List.append_assoc, List.take_append_of_le_length (by omega), List.take_of_length_le (by omega)]
  · intro g hg hs
    apply Golomb.readItems_code is g _ hg hi
    rw [hs, h3, List.append_assoc, List.drop_append_of_le_length (by omega), List.drop_eq_nil_of_le (by omega), List.nil_append,
      List.flatMap_assoc]
    rfl

/-- **C128** from the first bit: what was written is read by the reader that the constructor returns. -/
theorem C128_from_start (data : Bytes) (is : List BitItem) (hi : ∀ i ∈ is, i.Small)
    (hfit : fieldsWidth (is.flatMap BitItem.fields) ≤ 8 * data.length) :
    ∃ d' g', writeFields ⟨data, 0⟩ (is.flatMap BitItem.fields) = ok ⟨d', (fieldsWidth (is.flatMap BitItem.fields) : Nat)⟩ ∧
      (Golomb.ofBytes d').readItems is = ok (is.map BitItem.value, g') ∧
      g'.todo = (bits data).drop (fieldsWidth (is.flatMap BitItem.fields)) := by
  obtain ⟨d', h1, _, _, h4⟩ := C128_written data 0 is hi (by omega)
  obtain ⟨g', e1, _, e3⟩ := h4 (Golomb.ofBytes d') (Golomb.C11_start d').1 (by rw [(Golomb.C11_start d').2, List.drop_zero])
  rw [Nat.zero_add] at h1 e3
  exact ⟨d', g', h1, e1, e3⟩

/-- **C128** limits of the agreement: with three bits left the readers part. -/
theorem C128_at_end : (do let (v, _) ← (⟨[0xA5#8], 5⟩ : BitsReader).read 4; return v : Go (BitVec 64)) = ok 5 ∧
    (do let (_, g) ← (Golomb.ofBytes [0xA5#8]).readBits 5; let (v, _) ← g.readBits 4; return v : Go (BitVec 64)) = err "EOF" := by
  refine ⟨?_, ?_⟩ <;> decide +kernel

/-- A field of three bits, `ue(6)`, `ue(0)`, a field of four bits into three bytes of ones. -/
example : writeFields ⟨[0xFF#8, 0xFF#8, 0xFF#8], 2⟩ ([.field 3 5, .ue 6, .ue 0, .field 4 9].flatMap BitItem.fields) =
    ok ⟨[0xE9#8, 0xF3#8, 0xFF#8], 15⟩ := by decide +kernel

example : ∃ d' g', writeFields ⟨[0xFF#8, 0xFF#8, 0xFF#8], 0⟩ ([.field 3 5, .ue 6, .ue 0, .field 4 9].flatMap BitItem.fields) = ok ⟨d', 13⟩ ∧
    (Golomb.ofBytes d').readItems [.field 3 5, .ue 6, .ue 0, .field 4 9] = ok ([5, 6, 0, 9], g') ∧ g'.todo = List.replicate 11 true := by
  obtain ⟨d', g', h1, h2, h3⟩ := C128_from_start [0xFF#8, 0xFF#8, 0xFF#8] [.field 3 5, .ue 6, .ue 0, .field 4 9]
    (by simp [BitItem.Small]) (by decide +kernel)
  have hw : fieldsWidth ([BitItem.field 3 5, .ue 6, .ue 0, .field 4 9].flatMap BitItem.fields) = 13 := by decide +kernel
  rw [hw] at h1 h3
  exact ⟨d', g', h1, h2, by rw [h3]; decide +kernel⟩

end Avf
