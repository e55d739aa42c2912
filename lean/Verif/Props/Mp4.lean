import Verif.Lemmas.Mp4Full
import Verif.Props.Nal
/-!
# C122: `avc.Mp4ToAnnexB` on a writer that is too small (`avc/util.go:126-145, 225-253`)

`copyNalU` drops the errors of the writer, and `Mp4ToAnnexB` returns nothing.
-/
namespace Avf
open Go

/-- **C122** what is written, for all units and any writer: each start code, each unit and each copy of the extra data whole or not at
all. One that does not fit does not keep the next from being written. The bytes before and after stay. -/
theorem C122_exact (us : List Bytes) (tail extra pre room : Bytes) (hus : ∀ u ∈ us, u ≠ [] ∧ u.length < 2 ^ 32) (ht : NoUnit 4 tail)
    (he : extra.length < 2 ^ 63) (hf : Fits pre room) :
    mp4ToAnnexB (cursor pre room) (avcc us ++ tail) extra =
      ok (cursor (pre ++ (writeFitting room.length (mp4Pieces extra [] 0 us)).flatten)
        (room.drop (writeFitting room.length (mp4Pieces extra [] 0 us)).flatten.length)) := by
  have := mp4Loop_any extra he us tail hus ht [] 0 (pre, room) hf
  rw [fillUp_eq] at this
  exact this

/-- **C122** it never panics, and it never writes behind the end of the writer. -/
theorem C122_total (data extra pre room : Bytes) (he : extra.length < 2 ^ 63) (hf : Fits pre room) :
    ∃ out, mp4ToAnnexB (cursor pre room) data extra = ok (cursor (pre ++ out) (room.drop out.length)) ∧ out.length ≤ room.length := by
  obtain ⟨us, tail, rfl, hus, ht⟩ := C32_decompose data
  exact ⟨_, C122_exact us tail extra pre room hus ht he hf, writeFitting_length _ _⟩

/-- **C122** the pieces are those of the conversion (C37). -/
theorem C122_pieces (extra : Bytes) (us : List Bytes) : (mp4Pieces extra [] 0 us).flatten = toAnnexB (fun _ => false) extra [] [] us := by
  have := pieces_flatten extra us [] []
  simpa using this.symm

/-- **C122** all of the conversion is written exactly if there is room for it. -/
theorem C122_complete_iff (us : List Bytes) (tail extra pre room : Bytes) (hus : ∀ u ∈ us, u ≠ [] ∧ u.length < 2 ^ 32) (ht : NoUnit 4 tail)
    (he : extra.length < 2 ^ 63) (hf : Fits pre room) :
    (∃ w, mp4ToAnnexB (cursor pre room) (avcc us ++ tail) extra = ok w ∧ w.writtenBytes = ok (pre ++ toAnnexB (fun _ => false) extra [] [] us)) ↔
      (toAnnexB (fun _ => false) extra [] [] us).length ≤ room.length := by
  rw [C122_exact us tail extra pre room hus ht he hf, ← C122_pieces]
  constructor
  · rintro ⟨w, h1, h2⟩
    cases h1
    rw [cursor_writtenBytes] at h2
    have h3 := List.append_cancel_left (Go.ok.inj h2)
    rw [← h3]
    exact writeFitting_length _ _
  · intro h
    refine ⟨_, rfl, ?_⟩
    rw [cursor_writtenBytes, writeFitting_all _ _ h]

/-- **C122** a writer as long as the packet is long enough if there is no extra data, whatever the packet. -/
theorem C122_enough (us : List Bytes) (tail pre room : Bytes) (hus : ∀ u ∈ us, u ≠ [] ∧ u.length < 2 ^ 32) (ht : NoUnit 4 tail)
    (hf : Fits pre room) (hr : (avcc us ++ tail).length ≤ room.length) :
    ∃ w, mp4ToAnnexB (cursor pre room) (avcc us ++ tail) [] = ok w ∧ w.writtenBytes = ok (pre ++ toAnnexB (fun _ => false) [] [] [] us) := by
  refine (C122_complete_iff us tail [] pre room hus ht (by decide) hf).2 ?_
  have := toAnnexB_length_le (fun _ => false) us [] []
  rw [List.length_append] at hr
  simp only [List.length_nil, Nat.zero_add] at this
  omega

/-- What one would expect of a writer that is too small: it gets the conversion of the first units. -/
def C122_claim : Prop := ∀ (us : List Bytes) (extra pre room : Bytes), (∀ u ∈ us, u ≠ [] ∧ u.length < 2 ^ 32) → Fits pre room →
  ∃ n w, mp4ToAnnexB (cursor pre room) (avcc us) extra = ok w ∧ w.writtenBytes = ok (pre ++ toAnnexB (fun _ => false) extra [] [] (us.take n))

/-- **C122** what is written may be the conversion of a unit that was not there: the start code of the second unit does not fit, the unit
does, and becomes the end of the first. Nothing tells the caller. -/
theorem C122_glued : mp4ToAnnexB (cursor [] (List.replicate 8 0)) (avcc [[0x65, 1, 2], [0x41]]) [] =
    ok (cursor (toAnnexB (fun _ => false) [] [] [] [[0x65, 1, 2, 0x41]]) []) := by decide +kernel

theorem C122_claim_violated : ¬ C122_claim := by
  intro h
  obtain ⟨n, w, h1, h2⟩ := h [[0x65, 1, 2], [0x41]] [] [] (List.replicate 8 0) (by decide) (by unfold Fits; decide)
  rw [C122_glued] at h1
  cases h1
  rw [cursor_writtenBytes] at h2
  have h3 := Go.ok.inj h2
  match n with
  | 0 => exact absurd h3 (by decide +kernel)
  | 1 => exact absurd h3 (by decide +kernel)
  | n + 2 => exact absurd h3 (by simp only [List.take_succ_cons, List.take_nil]; decide +kernel)

/-- **C122** a unit that does not fit leaves its start code behind. -/
example : mp4ToAnnexB (cursor [9] (List.replicate 8 0xff)) (avcc [[0x65, 1, 2, 3, 4], [0x41]]) [] =
    ok (cursor [9, 0, 0, 0, 1, 0, 0, 1, 0x41] []) := by decide +kernel

/-- The hypotheses of `C122_exact` hold of a packet with extra data and a cut unit at its end. -/
example : (∀ u ∈ [[0x65, 1, 2], [0x41]], u ≠ [] ∧ u.length < 2 ^ 32) ∧
    mp4ToAnnexB (cursor [] (List.replicate 10 0)) (avcc [[0x65, 1, 2], [0x41]] ++ [0, 0, 0, 9, 1]) [0, 0, 0, 1, 0x67, 7] =
      ok (cursor [0, 0, 0, 1, 0x67, 7, 0, 0, 1, 0x41] []) := by decide +kernel

end Avf
