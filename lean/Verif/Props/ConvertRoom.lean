import Verif.Lemmas.ConvertRoom
import Verif.Props.Nal
/-!
# C123: the conversions to Annex B on a destination of any length

C32, C33 and C46 have a destination with enough room. `avc.AVCC2AnnexB` and `hevc.Mp4ToAnnexB` are exported and take the destination
from the caller; here it may be too short.
-/
namespace Avf
open Go

/-- **C123**: `AVCC2AnnexB` writes the conversion as far as there is room and returns the length of the whole conversion. It panics if
there is no room for what comes before the bytes of the last unit. With `C32_decompose` these are all inputs. -/
theorem C123_avcc (us : List Bytes) (tail extra dst : Bytes) (hus : ∀ u ∈ us, u ≠ [] ∧ u.length < 2 ^ 32) (ht : NoUnit 4 tail) :
    avcc2AnnexB dst (avcc us ++ tail) extra =
      if dst.length + lastLength (us.filter fun u => avcUnitType u ≠ 6) <
          (toAnnexB (fun u => decide (avcUnitType u = 6)) extra [] [] us).length then Go.panic
      else ok ((toAnnexB (fun u => decide (avcUnitType u = 6)) extra [] [] us).length,
        blit dst (toAnnexB (fun u => decide (avcUnitType u = 6)) extra [] [] us)) := by
  have hs : (fun u => decide (avcUnitType u = 6)) = isSEI := rfl
  have hfe : (us.filter fun u => avcUnitType u ≠ 6) = us.filter fun u => !isSEI u := by
    congr 1; funext u; simp [isSEI]
  have := avcc2AnnexBLoop_any extra dst us tail hus ht [] []
  rw [blit_nil] at this
  rw [hs, hfe]
  unfold avcc2AnnexB
  refine Eq.trans this ?_
  by_cases hn : us.filter (fun u => !isSEI u) = []
  · rw [if_neg (fun h => h.1 hn), if_neg]
    rw [toAnnexB_dropped _ _ _ _ _ hn]
    exact Nat.not_lt_zero _
  · simp only [ne_eq, hn, not_false_eq_true, true_and]

/-- **C123**: the same of `hevc.Mp4ToAnnexB`. If it does not panic, it fails exactly if something behind the units is not a unit.
With `C46_decompose` these are all inputs. -/
theorem C123_hevc (us : List Bytes) (tail extra dst : Bytes) (k : Nat) (hk : k ≤ 7)
    (hus : ∀ u ∈ us, 2 ≤ u.length ∧ u.length < 256 ^ k)
    (ht : tail = [] ∨ tail ≠ [] ∧ ∀ u rest, 2 ≤ u.length → u.length < 256 ^ k → tail ≠ avccUnit k u ++ rest) :
    hevcMp4ToAnnexB dst (lengthPrefixed k us ++ tail) extra k =
      if dst.length + lastLength us < (hevcToAnnexB extra us).length then Go.panic
      else if tail = [] then ok ((hevcToAnnexB extra us).length, blit dst (hevcToAnnexB extra us))
      else err "invalid data" := by
  have := hevcMp4Loop_any extra dst k hk us tail hus false []
  rw [blit_nil, List.nil_append] at this
  unfold hevcMp4ToAnnexB
  refine Eq.trans this ?_
  have ho : hevcOut extra false us = hevcToAnnexB extra us := rfl
  rw [ho]
  have hc : (us ≠ [] ∧ dst.length + lastLength us < (hevcToAnnexB extra us).length) ↔
      dst.length + lastLength us < (hevcToAnnexB extra us).length := by
    refine ⟨fun h => h.2, fun h => ⟨?_, h⟩⟩
    rintro rfl
    exact absurd h (Nat.not_lt_zero _)
  simp only [hc]
  rcases ht with rfl | ht
  · rw [hevcMp4Loop, dif_neg (by simp), if_pos rfl]
  · rw [hevcMp4Loop_bad hk ht, if_neg ht.1]

/-- **C123**: what the count says. If `AVCC2AnnexB` returns, then with any destination as long as the count it returns the same count, and
the bytes are the same as far as the shorter of the two goes. So a count that is not larger than the destination means that all is written. -/
theorem C123_avcc_count (p extra dst big d : Bytes) (n : Nat) (h : avcc2AnnexB dst p extra = ok (n, d)) (hb : n ≤ big.length) :
    ∃ b, avcc2AnnexB big p extra = ok (n, b) ∧ b.take (min n dst.length) = d.take (min n dst.length) := by
  obtain ⟨us, tail, rfl, hus, ht⟩ := C32_decompose p
  rw [C123_avcc us tail extra dst hus ht] at h
  split at h
  · cases h
  · cases h
    refine ⟨blit big (toAnnexB (fun u => decide (avcUnitType u = 6)) extra [] [] us), ?_, ?_⟩
    · rw [C123_avcc us tail extra big hus ht, if_neg (by omega)]
    · unfold blit
      rw [List.take_of_length_le hb, List.take_append_of_le_length (by omega),
        List.take_append_of_le_length (by rw [List.length_take]; omega), List.take_take]
      congr 1; omega

/-- **C123**: the same of `hevc.Mp4ToAnnexB`. -/
theorem C123_hevc_count (p extra dst big d : Bytes) (k n : Nat) (hk : k ≤ 7) (h : hevcMp4ToAnnexB dst p extra k = ok (n, d))
    (hb : n ≤ big.length) :
    ∃ b, hevcMp4ToAnnexB big p extra k = ok (n, b) ∧ b.take (min n dst.length) = d.take (min n dst.length) := by
  obtain ⟨us, tail, rfl, hus, ht⟩ := C46_decompose k p
  rw [C123_hevc us tail extra dst k hk hus ht] at h
  split at h
  · cases h
  · split at h
    · rename_i h0
      cases h
      refine ⟨blit big (hevcToAnnexB extra us), ?_, ?_⟩
      · rw [C123_hevc us tail extra big k hk hus ht, if_neg (by omega), if_pos h0]
      · unfold blit
        rw [List.take_of_length_le hb, List.take_append_of_le_length (by omega),
          List.take_append_of_le_length (by rw [List.length_take]; omega), List.take_take]
        congr 1; omega
    · cases h

/-- The claim: a destination that is too short does not go unnoticed, there is a panic or an error. -/
def C123_claim : Prop :=
  (∀ (dst p extra d : Bytes) (n : Nat), avcc2AnnexB dst p extra = ok (n, d) → n ≤ dst.length) ∧
  ∀ (dst p extra d : Bytes) (k n : Nat), k ≤ 7 → hevcMp4ToAnnexB dst p extra k = ok (n, d) → n ≤ dst.length

/-- When `AVCC2AnnexB` cuts the last unit and returns. -/
theorem C123_cut_iff (us : List Bytes) (tail extra dst : Bytes) (hus : ∀ u ∈ us, u ≠ [] ∧ u.length < 2 ^ 32) (ht : NoUnit 4 tail) :
    (∃ n d, avcc2AnnexB dst (avcc us ++ tail) extra = ok (n, d) ∧ dst.length < n) ↔
      dst.length < (toAnnexB (fun u => decide (avcUnitType u = 6)) extra [] [] us).length ∧
        (toAnnexB (fun u => decide (avcUnitType u = 6)) extra [] [] us).length ≤
          dst.length + lastLength (us.filter fun u => avcUnitType u ≠ 6) := by
  rw [C123_avcc us tail extra dst hus ht]
  constructor
  · rintro ⟨n, d, h, hl⟩
    split at h
    · cases h
    · cases h
      omega
  · rintro ⟨h1, h2⟩
    refine ⟨_, _, if_neg (by omega), h1⟩

/-- An SPS and an IDR unit of four bytes in a destination of eleven: the last two bytes are missing, and the count is 13. -/
theorem C123_cut : avcc2AnnexB (List.replicate 11 0) (avcc [[0x67, 1], [0x65, 1, 2, 3]]) [] =
    ok (13, [0, 0, 0, 1, 0x67, 1, 0, 0, 1, 0x65, 1]) := by decide +kernel

/-- One byte less than the bytes before the last unit. -/
example : avcc2AnnexB (List.replicate 8 0) (avcc [[0x67, 1], [0x65, 1, 2, 3]]) [] = Go.panic := by decide +kernel
example : avcc2AnnexB (List.replicate 9 0) (avcc [[0x67, 1], [0x65, 1, 2, 3]]) [] =
    ok (13, [0, 0, 0, 1, 0x67, 1, 0, 0, 1]) := by decide +kernel
/-- An SEI unit at the end does not count. -/
example : avcc2AnnexB (List.replicate 5 0) (avcc [[0x65, 1, 2, 3], [6, 5, 5, 5]]) [] = ok (8, [0, 0, 0, 1, 0x65]) := by decide +kernel
/-- The extra data is cut too, but then the unit behind it panics. -/
example : avcc2AnnexB (List.replicate 3 0) (avcc [[0x65]]) [1, 2, 3] = Go.panic := by decide +kernel
example : hevcMp4ToAnnexB (List.replicate 7 9) (lengthPrefixed 2 [[0x26, 1, 2, 3]]) [] 2 = ok (8, [0, 0, 0, 1, 0x26, 1, 2]) := by decide +kernel
example : hevcMp4ToAnnexB (List.replicate 9 9) (lengthPrefixed 2 [[2, 1], [0x26, 1, 2, 3]]) [] 2 = Go.panic := by decide +kernel
/-- The panic comes before the error. -/
example : hevcMp4ToAnnexB (List.replicate 9 9) (lengthPrefixed 2 [[2, 1], [0x26, 1, 2, 3]] ++ [0]) [] 2 = Go.panic := by decide +kernel
example : hevcMp4ToAnnexB (List.replicate 10 9) (lengthPrefixed 2 [[2, 1], [0x26, 1, 2, 3]] ++ [0]) [] 2 = err "invalid data" := by
  decide +kernel

theorem C123_claim_violated : ¬ C123_claim := by
  intro h
  have := h.1 _ _ _ _ _ C123_cut
  rw [List.length_replicate] at this
  exact absurd this (by decide)

end Avf
