import Verif.Lemmas.Codec
import Verif.Spec.Packet
/-! # Helper lemmas for packet conversion -/
namespace Avf
open Go

theorem leadByte_ok {p : Bytes} (h : p ∉ [[0], [0, 0], [0, 0, 0]]) :
    (removeStartCode p >>= fun d => idx d 0) = match leadByte p with | some b => ok b | none => panic := by
  rcases p with _ | ⟨a, _ | ⟨b, _ | ⟨c, _ | ⟨d, r⟩⟩⟩⟩
  · rfl
  · by_cases ha : a = 0#8
    · subst ha; simp at h
    · simp [removeStartCode, idx, leadByte, ha]
  · by_cases ha : a = 0#8
    · subst ha
      by_cases hb : b = 0#8
      · subst hb; simp at h
      · simp [removeStartCode, idx, leadByte, hb]
    · simp [removeStartCode, idx, leadByte, ha]
  · by_cases ha : a = 0#8
    · subst ha
      by_cases hb : b = 0#8
      · subst hb
        by_cases hc : c = 0#8
        · subst hc; simp at h
        · by_cases hc1 : c = 1#8
          · subst hc1; simp [removeStartCode, idx, leadByte, sliceFrom]
          · simp [removeStartCode, idx, leadByte, hc, hc1]
      · simp [removeStartCode, idx, leadByte, hb]
    · simp [removeStartCode, idx, leadByte, ha]
  · by_cases ha : a = 0#8
    · subst ha
      by_cases hb : b = 0#8
      · subst hb
        by_cases hc : c = 0#8
        · subst hc
          by_cases hd : d = 1#8
          · subst hd
            cases r <;> simp [removeStartCode, idx, leadByte, sliceFrom]
          · simp [removeStartCode, idx, leadByte, hd]
        · by_cases hc1 : c = 1#8
          · subst hc1; simp [removeStartCode, idx, leadByte, sliceFrom]
          · simp [removeStartCode, idx, leadByte, hc, hc1]
      · simp [removeStartCode, idx, leadByte, hb]
    · simp [removeStartCode, idx, leadByte, ha]

/-- Without extra data H.265 units only get start codes. -/
theorem hevcToAnnexB_nil (us : List Bytes) : hevcToAnnexB [] us = us.flatMap ([0, 0, 0, 1] ++ ·) := by
  induction us with
  | nil => rfl
  | cons u us ih =>
    rw [hevcToAnnexB]
    split
    · simp
    · rw [ih]; simp

/-- Writing as many bytes as there are. -/
theorem overwrite_all {α : Type} {a b : List α} (h : a.length = b.length) : overwrite a 0 b = b := by
  rw [overwrite_fit (by omega)]; simp; omega

theorem overwrite_empty {α : Type} (b : List α) : overwrite [] 0 b = ([] : List α) := by simp [overwrite]

/-- The extra data that an AVCC packet gets in front. -/
def keyExtra (p : AVPacket) (c : CodecData) : Bytes := if p.key then c.annexBExtraData else []

theorem keyExtra_length (p : AVPacket) (c : CodecData) : (if p.key = true then c.annexBExtraData.length else 0) = (keyExtra p c).length := by
  unfold keyExtra; split <;> rfl

/-- The end of the AVCC branch of `avccPacket2AnnexB`. -/
theorem avcc_finish (p : AVPacket) (c : CodecData) (pre out post : Bytes) (hpre : pre.length = (keyExtra p c).length) :
    (do let head ← slice (pre ++ out ++ post) 0 (keyExtra p c).length
        let bytes := overwrite head 0 c.annexBExtraData ++ (pre ++ out ++ post).drop (keyExtra p c).length
        let r ← slice bytes 0 (out.length + (keyExtra p c).length)
        return (r, { p with dataAnnexB := some r }) : Go (Bytes × AVPacket)) =
      ok (keyExtra p c ++ out, { p with dataAnnexB := some (keyExtra p c ++ out) }) := by
  rw [slice_of_le (by omega) (by simp; omega), ok_bind]
  have h1 : ((pre ++ out ++ post).take (keyExtra p c).length).drop 0 = pre := by
    rw [← hpre, List.append_assoc, List.take_left]; rfl
  have h2 : (pre ++ out ++ post).drop (keyExtra p c).length = out ++ post := by
    rw [← hpre, List.append_assoc, List.drop_left]
  have h3 : overwrite pre 0 c.annexBExtraData = keyExtra p c := by
    unfold keyExtra at hpre ⊢
    split
    · rename_i hk; rw [if_pos hk] at hpre; exact overwrite_all hpre
    · rename_i hk; rw [if_neg hk] at hpre
      rw [List.length_eq_zero_iff.1 hpre]; exact overwrite_empty _
  rw [h1, h2, h3]
  dsimp only
  rw [slice_of_le (by omega) (by simp; omega), ok_bind]
  have h4 : (keyExtra p c ++ (out ++ post)).take (out.length + (keyExtra p c).length) = keyExtra p c ++ out := by
    rw [← List.append_assoc, List.take_append_of_le_length (by simp; omega), List.take_of_length_le (by simp; omega)]
  rw [h4]
  rfl

end Avf
