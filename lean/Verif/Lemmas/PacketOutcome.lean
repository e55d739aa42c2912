import Verif.Props.Packet
import Verif.Props.Nal
import Verif.Spec.PacketOutcome
/-! # Lemmas for C120 -/
namespace Avf
open Go

theorem lead_panics {p : Bytes} (h : ∀ b, ¬ Leads p b) : (removeStartCode p >>= fun d => idx d 0) = Go.panic := by
  by_cases hs : p ∈ [[0], [0, 0], [0, 0, 0]]
  · simp only [List.mem_cons, List.not_mem_nil, or_false] at hs
    rcases hs with rfl | rfl | rfl <;> rfl
  · rw [leadByte_ok hs]
    cases e : leadByte p with
    | none => rfl
    | some b => exact absurd ⟨e, hs⟩ (h b)

theorem lead_ok {p : Bytes} {b : Byte} (h : Leads p b) : (removeStartCode p >>= fun d => idx d 0) = ok b := by
  rw [leadByte_ok h.2, h.1]

theorem copyAt_length {α : Type} {dst src d : List α} {off : Nat} (h : copyAt dst off src = ok d) : d.length = dst.length := by
  unfold copyAt at h
  split at h
  · rename_i hl
    cases h
    exact length_overwrite hl
  · cases h

/-- One unit of `hevc.Mp4ToAnnexB` without extra data, whatever room there is. -/
theorem hevcMp4Loop_count {dst : Bytes} {k n : Nat} {seen : Bool} (hk : k ≤ 7) {u rest : Bytes} (h2 : 2 ≤ u.length)
    (hlt : u.length < 256 ^ k) {m : Nat} {d : Bytes} (h : hevcMp4Loop [] k dst (avccUnit k u ++ rest) n seen = ok (m, d)) :
    ∃ dst' seen', dst'.length = dst.length ∧ hevcMp4Loop [] k dst' rest (n + 4 + u.length) seen' = ok (m, d) := by
  have htake : (avccUnit k u ++ rest).take k = beBytes k u.length := by
    rw [avccUnit, List.append_assoc, List.take_append_of_le_length (by simp), List.take_of_length_le (by simp)]
  have hdropk : (avccUnit k u ++ rest).drop k = u ++ rest := by
    rw [avccUnit, List.append_assoc, List.drop_append_of_le_length (by simp), List.drop_of_length_le (by simp)]; rfl
  rw [hevcMp4Loop, dif_pos (by rw [List.length_append, length_avccUnit]; omega),
    if_neg (by rw [List.length_append, length_avccUnit]; omega)] at h
  simp only [htake, hdropk] at h
  have hsize : lengthField (beBytes k u.length) = u.length := by
    rw [lengthField_eq _ (by simpa using hk), beNat_beBytes, Nat.mod_eq_of_lt hlt]
  simp only [hsize, Int.toNat_natCast] at h
  rw [dif_neg (by rw [List.length_append]; omega)] at h
  obtain ⟨b, -, h⟩ := bind_eq_ok.1 h
  simp only [List.length_nil, gt_iff_lt, Nat.lt_irrefl, and_false, if_false, ok_bind, List.drop_left] at h
  obtain ⟨d1, e1, h⟩ := bind_eq_ok.1 h
  obtain ⟨bs, -, h⟩ := bind_eq_ok.1 h
  obtain ⟨d2, e2, h⟩ := bind_eq_ok.1 h
  exact ⟨d2, _, (copyAt_length e2).trans (copyAt_length e1), h⟩

theorem hevcMp4Loop_counts {k : Nat} (hk : k ≤ 7) (us : List Bytes) (tail : Bytes) (hus : ∀ u ∈ us, 2 ≤ u.length ∧ u.length < 256 ^ k)
    (ht : tail = [] ∨ BadUnit k tail) : ∀ {dst : Bytes} {n : Nat} {seen : Bool} {m : Nat} {d : Bytes},
    hevcMp4Loop [] k dst (lengthPrefixed k us ++ tail) n seen = ok (m, d) →
      tail = [] ∧ m = n + (us.flatMap (([0, 0, 0, 1] : Bytes) ++ ·)).length ∧ d.length = dst.length := by
  induction us with
  | nil =>
    intro dst n seen m d h
    simp only [lengthPrefixed, List.flatMap_nil, List.nil_append, List.length_nil] at h ⊢
    rcases ht with rfl | ht
    · rw [hevcMp4Loop, dif_neg (by simp)] at h
      cases h
      exact ⟨rfl, rfl, rfl⟩
    · rw [hevcMp4Loop_bad hk ht] at h
      cases h
  | cons u us ih =>
    intro dst n seen m d h
    have hform : lengthPrefixed k (u :: us) ++ tail = avccUnit k u ++ (lengthPrefixed k us ++ tail) := by simp [lengthPrefixed]
    rw [hform] at h
    have hu := hus u (List.mem_cons_self ..)
    obtain ⟨d', s', h1, h2⟩ := hevcMp4Loop_count hk hu.1 hu.2 h
    obtain ⟨g1, g2, g3⟩ := ih (fun x hx => hus x (List.mem_cons_of_mem _ hx)) h2
    refine ⟨g1, ?_, g3.trans h1⟩
    rw [g2, List.flatMap_cons]
    simp only [List.length_append, List.length_cons, List.length_nil]
    omega

/-- Lengths of `k` bytes are replaced by start codes of 4 bytes. -/
theorem start_codes_length (k : Nat) (us : List Bytes) :
    (us.flatMap (([0, 0, 0, 1] : Bytes) ++ ·)).length + k * us.length = (lengthPrefixed k us).length + 4 * us.length := by
  induction us with
  | nil => rfl
  | cons u us ih =>
    simp only [lengthPrefixed, List.flatMap_cons, List.length_append, length_avccUnit, List.length_cons, List.length_nil,
      Nat.mul_add, Nat.mul_one] at ih ⊢
    omega

end Avf
