import Verif.Spec.SpsHead
import Verif.Lemmas.HevcSps
/-!
# Lemmas: reading the head of an H.264 sequence parameter set
-/
namespace Avf
open Go

theorem H264Sps.bitsWith_head (hs : List Nat) (s : H264Sps) : s.bitsWith hs = s.headBits hs ++ optBits H264Vui.bits s.vui := by
  unfold H264Sps.bitsWith H264Sps.headBits
  simp only [List.append_assoc]

theorem H264Vui.bits_timing (v : H264Vui) (t : H264Timing) (ht : v.timing = some t) : v.bits = v.preTimingBits ++ t.bits := by
  unfold H264Vui.bits H264Vui.preTimingBits
  rw [ht]
  simp only [optBits, List.append_assoc, List.cons_append, List.nil_append]

/-- If the next bits are `bs` and `p` succeeds, its result has `P`. -/
def Begins {α : Type} (p : Rd α) (bs : List Bool) (P : α → Prop) : Prop :=
  ∀ g rest, g.Ok → g.todo = bs ++ rest → ∀ v g', p g = ok (v, g') → P v

namespace Begins
variable {α β : Type}
theorem bind {p : Rd α} {f : α → Rd β} {bs cs : List Bool} {v : α} {P : β → Prop} (hp : Parses p bs v) (hf : Begins (f v) cs P) :
    Begins (p >>= f) (bs ++ cs) P := by
  intro g rest hg h w g' e
  rw [List.append_assoc] at h
  obtain ⟨g1, e1, hg1, h1⟩ := hp g _ hg h
  rw [rd_bind, e1, ok_bind] at e
  exact hf g1 rest hg1 h1 w g' e

theorem last {p : Rd α} {f : α → β} {P : β → Prop} (h : ∀ a, P (f a)) : Begins (p >>= fun a => Pure.pure (f a)) [] P := by
  intro g rest hg _ v g' e
  rw [rd_bind] at e
  obtain ⟨⟨a, g1⟩, _, e2⟩ := bind_eq_ok.mp e
  rw [rd_pure] at e2
  cases e2
  exact h a
end Begins

theorem avcSpsBody_head (undef : Int) (hdr : Byte) (s : H264Sps) (h : s.Loose avcHighs 8) :
    Begins (avcSpsBody undef) (fieldBits 8 hdr.toNat ++ s.headBits avcHighs)
      (fun r => r = { avcResult undef s with fps := r.fps }) := by
  have hid := h.id
  have hfn := h.frameNum
  have hrf := h.refFrames
  have hw := h.width
  have hh := h.height
  obtain ⟨hl, hr, ht, hb⟩ := cropOf_ok s h
  have e1 := avc_width _ _ _ hw hl hr
  have e2 := avc_height s.frameMbsOnly _ _ _ hh ht hb
  unfold UEW at hid hfn hrf hw hh
  refine Begins.bind (Parses.nbits 8 _ (by omega) hdr.isLt) ?_
  refine Begins.bind (Parses.nbits 8 _ (by omega) h.profile) ?_
  refine Begins.bind (Parses.nbits 8 _ (by omega) h.flags) ?_
  refine Begins.bind (Parses.nbits 8 _ (by omega) h.level) ?_
  refine Begins.bind (Parses.ue _ (by omega)) ?_
  refine Begins.bind (v := ()) ?_ ?_
  · rw [avcIsHigh_iff _ h.profile]
    by_cases hm : s.profileIdc ∈ avcHighs
    · rw [if_pos hm]
      exact Parses.when_true (by simpa [avcHighs] using hm) (avcHigh_spec _ (h.high hm))
    · rw [if_neg hm]
      refine Parses.when_false ?_
      rw [decide_eq_false_iff_not]
      exact hm
  refine Begins.bind (Parses.ue _ (by omega)) ?_
  refine Begins.bind (avcPoc_spec _ h.poc) ?_
  refine Begins.bind (Parses.ue _ (by omega)) ?_
  refine Begins.bind (Parses.bit _) ?_
  refine Begins.bind (Parses.ue _ (by omega)) ?_
  refine Begins.bind (Parses.ue _ (by omega)) ?_
  have e3 : ∀ n : Nat, BitVec.ofNat 64 n + 1 = BitVec.ofNat 64 (n + 1) := by
    intro n; apply BitVec.eq_of_toNat_eq; simp
  unfold avcFlagsCropVui
  simp only [bind_assoc, pure_bind]
  refine Begins.bind (Parses.bit _) ?_
  refine Begins.bind (v := ()) ?_ ?_
  · cases s.frameMbsOnly with
    | true => exact Parses.when_false rfl
    | false => exact Parses.when_true rfl (Parses.bit _).skip
  refine Begins.bind (Parses.bit _) ?_
  rw [← List.append_nil (optBits _ _)]
  refine Begins.bind (avcCrop_spec s.crop h.crop) ?_
  simp only [← bind_assoc]
  refine Begins.last fun fps => ?_
  simp only [cropVals]
  rw [avcResult, ← e1, ← e2, ← e3, ← e3]
  rfl

end Avf
