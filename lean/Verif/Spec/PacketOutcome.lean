import Verif.Spec.Packet
import Verif.Model.Packet
/-!
# What `AVCCPacket2AnnexB` should give
-/
namespace Avf

/-- `b` is the first byte behind the start code that `p` may begin with, and `p` is long enough to see that. -/
def Leads (p : Bytes) (b : Byte) : Prop := leadByte p = some b ∧ p ∉ [[0], [0, 0], [0, 0, 0]]

/-- Units with a length of `k` bytes in front of each, and nothing else. A unit has at least the two bytes of its header. -/
def HevcPayload (k : Nat) (us : List Bytes) (data : Bytes) : Prop :=
  data = lengthPrefixed k us ∧ ∀ u ∈ us, 2 ≤ u.length ∧ u.length < 256 ^ k

/-- An AVCC packet of a stream of H.264 or H.265. -/
def NeedsAnnexB (s : AVStream) (p : AVPacket) : Prop := p.packetType = packAVCC ∧ (s.codecID = codecH264 ∨ s.codecID = codecH265)

/-- A key frame of a stream of H.264 or H.265 with parameter sets. -/
def KeyWithSets (s : AVStream) (p : AVPacket) (c : CodecData) : Prop :=
  p.key = true ∧ (s.codecID = codecH264 ∨ s.codecID = codecH265) ∧ s.codecParameters = some c

/-- The Annex B form of a packet in a stream. The buffer for H.265 has room for 256 bytes more than the payload. -/
inductive AnnexBOf (s : AVStream) (p : AVPacket) : Bytes → Prop
  | kept (d : Bytes) : p.dataAnnexB = some d → AnnexBOf s p d
  | plain : p.dataAnnexB = none → ¬ NeedsAnnexB s p → (∀ c, ¬ KeyWithSets s p c) → AnnexBOf s p p.data
  | begins (c : CodecData) (a : Byte) : p.dataAnnexB = none → ¬ NeedsAnnexB s p → KeyWithSets s p c →
      Leads c.annexBExtraData a → Leads p.data a → AnnexBOf s p p.data
  | prepended (c : CodecData) (a b : Byte) : p.dataAnnexB = none → ¬ NeedsAnnexB s p → KeyWithSets s p c →
      Leads c.annexBExtraData a → Leads p.data b → a ≠ b → AnnexBOf s p (c.annexBExtraData ++ p.data)
  | h264 (c : CodecData) (us : List Bytes) (tail : Bytes) : p.dataAnnexB = none → NeedsAnnexB s p → s.codecParameters = some c →
      p.codecID = codecH264 → p.data = avcc us ++ tail → (∀ u ∈ us, u ≠ [] ∧ u.length < 2 ^ 32) → NoUnit 4 tail →
      AnnexBOf s p ((if p.key then c.annexBExtraData else []) ++ annexB (firstLong (us.filter fun u => avcUnitType u ≠ 6)))
  | h265 (c : CodecData) (r : HEVCRecord) (us : List Bytes) : p.dataAnnexB = none → NeedsAnnexB s p → s.codecParameters = some c →
      p.codecID = codecH265 → c.record = .hevc r → HevcPayload r.lengthSizeMinusOne.toNat us p.data →
      (us.flatMap ([0, 0, 0, 1] ++ ·)).length ≤ p.data.length + 256 →
      AnnexBOf s p ((if p.key then c.annexBExtraData else []) ++ us.flatMap ([0, 0, 0, 1] ++ ·))
  | other (c : CodecData) : p.dataAnnexB = none → NeedsAnnexB s p → s.codecParameters = some c →
      p.codecID ≠ codecH264 → p.codecID ≠ codecH265 → AnnexBOf s p (if p.key then c.annexBExtraData else [])

end Avf
