import Verif.Spec.DemuxerLanes
/-! # When packets begin and end -/
namespace Avf

/-- When a packet ends: when the next one of its track begins. -/
def AVPacket.finish (p : AVPacket) : Int := p.dts + p.duration

/-- Packets come in the order of their times, and the times are moderate numbers. -/
structure InTime (ps : List AVPacket) : Prop where
  order : ps.Pairwise fun p q => p.dts ≤ q.dts
  range : ∀ p ∈ ps, -2 ^ 62 ≤ p.dts ∧ p.dts < 2 ^ 62

end Avf
