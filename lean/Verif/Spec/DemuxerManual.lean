import Verif.Spec.DemuxerPanics
/-! # Specification: handlers that give packets back themselves -/
namespace Avf

/-- The calls of a demuxer without `AutoFree` whose handler ends `OnPacket` with `DiscardHeadPacket` for the buffer of the packet
and `FreePacket`. -/
def giveBack : List Call → List Call :=
  List.flatMap fun c => match c with
    | .packet p => [.packet p, .discardHead p.bufferIndex, .free p]
    | c => [c]

end Avf
