import Verif.Model.Packet
import Verif.Spec.Nal
/-! # Specification vocabulary for repackaging Annex B as AVCC and back -/
namespace Avf
open Go

/-- A sender and a receiver of frames of a stream: the sender converts the Annex B frame with `AnnexBPacket2AVCC`, the receiver, who has the
codec data `c`, converts what it gets back with `AVCCPacket2AnnexB`. -/
def overAvcc (codec : Int) (c : CodecData) (key : Bool) (frame : Bytes) : Go Bytes := do
  let (sent, _) ← annexBPacket2AVCC { data := frame, key := key, codecID := codec, mediaType := mediaVideo, packetType := packAnnexB }
  let (got, _) ← avccPacket2AnnexB { mediaType := mediaVideo, index := 0, codecID := codec, codecParameters := some c }
    { data := sent, key := key, codecID := codec, mediaType := mediaVideo, packetType := packAVCC }
  return got

/-- A chain of `n` such pairs. -/
def relayed (codec : Int) (c : CodecData) (key : Bool) : Nat → Bytes → Go Bytes
  | 0, frame => ok frame
  | n + 1, frame => do
    let d ← overAvcc codec c key frame
    relayed codec c key n d

/-- `d` is an Annex B stream of the units `us`. -/
def HasUnits (d : Bytes) (us : List Bytes) : Prop := ∃ xs : List (Bool × Bytes), d = annexB xs ∧ xs.map (·.2) = us

/-- The units of `us` but those with supplemental information (SEI), H.264. -/
def withoutSei (us : List Bytes) : List Bytes := us.filter fun u => avcUnitType u ≠ 6

end Avf
