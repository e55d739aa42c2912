import Verif.Spec.DemuxerMemory
import Verif.Spec.DemuxerTracks
import Verif.Spec.DemuxerPipe
import Verif.Spec.Handler
import Verif.Spec.Packet
/-!
# From packets to files

The caller gives frames to a demuxer on a `StreamsBuffer`; the handler is `OnUnpackStream2FileHandler`. What is in the files?
-/
namespace Avf
open Go

/-- What the caller gives. -/
structure Frame where
  video : Bool
  key : Bool
  data : Bytes
  dts : Int
deriving DecidableEq, Repr

/-- The frame of an operation, if it is one for buffer `b`. -/
def DemuxOp.frame (b : Int) : DemuxOp → Option Frame
  | .audioPacket b' _ d ts => if b' = b then some ⟨false, false, d, ts⟩ else none
  | .videoPacket b' _ d k dts _ => if b' = b then some ⟨true, k, d, dts⟩ else none
  | _ => none

/-- The frames given for a buffer. -/
def framesOf (b : Int) (h : List (Oracle × DemuxOp)) : List Frame := h.filterMap fun x => x.2.frame b

/-- How many blocks of a buffer were given back to the pipeline unused. -/
def refusals (b : Int) : List Call → Nat
  | [] => 0
  | .discardBack b' :: cs => (if b' = b then 1 else 0) + refusals b cs
  | _ :: cs => refusals b cs

/-- What a frame is in the file of its track: its bytes; in front of a key frame of H.264 or H.265 the parameter sets of the track
(`Data` of the stream), unless the frame begins with a unit that has the same header byte as they do. -/
def inFile (t : AVStream) (f : Frame) : Bytes :=
  if f.video = true ∧ f.key = true ∧ t.mediaType = mediaVideo ∧ HasSets t.codecID ∧ leadByte t.data ≠ leadByte f.data then t.data ++ f.data
  else f.data

/-- Key frames are made of NAL units behind start codes. -/
def DemuxOp.KeyFramed : DemuxOp → Prop
  | .videoPacket _ _ d key _ _ => key = true → WellFramed d
  | _ => True

/-- The calls as the handler sees them: it finds these bytes behind the slices of the packets. -/
def asRead : List Call → List (Option Bytes) → List Call
  | [], _ => []
  | .packet p :: cs, got => .packet { p with data := (got.head?.getD none).getD [] } :: asRead cs got.tail
  | c :: cs, got => c :: asRead cs got

end Avf
