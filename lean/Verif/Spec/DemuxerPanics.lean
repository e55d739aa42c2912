import Verif.Model.DemuxerPanics
import Verif.Spec.DemuxerPipe
import Verif.Spec.Demuxer
/-! # Specification: packets that are refused, in place of calls that panicked -/
namespace Avf

/-- The buffer of the packet that an operation brings. -/
def DemuxOp.packetBuffer : DemuxOp → Option Int
  | .audioPacket b .. | .videoPacket b .. => some b
  | _ => none

/-- The operation announces a track. -/
def DemuxOp.IsTrack : DemuxOp → Prop
  | .newAudioTrack .. | .newVideoTrack .. => True
  | _ => False

/-- The second history is the first one in which some packets have become pictures that are not key frames, of some codec, with
the same payload on the same buffer, and some announcements are left out. -/
inductive Substituted : List (Oracle × DemuxOp) → List (Oracle × DemuxOp) → Prop where
  | nil : Substituted [] []
  | keep (x : Oracle × DemuxOp) {h h' : List (Oracle × DemuxOp)} : Substituted h h' → Substituted (x :: h) (x :: h')
  | packet (o : Oracle) (e : DemuxOp) (b : Int) (d : Bytes) (id dts pts : Int) {h h' : List (Oracle × DemuxOp)} :
      e.packetBuffer = some b → e.block = some (b, d) → Substituted h h' →
      Substituted ((o, e) :: h) ((o, .videoPacket b id d false dts pts) :: h')
  | drop (o : Oracle) (e : DemuxOp) {h h' : List (Oracle × DemuxOp)} : e.IsTrack → Substituted h h' → Substituted ((o, e) :: h) h'

/-- With `AutoFree`: after every delivery the oldest block of the packet's buffer is discarded and the packet is freed, unless the
handler has panicked; nothing else is discarded from a head or freed. -/
inductive GivenBack (f : Panicky) : List Call → Prop where
  | nil : GivenBack f []
  | other (cs : List Call) (c : Call) (hp : delivered [c] = []) (hr : releases [c] = []) (hf : freed [c] = []) (h : GivenBack f cs) :
      GivenBack f (cs ++ [c])
  | failed (cs : List Call) (p : AVPacket) (hf : f.handler cs (.packet p) = true) (h : GivenBack f cs) : GivenBack f (cs ++ [.packet p])
  | released (cs : List Call) (p : AVPacket) (hf : f.handler cs (.packet p) = false) (h : GivenBack f cs) :
      GivenBack f (cs ++ [.packet p, .discardHead p.bufferIndex, .free p])

/-- How often the handler panicked when it was given a packet, `pre` being the calls before. -/
def failures (f : Panicky) (pre : List Call) : List Call → Nat
  | [] => 0
  | c :: cs =>
    (match c with
      | .packet _ => if f.handler pre c then 1 else 0
      | _ => 0) + failures f (pre ++ [c]) cs

end Avf
