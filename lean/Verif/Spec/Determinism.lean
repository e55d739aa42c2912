import Verif.Spec.Demuxer
/-! # What the choices of the Go runtime may change -/
namespace Avf
open Go

/-- The same callback on the same platform. The order of iteration over maps and the order of packets that compare as equal may differ. -/
structure Oracle.Agrees (o o' : Oracle) : Prop where
  audioType : o'.audioType = o.audioType
  undef : o'.undef = o.undef
  grow : o'.grow = o.grow
  preprocess : o'.preprocess = o.preprocess

/-- The same operations, with other choices. -/
def SameHistory (h h' : List (Oracle × DemuxOp)) : Prop := List.Forall₂ (fun x y => x.1.Agrees y.1 ∧ x.2 = y.2) h h'

/-- What is seen of a packet that leaves the demuxer. -/
def handOver (autoFree : Bool) (p : AVPacket) : List Call := .packet p :: if autoFree then [.discardHead p.bufferIndex, .free p] else []

/-- The calls are the same, but for the order of packets that were handed over together, in the order of their DTS. -/
def Reordered (autoFree : Bool) (cs cs' : List Call) : Prop :=
  ∃ (a : List Call) (l l' : List AVPacket) (b : List Call), cs = a ++ l.flatMap (handOver autoFree) ++ b ∧ cs' = a ++ l'.flatMap (handOver autoFree) ++ b ∧ l.Perm l' ∧
    l.Pairwise (fun p q => p.dts ≤ q.dts) ∧ l'.Pairwise (fun p q => p.dts ≤ q.dts)

end Avf
