import Verif.Spec.Demuxer
/-!
# Lanes: which packets a demuxer takes for neighbours

Packets of one track are meant to follow each other. What the code does: packet `p` goes to lane `p.index` if there is such a lane, and
otherwise opens the next lane, whatever its number.
-/
namespace Avf

/-- The lanes after one more packet. -/
def putLane (ls : List (List AVPacket)) (p : AVPacket) : List (List AVPacket) :=
  if p.index < ls.length then ls.modify p.index.toNat (· ++ [p]) else ls ++ [[p]]

/-- The lanes after the packets `ps`. -/
def lanes (ps : List AVPacket) : List (List AVPacket) := ps.foldl putLane []

/-- The packet before `p` in its lane. -/
def inFront (ls : List (List AVPacket)) (p : AVPacket) : Option AVPacket :=
  if p.index < ls.length then (ls[p.index.toNat]?).bind List.getLast? else none

/-- The packets before `p` in its lane. -/
def laneBefore (ls : List (List AVPacket)) (p : AVPacket) : List AVPacket :=
  if p.index < ls.length then ls.getD p.index.toNat [] else []

/-- What is delivered when packets come one by one: each time the packet before in the lane, with its duration. -/
def lateOf (ls : List (List AVPacket)) : List AVPacket → List AVPacket
  | [] => []
  | p :: ps => ((inFront ls p).map fun x => { x with duration := wrap64 (p.dts - x.dts) }).toList ++ lateOf (putLane ls p) ps

end Avf
