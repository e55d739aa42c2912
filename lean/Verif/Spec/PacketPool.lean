import Verif.Model.Packet
/-! # Specification: histories of the packet pool -/
namespace Avf
open Go PacketPool

/-- Histories of the pool: `live` are the packets that were handed out and not yet freed, newest first. Owners may change
their packets in any way (`use`), the garbage collector may drop pooled packets (`collect`), `pick` is any choice of the pool. -/
inductive PoolRun : PacketPool → List Nat → Prop
  | init : PoolRun {} []
  | audio {s live} (pick : Option Nat) (data : Bytes) (ts id index timebase : Int) : PoolRun s live →
      PoolRun (s.newAudioPacket pick data ts id index timebase).2 ((s.newAudioPacket pick data ts id index timebase).1 :: live)
  | video {s live} (pick : Option Nat) (data : Bytes) (dts pts : Int) (key : Bool) (t : Byte) (id index timebase : Int) :
      PoolRun s live →
      PoolRun (s.newVideoPacket pick data dts pts key t id index timebase).2
        ((s.newVideoPacket pick data dts pts key t id index timebase).1 :: live)
  | use {s live} (p : Nat) (f : AVPacket → AVPacket) : PoolRun s live → p ∈ live → PoolRun (s.modify p f) live
  | free {s live} (p : Nat) : PoolRun s live → p ∈ live → PoolRun (s.freePacket p) (live.erase p)
  | collect {s live} (pool' : List Nat) : PoolRun s live → pool'.Sublist s.pool → PoolRun { s with pool := pool' } live

end Avf
