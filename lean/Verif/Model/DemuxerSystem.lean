import Verif.Model.DemuxerObjects
/-!
# Model of several demuxers in one process

`PacketPool` (/repo/av_packet.go:29-35) is a variable of the package: all demuxers (/repo/demuxer.go:29-41) of a process take their
packets from it and put them back. Here a process has any number of demuxers, each with its own state and queues of packet
pointers, and one pool. Operations of different demuxers follow one another in any order; during an operation the handler, and
anybody else who is no demuxer of the list, may use the pool as in `Model/DemuxerObjects.lean`. (A handler does not call the
demuxers.)
-/
namespace Avf
open Go

/-- A demuxer without the pool. -/
structure DemuxCore where
  base : Demuxer
  queues : List (LList Nat) := []

/-- All demuxers and the pool. -/
structure ObjSystem where
  cores : List DemuxCore
  shared : Shared := {}

namespace ObjSystem

/-- A demuxer with the pool as it sees it. -/
def view (S : ObjSystem) (c : DemuxCore) : ObjDemuxer := { base := c.base, queues := c.queues, shared := S.shared }

/-- The process starts with demuxers of the given names and settings of `AutoFree`. -/
def new (names : List (String × Bool)) (shared : Shared) : ObjSystem :=
  { cores := names.map fun n => { base := { name := n.1, autoFree := n.2 } }, shared := shared }

/-- An operation of demuxer `i`. -/
def step (S : ObjSystem) (i : Nat) (o : ObjOracle) (e : DemuxOp) : Go ObjSystem :=
  match S.cores[i]? with
  | none => ok S
  | some c => do
    let d ← (S.view c).step o e
    return { cores := S.cores.set i { base := d.base, queues := d.queues }, shared := d.shared }

/-- Operations of all demuxers in the order in which they happen. A panic ends the process. -/
def run (S : ObjSystem) : List (Nat × ObjOracle × DemuxOp) → Go ObjSystem
  | [] => ok S
  | (i, o, e) :: rest => do
    let S ← S.step i o e
    run S rest

end ObjSystem
end Avf
