import Verif.Model.Demuxer
import Verif.Model.LinkedList
/-!
# Model of /repo/demuxer.go with packet objects and linked lists

In `Model/Demuxer.lean` packets are values and their queues are lists. In the code a queue is a `LinkedList[*AVPacket]`
(/repo/collections/linked_list.go) and a packet is an object that comes from the pool `PacketPool` (/repo/av_packet.go:29-35),
is written through its pointer, and goes back to the pool when it has been delivered. Here pointers are numbers of objects in
the pool model of `Model/Packet.lean` and the queues are the linked lists of `Model/LinkedList.lean`.

The pool is global: the handler and other demuxers use it too. What they do is a list of `Act`s, at the start of an operation and
in every call of the handler. `PacketPool` is a `sync.Pool`, so its operations are atomic. The demuxer itself uses the pool when it
makes a packet, early in an operation, and right after a call of the handler; what others do at other times could have been done
at one of the two places as well, since it commutes with what the demuxer does with its own packets in between. `Model/DemuxerThreads.lean`
has no such restriction: there goroutines take turns after every access (C121).

The parts of the demuxer that do not touch packets are those of `Model/Demuxer.lean` (`base`; its field `packets` is not used).
-/
namespace Avf
open Go

/-- What others do with the pool and with packets. `touch` writes to the packet that the handler has been called with;
`rogueFree` frees and `rogueUse` writes a packet, whoever owns it. The garbage collector may drop packets from the pool. -/
inductive Act where
  | audio (pick : Option Nat) (data : Bytes) (ts id index timebase : Int)
  | video (pick : Option Nat) (data : Bytes) (dts pts : Int) (key : Bool) (t : Byte) (id index timebase : Int)
  | use (p : Nat) (f : AVPacket → AVPacket)
  | touch (f : AVPacket → AVPacket)
  | free (p : Nat)
  | rogueFree (p : Nat)
  | rogueUse (p : Nat) (f : AVPacket → AVPacket)
  | collect (keep : Nat → Bool)

/-- Pool, and the packets that others own. -/
structure Shared where
  pool : PacketPool := {}
  theirs : List Nat := []

/-- One action; `lent` is the packet that the handler has been called with. Others write to and free what they own. -/
def Act.run (lent : Option Nat) (s : Shared) : Act → Shared
  | .audio pick data ts id index timebase =>
    let (p, pool) := s.pool.newAudioPacket pick data ts id index timebase
    { pool := pool, theirs := p :: s.theirs }
  | .video pick data dts pts key t id index timebase =>
    let (p, pool) := s.pool.newVideoPacket pick data dts pts key t id index timebase
    { pool := pool, theirs := p :: s.theirs }
  | .use p f => if p ∈ s.theirs then { s with pool := s.pool.modify p f } else s
  | .touch f =>
    match lent with
    | some p => { s with pool := s.pool.modify p f }
    | none => s
  | .free p => if p ∈ s.theirs then { pool := s.pool.freePacket p, theirs := s.theirs.erase p } else s
  | .rogueFree p => { s with pool := s.pool.freePacket p }
  | .rogueUse p f => { s with pool := s.pool.modify p f }
  | .collect keep => { s with pool := { s.pool with pool := s.pool.pool.filter keep } }

/-- The choices of `Oracle` (of which `sort` and `audioType` are not used here), those of the pool, the order that `sort.Slice`
chooses for pointers, and what others do when the demuxer has made a number of calls. -/
structure ObjOracle extends Oracle where
  pick : Option Nat
  sortObjs : List AVPacket → List Nat → List Nat
  acts : Nat → List Act

/-- `BaseDemuxer` (/repo/demuxer.go:29-41); `queues` is `Packets`. -/
structure ObjDemuxer where
  base : Demuxer
  queues : List (LList Nat) := []
  shared : Shared := {}

namespace ObjDemuxer

/-- Others act. -/
def others (o : ObjOracle) (d : ObjDemuxer) (lent : Option Nat) : ObjDemuxer :=
  { d with shared := (o.acts d.base.calls.length).foldl (Act.run lent) d.shared }

/-- A call of the handler. -/
def tell (o : ObjOracle) (d : ObjDemuxer) (c : Call) (lent : Option Nat) : ObjDemuxer :=
  ({ d with base := d.base.call [c] } : ObjDemuxer).others o lent

/-- Writing through a pointer. -/
def modify (d : ObjDemuxer) (p : Nat) (f : AVPacket → AVPacket) : ObjDemuxer :=
  { d with shared := { d.shared with pool := d.shared.pool.modify p f } }

/-- `forwardPacket` (/repo/demuxer.go:292-301). Without `AutoFree` the packet is the handler's from now on. The record of `FreePacket`
has the packet as it was delivered. -/
def forwardPacket (o : ObjOracle) (d : ObjDemuxer) (p : Nat) : Go ObjDemuxer := do
  let x ← idx d.shared.pool.objs p
  if d.base.autoFree then do
    let d := d.tell o (.packet x) (some p)
    let y ← idx d.shared.pool.objs p
    match d.base.bufferOf.lookup y.index with
    | none => panic
    | some b => ok { d with base := d.base.call [.discardHead b, .free x]
                            shared := { d.shared with pool := d.shared.pool.freePacket p } }
  else
    return ({ d with shared := { d.shared with theirs := p :: d.shared.theirs } } : ObjDemuxer).tell o (.packet x) none

/-- Forwarding in a loop (/repo/demuxer.go:473-475). -/
def forwardAll (o : ObjOracle) (d : ObjDemuxer) : List Nat → Go ObjDemuxer
  | [] => ok d
  | p :: rest => do
    let d ← d.forwardPacket o p
    forwardAll o d rest

/-- The first packet of each queue (/repo/demuxer.go:341-346 and 387-392). The code stops at the packet it looks for. -/
def heads (objs : List AVPacket) (queues : List (LList Nat)) : Go (List (List AVPacket)) :=
  queues.mapM fun q => if q.size = 0 then ok [] else do
    let p ← q.get 0
    let x ← idx objs p
    return [x]

/-- `prepareTracks` (/repo/demuxer.go:429-432). -/
def prepareTracks (undef : Int) (d : ObjDemuxer) : Go ObjDemuxer := do
  let ps ← heads d.shared.pool.objs d.queues
  let s ← ({ d.base with packets := ps } : Demuxer).prepareTracks undef
  return { d with base := { s with packets := d.base.packets } }

/-- `Remove(0)` in a loop (/repo/demuxer.go:460-464). -/
def takeFront : Nat → LList Nat → Go (List Nat × LList Nat)
  | 0, q => ok ([], q)
  | n + 1, q => do
    let (x, q) ← q.remove 0
    let (xs, q) ← takeFront n q
    return (x :: xs, q)

/-- Taking the packets out of the queues (/repo/demuxer.go:453-465); `prePacketIndex + 1` packets are `size - 1`, none if the size is 0. -/
def drainAll : List (LList Nat) → Go (List Nat × List (LList Nat))
  | [] => ok ([], [])
  | q :: rest => do
    let (xs, q) ← takeFront (q.size - 1) q
    let (ys, rest) ← drainAll rest
    return (xs ++ ys, q :: rest)

/-- `OnProbeComplete` (/repo/demuxer.go:434-476). -/
def onProbeComplete (o : ObjOracle) (d : ObjDemuxer) : Go ObjDemuxer :=
  if d.base.completed then ok d
  else
    let d := { d with base := { d.base with completed := true } }
    if d.base.tracks.size = 0 then ok (d.tell o .trackNotFound none)
    else do
      let d ← d.prepareTracks o.undef
      let d := d.base.tracks.tracks.foldl (fun d t => d.tell o (.newTrack t) none) d
      let d := d.tell o .trackComplete none
      let (result, queues) ← drainAll d.queues
      let d := { d with queues := queues }
      d.forwardAll o (o.sortObjs d.shared.pool.objs result)

/-- `packets.Get(i)` for the first `n` packets (/repo/demuxer.go:282-285). -/
def front (objs : List AVPacket) (q : LList Nat) (n : Nat) : Go (List AVPacket) :=
  (List.range n).mapM fun (i : Nat) => do
    let p ← q.get i
    idx objs p

/-- `processBufferedPacket` from line 264 on (/repo/demuxer.go:264-290). -/
def enqueue (o : ObjOracle) (d : ObjDemuxer) (i : Int) (p : Nat) : Go ObjDemuxer := do
  let q ← idxI d.queues i
  let q ← q.add p
  let prev : Int := (q.size : Int) - 2
  let d := { d with queues := d.queues.set i.toNat q }
  if prev < 0 then return d
  else do
    let pp ← q.get prev
    let x ← idx d.shared.pool.objs p
    let d := d.modify pp fun y => { y with duration := wrap64 (x.dts - y.dts) }
    if d.base.completed then do
      let (pp, q) ← q.remove prev
      let d := { d with queues := d.queues.set i.toNat q }
      d.forwardPacket o pp
    else do
      let ps ← front d.shared.pool.objs q (prev + 1).toNat
      let duration := Demuxer.probed o.undef ps
      if duration ≥ max (max d.base.probeDuration 200) duration then d.onProbeComplete o
      else return d

/-- `processBufferedPacket` (/repo/demuxer.go:254-290). -/
def processBufferedPacket (o : ObjOracle) (d : ObjDemuxer) (p : Nat) : Go ObjDemuxer := do
  let x ← idx d.shared.pool.objs p
  if x.index < d.queues.length then d.enqueue o x.index p
  else ({ d with queues := d.queues ++ [LList.empty] } : ObjDemuxer).enqueue o d.queues.length p

/-- Finding or making the track of an audio packet (/repo/demuxer.go:179-193). -/
def audioTrack (o : Oracle) (s : Demuxer) (bufferIndex id : Int) (data : Bytes) : Go (Option AVStream × Demuxer) := do
  let track ← s.findTrackByBufferIndex o bufferIndex
  if ¬ s.completed ∧ track = none then
    match extractAudioExtraData id data with
    | .err _ => ok (none, s)
    | .panic => panic
    | .ok (extraData, _, config) => do
      let timebase ← s.getTimebase
      s.createAudioTrack bufferIndex id timebase extraData config
  else ok (track, s)

/-- `OnAudioPacket` (/repo/demuxer.go:171-204), `ExtractAudioPacket` (/repo/video_stream.go:152-180). -/
def onAudioPacket (o : ObjOracle) (d : ObjDemuxer) (bufferIndex id : Int) (data : Bytes) (ts : Int) : Go ObjDemuxer := do
  let (track, s) ← audioTrack o.toOracle d.base bufferIndex id data
  let d := { d with base := s }
  match track with
  | none => return { d with base := d.base.call [.discardBack bufferIndex] }
  | some t => do
    let (p, pool) := d.shared.pool.newAudioPacket o.pick data ts id t.index t.timebase
    let d := ({ d with shared := { d.shared with pool := pool } } : ObjDemuxer).modify p fun x => { x with bufferIndex := bufferIndex }
    let x ← idx d.shared.pool.objs p
    ({ d with base := d.base.call [.accepted x] } : ObjDemuxer).processBufferedPacket o p

/-- Finding or making the track of a video packet (/repo/demuxer.go:214-236). -/
def videoTrack (o : Oracle) (s : Demuxer) (bufferIndex id : Int) (data : Bytes) (key : Bool) : Go (Option AVStream × Demuxer) := do
  let track ← s.findTrackByBufferIndex o bufferIndex
  if track = none ∧ ¬ s.completed ∧ s.getPackType = packAnnexB then do
    match ← s.videoExtraData id data key with
    | some e => do
      let timebase ← s.getTimebase
      s.createVideoTrack o bufferIndex id timebase (some e)
    | none => ok (none, s)
  else ok (track, s)

/-- `OnVideoPacket` (/repo/demuxer.go:206-250). The callback writes to the packet. -/
def onVideoPacket (o : ObjOracle) (d : ObjDemuxer) (bufferIndex id : Int) (data : Bytes) (key : Bool) (dts pts : Int) :
    Go ObjDemuxer := do
  let (track, s) ← videoTrack o.toOracle d.base bufferIndex id data key
  let d := { d with base := s }
  match track with
  | none => return { d with base := d.base.call [.discardBack bufferIndex] }
  | some t => do
    let (p, pool) := d.shared.pool.newVideoPacket o.pick data dts pts key d.base.getPackType id t.index t.timebase
    let d := ({ d with shared := { d.shared with pool := pool } } : ObjDemuxer).modify p fun x => { x with bufferIndex := bufferIndex }
    let d := d.modify p o.preprocess
    let x ← idx d.shared.pool.objs p
    ({ d with base := d.base.call [.accepted x] } : ObjDemuxer).processBufferedPacket o p

/-- `TryCompleteProbe` (/repo/demuxer.go:492-514). -/
def tryCompleteProbe (o : ObjOracle) (d : ObjDemuxer) : Go ObjDemuxer :=
  let needMoreData := d.base.tracks.tracks.any fun t =>
    (t.codecID = codecPCMS16LE ∨ t.codecID = codecG726) ∧
      d.queues.zipIdx.any fun (q, i) => (i : Int) = t.index ∧ q.size < 2
  if needMoreData then ok d else d.onProbeComplete o

/-- One operation, after others have acted. -/
def step (o : ObjOracle) (d : ObjDemuxer) (e : DemuxOp) : Go ObjDemuxer :=
  let d := d.others o none
  match e with
  | .audioPacket b id data ts => d.onAudioPacket o b id data ts
  | .videoPacket b id data key dts pts => d.onVideoPacket o b id data key dts pts
  | .probeComplete => d.onProbeComplete o
  | .tryCompleteProbe => d.tryCompleteProbe o
  | e => do return { d with base := ← e.run o.toOracle d.base }

/-- A history of operations. -/
def run (d : ObjDemuxer) : List (ObjOracle × DemuxOp) → Go ObjDemuxer
  | [] => ok d
  | (o, e) :: rest => do
    let d ← d.step o e
    run d rest

/-- A demuxer before it is used. Others may have used the pool before. -/
def new (name : String) (autoFree : Bool) (shared : Shared) : ObjDemuxer :=
  { base := { name := name, autoFree := autoFree }, shared := shared }

end ObjDemuxer
end Avf
