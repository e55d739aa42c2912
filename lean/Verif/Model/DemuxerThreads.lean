import Verif.Model.DemuxerObjects
/-!
# Model of /repo/demuxer.go and /repo/av_packet.go: demuxers in different goroutines

`Model/DemuxerObjects.lean` has one demuxer, and others act at the beginning of its operations and in the calls of its handler. Here
any number of goroutines run, each with a demuxer of its own, and they take turns after every single access to the pool or to a
packet object. A goroutine is a `Prog`: what it does next, and how it goes on.

What goroutines share is `PacketPool` and the packet objects, so only the accesses to these are steps. A demuxer, its handler, its
tracks and its linked lists are used by one goroutine only (`BaseDemuxer` has no locks); the linked lists are lists here, as C17 and C81
allow. An assignment to a field is a step; reading a packet is one step even if several fields are read.

Handlers may pass packets on to other goroutines, over channels or otherwise. All packets that are on their way are in `Machine.mail`.
A goroutine that takes one gets any of them, or none: this allows for any number of channels.
-/
namespace Avf
open Go

/-- What a goroutine still does: it is done, takes a packet from the pool (`PacketPool.Get`), gives one back (`PacketPool.Put`),
reads a packet, or writes to it, passes a packet on, or takes one that was passed on, if there is one for it. -/
inductive Prog (α : Type) where
  | stop (r : Go α)
  | get (k : Nat → Prog α)
  | put (p : Nat) (k : Prog α)
  | load (p : Nat) (k : AVPacket → Prog α)
  | store (p : Nat) (f : AVPacket → AVPacket) (k : Prog α)
  | send (p : Nat) (k : Prog α)
  | recv (k : Option Nat → Prog α)

namespace Prog

/-- One after the other; nothing comes after a panic. -/
def bind {α β : Type} : Prog α → (α → Prog β) → Prog β
  | .stop (.ok a), f => f a
  | .stop (.err m), _ => .stop (.err m)
  | .stop .panic, _ => .stop .panic
  | .get k, f => .get fun p => (k p).bind f
  | .put p k, f => .put p (k.bind f)
  | .load p k, f => .load p fun x => (k x).bind f
  | .store p g k, f => .store p g (k.bind f)
  | .send p k, f => .send p (k.bind f)
  | .recv k, f => .recv fun r => (k r).bind f

instance : Monad Prog where
  pure a := .stop (.ok a)
  bind := bind

end Prog

/-! ## Goroutines taking turns -/

/-- The packet objects, the pool, the goroutines, and the packets on their way between these. -/
structure Machine (α : Type) where
  pool : PacketPool
  threads : List (Prog α)
  mail : List Nat := []

/-- Any goroutine makes its next step. `PacketPool.Get` gives any packet of the pool or a new one. -/
inductive Machine.Act {α : Type} : Machine α → Machine α → Prop
  | reuse (m : Machine α) (i p : Nat) (k : Nat → Prog α) : m.threads[i]? = some (.get k) → p ∈ m.pool.pool →
    Act m ⟨{ m.pool with pool := m.pool.pool.erase p }, m.threads.set i (k p), m.mail⟩
  | make (m : Machine α) (i : Nat) (k : Nat → Prog α) : m.threads[i]? = some (.get k) →
    Act m ⟨{ m.pool with objs := m.pool.objs ++ [{}] }, m.threads.set i (k m.pool.objs.length), m.mail⟩
  | put (m : Machine α) (i p : Nat) (k : Prog α) : m.threads[i]? = some (.put p k) →
    Act m ⟨{ m.pool with pool := m.pool.pool ++ [p] }, m.threads.set i k, m.mail⟩
  | load (m : Machine α) (i p : Nat) (k : AVPacket → Prog α) (x : AVPacket) : m.threads[i]? = some (.load p k) →
    m.pool.objs[p]? = some x → Act m ⟨m.pool, m.threads.set i (k x), m.mail⟩
  | store (m : Machine α) (i p : Nat) (f : AVPacket → AVPacket) (k : Prog α) (x : AVPacket) : m.threads[i]? = some (.store p f k) →
    m.pool.objs[p]? = some x → Act m ⟨m.pool.modify p f, m.threads.set i k, m.mail⟩
  | send (m : Machine α) (i p : Nat) (k : Prog α) : m.threads[i]? = some (.send p k) → Act m ⟨m.pool, m.threads.set i k, m.mail ++ [p]⟩
  | recv (m : Machine α) (i p : Nat) (k : Option Nat → Prog α) : m.threads[i]? = some (.recv k) → p ∈ m.mail →
    Act m ⟨m.pool, m.threads.set i (k (some p)), m.mail.erase p⟩
  | nothing (m : Machine α) (i : Nat) (k : Option Nat → Prog α) : m.threads[i]? = some (.recv k) →
    Act m ⟨m.pool, m.threads.set i (k none), m.mail⟩

/-- A step of a goroutine, or the garbage collector drops packets from the pool, as it may at any time. -/
inductive Machine.Step {α : Type} : Machine α → Machine α → Prop
  | act (m m' : Machine α) : Act m m' → Step m m'
  | collect (m : Machine α) (keep : Nat → Bool) : Step m ⟨{ m.pool with pool := m.pool.pool.filter keep }, m.threads, m.mail⟩

/-- Any number of steps. -/
inductive Machine.Steps {α : Type} : Machine α → Machine α → Prop
  | refl (m : Machine α) : Steps m m
  | step (a b c : Machine α) : Steps a b → Step b c → Steps a c

/-- Any number of steps of goroutines. -/
inductive Machine.Acts {α : Type} : Machine α → Machine α → Prop
  | refl (m : Machine α) : Acts m m
  | step (a b c : Machine α) : Acts a b → Act b c → Acts a c

/-! ## The packet functions as programs -/

namespace Threads

/-- Reading a packet. -/
def load (p : Nat) : Prog AVPacket := .load p fun x => .stop (.ok x)

/-- Assignments to fields, one after the other. -/
def stores (p : Nat) : List (AVPacket → AVPacket) → Prog Unit
  | [] => .stop (.ok ())
  | f :: fs => .store p f (stores p fs)

/-- Reading packets. -/
def loads : List Nat → Prog (List AVPacket)
  | [] => .stop (.ok [])
  | p :: ps => do
    let x ← load p
    let xs ← loads ps
    return x :: xs

/-- The assignments of `NewAudioPacket` (/repo/av_packet.go:92-98). -/
def audioFields (data : Bytes) (ts id index timebase : Int) : List (AVPacket → AVPacket) :=
  [fun x => { x with data := data }, fun x => { x with dts := ts }, fun x => { x with pts := ts }, fun x => { x with codecID := id },
   fun x => { x with index := index }, fun x => { x with timebase := timebase }, fun x => { x with mediaType := mediaAudio }]

/-- The assignments of `NewVideoPacket` (/repo/av_packet.go:105-113). -/
def videoFields (data : Bytes) (dts pts : Int) (key : Bool) (t : Byte) (id index timebase : Int) : List (AVPacket → AVPacket) :=
  [fun x => { x with data := data }, fun x => { x with dts := dts }, fun x => { x with pts := pts }, fun x => { x with key := key },
   fun x => { x with packetType := t }, fun x => { x with codecID := id }, fun x => { x with index := index },
   fun x => { x with timebase := timebase }, fun x => { x with mediaType := mediaVideo }]

/-- The assignments of `FreePacket` (/repo/av_packet.go:119-133). -/
def resetFields : List (AVPacket → AVPacket) :=
  [fun x => { x with data := [] }, fun x => { x with dataAVCC := none }, fun x => { x with dataAnnexB := none },
   fun x => { x with onBufferAlloc := none }, fun x => { x with bufferIndex := 0 }, fun x => { x with dts := 0 },
   fun x => { x with pts := 0 }, fun x => { x with duration := 0 }, fun x => { x with key := false },
   fun x => { x with createdTime := 0 }, fun x => { x with index := 0 }, fun x => { x with timebase := 0 },
   fun x => { x with packetType := packNone }, fun x => { x with mediaType := mediaUnknown }, fun x => { x with codecID := codecNone }]

/-- `NewAudioPacket` and `NewVideoPacket` (/repo/av_packet.go:90-116) with the assignments that follow. -/
def newPacket (fs : List (AVPacket → AVPacket)) : Prog Nat := .get fun p => do
  stores p fs
  return p

/-- `FreePacket` (/repo/av_packet.go:118-135). -/
def freePacket (p : Nat) : Prog Unit := do
  stores p resetFields
  .put p (.stop (.ok ()))

/-- What a handler does with packets of its own: it makes one, writes to its `i`-th, frees it, or passes it on; or it takes one that was
passed on. -/
inductive HandlerAct where
  | make (fs : List (AVPacket → AVPacket))
  | use (i : Nat) (f : AVPacket → AVPacket)
  | free (i : Nat)
  | send (i : Nat)
  | recv

/-- One of these; the result is the packets that the handler has. -/
def HandlerAct.run (kept : List Nat) : HandlerAct → Prog (List Nat)
  | .make fs => do
    let p ← newPacket fs
    return p :: kept
  | .use i f =>
    match kept[i]? with
    | some p => .store p f (.stop (.ok kept))
    | none => .stop (.ok kept)
  | .free i =>
    match kept[i]? with
    | some p => do
      freePacket p
      return kept.eraseIdx i
    | none => .stop (.ok kept)
  | .send i =>
    match kept[i]? with
    | some p => .send p (.stop (.ok (kept.eraseIdx i)))
    | none => .stop (.ok kept)
  | .recv => .recv fun
    | some p => .stop (.ok (p :: kept))
    | none => .stop (.ok kept)

/-- Several. -/
def runActs : List HandlerAct → List Nat → Prog (List Nat)
  | [], kept => .stop (.ok kept)
  | a :: rest, kept => do
    let kept ← a.run kept
    runActs rest kept

/-- The choices of `Oracle` (of which `sort` and `audioType` are not used here), the order that `sort.Slice` brings packets with the given
contents into, and what the handler does when it is called as the `n`-th: with packets of its own, and with the one it is lent. -/
structure TOracle extends Oracle where
  positions : List AVPacket → List Nat
  acts : Nat → List HandlerAct
  touch : Nat → AVPacket → AVPacket

/-- `BaseDemuxer` (/repo/demuxer.go:29-41) and its handler, which has the packets `kept`; `queues` is `Packets`. -/
structure TDemuxer where
  base : Demuxer
  queues : List (List Nat) := []
  kept : List Nat := []

namespace TDemuxer

/-- A call of the handler. -/
def tell (o : TOracle) (d : TDemuxer) (c : Call) : Prog TDemuxer := do
  let kept ← runActs (o.acts d.base.calls.length) d.kept
  return { d with base := d.base.call [c], kept := kept }

/-- Several calls. -/
def tells (o : TOracle) (d : TDemuxer) : List Call → Prog TDemuxer
  | [] => .stop (.ok d)
  | c :: cs => do
    let d ← d.tell o c
    tells o d cs

/-- `forwardPacket` (/repo/demuxer.go:292-301). Without `AutoFree` the packet is the handler's from now on. The record of `FreePacket`
has the packet as it was delivered. -/
def forwardPacket (o : TOracle) (d : TDemuxer) (p : Nat) : Prog TDemuxer := do
  let x ← load p
  if d.base.autoFree then do
    stores p [o.touch d.base.calls.length]
    let d ← d.tell o (.packet x)
    let y ← load p
    match d.base.bufferOf.lookup y.index with
    | none => .stop .panic
    | some b => do
      freePacket p
      return { d with base := d.base.call [.discardHead b, .free x] }
  else ({ d with kept := p :: d.kept } : TDemuxer).tell o (.packet x)

/-- Forwarding in a loop (/repo/demuxer.go:473-475). -/
def forwardAll (o : TOracle) (d : TDemuxer) : List Nat → Prog TDemuxer
  | [] => .stop (.ok d)
  | p :: rest => do
    let d ← d.forwardPacket o p
    forwardAll o d rest

/-- The first packet of each queue (/repo/demuxer.go:341-346 and 387-392). The code stops at the packet it looks for. -/
def heads : List (List Nat) → Prog (List (List AVPacket))
  | [] => .stop (.ok [])
  | q :: rest => do
    let xs ← loads (q.take 1)
    let r ← heads rest
    return xs :: r

/-- `prepareTracks` (/repo/demuxer.go:429-432). -/
def prepareTracks (undef : Int) (d : TDemuxer) : Prog TDemuxer := do
  let ps ← heads d.queues
  let s ← .stop (({ d.base with packets := ps } : Demuxer).prepareTracks undef)
  return { d with base := { s with packets := d.base.packets } }

/-- `OnProbeComplete` (/repo/demuxer.go:434-476). -/
def onProbeComplete (o : TOracle) (d : TDemuxer) : Prog TDemuxer :=
  if d.base.completed then .stop (.ok d)
  else
    let d := { d with base := { d.base with completed := true } }
    if d.base.tracks.size = 0 then d.tell o .trackNotFound
    else do
      let d ← d.prepareTracks o.undef
      let d ← d.tells o (d.base.tracks.tracks.map .newTrack)
      let d ← d.tell o .trackComplete
      let result := d.queues.flatMap fun q => q.take (q.length - 1)
      let d : TDemuxer := { d with queues := d.queues.map fun q => q.drop (q.length - 1) }
      let xs ← loads result
      d.forwardAll o ((o.positions xs).filterMap (result[·]?))

/-- `processBufferedPacket` from line 264 on (/repo/demuxer.go:264-290). -/
def enqueue (o : TOracle) (d : TDemuxer) (i : Int) (p : Nat) : Prog TDemuxer := do
  let q ← .stop (idxI d.queues i)
  let q := q ++ [p]
  let prev : Int := (q.length : Int) - 2
  if prev < 0 then return { d with queues := d.queues.set i.toNat q }
  else do
    let pp ← .stop (idxI q prev)
    let x ← load p
    stores pp [fun y => { y with duration := wrap64 (x.dts - y.dts) }]
    if d.base.completed then do
      let pp ← .stop (idxI q prev)
      ({ d with queues := d.queues.set i.toNat (q.eraseIdx prev.toNat) } : TDemuxer).forwardPacket o pp
    else do
      let d := { d with queues := d.queues.set i.toNat q }
      let ps ← loads (q.take (prev + 1).toNat)
      let duration := Demuxer.probed o.undef ps
      if duration ≥ max (max d.base.probeDuration 200) duration then d.onProbeComplete o
      else return d

/-- `processBufferedPacket` (/repo/demuxer.go:254-290). -/
def processBufferedPacket (o : TOracle) (d : TDemuxer) (p : Nat) : Prog TDemuxer := do
  let x ← load p
  if x.index < d.queues.length then d.enqueue o x.index p
  else ({ d with queues := d.queues ++ [[]] } : TDemuxer).enqueue o d.queues.length p

/-- `OnAudioPacket` (/repo/demuxer.go:171-204), `ExtractAudioPacket` (/repo/video_stream.go:152-180). -/
def onAudioPacket (o : TOracle) (d : TDemuxer) (bufferIndex id : Int) (data : Bytes) (ts : Int) : Prog TDemuxer := do
  let (track, s) ← .stop (ObjDemuxer.audioTrack o.toOracle d.base bufferIndex id data)
  let d := { d with base := s }
  match track with
  | none => return { d with base := d.base.call [.discardBack bufferIndex] }
  | some t => do
    let p ← newPacket (audioFields data ts id t.index t.timebase ++ [fun x => { x with bufferIndex := bufferIndex }])
    let x ← load p
    ({ d with base := d.base.call [.accepted x] } : TDemuxer).processBufferedPacket o p

/-- `OnVideoPacket` (/repo/demuxer.go:206-250). The callback writes to the packet. -/
def onVideoPacket (o : TOracle) (d : TDemuxer) (bufferIndex id : Int) (data : Bytes) (key : Bool) (dts pts : Int) : Prog TDemuxer := do
  let (track, s) ← .stop (ObjDemuxer.videoTrack o.toOracle d.base bufferIndex id data key)
  let d := { d with base := s }
  match track with
  | none => return { d with base := d.base.call [.discardBack bufferIndex] }
  | some t => do
    let p ← newPacket (videoFields data dts pts key d.base.getPackType id t.index t.timebase ++
      [fun x => { x with bufferIndex := bufferIndex }, o.preprocess])
    let x ← load p
    ({ d with base := d.base.call [.accepted x] } : TDemuxer).processBufferedPacket o p

/-- `TryCompleteProbe` (/repo/demuxer.go:492-514). -/
def tryCompleteProbe (o : TOracle) (d : TDemuxer) : Prog TDemuxer :=
  let needMoreData := d.base.tracks.tracks.any fun t =>
    (t.codecID = codecPCMS16LE ∨ t.codecID = codecG726) ∧
      d.queues.zipIdx.any fun (q, i) => (i : Int) = t.index ∧ q.length < 2
  if needMoreData then .stop (.ok d) else d.onProbeComplete o

/-- One operation. -/
def step (o : TOracle) (d : TDemuxer) : DemuxOp → Prog TDemuxer
  | .audioPacket b id data ts => d.onAudioPacket o b id data ts
  | .videoPacket b id data key dts pts => d.onVideoPacket o b id data key dts pts
  | .probeComplete => d.onProbeComplete o
  | .tryCompleteProbe => d.tryCompleteProbe o
  | e => do
    let s ← .stop (e.run o.toOracle d.base)
    return { d with base := s }

/-- A history of operations; in between the goroutine does what handlers do. Without operations it is one that only has packets that
others pass on to it. -/
def run (d : TDemuxer) : List ((TOracle × DemuxOp) ⊕ HandlerAct) → Prog TDemuxer
  | [] => .stop (.ok d)
  | .inl (o, e) :: rest => do
    let d ← d.step o e
    run d rest
  | .inr a :: rest => do
    let kept ← a.run d.kept
    run { d with kept := kept } rest

/-- A demuxer before it is used. -/
def new (name : String) (autoFree : Bool) : TDemuxer := { base := { name := name, autoFree := autoFree } }

end TDemuxer
end Threads
end Avf
