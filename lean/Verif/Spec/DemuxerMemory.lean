import Verif.Spec.Demuxer
import Verif.Model.Pipelines
/-!
# A demuxer wired to a real pipeline

The caller writes the payload of a packet in pieces to the pipeline, fetches the block, and calls the demuxer with the slice
that it got. The demuxer passes the slice on to the handler, now or later. `Wired` remembers which slice a packet has: the
handler reads the memory behind it at the moment of the delivery, and `got` is what it reads.
-/
namespace Avf
open Go

/-- The operation on the bytes that the caller fetched. -/
def DemuxOp.withBlock (d : Bytes) : DemuxOp → DemuxOp
  | .audioPacket b id _ ts => .audioPacket b id d ts
  | .videoPacket b id _ k dts pts => .videoPacket b id d k dts pts
  | .newAudioTrack b id tb _ c => .newAudioTrack b id tb (some d) c
  | .newVideoTrack b id tb _ => .newVideoTrack b id tb (some d)
  | e => e

/-- The media type that the caller names when it writes. -/
def DemuxOp.isVideo : DemuxOp → Bool
  | .videoPacket .. | .newVideoTrack .. => true
  | _ => false

/-- The demuxer, the pipeline, the memory; the slices of the packets that were taken and not delivered yet; and what the
handler has read. -/
structure Wired where
  dem : Demuxer
  buf : StreamsBuf := ⟨[]⟩
  mem : Mem := []
  refs : List (AVPacket × SliceRef) := []
  got : List (Option Bytes) := []

/-- Writing in pieces. -/
def StreamsBuf.writeAll (s : StreamsBuf) (m : Mem) (b : Nat) (video : Bool) : List Bytes → Go (StreamsBuf × Mem)
  | [] => ok (s, m)
  | c :: cs => do
    let (_, s, m) ← s.write m c b video
    s.writeAll m b video cs

/-- By what a packet is recognised. (The duration is set after the packet was taken.) -/
def packetKey (p : AVPacket) : Int × Int × Int × Int × Bytes := (p.bufferIndex, p.index, p.dts, p.pts, p.data)

/-- Whether the entry is the one of a delivered packet. -/
def isRef (p : AVPacket) (x : AVPacket × SliceRef) : Bool := packetKey x.1 = packetKey p

namespace Wired

/-- The caller puts the block of the operation into the pipeline and fetches it. -/
def fill (w : Wired) (e : DemuxOp) (chunks : List Bytes) : Go (Option SliceRef × Wired) :=
  match e.block with
  | none => ok (none, w)
  | some (b, _) =>
    if b < 0 then panic
    else do
      let (s, m) ← w.buf.writeAll w.mem b.toNat e.isVideo chunks
      let (sl, s, m) ← s.fetch m b.toNat
      return (sl, { w with buf := s, mem := m })

/-- One call of the demuxer; `sl` is the slice it was called with. -/
def play (sl : Option SliceRef) (w : Wired) : Call → Go Wired
  | .accepted p =>
    match sl with
    | some sl => ok { w with refs := w.refs ++ [(p, sl)] }
    | none => panic
  | .discardBack b => if b < 0 then panic else do
      let s ← w.buf.discardBack b.toNat
      return { w with buf := s }
  | .discardHead b => if b < 0 then panic else do
      let s ← w.buf.discardHead b.toNat
      return { w with buf := s }
  | .packet p => ok { w with refs := w.refs.eraseP (isRef p)
                             got := w.got ++ [(w.refs.find? (isRef p)).map fun x => w.mem.read x.2] }
  | _ => ok w

/-- Calls in their order. -/
def playAll (sl : Option SliceRef) (w : Wired) : List Call → Go Wired
  | [] => ok w
  | c :: cs => do
    let w ← w.play sl c
    w.playAll sl cs

/-- One operation. -/
def step (w : Wired) (o : Oracle) (e : DemuxOp) (chunks : List Bytes) : Go Wired := do
  let (sl, w) ← w.fill e chunks
  let e := match sl with
    | some sl => e.withBlock (w.mem.read sl)
    | none => e
  let d ← e.run o w.dem
  let cs := d.calls.drop w.dem.calls.length
  { w with dem := d }.playAll sl cs

/-- A history; with every operation the pieces in which its payload is written. -/
def run (w : Wired) : List (Oracle × DemuxOp × List Bytes) → Go Wired
  | [] => ok w
  | (o, e, chunks) :: rest => do
    let w ← w.step o e chunks
    w.run rest

end Wired

/-- The operations. -/
def operations (h : List (Oracle × DemuxOp × List Bytes)) : List (Oracle × DemuxOp) := h.map fun x => (x.1, x.2.1)

/-- The pieces are those of the payload. -/
def InPieces (h : List (Oracle × DemuxOp × List Bytes)) : Prop :=
  ∀ x ∈ h, ∀ b d, x.2.1.block = some (b, d) → x.2.2 ≠ [] ∧ x.2.2.flatten = d

/-- Bytes of the packets of a buffer that are queued in the demuxer. -/
def queuedBytes (b : Int) (s : Demuxer) : Nat :=
  (s.packets.flatten.map fun p => if p.bufferIndex = b then p.data.length else 0).sum

/-- Buffers are used from index 0 on without gaps; no payload of buffer `i` is longer than `M i`; and with it and what is queued there is room
for two more in the buffer: 2 MiB if its first payload was video, 576000 bytes otherwise. -/
def LightInput (M : Nat → Nat) : List Nat → Demuxer → List (Oracle × DemuxOp) → Prop
  | _, _, [] => True
  | caps, s, (o, e) :: rest =>
    match e.block with
    | none => ∀ s', e.run o s = ok s' → LightInput M caps s' rest
    | some (b, d) =>
      ∃ (i cap : Nat) (caps' : List Nat), b = i ∧
        (i < caps.length ∧ caps' = caps ∨ i = caps.length ∧ caps' = caps ++ [if e.isVideo then 2097152 else 576000]) ∧
        caps'[i]? = some cap ∧ d.length ≤ M i ∧ queuedBytes b s + d.length + 2 * M i ≤ cap ∧
        ∀ s', e.run o s = ok s' → LightInput M caps' s' rest

/-- The sizes of the buffers that a history makes, if none of them grows: a buffer whose first payload is video has 2 MiB, any other
576000 bytes. -/
def bufferSizes : List Nat → List (Oracle × DemuxOp) → List Nat
  | caps, [] => caps
  | caps, (_, e) :: rest =>
    match e.block with
    | none => bufferSizes caps rest
    | some (b, _) => bufferSizes (if b < caps.length then caps else caps ++ [if e.isVideo then 2097152 else 576000]) rest

/-! ## The same with `DirectDataPipeline` -/

/-- As `Wired`. -/
structure DirectWired where
  dem : Demuxer
  pipe : DirectPipe := DirectPipe.new
  mem : Mem := []
  refs : List (AVPacket × SliceRef) := []
  got : List (Option Bytes) := []

/-- Writing in pieces. -/
def DirectPipe.writeAll (p : DirectPipe) (m : Mem) : List Bytes → Go (DirectPipe × Mem)
  | [] => ok (p, m)
  | c :: cs => do
    let (_, p, m) ← p.write m c
    p.writeAll m cs

namespace DirectWired

/-- As `Wired.fill`. -/
def fill (w : DirectWired) (e : DemuxOp) (chunks : List Bytes) : Go (Option SliceRef × DirectWired) :=
  match e.block with
  | none => ok (none, w)
  | some _ => do
    let (p, m) ← w.pipe.writeAll w.mem chunks
    let (sl, p) ← p.fetch
    return (some sl, { w with pipe := p, mem := m })

/-- As `Wired.play`; discarding does nothing. -/
def play (sl : Option SliceRef) (w : DirectWired) : Call → Go DirectWired
  | .accepted p =>
    match sl with
    | some sl => ok { w with refs := w.refs ++ [(p, sl)] }
    | none => panic
  | .packet p => ok { w with refs := w.refs.eraseP (isRef p)
                             got := w.got ++ [(w.refs.find? (isRef p)).map fun x => w.mem.read x.2] }
  | _ => ok w

/-- Calls in their order. -/
def playAll (sl : Option SliceRef) (w : DirectWired) : List Call → Go DirectWired
  | [] => ok w
  | c :: cs => do
    let w ← w.play sl c
    w.playAll sl cs

/-- One operation. -/
def step (w : DirectWired) (o : Oracle) (e : DemuxOp) (chunks : List Bytes) : Go DirectWired := do
  let (sl, w) ← w.fill e chunks
  let e := match sl with
    | some sl => e.withBlock (w.mem.read sl)
    | none => e
  let d ← e.run o w.dem
  let cs := d.calls.drop w.dem.calls.length
  { w with dem := d }.playAll sl cs

/-- A history. -/
def run (w : DirectWired) : List (Oracle × DemuxOp × List Bytes) → Go DirectWired
  | [] => ok w
  | (o, e, chunks) :: rest => do
    let w ← w.step o e chunks
    w.run rest

end DirectWired

end Avf
