import Verif.Model.Handler
/-!
# Model of /repo/handler.go on a disk that may fail

In `Model/Handler.lean` opening and writing files always succeeds. Here the disk decides for each of these operations whether it fails. An
`OpenFile` that fails makes no file. A `Write` that fails has written some of the bytes, any number of them (`(*os.File).Write` goes on
after a short write of the system and returns an error if it did not write everything). The handler answers every error with a panic
(/repo/handler.go:59-61, 79-81 and 85-87); what is on the disk then stays. All other panics of the handler end the process as well.
-/
namespace Avf
open Go

/-- What the disk does with its operations, by their number: `none`, it succeeds; `some n`, it fails, a `Write` after `n` bytes. -/
abbrev Faults := Nat → Option Nat

/-- The handler, and how many operations of the disk there have been. -/
structure FaultyHandler extends FileHandler where
  ops : Nat := 0

/-- The process dies with what is on the disk. -/
def orDie {α : Type} (d : Disk) : Go α → Except Disk α
  | .ok a => .ok a
  | _ => .error d

namespace FaultyHandler

/-- `OnNewTrack` (/repo/handler.go:55-64). -/
def onNewTrack (fs : Faults) (o : FaultyHandler) (t : AVStream) : Except Disk FaultyHandler := do
  let h ← orDie o.disk (o.logNewTrack t)
  let name ← orDie h.disk (FileHandler.fileName h.path t)
  match fs o.ops with
  | none =>
    let (f, disk) := h.disk.openFile name 132
    return ⟨{ h with fos := h.fos ++ [f], disk := disk }, o.ops + 1⟩
  | some _ => .error h.disk

/-- Writing to `o.fos[index]` (/repo/handler.go:79 and 85). -/
def writeTo (fs : Faults) (o : FaultyHandler) (index : Int) (b : Bytes) : Except Disk FaultyHandler := do
  let f ← orDie o.disk (idxI o.fos index)
  match fs o.ops with
  | none =>
    let (f, disk) := o.disk.write f b
    return ⟨{ o.toFileHandler with fos := o.fos.set index.toNat f, disk := disk }, o.ops + 1⟩
  | some n => .error (o.disk.write f (b.take n)).2

/-- `OnPacket` (/repo/handler.go:70-88). -/
def onPacket (fs : Faults) (o : FaultyHandler) (p : AVPacket) : Except Disk FaultyHandler := do
  let h ← orDie o.disk (o.logPacket p)
  let o : FaultyHandler := ⟨h, o.ops⟩
  if p.mediaType = mediaVideo then do
    let stream ← orDie o.disk (o.tracks.get p.index)
    let (data, p) ← orDie o.disk (avccPacket2AnnexB stream p)
    match stream.codecParameters with
    | some c =>
      if p.key ∧ p.packetType = packAVCC then do
        let o ← o.writeTo fs p.index c.annexBExtraData
        o.writeTo fs p.index data
      else o.writeTo fs p.index data
    | none => o.writeTo fs p.index data
  else o.writeTo fs p.index p.data

/-- A call of the handler. -/
def handle (fs : Faults) (o : FaultyHandler) : Call → Except Disk FaultyHandler
  | .newTrack t => o.onNewTrack fs t
  | .packet p => o.onPacket fs p
  | _ => .ok o

/-- A sequence of calls. -/
def handleAll (fs : Faults) (o : FaultyHandler) : List Call → Except Disk FaultyHandler
  | [] => .ok o
  | c :: cs => do
    let o ← o.handle fs c
    o.handleAll fs cs

end FaultyHandler
end Avf
