import Verif.Spec.Demuxer
/-!
# A pipeline as the caller of the demuxer sees it

Per buffer the complete blocks that have not been discarded, oldest first. Before every operation the caller has put the
block that it passes on into the pipeline (`DemuxOp.block`); the demuxer then discards blocks by its calls.
-/
namespace Avf
open Go

/-- The blocks of each buffer. -/
abbrev Pipe := Int → List Bytes

namespace Pipe

/-- `f` applied to the blocks of buffer `b`. -/
def update (P : Pipe) (b : Int) (f : List Bytes → List Bytes) : Pipe := fun c => if c = b then f (P c) else P c

/-- The caller puts a block in. -/
def put (P : Pipe) : Option (Int × Bytes) → Pipe
  | none => P
  | some (b, d) => P.update b (· ++ [d])

/-- One call of the demuxer. Discarding from an empty buffer is a failure. With `strict`, so is the delivery of a packet whose
data is not the oldest block of its buffer. -/
def play (strict : Bool) (P : Pipe) : Call → Go Pipe
  | .discardBack b => if P b = [] then panic else ok (P.update b List.dropLast)
  | .discardHead b => if P b = [] then panic else ok (P.update b List.tail)
  | .packet p => if strict ∧ (P p.bufferIndex).head? ≠ some p.data then panic else ok P
  | _ => ok P

/-- Calls in their order. -/
def playAll (strict : Bool) (P : Pipe) : List Call → Go Pipe
  | [] => ok P
  | c :: cs => do
    let P ← P.play strict c
    P.playAll strict cs

end Pipe

/-- A history of operations of a demuxer that is connected to a pipeline. -/
def runPiped (strict : Bool) (s : Demuxer) (P : Pipe) : List (Oracle × DemuxOp) → Go (Demuxer × Pipe)
  | [] => ok (s, P)
  | (o, e) :: rest => do
    let s' ← e.run o s
    let P ← (P.put e.block).playAll strict (s'.calls.drop s.calls.length)
    runPiped strict s' P rest

/-- The packets of one buffer. -/
def ofBuffer (b : Int) (ps : List AVPacket) : List AVPacket := ps.filter fun p => p.bufferIndex = b

/-- Packets given back to the pool. -/
def freed : List Call → List AVPacket :=
  List.filterMap fun
    | .free p => some p
    | _ => none

/-- Discards of the oldest block: their buffers. -/
def releases : List Call → List Int :=
  List.filterMap fun
    | .discardHead b => some b
    | _ => none

/-- The preprocess callback leaves the payload alone. -/
def KeepsData (h : List (Oracle × DemuxOp)) : Prop := ∀ x ∈ h, ∀ p, (x.1.preprocess p).data = p.data

end Avf
