import Verif.Model.Pipelines
import Verif.Spec.Streams
/-!
# A client that remembers from which stream it fetched which slice
-/
namespace Avf
open Go

/-- One step; the third component is everything ever fetched, with its stream. -/
def StreamOp.client : StreamOp → StreamsBuf × Mem × List (Nat × SliceRef) → Go (StreamsBuf × Mem × List (Nat × SliceRef))
  | write d i v, (s, m, h) => do let (_, s, m) ← s.write m d i v; return (s, m, h)
  | fetch i, (s, m, h) => do
    let (d, s, m) ← s.fetch m i
    match d with
    | none => return (s, m, h)
    | some d => return (s, m, (i, d) :: h)
  | discardHead i, (s, m, h) => do let s ← s.discardHead i; return (s, m, h)
  | discardBack i, (s, m, h) => do let s ← s.discardBack i; return (s, m, h)
  | pending i, (s, m, h) => do let (_, s, m) ← s.pendingBlockSize m i; return (s, m, h)

/-- A history. -/
def runStreams : List StreamOp → StreamsBuf × Mem × List (Nat × SliceRef) → Go (StreamsBuf × Mem × List (Nat × SliceRef))
  | [], s => ok s
  | o :: os, s => do let s ← o.client s; runStreams os s

end Avf
