import Verif.Model.BlockBuffer
import Verif.Spec.BlockBuffer
/-!
# A client that remembers fetched slices

The client keeps one entry per block it has not popped: `none` while it is still being written, and once it has been
fetched the slice together with the bytes the slice held at that moment.  The entries are updated from what the client
itself does, never from the internals of the buffer.
-/
namespace Avf
open Go

/-- The entries of the client. -/
abbrev Held := List (Option (SliceRef × Bytes))

namespace Held

/-- A `Write` starts a block unless the last one is still being written. -/
def write (h : Held) : Held :=
  match h.getLast? with
  | some none => h
  | _ => h ++ [none]

/-- A `Fetch` that returned slice `s` with contents `d`. -/
def fetched (h : Held) (s : SliceRef) (d : Bytes) : Held := h.dropLast ++ [some (s, d)]

end Held

/-- One step of a client of a `DirectBlockBuffer`. -/
def BufOp.clientD : BufOp → DirectBuf × Mem × Held → Go (DirectBuf × Mem × Held)
  | write d, (b, m, h) => do let (b, m) ← b.write m d; return (b, m, h.write)
  | fetch, (b, m, h) => do
    let (s, b) ← b.fetch
    match s with
    | none => return (b, m, h)
    | some s => return (b, m, h.fetched s (m.read s))
  | pop, (b, m, h) => do let b ← b.pop; return (b, m, h.drop 1)
  | popBack, (b, m, h) => do let b ← b.popBack; return (b, m, h.dropLast)
  | clear, (b, m, _) => ok (b.clear, m, [])
  | splitOff, (b, m, h) => do let (_, b) ← b.splitOff; return (b, m, h)
  | _, s => ok s

/-- A history of a client. -/
def runClientD : List BufOp → DirectBuf × Mem × Held → Go (DirectBuf × Mem × Held)
  | [], s => ok s
  | o :: os, s => do let s ← o.clientD s; runClientD os s

/-- One step of a client of an `RBBlockBuffer`. -/
def BufOp.clientR : BufOp → RBBuf × Mem × Held → Go (RBBuf × Mem × Held)
  | write d, (r, m, h) => do let (r, m) ← r.write m d; return (r, m, h.write)
  | fetch, (r, m, h) => do
    let (s, r) ← r.fetch
    match s with
    | none => return (r, m, h)
    | some s => return (r, m, h.fetched s (m.read s))
  | pop, (r, m, h) => do let r ← r.pop; return (r, m, h.drop 1)
  | popBack, (r, m, h) => do let r ← r.popBack; return (r, m, h.dropLast)
  | clear, (r, m, _) => ok (r.clear, m, [])
  | splitOff, (r, m, h) => do let (_, r) ← r.splitOff; return (r, m, h)
  | _, s => ok s

/-- A history of a client. -/
def runClientR : List BufOp → RBBuf × Mem × Held → Go (RBBuf × Mem × Held)
  | [], s => ok s
  | o :: os, s => do let s ← o.clientR s; runClientR os s

end Avf
