import Verif.Model.BlockBuffer
import Verif.Spec.BlockBuffer
/-!
# Streams that share nothing

The specification of a `StreamsBuffer` is a list of ring buffers *each with a memory of its own*: by construction nothing
that happens to one of them can be seen through another.  `StreamOp.alone` runs an operation there.
-/
namespace Avf
open Go

/-- Operations on stream `i`. -/
inductive StreamOp where
  | write (d : Bytes) (i : Nat) (video : Bool)
  | fetch (i : Nat)
  | discardHead (i : Nat)
  | discardBack (i : Nat)
  | pending (i : Nat)
deriving DecidableEq, Repr

/-- The stream of an operation. -/
def StreamOp.index : StreamOp → Nat
  | write _ i _ => i
  | fetch i => i
  | discardHead i => i
  | discardBack i => i
  | pending i => i

/-- What the operation does to a single ring buffer with its memory. -/
def StreamOp.single : StreamOp → RBBuf × Mem → Go (BufObs × (RBBuf × Mem))
  | write d _ _, (r, m) => do let (r, m) ← r.write m d; return (.num d.length, (r, m))
  | fetch _, (r, m) => do let (s, r) ← r.fetch; return (.bytes (s.map m.read), (r, m))
  | discardHead _, (r, m) => do let r ← r.pop; return (.unit, (r, m))
  | discardBack _, (r, m) => do let r ← r.popBack; return (.unit, (r, m))
  | pending _, (r, m) => ok (.num r.pendingBlockSize, (r, m))

/-- Capacity of a buffer made by the operation; the discarding operations make none. -/
def StreamOp.makes : StreamOp → Option Nat
  | write _ _ true => some 2097152
  | write _ _ false => some 576000
  | fetch _ => some 576000
  | pending _ => some 576000
  | _ => none

/-- Separate buffers with separate memories; the next stream is created on first use, a stream beyond it is an error. -/
def StreamOp.alone (o : StreamOp) (ts : List (RBBuf × Mem)) : Go (BufObs × List (RBBuf × Mem)) := do
  match ts[o.index]? with
  | some t => do
    let (x, t) ← o.single t
    return (x, ts.set o.index t)
  | none =>
    if o.index = ts.length then
      match o.makes with
      | some cap => do
        let (x, t) ← o.single (RBBuf.new [] cap)
        return (x, ts ++ [t])
      | none => panic
    else panic

end Avf
