import Verif.Spec.Trace
import Verif.Spec.RingLoad
import Verif.Spec.Streams
/-! # Specification: how much is in a buffer

All of this is about the memory-free specifications: what the caller has written and not yet taken out. -/
namespace Avf
open Go

/-- In every state of the history `f` is at most `N`. -/
def Within {Op S O : Type} (step : Op → S → Go (O × S)) (f : S → Nat) (N : Nat) : List Op → S → Prop
  | [], s => f s ≤ N
  | o :: os, s => f s ≤ N ∧ ∀ x s', step o s = ok (x, s') → Within step f N os s'

/-- The history does not use `SplitOff`; `PopBack` takes back only the block that was written last; no block gets longer than
`M`; at every `Write` the blocks that have not been popped have at most `H` bytes. -/
def ModestLoad (M H : Nat) (fresh : Bool) : List BufOp → BufSpec → Prop
  | [], _ => True
  | o :: os, t =>
    o ≠ .splitOff ∧ (o = .popBack → fresh = true) ∧
    (∀ d, o = .write d → t.liveBytes ≤ H ∧ t.pendingBytes + d.length ≤ M) ∧
    ∀ x t', o.spec t = ok (x, t') → ModestLoad M H (o.fresh fresh) os t'

/-- The history does not use `SplitOff`; no block gets longer than `M`; at every `Write` the blocks that have not been popped
have at most `H` bytes. -/
def BoundedLoad (M H : Nat) : List BufOp → BufSpec → Prop
  | [], _ => True
  | o :: os, t =>
    o ≠ .splitOff ∧ (∀ d, o = .write d → t.liveBytes ≤ H ∧ t.pendingBytes + d.length ≤ M) ∧
    ∀ x t', o.spec t = ok (x, t') → BoundedLoad M H os t'

/-- What an operation on a stream is for the buffer of the stream. -/
def StreamOp.bufOp : StreamOp → BufOp
  | write d _ _ => .write d
  | fetch _ => .fetch
  | discardHead _ => .pop
  | discardBack _ => .popBack
  | pending _ => .pending

/-- The history of stream `i`. -/
def streamHist (i : Nat) (ops : List StreamOp) : List BufOp := (ops.filter fun o => o.index = i).map StreamOp.bufOp

end Avf
