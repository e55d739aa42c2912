import Verif.Spec.BlockBuffer
/-!
# A ring that is not overloaded

Stated on the memory-free specification of a block buffer: at every `Write` the bytes of the blocks not yet popped plus
two blocks of the largest size fit in the capacity, and only the block that was written last is taken back.
-/
namespace Avf
open Go

namespace BufSpec

/-- Bytes of the blocks that have not been popped. -/
def liveBytes (t : BufSpec) : Nat := (t.blocks.map (·.1.length)).sum

/-- Bytes of the block being written. -/
def pendingBytes (t : BufSpec) : Nat :=
  match t.blocks.getLast? with
  | some (c, false) => c.length
  | _ => 0

end BufSpec

/-- Whether the last block is the one that was written last: `PopBack` takes it back once. -/
def BufOp.fresh (o : BufOp) (fresh : Bool) : Bool :=
  match o with
  | .write _ => true
  | .popBack => false
  | .clear => false
  | _ => fresh

/-- The history does not use `SplitOff` and `Data`; `PopBack` takes back only the block that was written last; no block gets
longer than `M`; and at every `Write` the live bytes leave room for two more blocks. -/
def LightLoad (M cap : Nat) (fresh : Bool) : List BufOp → BufSpec → Prop
  | [], _ => True
  | o :: os, t =>
    (o ≠ .splitOff ∧ o ≠ .data) ∧
    (o = .popBack → fresh = true) ∧
    (∀ d, o = .write d → t.liveBytes + 2 * M ≤ cap ∧ t.pendingBytes + d.length ≤ M) ∧
    ∀ x t', o.spec t = ok (x, t') → LightLoad M cap (o.fresh fresh) os t'

end Avf
