import Verif.Spec.DemuxerMemory
/-!
# Conditions on the input under which the buffers of a demuxer do not grow

`LightInput` (`Spec/DemuxerMemory.lean`) speaks of what is queued in the demuxer. A caller knows what it writes, and whether probing is
over.
-/
namespace Avf
open Go

/-- The payloads of a history, each with its buffer. -/
def payloads (h : List (Oracle × DemuxOp)) : List (Int × Bytes) := h.filterMap fun x => x.2.block

/-- Bytes written to a buffer. -/
def inputBytes (b : Int) (h : List (Oracle × DemuxOp)) : Nat := (((payloads h).filter fun x => x.1 = b).map fun x => x.2.length).sum

/-- Buffers come into use in the order 0, 1, 2, …; `n` are in use. -/
def UsedInOrder : Nat → List (Int × Bytes) → Prop
  | _, [] => True
  | n, (b, _) :: rest => 0 ≤ b ∧ b ≤ n ∧ UsedInOrder (if b < n then n else n + 1) rest

/-- No payload of buffer `i` is longer than `M i`, and the buffer has room for four of them; and while the demuxer probes, for all that
was written to it since the beginning and two more. -/
structure ModestInput (M : Nat → Nat) (name : String) (h : List (Oracle × DemuxOp)) : Prop where
  inOrder : UsedInOrder 0 (payloads h)
  payload : ∀ (i : Nat) d, ((i : Int), d) ∈ payloads h → d.length ≤ M i ∧ 4 * M i ≤ (bufferSizes [] h).getD i 0
  probing : ∀ (l1 : List (Oracle × DemuxOp)) x l2 s1, h = l1 ++ x :: l2 → runDemux (Demuxer.new name true) l1 = ok s1 → s1.completed = false →
    ∀ (i : Nat) d, x.2.block = some ((i : Int), d) → inputBytes i (l1 ++ [x]) + 2 * M i ≤ (bufferSizes [] h).getD i 0

end Avf
