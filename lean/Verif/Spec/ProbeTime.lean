import Verif.Spec.DemuxerLoad
import Verif.Spec.EndToEnd
import Verif.Spec.DemuxerTracks
/-!
# Conditions on the times of packets

How far the packets of one buffer are apart, and what probing keeps of them.
-/
namespace Avf
open Go

/-- In every buffer each packet comes at least `ms` milliseconds after the one before, and all times are moderate numbers. -/
structure Paced (ms : Nat) (name : String) (h : List (Oracle × DemuxOp)) : Prop where
  apart : ∀ b, (framesOf b h).IsChain fun f g => (ms : Int) * timebaseOf name ≤ 1000 * (g.dts - f.dts)
  range : ∀ b, ∀ f ∈ framesOf b h, -2 ^ 50 ≤ f.dts ∧ f.dts ≤ 2 ^ 50

/-- The times between packets, each in whole milliseconds, added up. -/
def wholeMs (tb : Int) : List Int → Int
  | a :: b :: l => 1000 * (b - a) / tb + wholeMs tb (b :: l)
  | _ => 0

/-- The time from the first of these times to the last. -/
def timeSpan : List Int → Int
  | [] => 0
  | t :: ts => (t :: ts).getLast (by simp) - t

/-- Probing is never set to more than `ms` milliseconds. -/
def ProbeAtMost (ms : Nat) (h : List (Oracle × DemuxOp)) : Prop :=
  ∀ x ∈ h, ∀ d, x.2 = .setProbeDuration d → d ≤ (ms : Int)

/-- How many packets of a buffer probing keeps if they are `k` milliseconds apart. -/
def probePackets (k ms : Nat) : Nat := (max ms 200 - 1) / k + 1

/-- The buffers are used in order; no payload of buffer `i` is longer than `M i`; the buffer has room for the packets that probing keeps, and
three more. -/
structure SteadyInput (M : Nat → Nat) (n : Nat) (h : List (Oracle × DemuxOp)) : Prop where
  inOrder : UsedInOrder 0 (payloads h)
  payload : ∀ (i : Nat) d, ((i : Int), d) ∈ payloads h → d.length ≤ M i ∧ (n + 3) * M i ≤ (bufferSizes [] h).getD i 0

end Avf
