import Verif.Spec.DemuxerObjects
/-! # What a packet costs when `n` packets are in its queue -/
namespace Avf

/-- After probing the last but one packet is looked up twice; while probing it is looked up once, and then every one but the last. -/
def queueSteps (completed : Bool) (n : Nat) : Nat :=
  if n = 0 then 0 else if completed then 2 * (n - 1) else (n - 1) + n * (n - 1) / 2

/-- What `n` packets cost that come into one queue while probing. -/
def probingSteps : Nat → Nat
  | 0 => 0
  | n + 1 => probingSteps n + queueSteps false n

end Avf
