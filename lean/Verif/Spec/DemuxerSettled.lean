import Verif.Spec.Demuxer
/-! # Histories in which the order of packets is kept -/
namespace Avf

/-- The first packets come in the order of the tracks; or there are at most two tracks and each has a packet before probing ends, in any
order (a track for sound and a track for pictures). -/
def Orderly (s : Demuxer) : Prop :=
  FirstsInOrder (taken s.calls) ∨
  (s.tracks.tracks.length ≤ 2 ∧ ∀ i : Nat, i < s.tracks.tracks.length → ∃ p ∈ taken (beforeComplete s.calls), p.index = i)

end Avf
