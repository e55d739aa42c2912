import Verif.Spec.Nal
/-! # Specification: a conversion in pieces, and a writer that is too small -/
namespace Avf

/-- The pieces of the conversion of units to Annex B: extra data, start codes and units. `before` are the units already passed, `size` is
the number of bytes of the pieces already passed. -/
def mp4Pieces (extra : Bytes) (before : List Bytes) (size : Nat) : List Bytes → List Bytes
  | [] => []
  | u :: us =>
    if avcUnitType u = 5 ∧ ∀ v ∈ before, avcUnitType v ≠ 7 ∧ avcUnitType v ≠ 8 then
      let c := code (decide (size + extra.length = 0))
      extra :: c :: u :: mp4Pieces extra (before ++ [u]) (size + extra.length + c.length + u.length) us
    else
      let c := code (decide (size = 0))
      c :: u :: mp4Pieces extra (before ++ [u]) (size + c.length + u.length) us

/-- What fits into `room` bytes when each piece is written whole or not at all, and one that does not fit does not keep the next from
being written. -/
def writeFitting : Nat → List Bytes → List Bytes
  | _, [] => []
  | room, p :: ps => if p.length ≤ room then p :: writeFitting (room - p.length) ps else writeFitting room ps

end Avf
