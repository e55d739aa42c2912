import Verif.Spec.EndToEnd
import Verif.Spec.Repackage
/-! # What a decoder of an Annex B stream has: pictures, and the parameter sets that are in force -/
namespace Avf
open Go

/-- The type of a unit that is a parameter set: 7 and 8 (H.264), 32, 33 and 34 (H.265). -/
def setType (codec : Int) (u : Bytes) : Option Nat :=
  if codec = codecH264 then if avcUnitType u = 7 ∨ avcUnitType u = 8 then some (avcUnitType u) else none
  else if codec = codecH265 then if 32 ≤ hevcUnitType u ∧ hevcUnitType u ≤ 34 then some (hevcUnitType u) else none
  else none

/-- A part of a picture: types 1 to 5 (H.264), 0 to 31 (H.265). -/
def isPicture (codec : Int) (u : Bytes) : Bool :=
  if codec = codecH264 then 1 ≤ avcUnitType u ∧ avcUnitType u ≤ 5
  else if codec = codecH265 then u ≠ [] ∧ hevcUnitType u ≤ 31
  else false

/-- The sets that are in force: of each type the last. -/
abbrev Sets := Nat → Option Bytes

def Sets.put (a : Sets) (k : Nat) (u : Bytes) : Sets := fun j => if j = k then some u else a j

/-- The pictures in a stream of units, each with the sets that are in force. -/
def decoded (codec : Int) : Sets → List Bytes → List (Bytes × Sets)
  | _, [] => []
  | a, u :: us =>
    match setType codec u with
    | some k => decoded codec (a.put k u) us
    | none => if isPicture codec u then (u, a) :: decoded codec a us else decoded codec a us

/-- A decoder that has not got anything. -/
def noSets : Sets := fun _ => none

/-- The same picture, with at least the sets it had. -/
def Prepared (x y : Bytes × Sets) : Prop := x.1 = y.1 ∧ ∀ k v, x.2 k = some v → y.2 k = some v

end Avf
