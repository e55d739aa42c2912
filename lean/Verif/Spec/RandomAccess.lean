import Verif.Spec.Decode
import Verif.Spec.FlvFiles
/-! # Where a decoder can start -/
namespace Avf
open Go

/-- The types of the parameter sets that a picture needs: SPS and PPS (H.264); VPS, SPS and PPS (H.265). -/
def neededTypes (codec : Int) : List Nat := if codec = codecH264 then [7, 8] else if codec = codecH265 then [32, 33, 34] else []

/-- There is a set of each type. -/
def Ready (codec : Int) (a : Sets) : Prop := ∀ k ∈ neededTypes codec, a k ≠ none

/-- A decoder that starts with the first of these units has, at each picture, a set of each type. -/
def CanStart (codec : Int) (us : List Bytes) : Prop := ∀ x ∈ decoded codec noSets us, Ready codec x.2

/-- There is a set of each type in front of the first picture. -/
def SelfContained (codec : Int) (us : List Bytes) : Prop :=
  ∃ pre post, us = pre ++ post ∧ (∀ u ∈ pre, isPicture codec u = false) ∧ ∀ k ∈ neededTypes codec, ∃ u ∈ pre, setType codec u = some k

/-- The first byte of the first unit. -/
def firstHeader (us : List Bytes) : Option Byte := us.head?.bind List.head?

/-- The arrays of an H.265 record are as a decoder wants them: all three types, each set in an array of its type, and no PPS in front of the
last SPS. -/
structure RightArrays (xs : List (Byte × List Bytes)) : Prop where
  typed : ∀ k ∈ [32, 33, 34], ∀ u ∈ unitsOfType k xs, hevcUnitType u = k
  some : ∀ k ∈ [32, 33, 34], unitsOfType k xs ≠ []
  order : ∀ before after, recordSets xs = before ++ after → setsOfType 33 after ≠ [] → setsOfType 34 before = []

end Avf
