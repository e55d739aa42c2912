import Verif.Spec.Record
/-!
# Specification: which parameter sets an HEVC decoder configuration record lists
-/
namespace Avf

/-- The units of the arrays of a record in the order of the record, each with the type of its array (6 bits) and a start code. -/
def recordSets (xs : List (Byte × List Bytes)) : List (Nat × Bytes) :=
  xs.flatMap fun x => x.2.map fun u => (x.1.toNat % 64, [0, 0, 0, 1] ++ u)

/-- Those of type `t`. -/
def setsOfType (t : Nat) (es : List (Nat × Bytes)) : List Bytes := (es.filter (·.1 = t)).map (·.2)

/-- The capacity of a Go slice, at first nil, after `k` appends of one element (Go specification, "Appending to and copying slices"); `grow n` is
what the implementation picks when `n` elements do not fit. -/
def appendCap (grow : Nat → Nat) : Nat → Nat
  | 0 => 0
  | k + 1 => if k < appendCap grow k then appendCap grow k else max (k + 1) (grow (k + 1))

/-- What `SPSList` holds after `SPSList = append(PPSList, s)` for each SPS `s` and `PPSList = append(PPSList, p)` for each PPS `p`: the PPS in front of
the last SPS, and this SPS — or, in its place, the next PPS if the PPS list had room behind its end. -/
def SpsListed (grow : Nat → Nat) (es : List (Nat × Bytes)) (l : List Bytes) : Prop :=
  (setsOfType 33 es = [] ∧ l = []) ∨
  ∃ before s after, es = before ++ (33, s) :: after ∧ setsOfType 33 after = [] ∧
    l = setsOfType 34 before ++
      [if (setsOfType 34 before).length < appendCap grow (setsOfType 34 before).length then ((setsOfType 34 after).head?).getD s else s]

end Avf
