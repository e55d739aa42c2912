import Verif.Spec.RecordLists
import Verif.Model.Record
/-! # Specification: reading configuration records into one variable -/
namespace Avf
open Go

/-- `Unmarshal` of one record after the other into the same variable, whatever it returns; the results in their order. -/
def hevcReads (grow : Nat → Nat) (rec : HEVCRecord) : List Bytes → Go (List (Except String Unit) × HEVCRecord)
  | [] => ok ([], rec)
  | d :: ds => do
    let (e, rec) ← hevcUnmarshal grow rec d
    let (es, rec) ← hevcReads grow rec ds
    return (e :: es, rec)

/-- The same for AVC. -/
def avcReads (a : AVCRecord) : List Bytes → Go (List (Except String Unit) × AVCRecord)
  | [] => ok ([], a)
  | d :: ds => do
    let (e, a) ← avcUnmarshal a d
    let (es, a) ← avcReads a ds
    return (e :: es, a)

/-- There are a VPS, an SPS and a PPS. -/
def AllKinds (es : List (Nat × Bytes)) : Prop := setsOfType 32 es ≠ [] ∧ setsOfType 33 es ≠ [] ∧ setsOfType 34 es ≠ []

end Avf
