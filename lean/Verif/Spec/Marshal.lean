import Verif.Spec.Record
/-!
# What `Marshal` should do with any lists of byte strings
-/
namespace Avf

/-- The unit in `s`: `s` without the start code that it may begin with. None if `s` is too short to see that. -/
def unitOfSet (s : Bytes) : Option Bytes :=
  if s ∈ [[], [0], [0, 0], [0, 0, 0]] then none
  else if s.take 3 = [0, 0, 1] then some (s.drop 3)
  else if s.take 4 = [0, 0, 0, 1] then some (s.drop 4)
  else some s

/-- The units of `ss` before the first that has none. -/
def leadingUnits : List Bytes → List Bytes
  | [] => []
  | s :: ss =>
    match unitOfSet s with
    | none => []
    | some u => u :: leadingUnits ss

/-- The bytes that units take in a record, with two bytes for each length. -/
def size16 (us : List Bytes) : Nat := (us.map fun u => 2 + u.length).sum

/-- How `Marshal` may end. -/
inductive Fate
  | record (data : Bytes)
  | refused
  | crash
deriving DecidableEq, Repr

/-- `Marshal` of an AVC record. There is room for 1024 bytes. A list that is not in order is noticed where the first bad set comes,
if there was room for everything before. -/
def avcFate (ss ps : List Bytes) : Fate :=
  if ss = [] ∨ ps = [] then .refused
  else if 1024 < 6 + size16 (leadingUnits ss) then .refused
  else if none ∈ ss.map unitOfSet then .crash
  else if 1024 < 7 + size16 (leadingUnits ss) + size16 (leadingUnits ps) then .refused
  else if none ∈ ps.map unitOfSet then .crash
  else match (leadingUnits ss).getLast? with
    | some (_ :: p :: c :: l :: _) =>
      .record (avcRecord [1, p, c, l, 0xff] (0xE0 ||| BitVec.ofNat 8 ss.length) (leadingUnits ss) (leadingUnits ps))
    | _ => .crash

/-- The arrays of an HEVC record behind `out`. The first set of an array must have a header. -/
def arraysFate (out : Bytes) : List (List Bytes) → Fate
  | [] => .record out
  | ss :: rest =>
    match ss.head?.bind unitOfSet with
    | some (c :: _) =>
      if 1024 < out.length + 3 + size16 (leadingUnits ss) then .refused
      else if none ∈ ss.map unitOfSet then .crash
      else arraysFate (out ++ hevcArray (BitVec.ofNat 8 (hevcType c)) (leadingUnits ss)) rest
    | _ => .crash

/-- `Marshal` of an HEVC record. -/
def hevcFate (vs ss ps : List Bytes) : Fate :=
  if vs = [] ∨ ss = [] ∨ ps = [] then .refused
  else arraysFate ([1] ++ List.replicate 20 0 ++ [3, 3]) [vs, ss, ps]

end Avf
