import Verif.Model.Record
/-!
# Model of the parameter set lists of /repo/hevc/mp4.go with their memory

`hevcAdd` (Verif.Model.Record) keeps the three lists as values and records by `ppsCap` and `shared` when two of them share an array. Here the
arrays themselves are the state, and `append` is that of Go.
-/
namespace Avf

/-- The backing arrays of all `[][]byte`; the length of an array is the capacity of the slices that start at its beginning. -/
abbrev SetMem := List (List Bytes)

/-- A `[][]byte` that starts at the beginning of its array. A nil slice is one of length 0 on an array of length 0. -/
structure SetSlice where
  arr : Nat
  len : Nat

/-- The array behind a slice. -/
def SetMem.array (m : SetMem) (s : SetSlice) : List Bytes := m[s.arr]?.getD []

/-- The elements of a slice. -/
def SetMem.view (m : SetMem) (s : SetSlice) : List Bytes := (m.array s).take s.len

/-- `append(s, x)`: in place if there is room, otherwise in a new array of the capacity that `grow` picks. -/
def SetMem.append (grow : Nat → Nat) (m : SetMem) (s : SetSlice) (x : Bytes) : SetMem × SetSlice :=
  if s.len < (m.array s).length then (m.set s.arr ((m.array s).set s.len x), ⟨s.arr, s.len + 1⟩)
  else (m ++ [m.view s ++ x :: List.replicate (max (s.len + 1) (grow (s.len + 1)) - (s.len + 1)) []], ⟨m.length, s.len + 1⟩)

/-- `VPSList`, `SPSList` and `PPSList` (/repo/hevc/mp4.go:70-72) with their memory. -/
structure SetLists where
  mem : SetMem
  vps : SetSlice
  sps : SetSlice
  pps : SetSlice

/-- A new record: three nil lists. -/
def SetLists.new : SetLists := ⟨[[]], ⟨0, 0⟩, ⟨0, 0⟩, ⟨0, 0⟩⟩

/-- What the inner loop of `Unmarshal` does with one set (/repo/hevc/mp4.go:189-195); line 192 appends to `PPSList`. -/
def SetLists.add (grow : Nat → Nat) (l : SetLists) (headerType : Byte) (nalu : Bytes) : SetLists :=
  if headerType = 32 then
    let (m, s) := l.mem.append grow l.vps nalu
    { l with mem := m, vps := s }
  else if headerType = 33 then
    let (m, s) := l.mem.append grow l.pps nalu
    { l with mem := m, sps := s }
  else if headerType = 34 then
    let (m, s) := l.mem.append grow l.pps nalu
    { l with mem := m, pps := s }
  else l

end Avf
