import Verif.Spec.Bits
/-!
# Specification vocabulary for NAL units

Byte strings, start codes (`00 00 01`), Annex B streams (`[00] 00 00 01` unit …) and length-prefixed (AVCC) streams.
-/
namespace Avf

/-- `p` has the three bytes `00 00 01` at index `j`. -/
def CodeAt (p : Bytes) (j : Nat) : Prop := (p.drop j).take 3 = [0, 0, 1]

instance (p : Bytes) (j : Nat) : Decidable (CodeAt p j) := by unfold CodeAt; infer_instance

/-- Index `j` of `p` is a NAL header: a byte of `p` directly behind `00 00 01`. -/
def StartAt (p : Bytes) (j : Nat) : Prop := 3 ≤ j ∧ j < p.length ∧ CodeAt p (j - 3)

instance (p : Bytes) (j : Nat) : Decidable (StartAt p j) := by unfold StartAt; infer_instance

/-- No `00 00 01` inside `u`. -/
def NoCode (u : Bytes) : Prop := ∀ j, j < u.length → ¬ CodeAt u j

instance (u : Bytes) : Decidable (NoCode u) := by unfold NoCode; infer_instance

/-- The NAL headers of `p`, in order. -/
def headers : Bytes → List Byte
  | [] => []
  | a :: t => (if (a :: t).take 3 = [0, 0, 1] then ((a :: t)[3]?).toList else []) ++ headers t

/-- H.264 nal_unit_type. -/
def avcType (h : Byte) : Nat := h.toNat % 32
/-- H.265 nal_unit_type. -/
def hevcType (h : Byte) : Nat := h.toNat / 2 % 64

/-- H.264 type of a unit (its first byte). -/
def avcUnitType (u : Bytes) : Nat := match u with | [] => 0 | h :: _ => avcType h
/-- H.265 type of a unit. -/
def hevcUnitType (u : Bytes) : Nat := match u with | [] => 0 | h :: _ => hevcType h

/-- A key picture by H.264 rules: the first unit that is not SEI, SPS, PPS or AUD is an IDR slice. -/
def avcKey (hs : List Byte) : Bool :=
  match hs.find? (fun h => decide (avcType h ∉ [6, 7, 8, 9])) with
  | some h => decide (avcType h = 5)
  | none => false

/-- A key picture by H.265 rules: the first unit that is not VPS, SPS, PPS, AUD or SEI is an IRAP slice (16..23). -/
def hevcKey (hs : List Byte) : Bool :=
  match hs.find? (fun h => decide (hevcType h ∉ [32, 33, 34, 35, 39, 40])) with
  | some h => decide (16 ≤ hevcType h ∧ hevcType h ≤ 23)
  | none => false

/-- The start code, long or short. -/
def code : Bool → Bytes
  | true => [0, 0, 0, 1]
  | false => [0, 0, 1]

/-- One unit of an Annex B stream. -/
def annexUnit (x : Bool × Bytes) : Bytes := code x.1 ++ x.2

/-- An Annex B stream: units, each with a long or short start code. -/
def annexB (xs : List (Bool × Bytes)) : Bytes := xs.flatMap annexUnit

/-- `s` begins with a start code. -/
def HasCode (s : Bytes) : Prop := s.take 3 = [0, 0, 1] ∨ s.take 4 = [0, 0, 0, 1]

instance (s : Bytes) : Decidable (HasCode s) := by unfold HasCode; infer_instance

/-- A NAL unit that can be told from its neighbours in an Annex B stream: not empty, no embedded start code, no zero byte
at the end (H.264 7.4.1). -/
structure Framed (u : Bytes) : Prop where
  ne : u ≠ []
  noCode : NoCode u
  last : u.getLast? ≠ some 0

/-- `Framed` and the header byte is not zero. -/
structure Clean (u : Bytes) : Prop extends Framed u where
  head : u.head? ≠ some 0

instance (u : Bytes) : Decidable (Framed u) :=
  decidable_of_iff (u ≠ [] ∧ NoCode u ∧ u.getLast? ≠ some 0) ⟨fun h => ⟨h.1, h.2.1, h.2.2⟩, fun h => ⟨h.1, h.2, h.3⟩⟩
instance (u : Bytes) : Decidable (Clean u) :=
  decidable_of_iff (Framed u ∧ u.head? ≠ some 0) ⟨fun h => ⟨h.1, h.2⟩, fun h => ⟨h.1, h.2⟩⟩

/-- One unit of an AVCC stream with a `k` byte length. -/
def avccUnit (k : Nat) (u : Bytes) : Bytes := beBytes k u.length ++ u

/-- An AVCC stream with 4 byte lengths. -/
def avcc (us : List Bytes) : Bytes := us.flatMap (avccUnit 4)

/-- `tail` does not begin with a complete, non-empty unit with a `k` byte length. -/
def NoUnit (k : Nat) (tail : Bytes) : Prop := ∀ u rest, u ≠ [] → u.length < 256 ^ k → tail ≠ avccUnit k u ++ rest

/-- Conversion of units to Annex B: `before` are the units already passed, `out` the bytes already written. Units for
which `drop` holds are left out; `extra` goes before each IDR unit that no SPS or PPS precedes. The start code is long
only at the very beginning. -/
def toAnnexB (drop : Bytes → Bool) (extra : Bytes) (before : List Bytes) (out : Bytes) : List Bytes → Bytes
  | [] => out
  | u :: us =>
    if drop u then toAnnexB drop extra (before ++ [u]) out us
    else
      let out := if avcUnitType u = 5 ∧ ∀ v ∈ before, avcUnitType v ≠ 7 ∧ avcUnitType v ≠ 8 then out ++ extra else out
      toAnnexB drop extra (before ++ [u]) (out ++ code (decide (out = [])) ++ u) us

/-- A stream of units with `k` byte lengths. -/
def lengthPrefixed (k : Nat) (us : List Bytes) : Bytes := us.flatMap (avccUnit k)

/-- An H.265 random access picture. -/
def isIRAP (u : Bytes) : Prop := 16 ≤ hevcUnitType u ∧ hevcUnitType u ≤ 23

instance (u : Bytes) : Decidable (isIRAP u) := by unfold isIRAP; infer_instance

/-- Conversion of H.265 units to Annex B: `extra` goes before the first random access unit. -/
def hevcToAnnexB (extra : Bytes) : List Bytes → Bytes
  | [] => []
  | u :: us =>
    if isIRAP u then extra ++ [0, 0, 0, 1] ++ u ++ us.flatMap ([0, 0, 0, 1] ++ ·)
    else [0, 0, 0, 1] ++ u ++ hevcToAnnexB extra us

/-- The first unit gets a long start code, the others a short one. -/
def firstLong : List Bytes → List (Bool × Bytes)
  | [] => []
  | u :: us => (true, u) :: us.map (false, ·)

/-- The units in an AVC configuration record: each with a two byte length. -/
def unit16 (u : Bytes) : Bytes := beBytes 2 u.length ++ u

/-- Parameter sets with 4-byte start codes. -/
def withCodes (us : List Bytes) : Bytes := us.flatMap ([0, 0, 0, 1] ++ ·)

end Avf
