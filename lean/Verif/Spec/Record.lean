import Verif.Spec.Nal
/-! # Specification: decoder configuration records (ISO/IEC 14496-15) -/
namespace Avf

/-- Layout of an AVC record: five header bytes, a byte with the number of SPS in its low five bits, the SPS, the number of
PPS, the PPS; every set with a two byte length. -/
def avcRecord (header : Bytes) (count : Byte) (sps pps : List Bytes) : Bytes :=
  header ++ [count] ++ sps.flatMap unit16 ++ [BitVec.ofNat 8 pps.length] ++ pps.flatMap unit16

/-- `data` begins with an AVC record that holds these sets. -/
structure IsAvcRecord (data header : Bytes) (count : Byte) (sps pps : List Bytes) (trailing : Bytes) : Prop where
  header5 : header.length = 5
  spsCount : (count &&& 0x1f).toNat = sps.length
  spsSome : 0 < sps.length
  ppsSome : 0 < pps.length
  pps256 : pps.length < 256
  short : ∀ u ∈ sps ++ pps, u.length < 2 ^ 16
  layout : data = avcRecord header count sps pps ++ trailing

/-- A parameter set with its 4-byte start code. -/
def startCoded (u : Bytes) : Bytes := [0, 0, 0, 1] ++ u

/-- One array of an HEVC record: the NAL type, the number of units, the units. -/
def hevcArray (t : Byte) (us : List Bytes) : Bytes := [t] ++ beBytes 2 us.length ++ us.flatMap unit16

/-- A parameter set as a caller hands it over: with a long or short start code, or bare. -/
structure ParamSet where
  form : Option Bool
  unit : Bytes
deriving DecidableEq

/-- The bytes of the parameter set. -/
def ParamSet.bytes : ParamSet → Bytes
  | ⟨some b, u⟩ => code b ++ u
  | ⟨none, u⟩ => u

/-- A bare unit is not a start code followed by something, nor a few zeros. -/
def ParamSet.Plain (s : ParamSet) : Prop := s.form = none → ¬ HasCode s.unit ∧ s.unit ∉ [[], [0], [0, 0], [0, 0, 0]]

instance (s : ParamSet) : Decidable s.Plain := by unfold ParamSet.Plain; infer_instance

/-- Bytes taken by sets with two byte lengths. -/
def setsSize (ss : List ParamSet) : Nat := (ss.map fun s => 2 + s.unit.length).sum

/-- The units of an HEVC record's arrays that have type `t` according to their array. -/
def unitsOfType (t : Nat) (xs : List (Byte × List Bytes)) : List Bytes :=
  xs.flatMap fun x => if x.1.toNat % 64 = t then x.2 else []

/-- `data` begins with an HEVC record that has these arrays. -/
structure IsHevcRecord (data header : Bytes) (arrays : List (Byte × List Bytes)) (trailing : Bytes) : Prop where
  header22 : header.length = 22
  arrays256 : arrays.length < 256
  short : ∀ x ∈ arrays, x.2.length < 2 ^ 16 ∧ ∀ u ∈ x.2, u.length < 2 ^ 16
  layout : data = header ++ [BitVec.ofNat 8 arrays.length] ++ arrays.flatMap (fun x => hevcArray x.1 x.2) ++ trailing

/-- The number in the `w` bits from bit `off` on. -/
def bitField (data : Bytes) (off w : Nat) : Nat := bitsVal (((bits data).drop off).take w)

end Avf
