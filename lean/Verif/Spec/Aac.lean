import Verif.Spec.Bits
/-!
# Specification: ADTS headers and AudioSpecificConfig

Written from ISO/IEC 13818-7 (6.2) and ISO/IEC 14496-3 (1.6.2.1). Nothing here refers to the code of /repo.
-/
namespace Avf

/-- The fields of an ADTS header without CRC. -/
structure Adts where
  id : Nat
  layer : Nat
  protectionAbsent : Nat
  profile : Nat
  samplingIndex : Nat
  privateBit : Nat
  channelConfig : Nat
  original : Nat
  home : Nat
  copyrightBit : Nat
  copyrightStart : Nat
  frameLength : Nat
  fullness : Nat
  blocks : Nat

structure Adts.Ok (a : Adts) : Prop where
  id : a.id < 2
  layer : a.layer < 4
  protectionAbsent : a.protectionAbsent < 2
  profile : a.profile < 4
  samplingIndex : a.samplingIndex < 16
  privateBit : a.privateBit < 2
  channelConfig : a.channelConfig < 8
  original : a.original < 2
  home : a.home < 2
  copyrightBit : a.copyrightBit < 2
  copyrightStart : a.copyrightStart < 2
  frameLength : a.frameLength < 8192
  fullness : a.fullness < 2048
  blocks : a.blocks < 4

/-- The 56 bits: adts_fixed_header and adts_variable_header. -/
def Adts.bits (a : Adts) : List Bool :=
  fieldBits 12 0xFFF ++ (fieldBits 1 a.id ++ (fieldBits 2 a.layer ++ (fieldBits 1 a.protectionAbsent ++
  (fieldBits 2 a.profile ++ (fieldBits 4 a.samplingIndex ++ (fieldBits 1 a.privateBit ++ (fieldBits 3 a.channelConfig ++
  (fieldBits 1 a.original ++ (fieldBits 1 a.home ++ (fieldBits 1 a.copyrightBit ++ (fieldBits 1 a.copyrightStart ++
  (fieldBits 13 a.frameLength ++ (fieldBits 11 a.fullness ++ fieldBits 2 a.blocks)))))))))))))

/-- AudioSpecificConfig: object type (5 bits), sampling frequency index (4 bits), channel configuration (4 bits). -/
def ascBits (objectType samplingIndex channelConfig : Nat) : List Bool :=
  fieldBits 5 objectType ++ (fieldBits 4 samplingIndex ++ fieldBits 4 channelConfig)

/-- The sampling frequencies of Table 1.18. -/
def aacRates : List Nat := [96000, 88200, 64000, 48000, 44100, 32000, 24000, 22050, 16000, 12000, 11025, 8000, 7350]

/-- Number of channels of the channel configurations 1 to 13 (Table 1.19); 0 and 8 to 10 give no number. -/
def aacChannels : Nat → Option Nat
  | 1 => some 1 | 2 => some 2 | 3 => some 3 | 4 => some 4 | 5 => some 5 | 6 => some 6 | 7 => some 8
  | 11 => some 7 | 12 => some 8 | 13 => some 24
  | _ => none

end Avf
