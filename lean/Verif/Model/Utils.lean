import Verif.Go
import Verif.Model.Float
/-!
# Model of /repo/utils/aac_util.go, /repo/utils/random_util.go and `ConvertTs` (/repo/packet_utils.go)

Go `int` arguments that are only masked and shifted are 64-bit words.
-/
namespace Avf
open Go

/-! ## AAC -/

/-- The values of the map `audioSamplingRates` (/repo/utils/aac_util.go:61-78) for the keys 0 to 15. -/
def audioSamplingRates : List Int :=
  [96000, 88200, 64000, 48000, 44100, 32000, 24000, 22050, 16000, 12000, 11025, 8000, 7350, -1, -1, -1]

/-- Lookup in that map. -/
def samplingRateOf (key : Int) : Option Int := if 0 ≤ key then audioSamplingRates[key.toNat]? else none

/-- `mpeg4AudioChannels` (/repo/utils/aac_util.go:79-94). -/
def mpeg4AudioChannels : List Int := [0, 1, 2, 3, 4, 5, 6, 8, 0, 0, 0, 7, 8, 24]

/-- `GetSampleRateFromFrequency` (/repo/utils/aac_util.go:178-181). -/
def getSampleRateFromFrequency (index : Int) : Int × Bool :=
  match samplingRateOf index with
  | some r => (r, true)
  | none => (0, false)

/-- `GetSampleRateIndex` (/repo/utils/aac_util.go:183-185). -/
def getSampleRateIndex (rate : Int) : Int := (samplingRateOf rate).getD 0

/-- `int(a) >> s & m`, the shape of all accessors. -/
def adtsField (a : BitVec 64) (s : Nat) (m : BitVec 64) : Int := (a.sshiftRight s &&& m).toInt

/-- The accessors of `ADtsHeader` (/repo/utils/aac_util.go:115-176). -/
def adtsSyncWord (a : BitVec 64) : Int := adtsField a 44 0xFFF
def adtsID (a : BitVec 64) : Int := adtsField a 43 0x1
def adtsLayer (a : BitVec 64) : Int := adtsField a 41 0x3
def adtsProtectionAbsent (a : BitVec 64) : Int := adtsField a 40 0x1
def adtsProfile (a : BitVec 64) : Int := adtsField a 38 0x3
def adtsFrequency (a : BitVec 64) : Int := adtsField a 34 0xF
def adtsPrivateBit (a : BitVec 64) : Int := adtsField a 33 0x1
def adtsChannel (a : BitVec 64) : Int := adtsField a 30 0x7
def adtsOriginal (a : BitVec 64) : Int := adtsField a 29 0x1
def adtsHome (a : BitVec 64) : Int := adtsField a 28 0x1
def adtsCopyrightBit (a : BitVec 64) : Int := adtsField a 27 0x1
def adtsCopyrightStart (a : BitVec 64) : Int := adtsField a 26 0x1
def adtsFrameLength (a : BitVec 64) : Int := adtsField a 13 0x1FFF
def adtsFullness (a : BitVec 64) : Int := adtsField a 2 0x7FF
/-- `Blocks` (/repo/utils/aac_util.go:174-176): `int(a) & 0x3`. -/
def adtsBlocks (a : BitVec 64) : Int := (a &&& 0x3).toInt

/-- `header[i] = header[i] | v`. -/
def orIdx (h : Bytes) (i : Nat) (v : Byte) : Go Bytes := do
  let b ← idx h i
  setIdx h i (b ||| v)

/-- `SetADtsHeader` (/repo/utils/aac_util.go:187-217). In Go `&`, `<<` and `>>` have the same precedence and associate to
the left. -/
def setADtsHeader (header : Bytes) (mpegId aot index channelConfig size : BitVec 64) : Go Bytes := do
  let h ← setIdx header 0 0xFF
  let h ← setIdx h 1 (0xF0 ||| ((toByte mpegId &&& 0x1) <<< 3))
  let h ← orIdx h 1 (0x0 <<< 1)
  let h ← orIdx h 1 0x1
  let h ← setIdx h 2 ((toByte aot &&& 0x3) <<< 6)
  let h ← orIdx h 2 ((toByte index &&& 0xF) <<< 2)
  let h ← orIdx h 2 (0x0 <<< 1)
  let h ← orIdx h 2 ((toByte channelConfig >>> 2) &&& 0x1)
  let h ← setIdx h 3 (toByte channelConfig <<< 6)
  let h ← orIdx h 3 (0x0 <<< 5)
  let h ← orIdx h 3 (0x0 <<< 4)
  let h ← orIdx h 3 (0x0 <<< 3)
  let h ← orIdx h 3 (0x0 <<< 2)
  let h ← orIdx h 3 (toByte (size.sshiftRight 11 &&& 0x3))
  let h ← setIdx h 4 (toByte (size.sshiftRight 3))
  let h ← setIdx h 5 (toByte (size &&& 0x7) <<< 5)
  let h ← orIdx h 5 0x1F
  setIdx h 6 0xFC

/-- `ReadADtsFixedHeader` (/repo/utils/aac_util.go:219-232). -/
def readADtsFixedHeader (data : Bytes) : Go (BitVec 64) := do
  let sync ← uint16At data 0
  if sync >>> 4 ≠ 0xFFF then err "not find syncword"
  else do
    let d0 ← idx data 0
    let d1 ← idx data 1
    let d2 ← idx data 2
    let hi : BitVec 64 := ((d0.setWidth 64 <<< 16) ||| (d1.setWidth 64 <<< 8) ||| d2.setWidth 64) <<< 32
    let rest ← sliceFrom data 3
    let lo ← uint32At rest 0
    return hi ||| lo.setWidth 64

/-- `uint8(x)` of an accessor value. -/
def u8 (x : Int) : Byte := BitVec.ofInt 8 x

/-- `ADtsHeader2MpegAudioConfigData` (/repo/utils/aac_util.go:234-245); the error is always nil. -/
def adtsHeader2MpegAudioConfigData (a : BitVec 64) : Bytes :=
  [(((u8 (adtsProfile a) + 1) &&& 0x1F) <<< 3) ||| ((u8 (adtsFrequency a) >>> 1) &&& 0x7),
   ((u8 (adtsFrequency a) &&& 0x1) <<< 7) ||| ((u8 (adtsChannel a) &&& 0xF) <<< 3)]

/-- `MPEG4AudioConfig` (/repo/utils/aac_util.go:97-111), the fields that are set. -/
structure MPEG4AudioConfig where
  objectType : Int
  samplingIndex : Int
  sampleRate : Int
  chanConfig : Int
  channels : Int
deriving DecidableEq, Repr

/-- `ParseMpeg4AudioConfig` (/repo/utils/aac_util.go:247-266). -/
def parseMpeg4AudioConfig (data : Bytes) : Go MPEG4AudioConfig := do
  let d0 ← idx data 0
  let objectType : Int := (d0 >>> 3).toNat
  let d0 ← idx data 0
  let d1 ← idx data 1
  let samplingIndex : Int := (((d0 &&& 7) <<< 1) ||| (d1 >>> 7)).toNat
  let sampleRate := (samplingRateOf samplingIndex).getD 0
  let d1 ← idx data 1
  let chanConfig : Int := ((d1 >>> 3) &&& 0xF).toNat
  if chanConfig ≥ mpeg4AudioChannels.length then err "invalid data"
  else do
    let channels ← idxI mpeg4AudioChannels chanConfig
    return { objectType := objectType, samplingIndex := samplingIndex, sampleRate := sampleRate,
             chanConfig := chanConfig, channels := channels }

/-! ## Random values -/

/-- `rand.Intn(n)`: a panic for `n ≤ 0`, otherwise any number below `n`. `draw` stands for the state of the random source:
every outcome is the outcome for some `draw`. -/
def randIntn (draw : Nat) (n : Int) : Go Int := if n ≤ 0 then panic else ok ((draw : Int) % n)

/-- `RandomIntInRange` (/repo/utils/random_util.go:21-28). -/
def randomIntInRange (draw : Nat) (min max : Int) : Go Int :=
  if min > max then panic
  else do
    let r ← randIntn draw (wrap64 (wrap64 (max - min) + 1))
    return wrap64 (r + min)

/-- `letterBytes` (/repo/utils/random_util.go:8). -/
def letterBytes : Bytes :=
  ((List.range 26).map fun i => BitVec.ofNat 8 (97 + i)) ++ (((List.range 26).map fun i => BitVec.ofNat 8 (65 + i)) ++
    ((List.range 10).map fun i => BitVec.ofNat 8 (48 + i)))

/-- The loop of `RandStringBytes` (/repo/utils/random_util.go:13-15): one draw for each byte. -/
def randLetters : List Nat → Go Bytes
  | [] => ok []
  | d :: ds => do
    let i ← randIntn d letterBytes.length
    let b ← idxI letterBytes i
    let rest ← randLetters ds
    return b :: rest

/-- `RandStringBytes` (/repo/utils/random_util.go:10-18); `make` panics for a negative length. `draws i` is the draw for
byte `i`. -/
def randStringBytes (draws : Nat → Nat) (n : Int) : Go Bytes :=
  if n < 0 then panic else randLetters ((List.range n.toNat).map draws)

/-- `ComputeAACFrameDuration` (/repo/utils/aac_util.go:268-270); `DefaultAACFrameLength` is 1024 (line 57). -/
def computeAACFrameDuration (sampleRate : Int) : ℚ := f32 (f32 sampleRate / f32 1024)

/-! ## Timestamps -/

/-- Conversion of a `float64` to `int64`: truncation towards zero; implementation-specific (`undef`) outside the range. -/
def f64ToInt64 (undef : Int) (x : ℚ) : Int :=
  let t := if 0 ≤ x then ⌊x⌋ else ⌈x⌉
  if -2 ^ 63 ≤ t ∧ t < 2 ^ 63 then t else undef

/-- `ConvertTs` (/repo/packet_utils.go:9-12). A source time base of 0 makes the quotient infinite or NaN and the result
implementation-specific. -/
def convertTs (undef : Int) (ts src dst : Int) : Int :=
  if src = 0 then undef
  else
    let interval := f64 (f64 dst / f64 src)
    f64ToInt64 undef (f64 (f64 ts * interval))

end Avf
