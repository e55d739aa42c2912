import Verif.Model.Golomb
import Verif.Model.Nal
import Verif.Model.Record
import Verif.Model.Float
/-!
# Model of /repo/avc/sps.go and /repo/hevc/sps.go: parsing sequence parameter sets

A statement sequence that reads from the `GolombBitReader` is a program in `Rd`; a Go error ends it. What a function has
stored in its result before an error is not modelled: the callers (/repo/avc/sps.go:352-355, /repo/hevc/sps.go:252-255,
/repo/codec_paraments.go) ignore it. `uint` is 64 bits wide.
-/
namespace Avf
open Go

/-- A program that reads from a `GolombBitReader`. -/
abbrev Rd (α : Type) := StateT Golomb Go α

namespace Rd
/-- `r.ReadBit()` with its error returned. -/
def bit : Rd (BitVec 64) := Golomb.readBit
/-- `r.ReadBits(n)`. -/
def nbits (n : Nat) : Rd (BitVec 64) := fun g => g.readBits n
/-- `r.ReadBits32(n)`. -/
def nbits32 (n : Nat) : Rd (BitVec 32) := fun g => g.readBits32 n
/-- `r.ReadBits64(n)`. -/
def nbits64 (n : Nat) : Rd (BitVec 64) := fun g => g.readBits64 n
/-- `r.ReadExponentialGolombCode()`. -/
def ue : Rd (BitVec 64) := Golomb.readUE
/-- `r.ReadSE()`. -/
def se : Rd (BitVec 64) := Golomb.readSE
/-- `r.ReadBit()` whose error is ignored: at the end of the data the value is 0 and the reader does not change. -/
def bitOrZero : Rd (BitVec 64) := fun g =>
  match g.readBit with
  | .ok r => ok r
  | .err _ => ok (0, g)
  | .panic => panic
/-- `if c { p }`. -/
def when (c : Bool) (p : Rd Unit) : Rd Unit := if c then p else pure ()
/-- `n` times `p`. -/
def times (n : Nat) (p : Rd Unit) : Rd Unit :=
  match n with
  | 0 => pure ()
  | n + 1 => p >>= fun _ => times n p
/-- A value that is read and not used. -/
def skip {α : Type} (p : Rd α) : Rd Unit := p >>= fun _ => pure ()
end Rd

/-! ## H.264 -/

/-- `avc.SPS` (/repo/avc/sps.go:10-27). -/
structure AvcSps where
  id : BitVec 64
  profileIdc : BitVec 64
  levelIdc : BitVec 64
  constraintSetFlag : BitVec 64
  mbWidth : BitVec 64
  mbHeight : BitVec 64
  cropLeft : BitVec 64
  cropRight : BitVec 64
  cropTop : BitVec 64
  cropBottom : BitVec 64
  width : Int
  height : Int
  fps : Int
deriving DecidableEq, Repr

/-- The loop over one scaling list (/repo/avc/sps.go:107-118). -/
def avcScalingLoop : Nat → BitVec 64 → BitVec 64 → Rd Unit
  | 0, _, _ => pure ()
  | n + 1, last, next => do
    let next ← (if next ≠ 0 then do
        let d ← Rd.se
        return (last + d + 256) % 256
      else pure next : Rd (BitVec 64))
    avcScalingLoop n (if next ≠ 0 then next else last) next

/-- The loop over the eight scaling lists (/repo/avc/sps.go:93-120); `n` lists are left, `i = 8 - n`. -/
def avcScalingLists : Nat → Rd Unit
  | 0 => pure ()
  | n + 1 => do
    let present ← Rd.bit
    Rd.when (present ≠ 0) (avcScalingLoop (if 8 - (n + 1) < 6 then 16 else 64) 8 8)
    avcScalingLists n

/-- The condition at /repo/avc/sps.go:57-60. -/
def avcIsHigh (p : BitVec 64) : Bool :=
  p = 100 ∨ p = 110 ∨ p = 122 ∨ p = 244 ∨ p = 44 ∨ p = 83 ∨ p = 86 ∨ p = 118

/-- The part for high profiles (/repo/avc/sps.go:62-121). -/
def avcHigh : Rd Unit := do
  let chroma ← Rd.ue
  Rd.when (chroma = 3) Rd.bit.skip
  let _ ← Rd.ue
  let _ ← Rd.ue
  let _ ← Rd.bit
  let matrix ← Rd.bit
  Rd.when (matrix ≠ 0) (avcScalingLists 8)

/-- The picture order count part (/repo/avc/sps.go:129-160). -/
def avcPoc : Rd Unit := do
  let pocType ← Rd.ue
  if pocType = 0 then Rd.ue.skip
  else if pocType = 1 then do
    let _ ← Rd.bit
    let _ ← Rd.se
    let _ ← Rd.se
    let n ← Rd.ue
    Rd.times n.toNat Rd.se.skip
  else pure ()

/-- The four cropping offsets (/repo/avc/sps.go:198-215): left, right, top, bottom. -/
def avcCrop : Rd (BitVec 64 × BitVec 64 × BitVec 64 × BitVec 64) := do
  let flag ← Rd.bit
  if flag ≠ 0 then do
    let l ← Rd.ue
    let r ← Rd.ue
    let t ← Rd.ue
    let b ← Rd.ue
    return (l, r, t, b)
  else return (0, 0, 0, 0)

/-- `int(math.Floor(float64(time_scale) / float64(num_units_in_tick) / 2.0))` (/repo/avc/sps.go:331). With
`num_units_in_tick = 0` the quotient is infinite or NaN and the conversion to `int` is implementation-specific: `undef`. -/
def avcFps (undef : Int) (timeScale numUnits : BitVec 64) : Int :=
  if numUnits = 0 then undef
  else ⌊f64 (f64 ((timeScale.toNat : ℚ) / (numUnits.toNat : ℚ)) / 2)⌋

/-- The timing part of the VUI (/repo/avc/sps.go:317-341): the frame rate, 0 if absent. -/
def avcTiming (undef : Int) : Rd Int := do
  let flag ← Rd.bit
  if flag ≠ 0 then do
    let numUnits ← Rd.nbits 32
    let timeScale ← Rd.nbits 32
    let _ ← Rd.bit
    return avcFps undef timeScale numUnits
  else return 0

/-- The aspect ratio part of the VUI (/repo/avc/sps.go:226-249). -/
def avcAspect : Rd Unit := do
  let flag ← Rd.bit
  Rd.when (flag ≠ 0) do
    let idc ← Rd.nbits 8
    Rd.when (idc = 255) do
      let _ ← Rd.nbits 16
      let _ ← Rd.nbits 16

/-- The video signal type inside the VUI, behind its flag (/repo/avc/sps.go:266-296). -/
def avcSignal : Rd Unit := do
  let _ ← Rd.nbits 3
  let _ ← Rd.bit
  let colour ← Rd.bit
  Rd.when (colour ≠ 0) do
    let _ ← Rd.nbits 8
    let _ ← Rd.nbits 8
    let _ ← Rd.nbits 8

/-- The chroma location and timing parts of the VUI (/repo/avc/sps.go:298-341). -/
def avcLocTiming (undef : Int) : Rd Int := do
  let loc ← Rd.bit
  Rd.when (loc ≠ 0) do
    let _ ← Rd.se
    let _ ← Rd.se
  avcTiming undef

/-- The VUI behind its flag (/repo/avc/sps.go:226-341): the frame rate. Line 264 does not look at the error. -/
def avcVui (undef : Int) : Rd Int := do
  avcAspect
  let overscan ← Rd.bit
  Rd.when (overscan ≠ 0) Rd.bit.skip
  let signal ← Rd.bitOrZero
  Rd.when (signal ≠ 0) avcSignal
  avcLocTiming undef

/-- From `frame_mbs_only_flag` on (/repo/avc/sps.go:182-343): frame_mbs_only_flag, cropping, frame rate. -/
def avcFlagsCropVui (undef : Int) : Rd (BitVec 64 × (BitVec 64 × BitVec 64 × BitVec 64 × BitVec 64) × Int) := do
  let frameMbsOnly ← Rd.bit
  Rd.when (frameMbsOnly = 0) Rd.bit.skip
  let _ ← Rd.bit
  let crop ← avcCrop
  let vui ← Rd.bit
  let fps ← (if vui ≠ 0 then avcVui undef else pure 0 : Rd Int)
  return (frameMbsOnly, crop, fps)

/-- `avc.ParseSPS` from the NAL header on (/repo/avc/sps.go:33-344). -/
def avcSpsBody (undef : Int) : Rd AvcSps := do
  let _ ← Rd.nbits 8
  let profile ← Rd.nbits 8
  let flags ← Rd.nbits 8
  let level ← Rd.nbits 8
  let id ← Rd.ue
  Rd.when (avcIsHigh profile) avcHigh
  let _ ← Rd.ue
  avcPoc
  let _ ← Rd.ue
  let _ ← Rd.bit
  let w ← Rd.ue
  let h ← Rd.ue
  let (frameMbsOnly, (l, r, t, b), fps) ← avcFlagsCropVui undef
  return {
    id := id, profileIdc := profile, levelIdc := level, constraintSetFlag := flags >>> 2
    mbWidth := w + 1, mbHeight := h + 1
    cropLeft := l, cropRight := r, cropTop := t, cropBottom := b
    width := ((w + 1) * 16 - l * 2 - r * 2).toInt
    height := ((2 - frameMbsOnly) * (h + 1) * 16 - t * 2 - b * 2).toInt
    fps := fps }

/-- `avc.ParseSPS` (/repo/avc/sps.go:29-344). -/
def avcParseSPS (undef : Int) (data : Bytes) : Go AvcSps := do
  let data ← removeStartCode data
  let (s, _) ← avcSpsBody undef (Golomb.ofBytes data)
  return s

/-- `avc.NewCodecDataFromAVCDecoderConfigurationRecord` (/repo/avc/sps.go:346-357). -/
def avcNewCodecData (undef : Int) (record : Bytes) : Go (AVCRecord × AvcSps) := do
  match ← avcUnmarshal {} record with
  | (.error e, _) => err e
  | (.ok (), r) => do
    let sps ← idx r.spsList 0
    let info ← avcParseSPS undef sps
    return (r, info)

/-! ## H.265 -/

/-- `HEVCSPSInfo` (/repo/hevc/sps.go:11-30) without the fields that are never set (`bitDepthLumaMinus8`, `fps`). -/
structure HevcSps where
  numTemporalLayers : BitVec 64
  temporalIdNested : BitVec 64
  chromaFormat : BitVec 64
  picWidth : BitVec 64
  picHeight : BitVec 64
  bitDepthChromaMinus8 : BitVec 64
  generalProfileSpace : BitVec 64
  generalTierFlag : BitVec 64
  generalProfileIDC : BitVec 64
  generalProfileCompatibilityFlags : BitVec 32
  generalConstraintIndicatorFlags : BitVec 64
  generalLevelIDC : BitVec 64
  width : Int
  height : Int
deriving DecidableEq, Repr

/-- `nal2rbsp` (/repo/hevc/sps.go:243-245): `bytes.Replace` of all non-overlapping `00 00 03`, from the left, by `00 00`. -/
def nal2rbsp : Bytes → Bytes
  | [] => []
  | a :: t =>
    if (a :: t).take 3 = [0, 0, 3] then 0 :: 0 :: nal2rbsp (t.drop 2) else a :: nal2rbsp t
termination_by p => p.length
decreasing_by all_goals (simp only [List.length_drop, List.length_cons]; omega)

/-- The general part of `parsePTL` (/repo/hevc/sps.go:158-177). -/
structure HevcPtl where
  space : BitVec 64
  tier : BitVec 64
  idc : BitVec 64
  compat : BitVec 32
  constraints : BitVec 64
  level : BitVec 64
deriving DecidableEq, Repr

/-- The presence flags of the sub-layers (/repo/hevc/sps.go:182-191): profile flag, level flag. -/
def hevcLayerFlags : Nat → Rd (List (BitVec 64 × BitVec 64))
  | 0 => pure []
  | n + 1 => do
    let p ← Rd.bit
    let l ← Rd.bit
    let rest ← hevcLayerFlags n
    return (p, l) :: rest

/-- The data of the sub-layers (/repo/hevc/sps.go:199-217). -/
def hevcLayers : List (BitVec 64 × BitVec 64) → Rd Unit
  | [] => pure ()
  | (p, l) :: rest => do
    Rd.when (p ≠ 0) do
      let _ ← Rd.nbits32 32
      let _ ← Rd.nbits32 32
      let _ ← Rd.nbits32 24
    Rd.when (l ≠ 0) (Rd.nbits 8).skip
    hevcLayers rest

/-- The sub-layer part of `parsePTL` (/repo/hevc/sps.go:179-218); `n` is `maxSubLayersMinus1`. -/
def hevcSubLayers (n : Nat) : Rd Unit :=
  if n = 0 then pure ()
  else do
    let flags ← hevcLayerFlags n
    Rd.times (8 - n) (Rd.nbits 2).skip
    hevcLayers flags

/-- The general part of `parsePTL`. -/
def hevcPtlGeneral : Rd HevcPtl := do
  let space ← Rd.nbits 2
  let tier ← Rd.bit
  let idc ← Rd.nbits 5
  let compat ← Rd.nbits32 32
  let constraints ← Rd.nbits64 48
  let level ← Rd.nbits 8
  return { space := space, tier := tier, idc := idc, compat := compat, constraints := constraints, level := level }

/-- The rest of `ParseSPS` behind the picture size (/repo/hevc/sps.go:80-154): `bitDepthChromaMinus8`. -/
def hevcSpsTail (maxSubLayersMinus1 : BitVec 64) : Rd (BitVec 64) := do
  let window ← Rd.bit
  Rd.when (window ≠ 0) (Rd.times 4 Rd.ue.skip)
  let _ ← Rd.ue
  let chromaDepth ← Rd.ue
  let _ ← Rd.ue
  let ordering ← Rd.bit
  Rd.times (if ordering ≠ 0 then maxSubLayersMinus1.toNat + 1 else 1) (Rd.times 3 Rd.ue.skip)
  Rd.times 6 Rd.ue.skip
  return chromaDepth

/-- `hevc.ParseSPS` on the unescaped payload (/repo/hevc/sps.go:41-155). `ctx` starts as the zero value, so `updatePTL`
(/repo/hevc/sps.go:221-241) stores the larger of 0 and the field for tier, level and profile, and 0 (`0 & …`) for the two
flag words. -/
def hevcSpsBody : Rd HevcSps := do
  let _ ← Rd.nbits 4
  let maxSub ← Rd.nbits 3
  let nested ← Rd.bit
  let ptl ← hevcPtlGeneral
  hevcSubLayers maxSub.toNat
  let _ ← Rd.ue
  let chroma ← Rd.ue
  Rd.when (chroma = 3) Rd.bit.skip
  let w ← Rd.ue
  let h ← Rd.ue
  let chromaDepth ← hevcSpsTail maxSub
  return {
    numTemporalLayers := if maxSub + 1 > 0 then maxSub + 1 else 0
    temporalIdNested := nested, chromaFormat := chroma
    picWidth := w, picHeight := h, bitDepthChromaMinus8 := chromaDepth
    generalProfileSpace := ptl.space
    generalTierFlag := if ptl.tier > 0 then ptl.tier else 0
    generalLevelIDC := if ptl.tier > 0 then ptl.level else if ptl.level > 0 then ptl.level else 0
    generalProfileIDC := if ptl.idc > 0 then ptl.idc else 0
    generalProfileCompatibilityFlags := 0 &&& ptl.compat
    generalConstraintIndicatorFlags := 0 &&& ptl.constraints
    width := w.toInt, height := h.toInt }

/-- `hevc.ParseSPS` (/repo/hevc/sps.go:32-155). -/
def hevcParseSPS (data : Bytes) : Go HevcSps := do
  let sps ← removeStartCode data
  if sps.length < 2 then err "incorrect Unit Size"
  else do
    let payload ← sliceFrom sps 2
    let (s, _) ← hevcSpsBody (Golomb.ofBytes (nal2rbsp payload))
    return s

/-- `hevc.NewCodecDataFromHEVCDecoderConfigurationRecord` (/repo/hevc/sps.go:247-257). -/
def hevcNewCodecData (grow : Nat → Nat) (record : Bytes) : Go (HEVCRecord × HevcSps) := do
  match ← hevcUnmarshal grow {} record with
  | (.error e, _) => err e
  | (.ok (), r) => do
    let sps ← idx r.spsList 0
    let info ← hevcParseSPS sps
    return (r, info)

end Avf
