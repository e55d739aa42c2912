import Verif.Model.Sps
/-!
# The steps that parsing a sequence parameter set takes

The functions of Model/Golomb and Model/Sps once more, with a counter: each call of `ReadBit` and each round of a loop is one step.
-/
namespace Avf
open Go

/-- A program that reads from a `GolombBitReader`, and the steps that it takes, also if it fails. -/
def CRd (α : Type) : Type := Golomb → Go (α × Golomb) × Nat

namespace CRd

instance : Monad CRd where
  pure a := fun g => (ok (a, g), 0)
  bind x f := fun g =>
    match x g with
    | (.ok (a, g'), c) => ((f a g').1, c + (f a g').2)
    | (.err e, c) => (.err e, c)
    | (.panic, c) => (.panic, c)

/-- A round of a loop. -/
def round : CRd Unit := fun g => (ok ((), g), 1)

/-- `ReadBit` (/repo/bufio/golomb_reader.go:13-23). -/
def bit : CRd (BitVec 64) := fun g => (g.readBit, 1)

/-- Loop of `ReadBits` (/repo/bufio/golomb_reader.go:26-32). -/
def bitsLoop : Nat → BitVec 64 → CRd (BitVec 64)
  | 0, res => pure res
  | m + 1, res => do
    round
    let b ← bit
    bitsLoop m (res ||| (b <<< m))

/-- `ReadBits` (/repo/bufio/golomb_reader.go:25-34). -/
def nbits (n : Nat) : CRd (BitVec 64) := bitsLoop n 0

/-- Loop of `ReadBits32` (/repo/bufio/golomb_reader.go:38-45). -/
def bits32Loop : Nat → BitVec 32 → CRd (BitVec 32)
  | 0, r => pure r
  | n + 1, r => do
    round
    let t ← bit
    bits32Loop n ((r <<< 1) ||| t.setWidth 32)

/-- `ReadBits32` (/repo/bufio/golomb_reader.go:36-46). -/
def nbits32 (n : Nat) : CRd (BitVec 32) := bits32Loop n 0

/-- Loop of `ReadBits64` (/repo/bufio/golomb_reader.go:50-57). -/
def bits64Loop : Nat → BitVec 64 → CRd (BitVec 64)
  | 0, r => pure r
  | n + 1, r => do
    round
    let t ← bit
    bits64Loop n ((r <<< 1) ||| t)

/-- `ReadBits64` (/repo/bufio/golomb_reader.go:48-58). -/
def nbits64 (n : Nat) : CRd (BitVec 64) := bits64Loop n 0

/-- The zero-counting loop of `ReadExponentialGolombCode` (/repo/bufio/golomb_reader.go:61-71). -/
def ueZeros (i : Nat) : CRd Nat := do
  round
  let b ← bit
  if _h : b = 0 ∧ i < 32 then ueZeros (i + 1) else pure i
termination_by 32 - i

/-- `ReadExponentialGolombCode` (/repo/bufio/golomb_reader.go:60-77). -/
def ue : CRd (BitVec 64) := do
  let i ← ueZeros 0
  let res ← nbits i
  return res + (((1 : BitVec 64) <<< i) - 1)

/-- `ReadSE` (/repo/bufio/golomb_reader.go:79-89). -/
def se : CRd (BitVec 64) := do
  let res ← ue
  if res &&& 1 ≠ 0 then return (res + 1) / 2
  else return (-res) / 2

/-- `r.ReadBit()` whose error is ignored. -/
def bitOrZero : CRd (BitVec 64) := fun g =>
  match g.readBit with
  | .ok r => (ok r, 1)
  | .err _ => (ok (0, g), 1)
  | .panic => (panic, 1)

/-- `if c { p }`. -/
def when (c : Bool) (p : CRd Unit) : CRd Unit := if c then p else pure ()

/-- A loop of `n` rounds. -/
def times (n : Nat) (p : CRd Unit) : CRd Unit :=
  match n with
  | 0 => pure ()
  | n + 1 => do
    round
    p
    times n p

/-- A value that is read and not used. -/
def skip {α : Type} (p : CRd α) : CRd Unit := p >>= fun _ => pure ()

end CRd

/-! ## H.264 -/

/-- The loop over one scaling list (/repo/avc/sps.go:107-118). -/
def avcScalingLoopC : Nat → BitVec 64 → BitVec 64 → CRd Unit
  | 0, _, _ => pure ()
  | n + 1, last, next => do
    CRd.round
    let next ← (if next ≠ 0 then do
        let d ← CRd.se
        return (last + d + 256) % 256
      else pure next : CRd (BitVec 64))
    avcScalingLoopC n (if next ≠ 0 then next else last) next

/-- The loop over the eight scaling lists (/repo/avc/sps.go:93-120). -/
def avcScalingListsC : Nat → CRd Unit
  | 0 => pure ()
  | n + 1 => do
    CRd.round
    let present ← CRd.bit
    CRd.when (present ≠ 0) (avcScalingLoopC (if 8 - (n + 1) < 6 then 16 else 64) 8 8)
    avcScalingListsC n

/-- The part for high profiles (/repo/avc/sps.go:62-121). -/
def avcHighC : CRd Unit := do
  let chroma ← CRd.ue
  CRd.when (chroma = 3) CRd.bit.skip
  let _ ← CRd.ue
  let _ ← CRd.ue
  let _ ← CRd.bit
  let matrix ← CRd.bit
  CRd.when (matrix ≠ 0) (avcScalingListsC 8)

/-- The picture order count part (/repo/avc/sps.go:129-160). -/
def avcPocC : CRd Unit := do
  let pocType ← CRd.ue
  if pocType = 0 then CRd.ue.skip
  else if pocType = 1 then do
    let _ ← CRd.bit
    let _ ← CRd.se
    let _ ← CRd.se
    let n ← CRd.ue
    CRd.times n.toNat CRd.se.skip
  else pure ()

/-- The four cropping offsets (/repo/avc/sps.go:198-215). -/
def avcCropC : CRd (BitVec 64 × BitVec 64 × BitVec 64 × BitVec 64) := do
  let flag ← CRd.bit
  if flag ≠ 0 then do
    let l ← CRd.ue
    let r ← CRd.ue
    let t ← CRd.ue
    let b ← CRd.ue
    return (l, r, t, b)
  else return (0, 0, 0, 0)

/-- The timing part of the VUI (/repo/avc/sps.go:317-341). -/
def avcTimingC (undef : Int) : CRd Int := do
  let flag ← CRd.bit
  if flag ≠ 0 then do
    let numUnits ← CRd.nbits 32
    let timeScale ← CRd.nbits 32
    let _ ← CRd.bit
    return avcFps undef timeScale numUnits
  else return 0

/-- The aspect ratio part of the VUI (/repo/avc/sps.go:226-249). -/
def avcAspectC : CRd Unit := do
  let flag ← CRd.bit
  CRd.when (flag ≠ 0) do
    let idc ← CRd.nbits 8
    CRd.when (idc = 255) do
      let _ ← CRd.nbits 16
      let _ ← CRd.nbits 16

/-- The video signal type (/repo/avc/sps.go:266-296). -/
def avcSignalC : CRd Unit := do
  let _ ← CRd.nbits 3
  let _ ← CRd.bit
  let colour ← CRd.bit
  CRd.when (colour ≠ 0) do
    let _ ← CRd.nbits 8
    let _ ← CRd.nbits 8
    let _ ← CRd.nbits 8

/-- The chroma location and timing parts of the VUI (/repo/avc/sps.go:298-341). -/
def avcLocTimingC (undef : Int) : CRd Int := do
  let loc ← CRd.bit
  CRd.when (loc ≠ 0) do
    let _ ← CRd.se
    let _ ← CRd.se
  avcTimingC undef

/-- The VUI behind its flag (/repo/avc/sps.go:226-341). -/
def avcVuiC (undef : Int) : CRd Int := do
  avcAspectC
  let overscan ← CRd.bit
  CRd.when (overscan ≠ 0) CRd.bit.skip
  let signal ← CRd.bitOrZero
  CRd.when (signal ≠ 0) avcSignalC
  avcLocTimingC undef

/-- From `frame_mbs_only_flag` on (/repo/avc/sps.go:182-343). -/
def avcFlagsCropVuiC (undef : Int) : CRd (BitVec 64 × (BitVec 64 × BitVec 64 × BitVec 64 × BitVec 64) × Int) := do
  let frameMbsOnly ← CRd.bit
  CRd.when (frameMbsOnly = 0) CRd.bit.skip
  let _ ← CRd.bit
  let crop ← avcCropC
  let vui ← CRd.bit
  let fps ← (if vui ≠ 0 then avcVuiC undef else pure 0 : CRd Int)
  return (frameMbsOnly, crop, fps)

/-- `avc.ParseSPS` from the NAL header on (/repo/avc/sps.go:33-344). -/
def avcSpsBodyC (undef : Int) : CRd AvcSps := do
  let _ ← CRd.nbits 8
  let profile ← CRd.nbits 8
  let flags ← CRd.nbits 8
  let level ← CRd.nbits 8
  let id ← CRd.ue
  CRd.when (avcIsHigh profile) avcHighC
  let _ ← CRd.ue
  avcPocC
  let _ ← CRd.ue
  let _ ← CRd.bit
  let w ← CRd.ue
  let h ← CRd.ue
  let (frameMbsOnly, (l, r, t, b), fps) ← avcFlagsCropVuiC undef
  return {
    id := id, profileIdc := profile, levelIdc := level, constraintSetFlag := flags >>> 2
    mbWidth := w + 1, mbHeight := h + 1
    cropLeft := l, cropRight := r, cropTop := t, cropBottom := b
    width := ((w + 1) * 16 - l * 2 - r * 2).toInt
    height := ((2 - frameMbsOnly) * (h + 1) * 16 - t * 2 - b * 2).toInt
    fps := fps }

/-- `avc.ParseSPS` (/repo/avc/sps.go:29-344): the result and the steps. -/
def avcParseSPSC (undef : Int) (data : Bytes) : Go AvcSps × Nat :=
  match removeStartCode data with
  | .ok d =>
    match avcSpsBodyC undef (Golomb.ofBytes d) with
    | (.ok (s, _), c) => (ok s, c)
    | (.err e, c) => (.err e, c)
    | (.panic, c) => (.panic, c)
  | .err e => (.err e, 0)
  | .panic => (.panic, 0)

/-! ## H.265 -/

/-- The presence flags of the sub-layers (/repo/hevc/sps.go:182-191). -/
def hevcLayerFlagsC : Nat → CRd (List (BitVec 64 × BitVec 64))
  | 0 => pure []
  | n + 1 => do
    CRd.round
    let p ← CRd.bit
    let l ← CRd.bit
    let rest ← hevcLayerFlagsC n
    return (p, l) :: rest

/-- The data of the sub-layers (/repo/hevc/sps.go:199-217). -/
def hevcLayersC : List (BitVec 64 × BitVec 64) → CRd Unit
  | [] => pure ()
  | (p, l) :: rest => do
    CRd.round
    CRd.when (p ≠ 0) do
      let _ ← CRd.nbits32 32
      let _ ← CRd.nbits32 32
      let _ ← CRd.nbits32 24
    CRd.when (l ≠ 0) (CRd.nbits 8).skip
    hevcLayersC rest

/-- The sub-layer part of `parsePTL` (/repo/hevc/sps.go:179-218). -/
def hevcSubLayersC (n : Nat) : CRd Unit :=
  if n = 0 then pure ()
  else do
    let flags ← hevcLayerFlagsC n
    CRd.times (8 - n) (CRd.nbits 2).skip
    hevcLayersC flags

/-- The general part of `parsePTL` (/repo/hevc/sps.go:158-177). -/
def hevcPtlGeneralC : CRd HevcPtl := do
  let space ← CRd.nbits 2
  let tier ← CRd.bit
  let idc ← CRd.nbits 5
  let compat ← CRd.nbits32 32
  let constraints ← CRd.nbits64 48
  let level ← CRd.nbits 8
  return { space := space, tier := tier, idc := idc, compat := compat, constraints := constraints, level := level }

/-- The rest of `ParseSPS` behind the picture size (/repo/hevc/sps.go:80-154). Reads that stand one behind the other in the code are a
loop here, which only adds steps. -/
def hevcSpsTailC (maxSubLayersMinus1 : BitVec 64) : CRd (BitVec 64) := do
  let window ← CRd.bit
  CRd.when (window ≠ 0) (CRd.times 4 CRd.ue.skip)
  let _ ← CRd.ue
  let chromaDepth ← CRd.ue
  let _ ← CRd.ue
  let ordering ← CRd.bit
  CRd.times (if ordering ≠ 0 then maxSubLayersMinus1.toNat + 1 else 1) (CRd.times 3 CRd.ue.skip)
  CRd.times 6 CRd.ue.skip
  return chromaDepth

/-- `hevc.ParseSPS` on the unescaped payload (/repo/hevc/sps.go:41-155). -/
def hevcSpsBodyC : CRd HevcSps := do
  let _ ← CRd.nbits 4
  let maxSub ← CRd.nbits 3
  let nested ← CRd.bit
  let ptl ← hevcPtlGeneralC
  hevcSubLayersC maxSub.toNat
  let _ ← CRd.ue
  let chroma ← CRd.ue
  CRd.when (chroma = 3) CRd.bit.skip
  let w ← CRd.ue
  let h ← CRd.ue
  let chromaDepth ← hevcSpsTailC maxSub
  return {
    numTemporalLayers := if maxSub + 1 > 0 then maxSub + 1 else 0
    temporalIdNested := nested, chromaFormat := chroma
    picWidth := w, picHeight := h, bitDepthChromaMinus8 := chromaDepth
    generalProfileSpace := ptl.space
    generalTierFlag := if ptl.tier > 0 then ptl.tier else 0
    generalLevelIDC := if ptl.tier > 0 then ptl.level else if ptl.level > 0 then ptl.level else 0
    generalProfileIDC := if ptl.idc > 0 then ptl.idc else 0
    generalProfileCompatibilityFlags := 0 &&& ptl.compat
    generalConstraintIndicatorFlags := 0 &&& ptl.constraints
    width := w.toInt, height := h.toInt }

/-- `hevc.ParseSPS` (/repo/hevc/sps.go:32-155): the result and the steps. `bytes.Replace` is not counted. -/
def hevcParseSPSC (data : Bytes) : Go HevcSps × Nat :=
  match removeStartCode data with
  | .ok sps =>
    if sps.length < 2 then (err "incorrect Unit Size", 0)
    else
      match sliceFrom sps 2 with
      | .ok payload =>
        match hevcSpsBodyC (Golomb.ofBytes (nal2rbsp payload)) with
        | (.ok (s, _), c) => (ok s, c)
        | (.err e, c) => (.err e, c)
        | (.panic, c) => (.panic, c)
      | .err e => (.err e, 0)
      | .panic => (.panic, 0)
  | .err e => (.err e, 0)
  | .panic => (.panic, 0)

end Avf
