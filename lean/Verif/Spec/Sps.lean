import Verif.Spec.Nal
/-!
# Specification: the syntax of sequence parameter sets

Written from ITU-T H.264 (7.3.2.1.1, 7.3.2.1.1.1, E.1.1) and ITU-T H.265 (7.3.2.2.1, 7.3.3), and the emulation prevention
of 7.3.1. Nothing here refers to the code of /repo.
-/
namespace Avf

/-- A one-bit flag. -/
def flagBits (b : Bool) : List Bool := [b]

/-- A flag that says whether an optional part follows, and the part. -/
def optBits {α : Type} (f : α → List Bool) : Option α → List Bool
  | none => [false]
  | some a => true :: f a

/-! ## Emulation prevention -/

/-- Insertion of emulation prevention bytes (7.3.1, 7.4.1): `03` before a byte 00..03 that follows two zero bytes; `z` is
the number of zero bytes just written. (`03` at the very end after a trailing zero byte is left out: a payload ends with
the stop bit, so its last byte is not zero.) -/
def escapeFrom : Nat → Bytes → Bytes
  | _, [] => []
  | z, b :: t =>
    if z = 2 ∧ b ≤ 3 then 3 :: b :: escapeFrom (if b = 0 then 1 else 0) t
    else b :: escapeFrom (if b = 0 then z + 1 else 0) t

/-- A payload as it appears in a NAL unit. -/
def escape (p : Bytes) : Bytes := escapeFrom 0 p

/-! ## H.264 -/

/-- Scaling list syntax (7.3.2.1.1.1): `deltas` are the `delta_scale` values present when `size` entries remain. -/
def DeltasOk : Nat → Int → Int → List Int → Prop
  | 0, _, _, ds => ds = []
  | n + 1, last, next, ds =>
    if next = 0 then ds = []
    else match ds with
      | [] => False
      | d :: ds =>
        -128 ≤ d ∧ d ≤ 127 ∧
          let next' := (last + d + 256) % 256
          DeltasOk n (if next' = 0 then last else next') next' ds

/-- The high-profile part. A scaling matrix is a list of optional lists of `delta_scale` values. -/
structure H264High where
  chromaFormatIdc : Nat
  separateColourPlane : Bool
  bitDepthLumaMinus8 : Nat
  bitDepthChromaMinus8 : Nat
  transformBypass : Bool
  scaling : Option (List (Option (List Int)))

/-- Picture order count part. -/
inductive H264Poc where
  | type0 (log2MaxLsbMinus4 : Nat)
  | type1 (alwaysZero : Bool) (nonRef topBottom : Int) (offsets : List Int)
  | type2
  /-- A type above 2: not allowed. -/
  | reserved (type : Nat)

/-- Cropping offsets. -/
structure H264Crop where
  left : Nat
  right : Nat
  top : Nat
  bottom : Nat

/-- VUI: aspect ratio. -/
inductive H264Aspect where
  | idc (n : Nat)
  | extended (width height : Nat)

/-- VUI: video signal type. -/
structure H264Signal where
  format : Nat
  fullRange : Bool
  colour : Option (Nat × Nat × Nat)

/-- VUI: timing. -/
structure H264Timing where
  numUnitsInTick : Nat
  timeScale : Nat
  fixedFrameRate : Bool

/-- VUI up to the timing part; what follows is not looked at. -/
structure H264Vui where
  aspect : Option H264Aspect
  overscan : Option Bool
  signal : Option H264Signal
  chromaLoc : Option (Nat × Nat)
  timing : Option H264Timing

/-- The syntax elements of an H.264 sequence parameter set. -/
structure H264Sps where
  profileIdc : Nat
  constraintFlags : Nat
  levelIdc : Nat
  id : Nat
  high : H264High
  log2MaxFrameNumMinus4 : Nat
  poc : H264Poc
  maxNumRefFrames : Nat
  gapsAllowed : Bool
  widthInMbsMinus1 : Nat
  heightInMapUnitsMinus1 : Nat
  frameMbsOnly : Bool
  mbAdaptive : Bool
  direct8x8 : Bool
  crop : Option H264Crop
  vui : Option H264Vui

/-- The profiles whose parameter sets carry the high-profile part. -/
def h264HighProfiles : List Nat := [100, 110, 122, 244, 44, 83, 86, 118, 128, 138, 139, 134, 135]

def scalingListBits (l : Option (List Int)) : List Bool := optBits (fun ds => ds.flatMap seBits) l

def H264High.bits (h : H264High) : List Bool :=
  ueBits h.chromaFormatIdc ++ ((if h.chromaFormatIdc = 3 then flagBits h.separateColourPlane else []) ++
  (ueBits h.bitDepthLumaMinus8 ++ (ueBits h.bitDepthChromaMinus8 ++ (flagBits h.transformBypass ++
  optBits (fun ls => ls.flatMap scalingListBits) h.scaling))))

def H264Poc.bits : H264Poc → List Bool
  | .type0 n => ueBits 0 ++ ueBits n
  | .type1 z a b os => ueBits 1 ++ (flagBits z ++ (seBits a ++ (seBits b ++ (ueBits os.length ++ os.flatMap seBits))))
  | .type2 => ueBits 2
  | .reserved n => ueBits n

def H264Crop.bits (c : H264Crop) : List Bool :=
  ueBits c.left ++ (ueBits c.right ++ (ueBits c.top ++ ueBits c.bottom))

def H264Aspect.bits : H264Aspect → List Bool
  | .idc n => fieldBits 8 n
  | .extended w h => fieldBits 8 255 ++ (fieldBits 16 w ++ fieldBits 16 h)

def H264Signal.bits (s : H264Signal) : List Bool :=
  fieldBits 3 s.format ++ (flagBits s.fullRange ++
  optBits (fun c => fieldBits 8 c.1 ++ (fieldBits 8 c.2.1 ++ fieldBits 8 c.2.2)) s.colour)

def H264Timing.bits (t : H264Timing) : List Bool :=
  fieldBits 32 t.numUnitsInTick ++ (fieldBits 32 t.timeScale ++ flagBits t.fixedFrameRate)

def H264Vui.bits (v : H264Vui) : List Bool :=
  optBits H264Aspect.bits v.aspect ++ (optBits flagBits v.overscan ++ (optBits H264Signal.bits v.signal ++
  (optBits (fun c => ueBits c.1 ++ ueBits c.2) v.chromaLoc ++ optBits H264Timing.bits v.timing)))

/-- seq_parameter_set_data, up to and including the timing part of the VUI, if the profiles in `high` have the high-profile part. -/
def H264Sps.bitsWith (high : List Nat) (s : H264Sps) : List Bool :=
  fieldBits 8 s.profileIdc ++ (fieldBits 8 s.constraintFlags ++ (fieldBits 8 s.levelIdc ++ (ueBits s.id ++
  ((if s.profileIdc ∈ high then s.high.bits else []) ++
  (ueBits s.log2MaxFrameNumMinus4 ++ (s.poc.bits ++ (ueBits s.maxNumRefFrames ++ (flagBits s.gapsAllowed ++
  (ueBits s.widthInMbsMinus1 ++ (ueBits s.heightInMapUnitsMinus1 ++ (flagBits s.frameMbsOnly ++
  ((if s.frameMbsOnly then [] else flagBits s.mbAdaptive) ++ (flagBits s.direct8x8 ++
  (optBits H264Crop.bits s.crop ++ optBits H264Vui.bits s.vui))))))))))))))

/-- seq_parameter_set_data, up to and including the timing part of the VUI. -/
def H264Sps.bits (s : H264Sps) : List Bool := s.bitsWith h264HighProfiles

/-- `ue(v)` values of the standard: at most 32 bits. -/
def UE (v : Nat) : Prop := v < 2 ^ 32 - 1
/-- `se(v)` values of the standard. -/
def SE (v : Int) : Prop := -2 ^ 31 < v ∧ v < 2 ^ 31

/-- Number of scaling lists (7.3.2.1.1) and the size of list `i`. -/
def scalingListCount (chroma : Nat) : Nat := if chroma ≠ 3 then 8 else 12
def scalingListSize (i : Nat) : Nat := if i < 6 then 16 else 64

def H264High.Ok (h : H264High) : Prop :=
  h.chromaFormatIdc ≤ 3 ∧ UE h.bitDepthLumaMinus8 ∧ UE h.bitDepthChromaMinus8 ∧
  ∀ ls, h.scaling = some ls → ls.length = scalingListCount h.chromaFormatIdc ∧
    ∀ i ds, ls[i]? = some (some ds) → DeltasOk (scalingListSize i) 8 8 ds

def H264Poc.Ok : H264Poc → Prop
  | .type0 n => UE n
  | .type1 _ a b os => SE a ∧ SE b ∧ os.length ≤ 255 ∧ ∀ o ∈ os, SE o
  | .type2 => True
  | .reserved _ => False

def H264Crop.Ok (c : H264Crop) : Prop := UE c.left ∧ UE c.right ∧ UE c.top ∧ UE c.bottom

def H264Vui.Ok (v : H264Vui) : Prop :=
  (∀ n, v.aspect = some (.idc n) → n < 255) ∧
  (∀ w h, v.aspect = some (.extended w h) → w < 2 ^ 16 ∧ h < 2 ^ 16) ∧
  (∀ s, v.signal = some s → s.format < 8 ∧ ∀ c, s.colour = some c → c.1 < 256 ∧ c.2.1 < 256 ∧ c.2.2 < 256) ∧
  (∀ c, v.chromaLoc = some c → UE c.1 ∧ UE c.2) ∧
  (∀ t, v.timing = some t → t.numUnitsInTick < 2 ^ 32 ∧ t.timeScale < 2 ^ 32)

/-- All syntax elements are in the range their descriptor can carry. -/
structure H264Sps.Ok (s : H264Sps) : Prop where
  profile : s.profileIdc < 256
  flags : s.constraintFlags < 256
  level : s.levelIdc < 256
  id : UE s.id
  high : s.high.Ok
  frameNum : UE s.log2MaxFrameNumMinus4
  poc : s.poc.Ok
  refFrames : UE s.maxNumRefFrames
  width : UE s.widthInMbsMinus1
  height : UE s.heightInMapUnitsMinus1
  crop : ∀ c, s.crop = some c → c.Ok
  vui : ∀ v, s.vui = some v → v.Ok

/-! ### The form alone

`Loose`: the elements have the form of the syntax; their values are only bounded by code words of at most 32 leading zeros. -/

/-- Numbers with a code word of at most 32 leading zeros. -/
def UEW (v : Nat) : Prop := v < 2 ^ 33 - 1
/-- Signed numbers with a code word of at most 32 leading zeros. -/
def SEW (v : Int) : Prop := -2 ^ 32 < v ∧ v < 2 ^ 32

/-- As `DeltasOk`, without the range -128..127. -/
def DeltasLoose : Nat → Int → Int → List Int → Prop
  | 0, _, _, ds => ds = []
  | n + 1, last, next, ds =>
    if next = 0 then ds = []
    else match ds with
      | [] => False
      | d :: ds =>
        SEW d ∧
          let next' := (last + d + 256) % 256
          DeltasLoose n (if next' = 0 then last else next') next' ds

/-- With `lists` scaling lists. -/
def H264High.Loose (lists : Nat) (h : H264High) : Prop :=
  UEW h.chromaFormatIdc ∧ UEW h.bitDepthLumaMinus8 ∧ UEW h.bitDepthChromaMinus8 ∧
  ∀ ls, h.scaling = some ls → ls.length = lists ∧
    ∀ i ds, ls[i]? = some (some ds) → DeltasLoose (scalingListSize i) 8 8 ds

def H264Poc.Loose : H264Poc → Prop
  | .type0 n => UEW n
  | .type1 _ a b os => SEW a ∧ SEW b ∧ UEW os.length ∧ ∀ o ∈ os, SEW o
  | .type2 => True
  | .reserved n => 2 < n ∧ UEW n

def H264Crop.Loose (c : H264Crop) : Prop := UEW c.left ∧ UEW c.right ∧ UEW c.top ∧ UEW c.bottom

def H264Vui.Loose (v : H264Vui) : Prop :=
  (∀ n, v.aspect = some (.idc n) → n < 255) ∧
  (∀ w h, v.aspect = some (.extended w h) → w < 2 ^ 16 ∧ h < 2 ^ 16) ∧
  (∀ s, v.signal = some s → s.format < 8 ∧ ∀ c, s.colour = some c → c.1 < 256 ∧ c.2.1 < 256 ∧ c.2.2 < 256) ∧
  (∀ c, v.chromaLoc = some c → UEW c.1 ∧ UEW c.2) ∧
  (∀ t, v.timing = some t → t.numUnitsInTick < 2 ^ 32 ∧ t.timeScale < 2 ^ 32)

/-- The form of a parameter set whose high-profile part, if it has one (`high`), has `lists` scaling lists. -/
structure H264Sps.Loose (high : List Nat) (lists : Nat) (s : H264Sps) : Prop where
  profile : s.profileIdc < 256
  flags : s.constraintFlags < 256
  level : s.levelIdc < 256
  id : UEW s.id
  high : s.profileIdc ∈ high → s.high.Loose lists
  frameNum : UEW s.log2MaxFrameNumMinus4
  poc : s.poc.Loose
  refFrames : UEW s.maxNumRefFrames
  width : UEW s.widthInMbsMinus1
  height : UEW s.heightInMapUnitsMinus1
  crop : ∀ c, s.crop = some c → c.Loose
  vui : ∀ v, s.vui = some v → v.Loose

/-- Cropping offsets, 0 if absent. -/
def H264Sps.cropOf (s : H264Sps) : H264Crop := s.crop.getD ⟨0, 0, 0, 0⟩

/-- chroma_format_idc, inferred 1 (4:2:0) outside the high profiles; ChromaArrayType. -/
def H264Sps.chromaArrayType (s : H264Sps) : Nat :=
  if s.profileIdc ∈ h264HighProfiles then
    if s.high.chromaFormatIdc = 3 ∧ s.high.separateColourPlane then 0 else s.high.chromaFormatIdc
  else 1

/-- CropUnitX and CropUnitY (7-19 to 7-22). -/
def H264Sps.cropUnitX (s : H264Sps) : Nat := if s.chromaArrayType = 1 ∨ s.chromaArrayType = 2 then 2 else 1
def H264Sps.cropUnitY (s : H264Sps) : Nat :=
  (if s.chromaArrayType = 1 then 2 else 1) * (if s.frameMbsOnly then 1 else 2)

/-- The width and height of the cropped picture in luma samples. -/
def H264Sps.picWidth (s : H264Sps) : Int :=
  16 * (s.widthInMbsMinus1 + 1 : Nat) - s.cropUnitX * (s.cropOf.left + s.cropOf.right : Nat)
def H264Sps.picHeight (s : H264Sps) : Int :=
  (if s.frameMbsOnly then 1 else 2) * (16 * (s.heightInMapUnitsMinus1 + 1 : Nat)) -
    s.cropUnitY * (s.cropOf.top + s.cropOf.bottom : Nat)

/-- The timing part, if present. -/
def H264Sps.timing (s : H264Sps) : Option H264Timing := s.vui.bind (·.timing)

/-! ## H.265 -/

/-- General profile, tier and level. -/
structure H265Ptl where
  space : Nat
  tier : Bool
  idc : Nat
  compat : Nat
  constraints : Nat
  level : Nat

/-- A sub-layer: 88 bits of profile and 8 bits of level, each optional. -/
structure H265Layer where
  profile : Option Nat
  level : Option Nat

/-- The syntax elements of an H.265 sequence parameter set up to `max_transform_hierarchy_depth_intra`. `layers` has one
entry for each sub-layer but the highest (`sps_max_sub_layers_minus1` entries). `ordering` has the three values for each
sub-layer, or for the highest only. -/
structure H265Sps where
  vpsId : Nat
  temporalIdNested : Bool
  ptl : H265Ptl
  layers : List H265Layer
  /-- `reserved_zero_2bits`, two for each missing sub-layer; decoders shall ignore the value. -/
  reserved : List Bool := List.replicate (2 * (8 - layers.length)) false
  id : Nat
  chromaFormatIdc : Nat
  separateColourPlane : Bool
  picWidth : Nat
  picHeight : Nat
  window : Option (Nat × Nat × Nat × Nat)
  bitDepthLumaMinus8 : Nat
  bitDepthChromaMinus8 : Nat
  log2MaxPocLsbMinus4 : Nat
  orderingForAll : Bool
  ordering : List (Nat × Nat × Nat)
  blockSizes : Nat × Nat × Nat × Nat × Nat × Nat

def H265Ptl.bits (p : H265Ptl) : List Bool :=
  fieldBits 2 p.space ++ (flagBits p.tier ++ (fieldBits 5 p.idc ++ (fieldBits 32 p.compat ++
  (fieldBits 48 p.constraints ++ fieldBits 8 p.level))))

/-- The sub-layer part of profile_tier_level (7.3.3). -/
def h265LayersBits (ls : List H265Layer) (reserved : List Bool) : List Bool :=
  if ls.length = 0 then []
  else ls.flatMap (fun l => [l.profile.isSome, l.level.isSome]) ++ (reserved ++
    ls.flatMap (fun l => (match l.profile with | some p => fieldBits 88 p | none => []) ++
      (match l.level with | some v => fieldBits 8 v | none => [])))

def H265Sps.bits (s : H265Sps) : List Bool :=
  fieldBits 4 s.vpsId ++ (fieldBits 3 s.layers.length ++ (flagBits s.temporalIdNested ++ (s.ptl.bits ++
  (h265LayersBits s.layers s.reserved ++ (ueBits s.id ++ (ueBits s.chromaFormatIdc ++
  ((if s.chromaFormatIdc = 3 then flagBits s.separateColourPlane else []) ++
  (ueBits s.picWidth ++ (ueBits s.picHeight ++
  (optBits (fun w => ueBits w.1 ++ (ueBits w.2.1 ++ (ueBits w.2.2.1 ++ ueBits w.2.2.2))) s.window ++
  (ueBits s.bitDepthLumaMinus8 ++ (ueBits s.bitDepthChromaMinus8 ++ (ueBits s.log2MaxPocLsbMinus4 ++
  (flagBits s.orderingForAll ++
  (s.ordering.flatMap (fun o => ueBits o.1 ++ (ueBits o.2.1 ++ ueBits o.2.2)) ++
  (ueBits s.blockSizes.1 ++ (ueBits s.blockSizes.2.1 ++ (ueBits s.blockSizes.2.2.1 ++ (ueBits s.blockSizes.2.2.2.1 ++
  (ueBits s.blockSizes.2.2.2.2.1 ++ ueBits s.blockSizes.2.2.2.2.2))))))))))))))))))))

structure H265Sps.Ok (s : H265Sps) : Prop where
  vpsId : s.vpsId < 16
  layers : s.layers.length ≤ 7
  reserved : s.layers.length ≠ 0 → s.reserved.length = 2 * (8 - s.layers.length)
  layerProfile : ∀ l ∈ s.layers, ∀ p, l.profile = some p → p < 2 ^ 88
  layerLevel : ∀ l ∈ s.layers, ∀ v, l.level = some v → v < 256
  space : s.ptl.space < 4
  idc : s.ptl.idc < 32
  compat : s.ptl.compat < 2 ^ 32
  constraints : s.ptl.constraints < 2 ^ 48
  level : s.ptl.level < 256
  id : UE s.id
  chroma : UE s.chromaFormatIdc
  width : UE s.picWidth
  height : UE s.picHeight
  window : ∀ w, s.window = some w → UE w.1 ∧ UE w.2.1 ∧ UE w.2.2.1 ∧ UE w.2.2.2
  luma : UE s.bitDepthLumaMinus8
  chromaDepth : UE s.bitDepthChromaMinus8
  lsb : UE s.log2MaxPocLsbMinus4
  ordering : s.ordering.length = if s.orderingForAll then s.layers.length + 1 else 1
  orderingUE : ∀ o ∈ s.ordering, UE o.1 ∧ UE o.2.1 ∧ UE o.2.2
  sizes : UE s.blockSizes.1 ∧ UE s.blockSizes.2.1 ∧ UE s.blockSizes.2.2.1 ∧ UE s.blockSizes.2.2.2.1 ∧
    UE s.blockSizes.2.2.2.2.1 ∧ UE s.blockSizes.2.2.2.2.2

/-- The form alone. -/
structure H265Sps.Loose (s : H265Sps) : Prop where
  vpsId : s.vpsId < 16
  layers : s.layers.length ≤ 7
  reserved : s.layers.length ≠ 0 → s.reserved.length = 2 * (8 - s.layers.length)
  layerProfile : ∀ l ∈ s.layers, ∀ p, l.profile = some p → p < 2 ^ 88
  layerLevel : ∀ l ∈ s.layers, ∀ v, l.level = some v → v < 256
  space : s.ptl.space < 4
  idc : s.ptl.idc < 32
  compat : s.ptl.compat < 2 ^ 32
  constraints : s.ptl.constraints < 2 ^ 48
  level : s.ptl.level < 256
  id : UEW s.id
  chroma : UEW s.chromaFormatIdc
  width : UEW s.picWidth
  height : UEW s.picHeight
  window : ∀ w, s.window = some w → UEW w.1 ∧ UEW w.2.1 ∧ UEW w.2.2.1 ∧ UEW w.2.2.2
  luma : UEW s.bitDepthLumaMinus8
  chromaDepth : UEW s.bitDepthChromaMinus8
  lsb : UEW s.log2MaxPocLsbMinus4
  ordering : s.ordering.length = if s.orderingForAll then s.layers.length + 1 else 1
  orderingUE : ∀ o ∈ s.ordering, UEW o.1 ∧ UEW o.2.1 ∧ UEW o.2.2
  sizes : UEW s.blockSizes.1 ∧ UEW s.blockSizes.2.1 ∧ UEW s.blockSizes.2.2.1 ∧ UEW s.blockSizes.2.2.2.1 ∧
    UEW s.blockSizes.2.2.2.2.1 ∧ UEW s.blockSizes.2.2.2.2.2

/-- The number of bits of the sub-layers whose presence flags are given. -/
def h265LayersLen : List Bool → Nat
  | p :: l :: rest => (if p then 88 else 0) + (if l then 8 else 0) + h265LayersLen rest
  | _ => 0

/-- The number of bits up to the end of profile_tier_level, from the number of sub-layers and their presence flags. -/
def h265HeadLen (t : List Bool) : Nat :=
  let n := bitsVal ((t.drop 4).take 3)
  if n = 0 then 104 else 120 + h265LayersLen ((t.drop 104).take (2 * n))

end Avf
