import Verif.Lemmas.HevcSps
import Verif.Props.StartCode
/-!
# Properties C47–C52: sequence parameter sets
-/
namespace Avf
open Go

/-- The start codes `ParseSPS` may find in front of the NAL unit, or none. -/
def spsCodes : List Bytes := [[], [0, 0, 1], [0, 0, 0, 1]]

theorem strip_sps (code : Bytes) (hc : code ∈ spsCodes) (hdr : Byte) (h : hdr ≠ 0) (p : Bytes) :
    removeStartCode (code ++ hdr :: p) = ok (hdr :: p) := by
  simp only [spsCodes, List.mem_cons, List.not_mem_nil, or_false] at hc
  rcases hc with rfl | rfl | rfl
  · rw [List.nil_append, removeStartCode]
    show (if hdr ≠ 0 then _ else _) = _
    rw [if_pos h]; rfl
  · simp [removeStartCode, idx, sliceFrom]
  · simp [removeStartCode, idx, sliceFrom]

/-! ## C47 -/

/-- C47: unescaping is the inverse of escaping. -/
theorem C47_unescape (p : Bytes) : nal2rbsp (escape p) = p := (nal2rbsp_escapeFrom p).1

/-- Different payloads are escaped differently. -/
theorem C47_escape_injective (p q : Bytes) (h : escape p = escape q) : p = q := by
  rw [← C47_unescape p, h, C47_unescape]

example : escape [0, 0, 0, 0, 0, 3, 0, 0, 4] = [0, 0, 3, 0, 0, 3, 0, 3, 0, 0, 4] ∧
    nal2rbsp [0, 0, 3, 0, 0, 3, 0, 3, 0, 0, 4] = [0, 0, 0, 0, 0, 3, 0, 0, 4] := by decide +kernel

instance (v : Nat) : Decidable (UE v) := by unfold UE; infer_instance

/-! ## C48 -/

/-- What `ParseSPS` should report for `s` according to the property: identification, and the size computed with crop units
of two samples. -/
structure SpsReported (s : H264Sps) (r : AvcSps) : Prop where
  id : r.id.toNat = s.id
  profile : r.profileIdc.toNat = s.profileIdc
  level : r.levelIdc.toNat = s.levelIdc
  constraints : r.constraintSetFlag.toNat = s.constraintFlags / 4
  mbWidth : r.mbWidth.toNat = s.widthInMbsMinus1 + 1
  mbHeight : r.mbHeight.toNat = s.heightInMapUnitsMinus1 + 1
  cropLeft : r.cropLeft.toNat = s.cropOf.left
  cropRight : r.cropRight.toNat = s.cropOf.right
  cropTop : r.cropTop.toNat = s.cropOf.top
  cropBottom : r.cropBottom.toNat = s.cropOf.bottom
  width : r.width = 16 * (s.widthInMbsMinus1 + 1 : Int) - 2 * (s.cropOf.left + s.cropOf.right : Int)
  height : r.height = 16 * (if s.frameMbsOnly then 1 else 2) * (s.heightInMapUnitsMinus1 + 1 : Int) -
    2 * (s.cropOf.top + s.cropOf.bottom : Int)
  fpsNone : s.timing = none → r.fps = 0
  fps : ∀ t, s.timing = some t → t.numUnitsInTick ≠ 0 → r.fps = t.timeScale / (2 * t.numUnitsInTick : Int)

/-- The parameter sets the code understands: high-profile syntax only for the profiles it lists, and not twelve scaling
lists. -/
def H264Sps.Known (s : H264Sps) : Prop :=
  s.profileIdc ∈ h264HighProfiles → s.profileIdc ∉ [128, 138, 139, 134, 135] ∧
    ¬ (s.high.chromaFormatIdc = 3 ∧ s.high.scaling.isSome)

theorem known_listed (p : Nat) (h : p ∈ h264HighProfiles) (h' : p ∉ [128, 138, 139, 134, 135]) :
    p ∈ [100, 110, 122, 244, 44, 83, 86, 118] :=
  (by decide : ∀ p ∈ h264HighProfiles, p ∉ [128, 138, 139, 134, 135] → p ∈ [100, 110, 122, 244, 44, 83, 86, 118]) p h h'

theorem H264Sps.bitsWith_known (s : H264Sps) (hk : s.Known) : s.bitsWith avcHighs = s.bits := by
  unfold H264Sps.bits H264Sps.bitsWith
  have : s.profileIdc ∈ avcHighs ↔ s.profileIdc ∈ h264HighProfiles :=
    ⟨(by decide : ∀ p ∈ avcHighs, p ∈ h264HighProfiles) _, fun hm => known_listed _ hm (hk hm).1⟩
  rw [if_congr this rfl rfl]

theorem reported_avcResult (undef : Int) {highs : List Nat} {n : Nat} (s : H264Sps) (h : s.Loose highs n) : SpsReported s (avcResult undef s) := by
  have hid := h.id
  have hw := h.width
  have hh := h.height
  have hp := h.profile
  have hf := h.flags
  have hlv := h.level
  obtain ⟨hl, hr, ht, hb⟩ := cropOf_ok s h
  unfold UEW at hid hw hh hl hr ht hb
  have e : ∀ n : Nat, n < 2 ^ 33 → (BitVec.ofNat 64 n).toNat = n := by
    intro n hn; rw [BitVec.toNat_ofNat]; omega
  exact {
    id := e _ (by omega), profile := e _ (by omega), level := e _ (by omega)
    constraints := by
      show (BitVec.ofNat 64 s.constraintFlags >>> 2).toNat = _
      rw [BitVec.toNat_ushiftRight, e _ (by omega), Nat.shiftRight_eq_div_pow]
    mbWidth := e _ (by omega), mbHeight := e _ (by omega)
    cropLeft := e _ (by omega), cropRight := e _ (by omega), cropTop := e _ (by omega), cropBottom := e _ (by omega)
    width := by
      show 16 * ((s.widthInMbsMinus1 + 1 : Nat) : Int) - 2 * ((s.cropOf.left + s.cropOf.right : Nat) : Int) = _
      push_cast; ring
    height := by
      show (if s.frameMbsOnly then 1 else 2) * (16 * ((s.heightInMapUnitsMinus1 + 1 : Nat) : Int)) -
        2 * ((s.cropOf.top + s.cropOf.bottom : Nat) : Int) = _
      push_cast; ring
    fpsNone := fun h0 => by
      show fpsOf undef s.timing = 0
      rw [h0]; rfl
    fps := fun t ht h0 => by
      show fpsOf undef s.timing = _
      rw [ht, fpsOf, if_neg h0]
      push_cast
      rfl }

/-- The property as stated: every parameter set of the standard's syntax. -/
def C48_claim : Prop := ∀ (undef : Int) (s : H264Sps), s.Ok → ∀ code ∈ spsCodes, ∀ (hdr : Byte), hdr ≠ 0 →
  ∀ (payload : Bytes) (rest : List Bool), bits payload = s.bits ++ rest →
    ∃ r, avcParseSPS undef (code ++ hdr :: payload) = ok r ∧ SpsReported s r

/-- C48 without the profiles and scaling matrices the code does not know (missing: profiles 128, 134, 135, 138, 139 and
scaling matrices in 4:4:4, for which the claim is false). -/
theorem C48_parse_partial (undef : Int) (s : H264Sps) (h : s.Ok) (hk : s.Known) (code : Bytes) (hc : code ∈ spsCodes)
    (hdr : Byte) (hh : hdr ≠ 0) (payload : Bytes) (rest : List Bool) (hb : bits payload = s.bits ++ rest) :
    ∃ r, avcParseSPS undef (code ++ hdr :: payload) = ok r ∧ SpsReported s r := by
  have hl : s.Loose avcHighs 8 := h.loose _ _ fun hm ls hls => by
    have hm' : s.profileIdc ∈ h264HighProfiles := (by decide : ∀ p ∈ avcHighs, p ∈ h264HighProfiles) _ hm
    unfold scalingListCount
    rw [if_pos fun h3 => (hk hm').2 ⟨h3, by simp [hls]⟩]
  refine ⟨avcResult undef s, ?_, reported_avcResult undef s hl⟩
  have hp := avcSpsBody_spec undef hdr s hl
  rw [s.bitsWith_known hk] at hp
  obtain ⟨g, e⟩ := hp.run (hdr :: payload) rest (by
    rw [show bits (hdr :: payload) = byteBits hdr ++ bits payload from rfl, hb, List.append_assoc]
    rfl)
  unfold avcParseSPS
  rw [strip_sps code hc hdr hh, ok_bind, e, ok_bind]
  rfl

/-- The reported size is the size the standard defines exactly if its crop unit is 2 or nothing is cropped. -/
theorem C48_standard_size (s : H264Sps) (r : AvcSps) (h : SpsReported s r) :
    (r.width = s.picWidth ↔ s.cropUnitX = 2 ∨ s.cropOf.left + s.cropOf.right = 0) ∧
    (r.height = s.picHeight ↔ s.cropUnitY = 2 ∨ s.cropOf.top + s.cropOf.bottom = 0) := by
  have key : ∀ (a : Int) (u n : Nat), (a - 2 * n = a - u * n) ↔ (u = 2 ∨ n = 0) := by
    intro a u n
    constructor
    · intro e
      have e' : ((2 : Int) - u) * n = 0 := by linarith [sub_mul (2 : Int) u n]
      rcases mul_eq_zero.mp e' with h | h
      · left; omega
      · right; omega
    · rintro (rfl | rfl)
      · rfl
      · simp
  constructor
  · have := key (16 * (s.widthInMbsMinus1 + 1 : Nat)) s.cropUnitX (s.cropOf.left + s.cropOf.right)
    rw [h.width, H264Sps.picWidth, ← this]
    push_cast
    rfl
  · have := key ((if s.frameMbsOnly then 1 else 2) * (16 * (s.heightInMapUnitsMinus1 + 1 : Nat))) s.cropUnitY
      (s.cropOf.top + s.cropOf.bottom)
    rw [h.height, H264Sps.picHeight, ← this]
    push_cast
    rw [show (16 : Int) * (if s.frameMbsOnly then 1 else 2) * (s.heightInMapUnitsMinus1 + 1) =
      (if s.frameMbsOnly then 1 else 2) * (16 * (s.heightInMapUnitsMinus1 + 1)) by ring]

/-- In particular for progressive 4:2:0 video. -/
theorem C48_standard_size_420 (s : H264Sps) (r : AvcSps) (h : SpsReported s r) (hc : s.chromaArrayType = 1)
    (hf : s.frameMbsOnly = true) : r.width = s.picWidth ∧ r.height = s.picHeight := by
  obtain ⟨h1, h2⟩ := C48_standard_size s r h
  refine ⟨h1.mpr (Or.inl ?_), h2.mpr (Or.inl ?_)⟩
  · simp [H264Sps.cropUnitX, hc]
  · simp [H264Sps.cropUnitY, hc, hf]

def exHigh : H264High := ⟨1, false, 0, 0, false, none⟩

/-- 1920x1080 interlaced, main profile. -/
def exInterlaced : H264Sps where
  profileIdc := 77
  constraintFlags := 64
  levelIdc := 40
  id := 0
  high := exHigh
  log2MaxFrameNumMinus4 := 0
  poc := .type0 2
  maxNumRefFrames := 2
  gapsAllowed := false
  widthInMbsMinus1 := 119
  heightInMapUnitsMinus1 := 33
  frameMbsOnly := false
  mbAdaptive := true
  direct8x8 := true
  crop := some ⟨0, 0, 0, 2⟩
  vui := none

/-- 1280x720, multiview high profile. -/
def exMultiview : H264Sps where
  profileIdc := 128
  constraintFlags := 0
  levelIdc := 31
  id := 0
  high := exHigh
  log2MaxFrameNumMinus4 := 0
  poc := .type2
  maxNumRefFrames := 1
  gapsAllowed := false
  widthInMbsMinus1 := 79
  heightInMapUnitsMinus1 := 44
  frameMbsOnly := true
  mbAdaptive := false
  direct8x8 := true
  crop := none
  vui := none

/-- 1280x720, 4:4:4, with an (empty) scaling matrix. -/
def ex444 : H264Sps :=
  { exMultiview with
    profileIdc := 244
    high := { exHigh with chromaFormatIdc := 3, scaling := some (List.replicate 12 none) } }

/-- 1920x1080, with scaling lists, offsets for the picture order count, cropping and all of the VUI. -/
def exFull : H264Sps where
  profileIdc := 100
  constraintFlags := 0
  levelIdc := 40
  id := 0
  high := { exHigh with
    scaling := some [some [-8], none, some (List.replicate 16 1), none, none, none, some [5, -13], none] }
  log2MaxFrameNumMinus4 := 0
  poc := .type1 false (-3) 4 [1, -2]
  maxNumRefFrames := 4
  gapsAllowed := false
  widthInMbsMinus1 := 119
  heightInMapUnitsMinus1 := 67
  frameMbsOnly := true
  mbAdaptive := false
  direct8x8 := true
  crop := some ⟨0, 0, 0, 4⟩
  vui := some {
    aspect := some (.extended 4 3), overscan := some true, signal := some ⟨5, false, some (1, 1, 1)⟩
    chromaLoc := some (0, 1), timing := some ⟨1001, 60000, true⟩ }

theorem exHigh_ok : exHigh.Ok := by
  refine ⟨by decide, by decide, by decide, ?_⟩
  intro ls hls; cases hls

theorem exMultiview_ok : exMultiview.Ok where
  profile := by decide
  flags := by decide
  level := by decide
  id := by decide
  high := exHigh_ok
  frameNum := by decide
  poc := trivial
  refFrames := by decide
  width := by decide
  height := by decide
  crop := by intro c hc; cases hc
  vui := by intro c hc; cases hc

theorem exInterlaced_ok : exInterlaced.Ok where
  profile := by decide
  flags := by decide
  level := by decide
  id := by decide
  high := exHigh_ok
  frameNum := by decide
  poc := show UE 2 by decide
  refFrames := by decide
  width := by decide
  height := by decide
  crop := by intro c hc; cases hc; exact ⟨by decide, by decide, by decide, by decide⟩
  vui := by intro c hc; cases hc

theorem ex444_ok : ex444.Ok where
  profile := by decide
  flags := by decide
  level := by decide
  id := by decide
  high := by
    refine ⟨by decide, by decide, by decide, ?_⟩
    intro ls hls
    cases hls
    refine ⟨rfl, ?_⟩
    intro i ds hi
    have : ∀ x ∈ List.replicate 12 (none : Option (List Int)), x = none := by simp
    cases this _ (List.mem_of_getElem? hi)
  frameNum := by decide
  poc := trivial
  refFrames := by decide
  width := by decide
  height := by decide
  crop := by intro c hc; cases hc
  vui := by intro c hc; cases hc

theorem exFull_ok : exFull.Ok where
  profile := by decide
  flags := by decide
  level := by decide
  id := by decide
  high := by
    refine ⟨by decide, by decide, by decide, ?_⟩
    intro ls hls
    cases hls
    refine ⟨rfl, ?_⟩
    intro i ds hi
    match i, hi with
    | 0, hi => cases hi; simp [DeltasOk, scalingListSize]
    | 1, hi => cases hi
    | 2, hi => cases hi; simp [DeltasOk, scalingListSize, List.replicate]
    | 3, hi => cases hi
    | 4, hi => cases hi
    | 5, hi => cases hi
    | 6, hi => cases hi; simp [DeltasOk, scalingListSize]
    | 7, hi => cases hi
    | i + 8, hi => simp at hi
  frameNum := by decide
  poc := by
    refine ⟨?_, ?_, ?_, ?_⟩
    · unfold SE; decide
    · unfold SE; decide
    · decide
    · unfold SE; decide
  refFrames := by decide
  width := by decide
  height := by decide
  crop := by intro c hc; cases hc; exact ⟨by decide, by decide, by decide, by decide⟩
  vui := by
    intro v hv
    cases hv
    refine ⟨?_, ?_, ?_, ?_, ?_⟩
    · intro n hn; cases hn
    · intro w h hw; cases hw; decide
    · intro s hs; cases hs; refine ⟨by decide, ?_⟩; intro c hc; cases hc; decide
    · intro c hc; cases hc; exact ⟨by decide, by decide⟩
    · intro t ht; cases ht; decide

/-- The claim is false: a multiview high profile set is read without its high-profile part (32x5120 for 1280x720). -/
theorem C48_claim_violated : ¬ C48_claim := by
  intro h
  obtain ⟨r, e, hr⟩ := h 0 exMultiview exMultiview_ok [] (by decide) 103 (by decide)
    [128, 0, 31, 172, 180, 2, 128, 45, 192] [false, false, false, false] (by decide +kernel)
  have e : avcParseSPS 0 [103, 128, 0, 31, 172, 180, 2, 128, 45, 192] = ok r := e
  have e2 : avcParseSPS 0 [103, 128, 0, 31, 172, 180, 2, 128, 45, 192] = ok ⟨0, 128, 31, 0, 2, 160, 0, 0, 0, 0, 32, 5120, 0⟩ := by
    decide +kernel
  rw [e2] at e
  cases e
  have := hr.width
  exact absurd this (by decide +kernel)

/-- The same for 4:4:4 with a scaling matrix: 16x16 for 1280x720, because eight of the twelve lists are read. -/
theorem C48_scaling444_violated : ex444.Ok ∧ ex444.picWidth = 1280 ∧
    bits [244, 0, 31, 145, 160, 1, 104, 5, 0, 91, 128] = ex444.bits ++ [false, false, false, false, false] ∧
    avcParseSPS 0 [103, 244, 0, 31, 145, 160, 1, 104, 5, 0, 91, 128] =
      ok ⟨0, 244, 31, 0, 1, 1, 0, 0, 0, 0, 16, 16, 0⟩ :=
  ⟨ex444_ok, by decide +kernel, by decide +kernel, by decide +kernel⟩

/-- The standard's size is not always reported: an interlaced 1920x1080 set gives 1920x1084. -/
theorem C48_standard_size_violated : exInterlaced.Ok ∧ exInterlaced.picWidth = 1920 ∧ exInterlaced.picHeight = 1080 ∧
    bits [77, 64, 40, 237, 128, 240, 8, 159, 176] = exInterlaced.bits ++ [false, false, false] ∧
    avcParseSPS 0 [103, 77, 64, 40, 237, 128, 240, 8, 159, 176] =
      ok ⟨0, 77, 40, 16, 120, 34, 0, 0, 0, 2, 1920, 1084, 0⟩ :=
  ⟨exInterlaced_ok, by decide +kernel, by decide +kernel, by decide +kernel, by decide +kernel⟩

/-- The hypotheses can be met with all optional parts present. -/
example : exFull.Ok ∧ exFull.Known ∧ exFull.chromaArrayType = 1 ∧
    bits [100, 0, 40, 173, 132, 84, 146, 73, 36, 146, 73, 33, 20, 27, 80, 226, 26, 41, 64, 120, 2, 39, 229, 255, 192, 1, 0,
      0, 253, 64, 64, 64, 117, 0, 0, 3, 233, 0, 0, 234, 96, 128] =
      exFull.bits ++ [false, false, false, false, false, false, false] :=
  ⟨exFull_ok, fun _ => ⟨by decide, by decide⟩, by decide, by decide +kernel⟩

/-! ## C49 -/

/-- C49: `ParseSPS` (a total function) panics exactly where stripping the start code panics. -/
theorem C49_panic_iff (undef : Int) (data : Bytes) :
    (avcParseSPS undef data = panic ↔ removeStartCode data = panic) ∧
    (avcParseSPS undef data = panic ↔ data ∈ [[], [0], [0, 0], [0, 0, 0]]) := by
  have key : avcParseSPS undef data = panic ↔ removeStartCode data = panic := by
    unfold avcParseSPS
    cases e : removeStartCode data with
    | ok d =>
      rw [ok_bind]
      have hs := avcSpsBody_safe undef (Golomb.ofBytes d)
      cases e2 : avcSpsBody undef (Golomb.ofBytes d) with
      | ok x => simp
      | err m => simp
      | panic => rw [e2] at hs; exact absurd rfl hs
    | err m => simp
    | panic => simp
  exact ⟨key, key.trans (C31_panic_iff data)⟩

example : (∃ m, avcParseSPS 0 [0, 0, 1] = err m) ∧ (∃ m, avcParseSPS 0 [103, 66, 0, 31, 255] = err m) ∧
    avcParseSPS 0 [0, 0] = panic :=
  ⟨⟨"EOF", by decide +kernel⟩, ⟨"EOF", by decide +kernel⟩, by decide +kernel⟩

/-! ## C50 -/

/-- The property as stated. -/
def C50_claim : Prop := ∀ (undef : Int) (hdr : Byte), hdr ≠ 0 → ∀ payload : Bytes,
  avcParseSPS undef (hdr :: escape payload) = avcParseSPS undef (hdr :: payload)

/-- It is false: 1280x720 at 25 frames a second, escaped, gives 699050 frames a second. -/
theorem C50_claim_violated : ¬ C50_claim := by
  intro h
  have := h 0 103 (by decide) [66, 0, 31, 218, 1, 64, 22, 232, 64, 0, 0, 0, 64, 0, 0, 12, 160]
  revert this
  decide +kernel

/-- What is true: if the part that is parsed needs no escaping, the escaped and the unescaped unit give the same result.
(Missing: units whose parsed part contains emulation prevention bytes.) -/
theorem C50_partial (undef : Int) (code : Bytes) (hc : code ∈ spsCodes) (hdr : Byte) (hh : hdr ≠ 0) (p1 p2 : Bytes)
    (r : AvcSps) (h1 : escape p1 = p1) (hp : avcParseSPS undef (code ++ hdr :: p1) = ok r) :
    avcParseSPS undef (code ++ hdr :: escape (p1 ++ p2)) = ok r ∧
      avcParseSPS undef (code ++ hdr :: (p1 ++ p2)) = ok r := by
  have key : ∀ q, avcParseSPS undef (code ++ hdr :: (p1 ++ q)) = ok r := by
    intro q
    unfold avcParseSPS at hp ⊢
    rw [strip_sps code hc hdr hh, ok_bind] at hp ⊢
    obtain ⟨⟨s, g⟩, e1, e2⟩ := bind_eq_ok.mp hp
    have := avcSpsBody_stable undef _ _ _ q e1
    have e3 : (Golomb.ofBytes (hdr :: p1)).more q = Golomb.ofBytes (hdr :: (p1 ++ q)) := rfl
    rw [e3] at this
    rw [this, ok_bind]
    exact e2
  obtain ⟨q, e⟩ := escapeFrom_append 0 p1 p2
  refine ⟨?_, key p2⟩
  have e' : escape (p1 ++ p2) = p1 ++ q := by
    unfold escape at h1 ⊢; rw [e, h1]
  rw [e']
  exact key q

example : escape [77, 64, 40, 237, 128, 240, 8, 159, 176] = [77, 64, 40, 237, 128, 240, 8, 159, 176] ∧
    escape ([77, 64, 40, 237, 128, 240, 8, 159, 176] ++ [0, 0, 1]) = [77, 64, 40, 237, 128, 240, 8, 159, 176, 0, 0, 3, 1] := by
  decide +kernel

/-! ## C51 -/

/-- What `hevc.ParseSPS` reports for `s`. -/
structure HevcReported (s : H265Sps) (r : HevcSps) : Prop where
  width : r.width = s.picWidth
  height : r.height = s.picHeight
  picWidth : r.picWidth.toNat = s.picWidth
  picHeight : r.picHeight.toNat = s.picHeight
  layers : r.numTemporalLayers.toNat = s.layers.length + 1
  nested : r.temporalIdNested.toNat = s.temporalIdNested.toNat
  chroma : r.chromaFormat.toNat = s.chromaFormatIdc
  chromaDepth : r.bitDepthChromaMinus8.toNat = s.bitDepthChromaMinus8
  space : r.generalProfileSpace.toNat = s.ptl.space
  tier : r.generalTierFlag.toNat = s.ptl.tier.toNat
  profile : r.generalProfileIDC.toNat = s.ptl.idc
  level : r.generalLevelIDC.toNat = s.ptl.level

theorem reported_hevcResult (s : H265Sps) (h : s.Loose) : HevcReported s (hevcResult s) := by
  have hid := h.id
  have hw := h.width
  have hh := h.height
  have hch := h.chroma
  have hcd := h.chromaDepth
  have hl := h.layers
  have hsp := h.space
  have hi := h.idc
  have hlv := h.level
  unfold UEW at hid hw hh hch hcd
  have e : ∀ n : Nat, n < 2 ^ 33 → (BitVec.ofNat 64 n).toNat = n := by
    intro n hn; rw [BitVec.toNat_ofNat]; omega
  have eb : ∀ b : Bool, (BitVec.ofNat 64 b.toNat).toNat = b.toNat := by decide
  exact {
    width := rfl, height := rfl, picWidth := e _ (by omega), picHeight := e _ (by omega), layers := e _ (by omega)
    nested := eb _, chroma := e _ (by omega), chromaDepth := e _ (by omega), space := e _ (by omega), tier := eb _
    profile := e _ (by omega), level := e _ (by omega) }

/-- C51: coded size and the general fields, for every set of the standard's syntax, escaped, with two header bytes and an
optional start code. -/
theorem C51_parse (s : H265Sps) (h : s.Ok) (code : Bytes) (hc : code ∈ spsCodes) (h0 h1 : Byte) (hh : h0 ≠ 0)
    (payload : Bytes) (rest : List Bool) (hb : bits payload = s.bits ++ rest) :
    ∃ r, hevcParseSPS (code ++ h0 :: h1 :: escape payload) = ok r ∧ HevcReported s r := by
  refine ⟨hevcResult s, ?_, reported_hevcResult s h.loose⟩
  · obtain ⟨g, e⟩ := (hevcSpsBody_spec s h.loose).run payload rest hb
    unfold hevcParseSPS
    rw [strip_sps code hc h0 hh, ok_bind, if_neg (by simp)]
    have e2 : sliceFrom (h0 :: h1 :: escape payload) 2 = ok (escape payload) := by simp [sliceFrom]
    rw [e2, ok_bind, C47_unescape, e, ok_bind]
    rfl

/-- Two sub-layers below the highest, with profile and level, and a conformance window (which is ignored: 1088 lines). -/
def exHevc : H265Sps where
  vpsId := 0
  temporalIdNested := true
  ptl := ⟨0, false, 1, 0x60000000, 0x900000000000, 93⟩
  layers := [⟨some (2 ^ 80 + 5), some 90⟩, ⟨none, some 93⟩]
  id := 0
  chromaFormatIdc := 1
  separateColourPlane := false
  picWidth := 1920
  picHeight := 1088
  window := some (0, 0, 0, 4)
  bitDepthLumaMinus8 := 0
  bitDepthChromaMinus8 := 0
  log2MaxPocLsbMinus4 := 4
  orderingForAll := true
  ordering := [(1, 0, 0), (2, 1, 0), (4, 2, 5)]
  blockSizes := (0, 3, 0, 3, 1, 1)

example : exHevc.Ok ∧ bits [5, 1, 96, 0, 0, 0, 144, 0, 0, 0, 0, 0, 93, 208, 0, 1, 0, 0, 0, 0, 0, 0, 0, 0, 0, 5, 90, 93, 160,
    3, 192, 128, 17, 7, 203, 150, 182, 165, 102, 146, 68, 128] = exHevc.bits ++ [false, false, false, false, false, false] :=
  ⟨{ vpsId := by decide
     layers := by decide
     reserved := by decide
     layerProfile := by
       intro l hl p hp
       simp only [exHevc, List.mem_cons, List.not_mem_nil, or_false] at hl
       rcases hl with rfl | rfl
       · cases hp; decide
       · cases hp
     layerLevel := by
       intro l hl p hp
       simp only [exHevc, List.mem_cons, List.not_mem_nil, or_false] at hl
       rcases hl with rfl | rfl <;> cases hp <;> decide
     space := by decide
     idc := by decide
     compat := by decide
     constraints := by decide
     level := by decide
     id := by decide
     chroma := by decide
     width := by decide
     height := by decide
     window := by intro w hw; cases hw; exact ⟨by decide, by decide, by decide, by decide⟩
     luma := by decide
     chromaDepth := by decide
     lsb := by decide
     ordering := by decide
     orderingUE := by
       intro o ho
       simp only [exHevc, List.mem_cons, List.not_mem_nil, or_false] at ho
       rcases ho with rfl | rfl | rfl <;> exact ⟨by decide, by decide, by decide⟩
     sizes := ⟨by decide, by decide, by decide, by decide, by decide, by decide⟩ }, by decide +kernel⟩

/-! ## C52 -/

/-- C52: `hevc.ParseSPS` panics exactly where stripping the start code panics. -/
theorem C52_panic_iff (data : Bytes) :
    (hevcParseSPS data = panic ↔ removeStartCode data = panic) ∧
    (hevcParseSPS data = panic ↔ data ∈ [[], [0], [0, 0], [0, 0, 0]]) := by
  have key : hevcParseSPS data = panic ↔ removeStartCode data = panic := by
    unfold hevcParseSPS
    cases e : removeStartCode data with
    | ok d =>
      rw [ok_bind]
      split
      · simp
      · rename_i hl
        have e2 : sliceFrom d 2 = ok (d.drop 2) := by simp [sliceFrom]; omega
        rw [e2, ok_bind]
        have hs := hevcSpsBody_safe (Golomb.ofBytes (nal2rbsp (d.drop 2)))
        cases e2 : hevcSpsBody (Golomb.ofBytes (nal2rbsp (d.drop 2))) with
        | ok x => simp
        | err m => simp
        | panic => rw [e2] at hs; exact absurd rfl hs
    | err m => simp
    | panic => simp
  exact ⟨key, key.trans (C31_panic_iff data)⟩

example : (∃ m, hevcParseSPS [66] = err m) ∧ (∃ m, hevcParseSPS [0, 0, 0, 1, 66, 1, 1] = err m) ∧
    hevcParseSPS [0, 0, 0] = panic :=
  ⟨⟨"incorrect Unit Size", by decide +kernel⟩, ⟨"EOF", by decide +kernel⟩, by decide +kernel⟩

end Avf
