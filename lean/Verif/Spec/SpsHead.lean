import Verif.Spec.Sps
/-!
# Specification: the parts of an H.264 sequence parameter set that emulation prevention may fall into
-/
namespace Avf

/-- seq_parameter_set_data (7.3.2.1.1) up to and including the cropping offsets: all of it but the VUI. -/
def H264Sps.headBits (high : List Nat) (s : H264Sps) : List Bool :=
  fieldBits 8 s.profileIdc ++ (fieldBits 8 s.constraintFlags ++ (fieldBits 8 s.levelIdc ++ (ueBits s.id ++
  ((if s.profileIdc ∈ high then s.high.bits else []) ++
  (ueBits s.log2MaxFrameNumMinus4 ++ (s.poc.bits ++ (ueBits s.maxNumRefFrames ++ (flagBits s.gapsAllowed ++
  (ueBits s.widthInMbsMinus1 ++ (ueBits s.heightInMapUnitsMinus1 ++ (flagBits s.frameMbsOnly ++
  ((if s.frameMbsOnly then [] else flagBits s.mbAdaptive) ++ (flagBits s.direct8x8 ++
  optBits H264Crop.bits s.crop)))))))))))))

/-- The VUI (E.1.1) in front of the three elements of the timing part, which is announced. -/
def H264Vui.preTimingBits (v : H264Vui) : List Bool :=
  optBits H264Aspect.bits v.aspect ++ (optBits flagBits v.overscan ++ (optBits H264Signal.bits v.signal ++
  (optBits (fun c => ueBits c.1 ++ ueBits c.2) v.chromaLoc ++ [true])))

end Avf
