import Verif.Lemmas.SpsHead
import Verif.Props.SpsExact
/-!
# Property C50, what remains true: emulation prevention bytes in the VUI

`avc.ParseSPS` does not remove emulation prevention bytes. The common case in practice is a set whose 32-bit timing fields need them. Then
everything but the frame rate is still right.
-/
namespace Avf
open Go

theorem escape_prefix (p1 p2 : Bytes) (h1 : escape p1 = p1) : ∃ q, escape (p1 ++ p2) = p1 ++ q := by
  obtain ⟨q, e⟩ := escapeFrom_append 0 p1 p2
  exact ⟨q, by unfold escape at h1 ⊢; rw [e, h1]⟩

theorem escapeFrom_length (z : Nat) (p : Bytes) : p.length ≤ (escapeFrom z p).length := by
  induction p generalizing z with
  | nil => simp [escapeFrom]
  | cons b t ih =>
    rw [escapeFrom]
    split
    · have := ih (if b = 0 then 1 else 0); simp only [List.length_cons]; omega
    · have := ih (if b = 0 then z + 1 else 0); simp only [List.length_cons]; omega

theorem parse_head (undef : Int) (code : Bytes) (hc : code ∈ spsCodes) (hdr : Byte) (hh : hdr ≠ 0) (s : H264Sps)
    (hs : s.Loose avcHighs 8) (p : Bytes) (more : List Bool) (hb : bits p = s.headBits avcHighs ++ more) (r : AvcSps)
    (hr : avcParseSPS undef (code ++ hdr :: p) = ok r) : r = { avcResult undef s with fps := r.fps } := by
  unfold avcParseSPS at hr
  rw [strip_sps code hc hdr hh, ok_bind] at hr
  obtain ⟨⟨x, g⟩, e1, e2⟩ := bind_eq_ok.mp hr
  have e2 : ok x = ok r := e2
  injection e2 with e2
  subst e2
  refine avcSpsBody_head undef hdr s hs (Golomb.ofBytes (hdr :: p)) more (Golomb.ok_ofBytes _) ?_ x g e1
  rw [Golomb.todo_ofBytes, show bits (hdr :: p) = byteBits hdr ++ bits p from rfl, hb, List.append_assoc]
  rfl

/-- **C50**, size: let the part of the set up to and including the cropping offsets lie in front of the first emulation prevention byte.
If the escaped unit is accepted, everything it gives but the frame rate is right, and as for the unescaped unit. -/
theorem C50_size (undef : Int) (code : Bytes) (hc : code ∈ spsCodes) (hdr : Byte) (hh : hdr ≠ 0) (s : H264Sps)
    (hs : s.Loose avcHighs 8) (p1 p2 : Bytes) (more : List Bool) (h1 : escape p1 = p1) (hb : bits p1 = s.headBits avcHighs ++ more)
    (r : AvcSps) (hr : avcParseSPS undef (code ++ hdr :: escape (p1 ++ p2)) = ok r) :
    SpsReported { s with vui := none } { r with fps := 0 } ∧
    ∀ r0, avcParseSPS undef (code ++ hdr :: (p1 ++ p2)) = ok r0 → r = { r0 with fps := r.fps } := by
  obtain ⟨q, e⟩ := escape_prefix p1 p2 h1
  rw [e] at hr
  have key : ∀ q r, avcParseSPS undef (code ++ hdr :: (p1 ++ q)) = ok r → r = { avcResult undef s with fps := r.fps } := fun q r hr =>
    parse_head undef code hc hdr hh s hs (p1 ++ q) (more ++ bits q) (by rw [bits_append, hb, List.append_assoc]) r hr
  have hr' := key q r hr
  refine ⟨?_, fun r0 h0 => ?_⟩
  · have hn : ({ s with vui := none } : H264Sps).Loose avcHighs 8 :=
      { profile := hs.profile, flags := hs.flags, level := hs.level, id := hs.id, high := hs.high, frameNum := hs.frameNum, poc := hs.poc,
        refFrames := hs.refFrames, width := hs.width, height := hs.height, crop := hs.crop, vui := fun v h => by cases h }
    have : ({ r with fps := 0 } : AvcSps) = avcResult undef { s with vui := none } := by rw [hr']; rfl
    rw [this]
    exact reported_avcResult undef _ hn
  · rw [key p2 r0 h0]
    exact hr'

theorem timing_of_bits (l : List Bool) (h : l.length = 65) : ∃ t : H264Timing, t.numUnitsInTick < 2 ^ 32 ∧ t.timeScale < 2 ^ 32 ∧ l = t.bits := by
  obtain ⟨a, b, c, rfl, ha, hb, hc⟩ : ∃ a b c : List Bool, l = a ++ (b ++ c) ∧ a.length = 32 ∧ b.length = 32 ∧ c.length = 1 :=
    ⟨l.take 32, (l.drop 32).take 32, (l.drop 32).drop 32, by rw [List.take_append_drop, List.take_append_drop], by simp [h], by simp [h], by simp [h]⟩
  obtain ⟨f, rfl⟩ := List.length_eq_one_iff.mp hc
  refine ⟨⟨bitsVal a, bitsVal b, f⟩, ha ▸ bitsVal_lt a, hb ▸ bitsVal_lt b, ?_⟩
  have ea := fieldBits_bitsVal a
  have eb := fieldBits_bitsVal b
  rw [ha] at ea
  rw [hb] at eb
  unfold H264Timing.bits
  rw [ea, eb]
  rfl

theorem timing_bits_length (t : H264Timing) : t.bits.length = 65 := by simp [H264Timing.bits, flagBits]

/-- **C50**, timing: if only the timing fields and what follows them contain emulation prevention bytes, the escaped unit is accepted
like the unescaped one, and only the frame rate can differ: it is that of the fields read from the escaped bytes. -/
theorem C50_timing (undef : Int) (code : Bytes) (hc : code ∈ spsCodes) (hdr : Byte) (hh : hdr ≠ 0) (s : H264Sps)
    (hs : s.Loose avcHighs 8) (v : H264Vui) (hv : s.vui = some v) (t : H264Timing) (ht : v.timing = some t) (p1 p2 : Bytes)
    (rest more : List Bool) (hb : bits (p1 ++ p2) = s.bitsWith avcHighs ++ rest) (h1 : escape p1 = p1)
    (hp : bits p1 = s.headBits avcHighs ++ (true :: v.preTimingBits ++ more)) :
    ∃ (t' : H264Timing) (rest' : List Bool) (r r' : AvcSps),
      bits (escape (p1 ++ p2)) = ({ s with vui := some { v with timing := some t' } } : H264Sps).bitsWith avcHighs ++ rest' ∧
      avcParseSPS undef (code ++ hdr :: (p1 ++ p2)) = ok r ∧ SpsReported s r ∧
      avcParseSPS undef (code ++ hdr :: escape (p1 ++ p2)) = ok r' ∧
      SpsReported { s with vui := some { v with timing := some t' } } r' ∧ r' = { r with fps := r'.fps } := by
  have fwd : ∀ (s : H264Sps) (payload : Bytes) (rest : List Bool), s.Loose avcHighs 8 → bits payload = s.bitsWith avcHighs ++ rest →
      avcParseSPS undef (code ++ hdr :: payload) = ok (avcResult undef s) := by
    intro s payload rest hs hb
    obtain ⟨g, e⟩ := (avcSpsBody_spec undef hdr s hs).run (hdr :: payload) rest (by
      rw [show bits (hdr :: payload) = byteBits hdr ++ bits payload from rfl, hb, List.append_assoc]
      rfl)
    unfold avcParseSPS
    rw [strip_sps code hc hdr hh, ok_bind, e, ok_bind]
    rfl
  obtain ⟨q, e⟩ := escape_prefix p1 p2 h1
  have hlen : p2.length ≤ q.length := by
    have := escapeFrom_length 0 (p1 ++ p2)
    rw [show escapeFrom 0 (p1 ++ p2) = p1 ++ q from e] at this
    simp only [List.length_append] at this
    omega
  have hbit : ∀ t', ({ s with vui := some { v with timing := some t' } } : H264Sps).bitsWith avcHighs =
      s.headBits avcHighs ++ (true :: v.preTimingBits ++ t'.bits) := by
    intro t'
    rw [H264Sps.bitsWith_head]
    show s.headBits avcHighs ++ true :: H264Vui.bits { v with timing := some t' } = _
    rw [H264Vui.bits_timing { v with timing := some t' } t' rfl]
    rfl
  have hsv : ({ s with vui := some { v with timing := some t } } : H264Sps) = s := by rw [← ht, ← hv]
  have hmore : 65 ≤ (more ++ bits q).length := by
    have hbt := hbit t
    rw [hsv] at hbt
    rw [bits_append, hp, hbt] at hb
    have := congrArg List.length hb
    have h65 := timing_bits_length t
    simp only [List.length_append, List.length_cons, bits_length] at this ⊢
    rw [h65] at this
    omega
  obtain ⟨t', ha, hb', et⟩ := timing_of_bits ((more ++ bits q).take 65) (by rw [List.length_take]; omega)
  have hs' : ({ s with vui := some { v with timing := some t' } } : H264Sps).Loose avcHighs 8 :=
    { profile := hs.profile, flags := hs.flags, level := hs.level, id := hs.id, high := hs.high, frameNum := hs.frameNum, poc := hs.poc,
      refFrames := hs.refFrames, width := hs.width, height := hs.height, crop := hs.crop
      vui := by
        intro w hw
        cases hw
        obtain ⟨a, b, c, d, _⟩ := hs.vui v hv
        exact ⟨a, b, c, d, fun t hw => by cases hw; exact ⟨ha, hb'⟩⟩ }
  have hbe : bits (escape (p1 ++ p2)) =
      ({ s with vui := some { v with timing := some t' } } : H264Sps).bitsWith avcHighs ++ (more ++ bits q).drop 65 := by
    rw [e, bits_append, hp, hbit, ← et, List.append_assoc, List.append_assoc, List.append_assoc, List.append_assoc, List.take_append_drop]
  exact ⟨t', _, _, _, hbe, fwd s _ rest hs hb, reported_avcResult undef s hs, fwd _ _ _ hs' hbe, reported_avcResult undef _ hs', rfl⟩

/-- **C50**, exactly: what is read from an escaped unit is the set that the bytes spell if the emulation prevention bytes are taken for
part of it. It is accepted exactly if there is such a set, the result describes that set, and it is the result for the unescaped unit
exactly if the two sets agree in all that is reported. -/
theorem C50_exact (undef : Int) (code : Bytes) (hc : code ∈ spsCodes) (hdr : Byte) (hh : hdr ≠ 0) (payload : Bytes) :
    (∀ r, avcParseSPS undef (code ++ hdr :: escape payload) = ok r ↔
      ∃ (s : H264Sps) (rest : List Bool), s.Loose avcHighs 8 ∧ bits (escape payload) = s.bitsWith avcHighs ++ rest ∧ r = avcResult undef s) ∧
    (∀ s : H264Sps, s.Loose avcHighs 8 → SpsReported s (avcResult undef s)) ∧
    ((¬ ∃ (s : H264Sps) (rest : List Bool), s.Loose avcHighs 8 ∧ bits (escape payload) = s.bitsWith avcHighs ++ rest) →
      ∃ m, avcParseSPS undef (code ++ hdr :: escape payload) = err m) ∧
    ∀ (s : H264Sps) (rest : List Bool), s.Loose avcHighs 8 → bits payload = s.bitsWith avcHighs ++ rest →
      (avcParseSPS undef (code ++ hdr :: escape payload) = avcParseSPS undef (code ++ hdr :: payload) ↔
        ∃ (s' : H264Sps) (rest' : List Bool), s'.Loose avcHighs 8 ∧ bits (escape payload) = s'.bitsWith avcHighs ++ rest' ∧
          avcResult undef s' = avcResult undef s) := by
  have fwd : ∀ (s : H264Sps) (payload : Bytes) (rest : List Bool), s.Loose avcHighs 8 → bits payload = s.bitsWith avcHighs ++ rest →
      avcParseSPS undef (code ++ hdr :: payload) = ok (avcResult undef s) := by
    intro s payload rest hs hb
    obtain ⟨g, e⟩ := (avcSpsBody_spec undef hdr s hs).run (hdr :: payload) rest (by
      rw [show bits (hdr :: payload) = byteBits hdr ++ bits payload from rfl, hb, List.append_assoc]
      rfl)
    unfold avcParseSPS
    rw [strip_sps code hc hdr hh, ok_bind, e, ok_bind]
    rfl
  obtain ⟨h1, _, h3⟩ := C93_avc_partial undef code hc hdr hh (escape payload) (escape_no000 payload)
  have key : ∀ r, avcParseSPS undef (code ++ hdr :: escape payload) = ok r ↔
      ∃ (s : H264Sps) (rest : List Bool), s.Loose avcHighs 8 ∧ bits (escape payload) = s.bitsWith avcHighs ++ rest ∧ r = avcResult undef s := by
    refine fun r => ⟨fun hr => ?_, fun ⟨s, rest, hs, hb, e⟩ => by rw [e]; exact fwd s _ rest hs hb⟩
    obtain ⟨s, rest, hs, hb, _⟩ := h1 r hr
    rw [fwd s _ rest hs hb] at hr
    injection hr with hr
    exact ⟨s, rest, hs, hb, hr.symm⟩
  refine ⟨key, fun s hs => reported_avcResult undef s hs, h3, fun s rest hs hb => ?_⟩
  rw [fwd s payload rest hs hb, key]
  exact ⟨fun ⟨s', r', a, b, c⟩ => ⟨s', r', a, b, c.symm⟩, fun ⟨s', r', a, b, c⟩ => ⟨s', r', a, b, c.symm⟩⟩

/-- 1280x720 at 25 frames a second (the counterexample of C50): up to the timing flag nothing is escaped; size and identification are
right, the frame rate is not. -/
example : escape [66, 0, 31, 218, 1, 64, 22, 232, 64] = [66, 0, 31, 218, 1, 64, 22, 232, 64] ∧
    escape [66, 0, 31, 218, 1, 64, 22, 232, 64, 0, 0, 0, 64, 0, 0, 12, 160] =
      [66, 0, 31, 218, 1, 64, 22, 232, 64, 0, 0, 3, 0, 64, 0, 0, 12, 160] ∧
    avcParseSPS 0 [103, 66, 0, 31, 218, 1, 64, 22, 232, 64, 0, 0, 0, 64, 0, 0, 12, 160] =
      ok ⟨0, 66, 31, 0, 80, 45, 0, 0, 0, 0, 1280, 720, 25⟩ ∧
    avcParseSPS 0 [103, 66, 0, 31, 218, 1, 64, 22, 232, 64, 0, 0, 3, 0, 64, 0, 0, 12, 160] =
      ok ⟨0, 66, 31, 0, 80, 45, 0, 0, 0, 0, 1280, 720, 699050⟩ := by decide +kernel

/-- The set of that example. -/
def exTimed : H264Sps where
  profileIdc := 66
  constraintFlags := 0
  levelIdc := 31
  id := 0
  high := exHigh
  log2MaxFrameNumMinus4 := 0
  poc := .type2
  maxNumRefFrames := 1
  gapsAllowed := false
  widthInMbsMinus1 := 79
  heightInMapUnitsMinus1 := 44
  frameMbsOnly := true
  mbAdaptive := false
  direct8x8 := true
  crop := none
  vui := some ⟨none, none, none, none, some ⟨1, 50, true⟩⟩

example : bits [66, 0, 31, 218, 1, 64, 22, 232, 64, 0, 0, 0, 64, 0, 0, 12, 160] = exTimed.bitsWith avcHighs ++ List.replicate 5 false ∧
    bits [66, 0, 31, 218, 1, 64, 22, 232, 64] = exTimed.headBits avcHighs ++
      (true :: H264Vui.preTimingBits ⟨none, none, none, none, some ⟨1, 50, true⟩⟩ ++ List.replicate 6 false) := by decide +kernel

end Avf
