import Verif.Model.Packet
import Verif.Props.Utils
/-!
# C87: time stamps of a packet in another time base (`ConvertDts`, `ConvertPts`, `GetDuration`, `GetPtsDtsDelta`)
-/
namespace Avf
open Go

/-- `r` is close to the exact value of `ts` in the other time base: off by less than one unit plus a `2^-50`th of the value. -/
def CloseTo (r ts src dst : Int) : Prop := |(r : ℚ) - (ts : ℚ) * dst / src| < 1 + |(ts : ℚ) * dst / src| / 2 ^ 50

theorem closeTo_convert {undef ts src dst : Int} (hs : src ≠ 0) (h : |ts * dst| ≤ 2 ^ 62 * |src|) :
    CloseTo (if src = dst then ts else convertTs undef ts src dst) ts src dst := by
  split
  · rename_i e
    subst e
    have hq : (src : ℚ) ≠ 0 := by exact_mod_cast hs
    unfold CloseTo
    rw [mul_div_assoc, div_self hq, mul_one, sub_self, abs_zero]
    have := abs_nonneg (ts : ℚ)
    positivity
  · exact C57_accurate undef ts src dst hs h

/-- **C87** in the packet's own time base the values are returned as they are, whatever they are. -/
theorem C87_same (undef : Int) (p : AVPacket) :
    p.convertDts undef p.timebase = p.dts ∧ p.convertPts undef p.timebase = p.pts ∧
    p.getDuration undef p.timebase = p.duration ∧
    (-2 ^ 63 ≤ p.pts - p.dts → p.pts - p.dts < 2 ^ 63 → p.getPtsDtsDelta undef p.timebase = p.pts - p.dts) := by
  refine ⟨if_pos rfl, if_pos rfl, if_pos rfl, fun h1 h2 => ?_⟩
  unfold AVPacket.getPtsDtsDelta
  rw [if_pos rfl, wrap64_of_range h1 h2]

/-- **C87** in any other time base they are converted, each from its own field. -/
theorem C87_accurate (undef : Int) (p : AVPacket) (tb : Int) (hs : p.timebase ≠ 0) :
    (|p.dts * tb| ≤ 2 ^ 62 * |p.timebase| → CloseTo (p.convertDts undef tb) p.dts p.timebase tb) ∧
    (|p.pts * tb| ≤ 2 ^ 62 * |p.timebase| → CloseTo (p.convertPts undef tb) p.pts p.timebase tb) ∧
    (|p.duration * tb| ≤ 2 ^ 62 * |p.timebase| → CloseTo (p.getDuration undef tb) p.duration p.timebase tb) ∧
    (-2 ^ 63 ≤ p.pts - p.dts → p.pts - p.dts < 2 ^ 63 → |(p.pts - p.dts) * tb| ≤ 2 ^ 62 * |p.timebase| →
      CloseTo (p.getPtsDtsDelta undef tb) (p.pts - p.dts) p.timebase tb) := by
  refine ⟨closeTo_convert hs, closeTo_convert hs, closeTo_convert hs, fun h1 h2 h3 => ?_⟩
  unfold AVPacket.getPtsDtsDelta
  rw [wrap64_of_range h1 h2]
  exact closeTo_convert hs h3

theorem convert_mono {undef a b src dst : Int} (hs : 0 < src) (hd : 0 ≤ dst) (hle : a ≤ b) (ha : |a * dst| ≤ 2 ^ 62 * src)
    (hb : |b * dst| ≤ 2 ^ 62 * src) :
    (if src = dst then a else convertTs undef a src dst) ≤ (if src = dst then b else convertTs undef b src dst) := by
  split
  · exact hle
  · exact C57_monotone undef a b src dst hs hd hle ha hb

/-- **C87** a packet that is decoded no later than shown stays so in every time base. -/
theorem C87_dts_le_pts (undef : Int) (p : AVPacket) (tb : Int) (hs : 0 < p.timebase) (hd : 0 ≤ tb) (h : p.dts ≤ p.pts)
    (h1 : |p.dts * tb| ≤ 2 ^ 62 * p.timebase) (h2 : |p.pts * tb| ≤ 2 ^ 62 * p.timebase) :
    p.convertDts undef tb ≤ p.convertPts undef tb := convert_mono hs hd h h1 h2

/-- **C87** packets of one time base keep their order. -/
theorem C87_order (undef : Int) (p q : AVPacket) (tb : Int) (hpq : p.timebase = q.timebase) (hs : 0 < p.timebase) (hd : 0 ≤ tb)
    (h : p.dts ≤ q.dts) (h1 : |p.dts * tb| ≤ 2 ^ 62 * p.timebase) (h2 : |q.dts * tb| ≤ 2 ^ 62 * p.timebase) :
    p.convertDts undef tb ≤ q.convertDts undef tb := by
  unfold AVPacket.convertDts
  rw [← hpq]
  exact convert_mono hs hd h h1 h2

theorem closeTo_lt {r ts src dst : Int} (hs : src ≠ 0) (h : |ts * dst| ≤ 2 ^ 48 * |src|) (hc : CloseTo r ts src dst) :
    |(r : ℚ) - (ts : ℚ) * dst / src| < 5 / 4 := by
  have hs' : (0 : ℚ) < |(src : ℚ)| := abs_pos.mpr (by exact_mod_cast hs)
  have hx : |(ts : ℚ) * dst / src| ≤ 2 ^ 48 := by
    rw [abs_div, div_le_iff₀ hs']; exact_mod_cast h
  unfold CloseTo at hc
  have : |(ts : ℚ) * dst / src| / 2 ^ 50 ≤ 1 / 4 := by rw [div_le_iff₀ (by positivity)]; linarith
  linarith

/-- **C87** the composition time offset: `GetPtsDtsDelta` and the difference of the converted time stamps are at most 3 units
apart. -/
theorem C87_delta_near (undef : Int) (p : AVPacket) (tb : Int) (hs : p.timebase ≠ 0)
    (h0 : -2 ^ 63 ≤ p.pts - p.dts) (h0' : p.pts - p.dts < 2 ^ 63) (h1 : |p.dts * tb| ≤ 2 ^ 48 * |p.timebase|)
    (h2 : |p.pts * tb| ≤ 2 ^ 48 * |p.timebase|) (h3 : |(p.pts - p.dts) * tb| ≤ 2 ^ 48 * |p.timebase|) :
    |p.getPtsDtsDelta undef tb - (p.convertPts undef tb - p.convertDts undef tb)| ≤ 3 := by
  have hn := abs_nonneg p.timebase
  obtain ⟨a1, a2, -, a4⟩ := C87_accurate undef p tb hs
  have b1 := abs_lt.1 (closeTo_lt hs h1 (a1 (by omega)))
  have b2 := abs_lt.1 (closeTo_lt hs h2 (a2 (by omega)))
  have b3 := abs_lt.1 (closeTo_lt hs h3 (a4 h0 h0' (by omega)))
  have e : ((p.pts - p.dts : Int) : ℚ) * tb / p.timebase = (p.pts : ℚ) * tb / p.timebase - (p.dts : ℚ) * tb / p.timebase := by
    push_cast; ring
  rw [e] at b3
  have : (|p.getPtsDtsDelta undef tb - (p.convertPts undef tb - p.convertDts undef tb)| : ℚ) < 4 := by
    rw [abs_lt]; constructor <;> linarith [b1.1, b1.2, b2.1, b2.2, b3.1, b3.2]
  have : |p.getPtsDtsDelta undef tb - (p.convertPts undef tb - p.convertDts undef tb)| < 4 := by exact_mod_cast this
  omega

/-- **C87** they are not always equal: in milliseconds, 1 against 2; and from a time base of 0 nothing is defined. -/
theorem C87_delta_not_exact :
    ({ pts := 180, dts := 45, timebase := 90000 } : AVPacket).getPtsDtsDelta 0 1000 = 1 ∧
    ({ pts := 180, dts := 45, timebase := 90000 } : AVPacket).convertPts 0 1000 = 2 ∧
    ({ pts := 180, dts := 45, timebase := 90000 } : AVPacket).convertDts 0 1000 = 0 ∧
    ∀ undef, ({ dts := 45 } : AVPacket).convertDts undef 1000 = undef := by
  refine ⟨by decide +kernel, by decide +kernel, by decide +kernel, fun undef => rfl⟩

example : ({ pts := 7200, dts := 3600, duration := 1800, timebase := 90000 } : AVPacket).convertPts 0 1000 = 80 ∧
    ({ pts := 7200, dts := 3600, duration := 1800, timebase := 90000 } : AVPacket).convertDts 0 1000 = 40 ∧
    ({ pts := 7200, dts := 3600, duration := 1800, timebase := 90000 } : AVPacket).getDuration 0 1000 = 20 ∧
    ({ pts := 7200, dts := 3600, duration := 1800, timebase := 90000 } : AVPacket).getPtsDtsDelta 0 1000 = 40 := by
  refine ⟨?_, ?_, ?_, ?_⟩ <;> decide +kernel
example : |(7200 : Int) * 1000| ≤ 2 ^ 48 * |(90000 : Int)| := by decide

end Avf
