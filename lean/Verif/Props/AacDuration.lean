import Verif.Model.Utils
import Verif.Lemmas.Float
/-! # C80: the duration of an AAC frame -/
namespace Avf

/-- Numbers with at most 24 significant bits are not changed. -/
theorem f32_exact (m : ℤ) (e : ℤ) (hm : |m| < 2 ^ 24) : f32 (m * 2 ^ e) = m * 2 ^ e := by
  by_cases h0 : m = 0
  · simp [h0, f32]
  have h2e : (0 : ℚ) < 2 ^ e := by positivity
  have hm0 : (m : ℚ) ≠ 0 := by exact_mod_cast h0
  have hx : (m : ℚ) * 2 ^ e ≠ 0 := mul_ne_zero hm0 h2e.ne'
  unfold f32
  rw [if_neg hx]
  have hlt : |(m : ℚ) * 2 ^ e| < 2 ^ (e + 24) := by
    rw [abs_mul, abs_of_pos h2e, zpow_add₀ (by norm_num), mul_comm]
    refine mul_lt_mul_of_pos_left ?_ h2e
    have : (|m| : ℚ) < 2 ^ 24 := by exact_mod_cast hm
    simpa using this
  have hl : Int.log 2 |(m : ℚ) * 2 ^ e| < e + 24 := by
    have h1 := Int.zpow_log_le_self (b := 2) (R := ℚ) (by norm_num) (abs_pos.mpr hx)
    push_cast at h1
    by_contra hge
    have := zpow_le_zpow_right₀ (a := (2 : ℚ)) (by norm_num) (not_lt.1 hge)
    linarith
  obtain ⟨k, hk⟩ := Int.eq_ofNat_of_zero_le (a := e + 23 - Int.log 2 |(m : ℚ) * 2 ^ e|) (by omega)
  have hsplit : (2 : ℚ) ^ e = 2 ^ k * 2 ^ (Int.log 2 |(m : ℚ) * 2 ^ e| - 23) := by
    rw [← zpow_natCast (2 : ℚ) k, ← zpow_add₀ (by norm_num)]
    congr 1; omega
  have hq : (m : ℚ) * 2 ^ e / 2 ^ (Int.log 2 |(m : ℚ) * 2 ^ e| - 23) = ((m * 2 ^ k : ℤ) : ℚ) := by
    rw [div_eq_iff (by positivity)]
    conv => lhs; rw [hsplit]
    push_cast; ring
  rw [hq, roundEven_int, ← hq, div_mul_cancel₀ _ (by positivity)]

/-- **C80**: the result is the number of frames of 1024 samples in a second, exactly, for all rates below 2^24. -/
theorem C80_frames_per_second (r : Int) (h : |r| < 2 ^ 24) : computeAACFrameDuration r = (r : ℚ) / 1024 := by
  unfold computeAACFrameDuration
  have h1 : f32 (r : ℚ) = r := by simpa using f32_exact r 0 h
  have h2 : f32 (1024 : ℚ) = 1024 := by
    have := f32_exact 1024 0 (by norm_num)
    simpa using this
  have h3 := f32_exact r (-10) h
  have e : (r : ℚ) * 2 ^ (-10 : ℤ) = r / 1024 := by norm_num [div_eq_mul_inv]
  rw [h1, h2, ← e, h3]

example : computeAACFrameDuration 44100 = 44100 / 1024 := by
  simpa using C80_frames_per_second 44100 (by norm_num)

/-- **C80** as the name says: in some unit of time, up to one part in a thousand, the result is the duration of a frame of 1024
samples at the given rate. -/
def C80_claim : Prop := ∃ unit : ℚ, 0 < unit ∧ ∀ r : Int, 0 < r → r ≤ 96000 →
  |computeAACFrameDuration r - unit * (1024 / r)| ≤ unit * (1024 / r) / 1000

/-- **C80** is false of the code, whatever the unit: a higher rate gives a larger result. -/
theorem C80_claim_violated : ¬ C80_claim := by
  rintro ⟨u, hu, h⟩
  have h1 := h 8000 (by norm_num) (by norm_num)
  have h2 := h 16000 (by norm_num) (by norm_num)
  rw [C80_frames_per_second _ (by norm_num)] at h1 h2
  rw [abs_le] at h1 h2
  push_cast at h1 h2
  norm_num at h1 h2
  linarith [h1.1, h1.2, h2.1, h2.2]

end Avf
