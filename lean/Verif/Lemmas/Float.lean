import Verif.Model.Float
import Mathlib.Tactic.Linarith
import Mathlib.Tactic.FieldSimp
import Mathlib.Tactic.Ring
import Mathlib.Tactic.NormNum
import Mathlib.Algebra.Order.Field.Power
/-! # Lemmas about rounding to `float64` -/
namespace Avf

theorem roundEven_int (n : ℤ) : roundEven n = n := by
  unfold roundEven
  rw [Int.floor_intCast, if_pos (by norm_num)]

theorem roundEven_le_of_le_int {x : ℚ} {n : ℤ} (h : x ≤ n) : roundEven x ≤ n := by
  unfold roundEven
  have h1 : ⌊x⌋ ≤ n := by
    have := Int.floor_le x
    exact_mod_cast this.trans h
  have h2 := Int.floor_le x
  rcases eq_or_lt_of_le h1 with h3 | h3
  · have : x = ⌊x⌋ := le_antisymm (by rw [h3]; exact h) h2
    rw [if_pos (by linarith)]
    exact h1
  · split_ifs <;> omega

theorem le_roundEven_of_int_le {x : ℚ} {n : ℤ} (h : n ≤ x) : n ≤ roundEven x := by
  unfold roundEven
  have h1 : n ≤ ⌊x⌋ := Int.le_floor.mpr h
  split_ifs <;> omega

theorem roundEven_err (x : ℚ) : |roundEven x - x| ≤ 1 / 2 := by
  unfold roundEven
  have h1 := Int.floor_le x
  have h2 := Int.lt_floor_add_one x
  rw [abs_le]
  split_ifs <;> push_cast <;> constructor <;> linarith

theorem roundEven_mono {x y : ℚ} (h : x ≤ y) : roundEven x ≤ roundEven y := by
  have hf : ⌊x⌋ ≤ ⌊y⌋ := Int.floor_le_floor h
  rcases eq_or_lt_of_le hf with h1 | h1
  · unfold roundEven
    rw [h1]
    split_ifs <;> first | omega | (exfalso; linarith)
  · have h2 : roundEven x ≤ ⌊x⌋ + 1 := roundEven_le_of_le_int (by
      push_cast; exact (Int.lt_floor_add_one x).le)
    have h3 : ⌊y⌋ ≤ roundEven y := le_roundEven_of_int_le (Int.floor_le y)
    omega

theorem roundEven_neg (x : ℚ) : roundEven (-x) = - roundEven x := by
  have hx1 := Int.floor_le x
  have hx2 := Int.lt_floor_add_one x
  rcases eq_or_lt_of_le hx1 with h | h
  · rw [← h]
    rw [← Int.cast_neg, roundEven_int, roundEven_int]
  · have hn : ⌊-x⌋ = -⌊x⌋ - 1 := by
      rw [Int.floor_eq_iff]
      push_cast
      constructor <;> linarith
    unfold roundEven
    rw [hn]
    push_cast
    split_ifs <;> first | omega | (exfalso; linarith)

theorem ulp_pos (x : ℚ) : 0 < ulp x := by unfold ulp; positivity

theorem ulp_neg (x : ℚ) : ulp (-x) = ulp x := by unfold ulp; rw [abs_neg]

theorem f64_zero : f64 0 = 0 := by simp [f64]

theorem f64_neg (x : ℚ) : f64 (-x) = - f64 x := by
  unfold f64
  by_cases h : x = 0
  · simp [h]
  · rw [if_neg (by simpa using h), if_neg h, ulp_neg, neg_div, roundEven_neg]
    push_cast; ring

theorem two_zpow_split (e : ℤ) : (2 : ℚ) ^ e = 2 ^ 52 * 2 ^ (e - 52) := by
  rw [← zpow_natCast (2 : ℚ) 52, ← zpow_add₀ (by norm_num)]
  congr 1; push_cast; ring

/-- The significand of a positive number lies in `[2^52, 2^53)`. -/
theorem sig_bounds {x : ℚ} (hx : x ≠ 0) : 2 ^ 52 ≤ |x| / ulp x ∧ |x| / ulp x < 2 ^ 53 := by
  have hp : 0 < |x| := abs_pos.mpr hx
  have h1 := Int.zpow_log_le_self (b := 2) (by norm_num) hp
  have h2 := Int.lt_zpow_succ_log_self (b := 2) (by norm_num) |x|
  have hu := ulp_pos x
  push_cast at h1 h2
  constructor
  · rw [le_div_iff₀ hu]
    unfold ulp; rw [← two_zpow_split]; exact h1
  · rw [div_lt_iff₀ hu]
    unfold ulp
    rw [zpow_add_one₀ (by norm_num), two_zpow_split] at h2
    linarith

theorem f64_of_ne {x : ℚ} (h : x ≠ 0) : f64 x = roundEven (x / ulp x) * ulp x := by unfold f64; rw [if_neg h]

theorem f64_nonneg {x : ℚ} (h : 0 ≤ x) : 0 ≤ f64 x := by
  rcases eq_or_lt_of_le h with h | h
  · rw [← h, f64_zero]
  · rw [f64_of_ne h.ne']
    have : (0 : ℤ) ≤ roundEven (x / ulp x) := le_roundEven_of_int_le (by
      push_cast; exact div_nonneg h.le (ulp_pos x).le)
    exact mul_nonneg (by exact_mod_cast this) (ulp_pos x).le

theorem f64_binade {x : ℚ} (h : 0 < x) : 2 ^ (Int.log 2 x) ≤ f64 x ∧ f64 x ≤ 2 ^ (Int.log 2 x + 1) := by
  obtain ⟨h1, h2⟩ := sig_bounds h.ne'
  rw [abs_of_pos h] at h1 h2
  have hu := ulp_pos x
  have hu' : ulp x = 2 ^ (Int.log 2 x - 52) := by unfold ulp; rw [abs_of_pos h]
  rw [f64_of_ne h.ne']
  constructor
  · have : ((2 : ℤ) ^ 52) ≤ roundEven (x / ulp x) := le_roundEven_of_int_le (by push_cast; exact h1)
    rw [two_zpow_split, ← hu']
    exact mul_le_mul_of_nonneg_right (by exact_mod_cast this) hu.le
  · have : roundEven (x / ulp x) ≤ ((2 : ℤ) ^ 53) := roundEven_le_of_le_int (by push_cast; exact h2.le)
    rw [zpow_add_one₀ (by norm_num), two_zpow_split, ← hu']
    have : (roundEven (x / ulp x) : ℚ) ≤ 2 ^ 53 := by exact_mod_cast this
    nlinarith

theorem f64_mono {x y : ℚ} (h : x ≤ y) : f64 x ≤ f64 y := by
  have pos : ∀ {x y : ℚ}, 0 < x → x ≤ y → f64 x ≤ f64 y := by
    intro x y hx h
    have hy := lt_of_lt_of_le hx h
    have hl : Int.log 2 x ≤ Int.log 2 y := Int.log_mono_right hx h
    rcases eq_or_lt_of_le hl with h1 | h1
    · have hu : ulp x = ulp y := by unfold ulp; rw [abs_of_pos hx, abs_of_pos hy, h1]
      rw [f64_of_ne hx.ne', f64_of_ne hy.ne', hu]
      have : roundEven (x / ulp y) ≤ roundEven (y / ulp y) :=
        roundEven_mono (div_le_div_of_nonneg_right h (ulp_pos y).le)
      exact mul_le_mul_of_nonneg_right (by exact_mod_cast this) (ulp_pos y).le
    · calc f64 x ≤ 2 ^ (Int.log 2 x + 1) := (f64_binade hx).2
        _ ≤ 2 ^ (Int.log 2 y) := zpow_le_zpow_right₀ (by norm_num) (by omega)
        _ ≤ f64 y := (f64_binade hy).1
  rcases lt_trichotomy x 0 with hx | hx | hx
  · rcases lt_or_ge y 0 with hy | hy
    · have := pos (x := -y) (y := -x) (by linarith) (by linarith)
      rw [f64_neg, f64_neg] at this; linarith
    · have h1 := f64_nonneg hy
      have h2 := f64_nonneg (x := -x) (by linarith)
      rw [f64_neg] at h2; linarith
  · rw [hx, f64_zero]; exact f64_nonneg (hx ▸ h)
  · exact pos hx h

/-- The relative rounding error is at most 2^-53. -/
theorem f64_err (x : ℚ) : |f64 x - x| ≤ |x| / 2 ^ 53 := by
  by_cases h : x = 0
  · simp [h, f64_zero]
  · have hu := ulp_pos x
    rw [f64_of_ne h]
    have e := roundEven_err (x / ulp x)
    have hs := (sig_bounds h).1
    rw [le_div_iff₀ hu] at hs
    have : (roundEven (x / ulp x) : ℚ) * ulp x - x = (roundEven (x / ulp x) - x / ulp x) * ulp x := by
      field_simp
    rw [this, abs_mul, abs_of_pos hu, le_div_iff₀ (by norm_num)]
    nlinarith

/-- Numbers with at most 53 significant bits are not changed. -/
theorem f64_exact (m : ℤ) (e : ℤ) (hm : |m| ≤ 2 ^ 53) : f64 (m * 2 ^ e) = m * 2 ^ e := by
  by_cases h0 : m = 0
  · simp [h0, f64_zero]
  have h2e : (0 : ℚ) < 2 ^ e := by positivity
  have hm0 : (m : ℚ) ≠ 0 := by exact_mod_cast h0
  have hx : (m : ℚ) * 2 ^ e ≠ 0 := mul_ne_zero hm0 h2e.ne'
  rw [f64_of_ne hx]
  have hu := ulp_pos ((m : ℚ) * 2 ^ e)
  suffices h : ∃ k : ℤ, (m : ℚ) * 2 ^ e / ulp ((m : ℚ) * 2 ^ e) = k by
    obtain ⟨k, hk⟩ := h
    rw [hk, roundEven_int, ← hk, div_mul_cancel₀ _ hu.ne']
  -- the exponent of the last place is at most `e`, or `m` is a power of two
  have habs : |(m : ℚ) * 2 ^ e| = |(m : ℚ)| * 2 ^ e := by rw [abs_mul, abs_of_pos h2e]
  have hle : |(m : ℚ)| ≤ 2 ^ 53 := by exact_mod_cast hm
  have hlog1 := Int.zpow_log_le_self (b := 2) (R := ℚ) (by norm_num) (abs_pos.mpr hx)
  push_cast at hlog1
  rcases le_or_gt (Int.log 2 |(m : ℚ) * 2 ^ e|) (e + 52) with hl | hl
  · obtain ⟨k, hk⟩ := Int.eq_ofNat_of_zero_le (a := e + 52 - Int.log 2 |(m : ℚ) * 2 ^ e|) (by omega)
    refine ⟨m * 2 ^ k, ?_⟩
    unfold ulp
    have : (2 : ℚ) ^ e = 2 ^ k * 2 ^ (Int.log 2 |(m : ℚ) * 2 ^ e| - 52) := by
      rw [← zpow_natCast (2 : ℚ) k, ← zpow_add₀ (by norm_num)]
      congr 1; omega
    rw [div_eq_iff (by positivity)]
    conv => lhs; rw [this]
    push_cast; ring
  · -- `2^(e+53) ≤ |m| 2^e` forces `|m| = 2^53`
    have h53 : (2 : ℚ) ^ (e + 53) ≤ |(m : ℚ)| * 2 ^ e := (zpow_le_zpow_right₀ (by norm_num) (by omega)).trans (hlog1.trans_eq habs)
    have hz : (2 : ℚ) ^ (e + 53) = 2 ^ 53 * 2 ^ e := by
      rw [zpow_add₀ (by norm_num), mul_comm]; norm_num
    rw [hz] at h53
    have hge : (2 : ℚ) ^ 53 ≤ |(m : ℚ)| := le_of_mul_le_mul_right h53 h2e
    have heq : |(m : ℚ)| = 2 ^ 53 := le_antisymm hle hge
    have hlog : Int.log 2 |(m : ℚ) * 2 ^ e| = e + 53 := by
      rw [habs, heq, ← hz]
      have := Int.log_zpow (R := ℚ) (b := 2) (by norm_num) (e + 53)
      push_cast at this
      exact this
    unfold ulp
    rw [hlog]
    have hz2 : (2 : ℚ) ^ e = 2 ^ (e + 53 - 52) / 2 := by
      rw [eq_div_iff (by norm_num), ← zpow_add_one₀ (by norm_num)]
      congr 1; ring
    rcases abs_eq (by norm_num : (0 : ℚ) ≤ 2 ^ 53) |>.mp heq with h | h
    · refine ⟨2 ^ 52, ?_⟩
      rw [h, div_eq_iff (by positivity), hz2]; push_cast; ring
    · refine ⟨-2 ^ 52, ?_⟩
      rw [h, div_eq_iff (by positivity), hz2]; push_cast; ring

theorem f64_int (m : ℤ) (hm : |m| ≤ 2 ^ 53) : f64 m = m := by
  have := f64_exact m 0 hm
  simpa using this

end Avf
