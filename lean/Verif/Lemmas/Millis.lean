import Verif.Lemmas.ConvertTs
import Mathlib.Tactic.Linarith
import Mathlib.Tactic.NormNum
import Mathlib.Tactic.FieldSimp
/-! # From the time base 90000 to milliseconds -/
namespace Avf

/-- The `float64` next to 1/90 is a little more than 1/90. -/
theorem interval_ms : f64 (f64 (1000 : Int) / f64 (90000 : Int)) = 6405119470038039 / 2 ^ 59 := by decide +kernel

theorem tsProduct_ms_pos {ts : Int} (h0 : 0 ≤ ts) (h1 : ts ≤ 2 ^ 51) : truncQ (tsProduct ts 90000 1000) = ts / 90 := by
  unfold tsProduct
  rw [interval_ms, f64_int ts (by rw [abs_of_nonneg h0]; omega)]
  set y : ℚ := (ts : ℚ) * (6405119470038039 / 2 ^ 59) with hy
  have hq0 : 0 ≤ ts / 90 := by omega
  have hts : (ts : ℚ) = 90 * ((ts / 90 : Int) : ℚ) + ((ts % 90 : Int) : ℚ) := by
    have : ts = 90 * (ts / 90) + ts % 90 := by omega
    exact_mod_cast this
  have hr0 : (0 : ℚ) ≤ ((ts % 90 : Int) : ℚ) := by exact_mod_cast (by omega : 0 ≤ ts % 90)
  have hr1 : ((ts % 90 : Int) : ℚ) ≤ 89 := by exact_mod_cast (by omega : ts % 90 ≤ 89)
  have hqb : ((ts / 90 : Int) : ℚ) ≤ 2 ^ 45 := by exact_mod_cast (by omega : ts / 90 ≤ 2 ^ 45)
  have hqn : (0 : ℚ) ≤ ((ts / 90 : Int) : ℚ) := by exact_mod_cast hq0
  have hlo : ((ts / 90 : Int) : ℚ) ≤ y := by rw [hy, hts]; norm_num; linarith
  have hhi : y ≤ ((ts / 90 : Int) : ℚ) + 995 / 1000 - 1 / 2 ^ 10 := by rw [hy, hts]; norm_num at hqb ⊢; linarith
  have hlo' : ((ts / 90 : Int) : ℚ) ≤ f64 y := by
    have := f64_mono hlo
    rwa [f64_int _ (by rw [abs_of_nonneg hq0]; omega)] at this
  have hhi' : f64 y < ((ts / 90 : Int) : ℚ) + 1 := by
    have he := (abs_le.1 (f64_err y)).2
    rw [abs_of_nonneg (hqn.trans hlo)] at he
    norm_num at he hhi hqb ⊢
    linarith
  unfold truncQ
  rw [if_pos (hqn.trans hlo')]
  exact Int.floor_eq_iff.2 ⟨hlo', hhi'⟩

/-- From 90000 to 1000 the conversion is exact truncation. -/
theorem convertTs_ms (undef : Int) {ts : Int} (h : |ts| ≤ 2 ^ 51) : convertTs undef ts 90000 1000 = ts.tdiv 90 := by
  have h' := abs_le.1 h
  rw [convertTs_eq undef ts 90000 1000 (by decide) (by
    rw [abs_mul]
    norm_num
    have := abs_nonneg ts
    omega)]
  rcases Int.le_total 0 ts with h0 | h0
  · rw [tsProduct_ms_pos h0 h'.2, Int.tdiv_eq_ediv_of_nonneg h0]
  · have := tsProduct_ms_pos (ts := -ts) (by omega) (by omega)
    rw [tsProduct_neg, truncQ_neg] at this
    have e : ts.tdiv 90 = -((-ts) / 90) := by
      rw [← Int.tdiv_eq_ediv_of_nonneg (by omega : 0 ≤ -ts), Int.neg_tdiv, neg_neg]
    rw [e, ← this, neg_neg]

end Avf
