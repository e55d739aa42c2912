import Verif.Model.Utils
import Verif.Lemmas.Float
/-! # Timestamp conversion -/
namespace Avf

theorem f64_rel (x : ℚ) : ∃ d : ℚ, |d| ≤ 1 / 2 ^ 53 ∧ f64 x = x * (1 + d) := by
  by_cases h : x = 0
  · exact ⟨0, by norm_num, by simp [h, f64_zero]⟩
  · refine ⟨(f64 x - x) / x, ?_, by field_simp; ring⟩
    have := f64_err x
    rw [abs_div, div_le_iff₀ (abs_pos.mpr h)]
    linarith

theorem f64_ne_zero {x : ℚ} (h : x ≠ 0) : f64 x ≠ 0 := by
  obtain ⟨d, h1, h2⟩ := f64_rel x
  rw [h2]
  have h3 := abs_le.mp h1
  have : (0 : ℚ) < 1 + d := by
    have := h3.1
    norm_num at this ⊢
    linarith
  positivity

/-- The five roundings together. -/
theorem factor_bound (a b c e f : ℚ) (ha : |a| ≤ 1 / 2 ^ 53) (hb : |b| ≤ 1 / 2 ^ 53) (hc : |c| ≤ 1 / 2 ^ 53)
    (he : |e| ≤ 1 / 2 ^ 53) (hf : |f| ≤ 1 / 2 ^ 53) :
    |(1 + a) / (1 + b) * (1 + c) * (1 + e) * (1 + f) - 1| ≤ 1 / 2 ^ 50 := by
  obtain ⟨a1, a2⟩ := abs_le.mp ha
  obtain ⟨b1, b2⟩ := abs_le.mp hb
  obtain ⟨c1, c2⟩ := abs_le.mp hc
  obtain ⟨e1, e2⟩ := abs_le.mp he
  obtain ⟨f1, f2⟩ := abs_le.mp hf
  set u : ℚ := 1 / 2 ^ 53 with hu
  have u1 : 0 < 1 - u := by norm_num [hu]
  have hbp : 0 < 1 + b := by linarith
  have hap : 0 < 1 + a := by linarith
  have hcp : 0 < 1 + c := by linarith
  have hep : 0 < 1 + e := by linarith
  have hfp : 0 < 1 + f := by linarith
  have q1 : (1 + a) / (1 + b) ≤ (1 + u) / (1 - u) := div_le_div₀ (by linarith) (by linarith) u1 (by linarith)
  have q2 : (1 - u) / (1 + u) ≤ (1 + a) / (1 + b) := div_le_div₀ (by linarith) (by linarith) hbp (by linarith)
  have q0 : 0 ≤ (1 + a) / (1 + b) := by positivity
  have up : (1 + a) / (1 + b) * (1 + c) * (1 + e) * (1 + f) ≤ (1 + u) / (1 - u) * (1 + u) * (1 + u) * (1 + u) := by
    gcongr
  have lo : (1 - u) / (1 + u) * (1 - u) * (1 - u) * (1 - u) ≤ (1 + a) / (1 + b) * (1 + c) * (1 + e) * (1 + f) := by
    gcongr <;> linarith
  have k1 : (1 + u) / (1 - u) * (1 + u) * (1 + u) * (1 + u) ≤ 1 + 1 / 2 ^ 50 := by norm_num [hu]
  have k2 : 1 - 1 / 2 ^ 50 ≤ (1 - u) / (1 + u) * (1 - u) * (1 - u) * (1 - u) := by norm_num [hu]
  rw [abs_le]
  constructor <;> linarith

/-- The `float64` product that is truncated. -/
def tsProduct (ts src dst : Int) : ℚ := f64 (f64 ts * f64 (f64 dst / f64 src))

theorem tsProduct_err (ts src dst : Int) (hs : src ≠ 0) :
    |tsProduct ts src dst - (ts : ℚ) * dst / src| ≤ |(ts : ℚ) * dst / src| / 2 ^ 50 := by
  unfold tsProduct
  obtain ⟨a, ha, ea⟩ := f64_rel (dst : ℚ)
  obtain ⟨b, hb, eb⟩ := f64_rel (src : ℚ)
  obtain ⟨e, he, ee⟩ := f64_rel (ts : ℚ)
  obtain ⟨c, hc, ec⟩ := f64_rel (f64 dst / f64 src)
  obtain ⟨f, hf, ef⟩ := f64_rel (f64 ts * f64 (f64 dst / f64 src))
  rw [ef, ec, ea, eb, ee]
  have key := factor_bound a b c e f ha hb hc he hf
  have hb0 : 1 + b ≠ 0 := by
    have := (abs_le.mp hb).1
    have h : (0 : ℚ) < 1 + b := by norm_num at this ⊢; linarith
    exact h.ne'
  have hs' : (src : ℚ) ≠ 0 := by exact_mod_cast hs
  have : (ts : ℚ) * (1 + e) * (↑dst * (1 + a) / (↑src * (1 + b)) * (1 + c)) * (1 + f) - ↑ts * ↑dst / ↑src =
      (ts : ℚ) * dst / src * ((1 + a) / (1 + b) * (1 + c) * (1 + e) * (1 + f) - 1) := by
    field_simp; try ring
  rw [this, abs_mul]
  calc _ ≤ |(ts : ℚ) * dst / src| * (1 / 2 ^ 50) := by gcongr
    _ = _ := by ring

/-- Truncation towards zero. -/
def truncQ (x : ℚ) : Int := if 0 ≤ x then ⌊x⌋ else ⌈x⌉

theorem truncQ_neg (x : ℚ) : truncQ (-x) = - truncQ x := by
  unfold truncQ
  rcases lt_trichotomy x 0 with h | h | h
  · rw [if_pos (by linarith), if_neg (by linarith), Int.floor_neg]
  · simp [h]
  · rw [if_neg (by linarith), if_pos (by linarith), Int.ceil_neg]

theorem truncQ_mono {x y : ℚ} (h : x ≤ y) : truncQ x ≤ truncQ y := by
  unfold truncQ
  split_ifs with h1 h2 h2
  · exact Int.floor_le_floor h
  · linarith
  · have a : ⌈x⌉ ≤ 0 := Int.ceil_le.mpr (by push_cast; linarith)
    have b : 0 ≤ ⌊y⌋ := Int.floor_nonneg.mpr h2
    omega
  · exact Int.ceil_le_ceil h

theorem truncQ_int (n : Int) : truncQ n = n := by unfold truncQ; simp

theorem truncQ_err (x : ℚ) : |(truncQ x : ℚ) - x| < 1 := by
  unfold truncQ
  rw [abs_lt]
  split_ifs
  · have := Int.floor_le x; have := Int.lt_floor_add_one x; constructor <;> linarith
  · have := Int.le_ceil x; have := Int.ceil_lt_add_one x; constructor <;> linarith

theorem truncQ_abs (x : ℚ) : |(truncQ x : ℚ)| ≤ |x| := by
  unfold truncQ
  split_ifs with h
  · have h0 : (0 : ℚ) ≤ ⌊x⌋ := by exact_mod_cast Int.floor_nonneg.mpr h
    rw [abs_of_nonneg h, abs_of_nonneg h0]; exact Int.floor_le x
  · have h0 : (⌈x⌉ : ℚ) ≤ 0 := by exact_mod_cast Int.ceil_le.mpr (by push_cast; linarith)
    rw [abs_of_neg (by linarith : x < 0), abs_of_nonpos h0]
    have := Int.le_ceil x
    linarith

/-- Within the range that is representable the result is the truncated product. -/
theorem convertTs_eq (undef ts src dst : Int) (hs : src ≠ 0) (h : |ts * dst| ≤ 2 ^ 62 * |src|) :
    convertTs undef ts src dst = truncQ (tsProduct ts src dst) := by
  have hs' : (0 : ℚ) < |(src : ℚ)| := abs_pos.mpr (by exact_mod_cast hs)
  have hx : |(ts : ℚ) * dst / src| ≤ 2 ^ 62 := by
    rw [abs_div, div_le_iff₀ hs']
    exact_mod_cast h
  have e := tsProduct_err ts src dst hs
  have hp : |tsProduct ts src dst| ≤ 2 ^ 62 + 2 ^ 12 := by
    have := abs_sub_abs_le_abs_sub (tsProduct ts src dst) ((ts : ℚ) * dst / src)
    have : |(ts : ℚ) * dst / src| / 2 ^ 50 ≤ 2 ^ 12 := by
      rw [div_le_iff₀ (by positivity)]; norm_num; norm_num at hx; exact hx
    linarith
  have ht := (truncQ_abs (tsProduct ts src dst)).trans hp
  have ht' := abs_le.mp ht
  have r1 : -2 ^ 63 ≤ truncQ (tsProduct ts src dst) := by
    have : (-2 ^ 63 : ℚ) ≤ truncQ (tsProduct ts src dst) := by norm_num at ht' ⊢; linarith [ht'.1]
    exact_mod_cast this
  have r2 : truncQ (tsProduct ts src dst) < 2 ^ 63 := by
    have : (truncQ (tsProduct ts src dst) : ℚ) < 2 ^ 63 := by norm_num at ht' ⊢; linarith [ht'.2]
    exact_mod_cast this
  unfold convertTs f64ToInt64
  rw [if_neg hs]
  show (if -2 ^ 63 ≤ truncQ (tsProduct ts src dst) ∧ truncQ (tsProduct ts src dst) < 2 ^ 63 then truncQ (tsProduct ts src dst) else undef) = _
  rw [if_pos ⟨r1, r2⟩]

theorem tsProduct_neg (ts src dst : Int) : tsProduct (-ts) src dst = - tsProduct ts src dst := by
  unfold tsProduct
  push_cast
  rw [f64_neg, neg_mul, f64_neg]

theorem tsProduct_mono {ts ts' src dst : Int} (h : ts ≤ ts') (hs : 0 < src) (hd : 0 ≤ dst) :
    tsProduct ts src dst ≤ tsProduct ts' src dst := by
  unfold tsProduct
  apply f64_mono
  have hd' : (0 : ℚ) ≤ f64 dst := f64_nonneg (by exact_mod_cast hd)
  have hs' : (0 : ℚ) ≤ f64 src := f64_nonneg (by exact_mod_cast hs.le)
  exact mul_le_mul_of_nonneg_right (f64_mono (by exact_mod_cast h)) (f64_nonneg (div_nonneg hd' hs'))

/-- No rounding happens when the source time base divides the destination time base. -/
theorem tsProduct_mul (ts src k : Int) (hs : src ≠ 0) (hs53 : |src| ≤ 2 ^ 53) (hk : |k * src| ≤ 2 ^ 53) (ht : |ts| ≤ 2 ^ 53)
    (htk : |ts * k| ≤ 2 ^ 53) : tsProduct ts src (k * src) = (ts * k : Int) := by
  have hs' : (src : ℚ) ≠ 0 := by exact_mod_cast hs
  have hk' : |k| ≤ 2 ^ 53 := by
    rw [abs_mul] at hk
    have : 1 ≤ |src| := Int.one_le_abs hs
    have := abs_nonneg k
    nlinarith
  unfold tsProduct
  rw [f64_int _ hk, f64_int _ hs53, f64_int _ ht]
  have : ((k * src : Int) : ℚ) / src = (k : Int) := by push_cast; field_simp
  rw [this, f64_int _ hk']
  have := f64_int _ htk
  push_cast at this ⊢
  exact this

theorem tsProduct_same (ts src : Int) (hs : src ≠ 0) (ht : |ts| ≤ 2 ^ 53) : tsProduct ts src src = ts := by
  have hs' : f64 (src : ℚ) ≠ 0 := f64_ne_zero (by exact_mod_cast hs)
  unfold tsProduct
  have h1 : f64 (1 : ℚ) = 1 := by simpa using f64_int 1 (by norm_num)
  rw [div_self hs', h1, mul_one, f64_int _ ht, f64_int _ ht]

end Avf
