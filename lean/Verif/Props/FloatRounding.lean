import Verif.Lemmas.FloatSpec
import Verif.Model.Utils
import Verif.Model.Sps
/-!
# C96: arithmetic in `float64` and `float32`

The model computes with rational numbers and rounds after each operation. Here: for all values that can reach them, the
floating-point expressions of the code (/repo/packet_utils.go:9-12, /repo/avc/sps.go:331, /repo/utils/aac_util.go:268-270) stay
within the finite numbers of IEEE 754, each operation giving the number of the format nearest to the exact result, ties to even.
-/
namespace Avf

theorem f64_rounds {x : ℚ} (lo hi : ℤ) (h : x = 0 ∨ (2 ^ lo ≤ |x| ∧ |x| < 2 ^ hi)) (hlo : -1022 ≤ lo) (hhi : hi ≤ 1023) :
    binary64.Rounds x (f64 x) := by
  rw [f64_eq_rnd]
  exact rounds_rnd (f := binary64) (by decide) (by decide) lo hi (by simp only [binary64]; push_cast; omega)
    (by simp only [binary64]; push_cast; omega) h

theorem f32_rounds {x : ℚ} (lo hi : ℤ) (h : x = 0 ∨ (2 ^ lo ≤ |x| ∧ |x| < 2 ^ hi)) (hlo : -126 ≤ lo) (hhi : hi ≤ 127) :
    binary32.Rounds x (f32 x) := by
  rw [f32_eq_rnd]
  exact rounds_rnd (f := binary32) (by decide) (by decide) lo hi (by simp only [binary32]; push_cast; omega)
    (by simp only [binary32]; push_cast; omega) h

/-- Values of `int64` and `int`. -/
def IsInt64 (n : ℤ) : Prop := -2 ^ 63 ≤ n ∧ n < 2 ^ 63

instance (n : ℤ) : Decidable (IsInt64 n) := inferInstanceAs (Decidable (_ ∧ _))

theorem IsInt64.range {n : ℤ} (h : IsInt64 n) : (n : ℚ) = 0 ∨ ((2 : ℚ) ^ (0 : ℤ) ≤ |(n : ℚ)| ∧ |(n : ℚ)| ≤ 2 ^ (63 : ℤ)) := by
  by_cases h0 : n = 0
  · exact .inl (by exact_mod_cast h0)
  · refine .inr ⟨?_, ?_⟩
    · rw [zpow_zero]
      exact_mod_cast Int.one_le_abs h0
    · have : |n| ≤ 2 ^ 63 := abs_le.mpr ⟨h.1, h.2.le⟩
      have h2 : |(n : ℚ)| ≤ 2 ^ 63 := by exact_mod_cast this
      exact_mod_cast h2

theorem range_lt {x : ℚ} {lo hi : ℤ} (h : x = 0 ∨ (2 ^ lo ≤ |x| ∧ |x| ≤ 2 ^ hi)) : x = 0 ∨ (2 ^ lo ≤ |x| ∧ |x| < 2 ^ (hi + 1)) := by
  rcases h with h | ⟨h1, h2⟩
  · exact .inl h
  · exact .inr ⟨h1, lt_of_le_of_lt h2 (zpow_lt_zpow_right₀ (by norm_num) (by omega))⟩

theorem quot_range {x y : ℚ} {a b c d : ℤ} (hx : x = 0 ∨ (2 ^ a ≤ |x| ∧ |x| ≤ 2 ^ b)) (hy : (2 : ℚ) ^ c ≤ |y| ∧ |y| ≤ 2 ^ d) :
    x / y = 0 ∨ (2 ^ (a - d) ≤ |x / y| ∧ |x / y| ≤ 2 ^ (b - c)) := by
  rcases hx with h | ⟨h1, h2⟩
  · exact .inl (by rw [h, zero_div])
  · right
    have hc : (0 : ℚ) < 2 ^ c := by positivity
    have hyp : 0 < |y| := lt_of_lt_of_le hc hy.1
    rw [abs_div, zpow_sub₀ (by norm_num), zpow_sub₀ (by norm_num)]
    exact ⟨div_le_div₀ (abs_nonneg _) h1 hyp hy.2, div_le_div₀ (by positivity) h2 hc hy.1⟩

theorem prod_range {x y : ℚ} {a b c d : ℤ} (hx : x = 0 ∨ (2 ^ a ≤ |x| ∧ |x| ≤ 2 ^ b)) (hy : y = 0 ∨ ((2 : ℚ) ^ c ≤ |y| ∧ |y| ≤ 2 ^ d)) :
    x * y = 0 ∨ (2 ^ (a + c) ≤ |x * y| ∧ |x * y| ≤ 2 ^ (b + d)) := by
  rcases hx with h | ⟨h1, h2⟩
  · exact .inl (by rw [h, zero_mul])
  rcases hy with h | ⟨h3, h4⟩
  · exact .inl (by rw [h, mul_zero])
  · right
    rw [abs_mul, zpow_add₀ (by norm_num), zpow_add₀ (by norm_num)]
    exact ⟨mul_le_mul h1 h3 (by positivity) (abs_nonneg _), mul_le_mul h2 h4 (abs_nonneg _) (by positivity)⟩

/-- A number with one of the forms above is rounded to a number in the same range. -/
theorem rounded_range {f : FloatFormat} (hp : 1 ≤ f.p) {x y : ℚ} (h : f.Rounds x y) {lo hi : ℤ} (h1 : f.emin ≤ lo) (h2 : lo ≤ hi)
    (h3 : hi ≤ f.emax) (hx : x = 0 ∨ (2 ^ lo ≤ |x| ∧ |x| ≤ 2 ^ hi)) : y = 0 ∨ (2 ^ lo ≤ |y| ∧ |y| ≤ 2 ^ hi) := by
  rcases h.between hp h1 h2 h3 hx with ⟨_, h⟩ | ⟨_, h⟩
  · exact .inl h
  · exact .inr h

/-- Truncation towards zero. -/
structure Truncates (r : ℚ) (k : ℤ) : Prop where
  small : |(k : ℚ)| ≤ |r|
  close : |r - k| < 1
  sign : 0 ≤ r * k

/-- `int64(float64(ts) * (float64(dst) / float64(src)))` in IEEE arithmetic, before the final test for overflow: the conversions,
the quotient and the product are rounded, the result is truncated. -/
def ConvertsTo (ts src dst k : ℤ) : Prop :=
  ∃ a b c q r : ℚ, binary64.Rounds ts a ∧ binary64.Rounds dst b ∧ binary64.Rounds src c ∧ c ≠ 0 ∧
    binary64.Rounds (b / c) q ∧ binary64.Rounds (a * q) r ∧ Truncates r k

theorem truncates_model (r : ℚ) : Truncates r (if 0 ≤ r then ⌊r⌋ else ⌈r⌉) := by
  split_ifs with h
  · have h1 := Int.floor_le r
    have h2 := Int.lt_floor_add_one r
    have h3 : (0 : ℚ) ≤ ⌊r⌋ := by exact_mod_cast Int.floor_nonneg.mpr h
    exact ⟨by rw [abs_of_nonneg h3, abs_of_nonneg h]; exact h1, abs_lt.mpr ⟨by linarith, by linarith⟩, mul_nonneg h h3⟩
  · have h := not_le.mp h
    have h1 := Int.le_ceil r
    have h2 := Int.ceil_lt_add_one r
    have h3 : (⌈r⌉ : ℚ) ≤ 0 := by exact_mod_cast Int.ceil_le.mpr (by simpa using h.le)
    exact ⟨by rw [abs_of_nonpos h3, abs_of_neg h]; linarith, abs_lt.mpr ⟨by linarith, by linarith⟩, mul_nonneg_of_nonpos_of_nonpos h.le h3⟩

theorem Truncates.unique {r : ℚ} {k k' : ℤ} (h : Truncates r k) (h' : Truncates r k') : k = k' := by
  have main : ∀ {r : ℚ} {k k' : ℤ}, 0 ≤ r → Truncates r k → Truncates r k' → k ≤ k' := by
    intro r k k' hr h h'
    by_contra hc
    have h1 := (abs_lt.mp h'.close)
    have h2 : (k' : ℚ) + 1 ≤ k := by exact_mod_cast (by omega : k' + 1 ≤ k)
    have h3 := h.small
    rw [abs_of_nonneg hr] at h3
    have h4 := le_abs_self (k : ℚ)
    linarith [h1.2]
  have negate : ∀ {r : ℚ} {k : ℤ}, Truncates r k → Truncates (-r) (-k) := by
    intro r k h
    refine ⟨by push_cast; rw [abs_neg, abs_neg]; exact h.small, ?_, by push_cast; linarith [h.sign]⟩
    have := h.close
    rw [abs_sub_comm] at this
    push_cast
    rwa [show -r - -(k : ℚ) = k - r by ring]
  rcases le_total 0 r with hr | hr
  · exact le_antisymm (main hr h h') (main hr h' h)
  · have a := main (by linarith) (negate h) (negate h')
    have b := main (by linarith) (negate h') (negate h)
    omega

/-- **C96**: IEEE arithmetic gives one result for a timestamp, and it is the one the model gives if it fits `int64`. -/
theorem C96_timestamps (undef ts src dst : ℤ) (hts : IsInt64 ts) (hsrc : IsInt64 src) (hdst : IsInt64 dst) (h0 : src ≠ 0) :
    ∃ k, ConvertsTo ts src dst k ∧ (∀ k', ConvertsTo ts src dst k' → k' = k) ∧
      convertTs undef ts src dst = if IsInt64 k then k else undef := by
  have ra := f64_rounds _ _ (range_lt hts.range) (by norm_num) (by norm_num)
  have rb := f64_rounds _ _ (range_lt hdst.range) (by norm_num) (by norm_num)
  have rc := f64_rounds _ _ (range_lt hsrc.range) (by norm_num) (by norm_num)
  have p64 : 1 ≤ binary64.p := by decide
  have ga := rounded_range p64 ra (by decide) (by decide) (by decide) hts.range
  have gb := rounded_range p64 rb (by decide) (by decide) (by decide) hdst.range
  have gc : f64 (src : ℚ) ≠ 0 ∧ (2 : ℚ) ^ (0 : ℤ) ≤ |f64 (src : ℚ)| ∧ |f64 (src : ℚ)| ≤ 2 ^ (63 : ℤ) := by
    rcases rc.between p64 (by decide) (by decide) (by decide) hsrc.range with ⟨h, _⟩ | ⟨_, h⟩
    · exact absurd (by exact_mod_cast h) h0
    · refine ⟨fun h1 => ?_, h⟩
      rw [h1] at h
      norm_num at h
  have gq := quot_range gb gc.2
  have rq := f64_rounds _ _ (range_lt gq) (by norm_num) (by norm_num)
  have gq' := rounded_range p64 rq (by decide) (by decide) (by decide) gq
  have gr := prod_range ga gq'
  have rr := f64_rounds _ _ (range_lt gr) (by norm_num) (by norm_num)
  refine ⟨_, ⟨_, _, _, _, _, ra, rb, rc, gc.1, rq, rr, truncates_model _⟩, ?_, ?_⟩
  · rintro k' ⟨a, b, c, q, r, h1, h2, h3, _, h5, h6, h7⟩
    have e1 := h1.unique p64 ra
    have e2 := h2.unique p64 rb
    have e3 := h3.unique p64 rc
    subst e1 e2 e3
    have e4 := h5.unique p64 rq
    subst e4
    have e5 := h6.unique p64 rr
    subst e5
    exact h7.unique (truncates_model _)
  · unfold convertTs
    rw [if_neg h0]
    rfl

/-- 100 ticks at 90 kHz are 1 ms: the quotient 1000 / 90000 is not a `float64`, and the result is 1. -/
example : convertTs 0 100 90000 1000 = 1 ∧ (∃ k, ConvertsTo 100 90000 1000 k) :=
  ⟨by decide +kernel, (C96_timestamps 0 100 90000 1000 ⟨by norm_num, by norm_num⟩ ⟨by norm_num, by norm_num⟩
    ⟨by norm_num, by norm_num⟩ (by norm_num)).imp fun _ h => h.1⟩

/-- Two ties: 2^53 + 1 is converted to 2^53, and 2^53 + 3 to 2^53 + 4. -/
example : convertTs 0 (2 ^ 53 + 1) 1 1 = 2 ^ 53 ∧ convertTs 0 (2 ^ 53 + 3) 1 1 = 2 ^ 53 + 4 := by decide +kernel

/-- `int(math.Floor(float64(t) / float64(n) / 2.0))` in IEEE arithmetic. -/
def FrameRate (t n k : ℤ) : Prop :=
  ∃ a b q h : ℚ, binary64.Rounds t a ∧ binary64.Rounds n b ∧ b ≠ 0 ∧ binary64.Rounds (a / b) q ∧ binary64.Rounds (q / 2) h ∧
    k ≤ h ∧ h < k + 1

/-- **C96**: IEEE arithmetic gives one frame rate, and it is the one the model gives. The two numbers are read with 32 bits. -/
theorem C96_frame_rate (undef : ℤ) (t n : Nat) (ht : t < 2 ^ 32) (hn : n < 2 ^ 32) (h0 : n ≠ 0) (k : ℤ) :
    FrameRate t n k ↔ avcFps undef (BitVec.ofNat 64 t) (BitVec.ofNat 64 n) = k := by
  have it : IsInt64 (t : ℤ) := ⟨by omega, by omega⟩
  have i_n : IsInt64 (n : ℤ) := ⟨by omega, by omega⟩
  have ra := f64_rounds _ _ (range_lt it.range) (by norm_num) (by norm_num)
  have rb := f64_rounds _ _ (range_lt i_n.range) (by norm_num) (by norm_num)
  have p64 : 1 ≤ binary64.p := by decide
  rw [f64_int _ (by rw [abs_of_nonneg (by omega)]; omega)] at ra rb
  push_cast at ra rb
  have gn : (2 : ℚ) ^ (0 : ℤ) ≤ |((n : ℤ) : ℚ)| ∧ |((n : ℤ) : ℚ)| ≤ 2 ^ (63 : ℤ) := by
    rcases i_n.range with h | h
    · exact absurd (by exact_mod_cast h) h0
    · exact h
  have gq := quot_range it.range gn
  rw [Int.cast_natCast, Int.cast_natCast] at gq
  have rq := f64_rounds _ _ (range_lt gq) (by norm_num) (by norm_num)
  have gq' := rounded_range p64 rq (by decide) (by decide) (by decide) gq
  have gh := quot_range (y := 2) gq' (c := 1) (d := 1) (by norm_num)
  have rh := f64_rounds _ _ (range_lt gh) (by norm_num) (by norm_num)
  have hf : avcFps undef (BitVec.ofNat 64 t) (BitVec.ofNat 64 n) = ⌊f64 (f64 ((t : ℚ) / n) / 2)⌋ := by
    unfold avcFps
    have hz : BitVec.ofNat 64 n ≠ 0 := fun h => by
      have := congrArg BitVec.toNat h
      rw [BitVec.toNat_ofNat, Nat.mod_eq_of_lt (by omega)] at this
      exact h0 this
    rw [if_neg hz]
    simp only [BitVec.toNat_ofNat]
    rw [Nat.mod_eq_of_lt (by omega), Nat.mod_eq_of_lt (by omega)]
  rw [hf, Int.floor_eq_iff]
  constructor
  · rintro ⟨a, b, q, h, h1, h2, _, h4, h5, h6⟩
    have e1 := h1.unique p64 (by push_cast; exact ra)
    have e2 := h2.unique p64 (by push_cast; exact rb)
    subst e1 e2
    have e4 := h4.unique p64 rq
    subst e4
    have e5 := h5.unique p64 rh
    subst e5
    exact h6
  · intro h
    exact ⟨_, _, _, _, by push_cast; exact ra, by push_cast; exact rb, by exact_mod_cast h0, rq, rh, h⟩

/-- 60000 ticks of 1001 per second: 29 frames. -/
example : FrameRate 60000 1001 29 := (C96_frame_rate 0 60000 1001 (by norm_num) (by norm_num) (by norm_num) 29).mpr (by decide +kernel)

/-- **C96**: IEEE arithmetic gives one result for the duration of an AAC frame, the one the model gives, for every `int`. -/
theorem C96_aac_frame (rate : ℤ) (h : IsInt64 rate) (y : ℚ) :
    (∃ a b, binary32.Rounds rate a ∧ binary32.Rounds 1024 b ∧ binary32.Rounds (a / b) y) ↔ computeAACFrameDuration rate = y := by
  have p32 : 1 ≤ binary32.p := by decide
  have g1 : (1024 : ℚ) = 0 ∨ ((2 : ℚ) ^ (10 : ℤ) ≤ |(1024 : ℚ)| ∧ |(1024 : ℚ)| ≤ 2 ^ (10 : ℤ)) := by right; norm_num
  have ra := f32_rounds _ _ (range_lt h.range) (by norm_num) (by norm_num)
  have rb := f32_rounds _ _ (range_lt g1) (by norm_num) (by norm_num)
  have ga := rounded_range p32 ra (by decide) (by decide) (by decide) h.range
  have gb : (2 : ℚ) ^ (10 : ℤ) ≤ |f32 1024| ∧ |f32 1024| ≤ 2 ^ (10 : ℤ) := by
    rcases rb.between p32 (by decide) (by decide) (by decide) g1 with ⟨h, _⟩ | ⟨_, h⟩
    · norm_num at h
    · exact h
  have rq := f32_rounds _ _ (range_lt (quot_range ga gb)) (by norm_num) (by norm_num)
  constructor
  · rintro ⟨a, b, h1, h2, h3⟩
    have e1 := h1.unique p32 ra
    have e2 := h2.unique p32 rb
    subst e1 e2
    exact rq.unique p32 h3
  · rintro rfl
    exact ⟨_, _, ra, rb, rq⟩

/-- Ties for `float32`: 2^24 + 1 counts as 2^24. -/
example : computeAACFrameDuration (2 ^ 24 + 1) = 2 ^ 14 ∧ computeAACFrameDuration (2 ^ 24 + 3) = 2 ^ 14 + 1 / 256 := by decide +kernel

end Avf
