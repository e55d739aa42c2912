import Verif.Spec.Float
import Verif.Lemmas.Float
/-! # Rounding in the model is rounding in the format -/
namespace Avf

theorem roundEven_nearest (x : ℚ) (k : ℤ) : |x - roundEven x| ≤ |x - k| := by
  have e := roundEven_err x
  rw [abs_sub_comm] at e
  by_cases h : k = roundEven x
  · rw [h]
  · have h1 : (1 : ℚ) ≤ |(roundEven x : ℚ) - k| := by
      have : (1 : ℤ) ≤ |roundEven x - k| := Int.one_le_abs (by omega)
      exact_mod_cast this
    have h2 : |(roundEven x : ℚ) - k| ≤ |x - roundEven x| + |x - k| := by
      rw [abs_sub_comm x (roundEven x : ℚ)]
      have := abs_add_le ((roundEven x : ℚ) - x) (x - k)
      simpa using this
    linarith

theorem roundEven_tie {x : ℚ} {k : ℤ} (h : |x - k| = |x - roundEven x|) (hk : k ≠ roundEven x) : Even (roundEven x) := by
  have e := roundEven_err x
  rw [abs_sub_comm] at e
  have h1 : (1 : ℚ) ≤ |(roundEven x : ℚ) - k| := by
    have : (1 : ℤ) ≤ |roundEven x - k| := Int.one_le_abs (by omega)
    exact_mod_cast this
  have h2 : |(roundEven x : ℚ) - k| ≤ |x - roundEven x| + |x - k| := by
    rw [abs_sub_comm x (roundEven x : ℚ)]
    have := abs_add_le ((roundEven x : ℚ) - x) (x - k)
    simpa using this
  have h3 : |x - roundEven x| = 1 / 2 := by linarith
  revert h3
  unfold roundEven
  have f1 := Int.floor_le x
  have f2 := Int.lt_floor_add_one x
  split_ifs with c1 c2 c3
  · intro h3
    rw [abs_of_nonneg (by linarith)] at h3
    linarith
  · intro h3
    push_cast at h3
    rw [abs_of_nonpos (by linarith)] at h3
    linarith
  · intro _
    exact Int.even_iff.mpr c3
  · intro _
    exact Int.even_iff.mpr (by omega)

/-- Rounding to `p` significant bits. -/
def rnd (p : Nat) (x : ℚ) : ℚ :=
  if x = 0 then 0 else roundEven (x / 2 ^ (Int.log 2 |x| - (p - 1 : ℤ))) * 2 ^ (Int.log 2 |x| - (p - 1 : ℤ))

theorem f64_eq_rnd (x : ℚ) : f64 x = rnd 53 x := by
  unfold f64 rnd ulp; norm_num

theorem f32_eq_rnd (x : ℚ) : f32 x = rnd 24 x := by
  unfold f32 rnd; norm_num

theorem rnd_neg (p : Nat) (x : ℚ) : rnd p (-x) = -rnd p x := by
  unfold rnd
  by_cases h : x = 0
  · simp [h]
  · rw [if_neg (by simpa using h), if_neg h, abs_neg, neg_div, roundEven_neg]
    push_cast; ring

theorem FloatFormat.Has.neg {f : FloatFormat} {y : ℚ} (h : f.Has y) : f.Has (-y) := by
  obtain ⟨m, e, h1, h2, h3, h4⟩ := h
  exact ⟨-m, e, by rwa [abs_neg], h2, h3, by rw [h4]; push_cast; ring⟩

theorem FloatFormat.HasEven.neg {f : FloatFormat} {y : ℚ} (h : f.HasEven y) : f.HasEven (-y) := by
  obtain ⟨m, e, h1, h2, h3, h4, h5, h6⟩ := h
  exact ⟨-m, e, by rwa [abs_neg], by rwa [abs_neg], h3, h4, h5.neg, by rw [h6]; push_cast; ring⟩

theorem FloatFormat.Rounds.neg {f : FloatFormat} {x y : ℚ} (h : f.Rounds x y) : f.Rounds (-x) (-y) := by
  have e : ∀ z : ℚ, |(-x) - z| = |x - -z| := fun z => by rw [← abs_neg]; congr 1; ring
  refine ⟨by rw [abs_neg]; exact h.range, h.has.neg, fun z hz => ?_, fun z hz h1 h2 => ?_⟩
  · rw [e, e, neg_neg]; exact h.nearest _ hz.neg
  · rw [e, e, neg_neg] at h1
    exact (h.tie _ hz.neg h1 fun h3 => h2 (by rw [← h3, neg_neg])).neg

theorem rounds_pos {f : FloatFormat} (hp : 2 ≤ f.p) {x : ℚ} (hx : 0 < x) (h1 : f.emin + (f.p - 1) ≤ Int.log 2 x)
    (h2 : Int.log 2 x + 1 ≤ f.emax + (f.p - 1)) : f.Rounds x (rnd f.p x) := by
  obtain ⟨p, emin, emax⟩ := f
  obtain ⟨q, rfl⟩ : ∃ q, p = q + 1 := ⟨p - 1, by simp only at hp; omega⟩
  simp only at hp h1 h2 ⊢
  push_cast at h1 h2
  simp only [add_sub_cancel_right] at h1 h2
  set E := Int.log 2 x with hE
  have hl := Int.zpow_log_le_self (b := 2) (by norm_num) hx
  have hr := Int.lt_zpow_succ_log_self (b := 2) (by norm_num) x
  push_cast at hl hr
  rw [← hE] at hl hr
  have hu : (0 : ℚ) < 2 ^ (E - q) := by positivity
  set u : ℚ := 2 ^ (E - q) with hu0
  have hsplit : (2 : ℚ) ^ E = 2 ^ q * u := by
    rw [hu0, ← zpow_natCast (2 : ℚ) q, ← zpow_add₀ (by norm_num)]; congr 1; ring
  set n := roundEven (x / u) with hn
  have hy : rnd (q + 1) x = n * u := by
    unfold rnd
    rw [if_neg hx.ne', abs_of_pos hx, ← hE]
    push_cast
    rw [add_sub_cancel_right, ← hu0, ← hn]
  have hn1 : (2 : ℤ) ^ q ≤ n := le_roundEven_of_int_le (by
    push_cast; rw [le_div_iff₀ hu, ← hsplit]; exact hl)
  have hn2 : n ≤ 2 ^ (q + 1) := roundEven_le_of_le_int (by
    push_cast; rw [div_le_iff₀ hu, pow_succ]
    rw [zpow_add_one₀ (by norm_num), hsplit] at hr
    linarith)
  have h2q : (0 : ℤ) < 2 ^ q := by positivity
  have habs : |n| = n := abs_of_nonneg (by omega)
  -- `n * u` with a normal significand
  have hnorm : ∃ m e : ℤ, |m| < 2 ^ (q + 1) ∧ 2 ^ q ≤ |m| ∧ emin ≤ e ∧ e ≤ emax ∧ (Even n → Even m) ∧ (n : ℚ) * u = m * 2 ^ e := by
    rcases eq_or_lt_of_le hn2 with h | h
    · refine ⟨2 ^ q, E - q + 1, ?_, ?_, by omega, by omega, fun _ => ?_, ?_⟩
      · rw [abs_of_pos h2q, pow_succ]; omega
      · rw [abs_of_pos h2q]
      · exact (even_two.pow_of_ne_zero (by omega))
      · rw [h, zpow_add_one₀ (by norm_num), ← hu0]; push_cast; ring
    · exact ⟨n, E - q, by rw [habs]; exact h, by rw [habs]; exact hn1, by omega, by omega, fun h => h, rfl⟩
  -- numbers of the format at or above the binade of `x` are multiples of the last place
  have hgrid : ∀ z, FloatFormat.Has ⟨q + 1, emin, emax⟩ z → (∃ k : ℤ, z = k * u) ∨ |z| < 2 ^ E := by
    rintro z ⟨m, e, hm, he1, he2, rfl⟩
    rcases le_or_gt (E - q) e with h | h
    · refine .inl ⟨m * 2 ^ (e - (E - q)).toNat, ?_⟩
      push_cast
      rw [mul_assoc, hu0, ← zpow_natCast (2 : ℚ) (e - (E - q)).toNat, ← zpow_add₀ (by norm_num)]
      congr 2; omega
    · right
      rw [abs_mul, abs_of_pos (show (0 : ℚ) < 2 ^ e by positivity)]
      have hm' : |(m : ℚ)| < 2 ^ (q + 1) := by exact_mod_cast hm
      have he : (2 : ℚ) ^ (e + 1) ≤ u := zpow_le_zpow_right₀ (by norm_num) (by omega)
      rw [zpow_add_one₀ (by norm_num)] at he
      have hep : (0 : ℚ) < 2 ^ e := by positivity
      rw [hsplit]
      calc |(m : ℚ)| * 2 ^ e < 2 ^ (q + 1) * 2 ^ e := mul_lt_mul_of_pos_right hm' hep
        _ = 2 ^ q * (2 ^ e * 2) := by ring
        _ ≤ 2 ^ q * u := mul_le_mul_of_nonneg_left he (by positivity)
  have hscale : ∀ k : ℤ, |x - k * u| = |x / u - k| * u := fun k => by
    rw [← abs_of_pos hu, ← abs_mul, abs_of_pos hu, sub_mul, div_mul_cancel₀ _ hu.ne']
  have hmin : ∀ k : ℤ, |x - n * u| ≤ |x - k * u| := fun k => by
    rw [hscale, hscale]
    exact mul_le_mul_of_nonneg_right (roundEven_nearest _ _) hu.le
  have hbelow : ∀ z : ℚ, |z| < 2 ^ E → |x - n * u| < |x - z| := fun z hz => by
    have h3 := hmin (2 ^ q)
    push_cast at h3
    rw [← hsplit, abs_of_nonneg (show 0 ≤ x - 2 ^ E by linarith)] at h3
    have h4 := (abs_lt.mp hz).2
    have h5 := le_abs_self (x - z)
    linarith
  rw [hy]
  refine ⟨?_, ?_, fun z hz => ?_, fun z hz ht hne => ?_⟩
  · rw [abs_of_pos hx]
    have h3 : x ≤ 2 ^ (q + 1) * (2 ^ emax / 2) := by
      have h4 : (2 : ℚ) ^ (E + 1) ≤ 2 ^ (emax + q) := zpow_le_zpow_right₀ (by norm_num) h2
      rw [zpow_add₀ (by norm_num) emax, zpow_natCast] at h4
      rw [pow_succ]
      linarith
    have h5 : (2 : ℚ) ≤ 2 ^ (q + 1) := by
      have : (2 : ℚ) ^ 1 ≤ 2 ^ (q + 1) := pow_le_pow_right₀ (by norm_num) (by omega)
      simpa using this
    have h6 : (0 : ℚ) < 2 ^ emax := by positivity
    simp only
    nlinarith
  · obtain ⟨m, e, a, b, c, d, _, g⟩ := hnorm
    exact ⟨m, e, a, c, d, g⟩
  · rcases hgrid z hz with ⟨k, rfl⟩ | h
    · exact hmin k
    · exact (hbelow z h).le
  · rcases hgrid z hz with ⟨k, rfl⟩ | h
    · rw [hscale, hscale] at ht
      have hev : Even n := roundEven_tie (mul_right_cancel₀ hu.ne' ht) fun h => hne (by rw [h])
      obtain ⟨m, e, a, b, c, d, g, i⟩ := hnorm
      exact ⟨m, e, a, .inl (by simpa using b), c, d, g hev, i⟩
    · have := hbelow z h
      linarith

theorem rounds_zero (f : FloatFormat) (h : f.emin ≤ f.emax) : f.Rounds 0 0 := by
  have h0 : f.Has 0 := ⟨0, f.emin, by simp, le_rfl, h, by simp⟩
  refine ⟨?_, h0, fun z _ => by simp, fun z _ hz hne => ?_⟩
  · rw [abs_zero]
    have : (1 : ℚ) ≤ 2 ^ f.p := one_le_pow₀ (by norm_num)
    exact mul_nonneg (by linarith) (by positivity)
  · exfalso
    simp at hz
    exact hne hz

/-- Rounding to `p` bits is rounding in a format of `p` bits, for 0 and for numbers in the normal range. -/
theorem rounds_rnd {f : FloatFormat} (hp : 2 ≤ f.p) (hf : f.emin ≤ f.emax) {x : ℚ} (lo hi : ℤ) (hlo : f.emin + (f.p - 1) ≤ lo)
    (hhi : hi ≤ f.emax + (f.p - 1)) (h : x = 0 ∨ (2 ^ lo ≤ |x| ∧ |x| < 2 ^ hi)) : f.Rounds x (rnd f.p x) := by
  rcases h with rfl | ⟨h1, h2⟩
  · simpa [rnd] using rounds_zero f hf
  have main : ∀ x : ℚ, 0 < x → 2 ^ lo ≤ x → x < 2 ^ hi → f.Rounds x (rnd f.p x) := by
    intro x hx h1 h2
    refine rounds_pos hp hx ?_ ?_
    · have := (Int.zpow_le_iff_le_log (b := 2) (R := ℚ) (by norm_num) (x := lo) hx).mp (by push_cast; exact h1)
      omega
    · have := (Int.lt_zpow_iff_log_lt (b := 2) (R := ℚ) (by norm_num) (x := hi) hx).mp (by push_cast; exact h2)
      omega
  rcases lt_trichotomy x 0 with hx | hx | hx
  · rw [abs_of_neg hx] at h1 h2
    have := (main (-x) (by linarith) h1 h2).neg
    rwa [rnd_neg, neg_neg, neg_neg] at this
  · subst hx; simpa [rnd] using rounds_zero f hf
  · rw [abs_of_pos hx] at h1 h2
    exact main x hx h1 h2

/-! ## The rounded value is determined -/

theorem even_gap {f : FloatFormat} (hp : 1 ≤ f.p) {y y' : ℚ} (h0 : 0 ≤ y) (hlt : y < y') (h : f.HasEven y) (h' : f.HasEven y') :
    ∃ w, f.Has w ∧ y < w ∧ w < y' := by
  obtain ⟨m, e, h1, h2, h3, h4, h5, rfl⟩ := h
  obtain ⟨m', e', h1', h2', h3', h4', h5', rfl⟩ := h'
  have he : (0 : ℚ) < 2 ^ e := by positivity
  have hm0 : 0 ≤ m := by
    by_contra hc
    have : (m : ℚ) < 0 := by exact_mod_cast (by omega : m < 0)
    nlinarith
  have hpow : Even ((2 : ℤ) ^ f.p) := even_two.pow_of_ne_zero (by omega)
  rw [abs_of_nonneg hm0] at h1 h2
  have hm1 : m + 1 < 2 ^ f.p := by
    obtain ⟨a, ha⟩ := h5
    obtain ⟨b, hb⟩ := hpow
    omega
  refine ⟨((m + 1 : ℤ) : ℚ) * 2 ^ e, ⟨m + 1, e, by rw [abs_of_nonneg (by omega)]; exact hm1, h3, h4, rfl⟩, ?_, ?_⟩
  · push_cast; linarith
  · rcases le_or_gt e e' with hee | hee
    · have hs : (m' : ℚ) * 2 ^ e' = ((m' * 2 ^ (e' - e).toNat : ℤ) : ℚ) * 2 ^ e := by
        push_cast
        rw [mul_assoc, ← zpow_natCast (2 : ℚ) (e' - e).toNat, ← zpow_add₀ (by norm_num)]
        congr 2; omega
      rw [hs] at hlt ⊢
      have h6 : m < m' * 2 ^ (e' - e).toNat := by exact_mod_cast lt_of_mul_lt_mul_right hlt he.le
      have h7 : Even (m' * 2 ^ (e' - e).toNat) := h5'.mul_right _
      have h8 : m + 1 < m' * 2 ^ (e' - e).toNat := by
        obtain ⟨a, ha⟩ := h5
        obtain ⟨b, hb⟩ := h7
        omega
      exact mul_lt_mul_of_pos_right (by exact_mod_cast h8) he
    · exfalso
      have h6 : 2 ^ (f.p - 1) ≤ m := by
        rcases h2 with h2 | h2
        · exact h2
        · omega
      have h7 : (m' : ℚ) < 2 ^ f.p := by
        have := (abs_lt.mp h1').2
        exact_mod_cast this
      have h8 : (2 : ℚ) ^ (f.p - 1) ≤ m := by exact_mod_cast h6
      have he' : (0 : ℚ) < 2 ^ e' := by positivity
      have h9 : (2 : ℚ) ^ (e' + 1) ≤ 2 ^ e := zpow_le_zpow_right₀ (by norm_num) (by omega)
      rw [zpow_add_one₀ (by norm_num)] at h9
      have h10 : (2 : ℚ) ^ f.p = 2 ^ (f.p - 1) * 2 := by rw [← pow_succ]; congr 1; omega
      have h11 : (m' : ℚ) * 2 ^ e' < 2 ^ (f.p - 1) * (2 ^ e' * 2) := by
        calc (m' : ℚ) * 2 ^ e' < 2 ^ f.p * 2 ^ e' := mul_lt_mul_of_pos_right h7 he'
          _ = 2 ^ (f.p - 1) * (2 ^ e' * 2) := by rw [h10]; ring
      have h12 : (2 : ℚ) ^ (f.p - 1) * (2 ^ e' * 2) ≤ m * 2 ^ e :=
        mul_le_mul h8 h9 (by positivity) (by linarith [show (0 : ℚ) < 2 ^ (f.p - 1) by positivity])
      linarith

/-- No number is rounded to two different ones. -/
theorem FloatFormat.Rounds.unique {f : FloatFormat} (hp : 1 ≤ f.p) {x y y' : ℚ} (h : f.Rounds x y) (h' : f.Rounds x y') : y = y' := by
  have main : ∀ {x y y' : ℚ}, f.Rounds x y → f.Rounds x y' → ¬ y < y' := by
    intro x y y' h h' hlt
    have heq : |x - y| = |x - y'| := le_antisymm (h.nearest _ h'.has) (h'.nearest _ h.has)
    have ev := h.tie _ h'.has heq.symm hlt.ne'
    have ev' := h'.tie _ h.has heq hlt.ne
    have hmid : x = (y + y') / 2 := by
      rcases abs_eq_abs.mp heq with h1 | h1 <;> linarith
    have hbetween : ∀ w, f.Has w → y < w → ¬ w < y' := by
      intro w hw h1 h2
      have h3 := h.nearest w hw
      rw [hmid, abs_of_pos (show 0 < (y + y') / 2 - y by linarith)] at h3
      have h4 : |(y + y') / 2 - w| < (y + y') / 2 - y := abs_lt.mpr ⟨by linarith, by linarith⟩
      linarith
    rcases le_or_gt 0 y with h0 | h0
    · obtain ⟨w, a, b, c⟩ := even_gap hp h0 hlt ev ev'
      exact hbetween w a b c
    · rcases le_or_gt y' 0 with h1 | h1
      · obtain ⟨w, a, b, c⟩ := even_gap hp (y := -y') (y' := -y) (by linarith) (by linarith) ev'.neg ev.neg
        exact hbetween (-w) a.neg (by linarith) (by linarith)
      · obtain ⟨m, e, _, c, d, _⟩ := h.has
        exact hbetween 0 ⟨0, e, by simp, c, d, by simp⟩ h0 h1
  exact le_antisymm (not_lt.mp (main h' h)) (not_lt.mp (main h h'))

/-! ## Bounds -/

theorem FloatFormat.Rounds.ge {f : FloatFormat} {x y z : ℚ} (h : f.Rounds x y) (hz : f.Has z) (hx : z ≤ x) : z ≤ y := by
  by_contra hc
  have h1 := h.nearest z hz
  rw [abs_of_nonneg (by linarith), abs_of_nonneg (by linarith)] at h1
  linarith

theorem FloatFormat.Rounds.le {f : FloatFormat} {x y z : ℚ} (h : f.Rounds x y) (hz : f.Has z) (hx : x ≤ z) : y ≤ z := by
  have := h.neg.ge hz.neg (by linarith)
  linarith

theorem FloatFormat.has_pow {f : FloatFormat} (hp : 1 ≤ f.p) (e : ℤ) (h1 : f.emin ≤ e) (h2 : e ≤ f.emax) : f.Has (2 ^ e) := by
  refine ⟨1, e, ?_, h1, h2, by simp⟩
  rw [abs_one]
  exact one_lt_pow₀ (by norm_num) (by omega)

/-- A number between two powers of two is rounded to a number between them. -/
theorem FloatFormat.Rounds.between {f : FloatFormat} (hp : 1 ≤ f.p) {x y : ℚ} (h : f.Rounds x y) {lo hi : ℤ} (h1 : f.emin ≤ lo)
    (h2 : lo ≤ hi) (h3 : hi ≤ f.emax) (hx : x = 0 ∨ (2 ^ lo ≤ |x| ∧ |x| ≤ 2 ^ hi)) : (x = 0 ∧ y = 0) ∨ (x ≠ 0 ∧ 2 ^ lo ≤ |y| ∧ |y| ≤ 2 ^ hi) := by
  rcases hx with rfl | ⟨h4, h5⟩
  · have h0 : f.Has 0 := ⟨0, lo, by simp, h1, h2.trans h3, by simp⟩
    exact .inl ⟨rfl, le_antisymm (h.le h0 le_rfl) (h.ge h0 le_rfl)⟩
  · have hne : x ≠ 0 := by
      rintro rfl
      rw [abs_zero] at h4
      have : (0 : ℚ) < 2 ^ lo := by positivity
      linarith
    have hl := FloatFormat.has_pow hp lo h1 (h2.trans h3)
    have hh := FloatFormat.has_pow hp hi (h1.trans h2) h3
    have hlp : (0 : ℚ) < 2 ^ lo := by positivity
    refine .inr ⟨hne, ?_⟩
    rcases lt_or_gt_of_ne hne with hx | hx
    · rw [abs_of_neg hx] at h4 h5
      have a := h.neg.ge hl h4
      have b := h.neg.le hh h5
      rw [abs_of_neg (by linarith)]
      exact ⟨a, b⟩
    · rw [abs_of_pos hx] at h4 h5
      have a := h.ge hl h4
      have b := h.le hh h5
      rw [abs_of_pos (by linarith)]
      exact ⟨a, b⟩

end Avf
