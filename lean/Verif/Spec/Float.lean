import Mathlib.Data.Rat.Floor
import Mathlib.Algebra.Order.Field.Power
/-!
# Binary floating-point formats

The finite numbers of IEEE 754 binary formats and rounding to the nearest one, written from the standard; no definition of the
model is used.
-/
namespace Avf

/-- A binary format: `p` significant bits, and the exponents of the last place of the smallest and of the largest numbers. -/
structure FloatFormat where
  p : Nat
  emin : Int
  emax : Int

/-- `float64` (binary64): 53 bits, from 2^-1074 to (2^53 - 1) 2^971. -/
def binary64 : FloatFormat := ⟨53, -1074, 971⟩

/-- `float32` (binary32): 24 bits, from 2^-149 to (2^24 - 1) 2^104. -/
def binary32 : FloatFormat := ⟨24, -149, 104⟩

/-- The finite numbers of a format. -/
def FloatFormat.Has (f : FloatFormat) (y : ℚ) : Prop :=
  ∃ m e : ℤ, |m| < 2 ^ f.p ∧ f.emin ≤ e ∧ e ≤ f.emax ∧ y = m * 2 ^ e

/-- The finite numbers whose last significant bit is 0. (All significant bits are used, except below the smallest normal number.) -/
def FloatFormat.HasEven (f : FloatFormat) (y : ℚ) : Prop :=
  ∃ m e : ℤ, |m| < 2 ^ f.p ∧ (2 ^ (f.p - 1) ≤ |m| ∨ e = f.emin) ∧ f.emin ≤ e ∧ e ≤ f.emax ∧ Even m ∧ y = m * 2 ^ e

/-- `y` is `x` rounded to the nearest number of the format, ties to even; `x` is not beyond the largest number. -/
structure FloatFormat.Rounds (f : FloatFormat) (x y : ℚ) : Prop where
  range : |x| ≤ (2 ^ f.p - 1) * 2 ^ f.emax
  has : f.Has y
  nearest : ∀ z, f.Has z → |x - y| ≤ |x - z|
  tie : ∀ z, f.Has z → |x - z| = |x - y| → z ≠ y → f.HasEven y

end Avf
