import Mathlib.Data.Rat.Floor
import Mathlib.Data.Int.Log
/-!
# Go's `float64`

The two places in /repo that compute with `float64` (/repo/packet_utils.go:10-11, /repo/avc/sps.go:331) start from 64-bit
integers and do one division and one multiplication or halving. Every finite value that occurs lies between 2^-64 and 2^127
in absolute value (or is 0), far from the smallest and largest `float64`. So a finite `float64` is a rational here, and an
operation is the exact operation followed by `f64`, rounding to 53 significant bits, ties to even (IEEE 754, which Go uses).
Infinities and NaN (division by zero) are treated where they can occur.

`float32` occurs once (/repo/utils/aac_util.go:269): a 64-bit integer is converted and divided by 1024. It is treated in the same
way, with 24 significant bits.
-/
namespace Avf

/-- Nearest integer, ties to even. -/
def roundEven (x : ℚ) : ℤ :=
  if x - ⌊x⌋ < 1 / 2 then ⌊x⌋ else if 1 / 2 < x - ⌊x⌋ then ⌊x⌋ + 1 else if ⌊x⌋ % 2 = 0 then ⌊x⌋ else ⌊x⌋ + 1

/-- The distance of neighbouring `float64` values in the binade of `x`. -/
def ulp (x : ℚ) : ℚ := 2 ^ (Int.log 2 |x| - 52)

/-- Rounding to `float64`. -/
def f64 (x : ℚ) : ℚ := if x = 0 then 0 else roundEven (x / ulp x) * ulp x

/-- Rounding to `float32`. -/
def f32 (x : ℚ) : ℚ := if x = 0 then 0 else roundEven (x / 2 ^ (Int.log 2 |x| - 23)) * 2 ^ (Int.log 2 |x| - 23)

end Avf
