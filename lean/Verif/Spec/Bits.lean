import Verif.Go
/-!
# Specification vocabulary: bit strings

A byte string is read as the list of its bits, most significant bit of each byte first.  Nothing here refers to the
code of /repo.
-/
namespace Avf

/-- The eight bits of a byte, most significant first. -/
def byteBits (b : Byte) : List Bool :=
  [b.getLsbD 7, b.getLsbD 6, b.getLsbD 5, b.getLsbD 4, b.getLsbD 3, b.getLsbD 2, b.getLsbD 1, b.getLsbD 0]

/-- The bits of a byte string in stream order. -/
def bits (d : Bytes) : List Bool := d.flatMap byteBits

/-- The number written by a list of bits, most significant first. -/
def bitsVal (l : List Bool) : Nat := l.foldl (fun a b => 2 * a + b.toNat) 0

/-- The `n` low bits of `v`, most significant first (`u(n)` in the standards). -/
def fieldBits : Nat → Nat → List Bool
  | 0, _ => []
  | n + 1, v => v.testBit n :: fieldBits n v

/-- The number written in base 256 by a list of bytes, most significant first. -/
def beNat (l : Bytes) : Nat := l.foldl (fun a b => 256 * a + b.toNat) 0

/-- The `k` low base-256 digits of `v`, most significant first. -/
def beBytes : Nat → Nat → Bytes
  | 0, _ => []
  | k + 1, v => BitVec.ofNat 8 (v / 256 ^ k) :: beBytes k v

/-- The `ue(v)` code word (ITU-T H.264 / H.265, 9.1): `k` zeros, then the `k+1` significant bits of `v+1`. -/
def ueBits (v : Nat) : List Bool :=
  List.replicate (Nat.log2 (v + 1)) false ++ fieldBits (Nat.log2 (v + 1) + 1) (v + 1)

/-- The `se(v)` mapping (9.1.1): `v > 0` is code number `2v-1`, otherwise `-2v`. -/
def seCode (v : Int) : Nat := if 0 < v then (2 * v - 1).toNat else (-2 * v).toNat

/-- The `se(v)` code word. -/
def seBits (v : Int) : List Bool := ueBits (seCode v)

end Avf
