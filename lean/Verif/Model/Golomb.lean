import Verif.Go
/-!
# Model of /repo/bufio/golomb_reader.go

The `io.Reader` is the `bytes.Reader` all callers in /repo use (/repo/avc/sps.go:31, /repo/hevc/sps.go:41): reading one
byte yields the next byte or `io.EOF`.  The reader state after an error is not modelled; every caller in /repo stops there
(`Model/GolombIO.lean` has any `io.Reader` and the state after errors).
-/
namespace Avf
open Go

/-- `GolombBitReader` (/repo/bufio/golomb_reader.go:7-11): `rest` is what the underlying reader still holds. -/
structure Golomb where
  rest : Bytes
  buf : Byte
  left : Nat
deriving DecidableEq, Repr

namespace Golomb

/-- `&GolombBitReader{R: bytes.NewReader(data)}`. -/
def ofBytes (data : Bytes) : Golomb := { rest := data, buf := 0, left := 0 }

/-- `ReadBit` (/repo/bufio/golomb_reader.go:13-23). -/
def readBit (g : Golomb) : Go (BitVec 64 × Golomb) := do
  let g ← (if g.left = 0 then
      match g.rest with
      | [] => err "EOF"
      | b :: rest => ok { rest := rest, buf := b, left := 8 }
    else ok g : Go Golomb)
  let left := g.left - 1
  return ((g.buf >>> left).setWidth 64 &&& 1, { g with left := left })

/-- Loop of `ReadBits` (/repo/bufio/golomb_reader.go:26-32): `m` = `n - i` iterations are left. -/
def readBitsLoop : Nat → BitVec 64 → Golomb → Go (BitVec 64 × Golomb)
  | 0, res, g => ok (res, g)
  | m + 1, res, g => do
    let (bit, g) ← g.readBit
    readBitsLoop m (res ||| (bit <<< m)) g

/-- `ReadBits` (/repo/bufio/golomb_reader.go:25-34). -/
def readBits (g : Golomb) (n : Int) : Go (BitVec 64 × Golomb) := readBitsLoop n.toNat 0 g

/-- Loop of `ReadBits32` (/repo/bufio/golomb_reader.go:38-45). -/
def readBits32Loop : Nat → BitVec 32 → Golomb → Go (BitVec 32 × Golomb)
  | 0, r, g => ok (r, g)
  | n + 1, r, g => do
    let (t, g) ← g.readBit
    readBits32Loop n ((r <<< 1) ||| t.setWidth 32) g

/-- `ReadBits32` (/repo/bufio/golomb_reader.go:36-46). -/
def readBits32 (g : Golomb) (n : Nat) : Go (BitVec 32 × Golomb) := readBits32Loop n 0 g

/-- Loop of `ReadBits64` (/repo/bufio/golomb_reader.go:50-57). -/
def readBits64Loop : Nat → BitVec 64 → Golomb → Go (BitVec 64 × Golomb)
  | 0, r, g => ok (r, g)
  | n + 1, r, g => do
    let (t, g) ← g.readBit
    readBits64Loop n ((r <<< 1) ||| t) g

/-- `ReadBits64` (/repo/bufio/golomb_reader.go:48-58). -/
def readBits64 (g : Golomb) (n : Nat) : Go (BitVec 64 × Golomb) := readBits64Loop n 0 g

/-- The zero-counting loop of `ReadExponentialGolombCode` (/repo/bufio/golomb_reader.go:61-71). -/
def ueZeros (i : Nat) (g : Golomb) : Go (Nat × Golomb) :=
  match g.readBit with
  | .ok (bit, g') => if h : bit = 0 ∧ i < 32 then ueZeros (i + 1) g' else ok (i, g')
  | .err e => err e
  | .panic => panic
termination_by 32 - i

/-- `ReadExponentialGolombCode` (/repo/bufio/golomb_reader.go:60-77). -/
def readUE (g : Golomb) : Go (BitVec 64 × Golomb) := do
  let (i, g) ← ueZeros 0 g
  let (res, g) ← g.readBits i
  return (res + (((1 : BitVec 64) <<< i) - 1), g)

/-- `ReadSE` (/repo/bufio/golomb_reader.go:79-89): `res` is an unsigned 64-bit number throughout. -/
def readSE (g : Golomb) : Go (BitVec 64 × Golomb) := do
  let (res, g) ← g.readUE
  if res &&& 1 ≠ 0 then return ((res + 1) / 2, g)
  else return ((-res) / 2, g)

end Golomb
end Avf
