import Verif.Go
/-!
# Model of /repo/bufio/golomb_reader.go on any `io.Reader`

`Model/Golomb.lean` has the `bytes.Reader` that the callers in /repo use, and stops at an error. Here the reader may be any `io.Reader`: it
answers each `Read` of one byte as it likes, and the state after an error is kept. `uint` has 64 bits. Nothing here can panic.
-/
namespace Avf
open Go

/-- What `R.Read(buf[:])` does with a buffer of one byte: `got`, the count (0 or 1); what is in the buffer then (an `io.Reader` may use
the buffer for anything it likes even if the count is 0); the error. -/
structure Answer where
  got : Bool
  byte : Byte
  err : Option String := none
deriving DecidableEq, Repr

/-- `GolombBitReader` (/repo/bufio/golomb_reader.go:7-11): `answers` is what the reader will do; behind them it has nothing but `io.EOF`. -/
structure GolombIO where
  answers : List Answer
  buf : Byte := 0
  left : Nat := 0
deriving DecidableEq, Repr

namespace GolombIO

/-- What is returned: the number and the error. -/
abbrev Result (w : Nat) := (BitVec w × Option String) × GolombIO

/-- Lines 20 and 21 of `ReadBit` (/repo/bufio/golomb_reader.go:20-22). -/
def takeBit (s : GolombIO) : Result 64 :=
  let left := s.left - 1
  (((s.buf >>> left).setWidth 64 &&& 1, none), { s with left := left })

/-- `ReadBit` (/repo/bufio/golomb_reader.go:13-23): the count is not looked at. -/
def readBit (s : GolombIO) : Result 64 :=
  if s.left = 0 then
    match s.answers with
    | [] => ((0, some "EOF"), s)
    | a :: as =>
      match a.err with
      | some e => ((0, some e), { s with answers := as, buf := a.byte })
      | none => takeBit { answers := as, buf := a.byte, left := 8 }
  else s.takeBit

/-- Loop of `ReadBits` (/repo/bufio/golomb_reader.go:26-32): `m` = `n - i` iterations are left. -/
def readBitsLoop : Nat → BitVec 64 → GolombIO → Result 64
  | 0, res, s => ((res, none), s)
  | m + 1, res, s =>
    match s.readBit with
    | ((_, some e), s) => ((res, some e), s)
    | ((bit, none), s) => readBitsLoop m (res ||| (bit <<< m)) s

/-- `ReadBits` (/repo/bufio/golomb_reader.go:25-34). -/
def readBits (s : GolombIO) (n : Int) : Result 64 := readBitsLoop n.toNat 0 s

/-- Loop of `ReadBits32` (/repo/bufio/golomb_reader.go:38-45). -/
def readBits32Loop : Nat → BitVec 32 → GolombIO → Result 32
  | 0, r, s => ((r, none), s)
  | n + 1, r, s =>
    match s.readBit with
    | ((_, some e), s) => ((r, some e), s)
    | ((t, none), s) => readBits32Loop n ((r <<< 1) ||| t.setWidth 32) s

/-- `ReadBits32` (/repo/bufio/golomb_reader.go:36-46). -/
def readBits32 (s : GolombIO) (n : Nat) : Result 32 := readBits32Loop n 0 s

/-- Loop of `ReadBits64` (/repo/bufio/golomb_reader.go:50-57). -/
def readBits64Loop : Nat → BitVec 64 → GolombIO → Result 64
  | 0, r, s => ((r, none), s)
  | n + 1, r, s =>
    match s.readBit with
    | ((_, some e), s) => ((r, some e), s)
    | ((t, none), s) => readBits64Loop n ((r <<< 1) ||| t) s

/-- `ReadBits64` (/repo/bufio/golomb_reader.go:48-58). -/
def readBits64 (s : GolombIO) (n : Nat) : Result 64 := readBits64Loop n 0 s

/-- The zero-counting loop of `ReadExponentialGolombCode` (/repo/bufio/golomb_reader.go:61-71); with the count, or the error. -/
def ueZeros (i : Nat) (s : GolombIO) : Except String Nat × GolombIO :=
  match s.readBit with
  | ((_, some e), s) => (.error e, s)
  | ((bit, none), s) => if h : bit = 0 ∧ i < 32 then ueZeros (i + 1) s else (.ok i, s)
termination_by 32 - i

/-- `ReadExponentialGolombCode` (/repo/bufio/golomb_reader.go:60-77). -/
def readUE (s : GolombIO) : Result 64 :=
  match s.ueZeros 0 with
  | (.error e, s) => ((0, some e), s)
  | (.ok i, s) =>
    match s.readBits i with
    | ((res, some e), s) => ((res, some e), s)
    | ((res, none), s) => ((res + (((1 : BitVec 64) <<< i) - 1), none), s)

/-- `ReadSE` (/repo/bufio/golomb_reader.go:79-89). -/
def readSE (s : GolombIO) : Result 64 :=
  match s.readUE with
  | ((res, some e), s) => ((res, some e), s)
  | ((res, none), s) => if res &&& 1 ≠ 0 then (((res + 1) / 2, none), s) else (((-res) / 2, none), s)

end GolombIO
end Avf
