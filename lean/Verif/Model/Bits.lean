import Verif.Go
/-!
# Model of /repo/bufio/bits_reader.go and /repo/bufio/bits_writer.go

`int` values are unbounded integers here: offsets near 2^63 are out of scope.  Go's `/` and `%` on ints truncate
towards zero (`Int.tdiv`, `Int.tmod`).
-/
namespace Avf
open Go

/-- Loop of `ReadBits` (/repo/bufio/bits_reader.go:8-21); `n` iterations are left, `cur` is `currentBit`. -/
def readBitsLoop (data : Bytes) (cur : Int) : Nat → BitVec 64 → Go (BitVec 64)
  | 0, acc => ok acc
  | n + 1, acc =>
    let byteIndex := cur.tdiv 8
    let bitIndex := 7 - cur.tmod 8
    if byteIndex ≥ data.length then ok acc
    else do
      let b ← idxI data byteIndex
      let bitValue := (b >>> bitIndex.toNat) &&& 0x01
      readBitsLoop data (cur + 1) n ((acc <<< 1) ||| bitValue.setWidth 64)

/-- `ReadBits` (/repo/bufio/bits_reader.go:4-24).  A negative `bitLength` runs the loop zero times. -/
def readBits (data : Bytes) (startBit bitLength : Int) : Go (BitVec 64) :=
  readBitsLoop data startBit bitLength.toNat 0

/-- `BitsReader` (/repo/bufio/bits_reader.go:26-29). -/
structure BitsReader where
  data : Bytes
  offset : Int
deriving DecidableEq, Repr

/-- `BitsReader.Read` (/repo/bufio/bits_reader.go:31-35). -/
def BitsReader.read (b : BitsReader) (length : Int) : Go (BitVec 64 × BitsReader) := do
  let v ← readBits b.data b.offset length
  return (v, { b with offset := b.offset + length })

/-- `BitsReader.Seek` (/repo/bufio/bits_reader.go:37-39). -/
def BitsReader.seek (b : BitsReader) (length : Int) : BitsReader := { b with offset := b.offset + length }

/-- `BitsReader.ReadBytes` (/repo/bufio/bits_reader.go:41-45). -/
def BitsReader.readBytes (b : BitsReader) (length : Int) : Go (Bytes × BitsReader) := do
  let o := b.offset + 8 * length
  let s ← sliceI b.data (b.offset.tdiv 8) (o.tdiv 8)
  return (s, { b with offset := o })

/-- `BitsReader.SafeRead` (/repo/bufio/bits_reader.go:47-49): an unfinished function; the reader is not moved. -/
def BitsReader.safeRead (b : BitsReader) (_length : Int) : Go (BitVec 64 × BitsReader) := ok (0, b)

/-- Loop of `WriteBits` (/repo/bufio/bits_writer.go:7-23); the Go loop variable `i` is `n - 1`. -/
def writeBitsLoop (data : Bytes) (cur : Int) (value : BitVec 64) : Nat → Go Bytes
  | 0 => ok data
  | n + 1 =>
    let byteIndex := cur.tdiv 8
    let bitIndex := 7 - cur.tmod 8
    if byteIndex ≥ data.length then ok data
    else do
      let bitValue := (value >>> n) &&& 0x01
      let b ← idxI data byteIndex
      let b1 := b &&& ~~~((1 : Byte) <<< bitIndex.toNat)
      let b2 := b1 ||| toByte (bitValue <<< bitIndex.toNat)
      let data' ← setIdx data byteIndex.toNat b2
      writeBitsLoop data' (cur + 1) value n

/-- `WriteBits` (/repo/bufio/bits_writer.go:4-24): returns the new contents of `data`. -/
def writeBits (data : Bytes) (startBit bitLength : Int) (value : BitVec 64) : Go Bytes :=
  writeBitsLoop data startBit value bitLength.toNat

/-- `BitsWriter` (/repo/bufio/bits_writer.go:26-29). -/
structure BitsWriter where
  data : Bytes
  offset : Int
deriving DecidableEq, Repr

/-- `BitsWriter.Write` (/repo/bufio/bits_writer.go:31-34). -/
def BitsWriter.write (b : BitsWriter) (length : Int) (value : BitVec 64) : Go BitsWriter := do
  let d ← writeBits b.data b.offset length value
  return { data := d, offset := b.offset + length }

/-- `BitsWriter.Seek` (/repo/bufio/bits_writer.go:36-38). -/
def BitsWriter.seek (b : BitsWriter) (length : Int) : BitsWriter := { b with offset := b.offset + length }

/-- `BitsWriter.WriteBytes` (/repo/bufio/bits_writer.go:40-43).  `copy` stores only what fits, but the offset advances by
the whole length. -/
def BitsWriter.writeBytes (b : BitsWriter) (d : Bytes) : Go BitsWriter :=
  let start := b.offset.tdiv 8
  if start < 0 then panic
  else do
    let data' ← copyAt b.data start.toNat d
    return { data := data', offset := b.offset + 8 * d.length }

end Avf
