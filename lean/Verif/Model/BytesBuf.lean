import Verif.Go
/-!
# Model of /repo/bufio/bytes_buffer.go, bytes_reader.go, bytes_wirter.go and util.go

A method returns `Go (Except String α × BytesBuf)`: the Go error is a value (`Except.error`), because the receiver stays
observable after a failed call; `Go.panic` is a panic.  `offset` and `length` are 64-bit ints: `peekN` adds with
wrap-around (`wrap64`).
-/
namespace Avf
open Go

/-- `bytesBuffer` (/repo/bufio/bytes_buffer.go:27-31). -/
structure BytesBuf where
  data : Bytes
  length : Int
  offset : Int
deriving DecidableEq, Repr

namespace BytesBuf

/-- Result of a method that can fail and leaves the receiver usable. -/
abbrev Res (α : Type) := Except String α × BytesBuf

/-- `peekN` (/repo/bufio/bytes_buffer.go:34-42). -/
def peekN (b : BytesBuf) (size : Int) : Res Unit :=
  let e := wrap64 (b.offset + size)
  if b.length < e ∨ e < 0 then (.error "slice bounds out of range", b)
  else (.ok (), { b with offset := e })

/-- `setData` (/repo/bufio/bytes_buffer.go:44-48), also `Reset` (/repo/bufio/bytes_buffer.go:70-72), `NewBytesReader`
(/repo/bufio/bytes_reader.go:77-81) and `NewBytesWriter` (/repo/bufio/bytes_wirter.go:77-81). -/
def setData (data : Bytes) : BytesBuf := { data := data, offset := 0, length := data.length }

/-- `Offset` (/repo/bufio/bytes_buffer.go:66-68). -/
def reportedOffset (b : BytesBuf) : Int := b.offset

/-- `Seek` (/repo/bufio/bytes_buffer.go:50-56). -/
def seek (b : BytesBuf) (size : Int) : Res Unit := b.peekN size

/-- `SeekBack` (/repo/bufio/bytes_buffer.go:58-64); `0-size` wraps as well. -/
def seekBack (b : BytesBuf) (size : Int) : Res Unit := b.peekN (wrap64 (0 - size))

/-- `RemainingBytes` (/repo/bufio/bytes_buffer.go:74-76). -/
def remainingBytes (b : BytesBuf) : Go Bytes := sliceI b.data b.offset b.data.length

/-- `ReadableBytes` (/repo/bufio/bytes_buffer.go:78-80). -/
def readableBytes (b : BytesBuf) : Int := b.length - b.offset

/-- `Clear` (/repo/bufio/bytes_buffer.go:82-84). -/
def clear (b : BytesBuf) : BytesBuf := { b with offset := 0 }

/-- Shape shared by the typed reads: `if err := b.peekN(n); err != nil { return 0, err }; return f(...), nil`. -/
def thenRead {α : Type} (r : Res Unit) (f : BytesBuf → Go α) : Go (Res α) :=
  match r with
  | (.error e, b) => ok (.error e, b)
  | (.ok (), b) => do let a ← f b; return (.ok a, b)

/-- Shape shared by the typed writes. -/
def thenWrite (r : Res Unit) (f : BytesBuf → Go Bytes) : Go (Res Unit) :=
  match r with
  | (.error e, b) => ok (.error e, b)
  | (.ok (), b) => do let d ← f b; return (.ok (), { b with data := d })

end BytesBuf

/-- `Uint24` (/repo/bufio/util.go:9-11) of `data[off:]`. -/
def uint24At (data : Bytes) (off : Nat) : Go (BitVec 32) := do
  let b0 ← idx data off
  let b1 ← idx data (off + 1)
  let b2 ← idx data (off + 2)
  return (b0.setWidth 32 <<< 16) ||| (b1.setWidth 32 <<< 8) ||| b2.setWidth 32

/-- `Uint24` (/repo/bufio/util.go:9-11). -/
def uint24 (data : Bytes) : Go (BitVec 32) := uint24At data 0

/-- `PutUint24` (/repo/bufio/util.go:3-7).  The three stores happen one after the other, so a short slice panics after
the stores that fit; only the panic is modelled. -/
def putUint24 (dst : Bytes) (src : BitVec 32) : Go Bytes := do
  let d0 ← setIdx dst 0 (toByte (src >>> 16))
  let d1 ← setIdx d0 1 (toByte (src >>> 8))
  setIdx d1 2 (toByte src)

/-- `MinInt` (/repo/bufio/util.go:13-19). -/
def minInt (a b : Int) : Int := if a > b then b else a

/-- `MaxInt` (/repo/bufio/util.go:21-27). -/
def maxInt (a b : Int) : Int := if a > b then a else b

namespace BytesBuf

/-- `f(b.data[b.offset-n:])` for an accessor `f` that takes an index: panics on a negative index. -/
def atBack {α : Type} (b : BytesBuf) (n : Int) (f : Bytes → Nat → Go α) : Go α :=
  if b.offset - n < 0 then panic else f b.data (b.offset - n).toNat

/-- `ReadUint8` (/repo/bufio/bytes_reader.go:28-34). -/
def readUint8 (b : BytesBuf) : Go (Res Byte) := thenRead (b.peekN 1) fun b => b.atBack 1 idx

/-- `ReadUint16` (/repo/bufio/bytes_reader.go:36-42). -/
def readUint16 (b : BytesBuf) : Go (Res (BitVec 16)) := thenRead (b.peekN 2) fun b => b.atBack 2 uint16At

/-- `ReadUint24` (/repo/bufio/bytes_reader.go:44-50). -/
def readUint24 (b : BytesBuf) : Go (Res (BitVec 32)) := thenRead (b.peekN 3) fun b => b.atBack 3 uint24At

/-- `ReadUint32` (/repo/bufio/bytes_reader.go:52-58). -/
def readUint32 (b : BytesBuf) : Go (Res (BitVec 32)) := thenRead (b.peekN 4) fun b => b.atBack 4 uint32At

/-- `ReadUint64` (/repo/bufio/bytes_reader.go:60-66). -/
def readUint64 (b : BytesBuf) : Go (Res (BitVec 64)) := thenRead (b.peekN 8) fun b => b.atBack 8 uint64At

/-- `ReadBytes` (/repo/bufio/bytes_reader.go:68-75). -/
def readBytes (b : BytesBuf) (size : Int) : Go (Res Bytes) :=
  thenRead (b.peekN size) fun b' => sliceI b'.data b.offset b'.offset

/-- `WriteUint8` (/repo/bufio/bytes_wirter.go:28-35). -/
def writeUint8 (b : BytesBuf) (v : Byte) : Go (Res Unit) :=
  thenWrite (b.peekN 1) fun b => b.atBack 1 fun d i => setIdx d i v

/-- `WriteUint16` (/repo/bufio/bytes_wirter.go:37-44). -/
def writeUint16 (b : BytesBuf) (v : BitVec 16) : Go (Res Unit) :=
  thenWrite (b.peekN 2) fun b => b.atBack 2 fun d i => putAt d i (be16 v)

/-- `WriteUint32` (/repo/bufio/bytes_wirter.go:46-53). -/
def writeUint32 (b : BytesBuf) (v : BitVec 32) : Go (Res Unit) :=
  thenWrite (b.peekN 4) fun b => b.atBack 4 fun d i => putAt d i (be32 v)

/-- `WriteUint64` (/repo/bufio/bytes_wirter.go:55-62). -/
def writeUint64 (b : BytesBuf) (v : BitVec 64) : Go (Res Unit) :=
  thenWrite (b.peekN 8) fun b => b.atBack 8 fun d i => putAt d i (be64 v)

/-- `Write` (/repo/bufio/bytes_wirter.go:64-71). -/
def write (b : BytesBuf) (v : Bytes) : Go (Res Unit) :=
  thenWrite (b.peekN v.length) fun b => b.atBack v.length fun d i => copyAt d i v

/-- `WrittenBytes` (/repo/bufio/bytes_wirter.go:73-75). -/
def writtenBytes (b : BytesBuf) : Go Bytes := sliceI b.data 0 b.offset

end BytesBuf
end Avf
