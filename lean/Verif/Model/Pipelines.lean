import Verif.Model.BlockBuffer
/-!
# Model of /repo/streams_buffer.go and /repo/direct_pipeline.go

Indices are not negative (a negative index panics in every method of `StreamsBuffer`); the media type is reduced to "is it
`AVMediaTypeVideo`".
-/
namespace Avf
open Go

/-- `StreamsBuffer` (/repo/streams_buffer.go:8-10). -/
structure StreamsBuf where
  buffers : List RBBuf
deriving DecidableEq, Repr

namespace StreamsBuf

/-- `findOrCreateStreamBuffer` (/repo/streams_buffer.go:12-23): at most one buffer is appended. -/
def findOrCreate (s : StreamsBuf) (m : Mem) (index : Nat) (video : Bool) : Go (RBBuf × StreamsBuf × Mem) := do
  let (s, m) :=
    if index < s.buffers.length then (s, m)
    else
      let (r, m) := RBBuf.new m (if video then 1024 * 1024 * 2 else 48000 * 12)
      ({ s with buffers := s.buffers ++ [r] }, m)
  let r ← idx s.buffers index
  return (r, s, m)

/-- The pointer in `buffers` makes updates of the buffer visible in the slice. -/
def put (s : StreamsBuf) (index : Nat) (r : RBBuf) : StreamsBuf := { s with buffers := s.buffers.set index r }

/-- `Write` (/repo/streams_buffer.go:25-28). -/
def write (s : StreamsBuf) (m : Mem) (data : Bytes) (index : Nat) (video : Bool) : Go (Nat × StreamsBuf × Mem) := do
  let (r, s, m) ← s.findOrCreate m index video
  let (r, m) ← r.write m data
  return (data.length, s.put index r, m)

/-- `Fetch` (/repo/streams_buffer.go:30-33). -/
def fetch (s : StreamsBuf) (m : Mem) (index : Nat) : Go (Option SliceRef × StreamsBuf × Mem) := do
  let (r, s, m) ← s.findOrCreate m index false
  let (d, r) ← r.fetch
  return (d, s.put index r, m)

/-- `Discard` (/repo/streams_buffer.go:35-37) and `DiscardHeadPacket` (/repo/streams_buffer.go:43-45). -/
def discardHead (s : StreamsBuf) (index : Nat) : Go StreamsBuf := do
  let r ← idx s.buffers index
  let r ← r.pop
  return s.put index r

/-- `DiscardBackPacket` (/repo/streams_buffer.go:39-41). -/
def discardBack (s : StreamsBuf) (index : Nat) : Go StreamsBuf := do
  let r ← idx s.buffers index
  let r ← r.popBack
  return s.put index r

/-- `PendingBlockSize` (/repo/streams_buffer.go:47-49). -/
def pendingBlockSize (s : StreamsBuf) (m : Mem) (index : Nat) : Go (Nat × StreamsBuf × Mem) := do
  let (r, s, m) ← s.findOrCreate m index false
  return (r.pendingBlockSize, s, m)

end StreamsBuf

/-- `DirectDataPipeline` (/repo/direct_pipeline.go:8-11). `data` is nil or comes from `make`, so `len = cap`. -/
structure DirectPipe where
  data : SliceRef
  size : Nat
deriving DecidableEq, Repr

namespace DirectPipe

/-- The zero value: a nil slice. -/
def new : DirectPipe := ⟨⟨0, 0, 0⟩, 0⟩

/-- `Write` (/repo/direct_pipeline.go:13-26); `n < length` of the signed difference is written with an addition. -/
def write (p : DirectPipe) (m : Mem) (data : Bytes) : Go (Nat × DirectPipe × Mem) := do
  let (p, m) ← (if p.data.len < p.size + data.length then do
      let (bytes, m) := m.make ((p.size + data.length) * 2)
      let src ← p.data.sub 0 p.size
      return ({ p with data := bytes }, m.copy bytes (m.read src))
    else ok (p, m) : Go (DirectPipe × Mem))
  let dst ← p.data.sub p.size p.data.len
  let p' := { p with size := p.size + data.length }
  return (p'.size, p', m.copy dst data)

/-- `Fetch` (/repo/direct_pipeline.go:28-32). -/
def fetch (p : DirectPipe) : Go (SliceRef × DirectPipe) := do
  let bytes ← p.data.sub 0 p.size
  return (bytes, { p with size := 0 })

/-- `Seek` (/repo/direct_pipeline.go:34-37), `bufio.MaxInt` (/repo/bufio/util.go). -/
def seek (p : DirectPipe) (offset : Int) : DirectPipe := { p with size := (max ((p.size : Int) + offset) 0).toNat }

/-- `PendingBlockSize` (/repo/direct_pipeline.go:39-41). `DiscardBackPacket` and `DiscardHeadPacket`
(/repo/direct_pipeline.go:43-47) do nothing. -/
def pendingBlockSize (p : DirectPipe) : Nat := p.size

end DirectPipe
end Avf
