import Verif.Go
/-!
# Model of /repo/collections/buffer_direct.go and /repo/collections/buffer_rb.go

Memory is explicit, because the point of these buffers is which slices share memory: `Mem` is the list of allocated
arrays, a slice is `(array, offset, length)`.  `b.data` always has `len = cap`.

Simplifications:
* the block queue (`*Queue[*struct{...}]`) is the list of its block records – `Queue` itself is modelled in
  `Verif/Model/RingBuffer.lean` and proved to be a list (C16); the records are reachable only through the queue, so
  updating the last record of the list is updating through the pointer;
* sizes passed to `Alloc` are not negative and all offsets are far from 2^63;
* `Alloc` followed by the caller filling the slice is `Write`.
-/
namespace Avf
open Go

/-- Allocated arrays. -/
abbrev Mem := List Bytes

/-- A byte slice: array number, offset in the array, length (= capacity). -/
structure SliceRef where
  arr : Nat
  off : Nat
  len : Nat
deriving DecidableEq, Repr

namespace Mem

/-- Contents of a slice. -/
def read (m : Mem) (s : SliceRef) : Bytes := (((m[s.arr]?).getD []).drop s.off).take s.len

/-- `copy(s, d)`. -/
def copy (m : Mem) (s : SliceRef) (d : Bytes) : Mem :=
  match m[s.arr]? with
  | none => m
  | some a => m.set s.arr (overwrite a s.off (d.take s.len))

/-- `make([]byte, n)`. -/
def make (m : Mem) (n : Nat) : SliceRef × Mem := (⟨m.length, 0, n⟩, m ++ [List.replicate n 0])

end Mem

/-- `s[a:b]` of a slice (bounds are checked against the capacity). -/
def SliceRef.sub (s : SliceRef) (a b : Nat) : Go SliceRef :=
  if a ≤ b ∧ b ≤ s.len then ok ⟨s.arr, s.off + a, b - a⟩ else panic

/-- The anonymous block struct (/repo/collections/buffer_direct.go:11-15). -/
structure Block where
  index : Nat
  size : Nat
  completed : Bool
deriving DecidableEq, Repr

/-- `DirectBlockBuffer` (/repo/collections/buffer_direct.go:6-16). -/
structure DirectBuf where
  data : SliceRef
  nextOffset : Nat
  sealed : Bool
  blocks : List Block
deriving DecidableEq, Repr

/-- Update the last block of the queue (`r.blocks.Tail().f = ...`). -/
def updLast (bs : List Block) (f : Block → Block) : List Block :=
  match bs.getLast? with
  | none => bs
  | some b => bs.dropLast ++ [f b]

namespace DirectBuf

/-- `NewDirectBlockBuffer` (/repo/collections/buffer_direct.go:136-145). -/
def new (m : Mem) (capacity : Nat) : DirectBuf × Mem :=
  let (d, m) := m.make capacity
  ({ data := d, nextOffset := 0, sealed := false, blocks := [] }, m)

/-- `grow` (/repo/collections/buffer_direct.go:18-22). -/
def grow (b : DirectBuf) (m : Mem) (capacity : Nat) : Go (DirectBuf × Mem) := do
  let (bytes, m) := m.make capacity
  let src ← b.data.sub 0 b.nextOffset
  return ({ b with data := bytes }, m.copy bytes (m.read src))

/-- The block allocation at the start of `Alloc` (/repo/collections/buffer_direct.go:31-54). -/
def openBlock (b : DirectBuf) : DirectBuf :=
  match b.blocks.getLast? with
  | some blk => if blk.completed then { b with blocks := b.blocks ++ [⟨b.nextOffset, 0, false⟩] } else b
  | none => { b with blocks := b.blocks ++ [⟨b.nextOffset, 0, false⟩] }

/-- `Alloc` (/repo/collections/buffer_direct.go:28-67). -/
def alloc (b : DirectBuf) (m : Mem) (size : Nat) : Go (SliceRef × DirectBuf × Mem) := do
  assert (!b.sealed)
  let b := b.openBlock
  let nextOffset := b.nextOffset + size
  let (b, m) ← (if nextOffset > b.data.len then b.grow m (nextOffset * 3 / 2) else ok (b, m) : Go (DirectBuf × Mem))
  let data ← b.data.sub b.nextOffset nextOffset
  return (data, { b with blocks := updLast b.blocks (fun k => { k with size := k.size + size }), nextOffset := nextOffset }, m)

/-- `Write` (/repo/collections/buffer_direct.go:24-26). -/
def write (b : DirectBuf) (m : Mem) (d : Bytes) : Go (DirectBuf × Mem) := do
  let (s, b, m) ← b.alloc m d.length
  return (b, m.copy s d)

/-- `Fetch` (/repo/collections/buffer_direct.go:69-77); `none` is a nil slice. -/
def fetch (b : DirectBuf) : Go (Option SliceRef × DirectBuf) := do
  assert (!b.sealed)
  match b.blocks.getLast? with
  | none => panic
  | some blk =>
    if blk.completed then return (none, b)
    else do
      let s ← b.data.sub blk.index (blk.index + blk.size)
      return (some s, { b with blocks := updLast b.blocks (fun k => { k with completed := true }) })

/-- Common end of `Pop` and `PopBack`. -/
def resetIfEmpty (b : DirectBuf) : DirectBuf := if b.blocks.isEmpty then { b with nextOffset := 0 } else b

/-- `Pop` (/repo/collections/buffer_direct.go:79-86). -/
def pop (b : DirectBuf) : Go DirectBuf := do
  assert (!b.sealed)
  return resetIfEmpty { b with blocks := b.blocks.drop 1 }

/-- `PopBack` (/repo/collections/buffer_direct.go:88-95). -/
def popBack (b : DirectBuf) : Go DirectBuf := do
  assert (!b.sealed)
  assert (!b.blocks.isEmpty)
  return resetIfEmpty { b with blocks := b.blocks.dropLast }

/-- `PendingBlockSize` (/repo/collections/buffer_direct.go:97-103). -/
def pendingBlockSize (b : DirectBuf) : Nat :=
  match b.blocks.getLast? with
  | some blk => if blk.completed then 0 else blk.size
  | none => 0

/-- `Clear` (/repo/collections/buffer_direct.go:105-109). -/
def clear (b : DirectBuf) : DirectBuf := { b with sealed := false, blocks := [], nextOffset := 0 }

/-- `Data` (/repo/collections/buffer_direct.go:111-113). -/
def dataSlice (b : DirectBuf) : Go SliceRef := b.data.sub 0 b.nextOffset

/-- `AvailableBytes` (/repo/collections/buffer_direct.go:115-117). -/
def availableBytes (b : DirectBuf) : Int := (b.data.len : Int) - b.nextOffset

/-- `Size` (/repo/collections/buffer_direct.go:119-121). -/
def size (b : DirectBuf) : Nat := b.blocks.length

/-- `SplitOff` (/repo/collections/buffer_direct.go:123-134): the new buffer and the old one. -/
def splitOff (b : DirectBuf) : Go (DirectBuf × DirectBuf) := do
  let d ← b.data.sub b.nextOffset b.data.len
  return ({ data := d, nextOffset := b.nextOffset, sealed := false, blocks := [] }, { b with sealed := true })

end DirectBuf

/-- `RBBlockBuffer` (/repo/collections/buffer_rb.go:9-13). -/
structure RBBuf extends DirectBuf where
  capacity : Nat
  discardBlockCount : Nat
deriving DecidableEq, Repr

namespace RBBuf

/-- `NewRBBlockBuffer` (/repo/collections/buffer_rb.go:139-153). -/
def new (m : Mem) (capacity : Nat) : RBBuf × Mem :=
  let (d, m) := m.make capacity
  ({ data := d, nextOffset := 0, sealed := false, blocks := [], capacity := capacity, discardBlockCount := 0 }, m)

/-- `head`, `tail` at the start of `Alloc` (/repo/collections/buffer_rb.go:25-45). -/
def headTail (r : RBBuf) : Nat × Nat :=
  match r.blocks.head?, r.blocks.getLast? with
  | some h, some t => (h.index, t.index + t.size)
  | _, _ => (0, 0)

/-- `r.capacity = cap(r.data)` if at most one block is held (/repo/collections/buffer_rb.go:35 and :40). -/
def restoreCapacity (r : RBBuf) : RBBuf := if r.blocks.length ≤ 1 then { r with capacity := r.data.len } else r

/-- The block allocation in `Alloc` (/repo/collections/buffer_rb.go:48-60). -/
def openBlock (r : RBBuf) (tail : Nat) : RBBuf :=
  match r.blocks.getLast? with
  | some blk => if blk.completed then { r with blocks := r.blocks ++ [⟨tail, 0, false⟩] } else r
  | none => { r with blocks := r.blocks ++ [⟨tail, 0, false⟩] }

/-- The four cases of `Alloc` (/repo/collections/buffer_rb.go:62-89, with `grow`, /repo/collections/buffer_rb.go:15-18), after the block has been opened; returns `tail`.
`old` is `oldBlock`.  Go's signed differences are compared with additions. -/
def place (r : RBBuf) (m : Mem) (head tail size : Nat) (old : Block) : Go (Nat × RBBuf × Mem) :=
  if tail < head ∧ head ≥ tail + size then ok (tail, r, m)
  else if ¬ tail < head ∧ r.capacity ≥ tail + size then ok (tail, r, m)
  else if ¬ tail < head ∧ head ≥ old.size + size then do
    let src ← r.data.sub old.index (old.index + old.size)
    return (old.size, { r with capacity := tail - old.size, blocks := updLast r.blocks (fun k => { k with index := 0 }) },
      m.copy r.data (m.read src))
  else do
    let (d, m) := m.make ((r.data.len + size) * 3 / 2)
    let src ← r.data.sub old.index (old.index + old.size)
    let m := m.copy d (m.read src)
    let blocks := updLast r.blocks (fun k => { k with index := 0 })
    let n := blocks.length - 1
    return (old.size, { r with data := d, capacity := d.len, discardBlockCount := n, blocks := blocks.drop n }, m)

/-- `Alloc` (/repo/collections/buffer_rb.go:24-94). -/
def alloc (r : RBBuf) (m : Mem) (size : Nat) : Go (SliceRef × RBBuf × Mem) := do
  let (head, tail) := r.headTail
  let r := r.restoreCapacity
  let r := r.openBlock tail
  match r.blocks.getLast? with
  | none => panic
  | some old => do
    let (tail, r, m) ← r.place m head tail size old
    let bytes ← r.data.sub tail (tail + size)
    return (bytes, { r with blocks := updLast r.blocks (fun k => { k with size := k.size + size }) }, m)

/-- `Write` (/repo/collections/buffer_rb.go:20-22). -/
def write (r : RBBuf) (m : Mem) (d : Bytes) : Go (RBBuf × Mem) := do
  let (s, r, m) ← r.alloc m d.length
  return (r, m.copy s d)

/-- `Fetch` (inherited from `DirectBlockBuffer`, /repo/collections/buffer_direct.go:69-77). -/
def fetch (r : RBBuf) : Go (Option SliceRef × RBBuf) := do
  let (s, b) ← r.toDirectBuf.fetch
  return (s, { r with toDirectBuf := b })

/-- `Pop` (/repo/collections/buffer_rb.go:96-110). -/
def pop (r : RBBuf) : Go RBBuf := do
  assert (!r.sealed)
  if r.discardBlockCount > 0 then return { r with discardBlockCount := r.discardBlockCount - 1 }
  else do
    let b ← r.toDirectBuf.pop
    let r := { r with toDirectBuf := b }
    match r.blocks.head? with
    | none => return { r with capacity := r.data.len }
    | some h => if h.index = 0 then return { r with capacity := r.data.len } else return r

/-- `PopBack` (inherited, /repo/collections/buffer_direct.go:88-95). -/
def popBack (r : RBBuf) : Go RBBuf := do
  let b ← r.toDirectBuf.popBack
  return { r with toDirectBuf := b }

/-- `Clear` (/repo/collections/buffer_rb.go:112-116). -/
def clear (r : RBBuf) : RBBuf := { r with toDirectBuf := r.toDirectBuf.clear, capacity := r.data.len, discardBlockCount := 0 }

/-- `PendingBlockSize` (inherited, /repo/collections/buffer_direct.go:97-103). -/
def pendingBlockSize (r : RBBuf) : Nat := r.toDirectBuf.pendingBlockSize

/-- `Data` (/repo/collections/buffer_rb.go:118-120): always two nil slices. -/
def dataBytes (_ : RBBuf) (_ : Mem) : Bytes × Bytes := ([], [])

/-- `AvailableBytes` (/repo/collections/buffer_rb.go:122-137): the computation is commented out. -/
def availableBytes (_ : RBBuf) : Int := 0

/-- `SplitOff` (inherited, /repo/collections/buffer_direct.go:123-134); `nextOffset` of a ring buffer is always 0. -/
def splitOff (r : RBBuf) : Go (DirectBuf × RBBuf) := do
  let (n, b) ← r.toDirectBuf.splitOff
  return (n, { r with toDirectBuf := b })

end RBBuf
end Avf
