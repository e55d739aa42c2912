import Verif.Go
/-!
# Model of /repo/collections/ring_buffer.go and /repo/collections/queue.go

`data` has `cap(r.data)` elements.  `head`, `tail`, `size` are never negative in the Go code (they start at 0 and are only
changed by the functions below), so they are `Nat`.
-/
namespace Avf
open Go

/-- `ringBuffer[T]` (/repo/collections/ring_buffer.go:29-36). -/
structure RingBuf (α : Type) where
  data : List α
  head : Nat
  tail : Nat
  size : Nat
  capacity : Nat
  zero : α
deriving DecidableEq, Repr

namespace RingBuf
variable {α : Type}

/-- `NewRingBuffer` (/repo/collections/ring_buffer.go:113-124) for a non-negative capacity. -/
def new (zero : α) (capacity : Nat) : Go (RingBuf α) := do
  assert (capacity > 0)
  return { data := List.replicate capacity zero, head := 0, tail := 0, size := 0, capacity := capacity, zero := zero }

/-- `IsEmpty` (/repo/collections/ring_buffer.go:38-40). -/
def isEmpty (r : RingBuf α) : Bool := r.size == 0

/-- `Size` (/repo/collections/ring_buffer.go:87-89) is the field `size`, `Capacity` (/repo/collections/ring_buffer.go:91-93)
the field `capacity`. -/
def reportedSize (r : RingBuf α) : Nat := r.size

@[inherit_doc reportedSize]
def reportedCapacity (r : RingBuf α) : Nat := r.capacity

/-- `IsFull` (/repo/collections/ring_buffer.go:42-44). -/
def isFull (r : RingBuf α) : Bool := r.size == r.data.length

/-- `Clear` (/repo/collections/ring_buffer.go:107-111). -/
def clear (r : RingBuf α) : RingBuf α := { r with size := 0, head := 0, tail := 0 }

/-- `Pop` (/repo/collections/ring_buffer.go:57-71). -/
def pop (r : RingBuf α) : Go (α × RingBuf α) :=
  if r.isEmpty then ok (r.zero, r)
  else do
    let e ← idx r.data r.head
    let d ← setIdx r.data r.head r.zero
    let r := { r with data := d, head := (r.head + 1) % r.data.length, size := r.size - 1 }
    if r.size = 0 then return (e, r.clear)
    else return (e, r)

/-- The store at `tail` shared by `Push` (/repo/collections/ring_buffer.go:51-54 and /repo/collections/queue.go:25-28). -/
def store (r : RingBuf α) (v : α) : Go (RingBuf α) := do
  let d ← setIdx r.data r.tail v
  return { r with data := d, tail := (r.tail + 1) % d.length, size := r.size + 1 }

/-- `Push` (/repo/collections/ring_buffer.go:46-55). -/
def push (r : RingBuf α) (v : α) : Go (RingBuf α) := do
  let r ← (if r.isFull then do let (_, r) ← r.pop; return r else ok r : Go (RingBuf α))
  r.store v

/-- `Head` (/repo/collections/ring_buffer.go:73-76). -/
def headElem (r : RingBuf α) : Go α := do
  assert (!r.isEmpty)
  idx r.data r.head

/-- `Tail` (/repo/collections/ring_buffer.go:78-85). -/
def tailElem (r : RingBuf α) : Go α := do
  assert (!r.isEmpty)
  if r.tail > 0 then idx r.data (r.tail - 1)
  else idxI r.data ((r.data.length : Int) - 1)

/-- `Data` (/repo/collections/ring_buffer.go:95-105); `nil` is the empty list. -/
def slices (r : RingBuf α) : Go (List α × List α) :=
  if r.size = 0 then ok ([], [])
  else if r.tail ≤ r.head then do
    let a ← sliceFrom r.data r.head
    let b ← slice r.data 0 r.tail
    return (a, b)
  else do
    let a ← slice r.data r.head r.tail
    return (a, [])

/-- `NewQueue` (/repo/collections/queue.go:53-62); the embedded `capacity` field stays 0. -/
def newQueue (zero : α) (capacity : Nat) : Go (RingBuf α) := do
  assert (capacity > 0)
  return { data := List.replicate capacity zero, head := 0, tail := 0, size := 0, capacity := 0, zero := zero }

/-- `Queue.Push` (/repo/collections/queue.go:11-29). -/
def qPush (r : RingBuf α) (v : α) : Go (RingBuf α) := do
  let r ← (if r.isFull then do
      let (h, t) ← r.slices
      let newArray := List.replicate (r.size * 2) r.zero
      let newArray ← copyAt newArray 0 h
      let newArray ← copyAt newArray h.length t
      return { r with data := newArray, head := 0, tail := r.size }
    else ok r : Go (RingBuf α))
  r.store v

/-- `Queue.PopBack` (/repo/collections/queue.go:31-42). -/
def qPopBack (r : RingBuf α) : Go (α × RingBuf α) := do
  assert (r.size > 0)
  let v ← r.tailElem
  let r := { r with size := r.size - 1, tail := (r.tail + r.data.length - 1) % r.data.length }
  if r.size = 0 then return (v, r.clear)
  else return (v, r)

/-- `Queue.Peek` (/repo/collections/queue.go:44-51). -/
def qPeek (r : RingBuf α) (index : Int) : Go α := do
  let (h, t) ← r.slices
  if index < h.length then idxI h index
  else idxI t (index - h.length)

end RingBuf
end Avf
