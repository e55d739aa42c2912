import Verif.Model.StreamMemory
/-!
# Cursors on shared memory: /repo/bufio/bytes_buffer.go, bytes_reader.go, bytes_wirter.go

`Model/BytesBuf` gives each cursor a byte list of its own. Here a cursor has a slice of a memory that other cursors and the slices
that the cursors returned may share, and the caller may append to a returned slice.

Simplifications: the capacity of the slice that a cursor was made for is its length; an array that `append` makes has no spare
capacity.
-/
namespace Avf
open Go

/-- What a method returns: nothing but the error, a number, or a slice with its capacity. -/
inductive CursorReply where
  | nothing
  | number (n : Nat)
  | slice (s : SliceRef) (cap : Nat)
deriving DecidableEq, Repr

/-- The methods of a cursor. -/
inductive SharedOp where
  | seek (n : Int) | seekBack (n : Int) | clear | reset (s : SliceRef)
  | readUint8 | readUint16 | readUint24 | readUint32 | readUint64 | readBytes (n : Int)
  | remaining | written
  | writeUint8 (v : Byte) | writeUint16 (v : BitVec 16) | writeUint32 (v : BitVec 32) | writeUint64 (v : BitVec 64)
  | write (src : SliceRef)

namespace MemReader

/-- Result of a method: the error or the reply, the cursor, the memory. -/
abbrev Done := Except String CursorReply × MemReader × Mem

/-- `Seek`, `SeekBack` (/repo/bufio/bytes_buffer.go:50-64). -/
def move (r : MemReader) (m : Mem) (f : BytesBuf → BytesBuf.Res Unit) : Done :=
  match f (r.view m) with
  | (.ok (), b) => (.ok .nothing, { r with offset := b.offset }, m)
  | (.error e, b) => (.error e, { r with offset := b.offset }, m)

/-- A typed read (/repo/bufio/bytes_reader.go:28-66). -/
def number {n : Nat} (r : MemReader) (m : Mem) (f : BytesBuf → Go (BytesBuf.Res (BitVec n))) : Go Done := do
  match ← f (r.view m) with
  | (.ok v, b) => return (.ok (.number v.toNat), { r with offset := b.offset }, m)
  | (.error e, b) => return (.error e, { r with offset := b.offset }, m)

/-- `b.data[lo:hi]` with its capacity. -/
def cut (r : MemReader) (lo hi : Int) : Go CursorReply :=
  if 0 ≤ lo ∧ lo ≤ hi ∧ hi ≤ r.data.len then
    ok (.slice ⟨r.data.arr, r.data.off + lo.toNat, hi.toNat - lo.toNat⟩ (r.data.len - lo.toNat))
  else panic

/-- `ReadBytes` (/repo/bufio/bytes_reader.go:68-75). -/
def take (r : MemReader) (m : Mem) (n : Int) : Go Done :=
  match (r.view m).peekN n with
  | (.error e, _) => ok (.error e, r, m)
  | (.ok (), b) => do return (.ok (← r.cut r.offset b.offset), { r with offset := b.offset }, m)

/-- A write (/repo/bufio/bytes_wirter.go:28-71): `copy(b.data[b.offset-n:], v)`, or, if `exact`, a store that panics if there is no room for it. -/
def store (r : MemReader) (m : Mem) (exact : Bool) (v : Bytes) : Go Done :=
  match (r.view m).peekN v.length with
  | (.error e, _) => ok (.error e, r, m)
  | (.ok (), b) =>
    let start := b.offset - v.length
    if start < 0 ∨ r.data.len < start ∨ (exact = true ∧ r.data.len - start < v.length) then panic
    else ok (.ok .nothing, { r with offset := b.offset },
      m.copy ⟨r.data.arr, r.data.off + start.toNat, r.data.len - start.toNat⟩ v)

end MemReader

/-- A method call. -/
def SharedOp.run (o : SharedOp) (r : MemReader) (m : Mem) : Go MemReader.Done :=
  match o with
  | seek n => ok (r.move m fun b => b.seek n)
  | seekBack n => ok (r.move m fun b => b.seekBack n)
  | clear => ok (.ok .nothing, { r with offset := 0 }, m)
  | reset s => ok (.ok .nothing, MemReader.new s, m)
  | readUint8 => r.number m BytesBuf.readUint8
  | readUint16 => r.number m BytesBuf.readUint16
  | readUint24 => r.number m BytesBuf.readUint24
  | readUint32 => r.number m BytesBuf.readUint32
  | readUint64 => r.number m BytesBuf.readUint64
  | readBytes n => r.take m n
  | remaining => do return (.ok (← r.cut r.offset r.data.len), r, m)
  | written => do return (.ok (← r.cut 0 r.offset), r, m)
  | writeUint8 v => r.store m true [v]
  | writeUint16 v => r.store m true (be16 v)
  | writeUint32 v => r.store m true (be32 v)
  | writeUint64 v => r.store m true (be64 v)
  | write src => r.store m false (m.read src)

/-- Memory, the cursors on it, and the slices that they returned, with their capacities. -/
structure CursorSet where
  mem : Mem
  cursors : List MemReader
  handed : List (SliceRef × Nat) := []

/-- A method call of a cursor, or `append` to a slice that was returned. -/
inductive SharedEvent where
  | call (i : Nat) (o : SharedOp)
  | append (k : Nat) (v : Bytes)

/-- `append(s, v...)` in Go: in place if the capacity suffices, otherwise in a new array. -/
def Mem.appendTo (m : Mem) (s : SliceRef) (cap : Nat) (v : Bytes) : (SliceRef × Nat) × Mem :=
  if s.len + v.length ≤ cap then
    ((⟨s.arr, s.off, s.len + v.length⟩, cap), m.copy ⟨s.arr, s.off + s.len, v.length⟩ v)
  else ((⟨m.length, 0, s.len + v.length⟩, s.len + v.length), m ++ [m.read s ++ v])

/-- One event; returned slices are remembered. -/
def CursorSet.step (σ : CursorSet) : SharedEvent → Go (Except String CursorReply × CursorSet)
  | .call i o =>
    match σ.cursors[i]? with
    | none => panic
    | some r => do
      let (x, r, m) ← o.run r σ.mem
      return (x, { mem := m, cursors := σ.cursors.set i r,
                   handed := match x with
                     | .ok (.slice s cap) => σ.handed ++ [(s, cap)]
                     | _ => σ.handed })
  | .append k v =>
    match σ.handed[k]? with
    | none => panic
    | some (s, cap) =>
      let (t, m) := σ.mem.appendTo s cap v
      ok (.ok (.slice t.1 t.2), { σ with mem := m, handed := σ.handed ++ [t] })

/-- A history. -/
def CursorSet.run (σ : CursorSet) : List SharedEvent → Go (List (Except String CursorReply) × CursorSet)
  | [] => ok ([], σ)
  | e :: es => do
    let (x, σ) ← σ.step e
    let (xs, σ) ← σ.run es
    return (x :: xs, σ)

end Avf
