import Verif.Model.SharedCursors
import Verif.Spec.Bits
import Verif.Spec.PacketMemory
import Verif.Lemmas.BytesBuf
/-!
# Who sees what is written

The bytes of a memory, and what a call writes, told from the position of the cursor alone.
-/
namespace Avf
open Go

/-- The byte at place `k` of array `a`. -/
def Mem.byte (m : Mem) (a k : Nat) : Option Byte := (m[a]?).bind fun x => x[k]?

/-- The place belongs to the slice. -/
def SliceRef.Has (s : SliceRef) (a k : Nat) : Prop := a = s.arr ∧ s.off ≤ k ∧ k < s.off + s.len

instance (s : SliceRef) (a k : Nat) : Decidable (s.Has a k) := by unfold SliceRef.Has; infer_instance

/-- `m'` is `m` with `v` in the slice `s`. -/
def Mem.Painted (m m' : Mem) (s : SliceRef) (v : Bytes) : Prop :=
  (∀ a : Nat, (m'[a]?).map List.length = (m[a]?).map List.length) ∧ ∀ a k, m'.byte a k = if s.Has a k then v[k - s.off]? else m.byte a k

/-- A cursor on a slice of the memory, inside of it. -/
structure MemReader.Sits (r : MemReader) (m : Mem) : Prop where
  valid : r.data.ValidIn m
  length : r.length = r.data.len
  lo : 0 ≤ r.offset
  hi : r.offset ≤ r.data.len
  fits : (r.data.len : Int) < 2 ^ 63

/-- The next `n` bytes of a cursor. -/
def MemReader.next (r : MemReader) (n : Nat) : SliceRef := ⟨r.data.arr, r.data.off + r.offset.toNat, n⟩

/-- The bytes that a call is to write. -/
def SharedOp.bytes (m : Mem) : SharedOp → Option Bytes
  | writeUint8 v => some (beBytes 1 v.toNat)
  | writeUint16 v => some (beBytes 2 v.toNat)
  | writeUint32 v => some (beBytes 4 v.toNat)
  | writeUint64 v => some (beBytes 8 v.toNat)
  | write src => some (m.read src)
  | _ => none

/-- How many bytes a typed read takes. -/
def SharedOp.width : SharedOp → Option Nat
  | readUint8 => some 1
  | readUint16 => some 2
  | readUint24 => some 3
  | readUint32 => some 4
  | readUint64 => some 8
  | _ => none

/-- The arguments are 64-bit ints and slices of the memory. -/
def SharedOp.InRange (m : Mem) : SharedOp → Prop
  | seek n | seekBack n | readBytes n => I64 n
  | reset s | write s => s.ValidIn m ∧ (s.len : Int) < 2 ^ 63
  | _ => True

/-- Cursors sit on the memory, and so do the slices that they returned, with their capacities. -/
structure CursorSet.Sound (σ : CursorSet) : Prop where
  cursors : ∀ r ∈ σ.cursors, r.Sits σ.mem
  handed : ∀ x ∈ σ.handed, x.1.len ≤ x.2 ∧ SliceRef.ValidIn ⟨x.1.arr, x.1.off, x.2⟩ σ.mem

/-- Arguments of an event. -/
def SharedEvent.InRange (m : Mem) : SharedEvent → Prop
  | call _ o => o.InRange m
  | append _ _ => True

/-- All arguments of a history are in range when they are used. -/
def CursorSet.Legal (σ : CursorSet) : List SharedEvent → Prop
  | [] => True
  | e :: es => e.InRange σ.mem ∧ ∀ x σ', σ.step e = ok (x, σ') → σ'.Legal es

/-- What an event writes, and where: the next bytes of the cursor if the data fit into its slice; what follows the slice
that is appended to if the data fit into its capacity. -/
def CursorSet.writes (σ : CursorSet) : SharedEvent → Option (SliceRef × Bytes)
  | .call i o =>
    match σ.cursors[i]?, o.bytes σ.mem with
    | some r, some v => if r.offset + v.length ≤ r.data.len then some (r.next v.length, v) else none
    | _, _ => none
  | .append k v =>
    match σ.handed[k]? with
    | some (s, cap) => if s.len + v.length ≤ cap then some (⟨s.arr, s.off + s.len, v.length⟩, v) else none
    | none => none

/-- All that a history writes, in order. -/
def CursorSet.trace (σ : CursorSet) : List SharedEvent → List (SliceRef × Bytes)
  | [] => []
  | e :: es => (σ.writes e).toList ++ match σ.step e with
    | .ok (_, σ') => σ'.trace es
    | _ => []

/-- The byte at a place after some writes: that of the last write there. -/
def lastByte (a k : Nat) (old : Option Byte) (ws : List (SliceRef × Bytes)) : Option Byte :=
  ws.foldl (fun b w => if w.1.Has a k then w.2[k - w.1.off]? else b) old

end Avf
