import Verif.Model.PacketMemory
import Verif.Spec.StreamMemory
/-!
# Where a conversion may write
-/
namespace Avf
open Go

/-- No byte belongs to both slices. -/
def SliceRef.Apart (s t : SliceRef) : Prop :=
  s.arr = t.arr → ∀ k, ¬ (s.off ≤ k ∧ k < s.off + s.len ∧ t.off ≤ k ∧ k < t.off + t.len)

/-- All bytes of `s` are bytes of `t`. -/
def SliceRef.Inside (s t : SliceRef) : Prop := s.arr = t.arr ∧ t.off ≤ s.off ∧ s.off + s.len ≤ t.off + t.len

/-- All arrays are still there and no byte has changed that is not a byte of `b`. There may be new arrays. -/
def Mem.OnlyIn (b : SliceRef) (m m' : Mem) : Prop :=
  ∀ (a : Nat) (x : Bytes), m[a]? = some x → ∃ y, m'[a]? = some y ∧ y.length = x.length ∧
    ∀ k, ¬ (a = b.arr ∧ b.off ≤ k ∧ k < b.off + b.len) → y[k]? = x[k]?

/-- From `m` on, `x` does to the slice `b` what `v` does to its contents, and nothing else; an error or a panic is the same. -/
def Fills {α : Type} (b : SliceRef) (m : Mem) (x : MemM α) (v : Go (α × Bytes)) : Prop :=
  match v with
  | .ok (a, out) => ∃ m', x m = ok (.ok a, m') ∧ Mem.OnlyIn b m m' ∧ m'.read b = out
  | .err e => ∃ m', x m = ok (.error e, m') ∧ Mem.OnlyIn b m m'
  | .panic => x m = Go.panic

/-- All slices of a packet. -/
def PacketM.slices (p : PacketM) : List SliceRef := p.data :: (p.dataAVCC.toList ++ p.dataAnnexB.toList)

/-- What `OnBufferAlloc` must do: it changes no memory that there is, and gives a slice with the contents `g size`, of memory that
there was at `m` or of new memory, that has no byte of the slices `used`. -/
def ServesBuffer (m : Mem) (used : List SliceRef) (f : Nat → Mem → SliceRef × Mem) (g : Nat → Bytes) : Prop :=
  ∀ (size : Nat) (m₁ : Mem), m <+: m₁ →
    m₁ <+: (f size m₁).2 ∧ (f size m₁).1.ValidIn (f size m₁).2 ∧ (f size m₁).2.read (f size m₁).1 = g size ∧
      ((f size m₁).1.arr < m.length ∨ m₁.length ≤ (f size m₁).1.arr) ∧ ∀ s ∈ used, s.Apart (f size m₁).1

/-- The packet `p` in memory `m`, of a stream with the slices `stream`, is the packet `v`. -/
structure PacketM.Stands (m : Mem) (stream : List SliceRef) (p : PacketM) (v : AVPacket) : Prop where
  data : m.read p.data = v.data
  key : p.key = v.key
  mediaType : p.mediaType = v.mediaType
  codecID : p.codecID = v.codecID
  packetType : p.packetType = v.packetType
  dataAVCC : p.dataAVCC.map m.read = v.dataAVCC
  dataAnnexB : p.dataAnnexB.map m.read = v.dataAnnexB
  alloc :
    match p.onBufferAlloc, v.onBufferAlloc with
    | none, none => True
    | some f, some g => ServesBuffer m (p.slices ++ stream) f g
    | _, _ => False

/-- `b` is empty, or a slice that `make` or `OnBufferAlloc` gave. -/
def PacketM.Buffer (m : Mem) (p : PacketM) (b : SliceRef) : Prop :=
  b.len = 0 ∨ ∃ (size : Nat) (m₁ : Mem), m <+: m₁ ∧
    match p.onBufferAlloc with
    | none => b = (m₁.make size).1
    | some f => b = (f size m₁).1

/-- What a conversion in memory does if the conversion of values gives `v`: it panics where that panics, and otherwise gives a
slice with the same bytes and a packet with the same bytes, having written only to a buffer that is apart from the packet and the
stream; the slice is part of that buffer or one of the slices of the packet. -/
def Converts (m : Mem) (stream : List SliceRef) (p : PacketM) (x : MemM (SliceRef × PacketM)) (v : Go (Bytes × AVPacket)) : Prop :=
  match v with
  | .ok (out, v') => ∃ (r : SliceRef) (p' : PacketM) (m' : Mem) (b : SliceRef),
      x m = ok (.ok (r, p'), m') ∧ m'.read r = out ∧ m'.read p'.data = v'.data ∧ p'.dataAVCC.map m'.read = v'.dataAVCC ∧
        p'.dataAnnexB.map m'.read = v'.dataAnnexB ∧ Mem.OnlyIn b m m' ∧ (∀ s ∈ p.slices ++ stream, s.Apart b) ∧ p.Buffer m b ∧
        r.ValidIn m' ∧ (r.Inside b ∨ r ∈ p.slices)
  | .err _ => False
  | .panic => x m = Go.panic

end Avf
