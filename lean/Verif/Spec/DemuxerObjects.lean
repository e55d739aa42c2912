import Verif.Model.DemuxerObjects
import Verif.Spec.Demuxer
import Verif.Spec.PacketPool
/-! # Specification: well-behaved users of the packet pool -/
namespace Avf
open Go

/-- What is asked of others: nobody frees or writes a packet that is not his; a handler may write to the packet it is called with
but leaves its stream index alone. -/
def Act.Fair : Act → Prop
  | .rogueFree _ | .rogueUse _ _ => False
  | .touch f => ∀ x, (f x).index = x.index
  | _ => True

/-- What Go guarantees about the choices, and what is asked of the preprocess callback. -/
structure ObjOracle.Choices (o : ObjOracle) : Prop where
  order : ∀ m, (o.order m).Perm m
  sortPerm : ∀ objs l, (o.sortObjs objs l).Perm l
  sorted : ∀ objs l, (o.sortObjs objs l).Pairwise fun a b => ∀ x y : AVPacket, objs[a]? = some x → objs[b]? = some y → ¬ y.dts < x.dts
  index : ∀ p, (o.preprocess p).index = p.index
  buffer : ∀ p, (o.preprocess p).bufferIndex = p.bufferIndex

/-- The same, and others are fair. -/
structure ObjOracle.Valid (o : ObjOracle) : Prop extends o.Choices where
  fair : ∀ n, ∀ a ∈ o.acts n, a.Fair

/-- The elements of a linked list: following `next` from `fist` for `size` steps. -/
def LList.elems {α : Type} (l : LList α) : Nat → Option Nat → List α
  | 0, _ => []
  | _, none => []
  | n + 1, some p =>
    match l.heap[p]? with
    | none => []
    | some x => x.data :: l.elems n x.next

/-- The packets in the queues, by their pointers. -/
def ObjDemuxer.queued (d : ObjDemuxer) : List (List Nat) := d.queues.map fun q => q.elems q.size q.fist

/-- The contents of a packet. -/
def ObjDemuxer.deref (d : ObjDemuxer) (p : Nat) : Option AVPacket := d.shared.pool.objs[p]?

/-- A demuxer with packet objects is in the state of a demuxer with packet values: the same calls, tracks and settings, the queued
pointers lead to the queued packets; no two of them are equal, none of them is in the pool or somebody else's. -/
structure SameDemuxer (d : ObjDemuxer) (s : Demuxer) : Prop where
  rest : s = { d.base with packets := s.packets }
  packets : d.queued.map (·.map d.deref) = s.packets.map (·.map some)
  distinct : (d.queued.flatten ++ d.shared.theirs).Nodup
  apart : ∀ p ∈ d.queued.flatten, p ∉ d.shared.pool.pool

/-- Both run or both panic. -/
def SameOutcome : Go ObjDemuxer → Go Demuxer → Prop
  | .ok d, .ok s => SameDemuxer d s
  | .err _, .err _ => True
  | .panic, .panic => True
  | _, _ => False

end Avf
