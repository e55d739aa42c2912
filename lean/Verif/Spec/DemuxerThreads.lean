import Verif.Model.DemuxerThreads
import Verif.Spec.DemuxerObjects
/-! # Specification: goroutines that do not get in each other's way -/
namespace Avf
open Go

/-- The packet that a goroutine reads, writes, gives back or passes on next. -/
def Prog.touches {α : Type} : Prog α → Option Nat
  | .stop _ | .get _ | .recv _ => none
  | .put p _ | .load p _ | .store p _ _ | .send p _ => some p

/-- No data race: two goroutines never are about to access the same packet, and none is about to access a packet of the pool, or
one that is on its way to another, or one that is not there. -/
structure Machine.RaceFree {α : Type} (m : Machine α) : Prop where
  apart : ∀ (i j : Nat) (s t : Prog α) (p q : Nat), i ≠ j → m.threads[i]? = some s → m.threads[j]? = some t →
    s.touches = some p → t.touches = some q → p ≠ q
  pool : ∀ (i : Nat) (s : Prog α) (p : Nat), m.threads[i]? = some s → s.touches = some p → p ∉ m.pool.pool ∧ p ∉ m.mail ∧
    p < m.pool.objs.length

namespace Threads

/-- What Go guarantees about the choices, and what is asked of the callbacks: the stream index and the buffer index of a packet stay. -/
structure TOracle.Valid (o : TOracle) : Prop where
  order : ∀ m, (o.order m).Perm m
  positions : ∀ xs, (o.positions xs).Perm (List.range xs.length)
  sorted : ∀ xs, ((o.positions xs).filterMap (xs[·]?)).Pairwise fun a b => ¬ b.dts < a.dts
  index : ∀ p, (o.preprocess p).index = p.index
  buffer : ∀ p, (o.preprocess p).bufferIndex = p.bufferIndex
  touch : ∀ n x, (o.touch n x).index = x.index

/-- What a goroutine does: a history of operations on a new demuxer, and what it does with packets in between. -/
structure Work where
  name : String
  autoFree : Bool
  history : List ((TOracle × DemuxOp) ⊕ HandlerAct)

/-- The operations of a history. -/
def opsOf (H : List ((TOracle × DemuxOp) ⊕ HandlerAct)) : List (TOracle × DemuxOp) := H.filterMap fun
  | .inl x => some x
  | .inr _ => none

/-- The operations of a goroutine. -/
def Work.ops (w : Work) : List (TOracle × DemuxOp) := opsOf w.history

/-- The goroutine. -/
def Work.prog (w : Work) : Prog TDemuxer := (TDemuxer.new w.name w.autoFree).run w.history

/-- A goroutine is done as a demuxer with packet values would be. -/
def SameEnd (objs : List AVPacket) : Go TDemuxer → Go Demuxer → Prop
  | .ok d, .ok s => s = { d.base with packets := s.packets } ∧ d.queues.map (·.map (objs[·]?)) = s.packets.map (·.map some) ∧
      (d.queues.flatten ++ d.kept).Nodup
  | .err _, .err _ => True
  | .panic, .panic => True
  | _, _ => False

end Threads
end Avf
