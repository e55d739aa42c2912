import Verif.Spec.DemuxerSystem
/-! # Specification: where the packet objects are -/
namespace Avf
open Go

/-- The garbage collector, which may drop packets from the pool, does not. -/
def Act.Lasting : Act → Prop
  | .collect _ => False
  | _ => True

/-- No packet is taken from the pool. -/
def Act.MakesNone : Act → Prop
  | .audio .. | .video .. => False
  | _ => True

/-- Every packet object that there is, is in exactly one place, once: in the pool, in the queue of a demuxer, or in the hands of others. -/
def ObjSystem.NoneLost (S : ObjSystem) : Prop :=
  (S.shared.pool.pool ++ (S.queued ++ S.shared.theirs)).Perm (List.range S.shared.pool.objs.length)

/-- Packets that are in use. -/
def ObjSystem.inUse (S : ObjSystem) : Nat := S.queued.length + S.shared.theirs.length

/-- The pool at the beginning of an operation of demuxer `i`, when others have done what they do before it. -/
def ObjSystem.before (S : ObjSystem) (i : Nat) (o : ObjOracle) : Shared :=
  match S.cores[i]? with
  | some c => (o.acts c.base.calls.length).foldl (Act.run none) S.shared
  | none => S.shared

/-- The pool makes a new packet only if it has none (`sync.Pool` may also do so if it has some). -/
def ObjSystem.Thrifty (S : ObjSystem) (i : Nat) (o : ObjOracle) : Prop :=
  (S.before i o).pool.pool ≠ [] → ∃ k < (S.before i o).pool.pool.length, o.pick = some k

/-- `P` holds before every operation. -/
def ObjSystem.Along (P : ObjSystem → Nat → ObjOracle → Prop) (S : ObjSystem) : List (Nat × ObjOracle × DemuxOp) → Prop
  | [] => True
  | (i, o, e) :: H => P S i o ∧ ∀ S', S.step i o e = ok S' → Along P S' H

/-- All demuxers have found their tracks. -/
def ObjSystem.AllCompleted (S : ObjSystem) : Prop := ∀ c ∈ S.cores, c.base.completed = true

/-- Tracks of all demuxers. -/
def ObjSystem.trackCount (S : ObjSystem) : Nat := (S.cores.map fun c => c.base.tracks.tracks.length).sum

end Avf
