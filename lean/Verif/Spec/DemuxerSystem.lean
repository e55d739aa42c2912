import Verif.Model.DemuxerSystem
import Verif.Spec.DemuxerObjects
/-! # Specification: demuxers that share the packet pool are independent -/
namespace Avf
open Go

/-- The operations of one demuxer. -/
def ownOps (i : Nat) (H : List (Nat × ObjOracle × DemuxOp)) : List DemuxOp := (H.filter fun x => x.1 = i).map fun x => x.2.2

/-- A demuxer with packet values, alone in the world, has gone through the operations `ops` with outcome `r`, for some choices that
Go may make. -/
def Alone (name : String) (autoFree : Bool) (ops : List DemuxOp) (r : Go Demuxer) : Prop :=
  ∃ h : List (Oracle × DemuxOp), h.map Prod.snd = ops ∧ (∀ x ∈ h, x.1.Valid ∧ (x.1.audioType = 0 ∨ x.1.audioType = packNone)) ∧
    runDemux (Demuxer.new name autoFree) h = r

/-- All packets that are queued in demuxers. -/
def ObjSystem.queued (S : ObjSystem) : List Nat := S.cores.flatMap fun c => (S.view c).queued.flatten

/-- What is claimed of a process with demuxers `names` after the operations `H`: each demuxer is in a state that it could have reached
alone with its own operations; no packet is in two queues, or twice in a queue, or queued and free. The process ends at the first
operation that would have panicked in a demuxer that is alone. -/
def Independent (names : List (String × Bool)) (H : List (Nat × ObjOracle × DemuxOp)) : Go ObjSystem → Prop
  | .ok S =>
    S.cores.length = names.length ∧
    (∀ (i : Nat) (n : String × Bool) (c : DemuxCore), names[i]? = some n → S.cores[i]? = some c →
      ∃ s, Alone n.1 n.2 (ownOps i H) (ok s) ∧ SameDemuxer (S.view c) s) ∧
    (S.queued ++ S.shared.theirs).Nodup ∧ ∀ p ∈ S.queued, p ∉ S.shared.pool.pool
  | .panic => ∃ H1 i o e H2 n, H = H1 ++ (i, o, e) :: H2 ∧ names[i]? = some n ∧ Alone n.1 n.2 (ownOps i H1 ++ [e]) .panic
  | .err _ => ∃ H1 i o e H2 n m, H = H1 ++ (i, o, e) :: H2 ∧ names[i]? = some n ∧ Alone n.1 n.2 (ownOps i H1 ++ [e]) (.err m)

end Avf
