import Verif.Model.HandlerFaults
import Verif.Spec.Handler
/-! # Specification: what is on the disk when the file handler dies -/
namespace Avf
open Go

/-- What the handler writes to the file of track `i` for the packets `ps`. -/
def stored (ts : List AVStream) (ps : List AVPacket) (i : Nat) : Bytes :=
  match ts[i]? with
  | some t => (ofTrack i ps).flatMap fun p => doubled t p ++ elementary t p
  | none => []

/-- `d` may be left behind in a session that began with the disk `base`: the first `k` packets are there as a whole, and some part of what
packet `k` adds; nothing else has changed. -/
def LeftBehind (path : List Char) (base : Disk) (ts : List AVStream) (ps : List AVPacket) (d : Disk) : Prop :=
  ∃ (k : Nat) (w : Nat → Bytes), k ≤ ps.length ∧
    (∀ i, stored ts (ps.take k) i <+: w i ∧ w i <+: stored ts (ps.take (k + 1)) i) ∧
    (∀ (i : Nat) t n, ts[i]? = some t → FileHandler.fileName path t = ok n →
      let old := (base.lookup n).getD ⟨132, []⟩
      d.lookup n = some ⟨old.mode, w i ++ old.data.drop (w i).length⟩ ∨ w i = [] ∧ d.lookup n = base.lookup n) ∧
    ∀ n, (∀ t ∈ ts, FileHandler.fileName path t ≠ ok n) → d.lookup n = base.lookup n

end Avf
