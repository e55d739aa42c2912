import Verif.Model.Demuxer
/-!
# Model of /repo/demuxer.go: handlers that come and go, `Close`, `Input`

`Model/Demuxer.lean` assumes that a handler is set. Here the handler and the preprocess callback may be nil. A call of a method
of the nil handler is a panic; so an operation without a handler is what it is with one, if no method of the handler is
called, and a panic otherwise. (An operation that panics ends the run, so it does not matter what it did before.)
-/
namespace Avf
open Go

/-- `BaseDemuxer`, and whether `Handler` and `onPreprocessPacket` are set (/repo/demuxer.go:31 and 40). -/
structure Life where
  dem : Demuxer
  handler : Bool := false
  preprocess : Bool := false

/-- Calls on a demuxer. -/
inductive LifeOp where
  | setHandler (set : Bool)
  | setPreprocess (set : Bool)
  | close
  | input (data : Bytes)
  | discardBack (index : Int)
  | discardHead (index : Int)
  | use (o : Oracle) (e : DemuxOp)

/-- Methods of the handler (/repo/handler.go:10-20). -/
def Call.isHandler : Call → Bool
  | .newTrack _ | .trackComplete | .trackNotFound | .packet _ => true
  | _ => false

namespace Life

/-- The choices, with the callback if it is set (/repo/demuxer.go:246-248). -/
def oracle (l : Life) (o : Oracle) : Oracle := if l.preprocess then o else { o with preprocess := id }

/-- One call: `SetHandler` (/repo/demuxer.go:48-50), `SetOnPreprocessPacketHandler` (/repo/demuxer.go:478-480),
`Close` (/repo/demuxer.go:482-485), `Input`
(/repo/demuxer.go:43-46), `DiscardBackPacket` (/repo/demuxer.go:303-305), `DiscardHeadPacket`
(/repo/demuxer.go:307-309), and the operations of `DemuxOp`. -/
def step (l : Life) : LifeOp → Go Life
  | .setHandler b => ok { l with handler := b }
  | .setPreprocess b => ok { l with preprocess := b }
  | .close => ok { l with handler := false, preprocess := false }
  | .input _ => panic
  | .discardBack i => ok { l with dem := l.dem.call [.discardBack i] }
  | .discardHead i => ok { l with dem := l.dem.call [.discardHead i] }
  | .use o e => do
    let d ← e.run (l.oracle o) l.dem
    if ¬ l.handler ∧ (d.calls.drop l.dem.calls.length).any Call.isHandler then panic
    else return { l with dem := d }

/-- Calls in their order. -/
def run (l : Life) : List LifeOp → Go Life
  | [] => ok l
  | x :: xs => do
    let l ← l.step x
    l.run xs

end Life
end Avf
