import Verif.Model.BlockBuffer
/-! # Specification: the room in a ring of blocks -/
namespace Avf

/-- Bytes that can follow in the block being written without new memory, seen from where the first and the last block lie: in front of
the first block if the ring has wrapped; else behind the last block, or at the very beginning, where the unfinished block has to go
too. -/
def RBBuf.room (r : RBBuf) : Nat :=
  match r.blocks.head?, r.blocks.getLast? with
  | some first, some last =>
    let stop := last.index + last.size
    let pending := if last.completed then 0 else last.size
    let limit := if r.blocks.length = 1 then r.data.len else r.capacity
    if stop < first.index then first.index - stop else max (limit - stop) (first.index - pending)
  | _, _ => r.data.len

end Avf
