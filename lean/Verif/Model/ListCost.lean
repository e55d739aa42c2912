import Verif.Model.DemuxerObjects
/-!
# Model of /repo/collections/linked_list.go and /repo/demuxer.go:254-290, counting steps

`Get` and `Remove` walk from the first node. Here are the same functions with a counter of the `next` pointers that the walk
follows; without the counter they are those of `Model/LinkedList.lean` (`C110_get_erased`, `C110_remove_erased`).
-/
namespace Avf
open Go
namespace LList
variable {α : Type}

/-- The walk of `Remove` and `Get` (/repo/collections/linked_list.go:34-41 and :64-71), `c` steps having been made. -/
def walkCount (l : LList α) (index : Int) : Nat → Int → Option Nat → Option Nat → Nat → Go ((Option Nat × Option Nat) × Nat)
  | 0, _, prev, off, c => ok ((prev, off), c)
  | n + 1, i, prev, off, c =>
    if i = index then ok ((prev, off), c)
    else do
      let node ← l.deref off
      walkCount l index n (i + 1) off node.next (c + 1)

/-- `Remove` (/repo/collections/linked_list.go:29-58). -/
def removeCount (l : LList α) (index : Int) : Go ((α × LList α) × Nat) := do
  assert (index < l.size)
  let ((prev, off), c) ← l.walkCount index l.size 0 l.fist l.fist 0
  let l' ← (if off = l.fist then do
      let n ← l.deref l.fist
      return { l with fist := n.next }
    else if off = l.last then return { l with last := prev }
    else do
      let n ← l.deref off
      l.setNext prev n.next : Go (LList α))
  let l' := { l' with size := l'.size - 1 }
  let l' := if l'.size = 0 then { l' with fist := none, last := none } else l'
  let n ← l'.deref off
  return ((n.data, l'), c)

/-- `Get` (/repo/collections/linked_list.go:60-73). -/
def getCount (l : LList α) (index : Int) : Go (α × Nat) := do
  assert (index < l.size)
  let ((_, off), c) ← l.walkCount index l.size 0 l.fist l.fist 0
  let n ← l.deref off
  return (n.data, c)

/-- The steps of the loop over the first `n` packets (/repo/demuxer.go:283-285). -/
def frontCount (l : LList α) : Nat → Go Nat
  | 0 => ok 0
  | n + 1 => do
    let a ← l.frontCount n
    let (_, b) ← l.getCount n
    return a + b

end LList

namespace ObjDemuxer

/-- The steps of `processBufferedPacket` from line 264 on (/repo/demuxer.go:264-290), up to the call of `forwardPacket` or
`OnProbeComplete`. That function itself only looks at the first elements of lists. -/
def enqueueCount (d : ObjDemuxer) (i : Int) (p : Nat) : Go Nat := do
  let q ← idxI d.queues i
  let q ← q.add p
  let prev : Int := (q.size : Int) - 2
  if prev < 0 then return 0
  else do
    let (_, a) ← q.getCount prev
    if d.base.completed then do
      let (_, b) ← q.removeCount prev
      return a + b
    else do
      let b ← q.frontCount (prev + 1).toNat
      return a + b

/-- The steps of `processBufferedPacket` (/repo/demuxer.go:254-290). -/
def processCount (d : ObjDemuxer) (p : Nat) : Go Nat := do
  let x ← idx d.shared.pool.objs p
  if x.index < d.queues.length then d.enqueueCount x.index p
  else ({ d with queues := d.queues ++ [LList.empty] } : ObjDemuxer).enqueueCount d.queues.length p

end ObjDemuxer
end Avf
