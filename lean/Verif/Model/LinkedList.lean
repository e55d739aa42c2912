import Verif.Go
/-!
# Model of /repo/collections/linked_list.go

Nodes live in a heap; a pointer is an index into it (`none` = nil).  Nodes are never freed (garbage collection is not
observable).  Dereferencing nil is a panic.
-/
namespace Avf
open Go

/-- `Node[T]` (/repo/collections/linked_list.go:5-8). -/
structure LNode (α : Type) where
  data : α
  next : Option Nat
deriving DecidableEq, Repr

/-- `LinkedList[T]` (/repo/collections/linked_list.go:10-14) together with the heap its nodes live in. -/
structure LList (α : Type) where
  heap : List (LNode α)
  fist : Option Nat
  last : Option Nat
  size : Nat
deriving DecidableEq, Repr

namespace LList
variable {α : Type}

/-- The zero value `LinkedList[T]{}`. -/
def empty : LList α := { heap := [], fist := none, last := none, size := 0 }

/-- Read a node through a pointer. -/
def deref (l : LList α) : Option Nat → Go (LNode α)
  | none => panic
  | some p => idx l.heap p

/-- `p.next = q`. -/
def setNext (l : LList α) (p : Option Nat) (q : Option Nat) : Go (LList α) :=
  match p with
  | none => panic
  | some i => do
    let n ← idx l.heap i
    return { l with heap := l.heap.set i { n with next := q } }

/-- `Add` (/repo/collections/linked_list.go:16-27). -/
def add (l : LList α) (data : α) : Go (LList α) := do
  let node := l.heap.length
  let l1 := { l with heap := l.heap ++ [(⟨data, none⟩ : LNode α)] }
  let l2 ← (if l1.last.isSome then do
      let l2 ← l1.setNext l1.last (some node)
      return { l2 with last := some node }
    else ok { l1 with fist := some node, last := some node } : Go (LList α))
  return { l2 with size := l2.size + 1 }

/-- The walk of `Remove` and `Get` (/repo/collections/linked_list.go:34-41 and :64-71): `n` iterations are left, `i` is the
Go loop variable; returns `(prevNode, offsetNode)`. -/
def walk (l : LList α) (index : Int) : Nat → Int → Option Nat → Option Nat → Go (Option Nat × Option Nat)
  | 0, _, prev, off => ok (prev, off)
  | n + 1, i, prev, off =>
    if i = index then ok (prev, off)
    else do
      let node ← l.deref off
      walk l index n (i + 1) off node.next

/-- `Remove` (/repo/collections/linked_list.go:29-58). -/
def remove (l : LList α) (index : Int) : Go (α × LList α) := do
  assert (index < l.size)
  let (prev, off) ← l.walk index l.size 0 l.fist l.fist
  let l' ← (if off = l.fist then do
      let n ← l.deref l.fist
      return { l with fist := n.next }
    else if off = l.last then return { l with last := prev }
    else do
      let n ← l.deref off
      l.setNext prev n.next : Go (LList α))
  let l' := { l' with size := l'.size - 1 }
  let l' := if l'.size = 0 then { l' with fist := none, last := none } else l'
  let n ← l'.deref off
  return (n.data, l')

/-- `Get` (/repo/collections/linked_list.go:60-73). -/
def get (l : LList α) (index : Int) : Go α := do
  assert (index < l.size)
  let (_, off) ← l.walk index l.size 0 l.fist l.fist
  let n ← l.deref off
  return n.data

/-- `Size` (/repo/collections/linked_list.go:75-78). -/
def reportedSize (l : LList α) : Nat := l.size

end LList
end Avf
