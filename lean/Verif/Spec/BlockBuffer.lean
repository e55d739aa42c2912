import Verif.Go
/-!
# Specification of a block buffer

The specification knows nothing of memory: a block is the list of bytes written to it and a flag "already fetched".
-/
namespace Avf
open Go

/-- Operations of a block buffer. `splitOff` is `SplitOff` with the new buffer left alone. -/
inductive BufOp where
  | write (d : Bytes)
  | fetch
  | pop
  | popBack
  | clear
  | pending
  | size
  | data
  | splitOff
deriving DecidableEq, Repr

/-- What the caller sees. -/
inductive BufObs where
  | unit
  | num (n : Nat)
  | bytes (d : Option Bytes)
deriving DecidableEq, Repr

/-- A buffer: its blocks, everything written since it was last empty, and the seal. -/
structure BufSpec where
  blocks : List (Bytes × Bool)
  all : Bytes
  sealed : Bool

namespace BufSpec

def empty : BufSpec := ⟨[], [], false⟩

/-- Add bytes to the last block if it has not been fetched, otherwise start a block with them. -/
def addBytes (bs : List (Bytes × Bool)) (d : Bytes) : List (Bytes × Bool) :=
  match bs.getLast? with
  | some (c, false) => bs.dropLast ++ [(c ++ d, false)]
  | _ => bs ++ [(d, false)]

/-- Remember the bytes as long as there is a block. -/
def norm (s : BufSpec) : BufSpec := if s.blocks.isEmpty then { s with all := [] } else s

end BufSpec

/-- The specification of every operation. -/
def BufOp.spec : BufOp → BufSpec → Go (BufObs × BufSpec)
  | write d, s => if s.sealed then panic else ok (.unit, { s with blocks := BufSpec.addBytes s.blocks d, all := s.all ++ d })
  | fetch, s =>
    if s.sealed then panic
    else match s.blocks.getLast? with
      | none => panic
      | some (_, true) => ok (.bytes none, s)
      | some (c, false) => ok (.bytes (some c), { s with blocks := s.blocks.dropLast ++ [(c, true)] })
  | pop, s => if s.sealed then panic else ok (.unit, BufSpec.norm { s with blocks := s.blocks.drop 1 })
  | popBack, s =>
    if s.sealed then panic
    else if s.blocks.isEmpty then panic
    else ok (.unit, BufSpec.norm { s with blocks := s.blocks.dropLast })
  | clear, _ => ok (.unit, BufSpec.empty)
  | pending, s =>
    match s.blocks.getLast? with
    | some (c, false) => ok (.num c.length, s)
    | _ => ok (.num 0, s)
  | size, s => ok (.num s.blocks.length, s)
  | data, s => ok (.bytes (some s.all), s)
  | splitOff, s => ok (.unit, { s with sealed := true })

end Avf
