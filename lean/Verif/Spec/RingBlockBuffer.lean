import Verif.Spec.BlockBuffer
/-!
# Specification of the ring block buffer: the block being written

The ring buffer may forget old blocks when it allocates new memory, so the number of blocks (`Size()`) is not determined
by the history; but the block being written must survive wrapping, moving and growing unchanged.
-/
namespace Avf
open Go

/-- Number of blocks, contents of the block being written (`none`: there is none), seal. -/
structure RingSt where
  size : Nat
  pend : Option Bytes
  sealed : Bool

/-- Allowed outcomes of every operation. -/
def RingSt.allowed : BufOp → RingSt → Go (BufObs × RingSt) → Prop
  | .write d, s, res => ∃ n, (n = (if s.pend.isSome then s.size else s.size + 1) ∨ n = 1) ∧
      res = ok (.unit, { s with size := n, pend := some (s.pend.getD [] ++ d) })
  | .fetch, s, res =>
      if s.sealed ∨ s.size = 0 then res = panic else res = ok (.bytes s.pend, { s with pend := none })
  | .pop, s, res =>
      if s.sealed then res = panic
      else ∃ n, (n = s.size ∨ n = s.size - 1) ∧
        res = ok (.unit, { s with size := n, pend := if n = 0 then none else s.pend })
  | .popBack, s, res =>
      if s.sealed ∨ s.size = 0 then res = panic else res = ok (.unit, { s with size := s.size - 1, pend := none })
  | .clear, _, res => res = ok (.unit, ⟨0, none, false⟩)
  | .pending, s, res => res = ok (.num (s.pend.getD []).length, s)
  | .size, s, res => res = ok (.num s.size, s)
  | .data, s, res => res = ok (.bytes none, s)
  | .splitOff, s, res => res = ok (.unit, { s with sealed := true })

end Avf
