import Verif.Spec.Nal
/-! # The units that `AnnexB2AVCC` sees in a byte string, well framed or not -/
namespace Avf

/-- The units of what follows a start code. Leading zero bytes are dropped; a unit is not empty and begins with a byte other
than zero. It goes up to the next `00 00 01` that is followed by a byte, and one zero byte before that belongs to the
start code. If there is none the rest is one unit. -/
inductive UnitsOf : Bytes → List Bytes → Prop where
  | zeros (k : Nat) : UnitsOf (List.replicate k 0) []
  | last (k : Nat) (u : Bytes) : u ≠ [] → u.head? ≠ some 0 → (∀ j, ¬ StartAt u j) → UnitsOf (List.replicate k 0 ++ u) [u]
  | next (k : Nat) (u : Bytes) (b : Bool) (a : Byte) (t : Bytes) (us : List Bytes) : u ≠ [] → u.head? ≠ some 0 → NoCode u →
      (b = false → u.getLast? ≠ some 0) → UnitsOf (a :: t) us → UnitsOf (List.replicate k 0 ++ (u ++ code b ++ a :: t)) (u :: us)

/-- The units of a byte string: those behind its first start code. -/
def AnnexUnits (p : Bytes) (us : List Bytes) : Prop :=
  (∀ j, ¬ StartAt p j) ∧ us = [] ∨
  ∃ (pre : Bytes) (a : Byte) (t : Bytes), p = pre ++ [0, 0, 1] ++ a :: t ∧ NoCode pre ∧ UnitsOf (a :: t) us

end Avf
