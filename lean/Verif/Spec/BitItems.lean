import Verif.Spec.Bits
import Verif.Model.Bits
import Verif.Model.Golomb
/-!
# Syntax elements

What the headers of the standards consist of: fields of fixed width and Exp-Golomb codes. /repo has no function that writes Exp-Golomb codes; a caller
writes one as two fields.
-/
namespace Avf
open Go

/-- `u(n)` or `ue(v)`. -/
inductive BitItem where
  | field (n : Nat) (v : BitVec 64)
  | ue (v : Nat)

/-- Fields of at most 64 bits, codes of at most 32 zeros. -/
def BitItem.Small : BitItem → Prop
  | field n _ => n ≤ 64
  | ue v => v < 2 ^ 33 - 1

/-- The fields to write: for `ue(v)`, zeros and the significant bits of `v+1`. -/
def BitItem.fields : BitItem → List (Nat × BitVec 64)
  | field n v => [(n, v)]
  | ue v => [(Nat.log2 (v + 1), 0), (Nat.log2 (v + 1) + 1, BitVec.ofNat 64 (v + 1))]

/-- The number that is to be read. -/
def BitItem.value : BitItem → Nat
  | field n v => v.toNat % 2 ^ n
  | ue v => v

/-- Read with `ReadBits` or `ReadExponentialGolombCode`. -/
def BitItem.readBy (g : Golomb) : BitItem → Go (BitVec 64 × Golomb)
  | field n _ => g.readBits n
  | ue _ => g.readUE

/-- Read one after the other. -/
def Golomb.readItems (g : Golomb) : List BitItem → Go (List Nat × Golomb)
  | [] => ok ([], g)
  | i :: is => do
    let (v, g) ← i.readBy g
    let (vs, g) ← g.readItems is
    return (v.toNat :: vs, g)

end Avf
