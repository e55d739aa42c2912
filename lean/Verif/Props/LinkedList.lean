import Verif.Lemmas.LinkedList
import Verif.Spec.Trace
/-!
# C17: `LinkedList` is a list (`collections/linked_list.go`)
-/
namespace Avf
open Go
namespace LList
variable {α : Type}

/-- What a caller sees of one call. -/
inductive Obs (α : Type) where
  | unit | val (v : α) | num (n : Nat)
deriving DecidableEq, Repr

/-- Calls on a `LinkedList`. -/
inductive Op (α : Type) where
  | add (v : α) | remove (i : Int) | get (i : Int) | size

/-- The code. -/
def Op.run (o : Op α) (l : LList α) : Go (Obs α × LList α) :=
  match o with
  | .add v => do let l ← l.add v; return (.unit, l)
  | .remove i => do let (v, l) ← l.remove i; return (.val v, l)
  | .get i => do let v ← l.get i; return (.val v, l)
  | .size => ok (.num l.reportedSize, l)

/-- The specification: a list; indices outside `[0, size)` panic. -/
def Op.spec (o : Op α) (l : List α) : Go (Obs α × List α) :=
  match o with
  | .add v => ok (.unit, l ++ [v])
  | .remove i => if i < 0 then panic else match l[i.toNat]? with
    | none => panic
    | some x => ok (.val x, l.eraseIdx i.toNat)
  | .get i => if i < 0 then panic else match l[i.toNat]? with
    | none => panic
    | some x => ok (.val x, l)
  | .size => ok (.num l.length, l)

/-- Index arguments are not negative. -/
def Op.NonNeg : Op α → Prop
  | .remove i | .get i => 0 ≤ i
  | _ => True

def LRel (l : LList α) (xs : List α) : Prop := ∃ ns, Rep l ns xs

theorem Op.sim (o : Op α) (l : LList α) (xs : List α) (ho : o.NonNeg) (h : LRel l xs) :
    Agree LRel (o.run l) (o.spec xs) := by
  obtain ⟨ns, h⟩ := h
  cases o with
  | add v =>
    obtain ⟨l', h1, h2⟩ := h.add v
    simp only [Op.run, Op.spec]
    rw [h1]
    exact ⟨rfl, _, h2⟩
  | remove i =>
    have hi : 0 ≤ i := ho
    obtain ⟨k, rfl⟩ := Int.eq_ofNat_of_zero_le hi
    simp only [Op.run, Op.spec, Int.toNat_natCast]
    rw [if_neg (by omega)]
    by_cases hk : k < xs.length
    · obtain ⟨l', h1, h2⟩ := h.remove k hk
      rw [h1, List.getElem?_eq_getElem hk]
      exact ⟨rfl, _, h2⟩
    · rw [h.remove_panic k (by omega), List.getElem?_eq_none (by omega)]
      trivial
  | get i =>
    have hi : 0 ≤ i := ho
    obtain ⟨k, rfl⟩ := Int.eq_ofNat_of_zero_le hi
    simp only [Op.run, Op.spec, Int.toNat_natCast]
    rw [if_neg (by omega), h.get k]
    cases xs[k]? with
    | none => trivial
    | some x => exact ⟨rfl, _, h⟩
  | size => exact ⟨by unfold reportedSize; rw [h.size], _, h⟩

/-- **C17** for every history of calls with non-negative indices a `LinkedList` shows exactly what a list shows; indices
`≥ size` panic. -/
theorem C17_linkedList_is_list (ops : List (Op α)) (hops : ∀ o ∈ ops, o.NonNeg) :
    seen (runTrace Op.run ops (empty : LList α)) = seen (runTrace Op.spec ops []) :=
  (runTrace_agree (R := LRel) Op.sim ops _ _ hops ⟨[], rep_empty⟩).seen_eq

/-- **C17** (why the restriction) a negative index passes the check `index < size`: `Get(-1)` after removing the last
element returns the element that was removed, instead of panicking. -/
theorem C17_negative_index_stale :
    seen (runTrace Op.run [.add 1, .add 2, .remove 1, .get (-1)] (empty : LList Nat)) =
      ok [.unit, .unit, .val 2, .val 2] ∧
    seen (runTrace Op.spec [.add 1, .add 2, .remove 1, .get (-1)] ([] : List Nat)) = panic := by decide +kernel

/-- **C17** (why the restriction) `Remove(-1)` then removes a node that is not in the list and loses the live one. -/
theorem C17_negative_index_corrupts :
    seen (runTrace Op.run [.add 1, .add 2, .remove 1, .remove (-1), .size] (empty : LList Nat)) =
      ok [.unit, .unit, .val 2, .val 2, .num 0] := by decide +kernel

/-! Non-vacuity. -/
example : ∀ o ∈ [Op.add 1, .add 2, .add 3, .remove 1, .get 1, .remove 0, .remove 0, .add 4, .get 0], (o : Op Nat).NonNeg := by
  simp [Op.NonNeg]
example : seen (runTrace Op.run [.add 1, .add 2, .add 3, .remove 1, .get 1, .remove 0, .remove 0, .add 4, .get 0]
    (empty : LList Nat)) =
    ok [.unit, .unit, .unit, .val 2, .val 3, .val 1, .val 3, .unit, .val 4] := by decide +kernel

end LList
end Avf
