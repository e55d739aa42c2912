import Verif.Model.BlockBuffer
/-! # Reading and copying slices of the explicit memory -/
namespace Avf
open Go

namespace Mem

/-- The array with number `a`. -/
def arr (m : Mem) (a : Nat) : Bytes := (m[a]?).getD []

theorem read_eq (m : Mem) (s : SliceRef) : m.read s = ((m.arr s.arr).drop s.off).take s.len := rfl

theorem arr_copy (m : Mem) (s : SliceRef) (d : Bytes) (a : Nat) :
    (m.copy s d).arr a = if a = s.arr then overwrite (m.arr a) s.off (d.take s.len) else m.arr a := by
  unfold copy arr
  cases h : m[s.arr]? with
  | none =>
    simp only
    split
    · rename_i e; subst e; simp [h, overwrite]
    · rfl
  | some x =>
    simp only
    split
    · rename_i e; subst e
      rw [List.getElem?_set]
      have := (List.getElem?_eq_some_iff.mp h).1
      rw [if_pos rfl, if_pos this, h]; rfl
    · rename_i e
      rw [List.getElem?_set_ne (fun h => e h.symm)]

theorem length_copy (m : Mem) (s : SliceRef) (d : Bytes) : (m.copy s d).length = m.length := by
  unfold copy; split <;> simp

theorem length_arr_copy (m : Mem) (s : SliceRef) (d : Bytes) (a : Nat) (h : s.off ≤ (m.arr s.arr).length) :
    ((m.copy s d).arr a).length = (m.arr a).length := by
  rw [arr_copy]; split
  · rename_i e; subst e; rw [length_overwrite h]
  · rfl

theorem arr_make_lt (m : Mem) (n a : Nat) (h : a < m.length) : (m.make n).2.arr a = m.arr a := by
  simp [make, arr, List.getElem?_append_left h]

theorem arr_make_new (m : Mem) (n : Nat) : (m.make n).2.arr m.length = List.replicate n 0 := by
  simp [make, arr]

theorem length_make (m : Mem) (n : Nat) : (m.make n).2.length = m.length + 1 := by simp [make]

theorem read_make (m : Mem) (n : Nat) (s : SliceRef) (h : s.arr < m.length) : (m.make n).2.read s = m.read s := by
  rw [read_eq, read_eq, arr_make_lt m n _ h]

theorem length_read (m : Mem) (s : SliceRef) (h : s.off + s.len ≤ (m.arr s.arr).length) : (m.read s).length = s.len := by
  rw [read_eq]; simp; omega

/-- Copying does not change what is read elsewhere. -/
theorem read_copy_disjoint (m : Mem) (s t : SliceRef) (d : Bytes) (h : s.off ≤ (m.arr s.arr).length)
    (hd : t.arr ≠ s.arr ∨ t.off + t.len ≤ s.off ∨ s.off + d.length ≤ t.off) : (m.copy s d).read t = m.read t := by
  rw [read_eq, read_eq, arr_copy]
  split
  · rename_i e
    rw [e]
    apply List.ext_getElem?
    intro k
    rw [List.getElem?_take, List.getElem?_take]
    split
    · rw [List.getElem?_drop, List.getElem?_drop, getElem?_overwrite h]
      rw [if_neg]
      rw [List.length_take]
      have := hd.resolve_left (by simp [e])
      omega
    · rfl
  · rfl

/-- Copying makes the copied bytes readable. -/
theorem read_copy_self (m : Mem) (s : SliceRef) (d : Bytes) (h : s.off + d.length ≤ (m.arr s.arr).length)
    (hl : d.length ≤ s.len) : (m.copy s d).read ⟨s.arr, s.off, d.length⟩ = d := by
  rw [read_eq, arr_copy, if_pos rfl, List.take_of_length_le hl]
  exact take_drop_overwrite h

/-- A read splits into two adjacent reads. -/
theorem read_split (m : Mem) (a o n k : Nat) : m.read ⟨a, o, n + k⟩ = m.read ⟨a, o, n⟩ ++ m.read ⟨a, o + n, k⟩ := by
  simp only [read_eq]
  rw [List.take_add, List.drop_drop]

/-- A read inside a read. -/
theorem read_sub (m : Mem) (a o n i k : Nat) (h : i + k ≤ n) :
    m.read ⟨a, o + i, k⟩ = ((m.read ⟨a, o, n⟩).drop i).take k := by
  simp only [read_eq]
  rw [List.drop_take, List.take_take, List.drop_drop, Nat.min_eq_left (by omega)]

@[simp] theorem read_zero (m : Mem) (a o : Nat) : m.read ⟨a, o, 0⟩ = [] := by simp [read_eq]

end Mem

theorem SliceRef.sub_of_le {s : SliceRef} {a b : Nat} (h : a ≤ b) (h' : b ≤ s.len) :
    s.sub a b = ok ⟨s.arr, s.off + a, b - a⟩ := by simp [SliceRef.sub, h, h']

theorem SliceRef.sub_panic {s : SliceRef} {a b : Nat} (h : ¬ (a ≤ b ∧ b ≤ s.len)) : s.sub a b = panic := by
  simp only [SliceRef.sub, if_neg h]

@[simp] theorem updLast_concat (bs : List Block) (b : Block) (f : Block → Block) : updLast (bs ++ [b]) f = bs ++ [f b] := by
  simp [updLast]

@[simp] theorem updLast_nil (f : Block → Block) : updLast [] f = [] := rfl

/-- A list is empty or ends with an element. -/
theorem list_snoc_cases {α : Type u} (l : List α) : l = [] ∨ ∃ xs x, l = xs ++ [x] := by
  rcases List.eq_nil_or_concat l with h | ⟨xs, x, h⟩
  · exact .inl h
  · exact .inr ⟨xs, x, by simpa using h⟩

end Avf
