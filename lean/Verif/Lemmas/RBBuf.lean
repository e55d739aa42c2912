import Verif.Lemmas.Mem
import Verif.Spec.BlockBuffer
/-! # RBBlockBuffer: the effect of `Write` -/
set_option linter.unusedSimpArgs false
namespace Avf
open Go

namespace RBBuf

/-- The slice of a block. -/
def ref (r : RBBuf) (k : Block) : SliceRef := ⟨r.data.arr, r.data.off + k.index, k.size⟩

/-- The memory of the buffer exists and contains all blocks. -/
structure WF (r : RBBuf) (m : Mem) : Prop where
  arr : r.data.arr < m.length
  len : r.data.off + r.data.len ≤ (m.arr r.data.arr).length
  cap : r.capacity ≤ r.data.len
  fits : ∀ k ∈ r.blocks, k.index + k.size ≤ r.data.len
  off : r.nextOffset = 0
  done : ∀ k ∈ r.blocks.dropLast, k.completed = true

/-- The buffer after `Alloc` has opened a block. -/
def opened (r : RBBuf) : RBBuf := r.restoreCapacity.openBlock r.headTail.2

theorem opened_fields (r : RBBuf) : r.opened.data = r.data ∧ r.opened.sealed = r.sealed ∧
    r.opened.nextOffset = r.nextOffset ∧ r.opened.discardBlockCount = r.discardBlockCount ∧
    r.opened.capacity = if r.blocks.length ≤ 1 then r.data.len else r.capacity := by
  unfold opened openBlock restoreCapacity
  split <;> split <;> (try split) <;> simp_all

/-- What opening a block does to the queue. -/
theorem opened_blocks (r : RBBuf) : ∃ bs old, r.opened.blocks = bs ++ [old] ∧ old.completed = false ∧
    old.index + old.size = r.headTail.2 ∧ (∃ k, (bs ++ [old]).head? = some k ∧ k.index = r.headTail.1) ∧
    (r.blocks = bs ++ [old] ∨ r.blocks = bs ∧ old = ⟨r.headTail.2, 0, false⟩ ∧
      ∀ k, bs.getLast? = some k → k.completed = true) := by
  have hb : r.restoreCapacity.blocks = r.blocks := by unfold restoreCapacity; split <;> rfl
  rcases list_snoc_cases r.blocks with h | ⟨bs, k, h⟩
  · refine ⟨[], ⟨0, 0, false⟩, ?_, rfl, ?_, ⟨_, rfl, ?_⟩, .inr ⟨h, ?_, by simp⟩⟩ <;>
      simp [opened, openBlock, hb, h, headTail]
  · have hh : ∃ y, (bs ++ [k]).head? = some y := by
      cases bs <;> simp
    obtain ⟨y, hy⟩ := hh
    have e : r.headTail = (y.index, k.index + k.size) := by
      unfold headTail
      rw [h, hy]
      simp
    cases hk : k.completed with
    | false =>
      refine ⟨bs, k, ?_, hk, ?_, ⟨y, hy, ?_⟩, .inl h⟩
      · simp [opened, openBlock, hb, h, hk]
      · rw [e]
      · rw [e]
    | true =>
      refine ⟨bs ++ [k], ⟨r.headTail.2, 0, false⟩, ?_, rfl, by simp, ⟨y, ?_, ?_⟩, .inr ⟨h, rfl, ?_⟩⟩
      · simp [opened, openBlock, hb, h, hk]
      · rw [List.head?_append, hy]; rfl
      · rw [e]
      · simp [hk]

/-- Outcome of a `Write` that stays in place. -/
structure InPlace (r : RBBuf) (m : Mem) (n : Nat) (bs : List Block) (old : Block) (r' : RBBuf) (m' : Mem) : Prop where
  cond : (r.headTail.2 < r.headTail.1 ∧ r.headTail.2 + n ≤ r.headTail.1) ∨
    (¬ r.headTail.2 < r.headTail.1 ∧ r.headTail.2 + n ≤ r.opened.capacity)
  data : r'.data = r.data
  discard : r'.discardBlockCount = r.discardBlockCount
  cap : r'.capacity = r.opened.capacity
  blocks : r'.blocks = bs ++ [⟨old.index, old.size + n, false⟩]
  frame : ∀ s : SliceRef, s.arr ≠ r.data.arr ∨ s.off + s.len ≤ r.data.off + r.headTail.2 ∨
    r.data.off + r.headTail.2 + n ≤ s.off → m'.read s = m.read s

/-- Outcome of a `Write` that moves the pending block to the front. -/
structure Wrap (r : RBBuf) (m : Mem) (n : Nat) (bs : List Block) (old : Block) (r' : RBBuf) (m' : Mem) : Prop where
  cond : ¬ r.headTail.2 < r.headTail.1 ∧ r.opened.capacity < r.headTail.2 + n ∧ old.size + n ≤ r.headTail.1
  data : r'.data = r.data
  discard : r'.discardBlockCount = r.discardBlockCount
  cap : r'.capacity = old.index
  blocks : r'.blocks = bs ++ [⟨0, old.size + n, false⟩]
  frame : ∀ s : SliceRef, s.arr ≠ r.data.arr ∨ r.data.off + old.size + n ≤ s.off → m'.read s = m.read s

/-- Outcome of a `Write` that allocates new memory. -/
structure Grown (r : RBBuf) (m : Mem) (n : Nat) (bs : List Block) (old : Block) (r' : RBBuf) (m' : Mem) : Prop where
  cond : (r.headTail.2 < r.headTail.1 ∧ r.headTail.1 < r.headTail.2 + n) ∨
    (¬ r.headTail.2 < r.headTail.1 ∧ r.opened.capacity < r.headTail.2 + n ∧ r.headTail.1 < old.size + n)
  data : r'.data.arr = m.length
  discard : r'.discardBlockCount = bs.length
  cap : r'.capacity = r'.data.len
  blocks : r'.blocks = [⟨0, old.size + n, false⟩]
  frame : ∀ s : SliceRef, s.arr < m.length → m'.read s = m.read s

/-- The complete effect of a `Write`. -/
theorem write_ok {r : RBBuf} {m : Mem} (h : WF r m) (d : Bytes) {bs : List Block} {old : Block}
    (hb : r.opened.blocks = bs ++ [old]) (hc : old.completed = false) (ht : old.index + old.size = r.headTail.2)
    (hh : ∃ k, (bs ++ [old]).head? = some k ∧ k.index = r.headTail.1)
    (hfit : ∀ k ∈ bs ++ [old], k.index + k.size ≤ r.data.len) :
    ∃ r' m' k, r.write m d = ok (r', m') ∧ r'.sealed = r.sealed ∧ m.length ≤ m'.length ∧
      r'.blocks.getLast? = some k ∧ k.completed = false ∧ m'.read (r'.ref k) = m.read (r.ref old) ++ d ∧
      r'.data.arr < m'.length ∧ r'.data.off + r'.data.len ≤ (m'.arr r'.data.arr).length ∧ r'.nextOffset = 0 ∧
      r'.capacity ≤ r'.data.len ∧ k.index + k.size ≤ r'.data.len ∧
      (InPlace r m d.length bs old r' m' ∨ Wrap r m d.length bs old r' m' ∨ Grown r m d.length bs old r' m') := by
  obtain ⟨h1, h2, h3, h4, h5, h6⟩ := h
  obtain ⟨o1, o2, o3, o4, o5⟩ := r.opened_fields
  have hcap : r.opened.capacity ≤ r.data.len := by rw [o5]; split <;> omega
  have hold := hfit old (by simp)
  obtain ⟨k0, hk0, hk1⟩ := hh
  have hhead : r.headTail.1 ≤ r.data.len := by
    have := hfit k0 (List.mem_of_head? hk0)
    omega
  have hstart : r.write m d = (do
      let (tail, q, m) ← r.opened.place m r.headTail.1 r.headTail.2 d.length old
      let bytes ← q.data.sub tail (tail + d.length)
      return ({ q with blocks := updLast q.blocks (fun k => { k with size := k.size + d.length }) }, m.copy bytes d)) := by
    simp only [write, alloc]
    change (do
      let x ← (match r.opened.blocks.getLast? with
        | none => panic
        | some old => _ : Go (SliceRef × RBBuf × Mem))
      _) = _
    rw [hb]
    simp only [List.getLast?_append, List.getLast?_singleton, Option.some_or, bind_assoc, Go.pure_def, ok_bind]
    rfl
  rw [hstart]
  have l0 : (m.arr r.data.arr).length ≥ r.data.off + r.data.len := h2
  by_cases c1 : (r.headTail.2 < r.headTail.1 ∧ r.headTail.2 + d.length ≤ r.headTail.1) ∨
    (¬ r.headTail.2 < r.headTail.1 ∧ r.headTail.2 + d.length ≤ r.opened.capacity)
  · have hp : r.opened.place m r.headTail.1 r.headTail.2 d.length old = ok (r.headTail.2, r.opened, m) := by
      unfold place
      rcases c1 with c1 | c1
      · rw [if_pos ⟨c1.1, c1.2⟩]
      · rw [if_neg (fun h => c1.1 h.1), if_pos ⟨c1.1, c1.2⟩]
    have hle : r.headTail.2 + d.length ≤ r.data.len := by omega
    rw [hp]
    simp only [ok_bind, Go.pure_def]
    rw [o1, SliceRef.sub_of_le (by omega) hle]
    simp only [ok_bind, Nat.add_sub_cancel_left]
    refine ⟨_, _, ⟨old.index, old.size + d.length, false⟩, rfl, o2, ?_, ?_, rfl, ?_, ?_, ?_, ?_, ?_, ?_, .inl ⟨c1, ?_, ?_, rfl, ?_, ?_⟩⟩
    · rw [Mem.length_copy]; exact Nat.le_refl _
    · simp only [hb, updLast_concat]; simp [hc]
    · simp only [ref, o1]
      rw [Mem.read_split]
      congr 1
      · exact Mem.read_copy_disjoint _ _ _ _ (by simp only; omega) (.inr (.inl (by simp only; omega)))
      · have e : r.data.off + old.index + old.size = r.data.off + r.headTail.2 := by omega
        rw [e]
        exact Mem.read_copy_self m ⟨r.data.arr, r.data.off + r.headTail.2, d.length⟩ d (by simp only; omega) (Nat.le_refl _)
    · simp only [o1, Mem.length_copy]; exact h1
    · simp only [o1]; rw [Mem.length_arr_copy _ _ _ _ (by simp only; omega)]; exact h2
    · simp only [o3, h5]
    · simp only [o1]; exact hcap
    · simp only [o1]; omega
    · simp only [o1]
    · simp only [o4]
    · simp only [hb, updLast_concat]; simp [hc]
    · intro s hs
      exact Mem.read_copy_disjoint _ _ _ _ (by simp only; omega) (by simpa using hs)
  · have n1 : ¬ (r.headTail.2 < r.headTail.1 ∧ r.headTail.1 ≥ r.headTail.2 + d.length) := fun h => c1 (.inl h)
    have n2 : ¬ (¬ r.headTail.2 < r.headTail.1 ∧ r.opened.capacity ≥ r.headTail.2 + d.length) := fun h => c1 (.inr h)
    by_cases c2 : ¬ r.headTail.2 < r.headTail.1 ∧ r.headTail.1 ≥ old.size + d.length
    · have hp : r.opened.place m r.headTail.1 r.headTail.2 d.length old =
          ok (old.size, { r.opened with capacity := r.headTail.2 - old.size, blocks := bs ++ [⟨0, old.size, false⟩] },
            m.copy r.data (m.read (r.ref old))) := by
        unfold place
        rw [if_neg n1, if_neg n2, if_pos c2, o1, SliceRef.sub_of_le (by omega) hold]
        simp only [ok_bind, Go.pure_def, hb, updLast_concat, ref, hc, Nat.add_sub_cancel_left, o1]
      rw [hp]
      simp only [ok_bind, Go.pure_def]
      rw [o1, SliceRef.sub_of_le (by omega) (by omega)]
      simp only [ok_bind, Nat.add_sub_cancel_left, updLast_concat]
      have lr : (m.read (r.ref old)).length = old.size := Mem.length_read _ _ (by simp only [ref]; omega)
      have l1 : ((m.copy r.data (m.read (r.ref old))).arr r.data.arr).length = (m.arr r.data.arr).length :=
        Mem.length_arr_copy _ _ _ _ (by omega)
      refine ⟨_, _, ⟨0, old.size + d.length, false⟩, rfl, o2, ?_, ?_, rfl, ?_, ?_, ?_, ?_, ?_, ?_, .inr (.inl ⟨?_, ?_, ?_, ?_, ?_, ?_⟩)⟩
      · rw [Mem.length_copy, Mem.length_copy]; exact Nat.le_refl _
      · simp
      · simp only [ref, o1]
        rw [Mem.read_split, Nat.add_zero]
        congr 1
        · rw [Mem.read_copy_disjoint _ _ _ _ (by simp only [ref] at l1; simp only [l1]; omega) (.inr (.inl (by simp)))]
          have := Mem.read_copy_self m r.data (m.read (r.ref old)) (by omega) (by omega)
          rw [lr] at this
          exact this
        · exact Mem.read_copy_self _ ⟨r.data.arr, r.data.off + old.size, d.length⟩ d
            (by simp only [ref] at l1; simp only [l1]; omega) (Nat.le_refl _)
      · simp only [o1, Mem.length_copy]; exact h1
      · simp only [o1]; rw [Mem.length_arr_copy _ _ _ _ (by simp only [l1]; omega), l1]; exact h2
      · simp only [o3, h5]
      · simp only [o1]; omega
      · simp only [o1]; omega
      · have hn2 : r.opened.capacity < r.headTail.2 + d.length := by
          have := c2.1; omega
        exact ⟨c2.1, hn2, c2.2⟩
      · simp only [o1]
      · simp only [o4]
      · simp only; omega
      · rfl
      · intro s hs
        rw [Mem.read_copy_disjoint _ _ _ _ (by simp only [l1]; omega) (by
            rcases hs with hs | hs
            · exact .inl hs
            · exact .inr (.inr (by simp only; omega))),
          Mem.read_copy_disjoint _ _ _ _ (by omega) (by
            rcases hs with hs | hs
            · exact .inl hs
            · exact .inr (.inr (by omega)))]
    · generalize hC : (r.data.len + d.length) * 3 / 2 = C
      have hCl : r.data.len + d.length ≤ C := by omega
      have hp : r.opened.place m r.headTail.1 r.headTail.2 d.length old =
          ok (old.size, { r.opened with data := ⟨m.length, 0, C⟩, capacity := C, discardBlockCount := bs.length, blocks := [⟨0, old.size, false⟩] },
            (m.make C).2.copy ⟨m.length, 0, C⟩ (m.read (r.ref old))) := by
        unfold place
        rw [if_neg n1, if_neg n2, if_neg c2, o1, SliceRef.sub_of_le (by omega) hold]
        simp only [hC, ok_bind, Go.pure_def, hb, updLast_concat, List.length_append, List.length_cons, List.length_nil,
          Nat.zero_add, Nat.add_sub_cancel, List.drop_left]
        have : (m.make C).2.read ⟨r.data.arr, r.data.off + old.index, old.index + old.size - old.index⟩ =
            m.read (r.ref old) := by
          rw [Nat.add_sub_cancel_left]; exact Mem.read_make m C (r.ref old) h1
        rw [this]
        simp only [Mem.make, hc]
      rw [hp]
      simp only [ok_bind, Go.pure_def]
      rw [SliceRef.sub_of_le (by omega) (by simp only; omega)]
      simp only [ok_bind, Nat.add_sub_cancel_left]
      have lr : (m.read (r.ref old)).length = old.size := Mem.length_read _ _ (by simp only [ref]; omega)
      have l1 : ((m.make C).2.arr m.length).length = C := by rw [Mem.arr_make_new]; simp
      have l2 : (((m.make C).2.copy ⟨m.length, 0, C⟩ (m.read (r.ref old))).arr m.length).length = C := by
        rw [Mem.length_arr_copy _ _ _ _ (by simp), l1]
      refine ⟨_, _, ⟨0, old.size + d.length, false⟩, rfl, o2, ?_, ?_, rfl, ?_, ?_, ?_, ?_, ?_, ?_, .inr (.inr ⟨?_, rfl, rfl, rfl, ?_, ?_⟩)⟩
      · rw [Mem.length_copy, Mem.length_copy, Mem.length_make]; omega
      · rfl
      · simp only [ref, Nat.zero_add]
        rw [Mem.read_split, Nat.zero_add]
        congr 1
        · rw [Mem.read_copy_disjoint _ _ _ _ (by simp only [ref] at l2; simp only [l2]; omega) (.inr (.inl (by simp)))]
          have := Mem.read_copy_self (m.make C).2 ⟨m.length, 0, C⟩ (m.read (r.ref old)) (by simp only [l1]; omega) (by simp only; omega)
          rw [lr] at this
          exact this
        · exact Mem.read_copy_self _ ⟨m.length, old.size, d.length⟩ d
            (by simp only [ref] at l2; simp only [l2]; omega) (Nat.le_refl _)
      · simp only [Mem.length_copy, Mem.length_make]; omega
      · simp only [Nat.zero_add]; rw [Mem.length_arr_copy _ _ _ _ (by simp only [l2]; omega), l2]; exact Nat.le_refl _
      · simp only [o3, h5]
      · exact Nat.le_refl _
      · simp only; omega
      · by_cases ho : r.headTail.2 < r.headTail.1
        · exact .inl ⟨ho, by omega⟩
        · exact .inr ⟨ho, by omega, by omega⟩
      · rfl
      · intro s hs
        rw [Mem.read_copy_disjoint _ _ _ _ (by simp only [l2, Nat.zero_add]; omega) (.inl (by simp only; omega)),
          Mem.read_copy_disjoint _ _ _ _ (by simp) (.inl (by simp only; omega)), Mem.read_make _ _ _ hs]

end RBBuf
end Avf
