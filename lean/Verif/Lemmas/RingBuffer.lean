import Verif.Model.RingBuffer
/-! Helper lemmas: a ring buffer holds a list. -/
namespace Avf
open Go

theorem wrap_mod {a c : Nat} (h : a < 2 * c) : a % c = if a < c then a else a - c := by
  split
  · exact Nat.mod_eq_of_lt ‹_›
  · rw [Nat.mod_eq_sub_mod (by omega), Nat.mod_eq_of_lt (by omega)]

namespace RingBuf
variable {α : Type}

/-- `r` holds the elements `l`, oldest first. -/
structure Holds (r : RingBuf α) (l : List α) : Prop where
  pos : 0 < r.data.length
  head : r.head < r.data.length
  sz : r.size ≤ r.data.length
  tail : r.tail = (r.head + r.size) % r.data.length
  len : l.length = r.size
  get : ∀ i, i < r.size → l[i]? = r.data[(r.head + i) % r.data.length]?

theorem Holds.tail_lt {r : RingBuf α} {l : List α} (h : r.Holds l) : r.tail < r.data.length := by
  rw [h.tail]; exact Nat.mod_lt _ h.pos

theorem Holds.clear {r : RingBuf α} {l : List α} (h : r.Holds l) : r.clear.Holds [] := by
  refine ⟨h.pos, h.pos, by simp [RingBuf.clear], by simp [RingBuf.clear], by simp [RingBuf.clear], ?_⟩
  intro i hi; simp [RingBuf.clear] at hi

theorem holds_replicate (zero : α) (c k : Nat) (hc : 0 < c) :
    Holds { data := List.replicate c zero, head := 0, tail := 0, size := 0, capacity := k, zero := zero } [] := by
  refine ⟨by simpa using hc, by simpa using hc, by simp, by simp, by simp, ?_⟩
  intro i hi; simp at hi

theorem Holds.pop_nil {r : RingBuf α} (h : r.Holds []) : r.pop = ok (r.zero, r) := by
  have := h.len
  simp at this
  simp [pop, isEmpty, ← this]

theorem Holds.pop_cons {r : RingBuf α} {x : α} {xs : List α} (h : r.Holds (x :: xs)) :
    ∃ r', r.pop = ok (x, r') ∧ r'.Holds xs ∧ r'.data.length = r.data.length ∧ r'.capacity = r.capacity ∧ r'.zero = r.zero := by
  have hlen := h.len
  simp only [List.length_cons] at hlen
  have hget := h.get 0 (by omega)
  have hh := h.head
  simp only [List.getElem?_cons_zero, Nat.add_zero, Nat.mod_eq_of_lt hh] at hget
  have hidx : idx r.data r.head = ok x := idx_eq_ok.mpr hget.symm
  have hsz := h.sz
  unfold pop
  rw [if_neg (by simp [isEmpty]; omega), hidx]
  simp only [ok_bind, setIdx_of_lt hh]
  by_cases h1 : r.size - 1 = 0
  · rw [if_pos h1]
    refine ⟨_, rfl, ?_, by simp [RingBuf.clear], rfl, rfl⟩
    have : xs = [] := List.length_eq_zero_iff.mp (by omega)
    subst this
    refine ⟨by simpa [RingBuf.clear] using h.pos, by simpa [RingBuf.clear] using h.pos, by simp [RingBuf.clear],
      by simp [RingBuf.clear], by simp [RingBuf.clear], ?_⟩
    intro i hi; simp [RingBuf.clear] at hi
  · rw [if_neg h1]
    refine ⟨_, rfl, ?_, by simp, rfl, rfl⟩
    have hm := wrap_mod (a := r.head + 1) (c := r.data.length) (by omega)
    refine ⟨by simpa using h.pos, ?_, by simp; omega, ?_, by simp only; omega, ?_⟩
    · simp only [List.length_set]; exact Nat.mod_lt _ h.pos
    · simp only [List.length_set]
      rw [h.tail, hm, wrap_mod (by omega)]
      split <;> rw [wrap_mod (by split <;> omega)] <;> (repeat' split) <;> omega
    · intro i hi
      simp only [List.length_set] at hi ⊢
      have hg := h.get (i + 1) (by omega)
      rw [List.getElem?_cons_succ] at hg
      rw [hg]
      have e : ((r.head + 1) % r.data.length + i) % r.data.length = (r.head + (i + 1)) % r.data.length := by
        rw [hm, wrap_mod (a := r.head + (i + 1)) (by omega)]
        split <;> rw [wrap_mod (by omega)] <;> (repeat' split) <;> omega
      rw [e, List.getElem?_set_ne]
      rw [wrap_mod (by omega)]; split <;> omega

theorem Holds.store {r : RingBuf α} {l : List α} (h : r.Holds l) (hs : r.size < r.data.length) (v : α) :
    ∃ r', r.store v = ok r' ∧ r'.Holds (l ++ [v]) ∧ r'.data.length = r.data.length ∧ r'.capacity = r.capacity ∧
      r'.zero = r.zero := by
  have ht := h.tail_lt
  have hh := h.head
  have hlen := h.len
  unfold RingBuf.store
  rw [setIdx_of_lt ht]
  refine ⟨_, rfl, ?_, by simp, rfl, rfl⟩
  refine ⟨by simpa using h.pos, by simpa using hh, by simp; omega, ?_, by simp [hlen], ?_⟩
  · simp only [List.length_set]
    rw [h.tail, ← Nat.add_assoc]
    simp [Nat.add_mod]
  · intro i hi
    simp only [List.length_set] at hi ⊢
    by_cases h1 : i < r.size
    · rw [List.getElem?_append_left (by omega), h.get i h1, List.getElem?_set_ne]
      rw [h.tail, wrap_mod (by omega), wrap_mod (by omega)]
      (repeat' split) <;> omega
    · have : i = r.size := by omega
      subst this
      rw [← h.tail, List.getElem?_append_right (by omega), hlen, Nat.sub_self, List.getElem?_set_self ht]
      rfl

theorem Holds.isEmpty {r : RingBuf α} {l : List α} (h : r.Holds l) : r.isEmpty = l.isEmpty := by
  have := h.len
  cases l with
  | nil => simp at this; simp [RingBuf.isEmpty, ← this]
  | cons x xs => simp at this; simp [RingBuf.isEmpty, ← this]

theorem Holds.headElem {r : RingBuf α} {l : List α} (h : r.Holds l) :
    r.headElem = match l with | [] => panic | x :: _ => ok x := by
  cases l with
  | nil => simp [RingBuf.headElem, h.isEmpty]
  | cons x xs =>
    have hg := h.get 0 (by have := h.len; simp at this; omega)
    rw [Nat.add_zero, Nat.mod_eq_of_lt h.head] at hg
    simp [RingBuf.headElem, h.isEmpty]; rw [idx_eq_ok, ← hg]; rfl

theorem Holds.tailElem {r : RingBuf α} {l : List α} (h : r.Holds l) :
    r.tailElem = match l.getLast? with | none => panic | some x => ok x := by
  cases hl : l.getLast? with
  | none =>
    have : l = [] := by simpa using hl
    subst this
    simp [RingBuf.tailElem, h.isEmpty]
  | some x =>
    have hne : l ≠ [] := by intro h0; rw [h0] at hl; simp at hl
    have hlen := h.len
    have hpos : 0 < l.length := List.length_pos_iff.mpr hne
    have hh := h.head
    have hsz := h.sz
    have hg := h.get (r.size - 1) (by omega)
    rw [← hlen, ← List.getLast?_eq_getElem?, hl] at hg
    have he : l.length = r.size := hlen
    have ht := h.tail
    rw [wrap_mod (by omega)] at ht hg
    unfold RingBuf.tailElem
    rw [h.isEmpty]
    have : l.isEmpty = false := by simpa using hne
    rw [this]
    simp only [Bool.not_false, assert_true, ok_bind]
    split
    · rename_i h1
      rw [idx_eq_ok, hg]
      congr 1
      split at ht <;> split <;> omega
    · rename_i h1
      rw [idxI, if_neg (by omega), idx_eq_ok, hg]
      congr 1
      split at ht <;> split <;> omega

theorem Holds.slices {r : RingBuf α} {l : List α} (h : r.Holds l) :
    ∃ a b, r.slices = ok (a, b) ∧ a ++ b = l := by
  have hlen := h.len
  have hh := h.head
  have hsz := h.sz
  have htl := h.tail_lt
  unfold RingBuf.slices
  by_cases h0 : r.size = 0
  · rw [if_pos h0]
    exact ⟨[], [], rfl, (List.length_eq_zero_iff.mp (by omega : l.length = 0)).symm⟩
  · rw [if_neg h0]
    have ht := h.tail
    rw [wrap_mod (by omega)] at ht
    split
    · rename_i h1
      rw [sliceFrom_of_le (by omega), slice_of_le (by omega) (by omega)]
      refine ⟨_, _, rfl, ?_⟩
      apply List.ext_getElem?
      intro i
      by_cases hi : i < r.size
      · rw [h.get i hi, wrap_mod (by omega)]
        split at ht
        · omega
        · by_cases h2 : r.head + i < r.data.length
          · rw [List.getElem?_append_left (by simp; omega), if_pos h2, List.getElem?_drop]
          · rw [List.getElem?_append_right (by simp; omega), if_neg h2, List.drop_zero, List.getElem?_take,
              if_pos (by simp; omega)]
            congr 1; simp; omega
      · rw [List.getElem?_eq_none (by simp; split at ht <;> omega), List.getElem?_eq_none (by omega)]
    · rename_i h1
      rw [slice_of_le (by omega) (by omega)]
      refine ⟨_, _, rfl, ?_⟩
      apply List.ext_getElem?
      intro i
      rw [List.append_nil]
      split at ht
      · by_cases hi : i < r.size
        · rw [h.get i hi, wrap_mod (by omega), if_pos (by omega), List.getElem?_drop, List.getElem?_take,
            if_pos (by omega)]
        · rw [List.getElem?_eq_none (by simp; omega), List.getElem?_eq_none (by omega)]
      · omega

end RingBuf
end Avf
