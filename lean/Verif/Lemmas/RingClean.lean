import Verif.Lemmas.RingBuffer
import Mathlib.Data.List.Rotate
/-! Helper lemmas: the unused slots of a ring buffer. -/
namespace Avf
open Go
namespace RingBuf
variable {α : Type}

/-- Every slot outside the window holds the zero value or something with `P`. -/
def Stale (P : α → Prop) (r : RingBuf α) : Prop :=
  ∀ i, r.size ≤ i → i < r.data.length → ∃ x, r.data[(r.head + i) % r.data.length]? = some x ∧ (x = r.zero ∨ P x)

/-- Every slot outside the window holds the zero value. -/
def Clean (r : RingBuf α) : Prop := Stale (fun _ => False) r

theorem Stale.mono {P Q : α → Prop} {r : RingBuf α} (h : Stale P r) (hq : ∀ x, P x → Q x) : Stale Q r := by
  intro i h1 h2
  obtain ⟨x, h3, h4⟩ := h i h1 h2
  exact ⟨x, h3, h4.imp id (hq x)⟩

theorem slot_of_lt {c h j : Nat} (hh : h < c) (hj : j < c) : ∃ i, i < c ∧ (h + i) % c = j := by
  by_cases h1 : h ≤ j
  · exact ⟨j - h, by omega, by rw [show h + (j - h) = j by omega, Nat.mod_eq_of_lt hj]⟩
  · refine ⟨j + c - h, by omega, ?_⟩
    rw [show h + (j + c - h) = j + c by omega, Nat.add_mod_right, Nat.mod_eq_of_lt hj]

theorem stale_replicate (P : α → Prop) (zero : α) (c k : Nat) :
    Stale P { data := List.replicate c zero, head := 0, tail := 0, size := 0, capacity := k, zero := zero } := by
  intro i _ h2
  simp only [List.length_replicate] at h2 ⊢
  rw [Nat.zero_add, Nat.mod_eq_of_lt h2, List.getElem?_replicate, if_pos h2]
  exact ⟨_, rfl, Or.inl rfl⟩

theorem clean_replicate (zero : α) (c k : Nat) :
    Clean { data := List.replicate c zero, head := 0, tail := 0, size := 0, capacity := k, zero := zero } := stale_replicate _ zero c k

theorem Stale.pop {P : α → Prop} {r r' : RingBuf α} {l : List α} {x : α} (h : r.Holds l) (hc : Stale P r) (e : r.pop = ok (x, r')) :
    Stale P r' := by
  unfold RingBuf.pop at e
  have hh := h.head
  have hsz := h.sz
  by_cases he : r.isEmpty = true
  · rw [if_pos he] at e
    simp only [ok.injEq, Prod.mk.injEq] at e
    rw [← e.2]; exact hc
  · rw [if_neg he, idx_of_lt hh] at e
    simp only [isEmpty, beq_iff_eq] at he
    simp only [ok_bind, setIdx_of_lt hh] at e
    have key : ∀ i, r.size ≤ i + 1 → i < r.data.length →
        ∃ x, (r.data.set r.head r.zero)[((r.head + 1) % r.data.length + i) % r.data.length]? = some x ∧ (x = r.zero ∨ P x) := by
      intro i h1 h2
      rw [Nat.mod_add_mod, show r.head + 1 + i = r.head + (i + 1) by omega]
      by_cases h3 : i + 1 = r.data.length
      · rw [h3, Nat.add_mod_right, Nat.mod_eq_of_lt hh, List.getElem?_set_self hh]
        exact ⟨_, rfl, Or.inl rfl⟩
      · have := hc (i + 1) h1 (by omega)
        rw [List.getElem?_set]
        split
        · exact ⟨r.zero, by simp [hh], Or.inl rfl⟩
        · exact this
    by_cases h1 : r.size - 1 = 0
    · rw [if_pos h1] at e
      simp only [pure_def, ok.injEq, Prod.mk.injEq] at e
      rw [← e.2]
      intro j _ h3
      simp only [RingBuf.clear, List.length_set] at h3 ⊢
      obtain ⟨i, hi1, hi2⟩ := slot_of_lt (h := (r.head + 1) % r.data.length) (Nat.mod_lt _ h.pos) h3
      rw [Nat.zero_add, Nat.mod_eq_of_lt h3, ← hi2]
      exact key i (by omega) hi1
    · rw [if_neg h1] at e
      simp only [pure_def, ok.injEq, Prod.mk.injEq] at e
      rw [← e.2]
      intro i h2 h3
      simp only [List.length_set] at h2 h3 ⊢
      exact key i (by omega) h3

theorem Stale.store {P : α → Prop} {r r' : RingBuf α} {l : List α} {v : α} (h : r.Holds l) (hc : Stale P r)
    (e : r.store v = ok r') : Stale P r' := by
  unfold RingBuf.store at e
  rw [setIdx_of_lt h.tail_lt] at e
  simp only [ok_bind, pure_def, ok.injEq] at e
  rw [← e]
  intro i h1 h2
  simp only [List.length_set] at h1 h2 ⊢
  have hh := h.head
  rw [List.getElem?_set, if_neg]
  · exact hc i (by omega) h2
  · rw [h.tail, wrap_mod (by omega), wrap_mod (by omega)]
    split <;> split <;> omega

theorem Stale.push {P : α → Prop} {r r' : RingBuf α} {l : List α} {v : α} (h : r.Holds l) (hc : Stale P r) (e : r.push v = ok r') :
    Stale P r' := by
  unfold RingBuf.push at e
  have hsz := h.sz
  have hpos := h.pos
  by_cases hf : r.isFull = true
  · rw [if_pos hf] at e
    simp only [isFull, beq_iff_eq] at hf
    cases l with
    | nil => have := h.len; simp at this; omega
    | cons x xs =>
      obtain ⟨r1, h1, h2, h3, h4, h5⟩ := h.pop_cons
      rw [h1] at e
      simp only [ok_bind, pure_def] at e
      have hl := h.len
      have hl2 := h2.len
      simp only [List.length_cons] at hl
      exact Stale.store h2 (hc.pop h h1) e
  · rw [if_neg hf] at e
    simp only [isFull, beq_iff_eq] at hf
    exact Stale.store h hc e

theorem Stale.qPush {P : α → Prop} {r r' : RingBuf α} {l : List α} {v : α} (h : r.Holds l) (hc : Stale P r) (e : r.qPush v = ok r') :
    Stale P r' := by
  unfold RingBuf.qPush at e
  have hlen := h.len
  have hpos := h.pos
  by_cases hf : r.isFull = true
  · rw [if_pos hf] at e
    simp only [RingBuf.isFull, beq_iff_eq] at hf
    obtain ⟨a, b, h1, h2⟩ := h.slices
    have hab : a.length + b.length = r.size := by rw [← List.length_append, h2, hlen]
    rw [h1] at e
    simp only [ok_bind, pure_def] at e
    rw [copyAt_of_le (by omega)] at e
    simp only [ok_bind] at e
    rw [copyAt_of_le (by rw [length_overwrite (by omega)]; simp; omega)] at e
    simp only [ok_bind] at e
    have e2 := overwrite_overwrite (l := List.replicate (r.size * 2) r.zero) (a := a) (b := b) (o := 0) (by simp; omega)
    rw [Nat.zero_add, h2] at e2
    rw [e2] at e
    have hdl : (overwrite (List.replicate (r.size * 2) r.zero) 0 l).length = r.size * 2 := by
      rw [length_overwrite (by omega)]; simp
    have hh : Holds { r with data := overwrite (List.replicate (r.size * 2) r.zero) 0 l, head := 0, tail := r.size } l := by
      refine ⟨by simp only; omega, by simp only; omega, by simp only; omega, ?_, hlen, ?_⟩
      · simp only; rw [hdl, Nat.zero_add, Nat.mod_eq_of_lt (by omega)]
      · intro i hi
        simp only at hi ⊢
        rw [hdl, Nat.zero_add, Nat.mod_eq_of_lt (by omega), getElem?_overwrite (by omega), if_pos (by simp; omega),
          Nat.sub_zero]
    refine Stale.store hh ?_ e
    intro i hi1 hi2
    simp only at hi1 hi2 ⊢
    rw [hdl] at hi2 ⊢
    rw [Nat.zero_add, Nat.mod_eq_of_lt hi2, getElem?_overwrite (by omega), if_neg (by omega), List.getElem?_replicate,
      if_pos hi2]
    exact ⟨_, rfl, Or.inl rfl⟩
  · rw [if_neg hf] at e
    simp only [RingBuf.isFull, beq_iff_eq] at hf
    have := h.sz
    exact Stale.store h hc e

/-- `PopBack` leaves the element. -/
theorem Stale.qPopBack {P : α → Prop} {r r' : RingBuf α} {l : List α} {x : α} (h : r.Holds l) (hc : Stale P r) (e : r.qPopBack = ok (x, r'))
    (hp : ∀ y, l.getLast? = some y → P y) : Stale P r' := by
  have hlen := h.len
  have hsz := h.sz
  have hh := h.head
  simp only [RingBuf.qPopBack, bind_eq_ok] at e
  obtain ⟨_, h1, v, _, e⟩ := e
  have hpos : 0 < r.size := by
    by_contra h0
    simp [show r.size = 0 by omega] at h1
  have key : ∀ i, r.size - 1 ≤ i → i < r.data.length → ∃ y, r.data[(r.head + i) % r.data.length]? = some y ∧ (y = r.zero ∨ P y) := by
    intro i h2 h3
    by_cases h4 : i = r.size - 1
    · subst h4
      obtain ⟨y, hy⟩ : ∃ y, l[r.size - 1]? = some y := ⟨l[r.size - 1]'(by omega), List.getElem?_eq_getElem (by omega)⟩
      refine ⟨y, by rw [← h.get _ (by omega), hy], Or.inr (hp y ?_)⟩
      rw [List.getLast?_eq_getElem?, hlen]; exact hy
    · exact hc i (by omega) h3
  split at e
  · simp only [pure_def, ok.injEq, Prod.mk.injEq] at e
    rw [← e.2]
    intro j h2 h3
    simp only [RingBuf.clear] at h3 ⊢
    obtain ⟨i, hi1, hi2⟩ := slot_of_lt hh h3
    rw [Nat.zero_add, Nat.mod_eq_of_lt h3, ← hi2]
    rename_i h4
    exact key i (by omega) hi1
  · simp only [pure_def, ok.injEq, Prod.mk.injEq] at e
    rw [← e.2]
    intro i h2 h3
    simp only at h2 h3 ⊢
    exact key i h2 h3

/-- `Clear` leaves all of them. -/
theorem Stale.clear {P : α → Prop} {r : RingBuf α} {l : List α} (h : r.Holds l) (hc : Stale P r) (hp : ∀ y ∈ l, P y) : Stale P r.clear := by
  have hlen := h.len
  intro j h2 h3
  simp only [RingBuf.clear] at h3 ⊢
  obtain ⟨i, hi1, hi2⟩ := slot_of_lt h.head h3
  rw [Nat.zero_add, Nat.mod_eq_of_lt h3, ← hi2]
  by_cases h4 : i < r.size
  · refine ⟨l[i]'(by omega), ?_, Or.inr (hp _ (List.getElem_mem _))⟩
    rw [← h.get i h4, List.getElem?_eq_getElem]
  · exact hc i (by omega) hi1

/-- The array is, up to rotation, the contents and then such slots. -/
theorem Stale.rotate {P : α → Prop} {r : RingBuf α} {l : List α} (h : r.Holds l) (hc : Stale P r) :
    ∃ rest, r.data.rotate r.head = l ++ rest ∧ ∀ x ∈ rest, x = r.zero ∨ P x := by
  have hlen := h.len
  have hsz := h.sz
  refine ⟨(r.data.rotate r.head).drop l.length, ?_, ?_⟩
  · conv_lhs => rw [← List.take_append_drop l.length (r.data.rotate r.head)]
    congr 1
    apply List.ext_getElem?
    intro i
    by_cases hi : i < l.length
    · rw [List.getElem?_take_of_lt hi, List.getElem?_rotate (by omega), Nat.add_comm i, ← h.get i (by omega)]
    · rw [List.getElem?_eq_none (by simp; omega), List.getElem?_eq_none (by omega)]
  · intro x hx
    obtain ⟨j, hj, rfl⟩ := List.mem_iff_getElem.1 hx
    have hj' : l.length + j < r.data.length := by
      rw [List.length_drop, List.length_rotate] at hj; omega
    obtain ⟨y, hy, hp⟩ := hc (l.length + j) (by omega) hj'
    have : ((r.data.rotate r.head).drop l.length)[j]? = some y := by
      rw [List.getElem?_drop, List.getElem?_rotate hj', Nat.add_comm (l.length + j)]; exact hy
    rw [List.getElem?_eq_getElem hj] at this
    rw [Option.some.inj this]
    exact hp

/-- A clean buffer is, up to rotation, its contents followed by zero values. -/
theorem Clean.rotate {r : RingBuf α} {l : List α} (h : r.Holds l) (hc : r.Clean) :
    r.data.rotate r.head = l ++ List.replicate (r.data.length - l.length) r.zero := by
  obtain ⟨rest, h1, h2⟩ := Stale.rotate h hc
  rw [h1]
  congr 1
  have := congrArg List.length h1
  rw [List.length_rotate, List.length_append] at this
  rw [List.eq_replicate_iff]
  exact ⟨by omega, fun x hx => (h2 x hx).resolve_right id⟩

end RingBuf
end Avf
