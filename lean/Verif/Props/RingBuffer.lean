import Verif.Lemmas.RingBuffer
import Verif.Spec.Trace
/-!
# C15, C16: `RingBuffer` and `Queue` are lists (`collections/ring_buffer.go`, `collections/queue.go`)
-/
namespace Avf
open Go
namespace RingBuf
variable {α : Type}

/-- What a caller sees of one call. -/
inductive Obs (α : Type) where
  | unit | val (v : α) | num (n : Nat) | bool (b : Bool) | list (l : List α)
deriving DecidableEq, Repr

/-- Calls on a `RingBuffer`. -/
inductive Op (α : Type) where
  | push (v : α) | pop | head | tail | size | isEmpty | isFull | capacity | data | clear

/-- The code: one call on the model of `ringBuffer`. `Data()` is observed as the concatenation of its two slices. -/
def Op.run (o : Op α) (r : RingBuf α) : Go (Obs α × RingBuf α) :=
  match o with
  | .push v => do let r ← r.push v; return (.unit, r)
  | .pop => do let (v, r) ← r.pop; return (.val v, r)
  | .head => do let v ← r.headElem; return (.val v, r)
  | .tail => do let v ← r.tailElem; return (.val v, r)
  | .size => ok (.num r.size, r)
  | .isEmpty => ok (.bool r.isEmpty, r)
  | .isFull => ok (.bool r.isFull, r)
  | .capacity => ok (.num r.capacity, r)
  | .data => do let (a, b) ← r.slices; return (.list (a ++ b), r)
  | .clear => ok (.unit, r.clear)

/-- The specification: a list of at most `c` elements, oldest first; `zero` is Go's zero value. -/
def Op.spec (c : Nat) (zero : α) (o : Op α) (l : List α) : Go (Obs α × List α) :=
  match o with
  | .push v => ok (.unit, if l.length = c then l.drop 1 ++ [v] else l ++ [v])
  | .pop => match l with
    | [] => ok (.val zero, [])
    | x :: xs => ok (.val x, xs)
  | .head => match l with
    | [] => panic
    | x :: _ => ok (.val x, l)
  | .tail => match l.getLast? with
    | none => panic
    | some x => ok (.val x, l)
  | .size => ok (.num l.length, l)
  | .isEmpty => ok (.bool l.isEmpty, l)
  | .isFull => ok (.bool (l.length == c), l)
  | .capacity => ok (.num c, l)
  | .data => ok (.list l, l)
  | .clear => ok (.unit, [])

/-- Simulation relation for a ring buffer of capacity `c`. -/
def RRel (c : Nat) (zero : α) (r : RingBuf α) (l : List α) : Prop :=
  r.Holds l ∧ r.data.length = c ∧ r.capacity = c ∧ r.zero = zero

theorem Op.sim (c : Nat) (zero : α) (o : Op α) (r : RingBuf α) (l : List α) (h : RRel c zero r l) :
    Agree (RRel c zero) (o.run r) (o.spec c zero l) := by
  obtain ⟨h, hc, hcap, hz⟩ := h
  have hlen := h.len
  have hpos := h.pos
  cases o with
  | push v =>
    simp only [Op.run, Op.spec, RingBuf.push]
    by_cases hf : l.length = c
    · have hfull : r.isFull = true := by simp [RingBuf.isFull]; omega
      rw [if_pos hfull, if_pos hf]
      cases l with
      | nil => simp at hf; omega
      | cons x xs =>
        obtain ⟨r1, h1, h2, h3, h4, h5⟩ := h.pop_cons
        have h2l := h2.len
        simp only [List.length_cons] at hf
        obtain ⟨r2, h6, h7, h8, h9, h10⟩ := h2.store (by omega) v
        rw [h1]
        simp only [ok_bind, pure_def]
        rw [h6]
        exact ⟨rfl, h7, by omega, by omega, by rw [h10, h5, hz]⟩
    · have hfull : r.isFull = false := by simp [RingBuf.isFull]; omega
      rw [if_neg (by simp [hfull]), if_neg hf]
      have := h.sz
      obtain ⟨r2, h6, h7, h8, h9, h10⟩ := h.store (by omega) v
      simp only [ok_bind]
      rw [h6]
      exact ⟨rfl, h7, by omega, by omega, by rw [h10, hz]⟩
  | pop =>
    simp only [Op.run, Op.spec]
    cases l with
    | nil => rw [h.pop_nil]; exact ⟨by rw [hz], h, hc, hcap, hz⟩
    | cons x xs =>
      obtain ⟨r1, h1, h2, h3, h4, h5⟩ := h.pop_cons
      rw [h1]
      exact ⟨rfl, h2, h3.trans hc, h4.trans hcap, by rw [h5, hz]⟩
  | head =>
    simp only [Op.run, Op.spec]
    rw [h.headElem]
    cases l with
    | nil => trivial
    | cons x xs => exact ⟨rfl, h, hc, hcap, hz⟩
  | tail =>
    simp only [Op.run, Op.spec]
    rw [h.tailElem]
    cases l.getLast? with
    | none => trivial
    | some x => exact ⟨rfl, h, hc, hcap, hz⟩
  | size => exact ⟨by rw [hlen], h, hc, hcap, hz⟩
  | isEmpty => exact ⟨by rw [h.isEmpty], h, hc, hcap, hz⟩
  | isFull => exact ⟨by simp [RingBuf.isFull, hlen, hc], h, hc, hcap, hz⟩
  | capacity => exact ⟨by rw [hcap], h, hc, hcap, hz⟩
  | data =>
    obtain ⟨a, b, h1, h2⟩ := h.slices
    simp only [Op.run, Op.spec]
    rw [h1]
    exact ⟨by rw [h2], h, hc, hcap, hz⟩
  | clear => exact ⟨rfl, h.clear, hc, hcap, hz⟩

/-- **C15** for every capacity `c > 0` and every history of calls, a `RingBuffer` shows exactly what a bounded list shows
that drops its oldest element when `c` are held and one is pushed (panics included: `Head`/`Tail` on empty). -/
theorem C15_ringBuffer_is_bounded_fifo (zero : α) (c : Nat) (hc : 0 < c) (ops : List (Op α)) :
    ∃ r, RingBuf.new zero c = ok r ∧
      seen (runTrace Op.run ops r) = seen (runTrace (Op.spec c zero) ops []) := by
  refine ⟨{ data := List.replicate c zero, head := 0, tail := 0, size := 0, capacity := c, zero := zero }, ?_, ?_⟩
  · simp [RingBuf.new, hc]
  · apply Agree.seen_eq (R := RRel c zero)
    apply runTrace_agree (P := fun _ => True) (fun o s t _ h => Op.sim c zero o s t h) _ _ _ (fun _ _ => trivial)
    exact ⟨holds_replicate zero c c hc, by simp, rfl, rfl⟩

/-- **C15** the bounded list never holds more than `c` elements. -/
theorem C15_spec_bounded (zero : α) (c : Nat) (hc : 0 < c) (o : Op α) (l l' : List α) (x : Obs α) (h : l.length ≤ c)
    (h' : o.spec c zero l = ok (x, l')) : l'.length ≤ c := by
  cases o with
  | push v =>
    simp only [Op.spec, Go.ok.injEq, Prod.mk.injEq] at h'
    rw [← h'.2]; split <;> simp <;> omega
  | pop =>
    simp only [Op.spec] at h'
    cases l with
    | nil => simp at h'; simp [h'.2]
    | cons y ys => simp at h'; rw [← h'.2]; simp at h; omega
  | head =>
    simp only [Op.spec] at h'
    cases l with
    | nil => simp at h'
    | cons y ys => simp at h'; rw [← h'.2]; exact h
  | tail =>
    simp only [Op.spec] at h'
    split at h'
    · simp at h'
    · simp at h'; rw [← h'.2]; exact h
  | size => simp [Op.spec] at h'; rw [← h'.2]; exact h
  | isEmpty => simp [Op.spec] at h'; rw [← h'.2]; exact h
  | isFull => simp [Op.spec] at h'; rw [← h'.2]; exact h
  | capacity => simp [Op.spec] at h'; rw [← h'.2]; exact h
  | data => simp [Op.spec] at h'; rw [← h'.2]; exact h
  | clear => simp [Op.spec] at h'; simp [h'.2]

/-- **C15** a capacity of 0 is refused (assertion). -/
theorem C15_capacity_zero (zero : α) : RingBuf.new zero 0 = panic := rfl

/-! ## Queue -/

/-- Calls on a `Queue`. (`IsFull` and `Capacity` of the embedded ring buffer describe the allocation, not the contents;
`Capacity()` is always 0 for a queue.) -/
inductive QOp (α : Type) where
  | push (v : α) | pop | popBack | peek (i : Int) | head | tail | size | isEmpty | data | clear

/-- The code: one call on the model of `Queue`. -/
def QOp.run (o : QOp α) (r : RingBuf α) : Go (Obs α × RingBuf α) :=
  match o with
  | .push v => do let r ← r.qPush v; return (.unit, r)
  | .pop => do let (v, r) ← r.pop; return (.val v, r)
  | .popBack => do let (v, r) ← r.qPopBack; return (.val v, r)
  | .peek i => do let v ← r.qPeek i; return (.val v, r)
  | .head => do let v ← r.headElem; return (.val v, r)
  | .tail => do let v ← r.tailElem; return (.val v, r)
  | .size => ok (.num r.size, r)
  | .isEmpty => ok (.bool r.isEmpty, r)
  | .data => do let (a, b) ← r.slices; return (.list (a ++ b), r)
  | .clear => ok (.unit, r.clear)

/-- The specification: an unbounded list, front first. -/
def QOp.spec (zero : α) (o : QOp α) (l : List α) : Go (Obs α × List α) :=
  match o with
  | .push v => ok (.unit, l ++ [v])
  | .pop => match l with
    | [] => ok (.val zero, [])
    | x :: xs => ok (.val x, xs)
  | .popBack => match l.getLast? with
    | none => panic
    | some x => ok (.val x, l.dropLast)
  | .peek i => if i < 0 then panic else match l[i.toNat]? with
    | none => panic
    | some x => ok (.val x, l)
  | .head => match l with
    | [] => panic
    | x :: _ => ok (.val x, l)
  | .tail => match l.getLast? with
    | none => panic
    | some x => ok (.val x, l)
  | .size => ok (.num l.length, l)
  | .isEmpty => ok (.bool l.isEmpty, l)
  | .data => ok (.list l, l)
  | .clear => ok (.unit, [])

/-- Simulation relation for a queue. -/
def QRel (zero : α) (r : RingBuf α) (l : List α) : Prop := r.Holds l ∧ r.zero = zero

theorem Holds.qPush {r : RingBuf α} {l : List α} (h : r.Holds l) (v : α) :
    ∃ r', r.qPush v = ok r' ∧ r'.Holds (l ++ [v]) ∧ r'.zero = r.zero := by
  unfold RingBuf.qPush
  have hlen := h.len
  have hpos := h.pos
  by_cases hf : r.isFull = true
  · rw [if_pos hf]
    simp only [RingBuf.isFull, beq_iff_eq] at hf
    obtain ⟨a, b, h1, h2⟩ := h.slices
    have hab : a.length + b.length = r.size := by rw [← List.length_append, h2, hlen]
    rw [h1]
    simp only [ok_bind, pure_def]
    rw [copyAt_of_le (by omega)]
    simp only [ok_bind]
    rw [copyAt_of_le (by rw [length_overwrite (by omega)]; simp; omega)]
    simp only [ok_bind]
    have e := overwrite_overwrite (l := List.replicate (r.size * 2) r.zero) (a := a) (b := b) (o := 0) (by simp; omega)
    rw [Nat.zero_add, h2] at e
    rw [e]
    have hdl : (overwrite (List.replicate (r.size * 2) r.zero) 0 l).length = r.size * 2 := by
      rw [length_overwrite (by omega)]; simp
    have hh : Holds { r with data := overwrite (List.replicate (r.size * 2) r.zero) 0 l, head := 0, tail := r.size } l := by
      refine ⟨by simp only; omega, by simp only; omega, by simp only; omega, ?_, hlen, ?_⟩
      · simp only; rw [hdl, Nat.zero_add, Nat.mod_eq_of_lt (by omega)]
      · intro i hi
        simp only at hi ⊢
        rw [hdl, Nat.zero_add, Nat.mod_eq_of_lt (by omega), getElem?_overwrite (by omega), if_pos (by simp; omega),
          Nat.sub_zero]
    obtain ⟨r2, h3, h4, _, _, h5⟩ := hh.store (by simp only; omega) v
    exact ⟨r2, h3, h4, by rw [h5]⟩
  · rw [if_neg hf]
    simp only [RingBuf.isFull, beq_iff_eq] at hf
    have := h.sz
    obtain ⟨r2, h3, h4, _, _, h5⟩ := h.store (by omega) v
    exact ⟨r2, h3, h4, h5⟩

theorem Holds.qPopBack {r : RingBuf α} {l : List α} {x : α} (h : r.Holds l) (hx : l.getLast? = some x) :
    ∃ r', r.qPopBack = ok (x, r') ∧ r'.Holds l.dropLast ∧ r'.zero = r.zero := by
  have hne : l ≠ [] := by intro h0; rw [h0] at hx; simp at hx
  have hlen := h.len
  have hpos : 0 < l.length := List.length_pos_iff.mpr hne
  have hh := h.head
  have hsz := h.sz
  have htl := h.tail_lt
  unfold RingBuf.qPopBack
  have hs : decide (r.size > 0) = true := by simp; omega
  rw [hs, h.tailElem, hx]
  simp only [assert_true, ok_bind]
  by_cases h1 : r.size - 1 = 0
  · rw [if_pos h1]
    refine ⟨_, rfl, ?_, rfl⟩
    have : l.dropLast = [] := List.length_eq_zero_iff.mp (by simp; omega)
    rw [this]
    exact ⟨h.pos, h.pos, by simp [RingBuf.clear], by simp [RingBuf.clear], by simp [RingBuf.clear],
      by intro i hi; simp [RingBuf.clear] at hi⟩
  · rw [if_neg h1]
    refine ⟨_, rfl, ⟨h.pos, hh, by simp only; omega, ?_, by simp only [List.length_dropLast]; omega, ?_⟩, rfl⟩
    · simp only
      have ht := h.tail
      rw [wrap_mod (by omega)] at ht
      rw [wrap_mod (by omega), wrap_mod (by omega)]
      (repeat' split) <;> (split at ht) <;> omega
    · intro i hi
      simp only at hi ⊢
      rw [← h.get i (by omega), List.getElem?_dropLast, if_pos (by omega)]

theorem QOp.sim (zero : α) (o : QOp α) (r : RingBuf α) (l : List α) (h : QRel zero r l) :
    Agree (QRel zero) (o.run r) (o.spec zero l) := by
  obtain ⟨h, hz⟩ := h
  have hlen := h.len
  cases o with
  | push v =>
    obtain ⟨r', h1, h2, h3⟩ := h.qPush v
    simp only [QOp.run, QOp.spec]
    rw [h1]
    exact ⟨rfl, h2, by rw [h3, hz]⟩
  | pop =>
    simp only [QOp.run, QOp.spec]
    cases l with
    | nil => rw [h.pop_nil]; exact ⟨by rw [hz], h, hz⟩
    | cons x xs =>
      obtain ⟨r1, h1, h2, h3, h4, h5⟩ := h.pop_cons
      rw [h1]
      exact ⟨rfl, h2, by rw [h5, hz]⟩
  | popBack =>
    simp only [QOp.run, QOp.spec]
    cases hx : l.getLast? with
    | none =>
      have : l = [] := by simpa using hx
      subst this
      have h0 : r.size = 0 := by simp at hlen; omega
      simp [RingBuf.qPopBack, h0, Agree]
    | some x =>
      obtain ⟨r', h1, h2, h3⟩ := h.qPopBack hx
      rw [h1]
      exact ⟨rfl, h2, by rw [h3, hz]⟩
  | peek i =>
    obtain ⟨a, b, h1, h2⟩ := h.slices
    simp only [QOp.run, QOp.spec, RingBuf.qPeek]
    rw [h1]
    simp only [ok_bind]
    by_cases hi : i < 0
    · rw [if_pos (by omega), if_pos hi, idxI, if_pos hi]; trivial
    · rw [if_neg hi]
      have key : (if i < (a.length : Int) then idxI a i else idxI b (i - a.length)) = idx l i.toNat := by
        split
        · rw [idxI, if_neg hi, idx, idx, ← h2, List.getElem?_append_left (by omega)]
        · rw [idxI, if_neg (by omega), idx, idx, ← h2, List.getElem?_append_right (by omega)]
          rw [show (i - (a.length : Int)).toNat = i.toNat - a.length by omega]
      rw [key, idx]
      cases l[i.toNat]? with
      | none => trivial
      | some x => exact ⟨rfl, h, hz⟩
  | head =>
    simp only [QOp.run, QOp.spec]
    rw [h.headElem]
    cases l with
    | nil => trivial
    | cons x xs => exact ⟨rfl, h, hz⟩
  | tail =>
    simp only [QOp.run, QOp.spec]
    rw [h.tailElem]
    cases l.getLast? with
    | none => trivial
    | some x => exact ⟨rfl, h, hz⟩
  | size => exact ⟨by rw [hlen], h, hz⟩
  | isEmpty => exact ⟨by rw [h.isEmpty], h, hz⟩
  | data =>
    obtain ⟨a, b, h1, h2⟩ := h.slices
    simp only [QOp.run, QOp.spec]
    rw [h1]
    exact ⟨by rw [h2], h, hz⟩
  | clear => exact ⟨rfl, h.clear, hz⟩

/-- **C16** for every initial capacity `c > 0` and every history of calls, a `Queue` shows exactly what an unbounded list
shows: nothing is ever lost, and `PopBack`/`Head`/`Tail`/`Peek` panic exactly when the element does not exist. -/
theorem C16_queue_is_deque (zero : α) (c : Nat) (hc : 0 < c) (ops : List (QOp α)) :
    ∃ r, RingBuf.newQueue zero c = ok r ∧
      seen (runTrace QOp.run ops r) = seen (runTrace (QOp.spec zero) ops []) := by
  refine ⟨{ data := List.replicate c zero, head := 0, tail := 0, size := 0, capacity := 0, zero := zero }, ?_, ?_⟩
  · simp [RingBuf.newQueue, hc]
  · apply Agree.seen_eq (R := QRel zero)
    apply runTrace_agree (P := fun _ => True) (fun o s t _ h => QOp.sim zero o s t h) _ _ _ (fun _ _ => trivial)
    exact ⟨holds_replicate zero c 0 hc, rfl⟩

/-! Non-vacuity: a history that wraps, overflows and grows. -/
example : (do let r ← RingBuf.new (0 : Nat) 3
              let (x, _) ← runTrace Op.run [.push 1, .push 2, .push 3, .push 4, .data, .pop, .tail, .push 5, .data] r
              return x) =
    ok [.unit, .unit, .unit, .unit, .list [2, 3, 4], .val 2, .val 4, .unit, .list [3, 4, 5]] := by decide +kernel
example : (do let r ← RingBuf.newQueue (0 : Nat) 2
              let (x, _) ← runTrace QOp.run [.push 1, .push 2, .pop, .push 3, .push 4, .data, .popBack, .peek 1, .size] r
              return x) =
    ok [.unit, .unit, .val 1, .unit, .unit, .list [2, 3, 4], .val 4, .val 3, .num 2] := by decide +kernel

end RingBuf
end Avf
