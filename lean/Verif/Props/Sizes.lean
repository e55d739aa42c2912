import Verif.Props.RingBuffer
import Verif.Props.DirectBuf
import Verif.Props.RBBuf
import Verif.Model.Bits
import Verif.Lemmas.RingClean
/-!
# C82, C83, C84: reported capacities, references kept by the containers, `SafeRead`
-/
namespace Avf
open Go

/-! ## C82: `Capacity` and `AvailableBytes` tell how much fits without reallocation -/

/-- **C82** for the direct buffer: in every reachable state that is not sealed, `AvailableBytes` is not negative, and it is
exactly the largest amount that one `Write` can store in the present array. Such a write lowers it by the length written;
a larger one moves the buffer to a fresh array of one and a half times the bytes then in use (rounded down). -/
theorem C82_direct_available (b : DirectBuf) (m : Mem) (hr : b.Reachable m) (hs : b.sealed = false) (d : Bytes) :
    0 ≤ b.availableBytes ∧ ∃ b' m', b.write m d = ok (b', m') ∧
      if (d.length : Int) ≤ b.availableBytes then
        b'.data = b.data ∧ m'.length = m.length ∧ b'.availableBytes = b.availableBytes - d.length
      else
        b'.data = ⟨m.length, 0, (b.nextOffset + d.length) * 3 / 2⟩ ∧ m'.length = m.length + 1 ∧
          b'.availableBytes = ((b.nextOffset + d.length) / 2 : Nat) := by
  obtain ⟨t, ht⟩ := hr.rep
  have hw : DirectBuf.WF b m := ht.wf
  have h3 := hw.off
  refine ⟨by simp only [DirectBuf.availableBytes]; omega, ?_⟩
  have ho : b.openBlock.data = b.data ∧ b.openBlock.nextOffset = b.nextOffset ∧ b.openBlock.sealed = b.sealed := by
    rcases DirectBuf.openBlock_cases b with ⟨_, _, _, _, e⟩ | ⟨_, e⟩ <;> simp [e]
  simp only [DirectBuf.write, DirectBuf.alloc, hs, Bool.not_false, assert_true, ok_bind, ho.2.1, ho.1]
  by_cases hg : b.nextOffset + d.length > b.data.len
  · rw [if_pos hg]
    generalize hc : (b.nextOffset + d.length) * 3 / 2 = c
    have hcl : b.nextOffset + d.length ≤ c := by omega
    simp only [DirectBuf.grow, ho.1, ho.2.1]
    rw [SliceRef.sub_of_le (Nat.zero_le _) h3]
    simp only [ok_bind, Go.pure_def, Nat.add_zero, Nat.sub_zero]
    have e1 : (m.make c).1 = ⟨m.length, 0, c⟩ := rfl
    rw [e1, SliceRef.sub_of_le (by omega) (by simpa using hcl)]
    refine ⟨_, _, rfl, ?_⟩
    rw [if_neg (by simp only [DirectBuf.availableBytes]; omega)]
    refine ⟨rfl, ?_, ?_⟩
    · simp [Mem.length_copy, Mem.length_make]
    · simp only [DirectBuf.availableBytes]; omega
  · rw [if_neg hg]
    simp only [ok_bind, Go.pure_def, ho.1, ho.2.1]
    rw [SliceRef.sub_of_le (by omega) (by omega)]
    refine ⟨_, _, rfl, ?_⟩
    rw [if_pos (by simp only [DirectBuf.availableBytes]; omega)]
    refine ⟨rfl, ?_, ?_⟩
    · simp [Mem.length_copy]
    · simp only [DirectBuf.availableBytes]; omega

/-- Both cases occur: 2 of 4 bytes are used; 2 more fit, 3 more do not. -/
example : (fun x : DirectBuf × Mem => (x.1.availableBytes, x.1.data)) <$> (DirectBuf.new [] 4).1.write (DirectBuf.new [] 4).2 [1, 2] =
    ok (2, ⟨0, 0, 4⟩) := by decide +kernel
example : (fun x : List BufObs × DirectBuf × Mem => (x.2.1.availableBytes, x.2.1.data)) <$>
    runTrace BufOp.runD [.write [1, 2], .write [3, 4]] (DirectBuf.new [] 4) = ok (0, ⟨0, 0, 4⟩) := by decide +kernel
example : (fun x : List BufObs × DirectBuf × Mem => (x.2.1.availableBytes, x.2.1.data)) <$>
    runTrace BufOp.runD [.write [1, 2], .write [3, 4, 5]] (DirectBuf.new [] 4) = ok (2, ⟨1, 0, 7⟩) := by decide +kernel

/-- The same for a ring block buffer, the claim: what is reported as available can be written without a new array. And it is
tight: one byte more cannot. -/
def C82_ring_claim : Prop := ∀ (m₀ : Mem) (cap : Nat) (ops : List BufOp) (xs : List BufObs) (r : RBBuf) (m : Mem) (d : Bytes),
  runTrace BufOp.runR ops (RBBuf.new m₀ cap) = ok (xs, (r, m)) →
    ∃ r' m', r.write m d = ok (r', m') ∧ (r'.data.arr = r.data.arr ↔ (d.length : Int) ≤ r.availableBytes)

/-- **C82** fails for the ring block buffer: a new one of 4 bytes reports 0, although 4 bytes fit. -/
theorem C82_ring_available_violated : ¬ C82_ring_claim := by
  intro h
  obtain ⟨r', m', e, hi⟩ := h [] 4 [] [] (RBBuf.new [] 4).1 (RBBuf.new [] 4).2 [1, 2, 3, 4] rfl
  have e' : (RBBuf.new [] 4).1.write (RBBuf.new [] 4).2 [1, 2, 3, 4] =
      ok ({ data := ⟨0, 0, 4⟩, nextOffset := 0, sealed := false, blocks := [⟨0, 4, false⟩], capacity := 4,
            discardBlockCount := 0 }, [[1, 2, 3, 4]]) := by decide +kernel
  rw [e'] at e
  simp only [ok.injEq, Prod.mk.injEq] at e
  rw [← e.1] at hi
  have := hi.mp rfl
  revert this
  decide

namespace RingBuf
variable {α : Type}

theorem pop_capacity {r r' : RingBuf α} {x : α} (e : r.pop = ok (x, r')) : r'.capacity = r.capacity := by
  unfold pop at e
  split at e
  · simp only [ok.injEq, Prod.mk.injEq] at e; rw [← e.2]
  · simp only [bind_eq_ok] at e
    obtain ⟨_, _, _, _, e⟩ := e
    split at e <;> · simp only [pure_def, ok.injEq, Prod.mk.injEq] at e; obtain ⟨_, rfl⟩ := e; rfl

theorem store_capacity {r r' : RingBuf α} {v : α} (e : r.store v = ok r') : r'.capacity = r.capacity := by
  simp only [store, bind_eq_ok, pure_def, ok.injEq] at e
  obtain ⟨_, _, e⟩ := e
  rw [← e]

theorem QOp.run_capacity (o : QOp α) {r r' : RingBuf α} {x : Obs α} (e : o.run r = ok (x, r')) :
    r'.capacity = r.capacity := by
  cases o with
  | push v =>
    simp only [QOp.run, bind_eq_ok, pure_def, ok.injEq, Prod.mk.injEq] at e
    obtain ⟨r1, e1, _, rfl⟩ := e
    simp only [RingBuf.qPush, bind_eq_ok] at e1
    obtain ⟨r2, e2, e3⟩ := e1
    rw [store_capacity e3]
    split at e2
    · simp only [bind_eq_ok, pure_def, ok.injEq] at e2
      obtain ⟨_, _, _, _, _, _, e2⟩ := e2
      rw [← e2]
    · simp only [ok.injEq] at e2; rw [e2]
  | pop =>
    simp only [QOp.run, bind_eq_ok, pure_def, ok.injEq, Prod.mk.injEq] at e
    obtain ⟨⟨_, r1⟩, e1, _, rfl⟩ := e
    exact pop_capacity e1
  | popBack =>
    simp only [QOp.run, bind_eq_ok, pure_def, ok.injEq, Prod.mk.injEq] at e
    obtain ⟨⟨_, r1⟩, e1, _, rfl⟩ := e
    simp only [RingBuf.qPopBack, bind_eq_ok] at e1
    obtain ⟨_, _, _, _, e1⟩ := e1
    split at e1 <;> · simp only [pure_def, ok.injEq, Prod.mk.injEq] at e1; obtain ⟨_, rfl⟩ := e1; rfl
  | peek i =>
    simp only [QOp.run, bind_eq_ok, pure_def, ok.injEq, Prod.mk.injEq] at e
    obtain ⟨_, _, _, rfl⟩ := e; rfl
  | head =>
    simp only [QOp.run, bind_eq_ok, pure_def, ok.injEq, Prod.mk.injEq] at e
    obtain ⟨_, _, _, rfl⟩ := e; rfl
  | tail =>
    simp only [QOp.run, bind_eq_ok, pure_def, ok.injEq, Prod.mk.injEq] at e
    obtain ⟨_, _, _, rfl⟩ := e; rfl
  | size => simp only [QOp.run, ok.injEq, Prod.mk.injEq] at e; rw [← e.2]
  | isEmpty => simp only [QOp.run, ok.injEq, Prod.mk.injEq] at e; rw [← e.2]
  | data =>
    simp only [QOp.run, bind_eq_ok, pure_def, ok.injEq, Prod.mk.injEq] at e
    obtain ⟨_, _, _, rfl⟩ := e; rfl
  | clear => simp only [QOp.run, ok.injEq, Prod.mk.injEq] at e; rw [← e.2]; rfl

theorem QOp.trace_capacity (ops : List (QOp α)) : ∀ {r r' : RingBuf α} {xs : List (Obs α)},
    runTrace QOp.run ops r = ok (xs, r') → r'.capacity = r.capacity := by
  induction ops with
  | nil => intro r r' xs e; simp only [runTrace, ok.injEq, Prod.mk.injEq] at e; rw [e.2]
  | cons o os ih =>
    intro r r' xs e
    simp only [runTrace, bind_eq_ok, pure_def, ok.injEq, Prod.mk.injEq] at e
    obtain ⟨⟨_, r1⟩, e1, ⟨_, r2⟩, e2, _, rfl⟩ := e
    exact (ih e2).trans (o.run_capacity e1)

/-- `Data` of a ring block buffer, the claim: after one write into a new buffer its two slices together hold what was written, as `Data` of
the direct buffer does (`C19`). -/
def C82_ring_data_claim : Prop := ∀ (m₀ : Mem) (cap : Nat) (d : Bytes) (r : RBBuf) (m : Mem), d.length ≤ cap →
  (RBBuf.new m₀ cap).1.write (RBBuf.new m₀ cap).2 d = ok (r, m) → (r.dataBytes m).1 ++ (r.dataBytes m).2 = d

/-- **C82** fails for it: both are empty in every state. -/
theorem C82_ring_data_empty (r : RBBuf) (m : Mem) : r.dataBytes m = ([], []) := rfl

theorem C82_ring_data_violated : ¬ C82_ring_data_claim := by
  intro h
  have e : (RBBuf.new [] 4).1.write (RBBuf.new [] 4).2 [1, 2, 3, 4] =
      ok ({ data := ⟨0, 0, 4⟩, nextOffset := 0, sealed := false, blocks := [⟨0, 4, false⟩], capacity := 4,
            discardBlockCount := 0 }, [[1, 2, 3, 4]]) := by decide +kernel
  have := h [] 4 [1, 2, 3, 4] _ _ (by decide) e
  rw [C82_ring_data_empty] at this
  cases this

/-- The claim for queues: `Size()` is at most `Capacity()`, as it is for ring buffers (C15). -/
def C82_queue_claim : Prop := ∀ (c : Nat) (ops : List (QOp Nat)) (q r : RingBuf Nat) (xs : List (Obs Nat)),
  RingBuf.newQueue 0 c = ok q → runTrace QOp.run ops q = ok (xs, r) → r.reportedSize ≤ r.reportedCapacity

/-- **C82** fails for queues: `Capacity()` is 0 after every history, whatever the queue was made with and holds. -/
theorem C82_queue_capacity_is_zero (zero : α) (c : Nat) (ops : List (QOp α)) (q r : RingBuf α) (xs : List (Obs α))
    (hq : RingBuf.newQueue zero c = ok q) (e : runTrace QOp.run ops q = ok (xs, r)) : r.reportedCapacity = 0 := by
  unfold RingBuf.newQueue at hq
  simp only [bind_eq_ok, pure_def, ok.injEq] at hq
  obtain ⟨_, _, hq⟩ := hq
  rw [reportedCapacity, QOp.trace_capacity ops e, ← hq]

theorem C82_queue_capacity_violated : ¬ C82_queue_claim := by
  intro h
  have := h 2 [.push 7] _ _ _ rfl rfl
  revert this
  decide

/-! ## C83: a container keeps no reference to what has left it

A slot of the backing array that still holds a removed element keeps that element (a packet, a block) from being collected. -/

theorem Agree.and {S T O : Type} {R : S → T → Prop} {Q : S → Prop} {a : Go (O × S)} {b : Go (O × T)} (h : Agree R a b)
    (hq : ∀ x s, a = ok (x, s) → Q s) : Agree (fun s t => R s t ∧ Q s) a b := by
  cases a with
  | ok a => cases b with
    | ok b => exact ⟨h.1, h.2, hq _ _ rfl⟩
    | err => exact h
    | panic => exact h
  | err => cases b <;> exact h
  | panic => cases b <;> exact h

/-- The calls that remove in an orderly way. -/
def Op.tidy : Op α → Bool
  | .clear => false
  | _ => true

@[inherit_doc Op.tidy]
def QOp.tidy : QOp α → Bool
  | .clear | .popBack => false
  | _ => true

/-- The claim for queues: after every history the backing array is a permutation of what the queue holds and zero values. -/
def C83_queue_claim : Prop := ∀ (c : Nat) (ops : List (QOp Nat)) (q r : RingBuf Nat) (xs ys : List (Obs Nat)) (l : List Nat),
  RingBuf.newQueue 0 c = ok q → runTrace QOp.run ops q = ok (xs, r) → runTrace (QOp.spec 0) ops [] = ok (ys, l) →
    ∃ n, r.data.Perm (l ++ List.replicate n 0)

@[inherit_doc C83_queue_claim]
def C83_ring_claim : Prop := ∀ (c : Nat) (ops : List (Op Nat)) (q r : RingBuf Nat) (xs ys : List (Obs Nat)) (l : List Nat),
  RingBuf.new 0 c = ok q → runTrace Op.run ops q = ok (xs, r) → runTrace (Op.spec c 0) ops [] = ok (ys, l) →
    ∃ n, r.data.Perm (l ++ List.replicate n 0)

/-- **C83** fails: `PopBack` leaves the element in the array. (Block buffers remove block records with it.) -/
theorem C83_popBack_violated : ¬ C83_queue_claim := by
  intro h
  obtain ⟨n, hn⟩ := h 2 [.push 7, .push 8, .popBack] _ _ _ _ _ rfl rfl rfl
  have := hn.mem_iff (a := 8)
  simp at this

/-- **C83** fails: `Clear` leaves all elements in the array. -/
theorem C83_clear_violated : ¬ C83_ring_claim := by
  intro h
  obtain ⟨n, hn⟩ := h 2 [.push 7, .clear] _ _ _ _ _ rfl rfl rfl
  have := hn.mem_iff (a := 7)
  simp [RingBuf.clear] at this

/-- **C83** holds for histories of a queue without `PopBack` and `Clear`: the array is, up to rotation, what the queue holds
followed by zero values. -/
theorem C83_queue_partial (zero : α) (c : Nat) (ops : List (QOp α)) (ht : ∀ o ∈ ops, o.tidy = true) (q r : RingBuf α)
    (xs ys : List (Obs α)) (l : List α) (hq : RingBuf.newQueue zero c = ok q) (e : runTrace QOp.run ops q = ok (xs, r))
    (e' : runTrace (QOp.spec zero) ops [] = ok (ys, l)) :
    r.data.rotate r.head = l ++ List.replicate (r.data.length - l.length) zero := by
  unfold RingBuf.newQueue at hq
  simp only [bind_eq_ok, pure_def, ok.injEq] at hq
  obtain ⟨_, hc, rfl⟩ := hq
  have hc : 0 < c := by
    by_contra h0
    simp [show c = 0 by omega] at hc
  have := runTrace_agree (R := fun r l => QRel zero r l ∧ r.Clean) (f := QOp.run) (g := QOp.spec zero)
    (P := fun o => o.tidy = true) ?_ ops _ _ ht ⟨⟨holds_replicate zero c 0 hc, rfl⟩, clean_replicate zero c 0⟩
  · rw [e, e'] at this
    obtain ⟨_, h, hcl⟩ := this
    rw [← h.2]
    exact Clean.rotate h.1 hcl
  · rintro o r l ht ⟨hr, hcl⟩
    refine Agree.and (o.sim zero r l hr) ?_
    intro x r' e
    cases o with
    | push v =>
      simp only [QOp.run, bind_eq_ok, pure_def, ok.injEq, Prod.mk.injEq] at e
      obtain ⟨r1, e1, _, rfl⟩ := e
      exact Stale.qPush hr.1 hcl e1
    | pop =>
      simp only [QOp.run, bind_eq_ok, pure_def, ok.injEq, Prod.mk.injEq] at e
      obtain ⟨⟨_, r1⟩, e1, _, rfl⟩ := e
      exact Stale.pop hr.1 hcl e1
    | popBack => simp [QOp.tidy] at ht
    | clear => simp [QOp.tidy] at ht
    | size => simp only [QOp.run, ok.injEq, Prod.mk.injEq] at e; rw [← e.2]; exact hcl
    | isEmpty => simp only [QOp.run, ok.injEq, Prod.mk.injEq] at e; rw [← e.2]; exact hcl
    | _ =>
      simp only [QOp.run, bind_eq_ok, pure_def, ok.injEq, Prod.mk.injEq] at e
      obtain ⟨_, _, _, rfl⟩ := e; exact hcl

/-- **C83** holds for histories of a ring buffer without `Clear`, overwriting included. -/
theorem C83_ring_partial (zero : α) (c : Nat) (ops : List (Op α)) (ht : ∀ o ∈ ops, o.tidy = true) (q r : RingBuf α)
    (xs ys : List (Obs α)) (l : List α) (hq : RingBuf.new zero c = ok q) (e : runTrace Op.run ops q = ok (xs, r))
    (e' : runTrace (Op.spec c zero) ops [] = ok (ys, l)) :
    r.data.rotate r.head = l ++ List.replicate (c - l.length) zero := by
  unfold RingBuf.new at hq
  simp only [bind_eq_ok, pure_def, ok.injEq] at hq
  obtain ⟨_, hc, rfl⟩ := hq
  have hc : 0 < c := by
    by_contra h0
    simp [show c = 0 by omega] at hc
  have := runTrace_agree (R := fun r l => RRel c zero r l ∧ r.Clean) (f := Op.run) (g := Op.spec c zero)
    (P := fun o => o.tidy = true) ?_ ops _ _ ht
    ⟨⟨holds_replicate zero c c hc, by simp, rfl, rfl⟩, clean_replicate zero c c⟩
  · rw [e, e'] at this
    obtain ⟨_, h, hcl⟩ := this
    have h' := Clean.rotate h.1 hcl
    rw [h.2.1, h.2.2.2] at h'
    exact h'
  · rintro o r l ht ⟨hr, hcl⟩
    refine Agree.and (o.sim c zero r l hr) ?_
    intro x r' e
    cases o with
    | push v =>
      simp only [Op.run, bind_eq_ok, pure_def, ok.injEq, Prod.mk.injEq] at e
      obtain ⟨r1, e1, _, rfl⟩ := e
      exact Stale.push hr.1 hcl e1
    | pop =>
      simp only [Op.run, bind_eq_ok, pure_def, ok.injEq, Prod.mk.injEq] at e
      obtain ⟨⟨_, r1⟩, e1, _, rfl⟩ := e
      exact Stale.pop hr.1 hcl e1
    | clear => simp [Op.tidy] at ht
    | size => simp only [Op.run, ok.injEq, Prod.mk.injEq] at e; rw [← e.2]; exact hcl
    | isEmpty => simp only [Op.run, ok.injEq, Prod.mk.injEq] at e; rw [← e.2]; exact hcl
    | isFull => simp only [Op.run, ok.injEq, Prod.mk.injEq] at e; rw [← e.2]; exact hcl
    | capacity => simp only [Op.run, ok.injEq, Prod.mk.injEq] at e; rw [← e.2]; exact hcl
    | _ =>
      simp only [Op.run, bind_eq_ok, pure_def, ok.injEq, Prod.mk.injEq] at e
      obtain ⟨_, _, _, rfl⟩ := e; exact hcl

/-- What `PopBack` and `Clear` take away. -/
def QOp.leaves (l : List α) : QOp α → List α
  | .popBack => l.getLast?.toList
  | .clear => l
  | _ => []

/-- What was taken away by `PopBack` and `Clear` in a history, according to the specification. -/
def QOp.lost (zero : α) : List (QOp α) → List α → List α
  | [], _ => []
  | o :: os, l => o.leaves l ++ match o.spec zero l with
    | ok (_, l') => QOp.lost zero os l'
    | _ => []

@[inherit_doc QOp.leaves]
def Op.leaves (l : List α) : Op α → List α
  | .clear => l
  | _ => []

@[inherit_doc QOp.lost]
def Op.lost (c : Nat) (zero : α) : List (Op α) → List α → List α
  | [], _ => []
  | o :: os, l => o.leaves l ++ match o.spec c zero l with
    | ok (_, l') => Op.lost c zero os l'
    | _ => []

theorem QOp.stale (zero : α) (P : α → Prop) (ops : List (QOp α)) : ∀ {r r' : RingBuf α} {l l' : List α} {xs ys : List (Obs α)}, QRel zero r l →
    Stale P r → runTrace QOp.run ops r = ok (xs, r') → runTrace (QOp.spec zero) ops l = ok (ys, l') → (∀ x ∈ QOp.lost zero ops l, P x) →
    QRel zero r' l' ∧ Stale P r' := by
  induction ops with
  | nil =>
    intro r r' l l' xs ys hr hs e e' _
    simp only [runTrace, ok.injEq, Prod.mk.injEq] at e e'
    rw [← e.2, ← e'.2]; exact ⟨hr, hs⟩
  | cons o os ih =>
    intro r r' l l' xs ys hr hs e e' hp
    simp only [runTrace, bind_eq_ok, pure_def, ok.injEq, Prod.mk.injEq] at e e'
    obtain ⟨⟨x, r1⟩, e1, ⟨_, _⟩, e2, _, rfl⟩ := e
    obtain ⟨⟨y, l1⟩, e1', ⟨_, _⟩, e2', _, rfl⟩ := e'
    have hsim := o.sim zero r l hr
    rw [e1, e1'] at hsim
    have hl : QOp.lost zero (o :: os) l = o.leaves l ++ QOp.lost zero os l1 := by simp only [QOp.lost, e1']
    rw [hl] at hp
    refine ih hsim.2 ?_ e2 e2' fun x hx => hp x (List.mem_append_right _ hx)
    cases o with
    | push v =>
      simp only [QOp.run, bind_eq_ok, pure_def, ok.injEq, Prod.mk.injEq] at e1
      obtain ⟨_, e1, _, rfl⟩ := e1
      exact Stale.qPush hr.1 hs e1
    | pop =>
      simp only [QOp.run, bind_eq_ok, pure_def, ok.injEq, Prod.mk.injEq] at e1
      obtain ⟨⟨_, _⟩, e1, _, rfl⟩ := e1
      exact Stale.pop hr.1 hs e1
    | popBack =>
      simp only [QOp.run, bind_eq_ok, pure_def, ok.injEq, Prod.mk.injEq] at e1
      obtain ⟨⟨_, _⟩, e1, _, rfl⟩ := e1
      refine Stale.qPopBack hr.1 hs e1 fun y hy => hp y (List.mem_append_left _ ?_)
      show y ∈ l.getLast?.toList
      rw [hy]; simp
    | clear =>
      simp only [QOp.run, ok.injEq, Prod.mk.injEq] at e1
      rw [← e1.2]
      exact Stale.clear hr.1 hs fun y hy => hp y (List.mem_append_left _ hy)
    | size => simp only [QOp.run, ok.injEq, Prod.mk.injEq] at e1; rw [← e1.2]; exact hs
    | isEmpty => simp only [QOp.run, ok.injEq, Prod.mk.injEq] at e1; rw [← e1.2]; exact hs
    | _ =>
      simp only [QOp.run, bind_eq_ok, pure_def, ok.injEq, Prod.mk.injEq] at e1
      obtain ⟨_, _, _, rfl⟩ := e1; exact hs

theorem Op.stale (c : Nat) (zero : α) (P : α → Prop) (ops : List (Op α)) : ∀ {r r' : RingBuf α} {l l' : List α} {xs ys : List (Obs α)},
    RRel c zero r l → Stale P r → runTrace Op.run ops r = ok (xs, r') → runTrace (Op.spec c zero) ops l = ok (ys, l') →
    (∀ x ∈ Op.lost c zero ops l, P x) → RRel c zero r' l' ∧ Stale P r' := by
  induction ops with
  | nil =>
    intro r r' l l' xs ys hr hs e e' _
    simp only [runTrace, ok.injEq, Prod.mk.injEq] at e e'
    rw [← e.2, ← e'.2]; exact ⟨hr, hs⟩
  | cons o os ih =>
    intro r r' l l' xs ys hr hs e e' hp
    simp only [runTrace, bind_eq_ok, pure_def, ok.injEq, Prod.mk.injEq] at e e'
    obtain ⟨⟨x, r1⟩, e1, ⟨_, _⟩, e2, _, rfl⟩ := e
    obtain ⟨⟨y, l1⟩, e1', ⟨_, _⟩, e2', _, rfl⟩ := e'
    have hsim := o.sim c zero r l hr
    rw [e1, e1'] at hsim
    have hl : Op.lost c zero (o :: os) l = o.leaves l ++ Op.lost c zero os l1 := by simp only [Op.lost, e1']
    rw [hl] at hp
    refine ih hsim.2 ?_ e2 e2' fun x hx => hp x (List.mem_append_right _ hx)
    cases o with
    | push v =>
      simp only [Op.run, bind_eq_ok, pure_def, ok.injEq, Prod.mk.injEq] at e1
      obtain ⟨_, e3, _, rfl⟩ := e1
      exact Stale.push hr.1 hs e3
    | pop =>
      simp only [Op.run, bind_eq_ok, pure_def, ok.injEq, Prod.mk.injEq] at e1
      obtain ⟨⟨_, _⟩, e3, _, rfl⟩ := e1
      exact Stale.pop hr.1 hs e3
    | clear =>
      simp only [Op.run, ok.injEq, Prod.mk.injEq] at e1
      rw [← e1.2]
      exact Stale.clear hr.1 hs fun y hy => hp y (List.mem_append_left _ hy)
    | size => simp only [Op.run, ok.injEq, Prod.mk.injEq] at e1; rw [← e1.2]; exact hs
    | isEmpty => simp only [Op.run, ok.injEq, Prod.mk.injEq] at e1; rw [← e1.2]; exact hs
    | isFull => simp only [Op.run, ok.injEq, Prod.mk.injEq] at e1; rw [← e1.2]; exact hs
    | capacity => simp only [Op.run, ok.injEq, Prod.mk.injEq] at e1; rw [← e1.2]; exact hs
    | _ =>
      simp only [Op.run, bind_eq_ok, pure_def, ok.injEq, Prod.mk.injEq] at e1
      obtain ⟨_, _, _, rfl⟩ := e1; exact hs

/-- **C83**, every history of a queue: besides what it holds, the array has only zero values and elements that `PopBack` or `Clear` took
away. -/
theorem C83_queue_stale (zero : α) (c : Nat) (ops : List (QOp α)) (q r : RingBuf α) (xs ys : List (Obs α)) (l : List α)
    (hq : RingBuf.newQueue zero c = ok q) (e : runTrace QOp.run ops q = ok (xs, r)) (e' : runTrace (QOp.spec zero) ops [] = ok (ys, l)) :
    ∃ rest, r.data.rotate r.head = l ++ rest ∧ ∀ x ∈ rest, x = zero ∨ x ∈ QOp.lost zero ops [] := by
  unfold RingBuf.newQueue at hq
  simp only [bind_eq_ok, pure_def, ok.injEq] at hq
  obtain ⟨_, hc, rfl⟩ := hq
  have hc : 0 < c := by
    by_contra h0
    simp [show c = 0 by omega] at hc
  obtain ⟨h1, h2⟩ := QOp.stale zero (· ∈ QOp.lost zero ops []) ops ⟨holds_replicate zero c 0 hc, rfl⟩ (stale_replicate _ zero c 0) e e'
    fun x hx => hx
  obtain ⟨rest, h3, h4⟩ := Stale.rotate h1.1 h2
  exact ⟨rest, h3, by rw [h1.2] at h4; exact h4⟩

/-- **C83**, every history of a ring buffer: besides what it holds, the array has only zero values and elements that `Clear` took away. -/
theorem C83_ring_stale (zero : α) (c : Nat) (ops : List (Op α)) (q r : RingBuf α) (xs ys : List (Obs α)) (l : List α)
    (hq : RingBuf.new zero c = ok q) (e : runTrace Op.run ops q = ok (xs, r)) (e' : runTrace (Op.spec c zero) ops [] = ok (ys, l)) :
    ∃ rest, r.data.rotate r.head = l ++ rest ∧ ∀ x ∈ rest, x = zero ∨ x ∈ Op.lost c zero ops [] := by
  unfold RingBuf.new at hq
  simp only [bind_eq_ok, pure_def, ok.injEq] at hq
  obtain ⟨_, hc, rfl⟩ := hq
  have hc : 0 < c := by
    by_contra h0
    simp [show c = 0 by omega] at hc
  obtain ⟨h1, h2⟩ := Op.stale c zero (· ∈ Op.lost c zero ops []) ops ⟨holds_replicate zero c c hc, by simp, rfl, rfl⟩
    (stale_replicate _ zero c c) e e' fun x hx => hx
  obtain ⟨rest, h3, h4⟩ := Stale.rotate h1.1 h2
  exact ⟨rest, h3, by rw [h1.2.2.2] at h4; exact h4⟩

/-- 8 was taken by `PopBack` and stays; 9, taken by `Pop`, does not. -/
example : (fun x : List (Obs Nat) × RingBuf Nat => (x.2.data, x.2.head, QOp.lost 0 [.push 9, .push 7, .push 8, .popBack, .pop] [])) <$> (do
    let q ← RingBuf.newQueue 0 4
    runTrace QOp.run [.push 9, .push 7, .push 8, .popBack, .pop] q) = ok ([0, 7, 8, 0], 1, [8]) := by decide +kernel

/-- A queue that wrapped and grew: the window is in the middle of the array. -/
example : (fun x : List (Obs Nat) × RingBuf Nat => (x.2.data, x.2.head)) <$> (do
    let q ← RingBuf.newQueue 0 2
    runTrace QOp.run [.push 1, .push 2, .pop, .push 3, .push 4, .pop] q) = ok ([0, 3, 4, 0], 1) := by decide +kernel

end RingBuf

/-! ## C84: `SafeRead` -/

/-- The claim: `SafeRead` reads what `Read` reads if there are enough bits, and reports an error otherwise. -/
def C84_claim : Prop := ∀ (b : BitsReader) (n : Nat), 0 ≤ b.offset →
  if b.offset + n ≤ 8 * b.data.length then b.safeRead n = b.read n else (b.safeRead n).isErr = true

/-- **C84** fails: of the byte 0xFF the first bit is "0", and the reader stays where it is. -/
theorem C84_safeRead_value_violated : ¬ C84_claim := by
  intro h
  have := h ⟨[0xFF], 0⟩ 1 (by decide)
  revert this
  decide +kernel

/-- **C84** fails as well at the end of the data: no error is reported, whatever is asked for. -/
theorem C84_safeRead_never_fails (b : BitsReader) (n : Int) : b.safeRead n = ok (0, b) := rfl

theorem C84_safeRead_end_violated : ¬ ∀ (b : BitsReader) (n : Nat), b.data = [] → 0 < n → (b.safeRead n).isErr = true := by
  intro h
  have := h ⟨[], 0⟩ 1 rfl (by decide)
  revert this
  decide

end Avf
