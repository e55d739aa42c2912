import Verif.Model.Pipelines
import Verif.Spec.Streams
import Verif.Spec.Trace
import Verif.Lemmas.Mem
/-! # StreamsBuffer: buffers in a shared memory behave like buffers with memories of their own -/
set_option linter.unusedSimpArgs false
namespace Avf
open Go

/-- Running an operation on the model. -/
def StreamOp.run : StreamOp → StreamsBuf × Mem → Go (BufObs × (StreamsBuf × Mem))
  | write d i v, (s, m) => do let (n, s, m) ← s.write m d i v; return (.num n, (s, m))
  | fetch i, (s, m) => do let (d, s, m) ← s.fetch m i; return (.bytes (d.map m.read), (s, m))
  | discardHead i, (s, m) => do let s ← s.discardHead i; return (.unit, (s, m))
  | discardBack i, (s, m) => do let s ← s.discardBack i; return (.unit, (s, m))
  | pending i, (s, m) => do let (n, s, m) ← s.pendingBlockSize m i; return (.num n, (s, m))

namespace RBBuf

/-- The same buffer in another array. -/
def rename (r : RBBuf) (a : Nat) : RBBuf := { r with data := { r.data with arr := a } }

/-- Two buffers that differ only in the array, with the same contents. -/
structure Same (s t : RBBuf × Mem) : Prop where
  eq : t.1 = s.1.rename t.1.data.arr
  lt : s.1.data.arr < s.2.length
  lt' : t.1.data.arr < t.2.length
  arr : s.2.arr s.1.data.arr = t.2.arr t.1.data.arr

/-- An operation on a buffer touches no array but its own and new ones. -/
structure Frame (s s' : RBBuf × Mem) : Prop where
  len : s.2.length ≤ s'.2.length
  arr : ∀ a, a < s.2.length → a ≠ s.1.data.arr → s'.2.arr a = s.2.arr a
  own : s'.1.data.arr = s.1.data.arr ∨ s.2.length ≤ s'.1.data.arr

theorem Same.read {s t : RBBuf × Mem} (h : Same s t) (o n : Nat) :
    s.2.read ⟨s.1.data.arr, o, n⟩ = t.2.read ⟨t.1.data.arr, o, n⟩ := by
  rw [Mem.read_eq, Mem.read_eq]; simp only [h.arr]

/-- Results of a step on both sides. -/
def SameOut {α : Type} (P : (RBBuf × Mem) → (RBBuf × Mem) → Prop) (x : Go (α × RBBuf × Mem)) (y : Go (α × RBBuf × Mem)) : Prop :=
  (x = panic ∧ y = panic) ∨ ∃ a s t, x = ok (a, s) ∧ y = ok (a, t) ∧ P s t

theorem place_same {r : RBBuf} {m : Mem} {q : RBBuf} {n : Mem} (h : Same (r, m) (q, n)) (head tail size : Nat) (old : Block) :
    SameOut (fun s t => Same s t ∧ Frame (r, m) s) (r.place m head tail size old) (q.place n head tail size old) := by
  obtain ⟨h1, h2, h3, h4⟩ := id h
  simp only at h1 h2 h3 h4
  have e1 : q.capacity = r.capacity := by rw [h1]; rfl
  have e2 : q.data.len = r.data.len := by rw [h1]; rfl
  have e3 : q.data.off = r.data.off := by rw [h1]; rfl
  have e4 : q.blocks = r.blocks := by rw [h1]; rfl
  have hfr : Frame (r, m) (r, m) := ⟨Nat.le_refl _, fun _ _ _ => rfl, .inl rfl⟩
  unfold place
  rw [e1, e2]
  split
  · exact .inr ⟨tail, _, _, rfl, rfl, h, hfr⟩
  · split
    · exact .inr ⟨tail, _, _, rfl, rfl, h, hfr⟩
    · split
      · by_cases hb : old.index + old.size ≤ r.data.len
        · rw [SliceRef.sub_of_le (by omega) hb, SliceRef.sub_of_le (by omega) (by rw [e2]; exact hb)]
          simp only [ok_bind, Go.pure_def]
          refine .inr ⟨_, _, _, rfl, rfl, ⟨?_, ?_, ?_, ?_⟩, ?_, ?_, ?_⟩
          · simp only [rename]; rw [h1]; rfl
          · simp only [Mem.length_copy]; exact h2
          · simp only [Mem.length_copy]; exact h3
          · simp only
            rw [Mem.arr_copy, Mem.arr_copy, if_pos rfl, if_pos rfl, h4, e2, e3]
            have := h.read (r.data.off + old.index) (old.index + old.size - old.index)
            simp only at this
            rw [this]
          · simp [Mem.length_copy]
          · intro a ha hne
            simp only at ha hne ⊢
            rw [Mem.arr_copy, if_neg hne]
          · exact .inl rfl
        · rw [SliceRef.sub_panic (by omega), SliceRef.sub_panic (by rw [e2]; omega)]
          exact .inl ⟨rfl, rfl⟩
      · by_cases hb : old.index + old.size ≤ r.data.len
        · rw [SliceRef.sub_of_le (by omega) hb, SliceRef.sub_of_le (by omega) (by rw [e2]; exact hb)]
          simp only [ok_bind, Go.pure_def]
          refine .inr ⟨_, _, _, rfl, rfl, ⟨?_, ?_, ?_, ?_⟩, ?_, ?_, ?_⟩
          · simp only [rename, Mem.make, e4]; rw [h1]; rfl
          · simp only [Mem.length_copy, Mem.length_make]; simp [Mem.make]
          · simp only [Mem.length_copy, Mem.length_make]; simp [Mem.make]
          · simp only
            rw [Mem.arr_copy, Mem.arr_copy, if_pos rfl, if_pos rfl]
            simp only [show (m.make ((r.data.len + size) * 3 / 2)).1 = ⟨m.length, 0, (r.data.len + size) * 3 / 2⟩ from rfl,
              show (n.make ((r.data.len + size) * 3 / 2)).1 = ⟨n.length, 0, (r.data.len + size) * 3 / 2⟩ from rfl]
            rw [Mem.arr_make_new, Mem.arr_make_new, Mem.read_make m _ (SliceRef.mk r.data.arr (r.data.off + old.index) (old.index + old.size - old.index)) h2, Mem.read_make n _ (SliceRef.mk q.data.arr (q.data.off + old.index) (old.index + old.size - old.index)) h3, e3]
            have := h.read (r.data.off + old.index) (old.index + old.size - old.index)
            simp only at this
            rw [this]
          · simp [Mem.length_copy, Mem.length_make]
          · intro a ha hne
            simp only at ha hne ⊢
            rw [Mem.arr_copy, if_neg (by simp [Mem.make]; omega), Mem.arr_make_lt _ _ _ ha]
          · exact .inr (Nat.le_refl _)
        · rw [SliceRef.sub_panic (by omega), SliceRef.sub_panic (by rw [e2]; omega)]
          exact .inl ⟨rfl, rfl⟩

theorem write_same {r : RBBuf} {m : Mem} {q : RBBuf} {n : Mem} (h : Same (r, m) (q, n)) (d : Bytes) :
    (r.write m d = panic ∧ q.write n d = panic) ∨
    ∃ s t, r.write m d = ok s ∧ q.write n d = ok t ∧ Same s t ∧ Frame (r, m) s := by
  obtain ⟨h1, h2, h3, h4⟩ := id h
  simp only at h1 h2 h3 h4
  have ht : q.headTail = r.headTail := by rw [h1]; rfl
  have hb : q.restoreCapacity = r.restoreCapacity.rename q.data.arr := by
    rw [h1]
    unfold restoreCapacity rename
    by_cases hc : r.blocks.length ≤ 1 <;> simp [hc]
  have ho : ∀ x, (q.restoreCapacity).openBlock x = ((r.restoreCapacity).openBlock x).rename q.data.arr := by
    intro x
    rw [hb]
    unfold openBlock rename
    simp only
    split
    · split <;> rfl
    · rfl
  have hd : ∀ x, ((r.restoreCapacity).openBlock x).data = r.data := by
    intro x
    unfold openBlock restoreCapacity
    split <;> split <;> (try split) <;> rfl
  simp only [write, alloc, ht, ho]
  have hs : ∀ x, Same ((r.restoreCapacity).openBlock x, m) (((r.restoreCapacity).openBlock x).rename q.data.arr, n) := by
    intro x
    refine ⟨?_, ?_, ?_, ?_⟩
    · simp [rename]
    · simp only [hd]; exact h2
    · simpa [rename] using h3
    · simp only [hd]; simpa [rename] using h4
  have hbl : ∀ x, (((r.restoreCapacity).openBlock x).rename q.data.arr).blocks = ((r.restoreCapacity).openBlock x).blocks :=
    fun _ => rfl
  simp only [hbl]
  cases hl : ((r.restoreCapacity).openBlock r.headTail.2).blocks.getLast? with
  | none => exact .inl ⟨rfl, rfl⟩
  | some old =>
    simp only
    rcases place_same (hs r.headTail.2) r.headTail.1 r.headTail.2 d.length old with ⟨e1, e2⟩ | ⟨a, ⟨r₁, m₁⟩, ⟨q₁, n₁⟩, e1, e2, g1, g2⟩
    · left; rw [e1, e2]; exact ⟨rfl, rfl⟩
    · rw [e1, e2]
      simp only [ok_bind, bind_assoc]
      obtain ⟨f1, f2, f3, f4⟩ := g1
      simp only at f1 f2 f3 f4
      have l1 : q₁.data.len = r₁.data.len := by rw [f1]; rfl
      have l2 : q₁.data.off = r₁.data.off := by rw [f1]; rfl
      by_cases hc : a + d.length ≤ r₁.data.len
      · rw [SliceRef.sub_of_le (by omega) hc, SliceRef.sub_of_le (by omega) (by rw [l1]; exact hc)]
        simp only [ok_bind, Go.pure_def]
        refine .inr ⟨_, _, rfl, rfl, ⟨?_, ?_, ?_, ?_⟩, ?_, ?_, ?_⟩
        · simp only [rename]; rw [f1]; rfl
        · simp only [Mem.length_copy]; exact f2
        · simp only [Mem.length_copy]; exact f3
        · simp only
          rw [Mem.arr_copy, Mem.arr_copy, if_pos rfl, if_pos rfl, f4, l2]
        · simp only [Mem.length_copy]; exact g2.len
        · intro b hb' hne
          simp only at hb' hne ⊢
          have gl := g2.len
          simp only at gl
          have own := g2.own
          simp only [hd] at own
          rw [Mem.arr_copy, if_neg]
          · exact g2.arr b hb' (by simp only [hd]; exact hne)
          · simp only; rcases own with o | o <;> omega
        · have own := g2.own
          simp only [hd] at own ⊢
          exact own
      · rw [SliceRef.sub_panic (by omega), SliceRef.sub_panic (by rw [l1]; omega)]
        exact .inl ⟨rfl, rfl⟩

theorem frame_rfl {r r' : RBBuf} {m : Mem} (h : r'.data = r.data) : Frame (r, m) (r', m) :=
  ⟨Nat.le_refl _, fun _ _ _ => rfl, .inl (by simp only [h])⟩

theorem fetch_same {r : RBBuf} {m : Mem} {q : RBBuf} {n : Mem} (h : Same (r, m) (q, n)) :
    (r.fetch = panic ∧ q.fetch = panic) ∨
    ∃ s r' s' q', r.fetch = ok (s, r') ∧ q.fetch = ok (s', q') ∧ s.map m.read = s'.map n.read ∧ Same (r', m) (q', n) ∧
      r'.data = r.data := by
  obtain ⟨h1, h2, h3, h4⟩ := id h
  simp only at h1 h2 h3 h4
  have e1 : q.blocks = r.blocks := by rw [h1]; rfl
  have e2 : q.sealed = r.sealed := by rw [h1]; rfl
  have l1 : q.data.len = r.data.len := by rw [h1]; rfl
  have l2 : q.data.off = r.data.off := by rw [h1]; rfl
  simp only [fetch, DirectBuf.fetch, e1, e2]
  cases hs : r.sealed with
  | true => exact .inl ⟨rfl, rfl⟩
  | false =>
    simp only [Bool.not_false, assert_true, ok_bind]
    cases hl : r.blocks.getLast? with
    | none => exact .inl ⟨rfl, rfl⟩
    | some k =>
      simp only
      cases hk : k.completed with
      | true =>
        simp only [if_true, ok_bind, Go.pure_def]
        exact .inr ⟨_, _, _, _, rfl, rfl, rfl, ⟨h1, h2, h3, h4⟩, rfl⟩
      | false =>
        simp only [Bool.false_eq_true, if_false]
        by_cases hc : k.index + k.size ≤ r.data.len
        · rw [SliceRef.sub_of_le (by omega) hc, SliceRef.sub_of_le (by omega) (by rw [l1]; exact hc)]
          simp only [ok_bind, Go.pure_def]
          refine .inr ⟨_, _, _, _, rfl, rfl, ?_, ⟨?_, h2, h3, h4⟩, rfl⟩
          · simp only [Option.map_some, l2]
            have := h.read (r.data.off + k.index) (k.index + k.size - k.index)
            simp only at this
            rw [this]
          · simp only [rename]; rw [h1]; rfl
        · rw [SliceRef.sub_panic (by omega), SliceRef.sub_panic (by rw [l1]; omega)]
          exact .inl ⟨rfl, rfl⟩

theorem pop_data {r r' : RBBuf} (e : r.pop = ok r') : r'.data = r.data := by
  simp only [pop, bind_eq_ok] at e
  obtain ⟨_, _, e⟩ := e
  split at e
  · simp only [Go.pure_def, ok.injEq] at e; subst e; rfl
  · simp only [DirectBuf.pop, bind_eq_ok, Go.pure_def, ok.injEq] at e
    obtain ⟨b, ⟨_, _, rfl⟩, e⟩ := e
    split at e
    · simp only [ok.injEq] at e; subst e; simp [DirectBuf.resetIfEmpty]; split <;> rfl
    · split at e <;> simp only [ok.injEq] at e <;> subst e <;> simp [DirectBuf.resetIfEmpty] <;> split <;> rfl

theorem popBack_data {r r' : RBBuf} (e : r.popBack = ok r') : r'.data = r.data := by
  simp only [popBack, DirectBuf.popBack, bind_eq_ok, Go.pure_def, ok.injEq] at e
  obtain ⟨b, ⟨_, _, _, _, rfl⟩, rfl⟩ := e
  simp [DirectBuf.resetIfEmpty]; split <;> rfl

theorem pop_rename (r : RBBuf) (a : Nat) : (r.rename a).pop = (fun r => r.rename a) <$> r.pop := by
  unfold pop rename DirectBuf.pop DirectBuf.resetIfEmpty
  simp only
  cases hs : r.sealed
  · simp only [Bool.not_false, assert_true, ok_bind]
    split
    · simp [hs]
    · simp only [Go.pure_def, ok_bind]
      cases hb : r.blocks.drop 1 with
      | nil => rfl
      | cons y ys =>
        simp only [List.isEmpty_cons, Bool.false_eq_true, if_false, List.head?_cons]
        split <;> rfl
  · rfl

theorem popBack_rename (r : RBBuf) (a : Nat) : (r.rename a).popBack = (fun r => r.rename a) <$> r.popBack := by
  unfold popBack rename DirectBuf.popBack DirectBuf.resetIfEmpty
  simp only
  cases r.sealed
  · simp only [Bool.not_false, assert_true, ok_bind]
    cases r.blocks.isEmpty
    · simp only [Bool.not_false, assert_true, ok_bind, Go.pure_def, map_ok]
      split <;> rfl
    · rfl
  · rfl

end RBBuf

/-- The operation as it acts on the buffer inside the shared memory. -/
theorem StreamOp.single_same {s t : RBBuf × Mem} (h : RBBuf.Same s t) (o : StreamOp) :
    (o.single s = panic ∧ o.single t = panic) ∨
    ∃ x s' t', o.single s = ok (x, s') ∧ o.single t = ok (x, t') ∧ RBBuf.Same s' t' ∧ RBBuf.Frame s s' := by
  obtain ⟨r, m⟩ := s
  obtain ⟨q, n⟩ := t
  have hq : q = r.rename q.data.arr := h.eq
  cases o with
  | write d i v =>
    simp only [StreamOp.single]
    rcases RBBuf.write_same h d with ⟨e1, e2⟩ | ⟨s', t', e1, e2, g1, g2⟩
    · left; rw [e1, e2]; exact ⟨rfl, rfl⟩
    · right; rw [e1, e2]; exact ⟨_, s', t', rfl, rfl, g1, g2⟩
  | fetch i =>
    simp only [StreamOp.single]
    rcases RBBuf.fetch_same h with ⟨e1, e2⟩ | ⟨s, r', s', q', e1, e2, g1, g2, g3⟩
    · left; rw [e1, e2]; exact ⟨rfl, rfl⟩
    · right; rw [e1, e2]
      simp only [ok_bind, Go.pure_def]
      exact ⟨_, (r', m), (q', n), rfl, by rw [g1], g2, RBBuf.frame_rfl g3⟩
  | discardHead i =>
    simp only [StreamOp.single]
    have hp := RBBuf.pop_rename r q.data.arr
    rw [← hq] at hp
    rw [hp]
    cases e : r.pop with
    | ok r' =>
      have hd := RBBuf.pop_data e
      right
      refine ⟨_, (r', m), (r'.rename q.data.arr, n), rfl, rfl, ⟨rfl, ?_, h.lt', ?_⟩, RBBuf.frame_rfl hd⟩
      · simp only [hd]; exact h.lt
      · simp only [hd]; exact h.arr
    | err m =>
      exfalso
      revert e
      unfold RBBuf.pop DirectBuf.pop
      cases r.sealed <;> simp
      repeat' split
      all_goals simp
    | panic => left; exact ⟨rfl, rfl⟩
  | discardBack i =>
    simp only [StreamOp.single]
    have hp := RBBuf.popBack_rename r q.data.arr
    rw [← hq] at hp
    rw [hp]
    cases e : r.popBack with
    | ok r' =>
      have hd := RBBuf.popBack_data e
      right
      refine ⟨_, (r', m), (r'.rename q.data.arr, n), rfl, rfl, ⟨rfl, ?_, h.lt', ?_⟩, RBBuf.frame_rfl hd⟩
      · simp only [hd]; exact h.lt
      · simp only [hd]; exact h.arr
    | err m =>
      exfalso
      revert e
      unfold RBBuf.popBack DirectBuf.popBack
      cases r.sealed <;> cases r.blocks.isEmpty <;> simp
    | panic => left; exact ⟨rfl, rfl⟩
  | pending i =>
    right
    refine ⟨_, (r, m), (q, n), rfl, ?_, h, RBBuf.frame_rfl rfl⟩
    rw [hq]; rfl

namespace StreamsBuf

/-- The shared memory against the separate memories. -/
structure R (s : StreamsBuf × Mem) (ts : List (RBBuf × Mem)) : Prop where
  len : s.1.buffers.length = ts.length
  same : ∀ (i : Nat) (r : RBBuf) (t : RBBuf × Mem), s.1.buffers[i]? = some r → ts[i]? = some t → RBBuf.Same (r, s.2) t
  sep : ∀ (i j : Nat) (r q : RBBuf), i ≠ j → s.1.buffers[i]? = some r → s.1.buffers[j]? = some q → r.data.arr ≠ q.data.arr

/-- Common step: the buffer exists on both sides. -/
theorem R.step {s : StreamsBuf} {m : Mem} {ts : List (RBBuf × Mem)} (h : R (s, m) ts) {i : Nat} {r : RBBuf} {t : RBBuf × Mem}
    (hr : s.buffers[i]? = some r) (ht : ts[i]? = some t) {r' : RBBuf} {m' : Mem} {t' : RBBuf × Mem}
    (hs : RBBuf.Same (r', m') t') (hf : RBBuf.Frame (r, m) (r', m')) : R (s.put i r', m') (ts.set i t') := by
  have hi : i < s.buffers.length := (List.getElem?_eq_some_iff.mp hr).1
  have hi' : i < ts.length := (List.getElem?_eq_some_iff.mp ht).1
  refine ⟨by simp [put, h.len], ?_, ?_⟩
  · intro j q u hq hu
    simp only [put] at hq
    by_cases hj : i = j
    · subst hj
      rw [List.getElem?_set_self hi] at hq
      rw [List.getElem?_set_self hi'] at hu
      simp at hq hu; subst hq; subst hu
      exact hs
    · rw [List.getElem?_set_ne hj] at hq hu
      have h1 := h.same j q u hq hu
      have h2 := h.sep i j r q hj hr hq
      refine ⟨h1.eq, ?_, h1.lt', ?_⟩
      · have := hf.len; have := h1.lt; simp only at *; omega
      · simp only
        rw [hf.arr _ h1.lt (fun hh => h2 hh.symm)]
        exact h1.arr
  · intro j k q u hjk hq hu
    have own := hf.own
    simp only at own
    simp only [put] at hq hu
    have key : ∀ j q, i ≠ j → s.buffers[j]? = some q → r'.data.arr ≠ q.data.arr := by
      intro j q hj hq
      obtain ⟨u, hu⟩ : ∃ u, ts[j]? = some u := by
        have := (List.getElem?_eq_some_iff.mp hq).1
        have hl := h.len
        simp only at hl
        exact ⟨_, List.getElem?_eq_getElem (by omega)⟩
      have h1 := (h.same j q u hq hu).lt
      have h2 := h.sep i j r q hj hr hq
      simp only at h1
      rcases own with own | own
      · rw [own]; exact h2
      · omega
    by_cases hj : i = j
    · subst hj
      rw [List.getElem?_set_self hi] at hq
      rw [List.getElem?_set_ne hjk] at hu
      simp at hq; subst hq
      exact key k u hjk hu
    · rw [List.getElem?_set_ne hj] at hq
      by_cases hk : i = k
      · subst hk
        rw [List.getElem?_set_self hi] at hu
        simp at hu; subst hu
        exact (key j q hj hq).symm
      · rw [List.getElem?_set_ne hk] at hu
        exact h.sep j k q u hjk hq hu

/-- Creating the next stream. -/
theorem R.create {s : StreamsBuf} {m : Mem} {ts : List (RBBuf × Mem)} (h : R (s, m) ts) (cap : Nat) :
    R (⟨s.buffers ++ [(RBBuf.new m cap).1]⟩, (RBBuf.new m cap).2) (ts ++ [RBBuf.new [] cap]) := by
  have hl := h.len
  simp only at hl
  have hlt : ∀ (j : Nat) (q : RBBuf), s.buffers[j]? = some q → q.data.arr < m.length := by
    intro j q hq
    have := (List.getElem?_eq_some_iff.mp hq).1
    exact (h.same j q _ hq (List.getElem?_eq_getElem (by omega))).lt
  refine ⟨by simp [hl], ?_, ?_⟩
  · intro j q u hq hu
    simp only at hq
    by_cases hj : j < s.buffers.length
    · rw [List.getElem?_append_left hj] at hq
      rw [List.getElem?_append_left (by omega)] at hu
      have h1 := h.same j q u hq hu
      have h1l := h1.lt
      simp only at h1l
      refine ⟨h1.eq, ?_, h1.lt', ?_⟩
      · simp only [RBBuf.new, Mem.length_make]; omega
      · simp only [RBBuf.new]; rw [Mem.arr_make_lt _ _ _ h1l]; exact h1.arr
    · rw [List.getElem?_append_right (by omega)] at hq hu
      rw [← hl] at hu
      cases hk : j - s.buffers.length with
      | succ k => rw [hk] at hq; simp at hq
      | zero =>
        rw [hk] at hq hu
        simp at hq hu; subst hq; subst hu
        refine ⟨rfl, ?_, ?_, ?_⟩ <;> simp [RBBuf.new, Mem.make, Mem.arr]
  · intro j k q u hjk hq hu
    simp only at hq hu
    have hnew : ∀ (j : Nat) (q : RBBuf), (s.buffers ++ [(RBBuf.new m cap).1])[j]? = some q → ¬ j < s.buffers.length →
        j = s.buffers.length ∧ q.data.arr = m.length := by
      intro j q hq hj
      rw [List.getElem?_append_right (by omega)] at hq
      cases hk : j - s.buffers.length with
      | succ k => rw [hk] at hq; simp at hq
      | zero => rw [hk] at hq; simp at hq; subst hq; exact ⟨by omega, rfl⟩
    by_cases hj : j < s.buffers.length
    · have hq' := hq
      rw [List.getElem?_append_left hj] at hq'
      by_cases hk : k < s.buffers.length
      · rw [List.getElem?_append_left hk] at hu
        exact h.sep j k q u hjk hq' hu
      · have := hnew k u hu hk
        have := hlt j q hq'
        omega
    · have h1 := hnew j q hq hj
      by_cases hk : k < s.buffers.length
      · rw [List.getElem?_append_left hk] at hu
        have := hlt k u hu
        omega
      · have := hnew k u hu hk
        omega

/-- What `run` does to an existing buffer. -/
theorem run_eq {s : StreamsBuf} {m : Mem} {o : StreamOp} {r : RBBuf} (hr : s.buffers[o.index]? = some r) :
    o.run (s, m) = (do let (x, (r, m)) ← o.single (r, m); return (x, (s.put o.index r, m))) := by
  have hi : o.index < s.buffers.length := (List.getElem?_eq_some_iff.mp hr).1
  cases o with
  | write d i v =>
    simp only [StreamOp.index] at hr hi
    simp only [StreamOp.run, write, findOrCreate, hi, if_true, idx, hr, StreamOp.single, StreamOp.index, ok_bind, Go.pure_def, bind_assoc]
  | fetch i =>
    simp only [StreamOp.index] at hr hi
    simp only [StreamOp.run, fetch, findOrCreate, hi, if_true, idx, hr, StreamOp.single, StreamOp.index, ok_bind, Go.pure_def, bind_assoc]
  | discardHead i =>
    simp only [StreamOp.index] at hr hi
    simp only [StreamOp.run, discardHead, idx, hr, StreamOp.single, StreamOp.index, ok_bind, Go.pure_def, bind_assoc]
  | discardBack i =>
    simp only [StreamOp.index] at hr hi
    simp only [StreamOp.run, discardBack, idx, hr, StreamOp.single, StreamOp.index, ok_bind, Go.pure_def, bind_assoc]
  | pending i =>
    simp only [StreamOp.index] at hr hi
    simp only [StreamOp.run, StreamsBuf.pendingBlockSize, findOrCreate, hi, if_true, idx, hr, StreamOp.single, StreamOp.index, ok_bind, Go.pure_def, bind_assoc]
    have : s.put i r = s := by
      cases s
      simp only [put]
      congr 1
      apply List.ext_getElem?
      intro k
      rw [List.getElem?_set]
      split
      · rename_i e; subst e; simp only at hi hr; rw [hr]
      · rfl
    rw [this]

/-- What `run` does when the stream does not exist yet. -/
theorem run_create {s : StreamsBuf} {m : Mem} {o : StreamOp} (hi : o.index = s.buffers.length) :
    o.run (s, m) = match o.makes with
      | some cap => o.run (⟨s.buffers ++ [(RBBuf.new m cap).1]⟩, (RBBuf.new m cap).2)
      | none => panic := by
  have h1 : ¬ s.buffers.length < s.buffers.length := by omega
  have h2 : ∀ r, s.buffers.length < (s.buffers ++ [r]).length := by simp
  cases o with
  | write d i v =>
    simp only [StreamOp.index] at hi
    subst hi
    cases v <;> simp only [StreamOp.makes, StreamOp.run, write, findOrCreate, h1, h2, if_true, if_false, Bool.false_eq_true]
  | fetch i =>
    simp only [StreamOp.index] at hi
    subst hi
    simp only [StreamOp.makes, StreamOp.run, fetch, findOrCreate, h1, h2, if_true, if_false, Bool.false_eq_true]
  | pending i =>
    simp only [StreamOp.index] at hi
    subst hi
    simp only [StreamOp.makes, StreamOp.run, StreamsBuf.pendingBlockSize, findOrCreate, h1, h2, if_true, if_false, Bool.false_eq_true]
  | discardHead i =>
    simp only [StreamOp.index] at hi
    subst hi
    simp [StreamOp.makes, StreamOp.run, discardHead, idx]
  | discardBack i =>
    simp only [StreamOp.index] at hi
    subst hi
    simp [StreamOp.makes, StreamOp.run, discardBack, idx]

/-- A stream beyond the next free index. -/
theorem run_gap {s : StreamsBuf} {m : Mem} {o : StreamOp} (hi : s.buffers.length < o.index) : o.run (s, m) = panic := by
  have h1 : ¬ o.index < s.buffers.length := by omega
  have h2 : ∀ r, idx (s.buffers ++ [r]) o.index = panic := by intro r; apply idx_of_ge; simp; omega
  have h3 : idx s.buffers o.index = panic := idx_of_ge (by omega)
  cases o <;> simp only [StreamOp.index] at hi h1 h2 h3 <;>
    simp [StreamOp.run, write, fetch, discardHead, discardBack, StreamsBuf.pendingBlockSize, findOrCreate, h1, h2, h3]

theorem R.sim_old {s : StreamsBuf} {m : Mem} {ts : List (RBBuf × Mem)} (h : R (s, m) ts) (o : StreamOp) {t : RBBuf × Mem}
    (ht : ts[o.index]? = some t) :
    Agree R (o.run (s, m)) (do let (x, t) ← o.single t; return (x, ts.set o.index t)) := by
  obtain ⟨r, hr⟩ : ∃ r, s.buffers[o.index]? = some r := by
    have := (List.getElem?_eq_some_iff.mp ht).1
    have hl := h.len
    simp only at hl
    exact ⟨_, List.getElem?_eq_getElem (by omega)⟩
  rw [run_eq hr]
  rcases o.single_same (h.same _ r t hr ht) with ⟨e1, e2⟩ | ⟨x, ⟨r', m'⟩, t', e1, e2, g1, g2⟩
  · rw [e1, e2]; trivial
  · rw [e1, e2]
    exact ⟨rfl, h.step hr ht g1 g2⟩

theorem R.sim {s : StreamsBuf × Mem} {ts : List (RBBuf × Mem)} (h : R s ts) (o : StreamOp) :
    Agree R (o.run s) (o.alone ts) := by
  obtain ⟨s, m⟩ := s
  have hl := h.len
  simp only at hl
  unfold StreamOp.alone
  cases ht : ts[o.index]? with
  | some t => exact h.sim_old o ht
  | none =>
    have hge : ts.length ≤ o.index := by simpa using ht
    simp only
    split
    · rename_i he
      rw [run_create (by omega)]
      cases hm : o.makes with
      | none => trivial
      | some cap =>
        simp only
        have hc := h.create cap
        have := hc.sim_old o (t := RBBuf.new [] cap) (by rw [he]; simp)
        have hset : ∀ t', (ts ++ [RBBuf.new [] cap]).set o.index t' = ts ++ [t'] := by
          intro t'; rw [he]; simp
        simpa only [hset] using this
    · rw [run_gap (by omega)]; trivial

theorem R_new (m : Mem) : R (⟨[]⟩, m) [] := ⟨rfl, by simp, by simp⟩

/-- What an operation on stream `i` may change. -/
structure Step (i : Nat) (s s' : StreamsBuf × Mem) : Prop where
  len : s.2.length ≤ s'.2.length
  arr : ∀ a, a < s.2.length → (∀ r, s.1.buffers[i]? = some r → a ≠ r.data.arr) → s'.2.arr a = s.2.arr a
  bufs : ∀ (k : Nat) (r' : RBBuf), s'.1.buffers[k]? = some r' → s.1.buffers[k]? = some r' ∨
    (k = i ∧ (s.2.length ≤ r'.data.arr ∨ ∃ r, s.1.buffers[i]? = some r ∧ r'.data.arr = r.data.arr))

theorem R.lt {s : StreamsBuf × Mem} {ts : List (RBBuf × Mem)} (h : R s ts) {j : Nat} {q : RBBuf}
    (hq : s.1.buffers[j]? = some q) : q.data.arr < s.2.length := by
  have := (List.getElem?_eq_some_iff.mp hq).1
  have hl := h.len
  exact (h.same j q _ hq (List.getElem?_eq_getElem (by omega))).lt

theorem R.step_old {s : StreamsBuf × Mem} {ts : List (RBBuf × Mem)} (h : R s ts) {o : StreamOp} {r : RBBuf}
    (hr : s.1.buffers[o.index]? = some r) {x : BufObs} {s' : StreamsBuf × Mem} (e : o.run s = ok (x, s')) :
    Step o.index s s' := by
  obtain ⟨s, m⟩ := s
  simp only at hr
  have hi := (List.getElem?_eq_some_iff.mp hr).1
  have hl := h.len
  simp only at hl
  rw [run_eq hr] at e
  have ht : ts[o.index]? = some (ts[o.index]'(by omega)) := List.getElem?_eq_getElem (by omega)
  rcases o.single_same (h.same _ r _ hr ht) with ⟨e1, _⟩ | ⟨x', ⟨r', m'⟩, t', e1, _, _, g2⟩
  · rw [e1] at e; simp at e
  · rw [e1] at e
    simp only [ok_bind, Go.pure_def, ok.injEq, Prod.mk.injEq] at e
    obtain ⟨rfl, rfl⟩ := e
    refine ⟨g2.len, fun a ha hne => g2.arr a ha (hne r hr), ?_⟩
    intro k q hq
    simp only [put] at hq
    by_cases hk : o.index = k
    · subst hk
      rw [List.getElem?_set_self hi] at hq
      simp at hq; subst hq
      refine .inr ⟨rfl, ?_⟩
      rcases g2.own with own | own
      · exact .inr ⟨r, hr, own⟩
      · exact .inl own
    · rw [List.getElem?_set_ne hk] at hq
      exact .inl hq

theorem R.frame {s : StreamsBuf × Mem} {ts : List (RBBuf × Mem)} (h : R s ts) {o : StreamOp} {x : BufObs}
    {s' : StreamsBuf × Mem} (e : o.run s = ok (x, s')) : Step o.index s s' := by
  obtain ⟨s, m⟩ := s
  cases hr : s.buffers[o.index]? with
  | some r => exact h.step_old hr e
  | none =>
    have hge : s.buffers.length ≤ o.index := by simpa using hr
    by_cases hi : o.index = s.buffers.length
    · rw [run_create hi] at e
      cases hm : o.makes with
      | none => rw [hm] at e; simp at e
      | some cap =>
        rw [hm] at e
        simp only at e
        have hl' : (RBBuf.new m cap).2.length = m.length + 1 := by simp [RBBuf.new, Mem.make]
        have hst := (h.create cap).step_old (o := o) (r := (RBBuf.new m cap).1) (by rw [hi]; simp) e
        obtain ⟨h1, h2, h3⟩ := hst
        simp only at h1 h2 h3
        refine ⟨by simp only; omega, ?_, ?_⟩
        · intro a ha _
          simp only at ha ⊢
          rw [h2 a (by omega)]
          · exact Mem.arr_make_lt _ _ _ ha
          · intro r hr'
            rw [hi] at hr'
            simp at hr'; subst hr'
            simp [RBBuf.new, Mem.make]; omega
        · intro k r' hk
          rcases h3 k r' hk with h4 | ⟨h4, h5⟩
          · by_cases hk' : k < s.buffers.length
            · rw [List.getElem?_append_left hk'] at h4; exact .inl h4
            · rw [List.getElem?_append_right (by omega)] at h4
              cases hj : k - s.buffers.length with
              | succ j => rw [hj] at h4; simp at h4
              | zero =>
                rw [hj] at h4; simp at h4; subst h4
                exact .inr ⟨by omega, .inl (Nat.le_refl _)⟩
          · refine .inr ⟨h4, .inl ?_⟩
            simp only
            rcases h5 with h5 | ⟨r, hr', h5⟩
            · omega
            · rw [hi] at hr'
              simp at hr'; subst hr'
              rw [h5]
              exact Nat.le_refl _
    · rw [run_gap (by omega)] at e; simp at e

end StreamsBuf
end Avf
