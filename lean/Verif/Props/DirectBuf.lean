import Verif.Lemmas.DirectBufHeld
/-! # C19, C20, C21: DirectBlockBuffer -/
namespace Avf
open Go

/-- **C19**: every history on a `DirectBlockBuffer` – of whatever initial capacity, in whatever memory – shows the caller
exactly what the memory-free specification shows: `Fetch` returns the concatenation of the writes to the last block (nil
if it was fetched before, panic if there is none), `PendingBlockSize`, `Size`, `Data`, and it panics exactly when sealed
or on an empty buffer. -/
theorem C19_direct_buffer (m : Mem) (cap : Nat) (ops : List BufOp) :
    seen (runTrace BufOp.runD ops (DirectBuf.new m cap)) = seen (runTrace BufOp.spec ops BufSpec.empty) :=
  (runTrace_agree (P := fun _ => True) (fun o _ _ _ h => DirectBuf.R.sim h o) ops _ _ (fun _ _ => trivial)
    (DirectBuf.R_new m cap)).seen_eq

example : seen (runTrace BufOp.runD [.write [1, 2], .write [3], .pending, .fetch, .fetch, .write [4, 5, 6], .data, .pop, .fetch]
    (DirectBuf.new [] 4)) =
    ok [.unit, .unit, .num 3, .bytes (some [1, 2, 3]), .bytes none, .unit, .bytes (some [1, 2, 3, 4, 5, 6]), .unit,
      .bytes (some [4, 5, 6])] := by decide +kernel

/-- **C20**: whatever a client does with a `DirectBlockBuffer` – more writes, fetches, growth, pops of other blocks – every
slice it fetched and has not popped (or cleared) still holds the bytes it held when it was fetched. -/
theorem C20_fetched_blocks_immutable (m₀ : Mem) (cap : Nat) (ops : List BufOp) (b : DirectBuf) (m : Mem) (h : Held)
    (run : runClientD ops ((DirectBuf.new m₀ cap).1, (DirectBuf.new m₀ cap).2, []) = ok (b, m, h))
    (s : SliceRef) (d : Bytes) (hm : some (s, d) ∈ h) : m.read s = d := by
  have H : DirectBuf.HeldOk (DirectBuf.new m₀ cap).1 (DirectBuf.new m₀ cap).2 [] :=
    ⟨⟨_, DirectBuf.R_new m₀ cap⟩, by simp [DirectBuf.new], by simp⟩
  exact ((H.run run).good s d hm).2.2

/-- A history that meets the hypothesis: two fetched blocks, one of them in the array used before the buffer grew. -/
example : (fun x => x.2.2) <$> runClientD [.write [1, 2], .fetch, .write [3, 4, 5], .fetch, .write [6], .write [7, 8]]
    ((DirectBuf.new [] 4).1, (DirectBuf.new [] 4).2, []) =
      ok [some (⟨0, 0, 2⟩, [1, 2]), some (⟨1, 2, 3⟩, [3, 4, 5]), none] := by decide +kernel

/-! ## C21: SplitOff -/

/-- **C21** (sealing): after `SplitOff` the old buffer refuses `Alloc`/`Write`, `Fetch`, `Pop` and `PopBack`. -/
theorem C21_old_buffer_is_sealed (b n b' : DirectBuf) (m : Mem) (h : b.splitOff = ok (n, b')) :
    (∀ k, b'.alloc m k = panic) ∧ (∀ d, b'.write m d = panic) ∧ b'.fetch = panic ∧ b'.pop = panic ∧ b'.popBack = panic := by
  simp only [DirectBuf.splitOff, bind_eq_ok, Go.pure_def, ok.injEq, Prod.mk.injEq] at h
  obtain ⟨_, _, _, rfl⟩ := h
  simp [DirectBuf.alloc, DirectBuf.write, DirectBuf.fetch, DirectBuf.pop, DirectBuf.popBack]

/-- A buffer reached by some history. -/
def DirectBuf.Reachable (b : DirectBuf) (m : Mem) : Prop :=
  ∃ m₀ cap ops xs, runTrace BufOp.runD ops (DirectBuf.new m₀ cap) = ok (xs, (b, m))

theorem DirectBuf.Reachable.rep {b : DirectBuf} {m : Mem} (h : b.Reachable m) : ∃ t, DirectBuf.R (b, m) t := by
  obtain ⟨m₀, cap, ops, xs, e⟩ := h
  have := runTrace_agree (P := fun _ => True) (fun o _ _ _ h => DirectBuf.R.sim h o) ops _ _ (fun _ _ => trivial)
    (DirectBuf.R_new m₀ cap)
  rw [e] at this
  cases ht : runTrace BufOp.spec ops BufSpec.empty with
  | ok a => rw [ht] at this; exact ⟨_, this.2⟩
  | err => rw [ht] at this; exact this.elim
  | panic => rw [ht] at this; exact this.elim

/-- The whole claim of C21: the new buffer offers all of the free memory and accepts every write. -/
def C21_claim : Prop := ∀ (b : DirectBuf) (m : Mem), b.Reachable m →
  ∃ n b', b.splitOff = ok (n, b') ∧ n.availableBytes = b.availableBytes ∧ ∀ d, ∃ r, n.write m d = ok r

/-- **C21** is false: with 20 of 24 bytes used, the new buffer reports -16 available bytes and its first write panics. -/
theorem C21_split_off_violated : ¬ C21_claim := by
  intro h
  have hr : DirectBuf.Reachable ⟨⟨0, 0, 24⟩, 20, false, [⟨0, 20, false⟩]⟩
      [[1, 1, 1, 1, 1, 1, 1, 1, 1, 1, 1, 1, 1, 1, 1, 1, 1, 1, 1, 1, 0, 0, 0, 0]] :=
    ⟨[], 24, [.write (List.replicate 20 1)], [.unit], by decide +kernel⟩
  obtain ⟨n, b', e, _, w⟩ := h _ _ hr
  obtain ⟨r, hw⟩ := w [7]
  have e' : DirectBuf.splitOff ⟨⟨0, 0, 24⟩, 20, false, [⟨0, 20, false⟩]⟩ =
    ok (⟨⟨0, 20, 4⟩, 20, false, []⟩, ⟨⟨0, 0, 24⟩, 20, true, [⟨0, 20, false⟩]⟩) := by decide +kernel
  rw [e'] at e
  simp only [ok.injEq, Prod.mk.injEq] at e
  rw [← e.1] at hw
  revert hw
  have : DirectBuf.write ⟨⟨0, 20, 4⟩, 20, false, []⟩
    [[1, 1, 1, 1, 1, 1, 1, 1, 1, 1, 1, 1, 1, 1, 1, 1, 1, 1, 1, 1, 0, 0, 0, 0]] [7] = panic := by decide +kernel
  rw [this]; simp

/-- Exactly when the new buffer is unusable: every `Write` on it panics iff more than half of the memory was used. -/
theorem C21_new_buffer_panics_iff (b : DirectBuf) (m : Mem) (hr : b.Reachable m) (n b' : DirectBuf)
    (h : b.splitOff = ok (n, b')) (d : Bytes) : n.write m d = panic ↔ b.data.len < 2 * b.nextOffset := by
  obtain ⟨t, R⟩ := hr.rep
  obtain ⟨h1, h2, h3⟩ := R.wf
  simp only at h1 h2 h3
  simp only [DirectBuf.splitOff, SliceRef.sub_of_le h3 (Nat.le_refl _), ok_bind, Go.pure_def, ok.injEq,
    Prod.mk.injEq] at h
  obtain ⟨rfl, _⟩ := h
  by_cases hc : b.data.len < 2 * b.nextOffset
  · refine iff_of_true ?_ hc
    simp only [DirectBuf.write, DirectBuf.alloc, Bool.not_false, assert_true, ok_bind, DirectBuf.openBlock,
      List.getLast?_nil, List.nil_append]
    have hg : b.nextOffset + d.length > b.data.len - b.nextOffset := by omega
    simp only [hg, if_true, DirectBuf.grow]
    rw [SliceRef.sub_panic (by simp only; omega)]
    rfl
  · refine iff_of_false ?_ hc
    obtain ⟨b₁, m₁, e, _⟩ := DirectBuf.write_ok (b := ⟨⟨b.data.arr, b.data.off + b.nextOffset, b.data.len - b.nextOffset⟩,
      b.nextOffset, false, []⟩) (m := m) ⟨h1, by simp only; omega, by simp only; omega⟩ rfl d
    rw [e]; simp

/-- **C21** (partial; what is missing is false, see `C21_split_off_violated`): as long as at most half of the memory was
used, any history on the new buffer leaves every slice of the old buffer's data unchanged, and shows the caller what the
specification shows (from a state whose `Data()` starts with the `nextOffset` stale bytes the code leaves in front). With
nothing written yet those bytes are absent and all free memory is available. -/
theorem C21_split_off_partial (b : DirectBuf) (m : Mem) (hr : b.Reachable m) (hc : 2 * b.nextOffset ≤ b.data.len) :
    ∃ n b', b.splitOff = ok (n, b') ∧ n.availableBytes = b.availableBytes - b.nextOffset ∧
      (∃ junk : Bytes, junk.length = b.nextOffset ∧ ∀ ops, seen (runTrace BufOp.runD ops (n, m)) =
        seen (runTrace BufOp.spec ops ⟨[], junk, false⟩)) ∧
      ∀ ops xs n' m', runTrace BufOp.runD ops (n, m) = ok (xs, (n', m')) →
        ∀ i k, i + k ≤ b.nextOffset → m'.read ⟨b.data.arr, b.data.off + i, k⟩ = m.read ⟨b.data.arr, b.data.off + i, k⟩ := by
  obtain ⟨t, R⟩ := hr.rep
  obtain ⟨h1, h2, h3⟩ := R.wf
  simp only at h1 h2 h3
  have hR : DirectBuf.R (⟨⟨b.data.arr, b.data.off + b.nextOffset, b.data.len - b.nextOffset⟩, b.nextOffset, false, []⟩, m)
      ⟨[], m.read ⟨b.data.arr, b.data.off + b.nextOffset, b.nextOffset⟩, false⟩ := by
    refine ⟨⟨h1, ?_, ?_⟩, rfl, rfl, ?_, ?_, rfl, ?_⟩
    · simp only; omega
    · simp only; omega
    · simp
    · simp
    · simp
  refine ⟨⟨⟨b.data.arr, b.data.off + b.nextOffset, b.data.len - b.nextOffset⟩, b.nextOffset, false, []⟩,
    { b with sealed := true }, ?_, ?_, ?_, ?_⟩
  · simp only [DirectBuf.splitOff, SliceRef.sub_of_le h3 (Nat.le_refl _), ok_bind, Go.pure_def]
  · simp only [DirectBuf.availableBytes]; omega
  · refine ⟨m.read ⟨b.data.arr, b.data.off + b.nextOffset, b.nextOffset⟩, ?_, ?_⟩
    · exact Mem.length_read _ _ (by simp only; omega)
    · intro ops
      exact (runTrace_agree (P := fun _ => True) (fun o _ _ _ h => DirectBuf.R.sim h o) ops _ _ (fun _ _ => trivial)
        hR).seen_eq
  · intro ops xs n' m' e i k hik
    exact DirectBuf.untouched (s := ⟨b.data.arr, b.data.off + i, k⟩) ops hR h1 (fun _ => by simp only; omega) e

/-- A history that meets the hypotheses with something written: 2 of 8 bytes used. -/
example : ∃ b m, DirectBuf.Reachable b m ∧ 0 < b.nextOffset ∧ 2 * b.nextOffset ≤ b.data.len :=
  ⟨⟨⟨0, 0, 8⟩, 2, false, [⟨0, 2, true⟩]⟩, [[1, 2, 0, 0, 0, 0, 0, 0]],
    ⟨[], 8, [.write [1, 2], .fetch], [.unit, .bytes (some [1, 2])], by decide +kernel⟩, by decide, by decide⟩

/-- **C21** for the ring buffer, which inherits `SplitOff`: the "new" buffer is handed *all* of the memory, so writing to
it overwrites a block that was fetched from the old one. -/
theorem C21_ring_split_off_violated :
    ∃ (r r' : RBBuf) (n n' : DirectBuf) (s : SliceRef) (m m' : Mem),
      (do let (r, m) ← (RBBuf.new [] 8).1.write (RBBuf.new [] 8).2 [1, 2, 3]
          let (s, r) ← r.fetch
          return (s, r, m)) = ok (some s, r, m) ∧ m.read s = [1, 2, 3] ∧
      r.splitOff = ok (n, r') ∧ n.write m [7, 8] = ok (n', m') ∧ m'.read s = [7, 8, 3] :=
  ⟨⟨⟨⟨0, 0, 8⟩, 0, false, [⟨0, 3, true⟩]⟩, 8, 0⟩, ⟨⟨⟨0, 0, 8⟩, 0, true, [⟨0, 3, true⟩]⟩, 8, 0⟩,
    ⟨⟨0, 0, 8⟩, 0, false, []⟩, ⟨⟨0, 0, 8⟩, 2, false, [⟨0, 2, false⟩]⟩, ⟨0, 0, 3⟩, [[1, 2, 3, 0, 0, 0, 0, 0]],
    [[7, 8, 3, 0, 0, 0, 0, 0]], by decide +kernel⟩

end Avf
