import Verif.Model.Pipelines
import Verif.Spec.Trace
import Verif.Spec.BlockBuffer
import Verif.Lemmas.Mem
/-! # DirectDataPipeline -/
set_option linter.unusedSimpArgs false
namespace Avf
open Go

/-- Operations of a `DirectDataPipeline`; `back n` is `Seek(-n)`. -/
inductive PipeOp where
  | write (d : Bytes)
  | fetch
  | back (n : Nat)
  | pending
deriving DecidableEq, Repr

/-- Running an operation on the model. -/
def PipeOp.run : PipeOp → DirectPipe × Mem → Go (BufObs × (DirectPipe × Mem))
  | write d, (p, m) => do let (n, p, m) ← p.write m d; return (.num n, (p, m))
  | fetch, (p, m) => do let (s, p) ← p.fetch; return (.bytes (some (m.read s)), (p, m))
  | back n, (p, m) => ok (.unit, (p.seek (-n), m))
  | pending, (p, m) => ok (.num p.pendingBlockSize, (p, m))

/-- The specification: the state is the bytes written and not fetched. -/
def PipeOp.spec : PipeOp → Bytes → Go (BufObs × Bytes)
  | write d, t => ok (.num (t ++ d).length, t ++ d)
  | fetch, t => ok (.bytes (some t), [])
  | back n, t => ok (.unit, t.take (t.length - n))
  | pending, t => ok (.num t.length, t)

namespace DirectPipe

structure R (s : DirectPipe × Mem) (t : Bytes) : Prop where
  size : s.1.size = t.length
  le : s.1.size ≤ s.1.data.len
  fit : s.1.data.off + s.1.data.len ≤ (s.2.arr s.1.data.arr).length
  arr : s.1.data.len = 0 ∨ s.1.data.arr < s.2.length
  read : s.2.read ⟨s.1.data.arr, s.1.data.off, s.1.size⟩ = t

theorem write_ok {p : DirectPipe} {m : Mem} {t : Bytes} (h : R (p, m) t) (d : Bytes) :
    ∃ p' m', p.write m d = ok ((t ++ d).length, p', m') ∧ R (p', m') (t ++ d) := by
  obtain ⟨h1, h2, h3, h4, h5⟩ := h
  simp only at h1 h2 h3 h4 h5
  -- the part after making room
  have key : ∀ (q : DirectPipe) (n : Mem), R (q, n) t → q.size + d.length ≤ q.data.len →
      ∃ p' m', (do
        let dst ← q.data.sub q.size q.data.len
        return (({ q with size := q.size + d.length } : DirectPipe).size, { q with size := q.size + d.length }, n.copy dst d) : Go (Nat × DirectPipe × Mem)) =
        ok ((t ++ d).length, p', m') ∧ R (p', m') (t ++ d) := by
    intro q n hq hl
    obtain ⟨q1, q2, q3, q4, q5⟩ := hq
    simp only at q1 q2 q3 q4 q5
    rw [SliceRef.sub_of_le q2 (Nat.le_refl _)]
    simp only [ok_bind, Go.pure_def]
    refine ⟨⟨q.data, q.size + d.length⟩, n.copy ⟨q.data.arr, q.data.off + q.size, q.data.len - q.size⟩ d, by rw [q1, List.length_append], ?_, ?_, ?_, ?_, ?_⟩
    · simp [q1]
    · exact hl
    · simp only
      rw [Mem.length_arr_copy]
      · exact q3
      · simp only; omega
    · simp only [Mem.length_copy]; exact q4
    · simp only
      rw [Mem.read_split, Mem.read_copy_disjoint _ _ _ _ (by simp only; omega) (.inr (.inl (by simp))), q5]
      congr 1
      exact Mem.read_copy_self n ⟨q.data.arr, q.data.off + q.size, q.data.len - q.size⟩ d (by simp only; omega) (by simp only; omega)
  unfold write
  by_cases hc : p.data.len < p.size + d.length
  · simp only [hc, if_true]
    rw [SliceRef.sub_of_le (Nat.zero_le _) h2]
    simp only [ok_bind, Go.pure_def, Nat.add_zero, Nat.sub_zero]
    refine key ⟨⟨m.length, 0, (p.size + d.length) * 2⟩, p.size⟩ _ ⟨h1, ?_, ?_, ?_, ?_⟩ ?_
    · simp only; omega
    · simp only
      rw [Mem.length_arr_copy _ _ _ _ (Nat.zero_le _), Mem.arr_make_new]; simp
    · right; simp only [Mem.length_copy, Mem.length_make]; omega
    · simp only
      have hr : (m.make ((p.size + d.length) * 2)).2.read ⟨p.data.arr, p.data.off, p.size⟩ = t := by
        rcases h4 with h4 | h4
        · have : p.size = 0 := by omega
          rw [this] at h5 ⊢; rw [← h5]; simp
        · rw [Mem.read_make m _ (SliceRef.mk p.data.arr p.data.off p.size) h4]; exact h5
      rw [hr, h1]
      refine Mem.read_copy_self _ (m.make ((t.length + d.length) * 2)).1 t ?_ ?_
      · simp only [show (m.make ((t.length + d.length) * 2)).1 = ⟨m.length, 0, (t.length + d.length) * 2⟩ from rfl]
        rw [Mem.arr_make_new]; simp; omega
      · simp only [Mem.make]; omega
    · simp only; omega
  · simp only [hc, if_false, ok_bind]
    exact key p m ⟨h1, h2, h3, h4, h5⟩ (by omega)

theorem R.sim {s : DirectPipe × Mem} {t : Bytes} (h : R s t) (o : PipeOp) : Agree R (o.run s) (o.spec t) := by
  obtain ⟨p, m⟩ := s
  cases o with
  | write d =>
    obtain ⟨p', m', e, h'⟩ := write_ok h d
    simp only [PipeOp.run, e, ok_bind]
    exact ⟨rfl, h'⟩
  | fetch =>
    obtain ⟨h1, h2, h3, h4, h5⟩ := h
    simp only at h1 h2 h3 h4 h5
    simp only [PipeOp.run, fetch]
    rw [SliceRef.sub_of_le (Nat.zero_le _) h2]
    simp only [ok_bind, Go.pure_def, Nat.add_zero, Nat.sub_zero, h5]
    exact ⟨rfl, rfl, Nat.zero_le _, h3, h4, by simp⟩
  | back n =>
    obtain ⟨h1, h2, h3, h4, h5⟩ := h
    simp only at h1 h2 h3 h4 h5
    have e : (p.seek (-n)).size = p.size - n := by simp only [seek]; omega
    refine ⟨rfl, ?_, ?_, h3, h4, ?_⟩
    · simp only [e]; simp; omega
    · simp only [e]; simp only [seek]; omega
    · have := Mem.read_sub m p.data.arr p.data.off p.size 0 (p.size - n) (by omega)
      rw [h5] at this
      simp only [Nat.add_zero, List.drop_zero] at this
      simp only [e, h1] at this ⊢
      exact this
  | pending => exact ⟨by have := h.size; simp only at this; simp [pendingBlockSize, this], h⟩

theorem R_new (m : Mem) : R (DirectPipe.new, m) [] := by
  refine ⟨rfl, Nat.le_refl _, ?_, .inl rfl, ?_⟩ <;> simp [new]

end DirectPipe
end Avf
