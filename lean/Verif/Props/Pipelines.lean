import Verif.Lemmas.StreamsHeld
import Verif.Lemmas.DirectPipe
/-! # C24, C25: StreamsBuffer, DirectDataPipeline -/
namespace Avf
open Go

/-- **C24**: for any history, a `StreamsBuffer` returns (or panics) exactly as a list of ring buffers each of which has a
memory of its own, where the next free index creates a buffer and an index beyond it panics: no operation on one stream
can be noticed on another. -/
theorem C24_streams_independent (m : Mem) (ops : List StreamOp) :
    seen (runTrace StreamOp.run ops (⟨[]⟩, m)) = seen (runTrace StreamOp.alone ops []) :=
  (runTrace_agree (P := fun _ => True) (fun o _ _ _ h => StreamsBuf.R.sim h o) ops _ _ (fun _ _ => trivial)
    (StreamsBuf.R_new m)).seen_eq

/-- **C24**, aliasing: whatever was fetched from one stream at any time, an operation on another stream does not change the
bytes behind that slice. -/
theorem C24_fetched_slices_independent (m₀ : Mem) (ops : List StreamOp) (o : StreamOp) (s s' : StreamsBuf) (m m' : Mem)
    (h h' : List (Nat × SliceRef)) (e : runStreams ops (⟨[]⟩, m₀, []) = ok (s, m, h)) (e' : o.client (s, m, h) = ok (s', m', h'))
    (j : Nat) (d : SliceRef) (hm : (j, d) ∈ h) (hj : o.index ≠ j) : m'.read d = m.read d :=
  (((StreamsBuf.Apart_new m₀).run e).step e').2 j d hm hj

/-- **C24**, dense indices: an index beyond the next free one panics in every method. -/
theorem C24_index_gap_panics (s : StreamsBuf) (m : Mem) (o : StreamOp) (h : s.buffers.length < o.index) :
    o.run (s, m) = panic := StreamsBuf.run_gap h

/-- Two streams written alternately, with small rings. -/
example :
    (let (r, m) := RBBuf.new [] 8
     let (q, m) := RBBuf.new m 8
     seen (runTrace StreamOp.run [.write [1] 0 false, .write [7] 1 false, .write [2] 0 false, .fetch 1, .fetch 0,
       .discardHead 1, .pending 0] (⟨[r, q]⟩, m))) =
    ok [.num 1, .num 1, .num 1, .bytes (some [7]), .bytes (some [1, 2]), .unit, .num 0] := by decide +kernel

/-- A history as in the second theorem, with rings of the real size: a block of stream 0 is held, stream 1 is written. -/
example : (do
    let (s, m, h) ← runStreams [.write [1, 2] 0 false, .write [7] 1 true, .fetch 0] (⟨[]⟩, [], [])
    let (_, _, h') ← (StreamOp.write [3] 1 true).client (s, m, h)
    return (h.map fun x => (x.1, x.2.len), h'.length) : Go (List (Nat × Nat) × Nat)) = ok ([(0, 2)], 1) := by decide +kernel

/-- Introducing index 1 before index 0. -/
example : seen (runTrace StreamOp.run [.write [1] 1 true] (⟨[]⟩, [])) = panic := by decide +kernel

/-- **C25**: for any history of `Write`, `Fetch`, backward `Seek` and `PendingBlockSize`, `Fetch` returns exactly the bytes
written since the last `Fetch` and not taken back, `PendingBlockSize` and `Write` return their number, and nothing
panics. -/
theorem C25_direct_pipeline (m : Mem) (ops : List PipeOp) :
    seen (runTrace PipeOp.run ops (DirectPipe.new, m)) = seen (runTrace PipeOp.spec ops []) :=
  (runTrace_agree (P := fun _ => True) (fun o _ _ _ h => DirectPipe.R.sim h o) ops _ _ (fun _ _ => trivial)
    (DirectPipe.R_new m)).seen_eq

/-- **C25**: and the specification never fails. -/
theorem C25_direct_pipeline_total (m : Mem) (ops : List PipeOp) : ∃ xs, seen (runTrace PipeOp.run ops (DirectPipe.new, m)) = ok xs := by
  rw [C25_direct_pipeline]
  suffices ∀ t, ∃ xs, seen (runTrace PipeOp.spec ops t) = ok xs from this []
  induction ops with
  | nil => exact fun t => ⟨[], rfl⟩
  | cons o os ih =>
    intro t
    obtain ⟨y, hy⟩ : ∃ y, o.spec t = ok y := by cases o <;> exact ⟨_, rfl⟩
    obtain ⟨x, t'⟩ := y
    obtain ⟨xs, hx⟩ := ih t'
    simp only [runTrace, hy, ok_bind]
    revert hx
    cases runTrace PipeOp.spec os t' <;> simp [seen]

example : seen (runTrace PipeOp.run [.write [1, 2], .write [3, 4, 5], .pending, .back 1, .write [6], .fetch, .write [7], .fetch]
    (DirectPipe.new, [])) =
    ok [.num 2, .num 5, .num 5, .unit, .num 5, .bytes (some [1, 2, 3, 4, 6]), .num 1, .bytes (some [7])] := by decide +kernel

/-- The slice returned by `Fetch` is overwritten by the next `Write`. -/
theorem C25_fetched_slice_overwritten :
    (do let (_, p, m) ← DirectPipe.new.write [] [1, 2]
        let (s, p) ← p.fetch
        let before := m.read s
        let (_, _, m) ← p.write m [9]
        return (before, m.read s) : Go (Bytes × Bytes)) = ok ([1, 2], [9, 2]) := by decide +kernel

/-- A forward `Seek` past the memory makes every `Fetch` and every `Write` panic. -/
theorem C25_seek_past_end_panics (p : DirectPipe) (m : Mem) (d : Bytes) (n : Nat) (h : p.data.len < p.size + n) :
    (p.seek n).fetch = panic ∧ (p.seek n).write m d = panic := by
  have e : (p.seek n).size = p.size + n := by simp only [DirectPipe.seek]; omega
  have e' : (p.seek n).data = p.data := rfl
  constructor
  · simp only [DirectPipe.fetch, e, e']
    rw [SliceRef.sub_panic (by omega)]; rfl
  · have hc : p.data.len < p.size + n + d.length := by omega
    simp only [DirectPipe.write, e, e', hc, if_true]
    rw [SliceRef.sub_panic (by omega)]; rfl

example : (⟨⟨0, 0, 4⟩, 1⟩ : DirectPipe).data.len < (⟨⟨0, 0, 4⟩, 1⟩ : DirectPipe).size + 4 := by decide

end Avf
