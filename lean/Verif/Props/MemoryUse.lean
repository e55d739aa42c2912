import Verif.Lemmas.MemoryUse
import Verif.Lemmas.RingMemoryAny
import Verif.Lemmas.StreamsMemory
/-!
# C104: how much memory the buffers keep

The length of the array that a buffer keeps, in terms of what the caller has put in and not yet taken out.
-/
namespace Avf
open Go

/-! ## DirectDataPipeline and Queue -/

/-- **C104** for the direct pipeline: if there are never more than `N` bytes that have not been fetched, the array has at most
`2N` bytes, for any history. -/
theorem C104_pipe (m₀ : Mem) (N : Nat) (ops : List PipeOp) (xs : List BufObs) (p : DirectPipe) (m : Mem)
    (hw : Within PipeOp.spec List.length N ops []) (e : runTrace PipeOp.run ops (DirectPipe.new, m₀) = ok (xs, (p, m))) :
    p.data.len ≤ 2 * N := by
  refine Within.run (R := DirectPipe.R) (len := fun s => s.1.data.len) (B := 2 * N) (fun o s t h => h.sim o) ?_ ops (DirectPipe.new, m₀) (p, m) [] xs
    (DirectPipe.R_new m₀) hw (Nat.zero_le _) e
  rintro o ⟨p, m⟩ t x ⟨p', m'⟩ t' _ e1 _ hr hu hb
  have hs : p'.size = t'.length := hr.size
  rcases DirectPipe.len_step e1 with h | h
  · show p'.data.len ≤ _
    rw [h]; exact hb
  · show p'.data.len ≤ _
    rw [h, hs]; omega

/-- At most 3 bytes wait; the array has 6. -/
example : (fun x => x.2.1.data.len) <$> runTrace PipeOp.run [.write [1], .write [2, 3], .fetch, .write [4, 5, 6]] (DirectPipe.new, []) = ok 6 := by
  decide +kernel
example : Within PipeOp.spec List.length 3 [.write [1], .write [2, 3], .fetch, .write [4, 5, 6]] [] := by
  simp [Within, PipeOp.spec]

namespace RingBuf

/-- **C104** for the queue: if there are never more than `N` elements, the array has at most `max c (2N)` places, `c` being the
initial capacity. -/
theorem C104_queue {α : Type} (zero : α) (c N : Nat) (ops : List (QOp α)) (xs : List (Obs α)) (q r : RingBuf α)
    (hq : RingBuf.newQueue zero c = ok q) (hw : Within (QOp.spec zero) List.length N ops []) (e : runTrace QOp.run ops q = ok (xs, r)) :
    r.data.length ≤ max c (2 * N) := by
  have hc : 0 < c := by
    rcases Nat.eq_zero_or_pos c with rfl | h
    · cases hq
    · exact h
  simp only [RingBuf.newQueue, hc, decide_true, assert_true, ok_bind, Go.pure_def] at hq
  cases hq
  refine Within.run (R := QRel zero) (len := fun s => s.data.length) (B := max c (2 * N)) (fun o s t h => QOp.sim zero o s t h) ?_ ops _ r [] xs
    ⟨holds_replicate zero c 0 hc, rfl⟩ hw (by simp; omega) e
  rintro o r t x r' t' _ e1 _ hr hu hb
  have hs : r'.size = t'.length := hr.1.len.symm
  rcases QOp.len_step e1 with h | h
  · show r'.data.length ≤ _
    rw [h]; exact hb
  · show r'.data.length ≤ _
    omega

end RingBuf

/-! ## DirectBlockBuffer -/

/-- **C104** for the direct block buffer: if never more than `N` bytes have been written since the buffer was last empty, the
array has at most `max cap (3N/2)` bytes, for any history. -/
theorem C104_direct (m₀ : Mem) (cap N : Nat) (ops : List BufOp) (xs : List BufObs) (b : DirectBuf) (m : Mem)
    (hw : Within BufOp.spec (·.all.length) N ops BufSpec.empty) (e : runTrace BufOp.runD ops (DirectBuf.new m₀ cap) = ok (xs, (b, m))) :
    b.data.len ≤ max cap (N * 3 / 2) := by
  refine Within.run (R := DirectBuf.R) (len := fun s => s.1.data.len) (B := max cap (N * 3 / 2)) (fun o s t h => h.sim o) ?_ ops _ (b, m) _ xs
    (DirectBuf.R_new m₀ cap) hw (Nat.le_max_left _ _) e
  rintro o ⟨p, m⟩ t x ⟨p', m'⟩ t' _ e1 _ hr hu hb
  have hs : p'.nextOffset = t'.all.length := by rw [← hr.all]; exact (DirectBuf.length_all hr.wf).symm
  rcases DirectBuf.len_step e1 with h | h
  · show p'.data.len ≤ _
    rw [h]; exact hb
  · show p'.data.len ≤ _
    rw [h, hs]; omega

/-- What one would like: the array is bounded by the bytes of the blocks that have not been popped. -/
def C104_direct_claim : Prop :=
  ∃ F : Nat → Nat → Nat, ∀ (m₀ : Mem) (cap N : Nat) (ops : List BufOp) (xs : List BufObs) (b : DirectBuf) (m : Mem),
    (∀ o ∈ ops, o ≠ .splitOff) → Within BufOp.spec BufSpec.liveBytes N ops BufSpec.empty →
    runTrace BufOp.runD ops (DirectBuf.new m₀ cap) = ok (xs, (b, m)) → b.data.len ≤ F cap N

/-- One block in, one block out, `k` times. -/
def turnover : Nat → List BufOp
  | 0 => []
  | k + 1 => .write [1] :: .fetch :: .pop :: turnover k

theorem turnover_mem (k : Nat) : ∀ o ∈ turnover k, o ≠ .splitOff := by
  induction k with
  | zero => intro o h; simp [turnover] at h
  | succ k ih =>
    intro o h
    simp only [turnover, List.mem_cons] at h
    rcases h with rfl | rfl | rfl | h
    · simp
    · simp
    · simp
    · exact ih o h

theorem turnover_spec (k : Nat) : ∀ l : Bytes,
    Within BufOp.spec BufSpec.liveBytes 2 (turnover k) ⟨[([1], true)], l, false⟩ ∧
    ∃ xs, runTrace BufOp.spec (turnover k) ⟨[([1], true)], l, false⟩ = ok (xs, ⟨[([1], true)], l ++ List.replicate k 1, false⟩) := by
  induction k with
  | zero => intro l; exact ⟨by simp [turnover, Within, BufSpec.liveBytes], [], by simp [turnover, runTrace]⟩
  | succ k ih =>
    intro l
    obtain ⟨h1, xs, h2⟩ := ih (l ++ [1])
    constructor
    · simp only [turnover, Within]
      refine ⟨by simp [BufSpec.liveBytes], ?_⟩
      intro x s e
      simp [BufOp.spec, BufSpec.addBytes] at e
      obtain ⟨_, rfl⟩ := e
      refine ⟨by simp [BufSpec.liveBytes], ?_⟩
      intro x s e
      simp [BufOp.spec] at e
      obtain ⟨_, rfl⟩ := e
      refine ⟨by simp [BufSpec.liveBytes], ?_⟩
      intro x s e
      simp [BufOp.spec, BufSpec.norm] at e
      obtain ⟨_, rfl⟩ := e
      exact h1
    · refine ⟨.unit :: .bytes (some [1]) :: .unit :: xs, ?_⟩
      simp only [turnover, runTrace, BufOp.spec, BufSpec.addBytes, BufSpec.norm]
      simp only [Bool.false_eq_true, if_false, List.getLast?_singleton, ok_bind, List.cons_append, List.nil_append,
        List.getLast?_cons_cons, List.dropLast_cons_cons, List.dropLast_singleton, List.drop_succ_cons, List.drop_zero, List.isEmpty_cons]
      rw [h2]
      simp only [ok_bind, Go.pure_def, List.append_assoc, List.singleton_append, ← List.replicate_succ]

/-- **C104 is false** for the direct block buffer: there is no bound in terms of the bytes that are still in the buffer. Its
memory is reused only when the buffer is empty; with never more than two blocks of one byte in it, but at least one, its
array grows without limit. -/
theorem C104_direct_violated : ¬ C104_direct_claim := by
  rintro ⟨F, h⟩
  obtain ⟨h1, xs, h2⟩ := turnover_spec (F 0 2) [1]
  have hs : ∃ ys, runTrace BufOp.spec (.write [1] :: .fetch :: turnover (F 0 2)) BufSpec.empty =
      ok (ys, ⟨[([1], true)], [1] ++ List.replicate (F 0 2) 1, false⟩) := by
    refine ⟨.unit :: .bytes (some [1]) :: xs, ?_⟩
    simp only [runTrace, BufOp.spec, BufSpec.empty, BufSpec.addBytes, Bool.false_eq_true, if_false, List.getLast?_nil, List.getLast?_singleton,
      ok_bind, List.nil_append, List.dropLast_singleton]
    rw [h2]
    rfl
  obtain ⟨ys, hs⟩ := hs
  have ha := runTrace_agree (P := fun _ => True) (R := DirectBuf.R) (fun o _ _ _ h => DirectBuf.R.sim h o) (.write [1] :: .fetch :: turnover (F 0 2))
    (DirectBuf.new [] 0) BufSpec.empty (fun _ _ => trivial) (DirectBuf.R_new [] 0)
  rw [hs] at ha
  cases he : runTrace BufOp.runD (.write [1] :: .fetch :: turnover (F 0 2)) (DirectBuf.new [] 0) with
  | err _ => rw [he] at ha; exact ha.elim
  | panic => rw [he] at ha; exact ha.elim
  | ok q =>
    obtain ⟨zs, b, m⟩ := q
    rw [he] at ha
    have hr : DirectBuf.R (b, m) ⟨[([1], true)], [1] ++ List.replicate (F 0 2) 1, false⟩ := ha.2
    have hlen : b.nextOffset = F 0 2 + 1 := by
      rw [← DirectBuf.length_all hr.wf, hr.all]; simp
    have hoff : b.nextOffset ≤ b.data.len := hr.wf.off
    have := h [] 0 2 _ zs b m (by
      intro o ho
      simp only [List.mem_cons] at ho
      rcases ho with rfl | rfl | ho
      · simp
      · simp
      · exact turnover_mem _ o ho) (by
      refine ⟨by simp [BufSpec.liveBytes, BufSpec.empty], ?_⟩
      intro x s e
      simp [BufOp.spec, BufSpec.addBytes, BufSpec.empty] at e
      obtain ⟨_, rfl⟩ := e
      refine ⟨by simp [BufSpec.liveBytes], ?_⟩
      intro x s e
      simp [BufOp.spec] at e
      obtain ⟨_, rfl⟩ := e
      exact h1) he
    omega

/-- Twenty bytes went through, one is in the buffer, and the array has 30. -/
example : (fun x => (x.2.1.blocks.length, x.2.1.data.len)) <$> runTrace BufOp.runD (.write [1] :: .fetch :: turnover 19) (DirectBuf.new [] 4) = ok (1, 30) := by
  decide +kernel

/-! ## RBBlockBuffer -/

/-- **C104** for the ring: if no block gets longer than `M` bytes and the blocks in it have at most `H` bytes at every `Write`,
the array has at most `max cap ((2H+3M)*3/2)` bytes, however long the history is and whatever it does with `Pop`, `PopBack`
and `Clear`. -/
theorem C104_ring (m₀ : Mem) (cap M H : Nat) (ops : List BufOp) (xs : List BufObs) (r : RBBuf) (m : Mem)
    (hl : BoundedLoad M H ops BufSpec.empty) (e : runTrace BufOp.runR ops (RBBuf.new m₀ cap) = ok (xs, (r, m))) :
    r.data.len ≤ max cap ((2 * H + 3 * M) * 3 / 2) := by
  refine RBBuf.Loaded.run (Nat.le_max_right _ _) ops _ r _ m _ xs ⟨RBBuf.Shadow_new cap m₀, Nat.le_max_left _ _, fun _ => ?_⟩ hl e
  exact .linear 0 0 rfl (Nat.zero_le _) (.inl rfl)

/-- A better bound if `PopBack` takes back only the block that was written last. -/
theorem C104_ring_once (m₀ : Mem) (cap M H : Nat) (ops : List BufOp) (xs : List BufObs) (r : RBBuf) (m : Mem)
    (hl : ModestLoad M H false ops BufSpec.empty) (e : runTrace BufOp.runR ops (RBBuf.new m₀ cap) = ok (xs, (r, m))) :
    r.data.len ≤ max cap ((H + 3 * M) * 3 / 2) :=
  RBBuf.Modest.run (Nat.le_max_right _ _) ops false _ r _ m _ xs (RBBuf.Modest_new M H _ cap m₀ (Nat.le_max_left _ _)) hl e

theorem bounded_of_within (N : Nat) : ∀ (ops : List BufOp) (t : BufSpec), t.sealed = false → (∀ o ∈ ops, o ≠ .splitOff) →
    Within BufOp.spec BufSpec.liveBytes N ops t → BoundedLoad N N ops t := by
  intro ops
  induction ops with
  | nil => intro t _ _ _; trivial
  | cons o os ih =>
    intro t hs hn hw
    refine ⟨hn o (by simp), ?_, ?_⟩
    · rintro d rfl
      refine ⟨hw.1, ?_⟩
      have h1 := (hw.2 .unit { t with blocks := BufSpec.addBytes t.blocks d, all := t.all ++ d } (by simp only [BufOp.spec, hs]; rw [if_neg (by simp)])).here
      refine Nat.le_trans ?_ h1
      rcases list_snoc_cases t.blocks with hb | ⟨cs, ⟨c, f⟩, hb⟩
      · simp [BufSpec.pendingBytes, BufSpec.liveBytes, BufSpec.addBytes, hb]
      · cases f <;> simp [BufSpec.pendingBytes, BufSpec.liveBytes, BufSpec.addBytes, hb] <;> omega
    · intro x t' e
      refine ih t' ?_ (fun o ho => hn o (List.mem_cons_of_mem _ ho)) (hw.2 x t' e)
      have hno := hn o (by simp)
      cases o with
      | splitOff => exact absurd rfl hno
      | write d => simp [BufOp.spec, hs] at e; rw [← e.2]
      | fetch =>
        simp only [BufOp.spec, hs, Bool.false_eq_true, if_false] at e
        split at e
        · cases e
        · cases e; exact hs
        · cases e; rfl
      | pop => simp [BufOp.spec, hs] at e; rw [← e.2, (RBBuf.norm_blocks _).2]
      | popBack =>
        simp only [BufOp.spec, hs, Bool.false_eq_true, if_false] at e
        split at e
        · cases e
        · cases e; rw [(RBBuf.norm_blocks _).2]
      | clear => simp [BufOp.spec] at e; rw [← e.2]; rfl
      | pending => simp only [BufOp.spec] at e; split at e <;> (cases e; exact hs)
      | size => simp [BufOp.spec] at e; rw [← e.2]; exact hs
      | data => simp [BufOp.spec] at e; rw [← e.2]; exact hs

/-- The bound that `C104_direct_claim` asks for holds for the ring: seven and a half times the most that was ever in it. -/
theorem C104_ring_live (m₀ : Mem) (cap N : Nat) (ops : List BufOp) (xs : List BufObs) (r : RBBuf) (m : Mem)
    (hn : ∀ o ∈ ops, o ≠ .splitOff) (hw : Within BufOp.spec BufSpec.liveBytes N ops BufSpec.empty)
    (e : runTrace BufOp.runR ops (RBBuf.new m₀ cap) = ok (xs, (r, m))) : r.data.len ≤ max cap (N * 15 / 2) := by
  have := C104_ring m₀ cap N N ops xs r m (bounded_of_within N ops _ rfl hn hw) e
  rw [show (2 * N + 3 * N) * 3 / 2 = N * 15 / 2 by omega] at this
  exact this

/-- The history of `C104_direct_violated` in the ring: the array keeps its 4 bytes. -/
example : (fun x => (x.2.1.blocks.length, x.2.1.data.len)) <$> runTrace BufOp.runR (.write [1] :: .fetch :: turnover 19) (RBBuf.new [] 4) = ok (1, 4) := by
  decide +kernel
/-- A ring that grows (its array is too small at first). -/
example : (fun x => x.2.1.data.len) <$> runTrace BufOp.runR [.write [1, 2], .fetch, .write [3, 4], .fetch, .pop, .write [5, 6]] (RBBuf.new [] 1) = ok 4 := by
  decide +kernel
example : BoundedLoad 2 2 [.write [1, 2], .fetch, .write [3, 4], .fetch, .pop, .write [5, 6]] BufSpec.empty := by
  simp [BoundedLoad, BufOp.spec, BufSpec.empty, BufSpec.addBytes, BufSpec.liveBytes, BufSpec.pendingBytes, BufSpec.norm]

/-! ## StreamsBuffer -/

/-- **C104** for the pipeline of the demuxer: each of its buffers keeps at most what its own stream needs, whatever the other
streams do. -/
theorem C104_streams (m₀ : Mem) (M H i : Nat) (ops : List StreamOp) (xs : List BufObs) (s : StreamsBuf) (m : Mem) (r : RBBuf)
    (hl : BoundedLoad M H (streamHist i ops) BufSpec.empty) (e : runTrace StreamOp.run ops (⟨[]⟩, m₀) = ok (xs, (s, m)))
    (hr : s.buffers[i]? = some r) : r.data.len ≤ max 2097152 ((2 * H + 3 * M) * 3 / 2) := by
  obtain ⟨cap, ys, t, hc, e1, e2⟩ := StreamsBuf.history m₀ ops e hr
  have := C104_ring [] cap M H _ ys t.1 t.2 hl e1
  rw [e2]
  rcases hc with rfl | rfl <;> omega

example : streamHist 1 [.write [1] 0 false, .write [7] 1 true, .write [2] 0 false, .fetch 1, .fetch 0, .discardHead 1] = [.write [7], .fetch, .pop] := by
  decide +kernel

end Avf
