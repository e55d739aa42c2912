import Verif.Lemmas.RBLoad
/-! # C22, C23: RBBlockBuffer -/
namespace Avf
open Go

/-- **C22**: for any history on a ring block buffer of any capacity, `Fetch` returns exactly the concatenation of what was
written since the block was started (nil if there is no such block) and `PendingBlockSize` its length – wherever the block
was wrapped, moved or reallocated to, and however many older blocks were popped meanwhile – unless a `Pop` took the block
itself, which the caller sees as `Size() = 0`; and nothing panics except `Fetch`/`PopBack` on an empty buffer and
`Fetch`/`Pop`/`PopBack` on a sealed one. -/
theorem C22_ring_fetch (m : Mem) (cap : Nat) (ops : List BufOp) :
    AllowedTrace RingSt.allowed ops ⟨0, none, false⟩ (seen (runTrace BufOp.runR ops (RBBuf.new m cap))) :=
  runTrace_allowed (fun o _ _ h => RBBuf.R.sim h o) ops _ _ (RBBuf.R_new m cap)

/-- A history with a wrap (third block), a growth (fourth block) and a pop while a block is being written. -/
example : seen (runTrace BufOp.runR [.write [1, 2, 3], .fetch, .write [4, 5], .fetch, .pop, .write [6], .write [7, 8], .fetch,
    .write [9, 10], .write [11], .pop, .write [12, 13, 14, 15, 16], .fetch] (RBBuf.new [] 6)) =
    ok [.unit, .bytes (some [1, 2, 3]), .unit, .bytes (some [4, 5]), .unit, .unit, .unit, .bytes (some [6, 7, 8]),
      .unit, .unit, .unit, .unit, .bytes (some [9, 10, 11, 12, 13, 14, 15, 16])] := by decide +kernel

/-- **C23**, the claim: a slice handed out by `Fetch` keeps its contents until its block is popped. -/
def C23_claim : Prop :=
  ∀ (m₀ : Mem) (cap : Nat) (ops : List BufOp) (r : RBBuf) (m : Mem) (h : Held),
    runClientR ops ((RBBuf.new m₀ cap).1, (RBBuf.new m₀ cap).2, []) = ok (r, m, h) →
    ∀ s d, some (s, d) ∈ h → m.read s = d

/-- What a client holds at the end of a history: contents now and contents when fetched. -/
def heldNow (ops : List BufOp) (cap : Nat) : Go (List (Bytes × Bytes)) := do
  let (_, m, h) ← runClientR ops ((RBBuf.new [] cap).1, (RBBuf.new [] cap).2, [])
  return h.filterMap (fun e => e.map (fun e => (m.read e.1, e.2)))

/-- First counterexample: the ring is exactly full after wrapping, and the next block is placed over the oldest one. -/
example : heldNow [.write [1, 1], .fetch, .write [2, 2], .fetch, .pop, .write [3, 3], .fetch, .write [4, 4], .fetch] 4 =
    ok [([4, 4], [2, 2]), ([3, 3], [3, 3]), ([4, 4], [4, 4])] := by decide +kernel

/-- Second counterexample: the ring grows twice before the blocks discarded by the first growth have been popped; the pops
meant for them then take live blocks, whose memory is reused. -/
example : heldNow [.write [1], .fetch, .write [2], .fetch, .write [3], .fetch, .write [4, 4, 4], .fetch,
    .write [5, 5, 5, 5], .fetch, .pop, .pop, .pop, .pop, .write [6, 6, 6, 6], .fetch] 2 =
    ok [([6, 6, 6, 6], [5, 5, 5, 5]), ([6, 6, 6, 6], [6, 6, 6, 6])] := by decide +kernel

theorem heldNow_of_claim (hc : C23_claim) {ops : List BufOp} {cap : Nat} {l : List (Bytes × Bytes)}
    (h : heldNow ops cap = ok l) : ∀ e ∈ l, e.1 = e.2 := by
  simp only [heldNow, bind_eq_ok] at h
  obtain ⟨⟨r, m, h⟩, e1, e2⟩ := h
  simp only [Go.pure_def, ok.injEq] at e2
  subst e2
  intro e he
  simp only [List.mem_filterMap, Option.map_eq_some_iff] at he
  obtain ⟨_, hm, ⟨s, d⟩, rfl, rfl⟩ := he
  exact hc _ _ _ _ _ _ e1 s d hm

/-- **C23** fails. -/
theorem C23_fetched_blocks_immutable_violated : ¬ C23_claim := by
  intro hc
  have h : heldNow [.write [1, 1], .fetch, .write [2, 2], .fetch, .pop, .write [3, 3], .fetch, .write [4, 4], .fetch] 4 =
    ok [([4, 4], [2, 2]), ([3, 3], [3, 3]), ([4, 4], [4, 4])] := by decide +kernel
  have := heldNow_of_claim hc h ([4, 4], [2, 2]) (by simp)
  revert this
  decide

/-- **C23**, what holds of every history of every buffer, `PopBack`, `SplitOff`, wrapping and growing included: fetched
slices keep their contents as long as no `Write` happens while the ring is exactly full after wrapping, and none grows the
ring while blocks discarded by the previous growth have not been popped. Missing for the full claim: exactly those two
events, which are the two counterexamples above. -/
theorem C23_fetched_blocks_immutable_partial (m₀ : Mem) (cap : Nat) (ops : List BufOp) (r : RBBuf) (m : Mem) (h : Held)
    (hs : RBBuf.Safe ops ((RBBuf.new m₀ cap).1, (RBBuf.new m₀ cap).2, []))
    (e : runClientR ops ((RBBuf.new m₀ cap).1, (RBBuf.new m₀ cap).2, []) = ok (r, m, h)) (s : SliceRef) (d : Bytes)
    (hm : some (s, d) ∈ h) : m.read s = d :=
  ((RBBuf.Inv_new m₀ cap).run hs e).good hm

/-- **C23** for a ring that is not overloaded, stated on what the caller does only: if at every `Write` the bytes of the
blocks not yet popped leave room for two blocks of the largest size, and only the block written last is taken back, every operation of the ring returns what the
memory-free specification returns (so nothing is lost, duplicated or overwritten) and fetched slices keep their contents
until popped. -/
theorem C23_light_load_partial (m₀ : Mem) (cap M : Nat) (ops : List BufOp) (hl : LightLoad M cap false ops BufSpec.empty) :
    seen (runTrace BufOp.runR ops (RBBuf.new m₀ cap)) = seen (runTrace BufOp.spec ops BufSpec.empty) ∧
    ∀ r m h, runClientR ops ((RBBuf.new m₀ cap).1, (RBBuf.new m₀ cap).2, []) = ok (r, m, h) →
      ∀ s d, some (s, d) ∈ h → m.read s = d := by
  obtain ⟨h1, h2⟩ := (RBBuf.Load_new M cap m₀).run hl
  refine ⟨h1, fun r m h e s d hm => ?_⟩
  obtain ⟨_, t, H⟩ := h2 e
  exact H.inv.good hm

/-- A lightly loaded history which wraps and takes back the wrapped block: blocks of 2 bytes in 7 bytes. -/
example : LightLoad 2 7 false [.write [1, 1], .fetch, .write [2, 2], .fetch, .pop, .write [3, 3], .fetch, .pop, .write [4],
    .write [5], .fetch, .popBack, .write [6, 7], .fetch, .pop] BufSpec.empty := by
  simp [LightLoad, BufOp.fresh, BufSpec.empty, BufSpec.liveBytes, BufSpec.pendingBytes, BufOp.spec, BufSpec.addBytes, BufSpec.norm]

example : heldNow [.write [1, 1], .fetch, .write [2, 2], .fetch, .pop, .write [3, 3], .fetch, .pop, .write [4], .write [5],
    .fetch, .popBack, .write [6, 7], .fetch] 7 = ok [([3, 3], [3, 3]), ([6, 7], [6, 7])] := by decide +kernel

end Avf
