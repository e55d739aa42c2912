import Verif.Lemmas.DemuxerSystem
/-!
# C97: demuxers that share the packet pool are independent (`av_packet.go`, `demuxer.go`)

C81 is about one demuxer; what others do with the pool is an arbitrary fair action there. Here all demuxers of a process are
demuxers of the model.
-/
namespace Avf
open Go PacketPool

theorem Entry.Ok.queued {S : ObjSystem} {x : Entry} (h : x.Ok S.shared.pool.objs) : (S.view x.core).queued = x.ts.map Row.l := by
  unfold ObjDemuxer.queued
  show x.core.queues.map _ = _
  rw [h.queues, List.map_map]
  exact List.map_congr_left fun t ht => LRel_elems (h.rows t ht).1

theorem SysInv.queued {H : List (Nat × ObjOracle × DemuxOp)} {names : List (String × Bool)} {S : ObjSystem} {es : List Entry}
    (h : SysInv H names S es) : S.queued = es.flatMap Entry.l := by
  unfold ObjSystem.queued
  rw [h.cores, List.flatMap_map]
  have : ∀ x ∈ es, (S.view x.core).queued.flatten = x.l := fun x hx => by
    rw [(h.ok x hx).queued, ← List.flatMap_def]; rfl
  rw [List.flatMap_def, List.flatMap_def, List.map_congr_left this]

/-- **C97**: whatever the order in which the demuxers of a process run, and whatever handlers do with the pool and their own packets,
each demuxer behaves as if it were alone, and no two demuxers share a packet. -/
theorem C97_independent (names : List (String × Bool)) (shared : Shared) (hp : PoolRun shared.pool shared.theirs)
    (H : List (Nat × ObjOracle × DemuxOp)) (hv : ∀ x ∈ H, x.2.1.Valid) :
    Independent names H ((ObjSystem.new names shared).run H) := by
  have h0 : SysInv [] names (ObjSystem.new names shared)
      (names.map fun n => ⟨{ base := { name := n.1, autoFree := n.2 } }, [], Demuxer.new n.1 n.2, n⟩) := by
    refine ⟨?_, ?_, ?_, ?_, ?_⟩
    · rw [List.map_map]; rfl
    · rw [List.map_map]; exact (List.map_id' _).symm
    · intro x hx
      obtain ⟨n, _, rfl⟩ := List.mem_map.1 hx
      exact ⟨rfl, rfl, rfl, fun t ht => absurd ht (by simp)⟩
    · intro i x hx
      obtain ⟨n, _, rfl⟩ := List.mem_map.1 (List.mem_of_getElem? hx)
      exact ⟨[], rfl, by simp, rfl⟩
    · have : ((names.map fun n => (⟨{ base := { name := n.1, autoFree := n.2 } }, [], Demuxer.new n.1 n.2, n⟩ : Entry)).flatMap Entry.l) = [] := by
        rw [List.flatMap_eq_nil_iff]
        intro x hx
        obtain ⟨n, _, rfl⟩ := List.mem_map.1 hx
        rfl
      rw [this, List.nil_append]
      exact hp.inv
  have hrun := system_run names H hv [] _ _ h0
  cases hS : (ObjSystem.new names shared).run H with
  | ok S =>
    rw [hS] at hrun
    obtain ⟨es, h⟩ := hrun
    rw [List.nil_append] at h
    refine ⟨by rw [h.cores, h.names, List.length_map, List.length_map], ?_, ?_, ?_⟩
    · intro i n c hn hc
      rw [h.names, List.getElem?_map, Option.map_eq_some_iff] at hn
      obtain ⟨x, hx, rfl⟩ := hn
      rw [h.cores, List.getElem?_map, hx] at hc
      simp only [Option.map_some, Option.some.injEq] at hc
      subst hc
      have hm := List.mem_of_getElem? hx
      have hok := h.ok x hm
      refine ⟨x.s, h.alone i x hx, hok.base, ?_, ?_, ?_⟩
      · rw [hok.queued, hok.packets, List.map_map, List.map_map]
        exact List.map_congr_left fun t ht => (hok.rows t ht).2
      · rw [hok.queued, ← List.flatMap_def]
        refine h.inv.distinct.sublist (List.Sublist.append_right ?_ _)
        show x.l.Sublist _
        rw [List.flatMap_def]
        exact List.sublist_flatten_of_mem (List.mem_map_of_mem hm)
      · intro p hp hpool
        rw [hok.queued, ← List.flatMap_def] at hp
        exact h.inv.apart p hpool (List.mem_append_left _ (List.mem_flatMap.2 ⟨x, hm, hp⟩))
    · rw [h.queued]; exact h.inv.distinct
    · intro p hp hpool
      rw [h.queued] at hp
      exact h.inv.apart p hpool (List.mem_append_left _ hp)
  | err m =>
    rw [hS] at hrun
    rw [List.nil_append] at hrun
    exact hrun
  | panic =>
    rw [hS] at hrun
    rw [List.nil_append] at hrun
    exact hrun

/-- **C97**: what holds of the calls of every demuxer that is alone, holds of the calls of every demuxer of every process. -/
theorem C97_transfer (P : String × Bool → List Call → Prop) (hP : ∀ (n : String × Bool) h s, Reached n.1 n.2 h s → P n s.calls)
    (names : List (String × Bool)) (shared : Shared) (hp : PoolRun shared.pool shared.theirs)
    (H : List (Nat × ObjOracle × DemuxOp)) (hv : ∀ x ∈ H, x.2.1.Valid) (S : ObjSystem) (hS : (ObjSystem.new names shared).run H = ok S)
    (i : Nat) (n : String × Bool) (hn : names[i]? = some n) : ∃ c, S.cores[i]? = some c ∧ P n c.base.calls := by
  have h := C97_independent names shared hp H hv
  rw [hS] at h
  obtain ⟨hlen, h, _⟩ := h
  have hi : i < S.cores.length := by rw [hlen]; exact (List.getElem?_eq_some_iff.1 hn).1
  refine ⟨S.cores[i], List.getElem?_eq_getElem hi, ?_⟩
  obtain ⟨s, ⟨g, _, h2, h3⟩, hsame⟩ := h i n _ hn (List.getElem?_eq_getElem hi)
  have hc : s.calls = S.cores[i].base.calls := by
    have := hsame.rest
    generalize s.packets = Q at this
    subst this; rfl
  rw [← hc]
  exact hP n g s ⟨fun x hx => (h2 x hx).1, h3⟩

/-! ## A run -/

/-- Two demuxers take turns; their packets have the same stream index. -/
def systemRun : List (Nat × ObjOracle × DemuxOp) :=
  [(0, exObj fun _ => [], .audioPacket 0 codecPCMS16LE [1] 0), (1, exObj fun _ => [], .audioPacket 0 codecPCMS16LE [51] 1000),
   (0, exObj fun _ => [], .audioPacket 0 codecPCMS16LE [2] 18000), (1, exObj fun _ => [], .audioPacket 0 codecPCMS16LE [52] 20000),
   (0, exObj fun _ => [], .audioPacket 0 codecPCMS16LE [3] 27000), (1, exObj fun _ => [], .audioPacket 0 codecPCMS16LE [53] 30000)]

/-- What one sees of a process. -/
def ObjSystem.looks (S : ObjSystem) : List Look := S.cores.map fun c => (S.view c).look

/-- The packets of one are reused by the other. -/
example : ObjSystem.looks <$> (ObjSystem.new [("ps", true), ("ps", true)] {}).run systemRun =
    ok [⟨[[1]], [0], [], [(0, 18000), (18000, 9000)], [[1], [2]]⟩, ⟨[[2]], [0], [], [(1000, 19000), (20000, 10000)], [[51], [52]]⟩] := by
  decide +kernel

example : PoolRun ({} : Shared).pool ({} : Shared).theirs ∧ ∀ x ∈ systemRun, x.2.1.Valid := by
  refine ⟨.init, fun x hx => ?_⟩
  have : x.2.1 = exObj fun _ => [] := by
    simp only [systemRun, List.mem_cons, List.not_mem_nil, or_false] at hx
    rcases hx with rfl | rfl | rfl | rfl | rfl | rfl <;> rfl
  rw [this]
  exact ⟨exObj_choices _, by simp [exObj]⟩

/-! ## Why handlers have to be fair -/

/-- The handler of the first demuxer frees a packet that its demuxer frees as well. -/
def rogueSystemRun : List (Nat × ObjOracle × DemuxOp) :=
  systemRun.map fun x => (x.1, if x.1 = 0 then exObj rogueActs else x.2.1, x.2.2)

/-- The second demuxer, whose handler does nothing wrong, delivers the third packet of the first (payload 3, time 27000) in the place
of its own second packet (payload 52, time 20000). -/
theorem C97_rogue_handler : ObjSystem.looks <$> (ObjSystem.new [("ps", true), ("ps", true)] {}).run rogueSystemRun =
    ok [⟨[[0]], [2, 0], [], [(0, 18000), (18000, 9000)], [[1], [2]]⟩, ⟨[[1]], [2, 0], [], [(1000, 19000), (27000, 3000)], [[51], [3]]⟩] := by
  decide +kernel

end Avf
