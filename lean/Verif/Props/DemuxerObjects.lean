import Verif.Lemmas.DemuxerObjectsRun
import Verif.Props.DemuxerTotal
/-!
# C81: demuxers with packet objects and linked lists behave like demuxers with packet values and lists (`demuxer.go`, `av_packet.go`,
`collections/linked_list.go`)

The other claims about demuxers (C61–C67, C72–C75, C78, C79) are about packet values. Here packets are objects from the global pool that
are written through pointers, and queues are linked lists.
-/
namespace Avf
open Go

theorem LList.Rep.elems {α : Type} {l : LList α} {ns : List Nat} {xs : List α} (h : LList.Rep l ns xs) :
    ∀ n i, i + n = xs.length → l.elems n ns[i]? = xs.drop i := by
  intro n
  induction n with
  | zero =>
    intro i hi
    rw [List.drop_eq_nil_of_le (by omega)]
    cases ns[i]? <;> rfl
  | succ n ih =>
    intro i hi
    have hlen := h.len
    obtain ⟨nx, h1, h2⟩ := h.node i (by omega)
    rw [List.getElem?_eq_getElem (by omega)]
    unfold LList.elems
    rw [h1]
    dsimp only
    rw [List.drop_eq_getElem_cons (show i < xs.length by omega)]
    congr 1
    rw [← ih (i + 1) (by omega)]
    by_cases hl : i + 1 < ns.length
    · rw [h2 hl, List.getElem?_eq_getElem hl]
    · have : n = 0 := by omega
      subst this
      cases nx <;> cases ns[i + 1]? <;> rfl

theorem LRel_elems {q : LList Nat} {l : List Nat} (h : LList.LRel q l) : q.elems q.size q.fist = l := by
  obtain ⟨ns, h⟩ := h
  rw [h.fist, h.elems q.size 0 (by rw [h.size]; omega)]
  rfl

theorem ObjSim.same {K : Kept} {d : ObjDemuxer} {ts : List Row} {s : Demuxer} (h : ObjSim K d ts [] [] s) : SameDemuxer d s := by
  have hq : d.queued = ts.map Row.l := by
    unfold ObjDemuxer.queued
    rw [h.queues, List.map_map]
    exact List.map_congr_left fun t ht => LRel_elems (h.rows t ht).1
  have hf : d.queued.flatten = ts.flatMap Row.l := by rw [hq, List.flatMap_def]
  have hi := h.inv
  rw [List.append_nil, ← hf] at hi
  refine ⟨h.base, ?_, hi.distinct.sublist ((List.sublist_append_left _ _).append_right _),
    fun p hp hm => hi.apart p hm (List.mem_append_left _ (List.mem_append_left _ hp))⟩
  rw [hq, h.packets, List.map_map, List.map_map]
  exact List.map_congr_left fun t ht => (h.rows t ht).2

theorem Agrees.same {K : Kept} {x : Go ObjDemuxer} {y : Go Demuxer} (h : Agrees K x y) : SameOutcome x y := by
  cases x <;> cases y
  case ok.ok d s => obtain ⟨ts, h⟩ := h; exact h.same
  all_goals exact h

/-- **C81** every history of operations on a demuxer with packet objects, whatever the handler and others do with the pool and their own
packets in between, is a history on a demuxer with packet values: same calls with the same packets, same tracks, same panics. At
every point the queued packets are different objects with the contents they should have, and nobody else has them. -/
theorem C81_packet_objects (name : String) (autoFree : Bool) (shared : Shared) (hp : PoolRun shared.pool shared.theirs)
    (H : List (ObjOracle × DemuxOp)) (hv : ∀ x ∈ H, x.1.Valid) :
    ∃ h : List (Oracle × DemuxOp), h.map Prod.snd = H.map Prod.snd ∧
      (∀ x ∈ h, x.1.Valid ∧ (x.1.audioType = 0 ∨ x.1.audioType = packNone)) ∧
      SameOutcome ((ObjDemuxer.new name autoFree shared).run H) (runDemux (Demuxer.new name autoFree) h) := by
  have h0 : ObjSim ⟨[], fun _ => none⟩ (ObjDemuxer.new name autoFree shared) [] [] [] (Demuxer.new name autoFree) :=
    ⟨rfl, rfl, rfl, by simp, rfl, by simp, hp.inv⟩
  obtain ⟨h, h1, h2, h3⟩ := run_sim H hv h0
  exact ⟨h, h1, h2, h3.same⟩

/-- **C81** what holds of the calls of all demuxers with packet values holds of the calls of all demuxers with packet objects. -/
theorem C81_transfer (P : List Call → Prop) (name : String) (autoFree : Bool) (hP : ∀ h s, Reached name autoFree h s → P s.calls)
    (shared : Shared) (hp : PoolRun shared.pool shared.theirs) (H : List (ObjOracle × DemuxOp)) (hv : ∀ x ∈ H, x.1.Valid)
    (d : ObjDemuxer) (hd : (ObjDemuxer.new name autoFree shared).run H = ok d) : P d.base.calls := by
  obtain ⟨h, _, h2, h3⟩ := C81_packet_objects name autoFree shared hp H hv
  rw [hd] at h3
  cases hs : runDemux (Demuxer.new name autoFree) h with
  | ok s =>
    rw [hs] at h3
    have hc : s.calls = d.base.calls := by
      have := h3.rest
      generalize s.packets = Q at this
      subst this; rfl
    rw [← hc]
    exact hP h s ⟨fun x hx => (h2 x hx).1, hs⟩
  | err m => rw [hs] at h3; exact h3.elim
  | panic => rw [hs] at h3; exact h3.elim

/-! ## A run -/

/-- Pointers sorted by time. -/
def exSort (objs : List AVPacket) : List Nat → List Nat :=
  List.insertionSort fun a b => (objs[a]?.map AVPacket.dts).getD 0 ≤ (objs[b]?.map AVPacket.dts).getD 0

/-- The choices of the examples; the pool hands out its oldest packet. -/
def exObj (acts : Nat → List Act) : ObjOracle := { exOracle with pick := some 0, sortObjs := exSort, acts := acts }

theorem exObj_choices (acts : Nat → List Act) : (exObj acts).Choices := by
  refine ⟨exOracle_valid.order, fun objs l => List.perm_insertionSort _ l, fun objs l => ?_, exOracle_valid.index, exOracle_valid.buffer⟩
  have ht : Std.Total fun a b : Nat => (objs[a]?.map AVPacket.dts).getD 0 ≤ (objs[b]?.map AVPacket.dts).getD 0 := ⟨fun a b => Int.le_total _ _⟩
  have hr : IsTrans Nat fun a b : Nat => (objs[a]?.map AVPacket.dts).getD 0 ≤ (objs[b]?.map AVPacket.dts).getD 0 :=
    ⟨fun a b c => Int.le_trans⟩
  refine (List.pairwise_insertionSort (fun a b : Nat => (objs[a]?.map AVPacket.dts).getD 0 ≤ (objs[b]?.map AVPacket.dts).getD 0) l).imp ?_
  intro a b h x y hx hy
  rw [hx, hy] at h
  simpa using h

/-- Four packets of one track, 200 ms, 100 ms and 50 ms apart. -/
def objRun (acts : Nat → List Act) : List (ObjOracle × DemuxOp) :=
  [(exObj acts, .audioPacket 0 codecPCMS16LE [1] 0), (exObj acts, .audioPacket 0 codecPCMS16LE [2] 18000),
   (exObj acts, .audioPacket 0 codecPCMS16LE [3] 27000), (exObj acts, .audioPacket 0 codecPCMS16LE [4] 31500)]

/-- What one sees: pointers in the queues, the pool, what others own, times and durations of the delivered packets. -/
structure Look where
  queued : List (List Nat)
  pool : List Nat
  theirs : List Nat
  delivered : List (Int × Int)
  payload : List Bytes
deriving DecidableEq

def ObjDemuxer.look (d : ObjDemuxer) : Look :=
  ⟨d.queued, d.shared.pool.pool, d.shared.theirs, (delivered d.base.calls).map fun p => (p.dts, p.duration),
    (delivered d.base.calls).map AVPacket.data⟩

/-- A handler that makes a packet of its own, and writes to the packets that it is called with. -/
def goodActs : Nat → List Act := fun n =>
  if n = 5 then [.touch fun p => { p with data := [], dataAVCC := some [9] }, .video (some 0) [7] 1 2 true 0 codecH264 5 6]
  else if n = 7 then [.use 2 fun p => { p with dts := 77 }] else []

example : ObjDemuxer.look <$> (ObjDemuxer.new "ps" true {}).run (objRun goodActs) =
    ok ⟨[[1]], [0], [2], [(0, 18000), (18000, 9000), (27000, 4500)], [[1], [2], [3]]⟩ := by decide +kernel

/-- Without `AutoFree` the packets are the handler's. -/
example : ObjDemuxer.look <$> (ObjDemuxer.new "ps" false {}).run (objRun fun _ => []) =
    ok ⟨[[3]], [], [2, 1, 0], [(0, 18000), (18000, 9000), (27000, 4500)], [[1], [2], [3]]⟩ := by decide +kernel

theorem goodActs_fair (n : Nat) : ∀ a ∈ goodActs n, a.Fair := by
  unfold goodActs
  intro a ha
  by_cases h5 : n = 5
  · rw [if_pos h5] at ha
    simp only [List.mem_cons, List.not_mem_nil, or_false] at ha
    rcases ha with rfl | rfl
    · exact fun x => rfl
    · trivial
  · rw [if_neg h5] at ha
    by_cases h7 : n = 7
    · rw [if_pos h7, List.mem_singleton] at ha
      subst ha; trivial
    · rw [if_neg h7] at ha; simp at ha

example : PoolRun ({} : Shared).pool ({} : Shared).theirs ∧ ∀ x ∈ objRun goodActs, x.1.Valid := by
  refine ⟨.init, fun x hx => ?_⟩
  have : x.1 = exObj goodActs := by
    simp only [objRun, List.mem_cons, List.not_mem_nil, or_false] at hx
    rcases hx with rfl | rfl | rfl | rfl <;> rfl
  rw [this]
  exact ⟨exObj_choices _, goodActs_fair⟩

/-! ## Why others have to be fair -/

/-- A handler frees the packet it is called with although the demuxer is going to free it. -/
def rogueActs : Nat → List Act := fun n => if n = 5 then [.rogueFree 0] else []

/-- The packet is in the pool twice and becomes the third and the fourth packet: the third packet, of time 27000, is lost, and the
fourth is delivered before it is complete; it is queued and in the pool at the same time. -/
theorem rogueRun : ObjDemuxer.look <$> (ObjDemuxer.new "ps" true {}).run (objRun rogueActs) =
    ok ⟨[[0]], [1, 0], [], [(0, 18000), (18000, 9000), (31500, 0)], [[1], [2], [4]]⟩ := by decide +kernel

/-- C81 without fairness. -/
def C81_any_handler : Prop :=
  ∀ (name : String) (autoFree : Bool) (shared : Shared), PoolRun shared.pool shared.theirs → ∀ H : List (ObjOracle × DemuxOp),
    (∀ x ∈ H, x.1.Choices) → ∃ h : List (Oracle × DemuxOp), h.map Prod.snd = H.map Prod.snd ∧ (∀ x ∈ h, x.1.Valid) ∧
      SameOutcome ((ObjDemuxer.new name autoFree shared).run H) (runDemux (Demuxer.new name autoFree) h)

theorem C81_any_handler_violated : ¬ C81_any_handler := by
  intro hc
  obtain ⟨h, _, _, h3⟩ := hc "ps" true {} .init (objRun rogueActs) (fun x hx => by
    have : x.1 = exObj rogueActs := by
      simp only [objRun, List.mem_cons, List.not_mem_nil, or_false] at hx
      rcases hx with rfl | rfl | rfl | rfl <;> rfl
    rw [this]
    exact exObj_choices _)
  have hr := rogueRun
  cases hd : (ObjDemuxer.new "ps" true {}).run (objRun rogueActs) with
  | ok d =>
    rw [hd] at h3 hr
    simp only [map_ok, Go.ok.injEq, ObjDemuxer.look, Look.mk.injEq] at hr
    obtain ⟨h1, h2, _⟩ := hr
    cases hs : runDemux (Demuxer.new "ps" true) h with
    | ok s =>
      rw [hs] at h3
      have := h3.apart 0 (by rw [h1]; simp)
      rw [h2] at this
      simp at this
    | err m => rw [hs] at h3; exact h3.elim
    | panic => rw [hs] at h3; exact h3.elim
  | err m => rw [hd] at hr; cases hr
  | panic => rw [hd] at hr; cases hr

/-- A handler that changes the stream index of a packet makes `forwardPacket` panic. -/
example : panics ((ObjDemuxer.new "ps" true {}).run (objRun fun n => if n = 5 then [.touch fun p => { p with index := 7 }] else [])) = true := by
  decide +kernel

end Avf
