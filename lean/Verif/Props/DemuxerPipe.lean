import Verif.Lemmas.DemuxerPipe
import Verif.Props.DemuxerQueue
/-! # C64: the demuxer and the memory of its pipeline -/
namespace Avf
open Go

theorem runDemux_prefix {s s' : Demuxer} {l1 l2 : List (Oracle × DemuxOp)} (h : runDemux s (l1 ++ l2) = ok s') :
    ∃ s1, runDemux s l1 = ok s1 ∧ runDemux s1 l2 = ok s' := by
  induction l1 generalizing s with
  | nil => exact ⟨s, rfl, h⟩
  | cons x l1 ih =>
    obtain ⟨o, e⟩ := x
    obtain ⟨s2, h1, h⟩ := bind_eq_ok.1 h
    obtain ⟨s1, h2, h3⟩ := ih h
    exact ⟨s1, by show (e.run o s >>= _) = _; rw [h1]; exact h2, h3⟩

/-- **C64**, all histories: with `AutoFree` no discard ever meets an empty buffer; what a buffer holds are the blocks of the
packets taken from it, in their order, without the oldest ones, as many as were delivered. -/
theorem C64_blocks {name : String} {h : List (Oracle × DemuxOp)} {s : Demuxer} (hr : Reached name true h s) (hd : KeepsData h) :
    ∃ P, runPiped false (Demuxer.new name true) (fun _ => []) h = ok (s, P) ∧
      ∀ b, P b = ((ofBuffer b (taken s.calls)).map AVPacket.data).drop (ofBuffer b (delivered s.calls)).length := by
  refine ⟨s.heldBlocks, ?_, fun b => rfl⟩
  refine Demuxer.runPiped_eq hr.1 hd (Demuxer.Inv.new name true) ⟨rfl, trivial⟩ hr.2 ?_
  intro l1 l2 s1 hl h1
  refine ⟨fun b => ?_, fun hs => by cases hs⟩
  have := (Demuxer.Reached.conserved (name := name) (a := true) (l := l1) ⟨fun x hx => hr.1 x (by rw [hl]; exact List.mem_append_left _ hx), h1⟩).length b
  omega

/-- **C64**, all histories: a buffer holds as many blocks as packets of it are queued. -/
theorem C64_count {name : String} {h : List (Oracle × DemuxOp)} {s : Demuxer} (hr : Reached name true h s) (hd : KeepsData h) :
    ∃ P, runPiped false (Demuxer.new name true) (fun _ => []) h = ok (s, P) ∧
      ∀ b, (P b).length = (ofBuffer b s.packets.flatten).length := by
  obtain ⟨P, h1, h2⟩ := C64_blocks hr hd
  refine ⟨P, h1, fun b => ?_⟩
  rw [h2, List.length_drop, List.length_map]
  have := (Demuxer.Reached.conserved hr).length b
  omega

/-- **C64**, all histories: with `AutoFree` the packets delivered are freed, each once, and for each of them one block is
discarded, from the buffer that the packet came from. -/
theorem C64_freed {name : String} {h : List (Oracle × DemuxOp)} {s : Demuxer} (hr : Reached name true h s) :
    freed s.calls = delivered s.calls ∧ releases s.calls = (delivered s.calls).map AVPacket.bufferIndex := by
  have hf : Demuxer.Frees s := (show Demuxer.Frees (Demuxer.new name true) from ⟨rfl, trivial⟩).micros (Demuxer.Reached.micros hr)
  exact hf.2.freed

/-- **C64**, all histories: without `AutoFree` nothing is freed or discarded from a head. -/
theorem C64_manual {name : String} {h : List (Oracle × DemuxOp)} {s : Demuxer} (hr : Reached name false h s) :
    freed s.calls = [] ∧ releases s.calls = [] := by
  have hm : Demuxer.Manual s := Demuxer.Reached.induct hr ⟨rfl, fun c hc => by cases hc⟩ fun _ _ _ h m => h.micro m
  unfold freed releases
  constructor <;> rw [List.filterMap_eq_nil_iff]
  all_goals intro c hc; have := hm.2 c hc; cases c <;> simp_all

/-- **C64** in full: every delivered packet is the oldest block of its buffer, and the blocks held are those of the packets
queued. -/
def C64_claim : Prop :=
  ∀ name h s, Reached name true h s → KeepsData h →
    ∃ P, runPiped true (Demuxer.new name true) (fun _ => []) h = ok (s, P) ∧
      ∀ b, P b = (ofBuffer b s.packets.flatten).map AVPacket.data

/-- For packet input a buffer has the packets of one track, or none. -/
theorem buffer_track {name : String} {a : Bool} {h : List (Oracle × DemuxOp)} {s : Demuxer} (hr : Reached name a h s)
    (hp : ∀ x ∈ h, x.2.PacketOnly) (b : Int) :
    (∃ k : Nat, ofBuffer b (taken s.calls) = ofTrack k (taken s.calls) ∧ ofBuffer b (delivered s.calls) = ofTrack k (delivered s.calls) ∧
      ofBuffer b s.packets.flatten = s.packets.getD k []) ∨
    ofBuffer b (taken s.calls) = [] ∧ ofBuffer b (delivered s.calls) = [] ∧ ofBuffer b s.packets.flatten = [] := by
  have hi := Demuxer.Reached.inv hr
  have hcons := Demuxer.Reached.conserved hr
  have hkn := Demuxer.Reached.takenKnown hr
  have hq := Demuxer.Reached.queues hr (C62_packet_input hr hp)
  have hn := Demuxer.runDemux_injective (s := Demuxer.new name a) (Demuxer.Inv.new name a) hr.1 hp hr.2 List.nodup_nil
  have hmem : ∀ p ∈ delivered s.calls ++ s.packets.flatten, ∃ q ∈ taken s.calls, bare q = bare p := by
    intro p hp
    have := hcons.subset (List.mem_map_of_mem (f := bare) hp)
    exact List.mem_map.1 this
  have hk2 : ∀ p ∈ delivered s.calls ++ s.packets.flatten, Demuxer.Known s p := by
    intro p hp
    obtain ⟨q, hq1, hq2⟩ := hmem p hp
    have h1 := hkn q hq1
    unfold Demuxer.Known at h1 ⊢
    have e1 : (bare q).index = (bare p).index := congrArg AVPacket.index hq2
    have e2 : (bare q).bufferIndex = (bare p).bufferIndex := congrArg AVPacket.bufferIndex hq2
    rw [show p.index = q.index from e1.symm, show p.bufferIndex = q.bufferIndex from e2.symm]; exact h1
  by_cases hb : b ∈ s.bufferOf.map Prod.snd
  · left
    obtain ⟨⟨i, b'⟩, hib, rfl⟩ := List.mem_map.1 hb
    dsimp only
    obtain ⟨k, rfl⟩ : ∃ k : Nat, i = (k : Int) := ⟨i.toNat, by have := hi.keyRange hib; omega⟩
    have hiff : ∀ p, Demuxer.Known s p → (p.bufferIndex = b' ↔ p.index = (k : Int)) := by
      intro p hk
      have hm := Demuxer.lookup_mem hk
      constructor
      · intro e
        have := List.inj_on_of_nodup_map hn hm hib e
        exact congrArg Prod.fst this
      · intro e
        have h2 := Demuxer.lookup_of_mem hi.nodup hib
        unfold Demuxer.Known at hk
        rw [e, h2] at hk
        exact (Option.some.inj hk).symm
    have hset : ∀ l : List AVPacket, (∀ p ∈ l, Demuxer.Known s p) → ofBuffer b' l = ofTrack k l := by
      intro l hl
      unfold ofBuffer ofTrack
      exact List.filter_congr fun p hp => by simp only [decide_eq_decide]; exact hiff p (hl p hp)
    have hqueue : ∀ (j : Nat) q, s.packets[j]? = some q → ∀ p ∈ q, p.index = (j : Int) := by
      intro j q hj p hpq
      have hg : s.packets.getD j [] = q := by rw [List.getD_eq_getElem?_getD, hj]; rfl
      by_cases hc : s.completed = true
      · obtain ⟨_, _, _, _, _, _, _, h5⟩ := hq.done hc
        rw [← hg, h5 j, Option.mem_toList] at hpq
        exact (mem_ofTrack.1 (List.mem_of_getLast? hpq)).2
      · rw [← hg, (hq.probing (by simpa using hc)).2 j] at hpq
        obtain ⟨y, hy, e⟩ := mem_queueOf hpq
        rw [e]; exact (mem_ofTrack.1 hy).2
    refine ⟨k, hset _ hkn, hset _ (fun p hp => hk2 p (List.mem_append_left _ hp)), ?_⟩
    rw [hset _ (fun p hp => hk2 p (List.mem_append_right _ hp)), ofTrack_flatten hqueue]
  · right
    have h0 : ofBuffer b (taken s.calls) = [] := by
      unfold ofBuffer
      rw [List.filter_eq_nil_iff]
      intro p hp
      simp only [decide_eq_true_eq]
      rintro rfl
      exact hb (List.mem_map.2 ⟨_, Demuxer.lookup_mem (hkn p hp), rfl⟩)
    have := hcons.length b
    rw [h0, List.length_nil] at this
    exact ⟨h0, List.length_eq_zero_iff.1 (by omega : (ofBuffer b (delivered s.calls)).length = 0),
      List.length_eq_zero_iff.1 (by omega : (ofBuffer b s.packets.flatten).length = 0)⟩

theorem bare_parts (l : List AVPacket) : l.map bare = (timed l).map bare ++ l.getLast?.toList.map bare := by
  rw [timed_map_bare]
  rcases List.eq_nil_or_concat l with rfl | ⟨q, x, rfl⟩ <;> simp

/-- For packet input: the packets of a buffer that are queued are the ones taken last, in their order. -/
theorem queue_suffix {name : String} {a : Bool} {h : List (Oracle × DemuxOp)} {s : Demuxer} (hr : Reached name a h s)
    (hp : ∀ x ∈ h, x.2.PacketOnly) (b : Int) :
    (ofBuffer b s.packets.flatten).map bare =
      ((ofBuffer b (taken s.calls)).map bare).drop (ofBuffer b (delivered s.calls)).length := by
  have hq := Demuxer.Reached.queues hr (C62_packet_input hr hp)
  have hlen := (Demuxer.Reached.conserved hr).length b
  rcases buffer_track hr hp b with ⟨k, h1, h2, h3⟩ | ⟨h1, h2, h3⟩
  · by_cases hc : s.completed = true
    · obtain ⟨_, _, _, _, _, _, _, h5⟩ := hq.done hc
      rw [h3, h5 k] at hlen ⊢
      rw [h1] at hlen ⊢
      rw [← List.map_drop]
      congr 1
      rcases List.eq_nil_or_concat (ofTrack k (taken s.calls)) with h0 | ⟨q, x, h0⟩
      · rw [h0]; simp
      · rw [h0] at hlen ⊢
        simp only [List.concat_eq_append, List.getLast?_append, List.getLast?_singleton, Option.some_or, Option.toList_some,
          List.length_append, List.length_cons, List.length_nil] at hlen ⊢
        rw [show (ofBuffer b (delivered s.calls)).length = q.length by omega, List.drop_left]
    · obtain ⟨h4, h5⟩ := hq.probing (by simpa using hc)
      rw [h3, h5 k, h4, h1]
      unfold queueOf
      rw [List.map_append, ← bare_parts]
      rfl
  · rw [h1, h2, h3]; rfl

/-- For packet input with strictly increasing DTS per track: what was taken from a buffer is what was delivered from it and then
what is queued. -/
theorem taken_split {name : String} {a : Bool} {h : List (Oracle × DemuxOp)} {s : Demuxer} (hr : Reached name a h s)
    (hp : ∀ x ∈ h, x.2.PacketOnly) (hdts : ∀ i, (ofTrack i (taken s.calls)).Pairwise fun a b => a.dts < b.dts) (b : Int) :
    (ofBuffer b (taken s.calls)).map AVPacket.data =
      (ofBuffer b (delivered s.calls)).map AVPacket.data ++ (ofBuffer b s.packets.flatten).map AVPacket.data := by
  have hq := Demuxer.Reached.queues hr (C62_packet_input hr hp)
  rcases buffer_track hr hp b with ⟨k, h1, h2, h3⟩ | ⟨h1, h2, h3⟩
  · have hparts : ∀ l : List AVPacket, l.map AVPacket.data = (timed l).map AVPacket.data ++ l.getLast?.toList.map AVPacket.data := by
      intro l
      have := congrArg (List.map AVPacket.data) (bare_parts l)
      rw [List.map_append, List.map_map, List.map_map, List.map_map] at this
      exact this
    rw [h1, h2, h3]
    by_cases hc : s.completed = true
    · obtain ⟨_, _, _, _, _, _, _, h5⟩ := hq.done hc
      rw [C63_input_order hr hp hc k (hdts k), h5 k]
      exact hparts _
    · obtain ⟨h4, h5⟩ := hq.probing (by simpa using hc)
      rw [h4, h5 k]
      unfold queueOf
      rw [List.map_append]
      exact hparts _
  · rw [h1, h2, h3]; rfl

/-- **C64** for packet input, any DTS: after every operation a buffer holds exactly the blocks of the packets of it that are
queued, in the order of the queue. -/
theorem C64_queued_blocks {name : String} {h : List (Oracle × DemuxOp)} {s : Demuxer} (hr : Reached name true h s)
    (hp : ∀ x ∈ h, x.2.PacketOnly) (hd : KeepsData h) :
    ∃ P, runPiped false (Demuxer.new name true) (fun _ => []) h = ok (s, P) ∧
      ∀ b, P b = (ofBuffer b s.packets.flatten).map AVPacket.data := by
  obtain ⟨P, h1, h2⟩ := C64_blocks hr hd
  refine ⟨P, h1, fun b => ?_⟩
  have := congrArg (List.map AVPacket.data) (queue_suffix hr hp b)
  rw [← List.map_drop, List.map_map, List.map_map] at this
  rw [h2, ← List.map_drop]
  exact this.symm

/-- **C64** for packet input with strictly increasing DTS per track. What is missing: other DTS, for which it is false
(`C64_claim_violated`). -/
theorem C64_own_block_partial {name : String} {h : List (Oracle × DemuxOp)} {s : Demuxer} (hr : Reached name true h s)
    (hp : ∀ x ∈ h, x.2.PacketOnly) (hd : KeepsData h)
    (hdts : ∀ i, (ofTrack i (taken s.calls)).Pairwise fun a b => a.dts < b.dts) :
    ∃ P, runPiped true (Demuxer.new name true) (fun _ => []) h = ok (s, P) ∧
      ∀ b, P b = (ofBuffer b s.packets.flatten).map AVPacket.data := by
  refine ⟨s.heldBlocks, ?_, fun b => ?_⟩
  · refine Demuxer.runPiped_eq hr.1 hd (Demuxer.Inv.new name true) ⟨rfl, trivial⟩ hr.2 ?_
    intro l1 l2 s1 hl h1
    have hr1 : Reached name true l1 s1 := ⟨fun x hx => hr.1 x (by rw [hl]; exact List.mem_append_left _ hx), h1⟩
    obtain ⟨s1', h1', h2⟩ := runDemux_prefix (l1 := l1) (l2 := l2) (by rw [← hl]; exact hr.2)
    rw [h1] at h1'
    cases h1'
    have hm := Demuxer.Micros.grows (Demuxer.runDemux_micros (Demuxer.Reached.inv hr1)
      (fun x hx => hr.1 x (by rw [hl]; exact List.mem_append_right _ hx)) h2)
    obtain ⟨cs, hcs⟩ := hm
    refine ⟨fun b => ?_, fun _ b => ?_⟩
    · have := (Demuxer.Reached.conserved hr1).length b; omega
    · rw [taken_split hr1 (fun x hx => hp x (by rw [hl]; exact List.mem_append_left _ hx)) ?_ b]
      · exact List.prefix_append ..
      · intro i
        have := hdts i
        rw [← hcs, Demuxer.taken_append, ofTrack_append] at this
        exact (List.pairwise_append.1 this).1
  · unfold Demuxer.heldBlocks
    rw [taken_split hr hp hdts b]
    have := List.length_map (as := ofBuffer b (delivered s.calls)) AVPacket.data
    rw [← this, List.drop_left]

/-- Three packets of one track with decreasing DTS. -/
def backwardRun : List (Oracle × DemuxOp) :=
  [(exOracle, .audioPacket 0 codecPCMS16LE [1] 90), (exOracle, .audioPacket 0 codecPCMS16LE [2] 30),
   (exOracle, .audioPacket 0 codecPCMS16LE [3] 60), (exOracle, .probeComplete)]

/-- **C64** is false of the code if DTS are not increasing: the packet delivered first is the second block, but the first block is
discarded. -/
theorem C64_claim_violated : ¬ C64_claim := by
  intro hc
  have h1 : (runDemux (Demuxer.new "ps" true) backwardRun >>= fun s => ok s.completed) = ok true := by decide +kernel
  obtain ⟨s, h1, _⟩ := bind_eq_ok.1 h1
  have hv : ∀ x ∈ backwardRun, x.1 = exOracle := by simp [backwardRun]
  obtain ⟨P, h2, _⟩ := hc "ps" backwardRun s ⟨fun x hx => by rw [hv x hx]; exact exOracle_valid, h1⟩
    (fun x hx p => by rw [hv x hx]; rfl)
  have h3 : (runPiped true (Demuxer.new "ps" true) (fun _ => []) backwardRun >>= fun x => ok x.1.completed) = Go.panic := by decide +kernel
  rw [h2] at h3
  cases h3

/-- The discarded block is not the one of the packet. -/
example : (runPiped false (Demuxer.new "ps" true) (fun _ => []) backwardRun >>= fun x => ok (x.2 0, (x.1.packets.map fun q => q.map AVPacket.data))) =
    ok ([[3]], [[[3]]]) := by decide +kernel

/-- With a rejected packet and extra data on the way. -/
example : (runPiped true (Demuxer.new "ps" true) (fun _ => []) demoRun >>= fun x => ok (x.2 3, x.2 8, x.2 9)) = ok ([[9]], [[3]], []) := by
  decide +kernel

end Avf
