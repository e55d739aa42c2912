import Verif.Lemmas.DemuxerOrderly
import Verif.Props.DemuxerSettled
/-!
# C64, C78: announced tracks

`C64_queued_blocks`, `C64_own_block_partial` and `C78_delivered_bytes` are for packet input. Here tracks may be announced, in every
history that is orderly and has no two tracks with the same buffer.
-/
namespace Avf
open Go

/-- **C64**, any DTS: after every operation a buffer holds exactly the blocks of the packets of it that are queued, in the order of the
queue. -/
theorem C64_queued_orderly {name : String} {h : List (Oracle × DemuxOp)} {s : Demuxer} (hr : Reached name true h s)
    (ho : Orderly s) (hn : (s.bufferOf.map Prod.snd).Nodup) (hd : KeepsData h) :
    ∃ P, runPiped false (Demuxer.new name true) (fun _ => []) h = ok (s, P) ∧
      ∀ b, P b = (ofBuffer b s.packets.flatten).map AVPacket.data := by
  obtain ⟨P, h1, h2⟩ := C64_blocks hr hd
  refine ⟨P, h1, fun b => ?_⟩
  have := congrArg (List.map AVPacket.data) (orderly_waiting (l2 := []) hr (by simpa using hr) ho hn b)
  rw [← List.map_drop, List.map_map, List.map_map] at this
  rw [h2, ← List.map_drop]
  exact this.symm

/-- What was taken from a buffer is what was delivered from it and then what is queued, if DTS increase. -/
theorem orderly_split {name : String} {a : Bool} {l1 l2 : List (Oracle × DemuxOp)} {s1 s : Demuxer} (hr1 : Reached name a l1 s1)
    (hr : Reached name a (l1 ++ l2) s) (ho : Orderly s) (hn : (s.bufferOf.map Prod.snd).Nodup)
    (hdts : ∀ i, (ofTrack i (taken s.calls)).Pairwise fun a b => a.dts < b.dts) (b : Int) :
    (ofBuffer b (taken s1.calls)).map AVPacket.data =
      (ofBuffer b (delivered s1.calls)).map AVPacket.data ++ (ofBuffer b s1.packets.flatten).map AVPacket.data := by
  obtain ⟨s1', h1, h2⟩ := runDemux_prefix hr.2
  rw [hr1.2] at h1
  cases h1
  have hv : ∀ x ∈ l2, x.1.Valid := fun x hx => hr.1 x (List.mem_append_right _ hx)
  have hn1 : (s1.bufferOf.map Prod.snd).Nodup := by
    obtain ⟨r, e⟩ := runDemux_bufferOf (Demuxer.Reached.inv hr1) hv h2
    rw [← e, List.map_append] at hn
    exact (List.nodup_append.1 hn).1
  obtain ⟨cs, hcs⟩ := Demuxer.Micros.grows (Demuxer.runDemux_micros (Demuxer.Reached.inv hr1) hv h2)
  have hw := orderly_waiting hr1 hr ho hn b
  suffices hbare : (ofBuffer b (taken s1.calls)).map bare = (ofBuffer b (delivered s1.calls)).map bare ++ (ofBuffer b s1.packets.flatten).map bare by
    have := congrArg (List.map AVPacket.data) hbare
    rw [List.map_append, List.map_map, List.map_map, List.map_map] at this
    exact this
  rcases orderly_before hr1 hr ho with ho1 | ⟨hc, _⟩
  · cases hc : s1.completed with
    | false => rw [(C62_exact_probing hr1 hc).1] at hw ⊢; exact hw.symm
    | true =>
      rcases buffer_lane hr1 hn1 b with ⟨k, e1, e2, e3⟩ | ⟨e1, e2, e3⟩
      · have hd1 : (ofTrack k (taken s1.calls)).Pairwise fun a b => a.dts < b.dts := by
          have := hdts k
          rw [← hcs, Demuxer.taken_append, ofTrack_append] at this
          exact (List.pairwise_append.1 this).1
        have := (C63_orderly hr1 hc ho1 k hd1).1
        rw [e1, ← this, e2, e3, List.map_append]
        congr 1
        have hs := orderly_settled hr1 hc ho1
        obtain ⟨_, _, _, _, _, _, h5⟩ := C62_exact hr1 hc
        have h6 := settled_lasts k (lanes (taken s1.calls)) 0 hs
        rw [if_pos (Nat.zero_le _), Nat.sub_zero] at h6
        rw [show s1.packets.flatten = (lanes (taken s1.calls)).flatMap laneLast by rw [h5]; rfl, h6, h5]
        congr 1
        unfold laneLast
        rw [List.getD_eq_getElem?_getD, List.getD_eq_getElem?_getD, List.getElem?_map]
        cases (lanes (taken s1.calls))[k]? <;> rfl
      · rw [e1, e2, e3]; rfl
  · rw [(C62_exact_probing hr1 hc).1] at hw ⊢; exact hw.symm

/-- **C64** with strictly increasing DTS per track: every delivered packet is the oldest block of its buffer. What is missing: other DTS,
for which it is false (`C64_claim_violated`), and other histories, for which it is false as well (`C64_orderly_needed`). -/
theorem C64_own_orderly_partial {name : String} {h : List (Oracle × DemuxOp)} {s : Demuxer} (hr : Reached name true h s)
    (ho : Orderly s) (hn : (s.bufferOf.map Prod.snd).Nodup) (hd : KeepsData h)
    (hdts : ∀ i, (ofTrack i (taken s.calls)).Pairwise fun a b => a.dts < b.dts) :
    ∃ P, runPiped true (Demuxer.new name true) (fun _ => []) h = ok (s, P) ∧
      ∀ b, P b = (ofBuffer b s.packets.flatten).map AVPacket.data := by
  refine ⟨s.heldBlocks, ?_, fun b => ?_⟩
  · refine Demuxer.runPiped_eq hr.1 hd (Demuxer.Inv.new name true) ⟨rfl, trivial⟩ hr.2 ?_
    intro l1 l2 s1 hl h1
    subst hl
    have hr1 : Reached name true l1 s1 := ⟨fun x hx => hr.1 x (List.mem_append_left _ hx), h1⟩
    refine ⟨fun b => ?_, fun _ b => ?_⟩
    · have := (Demuxer.Reached.conserved hr1).length b; omega
    · rw [orderly_split hr1 hr ho hn hdts b]
      exact List.prefix_append ..
  · unfold Demuxer.heldBlocks
    rw [orderly_split (l2 := []) hr (by simpa using hr) ho hn hdts b]
    have := List.length_map (as := ofBuffer b (delivered s.calls)) AVPacket.data
    rw [← this, List.drop_left]

/-- **C64** is false of the code in a history that is not orderly, with increasing DTS: sound is announced first and comes late. The
blocks held are then not those of the packets that wait. -/
theorem C64_orderly_needed :
    (runDemux (Demuxer.new "ts" true) ((pairRun.eraseIdx 4).eraseIdx 4) >>= fun s => ok ((taken s.calls).map fun p => (p.index, p.dts))) =
      ok [(1, 0), (1, 20), (1, 40), (0, 80)] ∧
    (runPiped true (Demuxer.new "ts" true) (fun _ => []) ((pairRun.eraseIdx 4).eraseIdx 4) >>= fun x => ok x.1.completed) = Go.panic ∧
    (runPiped false (Demuxer.new "ts" true) (fun _ => []) (((pairRun.eraseIdx 4).eraseIdx 4).take 6) >>= fun x =>
      ok (x.2 1, x.1.packets.map fun q => q.map AVPacket.data)) = ok ([[2], [5]], [[[1]], [[5]]]) := by
  decide +kernel

/-- **C78** in every orderly history: under light load, any oracle that keeps the data, any DTS, any cutting of the payloads into pieces and
any memory to begin with, the demuxer on a `StreamsBuffer` does what the demuxer does on slices that never change, no call
panics, the handler finds behind every delivered packet the bytes of that packet, and the slices of the packets that wait are
intact. Blocks of extra data are taken back without harm to the others. -/
theorem C78_orderly {name : String} {h : List (Oracle × DemuxOp × List Bytes)} {s : Demuxer} {M : Nat → Nat} (m : Mem)
    (hr : Reached name true (operations h) s) (ho : Orderly s) (hn : (s.bufferOf.map Prod.snd).Nodup) (hd : KeepsData (operations h))
    (hin : InPieces h) (hl : LightInput M [] (Demuxer.new name true) (operations h)) :
    ∃ w, ({ dem := Demuxer.new name true, mem := m } : Wired).run h = ok w ∧ w.dem = s ∧
      w.got = (delivered s.calls).map (fun p => some p.data) ∧
      (∀ b, (w.refs.filter fun x => x.1.bufferIndex = b).map (fun x => w.mem.read x.2) = (ofBuffer b s.packets.flatten).map AVPacket.data) ∧
      w.buf.buffers.map (·.data.len) = bufferSizes [] (operations h) :=
  wired_all m hr (fun l1 l2 s1 e hr1 => orderly_waiting (l2 := l2) hr1 (by rw [← e]; exact hr) ho hn) hd hin hl

end Avf
