import Verif.Lemmas.DemuxerLoad
import Verif.Props.DemuxerMemory
/-!
# C105: the memory of a demuxer with its pipeline

How much the caller may write so that the buffers keep the size that they were made with and every packet is delivered as written.
-/
namespace Avf
open Go

/-- **C105** in every orderly history: if the input is modest, the buffers keep the sizes that they were made with; no call panics; and the
handler finds behind every delivered packet the bytes of that packet. -/
theorem C105_modest {name : String} {h : List (Oracle × DemuxOp × List Bytes)} {s : Demuxer} {M : Nat → Nat} (m : Mem)
    (hr : Reached name true (operations h) s) (ho : Orderly s) (hn : (s.bufferOf.map Prod.snd).Nodup) (hd : KeepsData (operations h))
    (hin : InPieces h) (hm : ModestInput M name (operations h)) :
    ∃ w, ({ dem := Demuxer.new name true, mem := m } : Wired).run h = ok w ∧ w.dem = s ∧
      w.got = (delivered s.calls).map (fun p => some p.data) ∧
      w.buf.buffers.map (·.data.len) = bufferSizes [] (operations h) := by
  obtain ⟨w, h1, h2, h3, _, h4⟩ := C78_orderly m hr ho hn hd hin
    (modest_light hr ho hn hd hm)
  exact ⟨w, h1, h2, h3, h4⟩

/-- **C105** for packet input. -/
theorem C105_packet_input {name : String} {h : List (Oracle × DemuxOp × List Bytes)} {s : Demuxer} {M : Nat → Nat} (m : Mem)
    (hr : Reached name true (operations h) s) (hp : ∀ x ∈ operations h, x.2.PacketOnly) (hd : KeepsData (operations h))
    (hin : InPieces h) (hm : ModestInput M name (operations h)) :
    ∃ w, ({ dem := Demuxer.new name true, mem := m } : Wired).run h = ok w ∧ w.dem = s ∧
      w.got = (delivered s.calls).map (fun p => some p.data) ∧
      w.buf.buffers.map (·.data.len) = bufferSizes [] (operations h) :=
  C105_modest m hr (Or.inl (C62_packet_input hr hp))
    (Demuxer.runDemux_injective (s := Demuxer.new name true) (Demuxer.Inv.new name true) hr.1 hp hr.2 List.nodup_nil) hd hin hm

/-- **C105**: after probing at most one packet of a buffer waits, and while probing not more than what was written. -/
theorem C105_queued {name : String} {h : List (Oracle × DemuxOp)} {s : Demuxer} (hr : Reached name true h s) (ho : Orderly s)
    (hn : (s.bufferOf.map Prod.snd).Nodup) (hd : KeepsData h) (b : Int) :
    queuedBytes b s ≤ inputBytes b h ∧ (s.completed = true → (ofBuffer b s.packets.flatten).length ≤ 1) :=
  ⟨(queued_le_input hr hd (orderly_waiting (l2 := []) hr (by simpa using hr) ho hn) b).1,
    fun hc => one_waits (l2 := []) hr (by simpa using hr) ho hn hc b⟩

/-! ## A concrete case -/

theorem payloads_append (x y : List (Oracle × DemuxOp)) : payloads (x ++ y) = payloads x ++ payloads y := List.filterMap_append ..

/-- `wiredRun` is modest. -/
theorem wiredRun_modest : ModestInput (fun _ => 40) "ts" (operations wiredRun) := by
  have hz : bufferSizes [] (operations wiredRun) = [2097152, 576000, 576000] := by decide +kernel
  have hi : ∀ (i : Nat) d, ((i : Int), d) ∈ payloads (operations wiredRun) → d.length ≤ 40 ∧ i < 3 := by
    have : ∀ x ∈ payloads (operations wiredRun), x.2.length ≤ 40 ∧ x.1 < 3 := by decide +kernel
    intro i d h
    have := this _ h
    dsimp only at this
    omega
  have hlen : ∀ i : Nat, i < 3 → 576000 ≤ (bufferSizes [] (operations wiredRun)).getD i 0 := by
    rw [hz]; decide
  have htotal : ((payloads (operations wiredRun)).map fun x => x.2.length).sum ≤ 100 := by decide +kernel
  refine ⟨by simp [payloads, operations, wiredRun, DemuxOp.block, UsedInOrder], ?_, ?_⟩
  · intro i d h
    obtain ⟨h1, h2⟩ := hi i d h
    have := hlen i h2
    exact ⟨h1, by omega⟩
  · intro l1 x l2 s1 e _ _ i d hk
    have hm : ((i : Int), d) ∈ payloads (operations wiredRun) := List.mem_filterMap.2 ⟨x, by rw [e]; simp, hk⟩
    have := hlen i (hi i d hm).2
    have h1 : inputBytes i (l1 ++ [x]) ≤ 100 := by
      refine Nat.le_trans ?_ htotal
      unfold inputBytes
      refine sum_sublist (fun x : Int × Bytes => x.2.length) (List.filter_sublist.trans ?_)
      rw [show operations wiredRun = (l1 ++ [x]) ++ l2 by rw [e]; simp, payloads_append (l1 ++ [x]) l2]
      exact List.sublist_append_left _ _
    omega

/-- The buffers of `wiredRun` keep 2 MiB and 576000 bytes. -/
example (m : Mem) : ∃ w, ({ dem := Demuxer.new "ts" true, mem := m } : Wired).run wiredRun = ok w ∧
    w.got = [some [3, 4, 5], some (annexB exUnits), some [7]] ∧ w.buf.buffers.map (·.data.len) = [2097152, 576000, 576000] := by
  obtain ⟨s, hr, hd, _⟩ := wiredRun_exists
  obtain ⟨w, h1, _, h2, h3⟩ := C105_packet_input m hr (by simp [operations, wiredRun, DemuxOp.PacketOnly])
    (by intro x hx p; have : x.1 = exOracle := by { revert x; simp [operations, wiredRun] }
        rw [this]; rfl)
    (by intro x hx b d hk
        simp only [wiredRun, List.mem_cons, List.not_mem_nil, or_false] at hx
        rcases hx with rfl | rfl | rfl | rfl | rfl | rfl | rfl <;> simp [DemuxOp.block] at hk ⊢ <;> simp [← hk.2])
    wiredRun_modest
  refine ⟨w, h1, ?_, by rw [h3]; decide +kernel⟩
  have := congrArg (List.map some) hd
  rw [List.map_map] at this
  rw [h2]; exact this

/-! ## The condition on probing is needed -/

/-- A bound on the payloads is enough to bound what is queued. -/
def PayloadsBoundQueue : Prop :=
  ∃ F : Nat → Nat, ∀ (M : Nat) (name : String) (h : List (Oracle × DemuxOp)) (s : Demuxer), Reached name true h s → (∀ x ∈ h, x.2.PacketOnly) →
    (∀ x ∈ payloads h, x.2.length ≤ M) → ∀ b, queuedBytes b s ≤ F M

/-- A packet whose time stands still. -/
def stillOp : Oracle × DemuxOp := (exOracle, .audioPacket 0 codecPCMS16LE [1] 0)

def stillPacket : AVPacket :=
  { data := [1], pts := 0, dts := 0, codecID := codecPCMS16LE, index := 0, timebase := 90000, mediaType := mediaAudio, bufferIndex := 0 }

/-- After `n + 1` of them. -/
structure Still (n : Nat) (s : Demuxer) : Prop where
  track : ∃ t, s.tracks.tracks = [t] ∧ t.index = 0 ∧ t.timebase = 90000
  buffer : s.bufferOf = [(0, 0)]
  packets : s.packets = [List.replicate (n + 1) stillPacket]
  completed : s.completed = false
  duration : s.probeDuration = 0

theorem probed_still (n : Nat) : Demuxer.probed 0 (List.replicate n stillPacket) = 0 := by
  unfold Demuxer.probed
  induction n with
  | zero => rfl
  | succ n ih =>
    rw [List.replicate_succ, List.foldl_cons]
    have : wrap64 (0 + stillPacket.getDuration 0 1000) = 0 := by decide +kernel
    rw [this]; exact ih

theorem still_step {n : Nat} {s : Demuxer} (h : Still n s) : ∃ s', stillOp.2.run stillOp.1 s = ok s' ∧ Still (n + 1) s' := by
  obtain ⟨⟨t, ht, hti, htb⟩, hb, hp, hc, hd⟩ := h
  have hf : s.findTrackByBufferIndex exOracle 0 = ok (some t) := by
    unfold Demuxer.findTrackByBufferIndex
    rw [show exOracle.order s.bufferOf = [(0, 0)] from hb]
    simp [TrackManager.get, ht, idxI, idx]
  have hpk : ({ data := [1], pts := 0, dts := 0, codecID := codecPCMS16LE, index := t.index, timebase := t.timebase, mediaType := mediaAudio, packetType := exOracle.audioType, bufferIndex := 0 } : AVPacket) = stillPacket := by
    rw [hti, htb]; rfl
  refine ⟨{ s with calls := s.calls ++ [.accepted stillPacket], packets := [List.replicate (n + 2) stillPacket] }, ?_,
    ⟨t, ht, hti, htb⟩, hb, rfl, hc, hd⟩
  show s.onAudioPacket exOracle 0 codecPCMS16LE [1] 0 = _
  unfold Demuxer.onAudioPacket
  rw [hf, ok_bind, if_neg (by simp)]
  simp only [ok_bind]
  rw [hpk]
  unfold Demuxer.processBufferedPacket
  have hlt : stillPacket.index < ((s.call [.accepted stillPacket]).packets.length : Int) := by
    show (0 : Int) < (s.packets.length : Int)
    rw [hp]; simp
  rw [if_pos hlt]
  unfold Demuxer.enqueue
  have hi : idxI (s.call [.accepted stillPacket]).packets stillPacket.index = ok (List.replicate (n + 1) stillPacket) := by
    show idxI s.packets 0 = _
    rw [hp]; rfl
  rw [hi, ok_bind]
  have hq : List.replicate (n + 1) stillPacket ++ [stillPacket] = List.replicate (n + 2) stillPacket := by
    rw [← List.replicate_succ']
  have hprev : (((List.replicate (n + 2) stillPacket).length : Int) - 2) = n := by simp
  simp only [hq, hprev]
  have hpp : idxI (List.replicate (n + 2) stillPacket) (n : Int) = ok stillPacket := by
    unfold idxI
    rw [if_neg (by omega), idx_eq_ok, Int.toNat_natCast, List.getElem?_replicate, if_pos (by omega)]
  rw [if_neg (by omega), hpp, ok_bind]
  have hset : (List.replicate (n + 2) stillPacket).set (n : Int).toNat { stillPacket with duration := wrap64 (stillPacket.dts - stillPacket.dts) } =
      List.replicate (n + 2) stillPacket := by
    have : ({ stillPacket with duration := wrap64 (stillPacket.dts - stillPacket.dts) } : AVPacket) = stillPacket := by
      have : wrap64 (stillPacket.dts - stillPacket.dts) = 0 := by decide +kernel
      rw [this]; rfl
    rw [this, List.set_replicate_self]
  rw [hset, if_neg (by show ¬ s.completed = true; rw [hc]; simp)]
  have htake : (List.replicate (n + 2) stillPacket).take ((n : Int) + 1).toNat = List.replicate (n + 1) stillPacket := by
    rw [List.take_replicate]; congr 1; omega
  rw [htake, show exOracle.undef = 0 from rfl, probed_still, if_neg]
  · rw [Go.pure_def]
    congr 1
    simp [Demuxer.call, hp, stillPacket]
  · show ¬ (0 : Int) ≥ max (max s.probeDuration 200) 0
    rw [hd]; decide

theorem still_first : ∃ s, stillOp.2.run stillOp.1 (Demuxer.new "ts" true) = ok s ∧ Still 0 s := by
  refine ⟨_, rfl, ⟨_, rfl, rfl, rfl⟩, rfl, rfl, rfl, rfl⟩

theorem still_run (n : Nat) : ∃ s, runDemux (Demuxer.new "ts" true) (List.replicate (n + 1) stillOp) = ok s ∧ Still n s := by
  have key : ∀ (n k : Nat) (s : Demuxer), Still k s → ∃ s', runDemux s (List.replicate n stillOp) = ok s' ∧ Still (k + n) s' := by
    intro n
    induction n with
    | zero => exact fun k s h => ⟨s, rfl, h⟩
    | succ n ih =>
      intro k s h
      obtain ⟨s1, h1, h2⟩ := still_step h
      obtain ⟨s2, h3, h4⟩ := ih (k + 1) s1 h2
      refine ⟨s2, ?_, by rw [show k + (n + 1) = k + 1 + n by omega]; exact h4⟩
      rw [List.replicate_succ]
      show (stillOp.2.run stillOp.1 s >>= _) = _
      rw [h1]; exact h3
  obtain ⟨s, h1, h2⟩ := still_first
  obtain ⟨s', h3, h4⟩ := key n 0 s h2
  refine ⟨s', ?_, by simpa using h4⟩
  rw [List.replicate_succ]
  show (stillOp.2.run stillOp.1 (Demuxer.new "ts" true) >>= _) = _
  rw [h1]; exact h3

/-- **C105**: it is not. If the time of the packets stands still, probing never ends, and everything is kept. -/
theorem C105_payloads_not_enough : ¬ PayloadsBoundQueue := by
  rintro ⟨F, hF⟩
  obtain ⟨s, h1, h2⟩ := still_run (F 1)
  have := hF 1 "ts" (List.replicate (F 1 + 1) stillOp) s
    ⟨fun x hx => by rw [(List.mem_replicate.1 hx).2]; exact exOracle_valid, h1⟩
    (fun x hx => by rw [(List.mem_replicate.1 hx).2]; trivial)
    (fun x hx => by
      obtain ⟨y, hy, e⟩ := List.mem_filterMap.1 hx
      rw [(List.mem_replicate.1 hy).2] at e
      cases e; simp) 0
  have hq : queuedBytes 0 s = F 1 + 1 := by
    unfold queuedBytes
    rw [h2.packets]
    simp [stillPacket]
  omega

end Avf
