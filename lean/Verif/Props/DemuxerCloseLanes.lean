import Verif.Props.DemuxerClose
import Verif.Props.DemuxerLanes
/-!
# C79, second part: packets for a closed demuxer, for every history

`C79_completed` is for packet input. With announced tracks what counts is whether the queue exists that the packet goes to.
-/
namespace Avf
open Go

/-- After probing a packet is given back, or taken and, if there is a queue for its track, delivers the packet in it. -/
theorem run_after_lanes {name : String} {a : Bool} {h : List (Oracle × DemuxOp)} {s : Demuxer} (hr : Reached name a h s)
    (hc : s.completed = true) {o : Oracle} (ho : o.Valid) {e : DemuxOp} (he : e.IsPacket) {b : Int} {d : Bytes}
    (hk : e.block = some (b, d)) :
    ∃ s' t, e.run o s = ok s' ∧ s.findTrackByBufferIndex o b = ok t ∧
      (toHandler s'.calls = toHandler s.calls ↔ ∀ u, t = some u → ¬ u.index < (lanes (taken s.calls)).length) := by
  have hi := Demuxer.Reached.inv hr
  obtain ⟨t0, e0, hk0⟩ := Demuxer.findTrack_known ho hi (b := b)
  obtain ⟨_, _, _, _, _, _, h5⟩ := C62_exact hr hc
  have hlen : s.packets.length = (lanes (taken s.calls)).length := by rw [h5, List.length_map]
  have live : ∀ p : AVPacket, Demuxer.Known s p →
      (toHandler (s.live p).calls = toHandler s.calls ↔ ¬ p.index < (lanes (taken s.calls)).length) := by
    intro p hkp
    obtain ⟨h0, _⟩ := hi.range hkp
    by_cases hlt : p.index < (lanes (taken s.calls)).length
    · have hlt' : p.index.toNat < (lanes (taken s.calls)).length := by omega
      have hne : (lanes (taken s.calls))[p.index.toNat] ≠ [] := lanes_nonempty _ (taken_nonneg hr) _ (List.getElem_mem hlt')
      have hx : s.packets[Demuxer.slot s.packets p]? = some [(lanes (taken s.calls))[p.index.toNat].getLast hne] := by
        unfold Demuxer.slot
        rw [hlen, if_pos hlt, h5, List.getElem?_map, List.getElem?_eq_getElem hlt', Option.map_some,
          List.getLast?_eq_getLast_of_ne_nil hne]
        rfl
      rw [Demuxer.live_calls hx, Demuxer.toHandler_append, Demuxer.toHandler_append, Demuxer.toHandler_fwd]
      refine ⟨fun e => ?_, fun e => absurd hlt e⟩
      have := congrArg List.length e
      simp at this
    · have hx : ¬ ∃ x, s.packets[Demuxer.slot s.packets p]? = some [x] := by
        rintro ⟨x, hx⟩
        unfold Demuxer.slot at hx
        rw [hlen, if_neg hlt, List.getElem?_eq_none (by omega)] at hx
        cases hx
      rw [Demuxer.live_calls' (by simpa using hx), Demuxer.toHandler_append]
      exact ⟨fun _ => hlt, fun _ => by show _ ++ [] = _; simp⟩
  have none : toHandler (s.call [.discardBack b]).calls = toHandler s.calls := by
    show toHandler (_ ++ _) = _
    rw [Demuxer.toHandler_append]; show _ ++ [] = _; simp
  cases e with
  | audioPacket b' id d' ts =>
    obtain ⟨rfl, rfl⟩ : b' = b ∧ d' = d := by simpa [DemuxOp.block] using hk
    simp only [DemuxOp.run, Demuxer.onAudioPacket]
    rw [e0, ok_bind, if_neg (by simp [hc]), ok_bind]
    cases t0 with
    | none => exact ⟨_, _, rfl, rfl, by simp [none]⟩
    | some u =>
      dsimp only
      have hku : Demuxer.Known s (Demuxer.audioPkt o b' id d' ts u) := hk0 u rfl
      refine ⟨_, _, Demuxer.process_live o hc hi hku, rfl, (live _ hku).trans ?_⟩
      exact ⟨fun h v hv => by cases hv; exact h, fun h => h u rfl⟩
  | videoPacket b' id d' k dts pts =>
    obtain ⟨rfl, rfl⟩ : b' = b ∧ d' = d := by simpa [DemuxOp.block] using hk
    simp only [DemuxOp.run, Demuxer.onVideoPacket]
    rw [e0, ok_bind, if_neg (by simp [hc]), ok_bind]
    cases t0 with
    | none => exact ⟨_, _, rfl, rfl, by simp [none]⟩
    | some u =>
      dsimp only
      have hku : Demuxer.Known s (o.preprocess (Demuxer.videoPkt s b' id d' k dts pts u)) := by
        unfold Demuxer.Known; rw [ho.index, ho.buffer]; exact hk0 u rfl
      refine ⟨_, _, Demuxer.process_live o hc hi hku, rfl, (live _ hku).trans ?_⟩
      rw [ho.index]
      exact ⟨fun h v hv => by cases hv; exact h, fun h => h u rfl⟩
  | _ => exact absurd he id

/-- **C79** closed after probing, every history: a packet makes it panic exactly if its buffer has a track and there is a queue with the
number of that track. -/
theorem C79_exact {name : String} {a : Bool} {h : List (Oracle × DemuxOp)} {l : Life} (hr : Reached name a h l.dem)
    (hh : l.handler = false) (hc : l.dem.completed = true) {o : Oracle} (ho : o.Valid) {e : DemuxOp}
    (he : e.IsPacket) {b : Int} {d : Bytes} (hk : e.block = some (b, d)) :
    ∃ t, l.dem.findTrackByBufferIndex (l.oracle o) b = ok t ∧
      if ∃ u, t = some u ∧ u.index < (lanes (taken l.dem.calls)).length then l.step (.use o e) = Go.panic
      else ∃ l', l.step (.use o e) = ok l' := by
  obtain ⟨s', t, e1, ht, hs⟩ := run_after_lanes hr hc (Life.oracle_valid (l := l) ho) he hk
  refine ⟨t, ht, ?_⟩
  rw [use_closed hr hh ho, e1]
  dsimp only
  split
  · rename_i hu
    obtain ⟨u, hu, hlt⟩ := hu
    rw [if_neg (fun e => hs.1 e u hu hlt)]
  · rename_i hu
    rw [if_pos (hs.2 fun u h1 h2 => hu ⟨u, h1, h2⟩)]
    exact ⟨_, rfl⟩

/-- **C79**, the same by the numbers of tracks, when no two have the same buffer. -/
theorem C79_exact_track {name : String} {a : Bool} {h : List (Oracle × DemuxOp)} {l : Life} (hr : Reached name a h l.dem)
    (hh : l.handler = false) (hc : l.dem.completed = true) {o : Oracle} (ho : o.Valid) {e : DemuxOp}
    (he : e.IsPacket) {b : Int} {d : Bytes} (hk : e.block = some (b, d)) (hn : (l.dem.bufferOf.map Prod.snd).Nodup) :
    (b ∉ l.dem.bufferOf.map Prod.snd → ∃ l', l.step (.use o e) = ok l') ∧
    ∀ i, (i, b) ∈ l.dem.bufferOf → if i < (lanes (taken l.dem.calls)).length then l.step (.use o e) = Go.panic else ∃ l', l.step (.use o e) = ok l' := by
  have hi := Demuxer.Reached.inv hr
  obtain ⟨t, ht, hx⟩ := C79_exact hr hh hc ho he hk
  have ho' : (l.oracle o).Valid := Life.oracle_valid ho
  obtain ⟨t', ht', hkn⟩ := Demuxer.findTrack_known ho' hi (b := b)
  rw [ht] at ht'
  cases ht'
  have hfound : ∀ u, t = some u → (u.index, b) ∈ l.dem.bufferOf := fun u hu => Demuxer.lookup_mem (hkn u hu)
  constructor
  · intro hb
    rw [if_neg] at hx
    · exact hx
    · rintro ⟨u, hu, _⟩
      exact hb (List.mem_map.2 ⟨_, hfound u hu, rfl⟩)
  · intro i hib
    cases t with
    | none => exact absurd (List.mem_map.2 ⟨_, hib, rfl⟩) (Demuxer.findTrack_none ho' ht)
    | some u =>
      have e : u.index = i := (Prod.mk.inj (List.inj_on_of_nodup_map hn (hfound u rfl) hib rfl)).1
      by_cases hlt : i < (lanes (taken l.dem.calls)).length
      · rw [if_pos hlt]
        rw [if_pos ⟨u, rfl, by rw [e]; exact hlt⟩] at hx
        exact hx
      · rw [if_neg hlt]
        rw [if_neg (by rintro ⟨v, hv, h2⟩; cases hv; exact hlt (by rw [← e]; exact h2))] at hx
        exact hx

/-- Two announced tracks, no packets, and one packet of track 1 before probing ends: packets of track 0 then make a closed demuxer panic,
although none came before; a first packet of track 1 does not. -/
example : (runDemux (Demuxer.new "ts" true) [(exOracle, .newAudioTrack 0 codecG726 1000 none {}), (exOracle, .newAudioTrack 1 codecPCMS16LE 1000 none {}),
      (exOracle, .audioPacket 1 codecPCMS16LE [1] 0), (exOracle, .probeComplete)] >>= fun s => ok (s.completed, s.bufferOf, (lanes (taken s.calls)).length,
      panics (({ dem := s, handler := true } : Life).run [.close, .use exOracle (.audioPacket 0 codecG726 [2] 10)]),
      panics (({ dem := s, handler := true } : Life).run [.close, .use exOracle (.audioPacket 1 codecPCMS16LE [2] 10)]))) =
    ok (true, [(0, 0), (1, 1)], 1, true, false) := by decide +kernel

end Avf
