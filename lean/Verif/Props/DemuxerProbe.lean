import Verif.Lemmas.DemuxerProbe
import Verif.Props.DemuxerQueue
/-! # C74: ending probing early -/
namespace Avf
open Go

/-- **C74** in full: while probing, `TryCompleteProbe` does nothing if a track whose rate is to be measured has got less than two
packets, and ends probing otherwise. -/
def C74_claim : Prop :=
  ∀ name a h s, Reached name a h s → s.completed = false → ∀ o : Oracle, o.Valid → ∃ s', s.tryCompleteProbe o = ok s' ∧
    if Starved s then s' = s else s'.completed = true

/-- **C74**: when first packets come in index order, it waits for the tracks that have exactly one packet. What is missing is the
tracks that have none, and other histories. -/
theorem C74_one_packet_partial {name : String} {a : Bool} {h : List (Oracle × DemuxOp)} {s : Demuxer} (hr : Reached name a h s)
    (hf : FirstsInOrder (taken s.calls)) (hc : s.completed = false) {o : Oracle} (ho : o.Valid) :
    ∃ s', s.tryCompleteProbe o = ok s' ∧
      if ∃ t ∈ s.tracks.tracks, Measured t.codecID ∧ takenOf s t = 1 then s' = s else s'.completed = true := by
  have hi := Demuxer.Reached.inv hr
  have hq := Demuxer.Reached.queues hr hf
  have hn := Demuxer.needMore_iff hi hq hc
  unfold Demuxer.tryCompleteProbe
  dsimp only
  by_cases hm : ∃ t ∈ s.tracks.tracks, Measured t.codecID ∧ takenOf s t = 1
  · rw [if_pos (hn.2 hm)]
    exact ⟨s, rfl, by rw [if_pos hm]⟩
  · rw [if_neg (fun e => hm (hn.1 e))]
    obtain ⟨s', h1, _⟩ := Demuxer.complete_micros o ho hi
    exact ⟨s', h1, by rw [if_neg hm]; exact Demuxer.complete_completed ho hi h1⟩

/-- **C74** for packet input: the full claim. -/
theorem C74_packet_input {name : String} {a : Bool} {h : List (Oracle × DemuxOp)} {s : Demuxer} (hr : Reached name a h s)
    (hp : ∀ x ∈ h, x.2.PacketOnly) (hc : s.completed = false) {o : Oracle} (ho : o.Valid) :
    ∃ s', s.tryCompleteProbe o = ok s' ∧ if Starved s then s' = s else s'.completed = true := by
  obtain ⟨s', h1, h2⟩ := C74_one_packet_partial hr (C62_packet_input hr hp) hc ho
  refine ⟨s', h1, ?_⟩
  have : Starved s ↔ ∃ t ∈ s.tracks.tracks, Measured t.codecID ∧ takenOf s t = 1 := by
    refine exists_congr fun t => and_congr_right fun ht => and_congr_right fun _ => ?_
    obtain ⟨p, hp, hpi⟩ := Demuxer.Reached.all hr hp t ht
    have : takenOf s t ≠ 0 := by
      unfold takenOf
      intro h0
      have := List.eq_nil_of_length_eq_zero h0
      rw [List.filter_eq_nil_iff] at this
      exact this p hp (by simp [hpi])
    omega
  by_cases hs : Starved s
  · rw [if_pos hs]; rwa [if_pos (this.1 hs)] at h2
  · rw [if_neg hs]; rwa [if_neg (fun e => hs (this.2 e))] at h2

/-- **C74**: after probing it does nothing. -/
theorem C74_again {s : Demuxer} (hc : s.completed = true) (o : Oracle) : s.tryCompleteProbe o = ok s := by
  unfold Demuxer.tryCompleteProbe
  dsimp only
  split
  · rfl
  · exact Demuxer.complete_again o hc

/-- **C74** is false of the code: a PCM track is announced and has no packet; probing ends, and the rate is never measured. -/
theorem C74_claim_violated : ¬ C74_claim := by
  intro hcl
  have h : (runDemux (Demuxer.new "flv" true) [(exOracle, .newAudioTrack 0 codecPCMS16LE 1000 none {})] >>= fun s =>
      s.tryCompleteProbe exOracle >>= fun s' => do
        return (s.completed, decide (Starved s), s'.completed, s'.tracks.tracks.map (·.sampleRate))) = ok (false, true, true, [0]) := by
    decide +kernel
  obtain ⟨s, h1, h⟩ := bind_eq_ok.1 h
  obtain ⟨s', h2, h⟩ := bind_eq_ok.1 h
  simp only [pure_def, Go.ok.injEq, Prod.mk.injEq, decide_eq_true_eq] at h
  obtain ⟨e1, e2, e3, _⟩ := h
  obtain ⟨s'', h3, h4⟩ := hcl _ _ _ s ⟨by intro x hx; rw [List.mem_singleton] at hx; subst hx; exact exOracle_valid, h1⟩ e1 exOracle exOracle_valid
  rw [h2] at h3
  cases h3
  rw [if_pos e2] at h4
  rw [h4, e1] at e3
  cases e3

/-- One G.726 packet: it waits. After the second it does not. -/
example :
    (runDemux (Demuxer.new "ts" true) [(exOracle, .audioPacket 0 codecG726 [1, 2] 0)] >>= fun s => s.tryCompleteProbe exOracle >>= fun s' => do
      return (decide (Starved s), s'.completed)) = ok (true, false) ∧
    (runDemux (Demuxer.new "ts" true) [(exOracle, .audioPacket 0 codecG726 [1, 2] 0), (exOracle, .audioPacket 0 codecG726 [1, 2] 90)] >>= fun s =>
      s.tryCompleteProbe exOracle >>= fun s' => do return (decide (Starved s), s.completed, s'.completed)) = ok (false, false, true) := by
  constructor <;> decide +kernel

end Avf
