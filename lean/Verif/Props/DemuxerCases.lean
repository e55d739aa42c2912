import Verif.Props.DemuxerAnnounce
import Verif.Props.DemuxerOrderly
/-!
# Concrete cases for C75, C64 and C78

Announcements of tracks that are taken, and that are refused for each of the reasons, and an orderly history whose packets wait for both tracks.
-/
namespace Avf
open Go

/-- What an announcement does: the number of the track that it returns, the tracks, the buffers, the calls. -/
def announced (s : Demuxer) (e : Option Bytes) (id : Int) (b : Int) : Go (Option Int × List (Int × Int) × List (Int × Int) × Nat) :=
  (if id = codecAAC ∨ id = codecPCMS16LE then s.onNewAudioTrack b id 1000 e {} else s.onNewVideoTrack exOracle b id 1000 e) >>= fun x =>
    ok (x.1.map (·.index), x.2.tracks.tracks.map fun t => (t.codecID, t.sampleRate), x.2.bufferOf, x.2.calls.length)

/-- A demuxer with an audio track. -/
def oneAudio : List (Oracle × DemuxOp) := [(exOracle, .newAudioTrack 3 codecAAC 1000 (some [0x12, 0x10]) {})]

/-- Taken with its sample rate; refused as the second of its type, but not in a transport stream; refused for its record;
refused after probing. -/
example :
    announced (Demuxer.new "flv" true) (some [0x12, 0x10]) codecAAC 3 = ok (some 0, [(codecAAC, 44100)], [(0, 3)], 1) ∧
    (runDemux (Demuxer.new "flv" true) oneAudio >>= fun s => announced s none codecPCMS16LE 4) = ok (none, [(codecAAC, 44100)], [(0, 3)], 1) ∧
    (runDemux (Demuxer.new "ts" true) oneAudio >>= fun s => announced s none codecPCMS16LE 4) =
      ok (some 1, [(codecAAC, 44100), (codecPCMS16LE, 0)], [(0, 3), (1, 4)], 1) ∧
    (runDemux (Demuxer.new "ts" true) (oneAudio ++ [(exOracle, .probeComplete)]) >>= fun s => announced s none codecPCMS16LE 4) =
      ok (none, [(codecAAC, 44100)], [(0, 3)], 3) := by
  refine ⟨?_, ?_, ?_, ?_⟩ <;> decide +kernel

/-- A video track with the record or the start codes that its container uses, and one whose sets say nothing. -/
example :
    announced (Demuxer.new "flv" true) (some [1, 66, 0, 31, 255, 225, 0, 9, 103, 66, 0, 31, 218, 1, 64, 22, 228, 1, 0, 2, 104, 206]) codecH264 3 =
      ok (some 0, [(codecH264, 0)], [(0, 3)], 1) ∧
    announced (Demuxer.new "ts" true) (some [0, 0, 0, 1, 103, 66, 0, 31, 218, 1, 64, 22, 228, 0, 0, 1, 104, 206]) codecH264 3 =
      ok (some 0, [(codecH264, 0)], [(0, 3)], 1) ∧
    announced (Demuxer.new "ts" true) (some [0, 0, 0, 1, 0x41, 0x42, 0, 0, 0, 1, 0x41, 2]) codecH264 3 = ok (none, [], [], 1) := by
  refine ⟨?_, ?_, ?_⟩ <;> decide +kernel

/-- All hypotheses of `C64_own_orderly_partial` hold of `pairRun`, and the blocks of each buffer are those of the packets that wait. -/
example : ∃ s P, Reached "ts" true pairRun s ∧ Orderly s ∧ KeepsData pairRun ∧
    (∀ i, (ofTrack i (taken s.calls)).Pairwise fun a b => a.dts < b.dts) ∧
    runPiped true (Demuxer.new "ts" true) (fun _ => []) pairRun = ok (s, P) ∧ P 0 = [[6]] ∧ P 1 = [[5]] := by
  have h : (runDemux (Demuxer.new "ts" true) pairRun >>= fun s => ok (decide (s.tracks.tracks.length = 2 ∧ s.bufferOf = [(0, 0), (1, 1)] ∧
      (taken (beforeComplete s.calls)).map (·.index) = [1, 1, 0, 0] ∧
      (taken s.calls).map (fun p => (p.index, p.dts)) = [(1, 0), (1, 20), (0, 0), (0, 40), (1, 40), (0, 80)] ∧
      (ofBuffer 0 s.packets.flatten).map AVPacket.data = [[6]] ∧ (ofBuffer 1 s.packets.flatten).map AVPacket.data = [[5]]))) = ok true := by
    decide +kernel
  obtain ⟨s, h1, h2⟩ := bind_eq_ok.1 h
  simp only [Go.ok.injEq, decide_eq_true_eq] at h2
  obtain ⟨hl, hbo, hb, ht, h0, h1'⟩ := h2
  have hx : ∀ x ∈ pairRun, x.1 = exOracle := by simp [pairRun]
  have hr : Reached "ts" true pairRun s := ⟨fun x h => by rw [hx x h]; exact exOracle_valid, h1⟩
  have ho : Orderly s := Or.inr ⟨by omega, fun i hi => by
    have : (i : Int) ∈ (taken (beforeComplete s.calls)).map (·.index) := by
      rw [hb]
      obtain rfl | rfl : i = 0 ∨ i = 1 := by omega
      · decide
      · decide
    obtain ⟨p, hp, e⟩ := List.mem_map.1 this
    exact ⟨p, hp, e⟩⟩
  have hd : KeepsData pairRun := fun x h p => by rw [hx x h]; rfl
  have hdts : ∀ i, (ofTrack i (taken s.calls)).Pairwise fun a b => a.dts < b.dts := by
    intro i
    have key : ∀ l : List AVPacket, ((l.map fun p => (p.index, p.dts)).filter fun x => x.1 = (i : Int)).Pairwise (fun a b => a.2 < b.2) →
        (ofTrack i l).Pairwise fun a b => a.dts < b.dts := by
      intro l hl
      rw [List.filter_map, List.pairwise_map] at hl
      exact hl
    refine key _ ?_
    rw [ht]
    by_cases e0 : (i : Int) = 0
    · simp [e0]
    · by_cases e1 : (i : Int) = 1
      · simp [e1]
      · simp [Ne.symm e0, Ne.symm e1]
  obtain ⟨P, hP, hb'⟩ := C64_own_orderly_partial hr ho (by rw [hbo]; decide) hd hdts
  exact ⟨s, P, hr, ho, hd, hdts, hP, by rw [hb', h0], by rw [hb', h1']⟩

end Avf
