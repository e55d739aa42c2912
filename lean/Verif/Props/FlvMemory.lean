import Verif.Props.FlvFiles
import Verif.Props.DemuxerOrderly
/-!
# C99, second part: with the memory of the pipeline

As `C99_files` and `C99_flv`, where the caller writes records and frames in pieces to a `StreamsBuffer`, the demuxer discards blocks, and
the handler reads the memory behind the slices of the packets.
-/
namespace Avf
open Go

/-- **C99** on a pipeline: what the handler reads are the calls of the demuxer with the payloads that were written. -/
theorem C99_read {name : String} {h : List (Oracle × DemuxOp × List Bytes)} {s : Demuxer} {M : Nat → Nat} (m : Mem)
    (hr : Reached name true (operations h) s) (hid : ∀ x ∈ operations h, x.1.preprocess = id) (hinj : (s.bufferOf.map Prod.snd).Nodup)
    (hf : Orderly s) (hin : InPieces h) (hl : LightInput M [] (Demuxer.new name true) (operations h)) :
    ∃ w, ({ dem := Demuxer.new name true, mem := m } : Wired).run h = ok w ∧ w.dem = s ∧
      asRead (toHandler w.dem.calls) w.got = toHandler s.calls := by
  obtain ⟨w, hw, rfl, hgot, _⟩ := C78_orderly m hr hf hinj (fun x hx p => by rw [hid x hx]; rfl) hin hl
  refine ⟨w, hw, rfl, ?_⟩
  rw [hgot, ← delivered_toHandler]
  exact asRead_same _

/-- **C99**, FLV with H.264, from pieces written to a `StreamsBuffer` to files. -/
theorem C99_flv_memory {h : List (Oracle × DemuxOp × List Bytes)} {s : Demuxer} {M : Nat → Nat} (m : Mem)
    (hr : Reached "flv" true (operations h) s) (hid : ∀ x ∈ operations h, x.1.preprocess = id)
    {ba bv : Int} (hne : ba ≠ bv) (hb : ∀ x ∈ operations h, x.2.OnBuffers ba bv) (hv : ∀ x ∈ operations h, x.2.VideoIs codecH264)
    (hf : Orderly s) (hd : ∀ b, (givenOf b (operations h)).Pairwise fun f g => f.dts < g.dts) (hc : s.completed = true)
    (hin : InPieces h) (hl : LightInput M [] (Demuxer.new "flv" true) (operations h))
    (path : List Char) (disk : Disk) (hnew : ∀ t ∈ s.tracks.tracks, ∀ n, FileHandler.fileName path t = ok n → disk.lookup n = none) :
    ∃ w o, ({ dem := Demuxer.new "flv" true, mem := m } : Wired).run h = ok w ∧ w.dem = s ∧
      (FileHandler.new path disk).handleAll (asRead (toHandler w.dem.calls) w.got) = ok o ∧
      ∀ (i : Nat) t b, s.tracks.tracks[i]? = some t → ((i : Int), b) ∈ s.bufferOf → ∃ n h1 h2 s1 fs out, FileHandler.fileName path t = ok n ∧
        operations h = h1 ++ h2 ∧ Reached "flv" true h1 s1 ∧ b ∉ s1.bufferOf.map Prod.snd ∧ ButLast (givenOf b h2) fs ∧
        (FirstsInOrder (taken s.calls) → fs = (givenOf b h2).dropLast) ∧ List.Forall₂ (AvcInFile t) fs out ∧
        o.disk.lookup n = some ⟨132, out.flatten⟩ := by
  have hty := Demuxer.runDemux_types (reached_new "flv" true) (Demuxer.Types.new "flv" true ba bv) (by decide) hr.1 hb hr.2
  obtain ⟨w, hw, rfl, hread⟩ := C99_read m hr hid (hty.nodup hne) hf hin hl
  obtain ⟨o, ho, hfiles⟩ := C99_flv hr hid hne hb hv hf hd hc path disk hnew
  exact ⟨w, o, hw, rfl, by rw [hread]; exact ho, hfiles⟩

/-- **C99**, FLV with H.265, from pieces written to a `StreamsBuffer` to files. -/
theorem C99_flv_hevc_memory {h : List (Oracle × DemuxOp × List Bytes)} {s : Demuxer} {M : Nat → Nat} (m : Mem)
    (hr : Reached "flv" true (operations h) s) (hid : ∀ x ∈ operations h, x.1.preprocess = id)
    {ba bv : Int} (hne : ba ≠ bv) (hb : ∀ x ∈ operations h, x.2.OnBuffers ba bv) (hv : ∀ x ∈ operations h, x.2.VideoIs codecH265)
    {k : Nat} (hk : ∀ x ∈ operations h, x.2.HevcBy k)
    (hf : Orderly s) (hd : ∀ b, (givenOf b (operations h)).Pairwise fun f g => f.dts < g.dts) (hc : s.completed = true)
    (hin : InPieces h) (hl : LightInput M [] (Demuxer.new "flv" true) (operations h))
    (path : List Char) (disk : Disk) (hnew : ∀ t ∈ s.tracks.tracks, ∀ n, FileHandler.fileName path t = ok n → disk.lookup n = none) :
    ∃ w o, ({ dem := Demuxer.new "flv" true, mem := m } : Wired).run h = ok w ∧ w.dem = s ∧
      (FileHandler.new path disk).handleAll (asRead (toHandler w.dem.calls) w.got) = ok o ∧
      ∀ (i : Nat) t b, s.tracks.tracks[i]? = some t → ((i : Int), b) ∈ s.bufferOf → ∃ n h1 h2 s1 fs out, FileHandler.fileName path t = ok n ∧
        operations h = h1 ++ h2 ∧ Reached "flv" true h1 s1 ∧ b ∉ s1.bufferOf.map Prod.snd ∧ ButLast (givenOf b h2) fs ∧
        (FirstsInOrder (taken s.calls) → fs = (givenOf b h2).dropLast) ∧ List.Forall₂ (HevcInFile k t) fs out ∧
        o.disk.lookup n = some ⟨132, out.flatten⟩ := by
  have hty := Demuxer.runDemux_types (reached_new "flv" true) (Demuxer.Types.new "flv" true ba bv) (by decide) hr.1 hb hr.2
  obtain ⟨w, hw, rfl, hread⟩ := C99_read m hr hid (hty.nodup hne) hf hin hl
  obtain ⟨o, ho, hfiles⟩ := C99_flv_hevc hr hid hne hb hv hk hf hd hc path disk hnew
  exact ⟨w, o, hw, rfl, by rw [hread]; exact ho, hfiles⟩

/-! ## A concrete case -/

/-- As `flvRun`, with video on buffer 0: a `StreamsBuffer` makes buffers in the order of their numbers. -/
def flvRun0 : List (Oracle × DemuxOp) := flvRun.map fun x => (x.1, match x.2 with
  | .newAudioTrack b id tb e c => .newAudioTrack (1 - b) id tb e c
  | .newVideoTrack b id tb e => .newVideoTrack (1 - b) id tb e
  | .audioPacket b id d ts => .audioPacket (1 - b) id d ts
  | .videoPacket b id d k dts pts => .videoPacket (1 - b) id d k dts pts
  | e => e)

/-- `flvRun0`, every block written in three pieces. -/
def flvPieces : List (Oracle × DemuxOp × List Bytes) :=
  flvRun0.map fun x => (x.1, x.2, match x.2.block with
    | some (_, d) => [d.take 3, [], d.drop 3]
    | none => [])

theorem flvPieces_operations : operations flvPieces = flvRun0 := by
  unfold operations flvPieces
  rw [List.map_map]
  exact List.map_id' _

/-- All hypotheses of `C99_flv_memory` hold of `flvPieces`, and the handler reads the payloads. -/
example (m : Mem) : InPieces flvPieces ∧ LightInput (fun _ => 60) [] (Demuxer.new "flv" true) (operations flvPieces) ∧
    ∃ w o, ({ dem := Demuxer.new "flv" true, mem := m } : Wired).run flvPieces = ok w ∧
      (FileHandler.new ['o'] []).handleAll (asRead (toHandler w.dem.calls) w.got) = ok o ∧
      w.got = [some (avcc [[6, 5], [0x65, 7], [0x65, 8]]), some [1, 2], some (avcc [[0x41, 9]] ++ [0, 0]), some (avcc [[0x65, 1]])] := by
  have hin : InPieces flvPieces := by
    intro x hx b d hk
    obtain ⟨y, _, rfl⟩ := List.mem_map.1 hx
    dsimp only at hk ⊢
    rw [hk]
    exact ⟨by simp, by simp⟩
  have hl : LightInput (fun _ => 60) [] (Demuxer.new "flv" true) (operations flvPieces) := lightInput_sound (by decide +kernel)
  refine ⟨hin, hl, ?_⟩
  have h : (runDemux (Demuxer.new "flv" true) flvRun0 >>= fun s => ok (decide (s.completed = true ∧ s.tracks.tracks.length = 2 ∧
      (taken (beforeComplete s.calls)).map (·.index) = [1, 0, 1] ∧ s.bufferOf = [(0, 1), (1, 0)] ∧
      (delivered s.calls).map AVPacket.data = [avcc [[6, 5], [0x65, 7], [0x65, 8]], [1, 2], avcc [[0x41, 9]] ++ [0, 0], avcc [[0x65, 1]]]))) =
      ok true := by decide +kernel
  obtain ⟨s, h1, h2⟩ := bind_eq_ok.1 h
  simp only [Go.ok.injEq, decide_eq_true_eq] at h2
  obtain ⟨hc, hlen, hb, hbo, hdel⟩ := h2
  have hx : ∀ x ∈ flvRun0, x.1 = exOracle := by simp [flvRun0, flvRun]
  have hr : Reached "flv" true flvRun0 s := ⟨fun x h => by rw [hx x h]; exact exOracle_valid, h1⟩
  have hon : ∀ x ∈ flvRun0, x.2.OnBuffers 1 0 := by simp [flvRun0, flvRun, DemuxOp.OnBuffers]
  have ho : Orderly s := C99_flv_orderly hr (by decide) hon fun i hi => by
    have : (i : Int) ∈ (taken (beforeComplete s.calls)).map (·.index) := by
      rw [hb]
      obtain rfl | rfl : i = 0 ∨ i = 1 := by omega
      · decide
      · decide
    obtain ⟨p, hp, e⟩ := List.mem_map.1 this
    exact ⟨p, hp, e⟩
  obtain ⟨w, hw, _, hgot, _⟩ := C78_orderly m (by rw [flvPieces_operations]; exact hr) ho (by rw [hbo]; decide)
    (by rw [flvPieces_operations]; exact fun x h p => by rw [hx x h]; rfl) hin hl
  obtain ⟨w', o, hw', _, hfile, _⟩ := C99_flv_memory m (by rw [flvPieces_operations]; exact hr)
    (by rw [flvPieces_operations]; exact fun x h => by rw [hx x h]; rfl) (ba := 1) (bv := 0) (by decide)
    (by rw [flvPieces_operations]; exact hon)
    (by rw [flvPieces_operations]; simp [flvRun0, flvRun, DemuxOp.VideoIs, avcRecord, unit16]) ho
    (by
      rw [flvPieces_operations]
      intro b
      by_cases h0 : b = 0
      · subst h0; simp [givenOf, flvRun0, flvRun, DemuxOp.given]
      · by_cases h1 : b = 1
        · subst h1; simp [givenOf, flvRun0, flvRun, DemuxOp.given]
        · simp [givenOf, flvRun0, flvRun, DemuxOp.given, Ne.symm h0, Ne.symm h1]) hc hin hl ['o'] [] (fun _ _ _ _ => rfl)
  rw [hw] at hw'
  cases hw'
  refine ⟨w, o, hw, hfile, ?_⟩
  have := congrArg (List.map some) hdel
  rw [List.map_map] at this
  rw [hgot]; exact this

end Avf
