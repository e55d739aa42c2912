import Verif.Props.DemuxerSource
/-! # C85: a stream without parameter sets of its own takes those of the first track of its codec -/
namespace Avf
open Go

/-- The packet brings no parameter sets: it is no key frame, or its codec has none, or there are none among its NAL units. -/
def BringsNoSets (id : Int) (d : Bytes) (key : Bool) : Prop :=
  key = false ∨ ¬ HasSets id ∨
    ∃ xs : List (Bool × Bytes), xs ≠ [] ∧ (∀ x ∈ xs, Framed x.2) ∧ d = annexB xs ∧ paramSets id (xs.map (·.2)) = none

theorem videoExtraData_inherited {s : Demuxer} {id : Int} {d : Bytes} {key : Bool} (hnx : BringsNoSets id d key) {l r : List AVStream}
    {old : AVStream} (hsplit : s.tracks.tracks = l ++ old :: r) (hl : ∀ t ∈ l, t.codecID ≠ id) (hold : old.codecID = id) :
    s.videoExtraData id d key = ok (if old.mediaType = mediaAudio ∧ old.data = [] then none else some old.data) := by
  have hfind : s.tracks.find id = some old := by
    unfold TrackManager.find
    refine search_some.2 ⟨l, r, hsplit, by simpa using hold, ?_⟩
    intro t ht
    simpa using hl t ht
  unfold Demuxer.videoExtraData
  rw [hfind]
  have fin : (if Demuxer.dataIsNil old = true then (pure none : Go (Option Bytes)) else pure (some old.data)) =
      ok (if old.mediaType = mediaAudio ∧ old.data = [] then none else some old.data) := by
    by_cases hn : old.mediaType = mediaAudio ∧ old.data = []
    · rw [if_pos hn, if_pos (by simpa [Demuxer.dataIsNil] using hn)]; rfl
    · rw [if_neg hn, if_neg (by simpa [Demuxer.dataIsNil] using hn)]; rfl
  by_cases hk : key = true
  · rw [if_pos hk]
    by_cases hid : HasSets id
    · rcases hnx with h1 | h1 | ⟨xs, hne, hf, rfl, hps⟩
      · rw [hk] at h1; cases h1
      · exact absurd hid h1
      · obtain ⟨m, e⟩ := (extract_eq hid hne hf).2 hps
        rw [e]
        exact fin
    · have : extractVideoExtraData id d = ok none := by
        unfold HasSets at hid
        unfold extractVideoExtraData
        rw [if_neg (fun e => hid (Or.inl e)), if_neg (fun e => hid (Or.inr e))]
      rw [this]
      exact fin
  · rw [if_neg hk]
    exact fin

/-- **C85**: video on a buffer without a track, before the end of probing, that brings no parameter sets, while there are tracks
of its codec: the data of the first of them, `old`, is taken. If `old` is an audio track without data the packet is given back.
Otherwise, if the data can be parsed, the packet makes a track with the same data and the packet is taken; if it cannot, the
packet is given back; and the demuxer panics only if the parser does. -/
theorem C85_inherit {name : String} {a : Bool} {h : List (Oracle × DemuxOp)} {s : Demuxer} (hr : Reached name a h s) (hn : KnownName name)
    (hf : name ≠ "flv") (hc : s.completed = false) {o : Oracle} (ho : o.Valid) {b id dts pts : Int} (hb : b ∉ s.bufferOf.map Prod.snd)
    {d : Bytes} {key : Bool} (hnx : BringsNoSets id d key) {l r : List AVStream} {old : AVStream}
    (hsplit : s.tracks.tracks = l ++ old :: r) (hl : ∀ t ∈ l, t.codecID ≠ id) (hold : old.codecID = id) :
    if old.mediaType = mediaAudio ∧ old.data = [] then
      ∃ s', s.onVideoPacket o b id d key dts pts = ok s' ∧ Refuses s s' b
    else match generateVideoCodecData o.undef o.grow packAnnexB id old.data with
      | .ok config => ∃ s' u, s.onVideoPacket o b id d key dts pts = ok s' ∧ MakesTrack s s' b u ∧ u.codecID = id ∧
          u.mediaType = mediaVideo ∧ u.data = old.data ∧ u.codecParameters = config ∧ u.timebase = timebaseOf name
      | .err _ => ∃ s', s.onVideoPacket o b id d key dts pts = ok s' ∧ Refuses s s' b
      | .panic => s.onVideoPacket o b id d key dts pts = Go.panic := by
  have hi := Demuxer.Reached.inv hr
  have hname : s.name = name := Demuxer.Reached.name hr
  have hk : s.getPackType = packAnnexB := by rw [Demuxer.getPackType_known (by rw [hname]; exact hn), hname, if_neg hf]
  have ht : s.findTrackByBufferIndex o b = ok none := Demuxer.findTrack_fresh ho hi hb
  have hv := videoExtraData_inherited hnx hsplit hl hold
  by_cases hnil : old.mediaType = mediaAudio ∧ old.data = []
  · rw [if_pos hnil] at hv ⊢
    unfold Demuxer.onVideoPacket
    rw [ht, ok_bind, if_pos ⟨rfl, by rw [hc]; simp, hk⟩, hv]
    exact ⟨_, rfl, rfl⟩
  · rw [if_neg hnil] at hv ⊢
    have hrun : s.onVideoPacket o b id d key dts pts = (do
        let (track, s') ← s.createVideoTrack o b id (timebaseOf name) (some old.data)
        match track with
        | none => return s'.call [.discardBack b]
        | some t =>
          (s'.call [.accepted (o.preprocess (s'.videoPkt b id d key dts pts t))]).processBufferedPacket o
            (o.preprocess (s'.videoPkt b id d key dts pts t))) := by
      unfold Demuxer.onVideoPacket
      rw [ht, ok_bind, if_pos ⟨rfl, by rw [hc]; simp, hk⟩, hv, ok_bind]
      dsimp only
      rw [Demuxer.getTimebase_known (by rw [hname]; exact hn), ok_bind, hname]
      rfl
    rw [hrun]
    unfold Demuxer.createVideoTrack
    dsimp only [Option.getD_some]
    rw [hk]
    cases hg : generateVideoCodecData o.undef o.grow packAnnexB id old.data with
    | err m => exact ⟨_, rfl, rfl⟩
    | panic => rfl
    | ok config =>
      dsimp only
      let u : AVStream := { mediaType := mediaVideo, index := s.tracks.size, codecID := id, data := old.data, codecParameters := config
                            timebase := timebaseOf name }
      have hu : u.index = s.tracks.tracks.length := rfl
      obtain ⟨s', u', e, hm, hfi⟩ := makes_track (p := o.preprocess ((s.register b u).2.videoPkt b id d key dts pts u)) hi ho hc hu
        (by rw [ho.index]; rfl) (by rw [ho.buffer]; rfl) (b := b)
      have hfld := Demuxer.Fine.fields hfi
      refine ⟨s', u', ?_, hm, hfld.1, hfld.2.1, hfld.2.2.2.1, hfld.2.2.2.2.1, hfld.2.2.1⟩
      · rw [ok_bind]
        rcases Demuxer.register_cases s b u with ⟨_, h1⟩ | ⟨_, h1, _⟩
        · rw [hc] at h1; cases h1
        · have : s.register b u = (some u, (s.register b u).2) := by rw [← h1]
          show (match s.register b u with | (track, s') => _) = ok s'
          rw [this]
          exact e

/-- Histories that meet the hypotheses: a second H.264 stream that starts with a frame that is no key frame takes the sets of the
first; a stream of another codec takes the empty data of a video track; but not the missing data of an audio track. -/
example : (fun s : Demuxer => s.tracks.tracks.map fun t => (t.index, t.codecID, t.data)) <$> runDemux (Demuxer.new "ts" true)
    [(exOracle, .videoPacket 0 codecH264 (annexB exUnits) true 0 0), (exOracle, .videoPacket 1 codecH264 [0, 0, 1, 0x41] false 0 0)] =
    ok [(0, codecH264, withCodes [[103, 66, 0, 31, 218, 1, 64, 22, 228], [104, 206]]),
      (1, codecH264, withCodes [[103, 66, 0, 31, 218, 1, 64, 22, 228], [104, 206]])] := by decide +kernel
example : (fun s : Demuxer => s.tracks.tracks.map fun t => (t.index, t.mediaType)) <$> runDemux (Demuxer.new "ts" true)
    [(exOracle, .newVideoTrack 0 7 90000 none), (exOracle, .videoPacket 1 7 [1] false 0 0)] =
    ok [(0, mediaVideo), (1, mediaVideo)] := by decide +kernel
example : (fun s : Demuxer => s.tracks.tracks.map fun t => (t.index, t.mediaType)) <$> runDemux (Demuxer.new "ts" true)
    [(exOracle, .audioPacket 0 7 [1] 0), (exOracle, .videoPacket 1 7 [1] false 0 0)] = ok [(0, mediaAudio)] := by decide +kernel
example : BringsNoSets codecH264 [0, 0, 1, 0x41] false := Or.inl rfl
example : BringsNoSets codecH264 (annexB [(true, [0x65, 0x88])]) true :=
  Or.inr (Or.inr ⟨[(true, [0x65, 0x88])], by decide, by decide, rfl, by decide⟩)

end Avf
