import Verif.Lemmas.DemuxerSource
import Verif.Props.DemuxerTotal
import Verif.Props.DemuxerQueue
/-! # C73: where tracks come from, and which packets make them -/
namespace Avf
open Go

/-- A track and an input that it comes from. The third case is a video packet that is said to be AAC, which gets the
configuration of an AAC track. -/
inductive CameFrom (name : String) (ops : List DemuxOp) (t : AVStream) : Prop where
  | video (b dts pts : Int) (xs : List (Bool × Bytes)) (hm : .videoPacket b t.codecID (annexB xs) true dts pts ∈ ops)
      (hf : ∀ x ∈ xs, Framed x.2) (ht : FromKeyFrame name (xs.map (·.2)) t)
  | audio (b ts : Int) (d : Bytes) (hm : .audioPacket b t.codecID d ts ∈ ops) (ht : FromAudio name d t)
  | odd (hm : t.mediaType = mediaVideo) (hc : t.codecID = codecAAC)

/-- **C73**: with packet input only, every track is described by a packet that came in for its codec: the parameter sets of a
key frame, an ADTS header, or the default for other audio. -/
theorem C73_source {name : String} {a : Bool} {h : List (Oracle × DemuxOp)} {s : Demuxer} (hr : Reached name a h s) (hn : KnownName name)
    (hp : ∀ x ∈ h, x.2.PacketOnly) (hs : ∀ x ∈ h, x.2.Sound name) :
    ∀ t ∈ s.tracks.tracks, CameFrom name (h.map Prod.snd) t := by
  refine Demuxer.runDemux_tracks (s := Demuxer.new name a) ?_ ?_ (by intro t ht; cases ht) hr.2
  · intro x y hf hx
    obtain ⟨e1, e2, _⟩ := hf.fields
    cases hx with
    | video b dts pts xs hm hfr ht => exact .video b dts pts xs (by rw [e1]; exact hm) hfr (hf.fromKeyFrame ht)
    | audio b ts d hm ht => exact .audio b ts d (by rw [e1]; exact hm) (hf.fromAudio ht)
    | odd hm hc => exact .odd (by rw [e2, hm]) (by rw [e1, hc])
  · rintro ⟨o, e⟩ hx s1 u hn1 ht hu
    have hn1 : s1.name = name := hn1
    have hmem : e ∈ h.map Prod.snd := List.mem_map_of_mem (f := Prod.snd) hx
    have hpo := hp _ hx
    have hso := hs _ hx
    cases hu with
    | audio b id d ts tb skip ex c u hx' htb hu =>
      obtain ⟨c', he, _⟩ := (show Demuxer.AudioMade s1 id tb ex c u from hu)
      refine .audio b ts d (by rw [he]; exact hmem) ?_
      rw [← hn1]
      exact Demuxer.audio_made (by rw [hn1]; exact hn) hx' htb hu
    | video b id d ex k dts pts tb u hk hx' htb hu =>
      obtain ⟨config, hg, rfl⟩ := hu
      have hnf : name ≠ "flv" := by
        intro e
        rw [Demuxer.getPackType_known (by rw [hn1]; exact hn), hn1, if_pos e] at hk
        revert hk; decide
      rw [Demuxer.getTimebase_known (by rw [hn1]; exact hn), hn1] at htb
      cases htb
      rw [hk] at hg
      have hg : generateVideoCodecData o.undef o.grow packAnnexB id ex = ok config := hg
      rcases Demuxer.videoExtraData_cases hx' with ⟨rfl, hex⟩ | ⟨old, hold, hc, hnil, hdat⟩
      · obtain ⟨xs, ps, rfl, hne, hf, hps, rfl, hid⟩ := Demuxer.extract_some (hso hnf rfl) hex
        obtain ⟨c, rfl, hd⟩ := describes_of_generate (us := xs.map (·.2)) (by
          intro v hv
          obtain ⟨x, hx, rfl⟩ := List.mem_map.1 hv
          exact hf x hx) hps hg
        exact .video b dts pts xs hmem hf ⟨rfl, rfl, ps, c, hps, rfl, rfl, hd⟩
      · cases ht old hold with
        | video b' dts' pts' xs hm hf ho =>
          obtain ⟨ps, c, h1, h2, h3, h4⟩ := ho.sets
          rw [h2] at hdat
          subst hdat
          rw [hc] at h1 hm
          obtain ⟨c', rfl, hd⟩ := describes_of_generate (us := xs.map (·.2)) (by
            intro v hv
            obtain ⟨x, hx, rfl⟩ := List.mem_map.1 hv
            exact hf x hx) h1 hg
          exact .video b' dts' pts' xs hm hf ⟨rfl, rfl, ps, c', h1, rfl, rfl, hd⟩
        | audio b' ts' d' hm ho =>
          refine .odd rfl ?_
          show id = codecAAC
          rw [← hc]
          by_contra hna
          have := (ho.other hna).1
          simp [Demuxer.dataIsNil, ho.media, this] at hnil
        | odd hm hc' => exact .odd rfl (by show id = codecAAC; rw [← hc, hc'])
    | newAudio => exact absurd hpo id
    | newVideo => exact absurd hpo id

/-! ## Which packets make a track -/

/-- **C73**: a key frame with parameter sets that can be parsed, on a buffer without a track, before the end of probing: a track is
made of it, and the packet is taken. -/
theorem C73_key_frame {name : String} {a : Bool} {h : List (Oracle × DemuxOp)} {s : Demuxer} (hr : Reached name a h s) (hn : KnownName name)
    (hf : name ≠ "flv") (hc : s.completed = false) {o : Oracle} (ho : o.Valid) {b id dts pts : Int} (hb : b ∉ s.bufferOf.map Prod.snd)
    (hid : HasSets id) {xs : List (Bool × Bytes)} (hx : ∀ x ∈ xs, Framed x.2) {ps : List Bytes}
    (hp : paramSets id (xs.map (·.2)) = some ps) (hs : SpsParses o.undef id ps) :
    ∃ s' u, s.onVideoPacket o b id (annexB xs) true dts pts = ok s' ∧ MakesTrack s s' b u ∧ u.codecID = id ∧
      FromKeyFrame name (xs.map (·.2)) u := by
  have hi := Demuxer.Reached.inv hr
  have hname : s.name = name := Demuxer.Reached.name hr
  have hne : xs ≠ [] := by
    rintro rfl
    have := (paramSets_mem hp)
    cases ps with
    | nil => exact this.1 rfl
    | cons p _ => exact absurd (this.2 p (List.mem_cons_self ..)) (by simp)
  have hfr : ∀ u ∈ xs.map (·.2), Framed u := by
    intro u hu
    obtain ⟨x, hx', rfl⟩ := List.mem_map.1 hu
    exact hx x hx'
  obtain ⟨c, hg⟩ := generate_some (grow := o.grow) hfr hp hs
  obtain ⟨c', rfl, hd⟩ := describes_of_generate hfr hp hg
  have hk : s.getPackType = packAnnexB := by rw [Demuxer.getPackType_known (by rw [hname]; exact hn), hname, if_neg hf]
  have ht : s.findTrackByBufferIndex o b = ok none := Demuxer.findTrack_fresh ho hi hb
  let u : AVStream := { mediaType := mediaVideo, index := s.tracks.size, codecID := id, data := withCodes ps, codecParameters := some c'
                        timebase := timebaseOf name }
  have hu : u.index = s.tracks.tracks.length := rfl
  obtain ⟨s', u', e, hm, hfi⟩ := makes_track (p := o.preprocess ((s.register b u).2.videoPkt b id (annexB xs) true dts pts u)) hi ho hc hu
    (by rw [ho.index]; rfl) (by rw [ho.buffer]; rfl) (b := b)
  refine ⟨s', u', ?_, hm, (Demuxer.Fine.fields hfi).1, hfi.fromKeyFrame ⟨rfl, rfl, ps, c', hp, rfl, rfl, hd⟩⟩
  unfold Demuxer.onVideoPacket
  rw [ht, ok_bind, if_pos ⟨rfl, by rw [hc]; simp, hk⟩]
  have hv : s.videoExtraData id (annexB xs) true = ok (some (withCodes ps)) := by
    unfold Demuxer.videoExtraData
    rw [if_pos rfl, (extract_eq hid hne hx).1 ps hp, ok_bind]
    rfl
  rw [hv, ok_bind]
  dsimp only
  rw [Demuxer.getTimebase_known (by rw [hname]; exact hn), ok_bind, hname]
  have hcr : s.createVideoTrack o b id (if name = "ps" ∨ name = "ts" then 90000 else 1000) (some (withCodes ps)) = ok (s.register b u) := by
    unfold Demuxer.createVideoTrack
    dsimp only [Option.getD_some]
    rw [hk, hg]
    rfl
  rw [hcr, ok_bind]
  rcases Demuxer.register_cases s b u with ⟨_, h1⟩ | ⟨_, h1, _⟩
  · rw [hc] at h1; cases h1
  · have : s.register b u = (some u, (s.register b u).2) := by rw [← h1]
    rw [this]
    exact e

/-- **C73**: audio on a buffer without a track, before the end of probing, makes a track, unless it is AAC without an ADTS header. -/
theorem C73_audio {name : String} {a : Bool} {h : List (Oracle × DemuxOp)} {s : Demuxer} (hr : Reached name a h s) (hn : KnownName name)
    (hc : s.completed = false) {o : Oracle} (ho : o.Valid) {b id ts : Int} (hb : b ∉ s.bufferOf.map Prod.snd) {d : Bytes} :
    if id = codecAAC ∧ ¬ (7 ≤ d.length ∧ bitField d 0 12 = 0xFFF) then
      ∃ s', s.onAudioPacket o b id d ts = ok s' ∧ Refuses s s' b
    else ∃ s' u, s.onAudioPacket o b id d ts = ok s' ∧ MakesTrack s s' b u ∧ u.codecID = id ∧ FromAudio name d u := by
  have hi := Demuxer.Reached.inv hr
  have hname : s.name = name := Demuxer.Reached.name hr
  have ht : s.findTrackByBufferIndex o b = ok none := Demuxer.findTrack_fresh ho hi hb
  have hcond : ¬ s.completed = true ∧ (none : Option AVStream) = none := ⟨by rw [hc]; simp, rfl⟩
  by_cases hbad : id = codecAAC ∧ ¬ (7 ≤ d.length ∧ bitField d 0 12 = 0xFFF)
  · rw [if_pos hbad]
    have : ∃ m, extractAudioExtraData id d = err m := by
      unfold extractAudioExtraData
      rw [if_pos hbad.1]
      by_cases hl : d.length < 7
      · rw [if_pos hl]; exact ⟨_, rfl⟩
      · rw [if_neg hl, readADts_nosync d (by omega)]
        · exact ⟨_, rfl⟩
        · intro hs
          exact hbad.2 ⟨by omega, by rw [bitField_sync (by omega), hs]⟩
    obtain ⟨m, hm⟩ := this
    unfold Demuxer.onAudioPacket
    rw [ht, ok_bind, if_pos hcond, hm]
    exact ⟨_, rfl, rfl⟩
  · rw [if_neg hbad]
    have : ∃ e skip c, extractAudioExtraData id d = ok (e, skip, c) ∧ ¬ (id = codecAAC ∧ c.hasADTSHeader = false) := by
      unfold extractAudioExtraData
      by_cases ha : id = codecAAC
      · rw [if_pos ha]
        have hg : 7 ≤ d.length ∧ bitField d 0 12 = 0xFFF := by
          by_contra hg; exact hbad ⟨ha, hg⟩
        rw [if_neg (by omega), readADts_long d hg.1 (by rw [← bitField_sync (by omega), hg.2]), ok_bind]
        exact ⟨_, _, _, rfl, by simp⟩
      · rw [if_neg ha]
        exact ⟨_, _, _, rfl, fun h => ha h.1⟩
    obtain ⟨e, skip, c, hx, hna⟩ := this
    let u : AVStream := { toAudioConfig := c, mediaType := mediaAudio, index := s.tracks.size, codecID := id, timebase := timebaseOf name
                          data := e.getD [] }
    obtain ⟨s', u', e1, hm, hfi⟩ := makes_track (p := Demuxer.audioPkt o b id d ts u) (u := u) hi ho hc rfl rfl rfl (b := b)
    refine ⟨s', u', ?_, hm, (Demuxer.Fine.fields hfi).1, hfi.fromAudio ?_⟩
    · unfold Demuxer.onAudioPacket
      rw [ht, ok_bind, if_pos hcond, hx]
      dsimp only
      rw [Demuxer.getTimebase_known (by rw [hname]; exact hn), ok_bind, hname]
      have hcr : s.createAudioTrack b id (if name = "ps" ∨ name = "ts" then 90000 else 1000) e c = ok (s.register b u) := by
        unfold Demuxer.createAudioTrack
        dsimp only
        rw [if_neg (by simpa using hna)]
        rfl
      rw [hcr, ok_bind]
      rcases Demuxer.register_cases s b u with ⟨_, h1⟩ | ⟨_, h1, _⟩
      · rw [hc] at h1; cases h1
      · have : s.register b u = (some u, (s.register b u).2) := by rw [← h1]
        rw [this]
        exact e1
    · rw [← hname]
      refine Demuxer.audio_made (s := s) (by rw [hname]; exact hn) hx (Demuxer.getTimebase_known (by rw [hname]; exact hn)) ?_
      refine ⟨c, ?_, fun h => absurd h hna, fun _ => rfl⟩
      show u = _
      simp only [u, hname]
      rfl

/-- **C73**: video on a buffer without a track is given back if probing is over, in FLV, and if it brings no parameter sets and no
track of the codec exists. -/
theorem C73_refused {name : String} {a : Bool} {h : List (Oracle × DemuxOp)} {s : Demuxer} (hr : Reached name a h s) (hn : KnownName name)
    {o : Oracle} (ho : o.Valid) {b id dts pts : Int} {d : Bytes} {key : Bool} (hb : b ∉ s.bufferOf.map Prod.snd)
    (hno : s.completed = true ∨ name = "flv" ∨ ((∀ t ∈ s.tracks.tracks, t.codecID ≠ id) ∧ (key = false ∨ ¬ HasSets id ∨
      ∃ xs : List (Bool × Bytes), xs ≠ [] ∧ (∀ x ∈ xs, Framed x.2) ∧ d = annexB xs ∧ paramSets id (xs.map (·.2)) = none))) :
    ∃ s', s.onVideoPacket o b id d key dts pts = ok s' ∧ Refuses s s' b := by
  have hi := Demuxer.Reached.inv hr
  have hname : s.name = name := Demuxer.Reached.name hr
  have ht : s.findTrackByBufferIndex o b = ok none := Demuxer.findTrack_fresh ho hi hb
  unfold Demuxer.onVideoPacket
  rw [ht, ok_bind]
  split
  · rename_i hcond
    rcases hno with h1 | h1 | ⟨hnt, hnx⟩
    · exact absurd h1 hcond.2.1
    · have := hcond.2.2
      rw [Demuxer.getPackType_known (by rw [hname]; exact hn), hname, if_pos h1] at this
      exact absurd this (by decide)
    · have hfind : s.tracks.find id = none := by
        unfold TrackManager.find
        rw [search_none]
        intro t htm
        simpa using hnt t htm
      have hv : s.videoExtraData id d key = ok none := by
        unfold Demuxer.videoExtraData
        rw [hfind]
        by_cases hk : key = true
        · rw [if_pos hk]
          by_cases hid : HasSets id
          · rcases hnx with h1 | h1 | ⟨xs, hne, hf, rfl, hps⟩
            · rw [hk] at h1; cases h1
            · exact absurd hid h1
            · obtain ⟨m, e⟩ := (extract_eq hid hne hf).2 hps
              rw [e]; rfl
          · have : extractVideoExtraData id d = ok none := by
              unfold HasSets at hid
              unfold extractVideoExtraData
              rw [if_neg (fun e => hid (Or.inl e)), if_neg (fun e => hid (Or.inr e))]
            rw [this]; rfl
        · rw [if_neg hk]; rfl
      rw [hv]
      exact ⟨_, rfl, rfl⟩
  · exact ⟨_, rfl, rfl⟩

/-! ## Concrete cases -/

theorem reached_new (name : String) (a : Bool) : Reached name a [] (Demuxer.new name a) := ⟨fun _ hx => (by cases hx), rfl⟩

/-- The parameter sets of `exUnits`. -/
theorem exUnits_sets : paramSets codecH264 (exUnits.map (·.2)) = some [[103, 66, 0, 31, 218, 1, 64, 22, 228], [104, 206]] := by decide

theorem exUnits_parses : SpsParses exOracle.undef codecH264 [[103, 66, 0, 31, 218, 1, 64, 22, 228], [104, 206]] := by
  refine Or.inl ⟨rfl, [103, 66, 0, 31, 218, 1, 64, 22, 228], [104, 206], ?_⟩
  have h : (match avcParseSPS exOracle.undef ([0, 0, 0, 1] ++ [103, 66, 0, 31, 218, 1, 64, 22, 228]) with | ok _ => true | _ => false) = true := by
    decide +kernel
  cases e : avcParseSPS exOracle.undef ([0, 0, 0, 1] ++ [103, 66, 0, 31, 218, 1, 64, 22, 228]) with
  | ok info => exact ⟨info, rfl, rfl⟩
  | err m => rw [e] at h; cases h
  | panic => rw [e] at h; cases h

/-- The key frame of `exUnits` makes the first track of a TS demuxer. -/
example : ∃ s' u, (Demuxer.new "ts" true).onVideoPacket exOracle 4 codecH264 (annexB exUnits) true 0 0 = ok s' ∧
    MakesTrack (Demuxer.new "ts" true) s' 4 u ∧ u.codecID = codecH264 ∧ FromKeyFrame "ts" (exUnits.map (·.2)) u :=
  C73_key_frame (reached_new "ts" true) (by unfold KnownName; simp) (by decide) rfl exOracle_valid (by decide) (Or.inl rfl) (by decide)
    exUnits_sets exUnits_parses

/-- An ADTS packet makes a track; the same bytes without the header are given back. -/
example : (∃ s' u, (Demuxer.new "ts" true).onAudioPacket exOracle 1 codecAAC [0xff, 0xf1, 0x50, 0x80, 0x01, 0x3f, 0xfc, 1, 2] 0 = ok s' ∧
      MakesTrack (Demuxer.new "ts" true) s' 1 u ∧ u.codecID = codecAAC ∧
      FromAudio "ts" [0xff, 0xf1, 0x50, 0x80, 0x01, 0x3f, 0xfc, 1, 2] u) ∧
    ∃ s', (Demuxer.new "ts" true).onAudioPacket exOracle 1 codecAAC [0x01, 0x3f, 0xfc, 1, 2, 3, 4, 5] 0 = ok s' ∧
      Refuses (Demuxer.new "ts" true) s' 1 := by
  constructor
  · have h := C73_audio (reached_new "ts" true) (by unfold KnownName; simp) rfl exOracle_valid (b := 1) (id := codecAAC) (ts := 0) (by decide)
      (d := [0xff, 0xf1, 0x50, 0x80, 0x01, 0x3f, 0xfc, 1, 2])
    rwa [if_neg (by decide)] at h
  · have h := C73_audio (reached_new "ts" true) (by unfold KnownName; simp) rfl exOracle_valid (b := 1) (id := codecAAC) (ts := 0) (by decide)
      (d := [0x01, 0x3f, 0xfc, 1, 2, 3, 4, 5])
    rwa [if_pos (by decide)] at h

/-- A key frame without parameter sets is given back. -/
example : ∃ s', (Demuxer.new "ps" true).onVideoPacket exOracle 0 codecH264 (annexB [(true, [0x65, 0x88])]) true 0 0 = ok s' ∧
    Refuses (Demuxer.new "ps" true) s' 0 :=
  C73_refused (reached_new "ps" true) (by unfold KnownName; simp) exOracle_valid (by decide)
    (Or.inr (Or.inr ⟨by decide, Or.inr (Or.inr ⟨[(true, [0x65, 0x88])], by decide, by decide, rfl, by decide⟩)⟩))

/-- The tracks of `soundRun`: the first comes from the key frame, the others from audio packets. -/
example : ∃ s, Reached "ts" true soundRun s ∧ s.tracks.tracks.length = 3 ∧
    ∀ t ∈ s.tracks.tracks, CameFrom "ts" (soundRun.map Prod.snd) t := by
  obtain ⟨hv, s, hr, ht⟩ := soundRun_facts
  have hr' : Reached "ts" true soundRun s := ⟨fun x hx => (hv x hx).1, hr⟩
  refine ⟨s, hr', ?_, C73_source hr' (by unfold KnownName; simp) (fun x hx => (hv x hx).2.2) (fun x hx => (hv x hx).2.1)⟩
  simpa using congrArg List.length ht

end Avf
