import Verif.Props.DemuxerFatal
import Verif.Props.Codec
import Verif.Model.Packet
/-!
# C88: streams made from a key frame, codec data made from a record (`CreateAVCStreamFromKeyFrame`,
`CreateHevcStreamFromKeyFrame`, `NewCodecDataFrom…DecoderConfigurationRecord`), and the dispatch of `IsKeyFrame`
-/
namespace Avf
open Go

/-! ## IsKeyFrame -/

/-- **C28**, **C29** for `avformat.IsKeyFrame`: H.264 payloads are judged by the rule of H.264, H.265 payloads by that of H.265,
all others are no key frames. The numbers are those of `utils.AVCodecID`. -/
theorem C28_dispatch (id : Int) (p : Bytes) :
    isKeyFrame id p = ok (if id = 27 then avcKey (headers p) else if id = 173 then hevcKey (headers p) else false) := by
  unfold isKeyFrame
  rw [C28_avc_key_frame, C29_hevc_key_frame]
  show (if id = 27 then _ else if id = 173 then _ else _) = _
  split
  · rfl
  · split <;> rfl

example : isKeyFrame 27 [0, 0, 0, 1, 0x26, 1] = ok false ∧ isKeyFrame 173 [0, 0, 0, 1, 0x26, 1] = ok true ∧
    isKeyFrame 27 [0, 0, 0, 1, 0x65, 1] = ok true ∧ isKeyFrame 173 [0, 0, 0, 1, 0x65, 1] = ok false ∧
    isKeyFrame 28 [0, 0, 0, 1, 0x65, 1] = ok false := by decide +kernel

/-! ## Streams from key frames -/

/-- The H.264 stream with the given parameter sets. -/
structure IsAvcStream (undef : Int) (t : AVStream) (index : Int) (sps pps : Bytes) : Prop where
  video : t.mediaType = 0
  h264 : t.codecID = 27
  index_eq : t.index = index
  data_eq : t.data = [0, 0, 0, 1] ++ sps ++ [0, 0, 0, 1] ++ pps
  untimed : t.timebase = 0
  noAudio : t.toAudioConfig = {}
  codec : ∃ c info, t.codecParameters = some c ∧ c.sps = [[0, 0, 0, 1] ++ sps] ∧ c.pps = [[0, 0, 0, 1] ++ pps] ∧
    c.annexBExtraData = t.data ∧ avcParseSPS undef ([0, 0, 0, 1] ++ sps) = ok info ∧ c.width = info.width ∧ c.height = info.height

/-- The H.265 stream with the given parameter sets. -/
structure IsHevcStream (t : AVStream) (index : Int) (vps sps pps : Bytes) : Prop where
  video : t.mediaType = 0
  h265 : t.codecID = 173
  index_eq : t.index = index
  data_eq : t.data = [0, 0, 0, 1] ++ vps ++ [0, 0, 0, 1] ++ sps ++ [0, 0, 0, 1] ++ pps
  untimed : t.timebase = 0
  noAudio : t.toAudioConfig = {}
  codec : ∃ c info, t.codecParameters = some c ∧ c.vps = [[0, 0, 0, 1] ++ vps] ∧ c.sps = [[0, 0, 0, 1] ++ sps] ∧
    c.pps = [[0, 0, 0, 1] ++ pps] ∧ c.annexBExtraData = t.data ∧ hevcParseSPS ([0, 0, 0, 1] ++ sps) = ok info ∧
    c.width = info.width ∧ c.height = info.height

/-- The last unit of type `t`. -/
def lastOfType (type : Bytes → Nat) (t : Nat) (us : List Bytes) : Option Bytes := (us.filter fun u => type u = t).getLast?

theorem newAVC_startCode (undef : Int) (s pps : Bytes) : newAVCCodecData undef ([0, 0, 0, 1] ++ s) pps ≠ Go.panic := by
  intro h
  have := ((C69_avc_new_iff undef _ pps).2).1 h
  simp at this

theorem newHEVC_startCode (vps s pps : Bytes) : newHEVCCodecData vps ([0, 0, 0, 1] ++ s) pps ≠ Go.panic := by
  intro h
  have := ((C69_hevc_new_iff vps _ pps).2).1 h
  simp at this

/-- **C88** for every H.264 payload that the search for parameter sets survives: the stream has the last SPS and the last PPS of
the payload, if it has both and the SPS can be parsed; otherwise there is an error. -/
theorem C88_avc (undef : Int) (p : Bytes) (index : Int) (ss : List Bytes) (h : Pieces p ss) (hb : ∀ s ∈ ss, ¬ BadPiece s) :
    match lastOfType avcUnitType 7 (ss.map unitIn), lastOfType avcUnitType 8 (ss.map unitIn) with
    | some sps, some pps =>
      ((∃ info, avcParseSPS undef ([0, 0, 0, 1] ++ sps) = ok info) →
        ∃ t, createAVCStreamFromKeyFrame undef p index = ok t ∧ IsAvcStream undef t index sps pps) ∧
      ((∀ info, avcParseSPS undef ([0, 0, 0, 1] ++ sps) ≠ ok info) → ∃ e, createAVCStreamFromKeyFrame undef p index = err e)
    | _, _ => ∃ e, createAVCStreamFromKeyFrame undef p index = err e := by
  have hp := C39_exact p ss h
  rw [if_neg (by rintro ⟨s, hs, hbad⟩; exact hb s hs hbad)] at hp
  unfold createAVCStreamFromKeyFrame
  rw [hp]
  unfold lastUnit lastOfType
  cases List.getLast? (List.filter (fun u => decide (avcUnitType u = 7)) (ss.map unitIn)) with
  | none => exact ⟨_, rfl⟩
  | some sps =>
    cases List.getLast? (List.filter (fun u => decide (avcUnitType u = 8)) (ss.map unitIn)) with
    | none => exact ⟨_, rfl⟩
    | some pps =>
      dsimp only [Option.map_some]
      rw [ok_bind]
      dsimp only
      cases hc : newAVCCodecData undef ([0, 0, 0, 1] ++ sps) ([0, 0, 0, 1] ++ pps) with
      | panic => exact absurd hc (newAVC_startCode _ _ _)
      | err e =>
        refine ⟨fun hi => ?_, fun _ => ⟨e, rfl⟩⟩
        obtain ⟨c, hc'⟩ := (C69_avc_new_iff undef _ ([0, 0, 0, 1] ++ pps)).1.2 hi
        rw [hc] at hc'; cases hc'
      | ok c =>
        obtain ⟨e1, e2, e3, info, e4, e5, e6⟩ := C69_avc_new undef _ _ c hc
        refine ⟨fun _ => ⟨_, rfl, rfl, rfl, rfl, ?_, rfl, rfl, c, info, rfl, e2, e3, rfl, e4, e5, e6⟩, fun hno => absurd e4 (hno info)⟩
        simp only [e1]
        simp

/-- **C88** for H.265. -/
theorem C88_hevc (p : Bytes) (index : Int) (ss : List Bytes) (h : Pieces p ss) (hb : ∀ s ∈ ss, ¬ BadPiece s) :
    match lastOfType hevcUnitType 32 (ss.map unitIn), lastOfType hevcUnitType 33 (ss.map unitIn),
      lastOfType hevcUnitType 34 (ss.map unitIn) with
    | some vps, some sps, some pps =>
      ((∃ info, hevcParseSPS ([0, 0, 0, 1] ++ sps) = ok info) →
        ∃ t, createHevcStreamFromKeyFrame p index = ok t ∧ IsHevcStream t index vps sps pps) ∧
      ((∀ info, hevcParseSPS ([0, 0, 0, 1] ++ sps) ≠ ok info) → ∃ e, createHevcStreamFromKeyFrame p index = err e)
    | _, _, _ => ∃ e, createHevcStreamFromKeyFrame p index = err e := by
  have hp := C40_exact p ss h
  rw [if_neg (by rintro ⟨s, hs, hbad⟩; exact hb s hs hbad)] at hp
  unfold createHevcStreamFromKeyFrame
  rw [hp]
  unfold lastUnit lastOfType
  cases List.getLast? (List.filter (fun u => decide (hevcUnitType u = 32)) (ss.map unitIn)) with
  | none => exact ⟨_, rfl⟩
  | some vps =>
  cases List.getLast? (List.filter (fun u => decide (hevcUnitType u = 33)) (ss.map unitIn)) with
  | none => exact ⟨_, rfl⟩
  | some sps =>
    cases List.getLast? (List.filter (fun u => decide (hevcUnitType u = 34)) (ss.map unitIn)) with
    | none => exact ⟨_, rfl⟩
    | some pps =>
      dsimp only [Option.map_some]
      rw [ok_bind]
      dsimp only
      cases hc : newHEVCCodecData ([0, 0, 0, 1] ++ vps) ([0, 0, 0, 1] ++ sps) ([0, 0, 0, 1] ++ pps) with
      | panic => exact absurd hc (newHEVC_startCode _ _ _)
      | err e =>
        refine ⟨fun hi => ?_, fun _ => ⟨e, rfl⟩⟩
        obtain ⟨c, hc'⟩ := (C69_hevc_new_iff ([0, 0, 0, 1] ++ vps) _ ([0, 0, 0, 1] ++ pps)).1.2 hi
        rw [hc] at hc'; cases hc'
      | ok c =>
        obtain ⟨e1, e2, e3, info, e4, e5, e6⟩ := C69_hevc_new _ _ _ c hc
        have e7 : c.vps = [[0, 0, 0, 1] ++ vps] := C69_hevc_new_vps _ _ _ c hc
        refine ⟨fun _ => ⟨_, rfl, rfl, rfl, rfl, ?_, rfl, rfl, c, info, rfl, e7, e2, e3, rfl, e4, e5, e6⟩, fun hno => absurd e4 (hno info)⟩
        simp only [e1]
        simp

/-- **C88** all other payloads panic, and only those. -/
theorem C88_panics_iff (undef : Int) (p : Bytes) (index : Int) :
    (createAVCStreamFromKeyFrame undef p index = Go.panic ↔ BadUnits p) ∧
    (createHevcStreamFromKeyFrame p index = Go.panic ↔ BadUnits p) := by
  constructor
  · rw [← C39_panics_iff]
    unfold createAVCStreamFromKeyFrame
    by_cases hl : p.length < 3
    · rw [(C39_panics_iff p).2 (Or.inl hl)]; simp
    obtain ⟨ss, h⟩ := pieces_exists p (by omega)
    rw [C39_exact p ss h]
    by_cases hb : ∃ s ∈ ss, BadPiece s
    · rw [if_pos hb]; simp
    · rw [if_neg hb]
      unfold lastUnit
      cases List.getLast? (List.filter (fun u => decide (avcUnitType u = 7)) (ss.map unitIn)) with
      | none => simp
      | some sps =>
        cases List.getLast? (List.filter (fun u => decide (avcUnitType u = 8)) (ss.map unitIn)) with
        | none => simp
        | some pps =>
          dsimp only [Option.map_some]
          rw [ok_bind]
          dsimp only
          have := newAVC_startCode undef sps ([0, 0, 0, 1] ++ pps)
          cases hc : newAVCCodecData undef ([0, 0, 0, 1] ++ sps) ([0, 0, 0, 1] ++ pps) with
          | panic => exact absurd hc this
          | err e => simp
          | ok c => simp
  · rw [← C40_panics_iff]
    unfold createHevcStreamFromKeyFrame
    by_cases hl : p.length < 3
    · rw [(C40_panics_iff p).2 (Or.inl hl)]; simp
    obtain ⟨ss, h⟩ := pieces_exists p (by omega)
    rw [C40_exact p ss h]
    by_cases hb : ∃ s ∈ ss, BadPiece s
    · rw [if_pos hb]; simp
    · rw [if_neg hb]
      unfold lastUnit
      cases List.getLast? (List.filter (fun u => decide (hevcUnitType u = 32)) (ss.map unitIn)) with
      | none => simp
      | some vps =>
      cases List.getLast? (List.filter (fun u => decide (hevcUnitType u = 33)) (ss.map unitIn)) with
      | none => simp
      | some sps =>
        cases List.getLast? (List.filter (fun u => decide (hevcUnitType u = 34)) (ss.map unitIn)) with
        | none => simp
        | some pps =>
          dsimp only [Option.map_some]
          rw [ok_bind]
          dsimp only
          have := newHEVC_startCode ([0, 0, 0, 1] ++ vps) sps ([0, 0, 0, 1] ++ pps)
          cases hc : newHEVCCodecData ([0, 0, 0, 1] ++ vps) ([0, 0, 0, 1] ++ sps) ([0, 0, 0, 1] ++ pps) with
          | panic => exact absurd hc this
          | err e => simp
          | ok c => simp

/-- **C88** the two ways to the codec data agree: the stream has the codec data that the demuxer generates from the same payload
and, for H.264, the extra data that it extracts. -/
theorem C88_agrees (undef : Int) (grow : Nat → Nat) (p : Bytes) (index : Int) (t : AVStream) :
    (createAVCStreamFromKeyFrame undef p index = ok t →
      generateVideoCodecData undef grow packAnnexB codecH264 p = ok t.codecParameters ∧
      extractVideoExtraData codecH264 p = ok (some t.data)) ∧
    (createHevcStreamFromKeyFrame p index = ok t →
      generateVideoCodecData undef grow packAnnexB codecH265 p = ok t.codecParameters ∧
      extractVideoExtraData codecH265 p = ok (some t.data)) := by
  constructor
  · intro h
    unfold createAVCStreamFromKeyFrame at h
    obtain ⟨⟨sps, pps⟩, h1, h⟩ := bind_eq_ok.1 h
    obtain ⟨c, h2, h⟩ := bind_eq_ok.1 h
    cases h
    refine ⟨?_, ?_⟩
    · show (avcParseExtraData p >>= _) = _
      rw [h1, ok_bind]
      show (newAVCCodecData undef sps pps >>= _) = _
      rw [h2]; rfl
    · show (avcParseExtraData p >>= _) = _
      rw [h1, ok_bind]
      show ok (some (sps ++ pps)) = ok (some c.annexBExtraData)
      rw [(C69_avc_new undef _ _ c h2).1]
  · intro h
    unfold createHevcStreamFromKeyFrame at h
    obtain ⟨⟨vps, sps, pps⟩, h1, h⟩ := bind_eq_ok.1 h
    obtain ⟨c, h2, h⟩ := bind_eq_ok.1 h
    cases h
    refine ⟨?_, ?_⟩
    · show (hevcParseExtraData p >>= _) = _
      rw [h1, ok_bind]
      show (newHEVCCodecData vps sps pps >>= _) = _
      rw [h2]; rfl
    · show (hevcParseExtraData p >>= _) = _
      rw [h1, ok_bind]
      show ok (some (vps ++ sps ++ pps)) = ok (some c.annexBExtraData)
      rw [(C69_hevc_new _ _ _ c h2).1]

/-! ## Codec data from a record -/

/-- **C88** `avc.NewCodecDataFromAVCDecoderConfigurationRecord` on any input gives the record and the SPS behind the result of
`ParseAVCDecoderConfigurationRecord`, fails when that fails, and does not panic. -/
theorem C88_avc_record (undef : Int) (data : Bytes) (hlen : data.length < 2 ^ 62) :
    avcNewCodecData undef data ≠ Go.panic ∧
    (∀ c, parseAVCRecord undef data = ok c → ∃ r info, avcNewCodecData undef data = ok (r, info) ∧ c.record = .avc r ∧
      c.width = info.width ∧ c.height = info.height) ∧
    (∀ e, parseAVCRecord undef data = err e → avcNewCodecData undef data = err e) := by
  have hp := (C69_avc_record_iff undef data hlen).1
  revert hp
  unfold parseAVCRecord avcNewCodecData
  cases avcUnmarshal {} data with
  | panic => simp
  | err e => simp
  | ok x =>
    rw [ok_bind, ok_bind]
    rcases x with ⟨_ | _, r⟩
    · simp
    · dsimp only
      cases idx r.spsList 0 with
      | panic => simp
      | err e => simp
      | ok s =>
        rw [ok_bind, ok_bind]
        cases avcParseSPS undef s with
        | panic => simp
        | err e => simp
        | ok info =>
          simp only [ok_bind, pure_def]
          intro _
          refine ⟨by simp, ?_, by simp⟩
          intro c hc
          cases hc
          exact ⟨r, info, rfl, rfl, rfl, rfl⟩

/-- **C88** for H.265. -/
theorem C88_hevc_record (grow : Nat → Nat) (data : Bytes) (hlen : data.length < 2 ^ 62) :
    hevcNewCodecData grow data ≠ Go.panic ∧
    (∀ c, parseHEVCRecord grow data = ok c → ∃ r info, hevcNewCodecData grow data = ok (r, info) ∧ c.record = .hevc r ∧
      c.width = info.width ∧ c.height = info.height) ∧
    (∀ e, parseHEVCRecord grow data = err e → hevcNewCodecData grow data = err e) := by
  have hp := C69_hevc_record_total grow data hlen
  revert hp
  unfold parseHEVCRecord hevcNewCodecData
  cases hevcUnmarshal grow {} data with
  | panic => simp
  | err e => simp
  | ok x =>
    rw [ok_bind, ok_bind]
    rcases x with ⟨_ | _, r⟩
    · simp
    · dsimp only
      cases idx r.spsList 0 with
      | panic => simp
      | err e => simp
      | ok s =>
        rw [ok_bind, ok_bind]
        cases hevcParseSPS s with
        | panic => simp
        | err e => simp
        | ok info =>
          simp only [ok_bind, pure_def]
          intro _
          refine ⟨by simp, ?_, by simp⟩
          intro c hc
          cases hc
          exact ⟨r, info, rfl, rfl, rfl, rfl⟩

/-! ## A concrete case -/

def exHevcKey : Bytes := [0, 0, 0, 1, 64, 1, 7, 0, 0, 1] ++ exHevcSps ++ [0, 0, 0, 1, 68, 1, 0, 0, 1, 38, 1, 9]

/-- A key frame with VPS, SPS (1280x720) and PPS. -/
example : Pieces exHevcKey [[0, 0, 0, 1, 64, 1, 7], [0, 0, 1] ++ exHevcSps, [0, 0, 0, 1, 68, 1], [0, 0, 1, 38, 1, 9]] := by
  rw [← C30_exact]; decide +kernel
example : ∃ t c, createHevcStreamFromKeyFrame exHevcKey 3 = ok t ∧ t.codecParameters = some c ∧ t.index = 3 ∧ t.codecID = 173 ∧
    t.data = [0, 0, 0, 1, 64, 1, 7, 0, 0, 0, 1] ++ exHevcSps ++ [0, 0, 0, 1, 68, 1] ∧ c.width = 1280 ∧ c.height = 720 ∧
    c.vps = [[0, 0, 0, 1, 64, 1, 7]] :=
  ⟨{ mediaType := mediaVideo, index := 3, codecID := codecH265, data := [0, 0, 0, 1, 64, 1, 7, 0, 0, 0, 1] ++ exHevcSps ++ [0, 0, 0, 1, 68, 1],
     codecParameters := some ⟨1280, 720, some ([0, 0, 0, 1, 64, 1, 7, 0, 0, 0, 1] ++ exHevcSps ++ [0, 0, 0, 1, 68, 1]), none,
      .hevc { vpsList := [[0, 0, 0, 1, 64, 1, 7]], spsList := [[0, 0, 0, 1] ++ exHevcSps], ppsList := [[0, 0, 0, 1, 68, 1]], ppsCap := 1 }⟩ },
   _, by decide +kernel, rfl, rfl, rfl, rfl, rfl, rfl, rfl⟩
/-- Without a PPS there is an error, with a bare start code a panic. -/
example : (createHevcStreamFromKeyFrame ([0, 0, 0, 1, 64, 1, 7, 0, 0, 1] ++ exHevcSps) 3).isErr = true ∧
    createHevcStreamFromKeyFrame (exHevcKey ++ [0, 0, 0, 1, 0, 0, 0, 1, 7]) 3 = Go.panic := by decide +kernel

end Avf
