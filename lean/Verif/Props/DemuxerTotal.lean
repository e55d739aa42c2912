import Verif.Lemmas.DemuxerSound
import Verif.Props.Demuxer
/-! # C72: input that makes the demuxer panic, and input that does not -/
namespace Avf
open Go

/-- **C72** in full: whatever packets come in, the demuxer does not panic. -/
def C72_claim : Prop := ∀ (name : String) (a : Bool) (h : List (Oracle × DemuxOp)), KnownName name → (∀ x ∈ h, x.1.Valid) →
  (∀ x ∈ h, x.2.PacketOnly) → runDemux (Demuxer.new name a) h ≠ Go.panic

/-- **C72** for sound input: key frames of H.264 and H.265 well framed, parameters of new tracks well formed, everything else
arbitrary. Every history runs to its end. What is missing is key frames that are not well framed: some make the demuxer
panic (`C72_claim_violated`). -/
theorem C72_sound_partial (name : String) (a : Bool) (h : List (Oracle × DemuxOp)) (hn : KnownName name) (hv : ∀ x ∈ h, x.1.Valid)
    (hs : ∀ x ∈ h, x.2.Sound name) : ∃ s, Reached name a h s := by
  obtain ⟨s, hr⟩ := Demuxer.runDemux_ok (s := Demuxer.new name a) (Demuxer.Inv.new name a) hn (fun _ t ht => by cases ht) hv hs
  exact ⟨s, hv, hr⟩

/-- **C72** for FLV: no packet makes it panic. -/
theorem C72_flv (a : Bool) (h : List (Oracle × DemuxOp)) (hv : ∀ x ∈ h, x.1.Valid) (hp : ∀ x ∈ h, x.2.PacketOnly) :
    ∃ s, Reached "flv" a h s := by
  refine C72_sound_partial "flv" a h (Or.inl rfl) hv fun x hx => ?_
  have := hp x hx
  cases e : x.2 <;> rw [e] at this
  case newAudioTrack => exact absurd this id
  case newVideoTrack => exact absurd this id
  case videoPacket => exact fun hn => absurd rfl hn
  all_goals trivial

/-- A video packet that is taken as an access unit with parameter sets. -/
def DemuxOp.IsSetsFrame : DemuxOp → Prop
  | .videoPacket _ id _ key _ _ => key = true ∧ HasSets id
  | _ => False

/-- **C72**: audio, video that is not a key frame, and video of other codecs never make it panic. -/
theorem C72_no_key_frames (name : String) (a : Bool) (h : List (Oracle × DemuxOp)) (hn : KnownName name) (hv : ∀ x ∈ h, x.1.Valid)
    (hp : ∀ x ∈ h, x.2.PacketOnly) (hk : ∀ x ∈ h, ¬ x.2.IsSetsFrame) : ∃ s, Reached name a h s := by
  refine C72_sound_partial name a h hn hv fun x hx => ?_
  have := hp x hx
  have hk := hk x hx
  cases e : x.2 <;> rw [e] at this hk
  case newAudioTrack => exact absurd this id
  case newVideoTrack => exact absurd this id
  case videoPacket => exact fun _ h1 h2 => absurd ⟨h1, h2⟩ hk
  all_goals trivial

/-- **C72**: a key frame of less than three bytes is always a panic, unless the buffer has a track or probing is over. -/
theorem C72_short_panics {s : Demuxer} {o : Oracle} {b id : Int} {d : Bytes} {dts pts : Int} (hn : KnownName s.name) (hf : s.name ≠ "flv")
    (ht : s.findTrackByBufferIndex o b = ok none) (hc : s.completed = false) (hid : HasSets id) (hd : d.length < 3) :
    s.onVideoPacket o b id d true dts pts = Go.panic := by
  unfold Demuxer.onVideoPacket
  rw [ht, ok_bind, if_pos ⟨rfl, by rw [hc]; simp, by rw [Demuxer.getPackType_known hn, if_neg hf]⟩]
  have : extractVideoExtraData id d = Go.panic := by
    unfold extractVideoExtraData
    rcases hid with rfl | rfl
    · rw [if_pos rfl, avcParseExtraData, C30_short_panics d hd]; rfl
    · rw [if_neg (by decide), if_pos rfl, hevcParseExtraData, C30_short_panics d hd]; rfl
  unfold Demuxer.videoExtraData
  rw [if_pos rfl, this]
  rfl

/-- Key frames that make a new demuxer panic: one of two bytes, one with an empty unit between two start codes, one whose
parameter sets are found but cannot be split again (the SPS comes last and a start code ends the data), and the same for
H.265. -/
def badFrames : List (Int × Bytes) :=
  [(codecH264, [0x67, 0x42]),
   (codecH264, [0, 0, 0, 1, 0x67, 0x42, 0, 30, 0, 0, 0, 1, 0, 0, 0, 1, 0x68, 0xce]),
   (codecH264, [0, 0, 0, 1, 0x68, 0xce, 0, 0, 0, 1, 0x67, 0x42, 0, 30, 0, 0, 0, 1]),
   (codecH265, [0x40, 1]),
   (codecH265, [0, 0, 0, 1, 0x40, 1, 0, 0, 0, 1, 0, 0, 0, 1, 0x42, 1]),
   (codecH265, [0, 0, 0, 1, 0x42, 1, 0, 0, 0, 1, 0x44, 1, 0, 0, 0, 1, 0x40, 1, 0, 0, 0, 1])]

/-- `x` is a panic. -/
def panics {α : Type} : Go α → Bool
  | .panic => true
  | _ => false

theorem of_panics {α : Type} {x : Go α} (h : panics x = true) : x = Go.panic := by cases x <;> first | rfl | cases h

theorem C72_bad_frames : ∀ f ∈ badFrames, runDemux (Demuxer.new "ts" true) [(exOracle, .videoPacket 0 f.1 f.2 true 0 0)] = Go.panic := by
  have : badFrames.all fun f => panics (runDemux (Demuxer.new "ts" true) [(exOracle, .videoPacket 0 f.1 f.2 true 0 0)]) := by decide +kernel
  intro f hf
  exact of_panics (List.all_eq_true.1 this f hf)

/-- **C72** is false of the code. -/
theorem C72_claim_violated : ¬ C72_claim := by
  intro hc
  refine hc "ts" true [(exOracle, .videoPacket 0 codecH264 [0x67, 0x42] true 0 0)] (by unfold KnownName; simp) ?_ ?_
    (C72_bad_frames (codecH264, [0x67, 0x42]) (by decide))
  · intro x hx; rw [List.mem_singleton] at hx; subst hx; exact exOracle_valid
  · intro x hx; rw [List.mem_singleton] at hx; subst hx; trivial

/-- A demuxer with a name that it does not know panics at the first audio packet; track announcements without the data that
the codec needs are panics too. -/
theorem C72_bad_tracks :
    runDemux (Demuxer.new "rtp" true) [(exOracle, .audioPacket 0 codecPCMS16LE [1, 2] 0)] = Go.panic ∧
    runDemux (Demuxer.new "ts" true) [(exOracle, .newVideoTrack 0 codecH264 1000 none)] = Go.panic ∧
    runDemux (Demuxer.new "flv" true) [(exOracle, .newAudioTrack 0 codecAAC 1000 none {})] = Go.panic ∧
    runDemux (Demuxer.new "flv" true) [(exOracle, .newAudioTrack 0 codecAAC 1000 (some [0x12]) {})] = Go.panic :=
  ⟨of_panics (by decide +kernel), of_panics (by decide +kernel), of_panics (by decide +kernel), of_panics (by decide +kernel)⟩

/-- The units of a key frame. -/
def exUnits : List (Bool × Bytes) :=
  [(true, [103, 66, 0, 31, 218, 1, 64, 22, 228]), (false, [104, 206]), (false, [0x65, 0x88])]

/-- A sound history that makes three tracks. -/
def soundRun : List (Oracle × DemuxOp) :=
  [(exOracle, .videoPacket 0 codecH264 (annexB exUnits) true 0 0),
   (exOracle, .audioPacket 1 codecAAC [0xff, 0xf1, 0x50, 0x80, 0x01, 0x3f, 0xfc, 1, 2] 0),
   (exOracle, .videoPacket 0 codecH264 [1] false 3600 3600), (exOracle, .audioPacket 2 codecPCMS16LE [] 5)]

theorem exUnits_framed : WellFramed (annexB exUnits) := ⟨exUnits, by decide, by decide, rfl⟩

theorem soundRun_facts : (∀ x ∈ soundRun, x.1.Valid ∧ x.2.Sound "ts" ∧ x.2.PacketOnly) ∧
    (∃ s, runDemux (Demuxer.new "ts" true) soundRun = ok s ∧
      s.tracks.tracks.map (fun t => (t.index, t.mediaType, t.codecID, t.sampleRate)) =
        [(0, mediaVideo, codecH264, 0), (1, mediaAudio, codecAAC, 44100), (2, mediaAudio, codecPCMS16LE, 8000)]) := by
  constructor
  · intro x hx
    simp only [soundRun, List.mem_cons, List.not_mem_nil, or_false] at hx
    rcases hx with rfl | rfl | rfl | rfl
    · exact ⟨exOracle_valid, fun _ _ _ => exUnits_framed, trivial⟩
    · exact ⟨exOracle_valid, trivial, trivial⟩
    · refine ⟨exOracle_valid, ?_, trivial⟩
      intro _ hk
      cases hk
    · exact ⟨exOracle_valid, trivial, trivial⟩
  · have h : (runDemux (Demuxer.new "ts" true) soundRun >>= fun s => do
        return s.tracks.tracks.map (fun t => (t.index, t.mediaType, t.codecID, t.sampleRate))) =
        ok [(0, mediaVideo, codecH264, 0), (1, mediaAudio, codecAAC, 44100), (2, mediaAudio, codecPCMS16LE, 8000)] := by decide +kernel
    obtain ⟨s, h1, h⟩ := bind_eq_ok.1 h
    exact ⟨s, h1, by simpa using h⟩

end Avf
