import Verif.Spec.Demuxer
import Verif.Spec.Nal
import Verif.Spec.Aac
import Verif.Spec.Record
/-!
# Specification: what a demuxer may be fed, and where tracks come from
-/
namespace Avf
open Go

/-- A payload made of NAL units that can be told from each other, behind start codes. -/
def WellFramed (d : Bytes) : Prop := ∃ xs : List (Bool × Bytes), xs ≠ [] ∧ (∀ x ∈ xs, Framed x.2) ∧ d = annexB xs

/-- The codecs whose parameter sets the demuxer reads. -/
def HasSets (id : Int) : Prop := id = codecH264 ∨ id = codecH265

instance (id : Int) : Decidable (HasSets id) := by unfold HasSets; infer_instance

/-- The container formats that the demuxer knows. -/
def KnownName (name : String) : Prop := name = "flv" ∨ name = "jt1078" ∨ name = "ps" ∨ name = "ts"

/-- The last unit of a kind. -/
def lastOf (type : Bytes → Nat) (t : Nat) (us : List Bytes) : Option Bytes := (us.filter fun u => type u = t).getLast?

/-- The parameter sets of an access unit: SPS and PPS, for H.265 VPS, SPS and PPS; of each kind the last. -/
def paramSets (id : Int) (us : List Bytes) : Option (List Bytes) :=
  if id = codecH264 then
    match lastOf avcUnitType 7 us, lastOf avcUnitType 8 us with
    | some s, some p => some [s, p]
    | _, _ => none
  else if id = codecH265 then
    match lastOf hevcUnitType 32 us, lastOf hevcUnitType 33 us, lastOf hevcUnitType 34 us with
    | some v, some s, some p => some [v, s, p]
    | _, _, _ => none
  else none

/-- Input that the demuxer copes with: key frames of H.264 and H.265 are well framed; so are the parameter sets given for a
video track (in FLV they may be anything); audio tracks have audio codecs, and AAC comes with two bytes of configuration or an
ADTS header. Audio packets and other video packets may be anything. -/
def DemuxOp.Sound (name : String) : DemuxOp → Prop
  | .videoPacket _ id d key _ _ => name ≠ "flv" → key = true → HasSets id → WellFramed d
  | .newVideoTrack _ id _ e => HasSets id → if name = "flv" then (e.getD []).length < 2 ^ 62 else WellFramed (e.getD [])
  | .newAudioTrack _ id _ e c => ¬ HasSets id ∧ (id = codecAAC → c.hasADTSHeader = false → 2 ≤ (e.getD []).length)
  | _ => True

/-! ## Where tracks come from -/

/-- Ticks per second in a container format. -/
def timebaseOf (name : String) : Int := if name = "ps" ∨ name = "ts" then 90000 else 1000

/-- Codec data that belongs to these parameter sets: it has them, and the size that the SPS says. -/
def Describes (id : Int) (ps : List Bytes) (c : CodecData) : Prop :=
  c.annexBExtraData = withCodes ps ∧
  ((id = codecH264 ∧ ∃ s p undef info, ps = [s, p] ∧ c.sps = [[0, 0, 0, 1] ++ s] ∧ c.pps = [[0, 0, 0, 1] ++ p] ∧
    avcParseSPS undef ([0, 0, 0, 1] ++ s) = ok info ∧ c.width = info.width ∧ c.height = info.height) ∨
  (id = codecH265 ∧ ∃ v s p info, ps = [v, s, p] ∧ c.sps = [[0, 0, 0, 1] ++ s] ∧ c.pps = [[0, 0, 0, 1] ++ p] ∧
    hevcParseSPS ([0, 0, 0, 1] ++ s) = ok info ∧ c.width = info.width ∧ c.height = info.height))

/-- A video track as a key frame made of these units defines it. -/
structure FromKeyFrame (name : String) (us : List Bytes) (t : AVStream) : Prop where
  media : t.mediaType = mediaVideo
  timebase : t.timebase = timebaseOf name
  sets : ∃ ps c, paramSets t.codecID us = some ps ∧ t.data = withCodes ps ∧ t.codecParameters = some c ∧ Describes t.codecID ps c

/-- An audio track as one packet of it defines it. AAC packets have an ADTS header: object type, sampling rate and channel
configuration are in bits 16 to 25. Anything else is taken as 8 kHz, 16 bits, mono; the rates of PCM and G.726 are measured
later (C67). -/
structure FromAudio (name : String) (d : Bytes) (t : AVStream) : Prop where
  media : t.mediaType = mediaAudio
  timebase : t.timebase = timebaseOf name
  size : t.sampleSize = 16
  parameters : t.codecParameters = none
  adts : t.hasADTSHeader = decide (t.codecID = codecAAC)
  aac : t.codecID = codecAAC → 7 ≤ d.length ∧ bitField d 0 12 = 0xFFF ∧
    bits t.data = ascBits (bitField d 16 2 + 1) (bitField d 18 4) (bitField d 23 3) ++ [false, false, false] ∧
    (t.sampleRate = match aacRates[bitField d 18 4]? with | some r => (r : Int) | none => -1) ∧ t.channels = bitField d 23 3
  other : t.codecID ≠ codecAAC → t.data = [] ∧ t.channels = 1 ∧ (t.codecID ≠ codecPCMS16LE → t.sampleRate = 8000)
  bitRate : t.codecID ≠ codecG726 → t.bitRate = 0

/-! ## Which packets make a track -/

/-- The SPS among these parameter sets can be parsed. -/
def SpsParses (undef : Int) (id : Int) (ps : List Bytes) : Prop :=
  (id = codecH264 ∧ ∃ s p info, ps = [s, p] ∧ avcParseSPS undef ([0, 0, 0, 1] ++ s) = ok info) ∨
  (id = codecH265 ∧ ∃ v s p info, ps = [v, s, p] ∧ hevcParseSPS ([0, 0, 0, 1] ++ s) = ok info)

/-- What the arrival of the first packet of a buffer does: the packet is taken, and there is one more track, `u`, at the end, with
the index that the packet has. -/
def MakesTrack (s s' : Demuxer) (b : Int) (u : AVStream) : Prop :=
  ∃ (p : AVPacket) (old : List AVStream), taken s'.calls = taken s.calls ++ [p] ∧ p.bufferIndex = b ∧ p.index = s.tracks.tracks.length ∧
    s'.tracks.tracks = old ++ [u] ∧ old.length = s.tracks.tracks.length ∧ u.index = s.tracks.tracks.length ∧
    ((s.tracks.tracks.length : Int), b) ∈ s'.bufferOf

/-- The packet is given back; nothing else happens. -/
def Refuses (s s' : Demuxer) (b : Int) : Prop := s' = s.call [.discardBack b]

end Avf
