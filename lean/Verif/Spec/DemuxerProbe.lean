import Verif.Spec.Demuxer
/-!
# Specification: when probing may be ended early, and what announcing a track does
-/
namespace Avf
open Go

/-- Codecs whose rate is measured with packets: the duration of a packet is known when the next one has come. -/
def Measured (id : Int) : Prop := id = codecPCMS16LE ∨ id = codecG726

instance (id : Int) : Decidable (Measured id) := by unfold Measured; infer_instance

/-- How many packets of a track have been taken. -/
def takenOf (s : Demuxer) (t : AVStream) : Nat := ((taken s.calls).filter fun p => p.index = t.index).length

/-- A track whose rate is to be measured has not got two packets yet. -/
def Starved (s : Demuxer) : Prop := ∃ t ∈ s.tracks.tracks, Measured t.codecID ∧ takenOf s t < 2

instance (s : Demuxer) : Decidable (Starved s) := by unfold Starved; infer_instance

/-! ## Announcing tracks -/

/-- Is there a track of this type? -/
def HasType (s : Demuxer) (m : Int) : Prop := ∃ t ∈ s.tracks.tracks, t.mediaType = m

/-- Nothing but the calls `cs` has happened. -/
def OnlyCalls (s s' : Demuxer) (cs : List Call) : Prop := s' = { s with calls := s.calls ++ cs }

/-- The block with the extra data goes back to the pipeline, if there is one. -/
def backCall (b : Int) (e : Option Bytes) : List Call := if e.getD [] = [] then [] else [.discardBack b]

/-- `u` is put behind the tracks, for buffer `b`; the rest is as before but for the calls `cs`. -/
def Appends (s s' : Demuxer) (b : Int) (u : AVStream) (cs : List Call) : Prop :=
  u.index = s.tracks.tracks.length ∧
  s' = { s with tracks := { tracks := s.tracks.tracks ++ [u] }, bufferOf := s.bufferOf ++ [((s.tracks.tracks.length : Int), b)]
                calls := s.calls ++ cs }

/-- At most one track of each type. -/
def OnePerType (s : Demuxer) : Prop := ∀ m, (s.tracks.tracks.filter fun t => t.mediaType = m).length ≤ 1

/-- Audio comes on one buffer and video on another. -/
def DemuxOp.OnBuffers (ba bv : Int) : DemuxOp → Prop
  | .audioPacket b .. | .newAudioTrack b .. => b = ba
  | .videoPacket b .. | .newVideoTrack b .. => b = bv
  | _ => True

/-- Type and buffer of every track, in order. -/
def places (s : Demuxer) : List (Int × Int) := (s.tracks.tracks.map (·.mediaType)).zip (s.bufferOf.map Prod.snd)

/-- The type and the buffer that an operation is about. -/
def DemuxOp.place : DemuxOp → Option (Int × Int)
  | .audioPacket b .. | .newAudioTrack b .. => some (mediaAudio, b)
  | .videoPacket b .. | .newVideoTrack b .. => some (mediaVideo, b)
  | _ => none

/-- The buffers on which `l` brings media of type `m`, each once. -/
def buffersOf (m : Int) (l : List DemuxOp) : List Int :=
  (l.filterMap fun e => match e.place with
    | some (k, b) => if k = m then some b else none
    | none => none).dedup

end Avf
