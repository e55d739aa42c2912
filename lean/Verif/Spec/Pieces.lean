import Verif.Spec.Nal
import Verif.Spec.DemuxerTracks
/-! # The pieces that `SplitNalU` sees in a byte string, well framed or not -/
namespace Avf

/-- The pieces of a byte string. A piece has at least three bytes; it goes up to the first `00 00 01` behind its third byte that
is followed by a byte, and one zero byte before that belongs to the start code, again unless it is one of the three. If there
is none the rest is one piece. -/
inductive Pieces : Bytes → List Bytes → Prop where
  | last (p : Bytes) : 3 ≤ p.length → (∀ j, ¬ StartAt (p.drop 3) j) → Pieces p [p]
  | next (h u : Bytes) (b : Bool) (a : Byte) (t : Bytes) (ss : List Bytes) : h.length = 3 → NoCode u →
      (b = false → u.getLast? ≠ some 0) → Pieces (code b ++ a :: t) ss → Pieces (h ++ (u ++ code b ++ a :: t)) ((h ++ u) :: ss)

/-- The unit in a piece: what follows the start code, if it begins with one. -/
def unitIn (s : Bytes) : Bytes := if s.take 3 = [0, 0, 1] then s.drop 3 else if s.take 4 = [0, 0, 0, 1] then s.drop 4 else s

/-- A piece without a unit: a bare start code, or three zeros. -/
def BadPiece (s : Bytes) : Prop := s = [0, 0, 0] ∨ s = [0, 0, 1] ∨ s = [0, 0, 0, 1]

instance (s : Bytes) : Decidable (BadPiece s) := by unfold BadPiece; infer_instance

/-- A byte string in which the search for parameter sets fails: shorter than three bytes, or with a piece without a unit. -/
def BadUnits (d : Bytes) : Prop := d.length < 3 ∨ ∃ ss, Pieces d ss ∧ ∃ s ∈ ss, BadPiece s

/-- The parameter sets in a byte string. -/
def SetsIn (id : Int) (d : Bytes) (ps : List Bytes) : Prop :=
  ∃ ss, Pieces d ss ∧ (∀ s ∈ ss, ¬ BadPiece s) ∧ paramSets id (ss.map unitIn) = some ps

/-- A key frame that the demuxer does not survive: the search for parameter sets fails in the payload, or it finds some and fails
in what it found. -/
def BadFrame (id : Int) (d : Bytes) : Prop := BadUnits d ∨ ∃ ps, SetsIn id d ps ∧ BadUnits (withCodes ps)

/-- Operations that the demuxer does not survive in state `s`: a bad key frame of H.264 or H.265, before probing is over and on a
buffer without a track; a video track announced with parameter sets that cannot be told from each other; and an AAC track
announced with less than two bytes of configuration and no ADTS header. Announcements count only if they are taken: of each
media type the first, in TS all. -/
def DemuxOp.Fatal (s : Demuxer) : DemuxOp → Prop
  | .videoPacket b id d key _ _ => s.name ≠ "flv" ∧ s.completed = false ∧ b ∉ s.bufferOf.map Prod.snd ∧ key = true ∧ HasSets id ∧ BadFrame id d
  | .newVideoTrack _ id _ e => ((∀ t ∈ s.tracks.tracks, t.mediaType ≠ mediaVideo) ∨ s.name = "ts") ∧ s.name ≠ "flv" ∧ HasSets id ∧
      BadUnits (e.getD [])
  | .newAudioTrack _ id _ e c => ((∀ t ∈ s.tracks.tracks, t.mediaType ≠ mediaAudio) ∨ s.name = "ts") ∧ id = codecAAC ∧
      c.hasADTSHeader = false ∧ (e.getD []).length < 2
  | _ => False

/-- Audio tracks have audio codecs, and sizes are those that memory allows. -/
def DemuxOp.Usual (name : String) : DemuxOp → Prop
  | .newVideoTrack _ _ _ e => name = "flv" → (e.getD []).length < 2 ^ 62
  | .newAudioTrack _ id _ _ _ => ¬ HasSets id
  | _ => True

end Avf
