import Verif.Model.Handler
import Verif.Spec.Demuxer
/-!
# Specification: what the files of the file handler hold
-/
namespace Avf
open Go

/-- What a packet of a track should add to the file of the track: audio as it is, video as Annex B (C68). -/
def elementary (t : AVStream) (p : AVPacket) : Bytes :=
  if p.mediaType = mediaVideo then
    match avccPacket2AnnexB t p with
    | .ok r => r.1
    | _ => []
  else p.data

/-- Parameter sets that are written on top of that. -/
def doubled (t : AVStream) (p : AVPacket) : Bytes :=
  if p.mediaType = mediaVideo ∧ p.key = true ∧ p.packetType = packAVCC then
    match t.codecParameters with
    | some c => c.annexBExtraData
    | none => []
  else []

/-- The calls that a handler gets from a demuxer that has found tracks. -/
def sessionCalls (ts : List AVStream) (ps : List AVPacket) : List Call := ts.map .newTrack ++ .trackComplete :: ps.map .packet

/-- Tracks are numbered, and packets belong to them. -/
structure Session (ts : List AVStream) (ps : List AVPacket) : Prop where
  index : ∀ (i : Nat) t, ts[i]? = some t → t.index = i
  packets : ∀ p ∈ ps, ∃ t ∈ ts, p.index = t.index

/-- A handler that has not been used. -/
def FileHandler.new (path : List Char) (disk : Disk) : FileHandler := { path := path, disk := disk }

/-- A media type that has a name. -/
def NamedType (m : Int) : Prop := -1 ≤ m ∧ m ≤ 5

/-- The names of codecs; the numbers are those of libavcodec (`enum AVCodecID`). -/
def standardCodecNames : List (Int × String) :=
  [(4, "H263"), (27, "H264"), (173, "H265"), (139, "VP8"), (167, "VP9"), (32797, "AV1"), (86018, "AAC"), (65543, "PCMA"),
   (65542, "PCMU"), (86076, "OPUS"), (86017, "MP3"), (69660, "G722"), (69643, "G726"), (65536, "PCMS16LE")]

/-- The names of media types; the numbers are those of libavutil (`enum AVMediaType`). -/
def standardTypeNames : List (Int × String) :=
  [(-1, "unknown"), (0, "video"), (1, "audio"), (2, "data"), (3, "subtitle"), (4, "attachment"), (5, "n")]

end Avf
