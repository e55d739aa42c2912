import Verif.Spec.EndToEnd
import Verif.Spec.Record
import Verif.Spec.DemuxerProbe
import Verif.Spec.RecordLists
/-!
# From announced tracks and packets to files

The caller announces tracks or lets packets make them, in any format; the handler is `OnUnpackStream2FileHandler`. In FLV, tracks
come with decoder configuration records and video packets are made of units with lengths.
-/
namespace Avf
open Go

/-- What the caller gives with a packet. -/
structure Given extends Frame where
  codec : Int
  pts : Int

/-- What an operation gives for buffer `b`. -/
def DemuxOp.given (b : Int) : DemuxOp → Option Given
  | .audioPacket b' id d ts => if b' = b then some ⟨⟨false, false, d, ts⟩, id, ts⟩ else none
  | .videoPacket b' id d k dts pts => if b' = b then some ⟨⟨true, k, d, dts⟩, id, pts⟩ else none
  | _ => none

/-- All that was given for a buffer. -/
def givenOf (b : Int) (h : List (Oracle × DemuxOp)) : List Given := h.filterMap fun x => x.2.given b

/-- `fs` is `gs` without the last. A single one may be there. -/
def ButLast (gs fs : List Given) : Prop := fs = gs.dropLast ∨ fs = gs ∧ gs.length ≤ 1

/-- The packet that should come of it. -/
structure MadeFrom (name : String) (g : Given) (p : AVPacket) : Prop where
  data : p.data = g.data
  dts : p.dts = g.dts
  pts : p.pts = g.pts
  key : p.key = g.key
  codec : p.codecID = g.codec
  media : p.mediaType = if g.video then mediaVideo else mediaAudio
  pack : g.video = true → p.packetType = if name = "flv" then packAVCC else if name = "ps" ∨ name = "ts" ∨ name = "jt1078" then packAnnexB else packNone
  fresh : p.dataAnnexB = none
  alloc : p.onBufferAlloc = none

/-- `t` was announced with this operation, or an audio packet made it. -/
inductive Announced (ops : List DemuxOp) (t : AVStream) : Prop where
  | video (b : Int) (e : Option Bytes) (hm : .newVideoTrack b t.codecID t.timebase e ∈ ops) (ht : t.mediaType = mediaVideo)
      (hd : t.data = e.getD []) (hc : ∃ undef grow, generateVideoCodecData undef grow packAVCC t.codecID t.data = ok t.codecParameters)
  | audio (ht : t.mediaType = mediaAudio)

/-- Video is of one codec only. -/
def DemuxOp.VideoIs (id : Int) : DemuxOp → Prop
  | .videoPacket _ id' .. => id' = id
  | .newVideoTrack _ id' _ e => id' = id ∧ (e.getD []).length < 2 ^ 62
  | _ => True

/-- What a frame is in the file of its track in FLV: sound as it is; an H.264 frame with start codes instead of lengths, without SEI;
in front of a key frame all parameter sets of the record, twice. -/
inductive AvcInFile (t : AVStream) (g : Given) : Bytes → Prop where
  | audio (h : g.video = false) : AvcInFile t g g.data
  | video (h : g.video = true) (header : Bytes) (count : Byte) (sps pps : List Bytes) (trailing : Bytes)
      (hr : IsAvcRecord t.data header count sps pps trailing) (us : List Bytes) (tail : Bytes)
      (hu : ∀ u ∈ us, u ≠ [] ∧ u.length < 2 ^ 32) (ht : NoUnit 4 tail) (hd : g.data = avcc us ++ tail) :
      AvcInFile t g ((if g.key then (sps ++ pps).flatMap startCoded ++ (sps ++ pps).flatMap startCoded else []) ++
        annexB (firstLong (us.filter fun u => avcUnitType u ≠ 6)))

/-- H.265 with lengths of `k` bytes: the records say so, and the payloads are units with such lengths. The output of the conversion has
room for 256 bytes more than the payload has; with 4-byte lengths it is not longer at all (`C68_h265_fits`). -/
def DemuxOp.HevcBy (k : Nat) : DemuxOp → Prop
  | .videoPacket _ _ d _ _ _ => ∃ us : List Bytes, d = lengthPrefixed k us ∧ (∀ u ∈ us, 2 ≤ u.length ∧ u.length < 256 ^ k) ∧
      (us.flatMap startCoded).length ≤ d.length + 256
  | .newVideoTrack _ _ _ e => bitField (e.getD []) 174 2 + 1 = k
  | _ => True

/-- What a frame is in the file of its track in FLV with H.265. The parameter sets are those that `AnnexBExtraData` has: VPS, the
list of SPS as it is (C95), PPS. -/
inductive HevcInFile (k : Nat) (t : AVStream) (g : Given) : Bytes → Prop where
  | audio (h : g.video = false) : HevcInFile k t g g.data
  | video (h : g.video = true) (header : Bytes) (xs : List (Byte × List Bytes)) (trailing : Bytes) (hr : IsHevcRecord t.data header xs trailing)
      (grow : Nat → Nat) (sps : List Bytes) (hs : SpsListed grow (recordSets xs) sps) (us : List Bytes) (hd : g.data = lengthPrefixed k us)
      (hu : ∀ u ∈ us, 2 ≤ u.length ∧ u.length < 256 ^ k) (sets : Bytes)
      (he : sets = (setsOfType 32 (recordSets xs) ++ sps ++ setsOfType 34 (recordSets xs)).flatten) :
      HevcInFile k t g ((if g.key then sets ++ sets else []) ++ us.flatMap startCoded)

end Avf
