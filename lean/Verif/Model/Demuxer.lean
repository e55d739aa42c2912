import Verif.Model.Packet
import Verif.Model.Tracks
/-!
# Model of /repo/demuxer.go

The state of `BaseDemuxer` with a record of everything it asks its handler, its data pipeline and the packet pool to do
(`calls`). The linked lists of packets are lists, which is what they are by C17 (all indices used here are not negative).
Packets are values; `Model/DemuxerObjects.lean` has packet objects and linked lists, and C81 says that it makes no difference.

What Go leaves open is resolved by an `Oracle`, one for each operation: the iteration order of a map, the order that
`sort.Slice` chooses for equal keys, the packet type of audio packets (see C58), the result of out-of-range float conversions
and the growth of capacities.

Assumed: the handler is set (`Model/DemuxerLife.lean` is about the other case); handlers and the preprocess callback do not call the
demuxer; nobody calls the exported methods `AddTrack`, `DiscardBackPacket` and `DiscardHeadPacket` and nobody writes the
exported fields from outside while it runs. Printing is left out. A panic that is recovered by a caller would run the deferred
functions of `OnAudioPacket` and `OnVideoPacket`; here it ends the run (`Model/DemuxerPanics.lean` is about going on).
-/
namespace Avf
open Go

/-- What the demuxer calls: the handler (/repo/handler.go:10-20), the pipeline and the packet pool. `accepted` marks the
place where a packet has been taken over (`ok = true`, /repo/demuxer.go:201 and 244, the packet as it is queued). -/
inductive Call where
  | newTrack (t : AVStream)
  | trackComplete
  | trackNotFound
  | packet (p : AVPacket)
  | discardBack (buffer : Int)
  | discardHead (buffer : Int)
  | free (p : AVPacket)
  | accepted (p : AVPacket)

/-- Choices of the Go implementation and of the callback `onPreprocessPacket` during one operation. -/
structure Oracle where
  order : List (Int × Int) → List (Int × Int)
  sort : List AVPacket → List AVPacket
  audioType : Byte
  undef : Int
  grow : Nat → Nat
  preprocess : AVPacket → AVPacket

/-- `BaseDemuxer` (/repo/demuxer.go:29-41). `bufferOf` is `streamIndex2BufferIndex`, a nil map being an empty one. -/
structure Demuxer where
  name : String
  tracks : TrackManager := {}
  orderedStreams : List Int := []
  probeDuration : Int := 0
  completed : Bool := false
  packets : List (List AVPacket) := []
  autoFree : Bool := false
  bufferOf : List (Int × Int) := []
  calls : List Call := []

namespace Demuxer

/-- A call to the outside. -/
def call (s : Demuxer) (cs : List Call) : Demuxer := { s with calls := s.calls ++ cs }

/-- `GetTimebase` (/repo/demuxer.go:52-61). -/
def getTimebase (s : Demuxer) : Go Int :=
  if s.name = "flv" ∨ s.name = "jt1078" then ok 1000
  else if s.name = "ps" ∨ s.name = "ts" then ok 90000
  else panic

/-- `GetPackType` (/repo/demuxer.go:63-73). -/
def getPackType (s : Demuxer) : Byte :=
  if s.name = "flv" then packAVCC
  else if s.name = "ps" ∨ s.name = "ts" ∨ s.name = "jt1078" then packAnnexB
  else packNone

/-- `AddTrack` (/repo/demuxer.go:75-77). -/
def addTrack (s : Demuxer) (track : AVStream) : Bool × Demuxer :=
  if s.completed then (false, s)
  else
    let (r, t) := s.tracks.add track
    (r, { s with tracks := t })

/-- Assignment to an element of a map. -/
def mapSet (m : List (Int × Int)) (k v : Int) : List (Int × Int) := m.filter (fun e => e.1 ≠ k) ++ [(k, v)]

/-- The end of `createAudioTrack` and `createVideoTrack` (/repo/demuxer.go:121-131 and 158-168). -/
def register (s : Demuxer) (bufferIndex : Int) (stream : AVStream) : Option AVStream × Demuxer :=
  let (added, s) := s.addTrack stream
  if added then (some stream, { s with bufferOf := mapSet s.bufferOf stream.index bufferIndex })
  else (none, s)

/-- `createAudioTrack` (/repo/demuxer.go:92-132); nil extra data is `none`. -/
def createAudioTrack (s : Demuxer) (bufferIndex id timebase : Int) (extraData : Option Bytes) (config : AudioConfig) :
    Go (Option AVStream × Demuxer) := do
  let stream : AVStream :=
    { toAudioConfig := config, mediaType := mediaAudio, index := s.tracks.size, codecID := id, timebase := timebase
      data := extraData.getD [] }
  if id = codecAAC ∧ ¬ config.hasADTSHeader then
    match extraData with
    | none => panic
    | some data =>
      match parseMpeg4AudioConfig data with
      | .err _ => return (none, s)
      | .panic => panic
      | .ok c => return s.register bufferIndex { stream with sampleRate := c.sampleRate, channels := c.channels }
  else return s.register bufferIndex stream

/-- `createVideoTrack` (/repo/demuxer.go:146-169). -/
def createVideoTrack (o : Oracle) (s : Demuxer) (bufferIndex id timebase : Int) (extraData : Option Bytes) :
    Go (Option AVStream × Demuxer) :=
  let data := extraData.getD []
  match generateVideoCodecData o.undef o.grow s.getPackType id data with
  | .err _ => ok (none, s)
  | .panic => panic
  | .ok config => ok (s.register bufferIndex
      { mediaType := mediaVideo, index := s.tracks.size, codecID := id, data := data, codecParameters := config, timebase := timebase })

/-- `OnNewAudioTrack` (/repo/demuxer.go:79-90). -/
def onNewAudioTrack (s : Demuxer) (bufferIndex id timebase : Int) (extraData : Option Bytes) (config : AudioConfig) :
    Go (Option AVStream × Demuxer) := do
  let (track, s) ← (
    if (s.tracks.findTrackWithType mediaAudio).isNone ∨ s.name = "ts" then s.createAudioTrack bufferIndex id timebase extraData config
    else ok (none, s) : Go (Option AVStream × Demuxer))
  if (extraData.getD []).length > 0 then return (track, s.call [.discardBack bufferIndex])
  else return (track, s)

/-- `OnNewVideoTrack` (/repo/demuxer.go:134-144). -/
def onNewVideoTrack (o : Oracle) (s : Demuxer) (bufferIndex id timebase : Int) (extraData : Option Bytes) :
    Go (Option AVStream × Demuxer) := do
  let (track, s) ← (
    if (s.tracks.findTrackWithType mediaVideo).isNone ∨ s.name = "ts" then s.createVideoTrack o bufferIndex id timebase extraData
    else ok (none, s) : Go (Option AVStream × Demuxer))
  if (extraData.getD []).length > 0 then return (track, s.call [.discardBack bufferIndex])
  else return (track, s)

/-- `FindBufferIndex` (/repo/demuxer.go:315-324): the loop, then the appending. -/
def findBufferIndex (s : Demuxer) (marker : Int) : Nat × Demuxer :=
  match s.orderedStreams.findIdx? (fun x => marker = x) with
  | some i => (i, s)
  | none => (s.orderedStreams.length, { s with orderedStreams := s.orderedStreams ++ [marker] })

/-- `FindBufferIndexByMediaType` (/repo/demuxer.go:311-313). -/
def findBufferIndexByMediaType (s : Demuxer) (mediaType : Int) : Nat × Demuxer := s.findBufferIndex mediaType

/-- `findTrackByBufferIndex` (/repo/demuxer.go:326-334): the first hit in the order that the map is iterated in. -/
def findTrackByBufferIndex (o : Oracle) (s : Demuxer) (index : Int) : Go (Option AVStream) :=
  match (o.order s.bufferOf).find? (fun e => index = e.2) with
  | some e => do return some (← s.tracks.get e.1)
  | none => ok none

/-- `forwardPacket` (/repo/demuxer.go:292-301). -/
def forwardPacket (s : Demuxer) (p : AVPacket) : Go Demuxer :=
  let s := s.call [.packet p]
  if s.autoFree then
    match s.bufferOf.lookup p.index with
    | none => panic
    | some b => ok (s.call [.discardHead b, .free p])
  else ok s

/-- The packet that `calculatePCMFrequency` and `calculateG726BitRate` look at (/repo/demuxer.go:340-353 and 386-399): duration
in ms and size; zeros if there is none. -/
def firstPacketOf (undef : Int) (codec : Int) : List (List AVPacket) → Int × Int
  | [] => (0, 0)
  | [] :: rest => firstPacketOf undef codec rest
  | (p :: _) :: rest => if p.codecID ≠ codec then firstPacketOf undef codec rest else (p.getDuration undef 1000, p.data.length)

/-- Division of Go integers: truncates, panics for a zero divisor. -/
def goDiv (a b : Int) : Go Int := if b = 0 then panic else ok (Int.tdiv a b)

/-- The sample rate (/repo/demuxer.go:364-374). -/
def pcmRate (sampleSize msSize : Int) : Int :=
  if msSize ≤ 16 then 8000
  else if msSize ≤ 32 then 16000
  else if msSize ≤ 64 then 32000
  else if msSize ≤ 96 then 48000
  else sampleSize

/-- `calculatePCMFrequency` (/repo/demuxer.go:337-380). The division is the same in every round of the loop; here it is done
once, before. -/
def calculatePCMFrequency (undef : Int) (s : Demuxer) : Go (Bool × Demuxer) := do
  let (pktDuration, pktDataSize) := firstPacketOf undef codecPCMS16LE s.packets
  if pktDuration < 1 then return (false, s)
  else do
    let msSize ← goDiv pktDataSize pktDuration
    return (true, { s with tracks := { tracks := s.tracks.tracks.map fun t =>
      if t.codecID ≠ codecPCMS16LE then t else { t with sampleRate := pcmRate t.sampleSize msSize } } })

/-- The bit rate (/repo/demuxer.go:405-416); the argument is the quotient of line 405. -/
def g726Rate (msSize : Int) : Option Int :=
  let bitRate := wrap64 (wrap64 (msSize * 1000) * 8)
  if bitRate ≤ 16000 then some 16000
  else if bitRate ≤ 24000 then some 24000
  else if bitRate ≤ 32000 then some 32000
  else if bitRate ≤ 40000 then some 40000
  else none

/-- `calculateG726BitRate` (/repo/demuxer.go:383-426). -/
def calculateG726BitRate (undef : Int) (s : Demuxer) : Go (Bool × Demuxer) := do
  let (pktDuration, pktDataSize) := firstPacketOf undef codecG726 s.packets
  if pktDuration < 1 then return (false, s)
  else do
    let msSize ← goDiv pktDataSize pktDuration
    match g726Rate msSize with
    | none => return (false, s)
    | some r => return (true, { s with tracks := { tracks := s.tracks.tracks.map fun t =>
        if t.codecID ≠ codecG726 then t else { t with bitRate := r } } })

/-- `prepareTracks` (/repo/demuxer.go:429-432). -/
def prepareTracks (undef : Int) (s : Demuxer) : Go Demuxer := do
  let (_, s) ← s.calculatePCMFrequency undef
  let (_, s) ← s.calculateG726BitRate undef
  return s

/-- Taking the packets out of one queue (/repo/demuxer.go:456-465): the packets taken and the rest. -/
def drain (q : List AVPacket) : List AVPacket × List AVPacket :=
  let prePacketIndex : Int := (q.length : Int) - 2
  if prePacketIndex < 0 then ([], q)
  else (q.take (prePacketIndex + 1).toNat, q.drop (prePacketIndex + 1).toNat)

/-- Forwarding in a loop (/repo/demuxer.go:473-475). -/
def forwardAll (s : Demuxer) : List AVPacket → Go Demuxer
  | [] => ok s
  | p :: rest => do
    let s ← s.forwardPacket p
    forwardAll s rest

/-- `OnProbeComplete` (/repo/demuxer.go:434-476). -/
def onProbeComplete (o : Oracle) (s : Demuxer) : Go Demuxer :=
  if s.completed then ok s
  else
    let s := { s with completed := true }
    if s.tracks.size = 0 then ok (s.call [.trackNotFound])
    else do
      let s ← s.prepareTracks o.undef
      let s := s.call (s.tracks.tracks.map .newTrack)
      let s := s.call [.trackComplete]
      let result := s.packets.flatMap fun q => (drain q).1
      let s := { s with packets := s.packets.map fun q => (drain q).2 }
      s.forwardAll (o.sort result)

/-- The probed duration (/repo/demuxer.go:282-285). -/
def probed (undef : Int) (q : List AVPacket) : Int := q.foldl (fun d p => wrap64 (d + p.getDuration undef 1000)) 0

/-- `processBufferedPacket` from line 264 on (/repo/demuxer.go:264-290), `packets` being `s.Packets[i]`; `bufio.MaxInt` is
/repo/bufio/util.go. -/
def enqueue (o : Oracle) (s : Demuxer) (i : Int) (p : AVPacket) : Go Demuxer := do
  let q ← idxI s.packets i
  let q := q ++ [p]
  let prev : Int := (q.length : Int) - 2
  if prev < 0 then return { s with packets := s.packets.set i.toNat q }
  else do
    let pp ← idxI q prev
    let q := q.set prev.toNat { pp with duration := wrap64 (p.dts - pp.dts) }
    if s.completed then do
      let x ← idxI q prev
      let s := { s with packets := s.packets.set i.toNat (q.eraseIdx prev.toNat) }
      s.forwardPacket x
    else do
      let s := { s with packets := s.packets.set i.toNat q }
      let duration := probed o.undef (q.take (prev + 1).toNat)
      if duration ≥ max (max s.probeDuration 200) duration then s.onProbeComplete o
      else return s

/-- `processBufferedPacket` (/repo/demuxer.go:254-290). -/
def processBufferedPacket (o : Oracle) (s : Demuxer) (p : AVPacket) : Go Demuxer :=
  if p.index < s.packets.length then s.enqueue o p.index p
  else ({ s with packets := s.packets ++ [[]] } : Demuxer).enqueue o s.packets.length p

/-- `OnAudioPacket` (/repo/demuxer.go:171-204). `ExtractAudioPacket` (/repo/video_stream.go:152-180) never fails and makes an
audio packet of all of `data`. -/
def onAudioPacket (o : Oracle) (s : Demuxer) (bufferIndex id : Int) (data : Bytes) (ts : Int) : Go Demuxer := do
  let track ← s.findTrackByBufferIndex o bufferIndex
  let (track, s) ← (
    if ¬ s.completed ∧ track = none then
      match extractAudioExtraData id data with
      | .err _ => ok (none, s)
      | .panic => panic
      | .ok (extraData, _, config) => do
        let timebase ← s.getTimebase
        s.createAudioTrack bufferIndex id timebase extraData config
    else ok (track, s) : Go (Option AVStream × Demuxer))
  match track with
  | none => return s.call [.discardBack bufferIndex]
  | some t =>
    let packet : AVPacket :=
      { data := data, pts := ts, dts := ts, codecID := id, index := t.index, timebase := t.timebase, mediaType := mediaAudio
        packetType := o.audioType, bufferIndex := bufferIndex }
    (s.call [.accepted packet]).processBufferedPacket o packet

/-- Is `Data` of a stream nil? `createAudioTrack` leaves it nil when there is no extra data, `createVideoTrack` makes a slice
in any case (/repo/demuxer.go:101-105 and 147). -/
def dataIsNil (t : AVStream) : Bool := t.mediaType = mediaAudio ∧ t.data = []

/-- Extra data for a new video track (/repo/demuxer.go:217-231). -/
def videoExtraData (s : Demuxer) (id : Int) (data : Bytes) (key : Bool) : Go (Option Bytes) := do
  let extraData ← (
    if key then
      match extractVideoExtraData id data with
      | .err _ => ok none
      | .panic => panic
      | .ok e => ok e
    else ok none : Go (Option Bytes))
  match extraData with
  | some e => return some e
  | none =>
    match s.tracks.find id with
    | some old => if dataIsNil old then return none else return some old.data
    | none => return none

/-- `OnVideoPacket` (/repo/demuxer.go:206-250); the last argument is not used by the code. `onPreprocessPacket` being nil is
the identity. -/
def onVideoPacket (o : Oracle) (s : Demuxer) (bufferIndex id : Int) (data : Bytes) (key : Bool) (dts pts : Int) : Go Demuxer := do
  let track ← s.findTrackByBufferIndex o bufferIndex
  let (track, s) ← (
    if track = none ∧ ¬ s.completed ∧ s.getPackType = packAnnexB then do
      match ← s.videoExtraData id data key with
      | some e => do
        let timebase ← s.getTimebase
        s.createVideoTrack o bufferIndex id timebase (some e)
      | none => ok (none, s)
    else ok (track, s) : Go (Option AVStream × Demuxer))
  match track with
  | none => return s.call [.discardBack bufferIndex]
  | some t =>
    let packet : AVPacket :=
      { data := data, pts := pts, dts := dts, key := key, codecID := id, index := t.index, timebase := t.timebase
        mediaType := mediaVideo, packetType := s.getPackType, bufferIndex := bufferIndex }
    let packet := o.preprocess packet
    (s.call [.accepted packet]).processBufferedPacket o packet

/-- `TryCompleteProbe` (/repo/demuxer.go:492-514). -/
def tryCompleteProbe (o : Oracle) (s : Demuxer) : Go Demuxer :=
  let needMoreData := s.tracks.tracks.any fun t =>
    (t.codecID = codecPCMS16LE ∨ t.codecID = codecG726) ∧
      s.packets.zipIdx.any fun (q, i) => (i : Int) = t.index ∧ q.length < 2
  if needMoreData then ok s else s.onProbeComplete o

/-- `SetProbeDuration` (/repo/demuxer.go:487-489). -/
def setProbeDuration (s : Demuxer) (duration : Int) : Demuxer := { s with probeDuration := duration }

end Demuxer

/-- Operations on a demuxer. `probeComplete` is `ProbeComplete` and `OnProbeComplete` (/repo/demuxer.go:516-518 and 434). -/
inductive DemuxOp where
  | findBufferIndex (marker : Int)
  | newAudioTrack (bufferIndex id timebase : Int) (extraData : Option Bytes) (config : AudioConfig)
  | newVideoTrack (bufferIndex id timebase : Int) (extraData : Option Bytes)
  | audioPacket (bufferIndex id : Int) (data : Bytes) (ts : Int)
  | videoPacket (bufferIndex id : Int) (data : Bytes) (key : Bool) (dts pts : Int)
  | probeComplete
  | tryCompleteProbe
  | setProbeDuration (duration : Int)

/-- One operation; results are dropped. -/
def DemuxOp.run (o : Oracle) (s : Demuxer) : DemuxOp → Go Demuxer
  | .findBufferIndex m => ok (s.findBufferIndex m).2
  | .newAudioTrack b id tb e c => do return (← s.onNewAudioTrack b id tb e c).2
  | .newVideoTrack b id tb e => do return (← s.onNewVideoTrack o b id tb e).2
  | .audioPacket b id d ts => s.onAudioPacket o b id d ts
  | .videoPacket b id d k dts pts => s.onVideoPacket o b id d k dts pts
  | .probeComplete => s.onProbeComplete o
  | .tryCompleteProbe => s.tryCompleteProbe o
  | .setProbeDuration n => ok (s.setProbeDuration n)

end Avf
