import Verif.Model.Demuxer
/-!
# Model of /repo/demuxer.go: panics that a caller recovers from

In `Model/Demuxer.lean` a panic ends the run. Here a panic leaves a state, the one of the moment, after the deferred functions of
`OnAudioPacket` and `OnVideoPacket` have run; so a caller can recover and go on. The handler and the preprocess callback may
panic as well (`Panicky`). Every function of /repo/demuxer.go that changes the demuxer or calls out is written down again with
its steps in their order; functions that only compute (parsing, looking up, rates) are those of the other model files.

A handler that panics has been called (the call is recorded); a nil handler is one that panics at every call. Calls of the
pipeline and of the packet pool do not panic.
-/
namespace Avf
open Go

/-- How a call ends: with a result, or with a panic; and the state then. -/
inductive Outcome (α : Type) where
  | done (a : α) (s : Demuxer)
  | panicked (s : Demuxer)

/-- The state, however the call has ended: what is there when the caller has recovered. -/
def Outcome.state {α : Type} : Outcome α → Demuxer
  | .done _ s => s
  | .panicked s => s

/-- Who panics: the handler, depending on all the calls before and the present one, and the preprocess callback. -/
structure Panicky where
  handler : List Call → Call → Bool
  preprocess : AVPacket → Bool

/-- Nobody panics. -/
def Panicky.none : Panicky := ⟨fun _ _ => false, fun _ => false⟩

/-- A computation that changes a demuxer and may panic. -/
def DM (α : Type) : Type := Demuxer → Outcome α

namespace DM

instance : Monad DM where
  pure a := fun s => .done a s
  bind x f := fun s =>
    match x s with
    | .done a s => f a s
    | .panicked s => .panicked s

/-- The demuxer. -/
def get : DM Demuxer := fun s => .done s s

/-- An assignment. -/
def modify (f : Demuxer → Demuxer) : DM Unit := fun s => .done () (f s)

/-- A panic. -/
def panic {α : Type} : DM α := fun s => .panicked s

/-- A computation that leaves the demuxer alone. The functions it is used for have no error results. -/
def compute {α : Type} (x : Go α) : DM α := fun s =>
  match x with
  | .ok a => .done a s
  | _ => .panicked s

/-- A call of the handler. -/
def tell (f : Panicky) (c : Call) : DM Unit := fun s =>
  if f.handler s.calls c then .panicked (s.call [c]) else .done () (s.call [c])

/-- A call of the handler for each element. -/
def tellAll (f : Panicky) : List Call → DM Unit
  | [] => pure ()
  | c :: cs => do
    tell f c
    tellAll f cs

/-- `defer func() { if !ok { … } }()`: `x` is what runs while `ok` is false. -/
def deferred {α : Type} (b : Int) (x : DM α) : DM α := fun s =>
  match x s with
  | .done a s => .done a s
  | .panicked s => .panicked (s.call [.discardBack b])

end DM

namespace Demuxer
open DM

/-- The end of `createAudioTrack` and `createVideoTrack` (/repo/demuxer.go:121-131 and 158-168). -/
def registerP (bufferIndex : Int) (stream : AVStream) : DM (Option AVStream) := fun s =>
  .done (s.register bufferIndex stream).1 (s.register bufferIndex stream).2

/-- `createAudioTrack` (/repo/demuxer.go:92-132). -/
def createAudioTrackP (bufferIndex id timebase : Int) (extraData : Option Bytes) (config : AudioConfig) : DM (Option AVStream) := do
  let s ← get
  let stream : AVStream :=
    { toAudioConfig := config, mediaType := mediaAudio, index := s.tracks.size, codecID := id, timebase := timebase
      data := extraData.getD [] }
  if id = codecAAC ∧ ¬ config.hasADTSHeader then
    match extraData with
    | none => DM.panic
    | some data =>
      match parseMpeg4AudioConfig data with
      | .err _ => return none
      | .panic => DM.panic
      | .ok c => registerP bufferIndex { stream with sampleRate := c.sampleRate, channels := c.channels }
  else registerP bufferIndex stream

/-- `createVideoTrack` (/repo/demuxer.go:146-169). -/
def createVideoTrackP (o : Oracle) (bufferIndex id timebase : Int) (extraData : Option Bytes) : DM (Option AVStream) := do
  let s ← get
  let data := extraData.getD []
  match generateVideoCodecData o.undef o.grow s.getPackType id data with
  | .err _ => return none
  | .panic => DM.panic
  | .ok config =>
    registerP bufferIndex
      { mediaType := mediaVideo, index := s.tracks.size, codecID := id, data := data, codecParameters := config, timebase := timebase }

/-- `OnNewAudioTrack` (/repo/demuxer.go:79-90); nothing is deferred. -/
def onNewAudioTrackP (bufferIndex id timebase : Int) (extraData : Option Bytes) (config : AudioConfig) : DM (Option AVStream) := do
  let s ← get
  let track ← (
    if (s.tracks.findTrackWithType mediaAudio).isNone ∨ s.name = "ts" then createAudioTrackP bufferIndex id timebase extraData config
    else return none : DM (Option AVStream))
  if (extraData.getD []).length > 0 then do
    modify fun s => s.call [.discardBack bufferIndex]
    return track
  else return track

/-- `OnNewVideoTrack` (/repo/demuxer.go:134-144); nothing is deferred. -/
def onNewVideoTrackP (o : Oracle) (bufferIndex id timebase : Int) (extraData : Option Bytes) : DM (Option AVStream) := do
  let s ← get
  let track ← (
    if (s.tracks.findTrackWithType mediaVideo).isNone ∨ s.name = "ts" then createVideoTrackP o bufferIndex id timebase extraData
    else return none : DM (Option AVStream))
  if (extraData.getD []).length > 0 then do
    modify fun s => s.call [.discardBack bufferIndex]
    return track
  else return track

/-- `forwardPacket` (/repo/demuxer.go:292-301): the handler, then the releases. -/
def forwardPacketP (f : Panicky) (p : AVPacket) : DM Unit := do
  tell f (.packet p)
  let s ← get
  if s.autoFree then
    match s.bufferOf.lookup p.index with
    | none => DM.panic
    | some b => modify fun s => s.call [.discardHead b, .free p]
  else return ()

/-- Forwarding in a loop (/repo/demuxer.go:473-475). -/
def forwardAllP (f : Panicky) : List AVPacket → DM Unit
  | [] => pure ()
  | p :: rest => do
    forwardPacketP f p
    forwardAllP f rest

/-- `prepareTracks` (/repo/demuxer.go:429-432); the loops over the tracks store nothing when there is nothing to divide by. -/
def prepareTracksP (undef : Int) : DM Unit := fun s =>
  match s.prepareTracks undef with
  | .ok s => .done () s
  | _ => .panicked s

/-- `OnProbeComplete` (/repo/demuxer.go:434-476): `Completed` is set first, the queues are emptied after the tracks have been
announced. -/
def onProbeCompleteP (f : Panicky) (o : Oracle) : DM Unit := do
  let s ← get
  if s.completed then return ()
  else do
    modify fun s => { s with completed := true }
    if s.tracks.size = 0 then tell f .trackNotFound
    else do
      prepareTracksP o.undef
      let s ← get
      tellAll f (s.tracks.tracks.map .newTrack)
      tell f .trackComplete
      let s ← get
      modify fun s => { s with packets := s.packets.map fun q => (drain q).2 }
      forwardAllP f (o.sort (s.packets.flatMap fun q => (drain q).1))

/-- `processBufferedPacket` from line 264 on (/repo/demuxer.go:264-290), `packets` being `s.Packets[i]`. -/
def enqueueP (f : Panicky) (o : Oracle) (i : Int) (p : AVPacket) : DM Unit := do
  let s ← get
  let q ← compute (idxI s.packets i)
  let q := q ++ [p]
  modify fun s => { s with packets := s.packets.set i.toNat q }
  let prev : Int := (q.length : Int) - 2
  if prev < 0 then return ()
  else do
    let pp ← compute (idxI q prev)
    let q := q.set prev.toNat { pp with duration := wrap64 (p.dts - pp.dts) }
    modify fun s => { s with packets := s.packets.set i.toNat q }
    if s.completed then do
      let x ← compute (idxI q prev)
      modify fun s => { s with packets := s.packets.set i.toNat (q.eraseIdx prev.toNat) }
      forwardPacketP f x
    else do
      let duration := probed o.undef (q.take (prev + 1).toNat)
      if duration ≥ max (max s.probeDuration 200) duration then onProbeCompleteP f o
      else return ()

/-- `processBufferedPacket` (/repo/demuxer.go:254-290). -/
def processBufferedPacketP (f : Panicky) (o : Oracle) (p : AVPacket) : DM Unit := do
  let s ← get
  if p.index < s.packets.length then enqueueP f o p.index p
  else do
    modify fun s => { s with packets := s.packets ++ [[]] }
    enqueueP f o s.packets.length p

/-- `OnAudioPacket` up to `ok = true` (/repo/demuxer.go:179-199): the track. -/
def audioTrackP (o : Oracle) (bufferIndex id : Int) (data : Bytes) : DM (Option AVStream) := do
  let s ← get
  let track ← compute (s.findTrackByBufferIndex o bufferIndex)
  if ¬ s.completed ∧ track = none then
    match extractAudioExtraData id data with
    | .err _ => return none
    | .panic => DM.panic
    | .ok (extraData, _, config) => do
      let timebase ← compute s.getTimebase
      createAudioTrackP bufferIndex id timebase extraData config
  else return track

/-- `OnAudioPacket` (/repo/demuxer.go:171-204). The deferred function discards the block unless `ok = true` has been reached. -/
def onAudioPacketP (f : Panicky) (o : Oracle) (bufferIndex id : Int) (data : Bytes) (ts : Int) : DM Unit := do
  match ← deferred bufferIndex (audioTrackP o bufferIndex id data) with
  | none => modify fun s => s.call [.discardBack bufferIndex]
  | some t =>
    let packet : AVPacket :=
      { data := data, pts := ts, dts := ts, codecID := id, index := t.index, timebase := t.timebase, mediaType := mediaAudio
        packetType := o.audioType, bufferIndex := bufferIndex }
    modify fun s => s.call [.accepted packet]
    processBufferedPacketP f o packet

/-- `OnVideoPacket` up to `ok = true` (/repo/demuxer.go:215-239): the track. -/
def videoTrackP (o : Oracle) (bufferIndex id : Int) (data : Bytes) (key : Bool) : DM (Option AVStream) := do
  let s ← get
  let track ← compute (s.findTrackByBufferIndex o bufferIndex)
  if track = none ∧ ¬ s.completed ∧ s.getPackType = packAnnexB then do
    match ← compute (s.videoExtraData id data key) with
    | some e => do
      let timebase ← compute s.getTimebase
      createVideoTrackP o bufferIndex id timebase (some e)
    | none => return none
  else return track

/-- `OnVideoPacket` (/repo/demuxer.go:206-250). A panic of the callback comes after `ok = true`. -/
def onVideoPacketP (f : Panicky) (o : Oracle) (bufferIndex id : Int) (data : Bytes) (key : Bool) (dts pts : Int) : DM Unit := do
  match ← deferred bufferIndex (videoTrackP o bufferIndex id data key) with
  | none => modify fun s => s.call [.discardBack bufferIndex]
  | some t => do
    let s ← get
    let packet : AVPacket :=
      { data := data, pts := pts, dts := dts, key := key, codecID := id, index := t.index, timebase := t.timebase
        mediaType := mediaVideo, packetType := s.getPackType, bufferIndex := bufferIndex }
    if f.preprocess packet then DM.panic
    else do
      let packet := o.preprocess packet
      modify fun s => s.call [.accepted packet]
      processBufferedPacketP f o packet

/-- `TryCompleteProbe` (/repo/demuxer.go:492-514). -/
def tryCompleteProbeP (f : Panicky) (o : Oracle) : DM Unit := do
  let s ← get
  let needMoreData := s.tracks.tracks.any fun t =>
    (t.codecID = codecPCMS16LE ∨ t.codecID = codecG726) ∧
      s.packets.zipIdx.any fun (q, i) => (i : Int) = t.index ∧ q.length < 2
  if needMoreData then return () else onProbeCompleteP f o

end Demuxer

open DM in
/-- One operation; results are dropped. -/
def DemuxOp.runP (f : Panicky) (o : Oracle) : DemuxOp → DM Unit
  | .findBufferIndex m => modify fun s => (s.findBufferIndex m).2
  | .newAudioTrack b id tb e c => do let _ ← Demuxer.onNewAudioTrackP b id tb e c
  | .newVideoTrack b id tb e => do let _ ← Demuxer.onNewVideoTrackP o b id tb e
  | .audioPacket b id d ts => Demuxer.onAudioPacketP f o b id d ts
  | .videoPacket b id d k dts pts => Demuxer.onVideoPacketP f o b id d k dts pts
  | .probeComplete => Demuxer.onProbeCompleteP f o
  | .tryCompleteProbe => Demuxer.tryCompleteProbeP f o
  | .setProbeDuration n => modify fun s => s.setProbeDuration n

/-- A history in which the caller recovers from every panic and goes on. -/
def runRecovering (f : Panicky) (s : Demuxer) : List (Oracle × DemuxOp) → Demuxer
  | [] => s
  | (o, e) :: rest => runRecovering f (e.runP f o s).state rest

end Avf
