import Verif.Model.Codec
/-!
# Model of /repo/av_packet.go and /repo/packet_utils.go

Time stamps are integers; the types `DTS` and `PTS` with their methods `Value` (/repo/av_packet.go:14-20) are not used by any code.

`OnBufferAlloc` is a function from the size to the contents of the slice it returns (any length, any contents); the slice is
assumed not nil and not to overlap the payload. Nil slices in the two caches are `none`; a slice that is made is never nil.
-/
namespace Avf
open Go

/-- `AVPacket` (/repo/av_packet.go:37-55), zero value as defaults. -/
structure AVPacket where
  data : Bytes := []
  pts : Int := 0
  dts : Int := 0
  duration : Int := 0
  key : Bool := false
  createdTime : Int := 0
  bufferIndex : Int := 0
  index : Int := 0
  timebase : Int := 0
  mediaType : Int := 0
  codecID : Int := 0
  packetType : Byte := 0
  dataAVCC : Option Bytes := none
  dataAnnexB : Option Bytes := none
  onBufferAlloc : Option (Nat → Bytes) := none

namespace AVPacket

/-- `ConvertDts` (/repo/av_packet.go:57-63). -/
def convertDts (undef : Int) (p : AVPacket) (dst : Int) : Int :=
  if p.timebase = dst then p.dts else convertTs undef p.dts p.timebase dst

/-- `ConvertPts` (/repo/av_packet.go:65-71). -/
def convertPts (undef : Int) (p : AVPacket) (dst : Int) : Int :=
  if p.timebase = dst then p.pts else convertTs undef p.pts p.timebase dst

/-- `GetDuration` (/repo/av_packet.go:73-79). -/
def getDuration (undef : Int) (p : AVPacket) (timebase : Int) : Int :=
  if p.timebase = timebase then p.duration else convertTs undef p.duration p.timebase timebase

/-- `GetPtsDtsDelta` (/repo/av_packet.go:82-88). -/
def getPtsDtsDelta (undef : Int) (p : AVPacket) (timebase : Int) : Int :=
  if p.timebase = timebase then wrap64 (p.pts - p.dts) else convertTs undef (wrap64 (p.pts - p.dts)) p.timebase timebase

/-- The buffer for a conversion (/repo/packet_utils.go:23-28, 51-55 and 85-89). -/
def allocBuffer (p : AVPacket) (size : Nat) : Bytes :=
  match p.onBufferAlloc with
  | some f => f size
  | none => List.replicate size 0

end AVPacket

/-- Lines 18-34 of `AVCCPacket2AnnexB` (/repo/packet_utils.go): Annex B key frames get the parameter sets in front unless
they begin with a unit with the same header byte. -/
def prependExtraData (s : AVStream) (p : AVPacket) : Go AVPacket :=
  if p.key ∧ (s.codecID = codecH264 ∨ s.codecID = codecH265) ∧ p.dataAnnexB = none then
    match s.codecParameters with
    | none => ok p
    | some c => do
      let extra := c.annexBExtraData
      let e ← removeStartCode extra
      let e0 ← idx e 0
      let d ← removeStartCode p.data
      let d0 ← idx d 0
      if e0 ≠ d0 then do
        let data := p.allocBuffer (extra.length + p.data.length)
        let data ← copyAt data 0 extra
        let data ← copyAt data extra.length p.data
        return { p with dataAnnexB := some data }
      else return p
  else ok p

/-- `AVCCPacket2AnnexB` (/repo/packet_utils.go:14-75): the result and the packet afterwards. -/
def avccPacket2AnnexB (s : AVStream) (p : AVPacket) : Go (Bytes × AVPacket) :=
  if p.mediaType ≠ mediaVideo then panic
  else if p.packetType ≠ packAVCC ∨ (s.codecID ≠ codecH264 ∧ s.codecID ≠ codecH265) then do
    let p ← prependExtraData s p
    match p.dataAnnexB with
    | some d => return (d, p)
    | none => return (p.data, p)
  else
    match p.dataAnnexB with
    | some d => ok (d, p)
    | none => do
      let extraSize :=
        match s.codecParameters with
        | some c => if p.key then c.annexBExtraData.length else 0
        | none => 0
      let bytes := p.allocBuffer (extraSize + p.data.length + 256)
      let (n, bytes) ← (
        if p.codecID = codecH264 then do
          let dst ← sliceFrom bytes extraSize
          let (n, dst) ← avcc2AnnexB dst p.data []
          return (n, bytes.take extraSize ++ dst)
        else if p.codecID = codecH265 then
          match s.codecParameters with
          | some { record := .hevc r, .. } => do
            let dst ← sliceFrom bytes extraSize
            match hevcMp4ToAnnexB dst p.data [] r.lengthSizeMinusOne.toNat with
            | .ok (n, dst) => return (n, bytes.take extraSize ++ dst)
            | .err _ => panic
            | .panic => panic
          | _ => panic
        else ok (0, bytes) : Go (Nat × Bytes))
      let head ← slice bytes 0 extraSize
      match s.codecParameters with
      | none => panic
      | some c => do
        let bytes := overwrite head 0 c.annexBExtraData ++ bytes.drop extraSize
        let out ← slice bytes 0 (n + extraSize)
        return (out, { p with dataAnnexB := some out })

/-- `AnnexBPacket2AVCC` (/repo/packet_utils.go:77-96). -/
def annexBPacket2AVCC (p : AVPacket) : Go (Bytes × AVPacket) :=
  if p.mediaType ≠ mediaVideo then panic
  else if p.packetType ≠ packAnnexB ∨ (p.codecID ≠ codecH264 ∧ p.codecID ≠ codecH265) then ok (p.data, p)
  else
    match p.dataAVCC with
    | some d => ok (d, p)
    | none => do
      let bytes := p.allocBuffer (p.data.length + 256)
      let (n, bytes) ← annexB2AVCC bytes p.data
      let out ← slice bytes 0 n
      return (out, { p with dataAVCC := some out })

/-- `IsKeyFrame` (/repo/packet_utils.go:98-106). -/
def isKeyFrame (id : Int) (data : Bytes) : Go Bool :=
  if id = codecH264 then avcIsKeyFrame data
  else if id = codecH265 then hevcIsKeyFrame data
  else ok false

/-! ## The packet pool -/

/-- All packet objects that were ever made and the `sync.Pool` `PacketPool` (/repo/av_packet.go:29-35). -/
structure PacketPool where
  objs : List AVPacket := []
  pool : List Nat := []

namespace PacketPool

/-- `PacketPool.Get()`: `sync.Pool` returns any of its objects or makes a new one; `pick` decides. -/
def get (s : PacketPool) (pick : Option Nat) : Nat × PacketPool :=
  match pick with
  | some i =>
    match s.pool[i]? with
    | some id => (id, { s with pool := s.pool.eraseIdx i })
    | none => (s.objs.length, { s with objs := s.objs ++ [{}] })
  | none => (s.objs.length, { s with objs := s.objs ++ [{}] })

/-- Assignments to the fields of a packet. -/
def modify (s : PacketPool) (id : Nat) (f : AVPacket → AVPacket) : PacketPool := { s with objs := s.objs.modify id f }

/-- `NewAudioPacket` (/repo/av_packet.go:90-101). -/
def newAudioPacket (s : PacketPool) (pick : Option Nat) (data : Bytes) (ts : Int) (id : Int) (index timebase : Int) :
    Nat × PacketPool :=
  let (p, s) := s.get pick
  (p, s.modify p fun x =>
    { x with data := data, dts := ts, pts := ts, codecID := id, index := index, timebase := timebase, mediaType := mediaAudio })

/-- `NewVideoPacket` (/repo/av_packet.go:103-116). -/
def newVideoPacket (s : PacketPool) (pick : Option Nat) (data : Bytes) (dts pts : Int) (key : Bool) (pktType : Byte) (id : Int)
    (index timebase : Int) : Nat × PacketPool :=
  let (p, s) := s.get pick
  (p, s.modify p fun x =>
    { x with data := data, dts := dts, pts := pts, key := key, packetType := pktType, codecID := id, index := index,
             timebase := timebase, mediaType := mediaVideo })

/-- The assignments of `FreePacket` (/repo/av_packet.go:118-135). -/
def reset (p : AVPacket) : AVPacket :=
  { p with
    data := [], dataAVCC := none, dataAnnexB := none, onBufferAlloc := none, bufferIndex := 0, dts := 0, pts := 0, duration := 0
    key := false, createdTime := 0, index := 0, timebase := 0, packetType := packNone, mediaType := mediaUnknown
    codecID := codecNone }

/-- `FreePacket` (/repo/av_packet.go:118-135). -/
def freePacket (s : PacketPool) (p : Nat) : PacketPool :=
  let s := s.modify p reset
  { s with pool := s.pool ++ [p] }

end PacketPool

end Avf
