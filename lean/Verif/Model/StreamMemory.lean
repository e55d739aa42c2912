import Verif.Model.Demuxer
import Verif.Model.BlockBuffer
/-!
# Which memory a stream uses: /repo/demuxer.go:92-169, /repo/codec_paraments.go, /repo/video_stream.go, `Unmarshal`, `ParseExtraDataFromKeyNALU`

`Model/Codec` and `Model/Demuxer` make streams from byte lists. Here the same functions work on slices of memory, so that it
shows which slices of a stream are the caller's memory and which are not. Memory is that of `Model/BlockBuffer`: numbered
arrays, a slice being an array number, an offset and a length.

Simplifications: `append` always gives a new array (where Go would use spare capacity, only the result of the `append` refers to
the array); a failed `Unmarshal` drops what was read so far (its callers here drop it). Numbers are computed by the functions of
`Model/Sps`, `Model/Utils` and `Model/BytesBuf` from the contents of the slices; they do not keep slices.
-/
namespace Avf
open Go

/-- A computation on memory; an error is the error result of Go, and memory is what it is then. -/
def MemM (α : Type) : Type := Mem → Go (Except String α × Mem)

namespace MemM

instance : Monad MemM where
  pure a := fun m => ok (.ok a, m)
  bind x f := fun m =>
    match x m with
    | .ok (.ok a, m) => f a m
    | .ok (.error e, m) => ok (.error e, m)
    | .err e => err e
    | .panic => panic

/-- An error result. -/
def fail {α : Type} (e : String) : MemM α := fun m => ok (.error e, m)

/-- A computation that only looks at memory. -/
def look {α : Type} (f : Mem → Go α) : MemM α := fun m =>
  match f m with
  | .ok a => ok (.ok a, m)
  | .err e => ok (.error e, m)
  | .panic => panic

/-- `make([]byte, n)`. -/
def make (n : Nat) : MemM SliceRef := fun m => ok (.ok (m.make n).1, (m.make n).2)

/-- `copy(dst[off:], src)`. -/
def copyInto (dst : SliceRef) (off : Nat) (src : SliceRef) : MemM Unit := fun m =>
  if off ≤ dst.len then ok (.ok (), m.copy ⟨dst.arr, dst.off + off, dst.len - off⟩ (m.read src)) else panic

/-- `binary.BigEndian.PutUint32(dst, 0x1)`. -/
def putStartCode (dst : SliceRef) : MemM Unit := fun m =>
  if 4 ≤ dst.len then ok (.ok (), m.copy dst (be32 1)) else panic

end MemM
open MemM

/-- `s[i]`. -/
def SliceRef.idx (s : SliceRef) (i : Nat) : MemM Byte := look fun m => _root_.Avf.idx (m.read s) i

/-- `s[a:]`. -/
def SliceRef.from (s : SliceRef) (a : Nat) : MemM SliceRef := look fun _ => s.sub a s.len

/-- A new slice with a start code and a copy of `nalu` (/repo/avc/mp4.go:130-132 and 157-159, /repo/hevc/mp4.go:185-187,
/repo/avc/util.go:336-338 and 340-342, /repo/hevc/util.go:100-110). -/
def withStartCodeM (nalu : SliceRef) : MemM SliceRef := do
  let s ← make (4 + nalu.len)
  putStartCode s
  copyInto s 4 nalu
  return s

/-- `RemoveStartCode` (/repo/avc/util.go:314-324). -/
def removeStartCodeM (data : SliceRef) : MemM SliceRef := do
  let d0 ← data.idx 0
  if d0 ≠ 0 then return data
  else do
    let d1 ← data.idx 1
    if d1 ≠ 0 then return data
    else do
      let d2 ← data.idx 2
      if d2 = 1 then data.from 3
      else if d2 = 0 then do
        let d3 ← data.idx 3
        if d3 = 1 then data.from 4 else return data
      else return data

/-- `SplitNalU` (/repo/avc/util.go:301-312) on `data[offset:]` with a callback that changes `σ`. -/
def splitNalUM {σ : Type} (cb : σ → SliceRef → MemM σ) (p : SliceRef) (s : σ) : MemM σ := fun m =>
  if _h : 3 ≤ p.len then
    match findStartCode2 (m.read ⟨p.arr, p.off + 3, p.len - 3⟩) with
    | .ok none => cb s p m
    | .ok (some n) =>
      match p.sub 0 (n + 3) with
      | .ok nal =>
        match cb s nal m with
        | .ok (.ok s, m) => splitNalUM cb ⟨p.arr, p.off + (n + 3), p.len - (n + 3)⟩ s m
        | .ok (.error e, m) => ok (.error e, m)
        | .err e => err e
        | .panic => panic
      | .err e => err e
      | .panic => panic
    | .err e => err e
    | .panic => panic
  else panic
termination_by p.len
decreasing_by omega

/-- The callback of `avc.ParseExtraDataFromKeyNALU` (/repo/avc/util.go:331-344). -/
def avcExtraStepM (s : Option SliceRef × Option SliceRef) (nalu : SliceRef) : MemM (Option SliceRef × Option SliceRef) := do
  let nal ← removeStartCodeM nalu
  let b ← nal.idx 0
  let header := b &&& 0x1F
  if header = 7 then do
    let sps ← withStartCodeM nal
    return (some sps, s.2)
  else if header = 8 then do
    let pps ← withStartCodeM nal
    return (s.1, some pps)
  else return s

/-- `avc.ParseExtraDataFromKeyNALU` (/repo/avc/util.go:327-350). -/
def avcParseExtraDataM (data : SliceRef) : MemM (SliceRef × SliceRef) := do
  let s ← splitNalUM avcExtraStepM data (none, none)
  match s with
  | (some sps, some pps) => return (sps, pps)
  | _ => fail "not find extra data for H264"

/-- The callback of `hevc.ParseExtraDataFromKeyNALU` (/repo/hevc/util.go:95-112). -/
def hevcExtraStepM (s : Option SliceRef × Option SliceRef × Option SliceRef) (nalu : SliceRef) :
    MemM (Option SliceRef × Option SliceRef × Option SliceRef) := do
  let nal ← removeStartCodeM nalu
  let b ← nal.idx 0
  let header := b >>> 1 &&& 0x3F
  if header = 32 then do
    let vps ← withStartCodeM nal
    return (some vps, s.2.1, s.2.2)
  else if header = 33 then do
    let sps ← withStartCodeM nal
    return (s.1, some sps, s.2.2)
  else if header = 34 then do
    let pps ← withStartCodeM nal
    return (s.1, s.2.1, some pps)
  else return s

/-- `hevc.ParseExtraDataFromKeyNALU` (/repo/hevc/util.go:90-118). -/
def hevcParseExtraDataM (data : SliceRef) : MemM (SliceRef × SliceRef × SliceRef) := do
  let s ← splitNalUM hevcExtraStepM data (none, none, none)
  match s with
  | (some vps, some sps, some pps) => return (vps, sps, pps)
  | _ => fail "not find extra data for H265"

/-! ## Records -/

/-- `bytesReader` (/repo/bufio/bytes_reader.go) on a slice. -/
structure MemReader where
  data : SliceRef
  length : Int
  offset : Int

namespace MemReader

/-- The reader of `Model/BytesBuf` on what is in memory now. -/
def view (r : MemReader) (m : Mem) : BytesBuf := { data := m.read r.data, length := r.length, offset := r.offset }

/-- `NewBytesReader` (/repo/bufio/bytes_reader.go:77-81). -/
def new (data : SliceRef) : MemReader := { data := data, offset := 0, length := data.len }

/-- A method of `Model/BytesBuf` that changes nothing but the offset. -/
def run {α : Type} (r : MemReader) (f : BytesBuf → Go (BytesBuf.Res α)) : MemM (α × MemReader) := look fun m =>
  match f (r.view m) with
  | .ok (.ok a, b) => ok (a, { r with offset := b.offset })
  | .ok (.error e, _) => err e
  | .err e => err e
  | .panic => panic

/-- `ReadBytes` (/repo/bufio/bytes_reader.go:68-75): the result is a slice of the data. -/
def readBytes (r : MemReader) (size : Int) : MemM (SliceRef × MemReader) := do
  let (_, r') ← r.run fun b => ok (b.peekN size)
  let s ← look fun _ => if 0 ≤ r.offset ∧ 0 ≤ r'.offset then r.data.sub r.offset.toNat r'.offset.toNat else panic
  return (s, r')

end MemReader

/-- The loops that read parameter sets in `avc` `Unmarshal` (/repo/avc/mp4.go:118-135 and 145-162) and in `hevc`
`Unmarshal` (/repo/hevc/mp4.go:173-196). -/
def readSetsM {σ : Type} (add : σ → SliceRef → σ) : Nat → MemReader → σ → MemM (MemReader × σ)
  | 0, r, s => pure (r, s)
  | n + 1, r, s => do
    let (length, r) ← r.run BytesBuf.readUint16
    let (bytes, r) ← r.readBytes length.toNat
    let nalu ← withStartCodeM bytes
    readSetsM add n r (add s nalu)

/-- `AVCDecoderConfigurationRecord` (/repo/avc/mp4.go:31-40); `fields` has the numbers (and no lists). -/
structure AVCRecordM where
  fields : AVCRecord := {}
  spsList : List SliceRef := []
  ppsList : List SliceRef := []

/-- `AVCDecoderConfigurationRecord.Unmarshal` (/repo/avc/mp4.go:96-170) of an empty record. -/
def avcUnmarshalM (data : SliceRef) : MemM AVCRecordM := do
  let (_, r) ← (MemReader.new data).run fun b => ok (b.seek 5)
  let (spsCount, r) ← r.run BytesBuf.readUint8
  let spsCount := spsCount &&& 0x1F
  if spsCount < 1 then fail "no sps found"
  else do
    let (r, a) ← readSetsM (fun (a : AVCRecordM) s => { a with spsList := a.spsList ++ [s] }) spsCount.toNat r {}
    let (ppsCount, r) ← r.run BytesBuf.readUint8
    if ppsCount < 1 then fail "no pps found"
    else do
      let (_, a) ← readSetsM (fun (a : AVCRecordM) s => { a with ppsList := a.ppsList ++ [s] }) ppsCount.toNat r a
      let d0 ← data.idx 0
      let d1 ← data.idx 1
      let d2 ← data.idx 2
      let d3 ← data.idx 3
      let d4 ← data.idx 4
      return { a with fields := { configurationVersion := d0, avcProfileIndication := d1, profileCompatibility := d2,
                                  avcLevelIndication := d3, lengthSizeMinusOne := d4 &&& 0x3 } }

/-- `HEVCDecoderConfigurationRecord` (/repo/hevc/mp4.go:50-73); `fields` has the numbers (and no lists), `ppsCap` and `shared` are
as in `Model/Record`. -/
structure HEVCRecordM where
  fields : HEVCRecord := {}
  vpsList : List SliceRef := []
  spsList : List SliceRef := []
  ppsList : List SliceRef := []
  ppsCap : Nat := 0
  shared : Bool := false

/-- What the inner loop does with one set (/repo/hevc/mp4.go:189-195), as `hevcAdd`. -/
def hevcAddM (grow : Nat → Nat) (headerType : Byte) (r : HEVCRecordM) (nalu : SliceRef) : HEVCRecordM :=
  if headerType = 32 then { r with vpsList := r.vpsList ++ [nalu] }
  else if headerType = 33 then
    { r with spsList := r.ppsList ++ [nalu], shared := decide (r.ppsList.length < r.ppsCap) }
  else if headerType = 34 then
    if r.ppsList.length < r.ppsCap then
      { r with ppsList := r.ppsList ++ [nalu],
               spsList := if r.shared ∧ r.spsList.length = r.ppsList.length + 1 then r.spsList.set r.ppsList.length nalu
                          else r.spsList }
    else { r with ppsList := r.ppsList ++ [nalu], ppsCap := max (r.ppsList.length + 1) (grow (r.ppsList.length + 1)), shared := false }
  else r

/-- The outer loop of `HEVCDecoderConfigurationRecord.Unmarshal` (/repo/hevc/mp4.go:161-197). -/
def hevcReadArraysM (grow : Nat → Nat) : Nat → MemReader → HEVCRecordM → MemM HEVCRecordM
  | 0, _, rec => pure rec
  | n + 1, r, rec => do
    let (t, r) ← r.run BytesBuf.readUint8
    let (naluCount, r) ← r.run BytesBuf.readUint16
    let (r, rec) ← readSetsM (hevcAddM grow (t &&& 0x3F)) naluCount.toNat r rec
    hevcReadArraysM grow n r rec

/-- `HEVCDecoderConfigurationRecord.Unmarshal` (/repo/hevc/mp4.go:133-209) of an empty record. -/
def hevcUnmarshalM (grow : Nat → Nat) (data : SliceRef) : MemM HEVCRecordM := do
  let (_, r) ← (MemReader.new data).run fun b => ok (b.seek 23)
  let fields ← look fun m => hevcHeader {} (m.read data)
  let rec ← hevcReadArraysM grow fields.numOfArrays.toNat r { fields := fields }
  if rec.spsList.length = 0 then fail "h265parser: no SPS found in HEVCDecoderConfRecord"
  else if rec.ppsList.length = 0 then fail "h265parser: no PPS found in HEVCDecoderConfRecord"
  else if rec.vpsList.length = 0 then fail "h265parser: no VPS found in HEVCDecoderConfRecord"
  else return rec

/-! ## Codec data and streams -/

/-- `Record` of `AVCCodecData` and `HEVCCodecData` (/repo/codec_paraments.go:38-41 and 67-70). -/
inductive CodecRecordM where
  | avc (r : AVCRecordM)
  | hevc (r : HEVCRecordM)

/-- `AVCCodecData`, `HEVCCodecData` (/repo/codec_paraments.go:23-41 and 67-70). -/
structure CodecDataM where
  width : Int
  height : Int
  annexB : Option SliceRef
  m4vc : Option SliceRef
  record : CodecRecordM

/-- `append(a, b...)`. -/
def appendM (a : Option SliceRef) (b : SliceRef) : MemM (Option SliceRef) := fun m =>
  if b.len = 0 then ok (.ok a, m)
  else
    let old := (a.map m.read).getD []
    ok (.ok (some ⟨m.length, 0, old.length + b.len⟩), m ++ [old ++ m.read b])

/-- `mix` (/repo/codec_paraments.go:145-154). -/
def mixM (data : List (List SliceRef)) : MemM (Option SliceRef) :=
  data.foldlM (fun extra v => v.foldlM appendM extra) none

/-- `ParseAVCDecoderConfigurationRecord` (/repo/codec_paraments.go:100-121). -/
def parseAVCRecordM (undef : Int) (data : SliceRef) : MemM CodecDataM := do
  let r ← avcUnmarshalM data
  let s ← look fun _ => _root_.Avf.idx r.spsList 0
  let info ← look fun m => avcParseSPS undef (m.read s)
  return { m4vc := some data, width := info.width, height := info.height, record := .avc r, annexB := none }

/-- `ParseHEVCDecoderConfigurationRecord` (/repo/codec_paraments.go:123-143). -/
def parseHEVCRecordM (grow : Nat → Nat) (data : SliceRef) : MemM CodecDataM := do
  let r ← hevcUnmarshalM grow data
  let s ← look fun _ => _root_.Avf.idx r.spsList 0
  let info ← look fun m => hevcParseSPS (m.read s)
  return { m4vc := some data, width := info.width, height := info.height, record := .hevc r, annexB := none }

/-- `NewAVCCodecData` (/repo/codec_paraments.go:156-179). -/
def newAVCCodecDataM (undef : Int) (sps pps : SliceRef) : MemM CodecDataM := do
  let info ← look fun m =>
    match avcParseSPS undef (m.read sps) with
    | .err e => err ("h264parser: parse SPS failed(" ++ e ++ ")")
    | x => x
  let annexB ← mixM [[sps], [pps]]
  return { annexB := annexB, width := info.width, height := info.height, m4vc := none,
           record := .avc { spsList := [sps], ppsList := [pps] } }

/-- `NewHEVCCodecData` (/repo/codec_paraments.go:181-206). -/
def newHEVCCodecDataM (vps sps pps : SliceRef) : MemM CodecDataM := do
  let info ← look fun m =>
    match hevcParseSPS (m.read sps) with
    | .err e => err ("h265parser: parse SPS failed(" ++ e ++ ")")
    | x => x
  let annexB ← mixM [[vps], [sps], [pps]]
  return { annexB := annexB, width := info.width, height := info.height, m4vc := none,
           record := .hevc { vpsList := [vps], spsList := [sps], ppsList := [pps], ppsCap := 1 } }

/-- `generateVideoCodecData` (/repo/video_stream.go:182-209). -/
def generateVideoCodecDataM (undef : Int) (grow : Nat → Nat) (packType : Byte) (id : Int) (data : SliceRef) :
    MemM (Option CodecDataM) :=
  if packType = packAVCC then
    if id = codecH264 then do return some (← parseAVCRecordM undef data)
    else if id = codecH265 then do return some (← parseHEVCRecordM grow data)
    else pure none
  else
    if id = codecH264 then do
      let (sps, pps) ← avcParseExtraDataM data
      return some (← newAVCCodecDataM undef sps pps)
    else if id = codecH265 then do
      let (vps, sps, pps) ← hevcParseExtraDataM data
      return some (← newHEVCCodecDataM vps sps pps)
    else pure none

/-- `AVStream` (/repo/av_stream.go:13-23); a nil slice is `none`. -/
structure AVStreamM extends AudioConfig where
  mediaType : Int
  index : Int
  codecID : Int
  codecParameters : Option CodecDataM := none
  data : Option SliceRef := none
  timebase : Int := 0

/-- `AnnexBExtraData` (/repo/codec_paraments.go:43-49 and 84-90). -/
def CodecDataM.annexBExtraData (c : CodecDataM) : MemM (Option SliceRef) :=
  match c.annexB with
  | some d => pure (some d)
  | none =>
    match c.record with
    | .avc r => mixM [r.spsList, r.ppsList]
    | .hevc r => mixM [r.vpsList, r.spsList, r.ppsList]

/-- `CreateAVCStreamFromKeyFrame` (/repo/video_stream.go:27-39). -/
def createAVCStreamFromKeyFrameM (undef : Int) (data : SliceRef) (index : Int) : MemM AVStreamM := do
  let (sps, pps) ← avcParseExtraDataM data
  let c ← newAVCCodecDataM undef sps pps
  let d ← c.annexBExtraData
  return { mediaType := mediaVideo, index := index, codecID := codecH264, data := d, codecParameters := some c }

/-- `CreateHevcStreamFromKeyFrame` (/repo/video_stream.go:12-24). -/
def createHevcStreamFromKeyFrameM (data : SliceRef) (index : Int) : MemM AVStreamM := do
  let (vps, sps, pps) ← hevcParseExtraDataM data
  let c ← newHEVCCodecDataM vps sps pps
  let d ← c.annexBExtraData
  return { mediaType := mediaVideo, index := index, codecID := codecH265, data := d, codecParameters := some c }

/-- The stream that `createVideoTrack` makes (/repo/demuxer.go:146-157). -/
def videoStreamM (undef : Int) (grow : Nat → Nat) (packType : Byte) (id timebase index : Int) (extraData : SliceRef) :
    MemM AVStreamM := do
  let data ← make extraData.len
  copyInto data 0 extraData
  let config ← generateVideoCodecDataM undef grow packType id data
  return { mediaType := mediaVideo, index := index, codecID := id, data := some data, codecParameters := config, timebase := timebase }

/-- The stream that `createAudioTrack` makes (/repo/demuxer.go:92-119). -/
def audioStreamM (id timebase index : Int) (extraData : Option SliceRef) (config : AudioConfig) : MemM AVStreamM := do
  let data ← (match extraData with
    | none => pure none
    | some e =>
      if e.len > 0 then do
        let d ← make e.len
        copyInto d 0 e
        return some d
      else pure none : MemM (Option SliceRef))
  let stream : AVStreamM :=
    { toAudioConfig := config, mediaType := mediaAudio, index := index, codecID := id, timebase := timebase, data := data }
  if id = codecAAC ∧ ¬ config.hasADTSHeader then
    match extraData with
    | none => look fun _ => panic
    | some e => do
      let c ← look fun m => parseMpeg4AudioConfig (m.read e)
      return { stream with sampleRate := c.sampleRate, channels := c.channels }
  else return stream

end Avf
