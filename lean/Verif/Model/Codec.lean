import Verif.Model.Sps
import Verif.Model.Utils
/-!
# Model of /repo/codec_paraments.go, /repo/av_stream.go, /repo/track.go and /repo/video_stream.go

A `CodecData` interface value that is not nil is a `*AVCCodecData` or a `*HEVCCodecData`; which one is told by `record`. The
accessors have value receivers, so what they cache is lost when they return: they do not change anything.

Messages printed to the terminal are not modelled. `undef` is the result of an out-of-range float conversion (see
`Verif.Model.Sps`), `grow` the capacity policy of `append` (see `Verif.Model.Record`).
-/
namespace Avf
open Go

/-- Media types (/repo/utils/av_util.go:8-14). -/
def mediaUnknown : Int := -1
def mediaVideo : Int := 0
def mediaAudio : Int := 1

/-- The codec identifiers that the code distinguishes (/repo/utils/codec_id.go:9, 36, 183-184, 273, 324, 386). -/
def codecNone : Int := 0
def codecH264 : Int := 0x1b
def codecH265 : Int := 0xad
def codecPCMS16LE : Int := 0x10000
def codecG726 : Int := 0x1100b
def codecAAC : Int := 0x15002

/-- Packing of video data (/repo/av_packet.go:23-25). -/
def packAnnexB : Byte := 1
def packAVCC : Byte := 2
def packNone : Byte := 3

/-- `Record` of `AVCCodecData` and `HEVCCodecData` (/repo/codec_paraments.go:38-41 and 67-70). -/
inductive CodecRecord where
  | avc (r : AVCRecord)
  | hevc (r : HEVCRecord)
deriving DecidableEq, Repr

/-- `AVCCodecData`, `HEVCCodecData` with the embedded `codecData` (/repo/codec_paraments.go:23-41 and 67-70). -/
structure CodecData where
  width : Int
  height : Int
  annexB : Option Bytes
  m4vc : Option Bytes
  record : CodecRecord
deriving DecidableEq, Repr

/-- `mix` (/repo/codec_paraments.go:145-154). -/
def mix (data : List (List Bytes)) : Bytes := data.foldl (fun extra v => v.foldl (· ++ ·) extra) []

namespace CodecData

/-- `SPS` (/repo/codec_paraments.go:59-61 and 72-74). -/
def sps (c : CodecData) : List Bytes := match c.record with | .avc r => r.spsList | .hevc r => r.spsList

/-- `PPS` (/repo/codec_paraments.go:63-65 and 76-78). -/
def pps (c : CodecData) : List Bytes := match c.record with | .avc r => r.ppsList | .hevc r => r.ppsList

/-- `HEVCCodecData.VPS` (/repo/codec_paraments.go:80-82); the AVC type has no such method. -/
def vps (c : CodecData) : List Bytes := match c.record with | .avc _ => [] | .hevc r => r.vpsList

/-- `AnnexBExtraData` (/repo/codec_paraments.go:43-49 and 84-90). -/
def annexBExtraData (c : CodecData) : Bytes :=
  match c.annexB with
  | some d => d
  | none =>
    match c.record with
    | .avc r => mix [r.spsList, r.ppsList]
    | .hevc r => mix [r.vpsList, r.spsList, r.ppsList]

/-- `x, _ := f()` for an `f` that returns a nil slice with its errors. -/
def noErr : Go Bytes → Go Bytes
  | .ok d => ok d
  | .err _ => ok []
  | .panic => panic

/-- `MP4ExtraData` (/repo/codec_paraments.go:51-57 and 92-98). -/
def mp4ExtraData (c : CodecData) : Go Bytes :=
  match c.m4vc with
  | some d => ok d
  | none =>
    match c.record with
    | .avc r => noErr (avcMarshal r.spsList r.ppsList)
    | .hevc r => noErr (hevcMarshal r.vpsList r.spsList r.ppsList)

end CodecData

/-- `ParseAVCDecoderConfigurationRecord` (/repo/codec_paraments.go:100-121). -/
def parseAVCRecord (undef : Int) (data : Bytes) : Go CodecData := do
  match ← avcUnmarshal {} data with
  | (.error e, _) => err e
  | (.ok (), r) => do
    let s ← idx r.spsList 0
    let info ← avcParseSPS undef s
    return { m4vc := some data, width := info.width, height := info.height, record := .avc r, annexB := none }

/-- `ParseHEVCDecoderConfigurationRecord` (/repo/codec_paraments.go:123-143). -/
def parseHEVCRecord (grow : Nat → Nat) (data : Bytes) : Go CodecData := do
  match ← hevcUnmarshal grow {} data with
  | (.error e, _) => err e
  | (.ok (), r) => do
    let s ← idx r.spsList 0
    let info ← hevcParseSPS s
    return { m4vc := some data, width := info.width, height := info.height, record := .hevc r, annexB := none }

/-- `NewAVCCodecData` (/repo/codec_paraments.go:156-179). -/
def newAVCCodecData (undef : Int) (sps pps : Bytes) : Go CodecData :=
  match avcParseSPS undef sps with
  | .err e => err ("h264parser: parse SPS failed(" ++ e ++ ")")
  | .panic => panic
  | .ok info =>
    ok { annexB := some (mix [[sps], [pps]]), width := info.width, height := info.height, m4vc := none,
         record := .avc { spsList := [sps], ppsList := [pps] } }

/-- `NewHEVCCodecData` (/repo/codec_paraments.go:181-206). The record's `ppsCap` is that of `make([][]byte, 1)`. -/
def newHEVCCodecData (vps sps pps : Bytes) : Go CodecData :=
  match hevcParseSPS sps with
  | .err e => err ("h265parser: parse SPS failed(" ++ e ++ ")")
  | .panic => panic
  | .ok info =>
    ok { annexB := some (mix [[vps], [sps], [pps]]), width := info.width, height := info.height, m4vc := none,
         record := .hevc { vpsList := [vps], spsList := [sps], ppsList := [pps], ppsCap := 1 } }

/-- `AudioConfig` (/repo/av_stream.go:5-11). -/
structure AudioConfig where
  sampleRate : Int := 0
  sampleSize : Int := 0
  channels : Int := 0
  hasADTSHeader : Bool := false
  bitRate : Int := 0
deriving DecidableEq, Repr

/-- `AVStream` (/repo/av_stream.go:13-23) with `CodecParameters` nil as `none` and without `Colors`, which nothing sets. A
`Track` is its stream (`SimpleTrack.GetStream`, /repo/track.go:11-13). `NewAVStream` (/repo/av_stream.go:25-27) sets the first five fields; it is
written out where it is called. -/
structure AVStream extends AudioConfig where
  mediaType : Int
  index : Int
  codecID : Int
  codecParameters : Option CodecData := none
  data : Bytes := []
  timebase : Int := 0
deriving DecidableEq, Repr

/-- `generateVideoCodecData` (/repo/video_stream.go:182-209). -/
def generateVideoCodecData (undef : Int) (grow : Nat → Nat) (packType : Byte) (id : Int) (data : Bytes) : Go (Option CodecData) :=
  if packType = packAVCC then
    if id = codecH264 then do return some (← parseAVCRecord undef data)
    else if id = codecH265 then do return some (← parseHEVCRecord grow data)
    else ok none
  else
    if id = codecH264 then do
      let (sps, pps) ← avcParseExtraData data
      return some (← newAVCCodecData undef sps pps)
    else if id = codecH265 then do
      let (vps, sps, pps) ← hevcParseExtraData data
      return some (← newHEVCCodecData vps sps pps)
    else ok none

/-- `CreateAVCStreamFromKeyFrame` (/repo/video_stream.go:27-39). -/
def createAVCStreamFromKeyFrame (undef : Int) (data : Bytes) (index : Int) : Go AVStream := do
  let (sps, pps) ← avcParseExtraData data
  let c ← newAVCCodecData undef sps pps
  return { mediaType := mediaVideo, index := index, codecID := codecH264, data := c.annexBExtraData, codecParameters := some c }

/-- `CreateHevcStreamFromKeyFrame` (/repo/video_stream.go:12-24). -/
def createHevcStreamFromKeyFrame (data : Bytes) (index : Int) : Go AVStream := do
  let (vps, sps, pps) ← hevcParseExtraData data
  let c ← newHEVCCodecData vps sps pps
  return { mediaType := mediaVideo, index := index, codecID := codecH265, data := c.annexBExtraData, codecParameters := some c }

/-- `ExtractVideoExtraDataFromKeyFrame` (/repo/video_stream.go:41-61); `none` is a nil slice. -/
def extractVideoExtraData (id : Int) (data : Bytes) : Go (Option Bytes) :=
  if id = codecH264 then do
    let (sps, pps) ← avcParseExtraData data
    return some (sps ++ pps)
  else if id = codecH265 then do
    let (vps, sps, pps) ← hevcParseExtraData data
    return some (vps ++ sps ++ pps)
  else ok none

/-- `ExtractAudioExtraData` (/repo/video_stream.go:63-106): extra data (`none` for nil), bytes to skip, configuration. -/
def extractAudioExtraData (id : Int) (data : Bytes) : Go (Option Bytes × Int × AudioConfig) :=
  if id = codecAAC then
    if data.length < 7 then err "need more data"
    else do
      let header ← readADtsFixedHeader data
      let skip : Int := if adtsProtectionAbsent header = 0 then 7 + 2 else 7
      let extra := adtsHeader2MpegAudioConfigData header
      let rate := (getSampleRateFromFrequency (adtsFrequency header)).1
      return (some extra, skip, { sampleRate := rate, sampleSize := 16, channels := adtsChannel header, hasADTSHeader := true })
  else ok (none, 0, { sampleRate := 8000, sampleSize := 16, channels := 1 })

end Avf
