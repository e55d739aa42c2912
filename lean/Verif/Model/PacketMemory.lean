import Verif.Model.StreamMemory
import Verif.Model.Packet
/-!
# Which memory the conversions use: /repo/packet_utils.go, `AVCC2AnnexB`, `AnnexB2AVCC`, `hevc.Mp4ToAnnexB`

`Model/Nal` and `Model/Packet` give the destination of a conversion as a byte list that is passed in and out, so that source and
destination are separate by construction. Here the same functions work on slices of one memory (`Model/BlockBuffer`), and a `copy`
reads its source when it is executed. `StartCode3` and `StartCode4` are constants. `dst[off:]` is a slice and an offset; `rest` is the
part of the source that is not read yet. The capacity of a slice is its length (`Model/Capacity` has the other case).
-/
namespace Avf
open Go MemM

namespace SliceRef

/-- `s[k:]` for a `k` within the length. -/
def skip (s : SliceRef) (k : Nat) : SliceRef := ⟨s.arr, s.off + k, s.len - k⟩

/-- A nil slice. -/
def empty : SliceRef := ⟨0, 0, 0⟩

end SliceRef

namespace MemM

/-- A panic. -/
def crash {α : Type} : MemM α := fun _ => Go.panic

/-- `PutUint24(dst[off:], …)`, `PutUint32(dst[off:], …)`: panics if the bytes do not fit. -/
def putInto (dst : SliceRef) (off : Nat) (bs : Bytes) : MemM Unit := fun m =>
  if off + bs.length ≤ dst.len then ok (.ok (), m.copy (dst.skip off) bs) else Go.panic

/-- `copy(dst[off:], bs)` for a constant `bs`. -/
def copyConst (dst : SliceRef) (off : Nat) (bs : Bytes) : MemM Unit := fun m =>
  if off ≤ dst.len then ok (.ok (), m.copy (dst.skip off) bs) else Go.panic

end MemM

/-- `copyNalUWithBytes` (/repo/avc/util.go:102-124) on `dst[off:]`. -/
def copyNalUWithBytesM (dst : SliceRef) (off : Nat) (data : SliceRef) (outSize : Nat) (append : Bool) : MemM Nat :=
  if off > dst.len then crash
  else if append then
    if outSize = 0 then do
      putInto dst off (be32 1)
      copyInto dst (off + 4) data
      return 4 + data.len
    else do
      putInto dst off startCode3
      copyInto dst (off + 3) data
      return 3 + data.len
  else do
    copyInto dst off data
    return data.len

/-- Loop of `AVCC2AnnexB` (/repo/avc/util.go:147-181); `rest` is `avcc[index-4:]`. -/
def avcc2AnnexBLoopM (extra dst rest : SliceRef) (outSize : Nat) (spsSeen ppsSeen : Bool) : MemM Nat :=
  if _h : 4 < rest.len then do
    let size ← look fun m => uint32At (m.read rest) 0
    let size := size.toNat
    if size = 0 ∨ rest.len - 4 < size then return outSize
    else do
      let b ← rest.idx 4
      let t := b &&& 0x1F
      let next := rest.skip (4 + size)
      if t = 6 then avcc2AnnexBLoopM extra dst next outSize spsSeen ppsSeen
      else do
        let spsSeen := spsSeen || t = 7
        let ppsSeen := ppsSeen || t = 8
        let outSize ← (if t = 5 ∧ ¬ spsSeen ∧ ¬ ppsSeen ∧ extra.len > 0 then do
            let n ← copyNalUWithBytesM dst outSize extra outSize false
            return outSize + n
          else pure outSize : MemM Nat)
        let bytes ← look fun _ => rest.sub 4 (4 + size)
        let n ← copyNalUWithBytesM dst outSize bytes outSize true
        avcc2AnnexBLoopM extra dst next (outSize + n) spsSeen ppsSeen
  else pure outSize
termination_by rest.len
decreasing_by all_goals simp only [SliceRef.skip]; omega

/-- `AVCC2AnnexB` (/repo/avc/util.go:147-181): the count returned. -/
def avcc2AnnexBM (dst avcc extra : SliceRef) : MemM Nat := avcc2AnnexBLoopM extra dst avcc 0 false false

/-- The slice after the loop that skips zeros (/repo/avc/util.go:194-196). -/
def skipZerosM (rest : SliceRef) (m : Mem) : SliceRef := rest.skip (rest.len - (skipZeros (m.read rest)).length)

/-- The outer loop of `AnnexB2AVCC` (/repo/avc/util.go:192-220); `rest` is `annexB[nalStart:]`. -/
def annexB2AVCCLoopM (dst rest : SliceRef) (size : Nat) : MemM Nat := fun m =>
  if _h : rest.len = 0 then ok (.ok size, m)
  else
    let p := skipZerosM rest m
    if _h : p.len = 0 then ok (.ok size, m)
    else
      match _hf : findStartCode (m.read p) with
      | .ok none => (do
          putInto dst size (be32 (BitVec.ofNat 32 p.len))
          let bytes ← look fun _ => p.sub 0 p.len
          copyInto dst (size + 4) bytes
          return size + 4 + p.len : MemM Nat) m
      | .ok (some (nalEnd, n)) => (do
          let nalSize := if nalEnd - n = 0 then 1 else nalEnd - n
          putInto dst size (be32 (BitVec.ofNat 32 nalSize))
          let bytes ← look fun _ => p.sub 0 nalSize
          copyInto dst (size + 4) bytes
          annexB2AVCCLoopM dst (p.skip nalEnd) (size + 4 + nalSize) : MemM Nat) m
      | .err e => ok (.error e, m)
      | .panic => Go.panic
termination_by rest.len
decreasing_by
  have := findStartCode_range _hf
  simp only [SliceRef.skip, skipZerosM] at *
  omega

/-- `AnnexB2AVCC` (/repo/avc/util.go:183-223). -/
def annexB2AVCCM (dst annexB : SliceRef) : MemM Nat := do
  match ← look fun m => findStartCode (m.read annexB) with
  | none => return 0
  | some (nalStart, _) => annexB2AVCCLoopM dst (annexB.skip nalStart) 0

/-- Loop of `hevc.Mp4ToAnnexB` (/repo/hevc/util.go:44-84); `rest` is `data[index:]`. -/
def hevcMp4LoopM (extra : SliceRef) (lengthSize : Nat) (dst rest : SliceRef) (n : Nat) (gotIRAP : Bool) : MemM Nat :=
  if _h : 0 < rest.len then
    if rest.len < lengthSize then fail "invalid data"
    else do
      let size ← look fun m => ok (lengthField ((m.read rest).take lengthSize))
      let rest' := rest.skip lengthSize
      if _hs : size < 2 ∨ size > rest'.len then fail "invalid data"
      else do
        let size := size.toNat
        let b ← rest'.idx 0
        let t := b >>> 1 &&& 0x3F
        let isIRAP := decide (16 ≤ t ∧ t ≤ 23)
        let n ← (if isIRAP ∧ ¬ gotIRAP ∧ extra.len > 0 then do
            copyInto dst n extra
            return n + extra.len
          else pure n : MemM Nat)
        copyConst dst n startCode4
        let bytes ← look fun _ => rest'.sub 0 size
        copyInto dst (n + 4) bytes
        hevcMp4LoopM extra lengthSize dst (rest'.skip size) (n + 4 + size) (gotIRAP || isIRAP)
  else pure n
termination_by rest.len
decreasing_by simp only [SliceRef.skip] at *; omega

/-- `hevc.Mp4ToAnnexB` (/repo/hevc/util.go:38-87). -/
def hevcMp4ToAnnexBM (dst data extra : SliceRef) (lengthSize : Nat) : MemM Nat := hevcMp4LoopM extra lengthSize dst data 0 false

/-- The fields of an `AVPacket` (/repo/av_packet.go:37-55) that the conversions use. `OnBufferAlloc` takes memory and gives a slice. -/
structure PacketM where
  data : SliceRef
  key : Bool := false
  mediaType : Int := 0
  codecID : Int := 0
  packetType : Byte := 0
  dataAVCC : Option SliceRef := none
  dataAnnexB : Option SliceRef := none
  onBufferAlloc : Option (Nat → Mem → SliceRef × Mem) := none

/-- The buffer for a conversion (/repo/packet_utils.go:23-28, 51-55 and 85-89). -/
def PacketM.allocBuffer (p : PacketM) (size : Nat) : MemM SliceRef := fun m =>
  match p.onBufferAlloc with
  | some f => ok (.ok (f size m).1, (f size m).2)
  | none => ok (.ok (m.make size).1, (m.make size).2)

/-- Lines 18-34 of `AVCCPacket2AnnexB` (/repo/packet_utils.go). -/
def prependExtraDataM (s : AVStreamM) (p : PacketM) : MemM PacketM :=
  if p.key ∧ (s.codecID = codecH264 ∨ s.codecID = codecH265) ∧ p.dataAnnexB = none then
    match s.codecParameters with
    | none => pure p
    | some c => do
      let extra ← c.annexBExtraData
      let extra := extra.getD .empty
      let e ← removeStartCodeM extra
      let e0 ← e.idx 0
      let d ← removeStartCodeM p.data
      let d0 ← d.idx 0
      if e0 ≠ d0 then do
        let data ← p.allocBuffer (extra.len + p.data.len)
        copyInto data 0 extra
        copyInto data extra.len p.data
        return { p with dataAnnexB := some data }
      else return p
  else pure p

/-- `len(stream.CodecParameters.AnnexBExtraData())` for a key frame (/repo/packet_utils.go:45-48). -/
def extraSizeM (s : AVStreamM) (p : PacketM) : MemM Nat :=
  match s.codecParameters with
  | some c => if p.key then do
      let extra ← c.annexBExtraData
      return (extra.getD .empty).len
    else pure 0
  | none => pure 0

/-- The conversion into `bytes[extraDataSize:]` (/repo/packet_utils.go:57-67); an error is a panic. -/
def convertPacketM (s : AVStreamM) (p : PacketM) (bytes : SliceRef) (extraSize : Nat) : MemM Nat :=
  if p.codecID = codecH264 then do
    let dst ← bytes.from extraSize
    avcc2AnnexBM dst p.data .empty
  else if p.codecID = codecH265 then
    match s.codecParameters with
    | some { record := .hevc r, .. } => do
      let dst ← bytes.from extraSize
      fun m =>
        match hevcMp4ToAnnexBM dst p.data .empty r.fields.lengthSizeMinusOne.toNat m with
        | .ok (.ok n, m) => ok (.ok n, m)
        | _ => Go.panic
    | _ => crash
  else pure 0

/-- `AVCCPacket2AnnexB` (/repo/packet_utils.go:14-75): the result and the packet afterwards. -/
def avccPacket2AnnexBM (s : AVStreamM) (p : PacketM) : MemM (SliceRef × PacketM) :=
  if p.mediaType ≠ mediaVideo then crash
  else if p.packetType ≠ packAVCC ∨ (s.codecID ≠ codecH264 ∧ s.codecID ≠ codecH265) then do
    let p ← prependExtraDataM s p
    match p.dataAnnexB with
    | some d => return (d, p)
    | none => return (p.data, p)
  else
    match p.dataAnnexB with
    | some d => pure (d, p)
    | none => do
      let extraSize ← extraSizeM s p
      let bytes ← p.allocBuffer (extraSize + p.data.len + 256)
      let n ← convertPacketM s p bytes extraSize
      let head ← look fun _ => bytes.sub 0 extraSize
      match s.codecParameters with
      | none => crash
      | some c => do
        let extra ← c.annexBExtraData
        copyInto head 0 (extra.getD .empty)
        let out ← look fun _ => bytes.sub 0 (n + extraSize)
        return (out, { p with dataAnnexB := some out })

/-- `AnnexBPacket2AVCC` (/repo/packet_utils.go:77-96). -/
def annexBPacket2AVCCM (p : PacketM) : MemM (SliceRef × PacketM) :=
  if p.mediaType ≠ mediaVideo then crash
  else if p.packetType ≠ packAnnexB ∨ (p.codecID ≠ codecH264 ∧ p.codecID ≠ codecH265) then pure (p.data, p)
  else
    match p.dataAVCC with
    | some d => pure (d, p)
    | none => do
      let bytes ← p.allocBuffer (p.data.len + 256)
      let n ← annexB2AVCCM bytes p.data
      let out ← look fun _ => bytes.sub 0 n
      return (out, { p with dataAVCC := some out })

end Avf
