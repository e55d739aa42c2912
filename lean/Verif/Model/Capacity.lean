import Verif.Model.Bits
import Verif.Model.Nal
import Verif.Model.Packet
/-!
# Slices with spare capacity

A Go slice has a length and a capacity: `s[a:b]` is checked against the capacity, `s[a:]` and `s[i]` against the length. The other
models take the capacity of a caller's slice to be its length. Here are the functions of `/repo` that use `s[a:b]` on a caller's slice
without having compared `b` to the length, once more, with the bytes `spare` between the length and the capacity.
-/
namespace Avf
open Go

/-- `BitsReader.ReadBytes` (/repo/bufio/bits_reader.go:41-45). -/
def BitsReader.readBytesCap (b : BitsReader) (spare : Bytes) (length : Int) : Go (Bytes × BitsReader) := do
  let o := b.offset + 8 * length
  let s ← sliceI (b.data ++ spare) (b.offset.tdiv 8) (o.tdiv 8)
  return (s, { b with offset := o })

/-- Loop of `M4VCExtraDataToAnnexB` (/repo/avc/util.go:277-296), with `src[reader.Offset() : reader.Offset()+int(size)]` (line 286). -/
def m4vcLoopCap (src spare : Bytes) (r w : BytesBuf) (unitNb : Byte) (spsDone : Nat) : Go BytesBuf :=
  if _h : unitNb = 0 then ok w
  else do
    match ← r.readUint16 with
    | (.error e, _) => err e
    | (.ok size, r) =>
      match ← w.write startCode4 with
      | (.error e, _) => err e
      | (.ok (), w) => do
        let nal ← sliceI (src ++ spare) r.offset (r.offset + size.toNat)
        match ← w.write nal with
        | (.error e, _) => err e
        | (.ok (), w) =>
          match r.seek size.toNat with
          | (.error e, _) => err e
          | (.ok (), r) => do
            if r.readableBytes > 2 ∧ unitNb - 1 = 0 ∧ spsDone = 0 then do
              match ← r.readUint8 with
              | (.error _, r) => m4vcLoopCap src spare r w 0 (spsDone + 1)
              | (.ok n, r) => m4vcLoopCap src spare r w n (spsDone + 1)
            else m4vcLoopCap src spare r w (unitNb - 1) (spsDone + 1)
termination_by (if spsDone = 0 then 256 else 0) + unitNb.toNat
decreasing_by
  all_goals
    have h0 : unitNb.toNat ≠ 0 := fun hh => _h (BitVec.eq_of_toNat_eq (by simpa using hh))
  · rename_i hs; rw [if_neg (fun h => h), if_pos hs.2.2]; have : (0 : Byte).toNat = 0 := rfl; omega
  · rename_i hs; rw [if_neg (fun h => h), if_pos hs.2.2]; have := n.isLt; omega
  · rw [if_neg (fun h => h)]
    have : (unitNb - 1).toNat < unitNb.toNat := by
      rw [BitVec.toNat_sub]; simp; omega
    omega

/-- `M4VCExtraDataToAnnexB` (/repo/avc/util.go:255-299). -/
def m4vcExtraDataToAnnexBCap (src spare : Bytes) : Go Bytes := do
  match (BytesBuf.setData src).seek 4 with
  | (.error e, _) => err e
  | (.ok (), r) =>
    match ← r.readUint8 with
    | (.error e, _) => err e
    | (.ok _, r) => do
      let (x, r) ← r.readUint8
      let unitNb : Byte := (match x with | .ok n => n | .error _ => 0) &&& 0x1f
      let w ← m4vcLoopCap src spare r (BytesBuf.setData (List.replicate (src.length + 256) 0)) unitNb 0
      w.writtenBytes

/-- `AVCCPacket2AnnexB` (/repo/packet_utils.go:14-75) if `OnBufferAlloc` returns a slice with spare capacity: `bytes[:extraDataSize]`
(line 69) and `bytes[:n]` (line 71) may reach into it. -/
def avccPacket2AnnexBCap (spare : Bytes) (s : AVStream) (p : AVPacket) : Go (Bytes × AVPacket) :=
  if p.mediaType ≠ mediaVideo then panic
  else if p.packetType ≠ packAVCC ∨ (s.codecID ≠ codecH264 ∧ s.codecID ≠ codecH265) then do
    let p ← prependExtraData s p
    match p.dataAnnexB with
    | some d => return (d, p)
    | none => return (p.data, p)
  else
    match p.dataAnnexB with
    | some d => ok (d, p)
    | none => do
      let extraSize :=
        match s.codecParameters with
        | some c => if p.key then c.annexBExtraData.length else 0
        | none => 0
      let bytes := p.allocBuffer (extraSize + p.data.length + 256)
      let (n, bytes) ← (
        if p.codecID = codecH264 then do
          let dst ← sliceFrom bytes extraSize
          let (n, dst) ← avcc2AnnexB dst p.data []
          return (n, bytes.take extraSize ++ dst)
        else if p.codecID = codecH265 then
          match s.codecParameters with
          | some { record := .hevc r, .. } => do
            let dst ← sliceFrom bytes extraSize
            match hevcMp4ToAnnexB dst p.data [] r.lengthSizeMinusOne.toNat with
            | .ok (n, dst) => return (n, bytes.take extraSize ++ dst)
            | .err _ => panic
            | .panic => panic
          | _ => panic
        else ok (0, bytes) : Go (Nat × Bytes))
      let head ← slice (bytes ++ spare) 0 extraSize
      match s.codecParameters with
      | none => panic
      | some c => do
        let bytes := overwrite head 0 c.annexBExtraData ++ (bytes ++ spare).drop extraSize
        let out ← slice bytes 0 (n + extraSize)
        return (out, { p with dataAnnexB := some out })

/-- `AnnexBPacket2AVCC` (/repo/packet_utils.go:77-96) if `OnBufferAlloc` returns a slice with spare capacity: `bytes[:n]` (line 92) may
reach into it. -/
def annexBPacket2AVCCCap (spare : Bytes) (p : AVPacket) : Go (Bytes × AVPacket) :=
  if p.mediaType ≠ mediaVideo then panic
  else if p.packetType ≠ packAnnexB ∨ (p.codecID ≠ codecH264 ∧ p.codecID ≠ codecH265) then ok (p.data, p)
  else
    match p.dataAVCC with
    | some d => ok (d, p)
    | none => do
      let bytes := p.allocBuffer (p.data.length + 256)
      let (n, bytes) ← annexB2AVCC bytes p.data
      let out ← slice (bytes ++ spare) 0 n
      return (out, { p with dataAVCC := some out })

end Avf
