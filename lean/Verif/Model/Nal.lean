import Verif.Model.BytesBuf
/-!
# Model of /repo/avc/util.go and /repo/hevc/util.go

`-1` results of the start code search are `none`.  Callbacks are modelled by the list of their arguments.  Destination
slices are threaded (`dst` in, `dst` out); `copy` truncates silently as in Go.  `ParseNalUnits`
(/repo/avc/util.go:90-100), which never returns, is in Model/ScanCost.
-/
namespace Avf
open Go

/-- `StartCode3` (/repo/avc/util.go:10, /repo/hevc/util.go:10). -/
def startCode3 : Bytes := [0, 0, 1]
/-- `StartCode4` (/repo/avc/util.go:11, /repo/hevc/util.go:11). -/
def startCode4 : Bytes := [0, 0, 0, 1]

/-- The loop of `FindStartCode` (/repo/avc/util.go:19-30): the final value of `i`. -/
def scanStart (p : Bytes) (i : Nat) : Go Nat :=
  if _h : i < p.length then do
    let a ← idx p i
    if a > 1 then scanStart p (i + 3)
    else do
      let b ← idx p (i - 1)
      if b ≠ 0 then scanStart p (i + 2)
      else do
        let c ← idx p (i - 2)
        if c ||| (a - 1) ≠ 0 then scanStart p (i + 1)
        else ok (i + 1)
  else ok i
termination_by p.length - i

/-- `FindStartCode` (/repo/avc/util.go:15-43): index of the NAL header and length of the start code. -/
def findStartCode (p : Bytes) : Go (Option (Nat × Nat)) := do
  let i ← scanStart p 2
  if i < p.length then
    if i > 3 then do
      let z ← idx p (i - 4)
      if z = 0 then return some (i, 4) else return some (i, 3)
    else return some (i, 3)
  else return none

/-- `FindStartCodeWithReader` (/repo/avc/util.go:46-55); the error of `Seek` is dropped. -/
def findStartCodeWithReader (r : BytesBuf) : Go (Int × BytesBuf) := do
  let data ← r.remainingBytes
  match ← findStartCode data with
  | none => return (-1, r)
  | some (index, _) => do
    let (_, r) := r.seek (index + 1)
    let h ← idx data index
    return (h.toNat, r)

/-- `FindStartCode2` (/repo/avc/util.go:58-65): start of the start code. The difference is not negative
(`findStartCode2_eq`), so natural number subtraction is exact. -/
def findStartCode2 (p : Bytes) : Go (Option Nat) := do
  match ← findStartCode p with
  | none => return none
  | some (i, n) => return some (i - n)

theorem scanStart_ge {p : Bytes} {i j : Nat} (h : scanStart p i = ok j) : i ≤ j := by
  revert h
  induction i using scanStart.induct p with
  | case1 i hi i1 i2 i3 =>
    rw [scanStart, dif_pos hi, idx_of_lt hi]
    simp only [ok_bind]
    split
    · intro h; have := i1 h; omega
    · intro h
      simp only [bind_eq_ok] at h
      obtain ⟨b, _, h⟩ := h
      split at h
      · have := i2 h; omega
      · simp only [bind_eq_ok] at h
        obtain ⟨c, _, h⟩ := h
        split at h
        · have := i3 h; omega
        · simp at h; omega
  | case2 i hi => rw [scanStart, dif_neg hi]; intro h; simp at h; omega

/-- The header index found is at least 3 and inside the slice. -/
theorem findStartCode_range {p : Bytes} {i n : Nat} (h : findStartCode p = ok (some (i, n))) : 2 ≤ i ∧ i < p.length := by
  simp only [findStartCode, bind_eq_ok] at h
  obtain ⟨j, hj, h⟩ := h
  have := scanStart_ge hj
  split at h
  · rename_i hlt
    split at h
    · simp only [bind_eq_ok] at h
      obtain ⟨z, _, h⟩ := h
      split at h <;> simp at h <;> omega
    · simp at h; omega
  · simp at h

/-- `avc.IsKeyFrame` (/repo/avc/util.go:67-88) from `index` on; `p` is `p[index:]`. -/
def avcIsKeyFrame (p : Bytes) : Go Bool :=
  match _h : findStartCode p with
  | .ok none => ok false
  | .ok (some (n, _)) =>
    match p[n]? with
    | some state =>
      let t := state &&& 0x1F
      if t = 6 ∨ t = 9 ∨ t = 8 ∨ t = 7 then avcIsKeyFrame (p.drop n)
      else if t = 5 then ok true
      else ok false
    | none => panic
  | .err e => err e
  | .panic => panic
termination_by p.length
decreasing_by
  have := findStartCode_range _h
  simp only [List.length_drop]; omega

/-- `hevc.IsKeyFrame` (/repo/hevc/util.go:120-145). -/
def hevcIsKeyFrame (p : Bytes) : Go Bool :=
  match _h : findStartCode p with
  | .ok none => ok false
  | .ok (some (n, _)) =>
    match p[n]? with
    | some b =>
      let t := b >>> 1 &&& 0x3F
      if 16 ≤ t ∧ t ≤ 23 then ok true
      else if t = 33 ∨ t = 34 ∨ t = 32 ∨ t = 39 ∨ t = 40 ∨ t = 35 then hevcIsKeyFrame (p.drop n)
      else ok false
    | none => panic
  | .err e => err e
  | .panic => panic
termination_by p.length
decreasing_by
  have := findStartCode_range _h
  simp only [List.length_drop]; omega

/-- `copyNalUWithBytes` (/repo/avc/util.go:102-124) on `dst[off:]`: the count returned and the new `dst`. -/
def copyNalUWithBytes (dst : Bytes) (off : Nat) (data : Bytes) (outSize : Nat) (append : Bool) : Go (Nat × Bytes) := do
  if off > dst.length then panic
  else if append then
    if outSize = 0 then do
      let dst ← putAt dst off (be32 1)
      let dst ← copyAt dst (off + 4) data
      return (4 + data.length, dst)
    else do
      let dst ← putAt dst off startCode3
      let dst ← copyAt dst (off + 3) data
      return (3 + data.length, dst)
  else do
    let dst ← copyAt dst off data
    return (data.length, dst)

/-- Loop of `AVCC2AnnexB` (/repo/avc/util.go:147-181); `rest` is `avcc[index-4:]`. -/
def avcc2AnnexBLoop (extra : Bytes) (dst : Bytes) (rest : Bytes) (outSize : Nat) (spsSeen ppsSeen : Bool) : Go (Nat × Bytes) :=
  if _h : 4 < rest.length then do
    let size ← uint32At rest 0
    let size := size.toNat
    if size = 0 ∨ rest.length - 4 < size then return (outSize, dst)
    else do
      let b ← idx rest 4
      let t := b &&& 0x1F
      let next := rest.drop (4 + size)
      if t = 6 then avcc2AnnexBLoop extra dst next outSize spsSeen ppsSeen
      else do
        let spsSeen := spsSeen || t = 7
        let ppsSeen := ppsSeen || t = 8
        let (outSize, dst) ← (if t = 5 ∧ ¬ spsSeen ∧ ¬ ppsSeen ∧ extra.length > 0 then do
            let (n, dst) ← copyNalUWithBytes dst outSize extra outSize false
            return (outSize + n, dst)
          else ok (outSize, dst) : Go (Nat × Bytes))
        let bytes ← slice rest 4 (4 + size)
        let (n, dst) ← copyNalUWithBytes dst outSize bytes outSize true
        avcc2AnnexBLoop extra dst next (outSize + n) spsSeen ppsSeen
  else ok (outSize, dst)
termination_by rest.length
decreasing_by all_goals simp only [List.length_drop]; omega

/-- `AVCC2AnnexB` (/repo/avc/util.go:147-181): the count returned and the new `dst`. -/
def avcc2AnnexB (dst avcc extra : Bytes) : Go (Nat × Bytes) := avcc2AnnexBLoop extra dst avcc 0 false false

/-- The inner loop of `AnnexB2AVCC` that skips zeros (/repo/avc/util.go:194-196), on `annexB[nalStart:]`. -/
def skipZeros : Bytes → Bytes
  | [] => []
  | b :: bs => if b = 0 then skipZeros bs else b :: bs

theorem length_skipZeros (p : Bytes) : (skipZeros p).length ≤ p.length := by
  induction p with
  | nil => simp [skipZeros]
  | cons b bs ih => unfold skipZeros; split <;> simp <;> omega

/-- The outer loop of `AnnexB2AVCC` (/repo/avc/util.go:192-220); `rest` is `annexB[nalStart:]`. -/
def annexB2AVCCLoop (dst rest : Bytes) (size : Nat) : Go (Nat × Bytes) :=
  if _h : rest.length = 0 then ok (size, dst)
  else
    let p := skipZeros rest
    if _h : p.length = 0 then ok (size, dst)
    else
      match _hf : findStartCode p with
      | .ok none => do
        -- last unit: nalEnd = len, n = 0
        let dst ← (if size ≤ dst.length then putAt dst size (be32 (BitVec.ofNat 32 p.length)) else panic : Go Bytes)
        let bytes ← slice p 0 p.length
        let dst ← copyAt dst (size + 4) bytes
        return (size + 4 + p.length, dst)
      | .ok (some (nalEnd, n)) => do
        let nalSize := if nalEnd - n = 0 then 1 else nalEnd - n
        let dst ← (if size ≤ dst.length then putAt dst size (be32 (BitVec.ofNat 32 nalSize)) else panic : Go Bytes)
        let bytes ← slice p 0 nalSize
        let dst ← copyAt dst (size + 4) bytes
        annexB2AVCCLoop dst (p.drop nalEnd) (size + 4 + nalSize)
      | .err e => err e
      | .panic => panic
termination_by rest.length
decreasing_by
  have := findStartCode_range _hf
  have := length_skipZeros rest
  simp only [List.length_drop]; omega

/-- `AnnexB2AVCC` (/repo/avc/util.go:183-223). -/
def annexB2AVCC (dst annexB : Bytes) : Go (Nat × Bytes) := do
  match ← findStartCode annexB with
  | none => return (0, dst)
  | some (nalStart, _) => annexB2AVCCLoop dst (annexB.drop nalStart) 0

/-- `copyNalU` (/repo/avc/util.go:126-145); the errors of `Write` are dropped. -/
def copyNalU (w : BytesBuf) (data : Bytes) (outSize : Nat) (append : Bool) : Go (Nat × BytesBuf) := do
  if append then
    if outSize = 0 then do
      let (_, w) ← w.write startCode4
      let (_, w) ← w.write data
      return (4 + data.length, w)
    else do
      let (_, w) ← w.write startCode3
      let (_, w) ← w.write data
      return (3 + data.length, w)
  else do
    let (_, w) ← w.write data
    return (data.length, w)

/-- Loop of `avc.Mp4ToAnnexB` (/repo/avc/util.go:228-252); `rest` is `data[index-4:]`. -/
def mp4ToAnnexBLoop (extra : Bytes) (w : BytesBuf) (rest : Bytes) (outSize : Nat) (spsSeen ppsSeen : Bool) : Go BytesBuf :=
  if _h : 4 < rest.length then do
    let size ← uint32At rest 0
    let size := size.toNat
    if size = 0 ∨ rest.length - 4 < size then return w
    else do
      let b ← idx rest 4
      let t := b &&& 0x1F
      let spsSeen := spsSeen || t = 7
      let ppsSeen := ppsSeen || t = 8
      let (outSize, w) ← (if t = 5 ∧ ¬ spsSeen ∧ ¬ ppsSeen then do
          let (n, w) ← copyNalU w extra outSize false
          return (outSize + n, w)
        else ok (outSize, w) : Go (Nat × BytesBuf))
      let bytes ← slice rest 4 (4 + size)
      let (n, w) ← copyNalU w bytes outSize true
      mp4ToAnnexBLoop extra w (rest.drop (4 + size)) (outSize + n) spsSeen ppsSeen
  else ok w
termination_by rest.length
decreasing_by simp only [List.length_drop]; omega

/-- `avc.Mp4ToAnnexB` (/repo/avc/util.go:225-253). -/
def mp4ToAnnexB (w : BytesBuf) (data extra : Bytes) : Go BytesBuf := mp4ToAnnexBLoop extra w data 0 false false

/-- Loop of `M4VCExtraDataToAnnexB` (/repo/avc/util.go:277-296). -/
def m4vcLoop (src : Bytes) (r w : BytesBuf) (unitNb : Byte) (spsDone : Nat) : Go BytesBuf :=
  if _h : unitNb = 0 then ok w
  else do
    match ← r.readUint16 with
    | (.error e, _) => err e
    | (.ok size, r) =>
      match ← w.write startCode4 with
      | (.error e, _) => err e
      | (.ok (), w) => do
        let nal ← sliceI src r.offset (r.offset + size.toNat)
        match ← w.write nal with
        | (.error e, _) => err e
        | (.ok (), w) =>
          match r.seek size.toNat with
          | (.error e, _) => err e
          | (.ok (), r) => do
            if r.readableBytes > 2 ∧ unitNb - 1 = 0 ∧ spsDone = 0 then do
              match ← r.readUint8 with
              | (.error _, r) => m4vcLoop src r w 0 (spsDone + 1)
              | (.ok n, r) => m4vcLoop src r w n (spsDone + 1)
            else m4vcLoop src r w (unitNb - 1) (spsDone + 1)
termination_by (if spsDone = 0 then 256 else 0) + unitNb.toNat
decreasing_by
  all_goals
    have h0 : unitNb.toNat ≠ 0 := fun hh => _h (BitVec.eq_of_toNat_eq (by simpa using hh))
  · rename_i hs; rw [if_neg (fun h => h), if_pos hs.2.2]; simp; omega
  · rename_i hs; rw [if_neg (fun h => h), if_pos hs.2.2]; have := n.isLt; omega
  · rw [if_neg (fun h => h)]
    have : (unitNb - 1).toNat < unitNb.toNat := by
      rw [BitVec.toNat_sub]; simp; omega
    omega

/-- `M4VCExtraDataToAnnexB` (/repo/avc/util.go:255-299). The first `readUint8` (line 266) is only checked for its error
(`readUint8 &= 0x3 + 1` has no effect); the error of the second one (line 272) is dropped and its value is then 0. -/
def m4vcExtraDataToAnnexB (src : Bytes) : Go Bytes := do
  match (BytesBuf.setData src).seek 4 with
  | (.error e, _) => err e
  | (.ok (), r) =>
    match ← r.readUint8 with
    | (.error e, _) => err e
    | (.ok _, r) => do
      let (x, r) ← r.readUint8
      let unitNb : Byte := (match x with | .ok n => n | .error _ => 0) &&& 0x1f
      let w ← m4vcLoop src r (BytesBuf.setData (List.replicate (src.length + 256) 0)) unitNb 0
      w.writtenBytes

/-- `SplitNalU` (/repo/avc/util.go:301-312) on `data[offset:]`: the arguments of the callback. -/
def splitNalU (p : Bytes) : Go (List Bytes) :=
  if _h : 3 ≤ p.length then
    match findStartCode2 (p.drop 3) with
    | .ok none => ok [p]
    | .ok (some n) => do
      let nal ← slice p 0 (n + 3)
      let rest ← splitNalU (p.drop (n + 3))
      return nal :: rest
    | .err e => err e
    | .panic => panic
  else panic
termination_by p.length
decreasing_by simp only [List.length_drop]; omega

/-- `RemoveStartCode` (/repo/avc/util.go:314-324); `||` and `&&` stop early as in Go. -/
def removeStartCode (data : Bytes) : Go Bytes := do
  let d0 ← idx data 0
  if d0 ≠ 0 then return data
  else do
    let d1 ← idx data 1
    if d1 ≠ 0 then return data
    else do
      let d2 ← idx data 2
      if d2 = 1 then sliceFrom data 3
      else if d2 = 0 then do
        let d3 ← idx data 3
        if d3 = 1 then sliceFrom data 4 else return data
      else return data

/-- The callback of `avc.ParseExtraDataFromKeyNALU` (/repo/avc/util.go:331-344): the new `sps`, `pps`. -/
def avcExtraStep (s : Option Bytes × Option Bytes) (nalu : Bytes) : Go (Option Bytes × Option Bytes) := do
  let nal ← removeStartCode nalu
  let b ← idx nal 0
  let header := b &&& 0x1F
  if header = 7 then return (some (be32 1 ++ nal), s.2)
  else if header = 8 then return (s.1, some (be32 1 ++ nal))
  else return s

/-- `avc.ParseExtraDataFromKeyNALU` (/repo/avc/util.go:327-350). The callback runs while splitting; since the splitting
itself cannot fail after the first step (`splitNalU_total`), running it afterwards is the same. -/
def avcParseExtraData (data : Bytes) : Go (Bytes × Bytes) := do
  let nals ← splitNalU data
  let s ← nals.foldlM avcExtraStep (none, none)
  match s with
  | (some sps, some pps) => return (sps, pps)
  | _ => err "not find extra data for H264"

/-- The callback of `hevc.ParseExtraDataFromKeyNALU` (/repo/hevc/util.go:95-112): the new `vps`, `sps`, `pps`. -/
def hevcExtraStep (s : Option Bytes × Option Bytes × Option Bytes) (nalu : Bytes) :
    Go (Option Bytes × Option Bytes × Option Bytes) := do
  let nal ← removeStartCode nalu
  let b ← idx nal 0
  let header := b >>> 1 &&& 0x3F
  if header = 32 then return (some (be32 1 ++ nal), s.2.1, s.2.2)
  else if header = 33 then return (s.1, some (be32 1 ++ nal), s.2.2)
  else if header = 34 then return (s.1, s.2.1, some (be32 1 ++ nal))
  else return s

/-- `hevc.ParseExtraDataFromKeyNALU` (/repo/hevc/util.go:90-118). -/
def hevcParseExtraData (data : Bytes) : Go (Bytes × Bytes × Bytes) := do
  let nals ← splitNalU data
  let s ← nals.foldlM hevcExtraStep (none, none, none)
  match s with
  | (some vps, some sps, some pps) => return (vps, sps, pps)
  | _ => err "not find extra data for H265"

/-- The loop that reads `lengthSize` bytes (/repo/hevc/util.go:54-57): a 64-bit int, `n = n<<8 | b`. -/
def lengthField (bs : Bytes) : Int := (bs.foldl (fun (n : BitVec 64) b => n <<< 8 ||| b.setWidth 64) 0).toInt

/-- Loop of `hevc.Mp4ToAnnexB` (/repo/hevc/util.go:44-84); `rest` is `data[index:]`. -/
def hevcMp4Loop (extra : Bytes) (lengthSize : Nat) (dst rest : Bytes) (n : Nat) (gotIRAP : Bool) : Go (Nat × Bytes) :=
  if _h : 0 < rest.length then
    if rest.length < lengthSize then err "invalid data"
    else do
      let size := lengthField (rest.take lengthSize)
      let rest' := rest.drop lengthSize
      if _hs : size < 2 ∨ size > rest'.length then err "invalid data"
      else do
        let size := size.toNat
        let b ← idx rest' 0
        let t := b >>> 1 &&& 0x3F
        let isIRAP := decide (16 ≤ t ∧ t ≤ 23)
        let (n, dst) ← (if isIRAP ∧ ¬ gotIRAP ∧ extra.length > 0 then do
            let dst ← copyAt dst n extra
            return (n + extra.length, dst)
          else ok (n, dst) : Go (Nat × Bytes))
        let dst ← copyAt dst n startCode4
        let bytes ← slice rest' 0 size
        let dst ← copyAt dst (n + 4) bytes
        hevcMp4Loop extra lengthSize dst (rest'.drop size) (n + 4 + size) (gotIRAP || isIRAP)
  else ok (n, dst)
termination_by rest.length
decreasing_by simp only [List.length_drop]; omega

/-- `hevc.Mp4ToAnnexB` (/repo/hevc/util.go:38-87). -/
def hevcMp4ToAnnexB (dst data extra : Bytes) (lengthSize : Nat) : Go (Nat × Bytes) :=
  hevcMp4Loop extra lengthSize dst data 0 false

end Avf
