import Verif.Model.Nal
/-!
# Model of /repo/avc/mp4.go and /repo/hevc/mp4.go: decoder configuration records

`Marshal` ends with its error or returns bytes. `Unmarshal` changes its receiver step by step and can fail in between, so
it returns `Go (Except String Unit × record)`.
-/
namespace Avf
open Go

/-- `AVCDecoderConfigurationRecord` (/repo/avc/mp4.go:31-40). -/
structure AVCRecord where
  configurationVersion : Byte := 0
  avcProfileIndication : Byte := 0
  profileCompatibility : Byte := 0
  avcLevelIndication : Byte := 0
  lengthSizeMinusOne : Byte := 0
  spsList : List Bytes := []
  ppsList : List Bytes := []
deriving DecidableEq, Repr

/-- The two loops of `AVCDecoderConfigurationRecord.Marshal` (/repo/avc/mp4.go:61-70 and 76-85) and the one in
`HEVCDecoderConfigurationRecord.Marshal` (/repo/hevc/mp4.go:105-114); `last` is `noStartCodeSps`. -/
def writeSets (w : BytesBuf) (last : Bytes) : List Bytes → Go (BytesBuf × Bytes)
  | [] => ok (w, last)
  | s :: ss => do
    let u ← removeStartCode s
    match ← w.writeUint16 (BitVec.ofNat 16 u.length) with
    | (.error e, _) => err e
    | (.ok (), w) =>
      match ← w.write u with
      | (.error e, _) => err e
      | (.ok (), w) => writeSets w u ss

/-- `AVCDecoderConfigurationRecord.Marshal` (/repo/avc/mp4.go:42-94); the receiver is not used. `bytes` is the memory
behind the writer. -/
def avcMarshal (spsList ppsList : List Bytes) : Go Bytes :=
  if spsList.length = 0 then err "sps cannot be null"
  else if ppsList.length = 0 then err "pps cannot be null"
  else
    match (BytesBuf.setData (List.replicate 1024 0)).seek 5 with
    | (.error e, _) => err e
    | (.ok (), w) => do
      match ← w.writeUint8 (BitVec.ofNat 8 spsList.length &&& 0x1F) with
      | (.error e, _) => err e
      | (.ok (), w) => do
        let (w, sps) ← writeSets w [] spsList
        match ← w.writeUint8 (BitVec.ofNat 8 ppsList.length) with
        | (.error e, _) => err e
        | (.ok (), w) => do
          let (w, _) ← writeSets w [] ppsList
          let s1 ← idx sps 1
          let s2 ← idx sps 2
          let s3 ← idx sps 3
          let d ← setIdx w.data 0 1
          let d ← setIdx d 1 s1
          let d ← setIdx d 2 s2
          let d ← setIdx d 3 s3
          let d ← setIdx d 4 0xff
          let d ← setIdx d 5 (0xE0 ||| BitVec.ofNat 8 spsList.length)
          sliceI d 0 w.offset

/-- The loops that read parameter sets in `avc` `Unmarshal` (/repo/avc/mp4.go:118-135 and 145-162) and in `hevc`
`Unmarshal` (/repo/hevc/mp4.go:173-196); `add` is what the loop does with a set that got its start code. -/
def readSets {σ : Type} (add : σ → Bytes → σ) : Nat → BytesBuf → σ → Go (Except String BytesBuf × σ)
  | 0, r, s => ok (.ok r, s)
  | n + 1, r, s => do
    match ← r.readUint16 with
    | (.error e, _) => return (.error e, s)
    | (.ok length, r) =>
      match ← r.readBytes length.toNat with
      | (.error e, _) => return (.error e, s)
      | (.ok bytes, r) => do
        let nalu := List.replicate (bytes.length + 4) 0
        let nalu ← putAt nalu 0 (be32 1)
        let nalu ← copyAt nalu 4 bytes
        readSets add n r (add s nalu)

/-- `AVCDecoderConfigurationRecord.Unmarshal` after the second loop (/repo/avc/mp4.go:164-169). -/
def avcAfterPps (data : Bytes) : Except String BytesBuf × AVCRecord → Go (Except String Unit × AVCRecord)
  | (.error e, a) => ok (.error e, a)
  | (.ok _, a) => do
    let d0 ← idx data 0
    let d1 ← idx data 1
    let d2 ← idx data 2
    let d3 ← idx data 3
    let d4 ← idx data 4
    return (.ok (), { a with
      configurationVersion := d0, avcProfileIndication := d1, profileCompatibility := d2,
      avcLevelIndication := d3, lengthSizeMinusOne := d4 &&& 0x3 })

/-- `AVCDecoderConfigurationRecord.Unmarshal` after the first loop (/repo/avc/mp4.go:137-169). -/
def avcAfterSps (data : Bytes) : Except String BytesBuf × AVCRecord → Go (Except String Unit × AVCRecord)
  | (.error e, a) => ok (.error e, a)
  | (.ok r, a) => do
    match ← r.readUint8 with
    | (.error e, _) => return (.error e, a)
    | (.ok ppsCount, r) =>
      if ppsCount < 1 then return (.error "no pps found", a)
      else readSets (fun a s => { a with ppsList := a.ppsList ++ [s] }) ppsCount.toNat r a >>= avcAfterPps data

/-- `AVCDecoderConfigurationRecord.Unmarshal` (/repo/avc/mp4.go:96-170). -/
def avcUnmarshal (a : AVCRecord) (data : Bytes) : Go (Except String Unit × AVCRecord) :=
  match (BytesBuf.setData data).seek 5 with
  | (.error e, _) => ok (.error e, a)
  | (.ok (), r) => do
    match ← r.readUint8 with
    | (.error e, _) => return (.error e, a)
    | (.ok spsCount, r) => do
      let spsCount := spsCount &&& 0x1F
      if spsCount < 1 then return (.error "no sps found", a)
      else readSets (fun a s => { a with spsList := a.spsList ++ [s] }) spsCount.toNat r a >>= avcAfterSps data

/-- The writing loops of `ExtraDataToAnnexB` (/repo/avc/mp4.go:182-192; /repo/hevc/mp4.go:220-236). -/
def writeAll (w : BytesBuf) : List Bytes → Go BytesBuf
  | [] => ok w
  | s :: ss => do
    match ← w.write s with
    | (.error e, _) => err e
    | (.ok (), w) => writeAll w ss

/-- `avc.ExtraDataToAnnexB` (/repo/avc/mp4.go:173-195). -/
def avcExtraDataToAnnexB (data : Bytes) : Go Bytes := do
  match ← avcUnmarshal {} data with
  | (.error e, _) => err e
  | (.ok (), record) => do
    let w ← writeAll (BytesBuf.setData (List.replicate 1024 0)) record.spsList
    let w ← writeAll w record.ppsList
    sliceI w.data 0 w.offset

/-- `HEVCDecoderConfigurationRecord` (/repo/hevc/mp4.go:50-73). `ppsCap` is the capacity of `PPSList`; `shared` says that
`SPSList` is a slice of the array behind `PPSList` (see `hevcAdd`). -/
structure HEVCRecord where
  configurationVersion : Byte := 0
  generalProfileSpace : Byte := 0
  generalTierFlag : Byte := 0
  generalProfileIdc : Byte := 0
  generalProfileCompatibilityFlags : BitVec 32 := 0
  generalConstraintIndicatorFlags : BitVec 64 := 0
  generalLevelIdc : Byte := 0
  minSpatialSegmentationIdc : BitVec 16 := 0
  parallelismType : Byte := 0
  chromaFormat : Byte := 0
  bitDepthLumaMinus8 : Byte := 0
  bitDepthChromaMinus8 : Byte := 0
  avgFrameRate : BitVec 16 := 0
  constantFrameRate : Byte := 0
  numTemporalLayers : Byte := 0
  temporalIdNested : Byte := 0
  lengthSizeMinusOne : Byte := 0
  numOfArrays : Byte := 0
  vpsList : List Bytes := []
  spsList : List Bytes := []
  ppsList : List Bytes := []
  ppsCap : Nat := 0
  shared : Bool := false
deriving DecidableEq, Repr

/-- `write` in `HEVCDecoderConfigurationRecord.Marshal` (/repo/hevc/mp4.go:95-116). -/
def hevcWriteArray (w : BytesBuf) (data : List Bytes) : Go BytesBuf := do
  let d0 ← idx data 0
  let u ← removeStartCode d0
  let b ← idx u 0
  match ← w.writeUint8 (b >>> 1 &&& 0x3F) with
  | (.error e, _) => err e
  | (.ok (), w) => do
    match ← w.writeUint16 (BitVec.ofNat 16 data.length) with
    | (.error e, _) => err e
    | (.ok (), w) => do
      let (w, _) ← writeSets w [] data
      return w

/-- `HEVCDecoderConfigurationRecord.Marshal` (/repo/hevc/mp4.go:75-131). -/
def hevcMarshal (vpsList spsList ppsList : List Bytes) : Go Bytes :=
  if spsList.length = 0 then err "sps cannot be null"
  else if ppsList.length = 0 then err "pps cannot be null"
  else if vpsList.length = 0 then err "vps cannot be null"
  else do
    let bytes ← setIdx (List.replicate 1024 0) 0 1
    let bytes ← setIdx bytes 21 3
    let bytes ← setIdx bytes 22 3
    match (BytesBuf.setData bytes).seek 23 with
    | (.error e, _) => err e
    | (.ok (), w) => do
      let w ← hevcWriteArray w vpsList
      let w ← hevcWriteArray w spsList
      let w ← hevcWriteArray w ppsList
      sliceI w.data 0 w.offset

/-- What the inner loop does with one set (/repo/hevc/mp4.go:189-195). Line 192 is `r.SPSList = append(r.PPSList, nalu)`:
`SPSList` becomes the PPS followed by `nalu`. If `PPSList` has spare capacity both slices share an array afterwards, and
the next PPS then replaces that last element of `SPSList`. `grow n` is the capacity Go picks when `n` elements do not fit. -/
def hevcAdd (grow : Nat → Nat) (headerType : Byte) (r : HEVCRecord) (nalu : Bytes) : HEVCRecord :=
  if headerType = 32 then { r with vpsList := r.vpsList ++ [nalu] }
  else if headerType = 33 then
    { r with spsList := r.ppsList ++ [nalu], shared := decide (r.ppsList.length < r.ppsCap) }
  else if headerType = 34 then
    if r.ppsList.length < r.ppsCap then
      { r with ppsList := r.ppsList ++ [nalu],
               spsList := if r.shared ∧ r.spsList.length = r.ppsList.length + 1 then r.spsList.set r.ppsList.length nalu
                          else r.spsList }
    else { r with ppsList := r.ppsList ++ [nalu], ppsCap := max (r.ppsList.length + 1) (grow (r.ppsList.length + 1)), shared := false }
  else r

/-- The outer loop of `HEVCDecoderConfigurationRecord.Unmarshal` (/repo/hevc/mp4.go:161-197). -/
def hevcReadArrays (grow : Nat → Nat) : Nat → BytesBuf → HEVCRecord → Go (Except String Unit × HEVCRecord)
  | 0, _, rec => ok (.ok (), rec)
  | n + 1, r, rec => do
    match ← r.readUint8 with
    | (.error e, _) => return (.error e, rec)
    | (.ok t, r) => do
      match ← r.readUint16 with
      | (.error e, _) => return (.error e, rec)
      | (.ok naluCount, r) => do
        match ← readSets (hevcAdd grow (t &&& 0x3F)) naluCount.toNat r rec with
        | (.error e, rec) => return (.error e, rec)
        | (.ok r, rec) => hevcReadArrays grow n r rec

/-- The header fields (/repo/hevc/mp4.go:139-159). Go's `&` and `<<` bind tighter than `+` and `|`: `data[21]&0x3 + 1` is
`(data[21]&0x3) + 1`. -/
def hevcHeader (rec : HEVCRecord) (data : Bytes) : Go HEVCRecord := do
  let d0 ← idx data 0
  let d1 ← idx data 1
  let compat ← uint32At data 2
  let c1 ← uint32At data 6
  let c2 ← uint16At data 10
  let d12 ← idx data 12
  let seg ← uint16At data 13
  let d15 ← idx data 15
  let d16 ← idx data 16
  let d17 ← idx data 17
  let d18 ← idx data 18
  let rate ← uint16At data 19
  let d21 ← idx data 21
  let d22 ← idx data 22
  return { rec with
    configurationVersion := d0
    generalProfileSpace := d1 >>> 6 &&& 0x3
    generalTierFlag := d1 >>> 5 &&& 0x1
    generalProfileIdc := d1 &&& 0x1F
    generalProfileCompatibilityFlags := compat
    generalConstraintIndicatorFlags := (c1.setWidth 64 <<< 16) ||| c2.setWidth 64
    generalLevelIdc := d12
    minSpatialSegmentationIdc := seg &&& 0x0FFF
    parallelismType := d15 &&& 0x3
    chromaFormat := d16 &&& 0x3
    bitDepthLumaMinus8 := d17 &&& 0x7
    bitDepthChromaMinus8 := d18 &&& 0x7
    avgFrameRate := rate
    constantFrameRate := d21 >>> 6 &&& 0x3
    numTemporalLayers := d21 >>> 3 &&& 0x7
    temporalIdNested := d21 >>> 2 &&& 0x1
    lengthSizeMinusOne := (d21 &&& 0x3) + 1
    numOfArrays := d22 }

/-- `HEVCDecoderConfigurationRecord.Unmarshal` after the loops (/repo/hevc/mp4.go:199-208). -/
def hevcCheck : Except String Unit × HEVCRecord → Go (Except String Unit × HEVCRecord)
  | (.error e, rec) => ok (.error e, rec)
  | (.ok (), rec) =>
    if rec.spsList.length = 0 then ok (.error "h265parser: no SPS found in HEVCDecoderConfRecord", rec)
    else if rec.ppsList.length = 0 then ok (.error "h265parser: no PPS found in HEVCDecoderConfRecord", rec)
    else if rec.vpsList.length = 0 then ok (.error "h265parser: no VPS found in HEVCDecoderConfRecord", rec)
    else ok (.ok (), rec)

/-- `HEVCDecoderConfigurationRecord.Unmarshal` (/repo/hevc/mp4.go:133-209). -/
def hevcUnmarshal (grow : Nat → Nat) (rec : HEVCRecord) (data : Bytes) : Go (Except String Unit × HEVCRecord) :=
  match (BytesBuf.setData data).seek 23 with
  | (.error e, _) => ok (.error e, rec)
  | (.ok (), r) => do
    let rec ← hevcHeader rec data
    hevcReadArrays grow rec.numOfArrays.toNat r rec >>= hevcCheck

/-- `hevc.ExtraDataToAnnexB` (/repo/hevc/mp4.go:211-239). -/
def hevcExtraDataToAnnexB (grow : Nat → Nat) (data : Bytes) : Go Bytes := do
  match ← hevcUnmarshal grow {} data with
  | (.error e, _) => err e
  | (.ok (), record) => do
    let w ← writeAll (BytesBuf.setData (List.replicate 1024 0)) record.vpsList
    let w ← writeAll w record.spsList
    let w ← writeAll w record.ppsList
    sliceI w.data 0 w.offset

end Avf
