import Verif.Model.Bits
import Verif.Model.Codec
import Verif.Model.RingBuffer
import Verif.Model.LinkedList
import Verif.Model.RefCounter
import Verif.Model.BlockBuffer
/-!
# The tests of the repository, run on the model

No property depends on this file: it compares the model with the programs in /repo's `*_test.go` (those that need no input file). Most
of them print instead of checking; the values here are what they would print.
-/
namespace Avf
namespace RepoTests
open Go

/-- `TestBitsReader` (/repo/bufio/bits_test.go:8-16): bits 4 to 11 of `10101010 11001100`. -/
example : Prod.fst <$> (⟨[0b10101010, 0b11001100, 0b11110000], 4⟩ : BitsReader).read 8 = ok 0b10101100 := by decide +kernel

/-- `TestReferenceCounter` (/repo/collections/reference_counter_test.go:8-13). -/
example : (RefCounter.mk 0).addRef.useCount = 1 ∧ (RefCounter.mk 0).addRef.release.1 = true := by decide

/-- `TestLinkedList` (/repo/collections/linked_list_test.go:8-24). -/
example : (do
    let l ← (List.range 100).foldlM (fun (l : LList Nat) i => l.add i) LList.empty
    let got ← (List.range 100).mapM fun (i : Nat) => l.get i
    let (l, out) ← (List.range 100).foldlM (fun (p : LList Nat × List Nat) _ => do let (x, l) ← p.1.remove 0; return (l, p.2 ++ [x])) (l, [])
    return (got, out, l.reportedSize) : Go (List Nat × List Nat × Nat)) = ok (List.range 100, List.range 100, 0) := by decide +kernel

/-- `TestQueue` (/repo/collections/queue_test.go:8-19). -/
example : (do
    let q ← RingBuf.newQueue 0 1
    let q ← (List.range 100).foldlM (fun (q : RingBuf Nat) i => q.qPush i) q
    let (_, out) ← (List.range 100).foldlM (fun (p : RingBuf Nat × List Nat) _ => do let (x, q) ← p.1.qPopBack; return (q, p.2 ++ [x])) (q, [])
    return out : Go (List Nat)) = ok (List.range 100).reverse := by decide +kernel

/-- `TestRingBuffer` (/repo/collections/ringbuffer_test.go:8-29) panics: `Head` of an empty ring. -/
example : (do let r ← RingBuf.new 0 10; r.headElem : Go Nat) = Go.panic := by decide

/-- The rest of `TestRingBuffer`. -/
example : (do
    let r ← RingBuf.new 0 10
    let r ← (List.range 100).foldlM (fun (r : RingBuf Nat) i => r.push i) r
    let (r, out) ← (List.range 10).foldlM (fun (p : RingBuf Nat × List Nat) _ => do let (x, r) ← p.1.pop; return (r, p.2 ++ [x])) (r, [])
    return (out, r.isEmpty) : Go (List Nat × Bool)) = ok (List.range' 90 10, true) := by decide +kernel

/-- `TestBlockBuffer` (/repo/collections/blockbuffer_test.go:5-27); both runs make a direct buffer. -/
def blockTest : Go Nat := do
  let (b, m) := DirectBuf.new [] 24
  let (b, _) ← (List.range 100).foldlM (fun (p : DirectBuf × Mem) i => p.1.write p.2 [BitVec.ofNat 8 i]) (b, m)
  let b ← (List.range 100).foldlM (fun (b : DirectBuf) _ => b.pop) b
  return b.size

example : blockTest = ok 0 := by decide +kernel

/-- `TestAVCDecoderConfigurationRecord` (/repo/avc/mp4_test.go:9-35). -/
def avcRecordBytes : Bytes :=
  [0x01, 0x42, 0xc0, 0x1e, 0xff, 0xe1, 0x00, 0x18, 0x67, 0x42, 0xc0, 0x1e, 0xda, 0x01, 0xe0, 0x08, 0x9f, 0x96, 0x10, 0x00, 0x00, 0x03, 0x00,
   0x10, 0x00, 0x00, 0x03, 0x03, 0x20, 0xf1, 0x62, 0xea, 0x01, 0x00, 0x05, 0x68, 0xce, 0x0f, 0x2c, 0x80]

example : avcExtraDataToAnnexB avcRecordBytes =
    ok ([0, 0, 0, 1] ++ (avcRecordBytes.drop 8).take 24 ++ [0, 0, 0, 1] ++ avcRecordBytes.drop 35) := by decide +kernel

/-- `width:1920 height:1080`. -/
example : (fun c => (c.width, c.height, c.sps.length, c.pps.length)) <$> parseAVCRecord 0 avcRecordBytes = ok (1920, 1080, 1, 1) := by
  decide +kernel

/-- The frame rate that the parser finds in the SPS of the test, and the one it would find if emulation prevention bytes were removed
first (C50). -/
example : AvcSps.fps <$> avcParseSPS 0 ((avcRecordBytes.drop 8).take 24) = ok 174762 ∧
    AvcSps.fps <$> avcParseSPS 0 (nal2rbsp ((avcRecordBytes.drop 8).take 24)) = ok 25 := by
  decide +kernel

/-- `TestNameHEVCDecoderConfigurationRecord` (/repo/hevc/mp4_test.go:9-35). -/
def hevcRecordBytes : Bytes := 
  [0x01, 0x01, 0x60, 0x00, 0x00, 0x00, 0x90, 0x00, 0x00, 0x00, 0x00, 0x00, 0x5d, 0xf0, 0x00, 0xfc, 0xfd, 0xf8, 0xf8, 0x00, 0x00, 0x0f,
   0x03, 0xa0, 0x00, 0x01, 0x00, 0x18, 0x40, 0x01, 0x0c, 0x01, 0xff, 0xff, 0x01, 0x60, 0x00, 0x00, 0x03, 0x00, 0x90, 0x00, 0x00, 0x03,
   0x00, 0x00, 0x03, 0x00, 0x5d, 0x99, 0x98, 0x09, 0xa1, 0x00, 0x01, 0x00, 0x2d, 0x42, 0x01, 0x01, 0x01, 0x60, 0x00, 0x00, 0x03, 0x00,
   0x90, 0x00, 0x00, 0x03, 0x00, 0x00, 0x03, 0x00, 0x5d, 0xa0, 0x02, 0x80, 0x80, 0x2d, 0x16, 0x59, 0x99, 0xa4, 0x93, 0x2b, 0x9a, 0x80,
   0x80, 0x80, 0x82, 0x00, 0x00, 0x03, 0x00, 0x02, 0x00, 0x00, 0x03, 0x00, 0x32, 0x10, 0xa2, 0x00, 0x01, 0x00, 0x07, 0x44, 0x01, 0xc1,
   0x72, 0xb4, 0x62, 0x40]

example : hevcExtraDataToAnnexB id hevcRecordBytes =
    ok ([0, 0, 0, 1] ++ (hevcRecordBytes.drop 28).take 24 ++ [0, 0, 0, 1] ++ (hevcRecordBytes.drop 57).take 45 ++
      [0, 0, 0, 1] ++ hevcRecordBytes.drop 107) := by decide +kernel

/-- `width:1280 height:720`. -/
example : (fun c => (c.width, c.height, c.vps.length, c.sps.length, c.pps.length)) <$> parseHEVCRecord id hevcRecordBytes =
    ok (1280, 720, 1, 1, 1) := by decide +kernel

end RepoTests
end Avf
