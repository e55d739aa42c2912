import Verif.Model.Demuxer
import Mathlib.Data.List.Sort
/-!
# Specification: runs of a demuxer, and what is seen from outside

Only the record of calls is looked at; `timed` says what a consumer should get from a sequence of packets of one track.
-/
namespace Avf
open Go

/-- What Go guarantees about the choices, and what is asked of the preprocess callback: it leaves the stream index and the
buffer index of the packet alone. -/
structure Oracle.Valid (o : Oracle) : Prop where
  order : ∀ m, (o.order m).Perm m
  sortPerm : ∀ l, (o.sort l).Perm l
  sorted : ∀ l, (o.sort l).Pairwise fun a b => ¬ b.dts < a.dts
  index : ∀ p, (o.preprocess p).index = p.index
  buffer : ∀ p, (o.preprocess p).bufferIndex = p.bufferIndex

/-- A possible choice, for examples. -/
def exOracle : Oracle := ⟨id, List.insertionSort fun a b => a.dts ≤ b.dts, 0, 0, id, id⟩

/-- A demuxer before it is used. -/
def Demuxer.new (name : String) (autoFree : Bool) : Demuxer := { name := name, autoFree := autoFree }

/-- A history of operations. -/
def runDemux (s : Demuxer) : List (Oracle × DemuxOp) → Go Demuxer
  | [] => ok s
  | (o, e) :: rest => do
    let s ← e.run o s
    runDemux s rest

/-- The state `s` is the result of a history on a new demuxer. -/
def Reached (name : String) (autoFree : Bool) (h : List (Oracle × DemuxOp)) (s : Demuxer) : Prop :=
  (∀ x ∈ h, x.1.Valid) ∧ runDemux (Demuxer.new name autoFree) h = ok s

/-- What the handler sees. -/
def toHandler : List Call → List Call :=
  List.filter fun
    | .newTrack _ | .trackComplete | .trackNotFound | .packet _ => true
    | _ => false

/-- Packets given to the handler. -/
def delivered : List Call → List AVPacket :=
  List.filterMap fun
    | .packet p => some p
    | _ => none

/-- Packets taken over from the caller. -/
def taken : List Call → List AVPacket :=
  List.filterMap fun
    | .accepted p => some p
    | _ => none

/-- The packets of one track. -/
def ofTrack (i : Nat) (ps : List AVPacket) : List AVPacket := ps.filter fun p => p.index = i

/-- All packets but the last one, each lasting until the next. -/
def timed : List AVPacket → List AVPacket
  | p :: q :: rest => { p with duration := wrap64 (q.dts - p.dts) } :: timed (q :: rest)
  | _ => []

/-- The packet without its duration, which is only known when the next one comes. -/
def bare (p : AVPacket) : AVPacket := { p with duration := 0 }

/-- The calls up to the end of probing. -/
def beforeComplete : List Call → List Call :=
  List.takeWhile fun
    | .trackComplete => false
    | _ => true

/-- The first packet of a track comes after first packets of all tracks with smaller indices. -/
def FirstsInOrder (ps : List AVPacket) : Prop :=
  ∀ l p r, ps = l ++ p :: r → ∀ j : Nat, (j : Int) < p.index → ∃ q ∈ l, q.index = (j : Int)

/-- The order of calls that /repo/demuxer.go:253 promises. -/
def CallOrder (cs : List Call) : Prop :=
  cs = [] ∨ cs = [.trackNotFound] ∨
  ∃ (ts : List AVStream) (ps : List AVPacket), cs = ts.map .newTrack ++ .trackComplete :: ps.map .packet ∧ ts ≠ [] ∧
    (∀ (i : Nat) t, ts[i]? = some t → t.index = i) ∧ ∀ p ∈ ps, ∃ t ∈ ts, p.index = t.index

/-- Operations that bring packets, not tracks. -/
def DemuxOp.PacketOnly : DemuxOp → Prop
  | .newAudioTrack .. | .newVideoTrack .. => False
  | _ => True

/-- Packet input. -/
def DemuxOp.IsPacket : DemuxOp → Prop
  | .audioPacket .. | .videoPacket .. => True
  | _ => False

/-- Total duration in ms, in Go's `int`. -/
def bufferedMs (undef : Int) (ps : List AVPacket) : Int := wrap64 (ps.map fun p => p.getDuration undef 1000).sum

/-- The block that the caller has put into the pipeline before the operation: payload or extra data. -/
def DemuxOp.block : DemuxOp → Option (Int × Bytes)
  | .audioPacket b _ d _ => some (b, d)
  | .videoPacket b _ d _ _ _ => some (b, d)
  | .newAudioTrack b _ _ e _ => if e.getD [] = [] then none else some (b, e.getD [])
  | .newVideoTrack b _ _ e => if e.getD [] = [] then none else some (b, e.getD [])
  | _ => none

/-- The packet that rates are measured with: the oldest one queued that has the codec, queues in their order, only the front
of each being looked at. -/
def firstHead (codec : Int) (queues : List (List AVPacket)) : Option AVPacket :=
  (queues.filterMap List.head?).find? fun p => p.codecID = codec

/-- `r` is the best of `rates` for a measured rate. -/
def BestRate (rates : List Int) (measured r : Int) : Prop :=
  r ∈ rates ∧ measured ≤ r ∧ ∀ r' ∈ rates, measured ≤ r' → r ≤ r'

end Avf
