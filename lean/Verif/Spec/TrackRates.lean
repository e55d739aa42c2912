import Verif.Spec.Demuxer
/-! # Specification: rates of audio tracks -/
namespace Avf

/-- Sample rates, each with the bytes per millisecond that one channel of 16 bits takes. -/
def pcmTable : List (Int × Int) := [(8000, 16), (16000, 32), (32000, 64), (48000, 96)]

/-- Bit rates of G.726, each with its bytes per millisecond. -/
def g726Table : List (Int × Int) := [(16000, 2), (24000, 3), (32000, 4), (40000, 5)]

/-- The first rate in a table that a number of bytes per millisecond does not exceed. -/
def bestRate (table : List (Int × Int)) (measured : Int) : Option Int := (table.find? fun x => measured ≤ x.2).map Prod.fst

/-- The sound of track `i` (and no other) has this codec, and its first two packets are `p` and `q`: `bytes` bytes that last `ms` whole
milliseconds. -/
structure Measures (codec : Int) (ps : List AVPacket) (i : Nat) (p q : AVPacket) (bytes ms : Int) : Prop where
  only : ∀ x ∈ ps, x.codecID = codec ↔ x.index = (i : Int)
  first : ∃ rest, ofTrack i ps = p :: q :: rest
  timebase : p.timebase = 90000 ∨ p.timebase = 1000
  forward : p.dts ≤ q.dts ∧ q.dts - p.dts ≤ 2 ^ 51
  bytes : bytes = p.data.length
  ms : ms = 1000 * (q.dts - p.dts) / p.timebase

end Avf
