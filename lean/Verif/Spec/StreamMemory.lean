import Verif.Model.StreamMemory
/-!
# What a stream in memory stands for, and which memory is its own
-/
namespace Avf
open Go

/-- A slice of an array that there is. -/
def SliceRef.ValidIn (s : SliceRef) (m : Mem) : Prop := ∃ a, m[s.arr]? = some a ∧ s.off + s.len ≤ a.length

/-- The record with the contents of its slices. -/
def AVCRecordM.read (m : Mem) (r : AVCRecordM) : AVCRecord :=
  { r.fields with spsList := r.spsList.map m.read, ppsList := r.ppsList.map m.read }

/-- The record with the contents of its slices. -/
def HEVCRecordM.read (m : Mem) (r : HEVCRecordM) : HEVCRecord :=
  { r.fields with vpsList := r.vpsList.map m.read, spsList := r.spsList.map m.read, ppsList := r.ppsList.map m.read
                  ppsCap := r.ppsCap, shared := r.shared }

/-- The codec data with the contents of its slices. -/
def CodecDataM.read (m : Mem) (c : CodecDataM) : CodecData :=
  { width := c.width, height := c.height, annexB := c.annexB.map m.read, m4vc := c.m4vc.map m.read
    record := match c.record with | .avc r => .avc (r.read m) | .hevc r => .hevc (r.read m) }

/-- The stream with the contents of its slices. -/
def AVStreamM.read (m : Mem) (s : AVStreamM) : AVStream :=
  { toAudioConfig := s.toAudioConfig, mediaType := s.mediaType, index := s.index, codecID := s.codecID, timebase := s.timebase
    codecParameters := s.codecParameters.map (CodecDataM.read m), data := (s.data.map m.read).getD [] }

/-- All slices of codec data. -/
def CodecDataM.slices (c : CodecDataM) : List SliceRef :=
  c.annexB.toList ++ c.m4vc.toList ++
    match c.record with
    | .avc r => r.spsList ++ r.ppsList
    | .hevc r => r.vpsList ++ r.spsList ++ r.ppsList

/-- All slices of a stream. -/
def AVStreamM.slices (s : AVStreamM) : List SliceRef :=
  s.data.toList ++ (s.codecParameters.map CodecDataM.slices).getD []

/-- Memory, the arrays that the rest of the program holds, and the streams made so far with what each read when it was made. -/
structure World where
  mem : Mem
  outside : List Nat
  streams : List (AVStreamM × AVStream)

/-- One call that makes a stream from the bytes of slice `e`. -/
inductive MakesStream (e : SliceRef) : MemM AVStreamM → Prop
  | video (undef : Int) (grow : Nat → Nat) (pack : Byte) (id timebase index : Int) :
      MakesStream e (videoStreamM undef grow pack id timebase index e)
  | audio (id timebase index : Int) (config : AudioConfig) : MakesStream e (audioStreamM id timebase index (some e) config)
  | avcKeyFrame (undef : Int) (index : Int) : MakesStream e (createAVCStreamFromKeyFrameM undef e index)
  | hevcKeyFrame (index : Int) : MakesStream e (createHevcStreamFromKeyFrameM e index)

/-- One step of the program: the rest of the program takes new memory, or writes to an array that it holds, or has a stream made
from a slice of an array that it holds. -/
inductive World.Step : World → World → Prop
  | alloc (w : World) (b : Bytes) : World.Step w { w with mem := w.mem ++ [b], outside := w.mem.length :: w.outside }
  | write (w : World) (a : Nat) (b : Bytes) (h : a ∈ w.outside) : World.Step w { w with mem := w.mem.set a b }
  | made (w : World) (e : SliceRef) (c : MemM AVStreamM) (h : e.arr ∈ w.outside) (he : e.ValidIn w.mem) (hc : MakesStream e c)
      (s : AVStreamM) (m : Mem) (hr : c w.mem = ok (.ok s, m)) :
      World.Step w { w with mem := m, streams := w.streams ++ [(s, s.read m)] }
  | failed (w : World) (e : SliceRef) (c : MemM AVStreamM) (h : e.arr ∈ w.outside) (he : e.ValidIn w.mem) (hc : MakesStream e c)
      (x : String) (m : Mem) (hr : c w.mem = ok (.error x, m)) : World.Step w { w with mem := m }

/-- Any number of steps. -/
inductive World.Steps : World → World → Prop
  | refl (w : World) : World.Steps w w
  | step {w v u : World} : World.Steps w v → World.Step v u → World.Steps w u

end Avf
