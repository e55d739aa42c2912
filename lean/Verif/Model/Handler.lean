import Verif.Model.Demuxer
/-!
# Model of /repo/handler.go, /repo/utils/av_util.go and `AVCodecID.String`

Strings are lists of characters. The file system is what `OnUnpackStream2FileHandler` uses of it: `os.OpenFile` with
`O_WRONLY|O_CREATE` and `(*os.File).Write`. Opening and writing do not fail (the code panics if they do), and nobody else
changes the files while the handler runs. What is printed is left out, except that making the text can panic
(`AVMediaType.String` is called by the code itself, not by package fmt).
-/
namespace Avf
open Go

/-- `strconv.Itoa`. -/
def itoa (n : Int) : List Char := if n < 0 then '-' :: Nat.toDigits 10 n.natAbs else Nat.toDigits 10 n.natAbs

/-- `AVMediaType.String` (/repo/utils/av_util.go:17-47). -/
def mediaTypeString (a : Int) : Go (List Char) :=
  if a = mediaUnknown then ok ['u', 'n', 'k', 'n', 'o', 'w', 'n']
  else if a = mediaVideo then ok ['v', 'i', 'd', 'e', 'o']
  else if a = mediaAudio then ok ['a', 'u', 'd', 'i', 'o']
  else if a = 2 then ok ['d', 'a', 't', 'a']
  else if a = 3 then ok ['s', 'u', 'b', 't', 'i', 't', 'l', 'e']
  else if a = 4 then ok ['a', 't', 't', 'a', 'c', 'h', 'm', 'e', 'n', 't']
  else if a = 5 then ok ['n']
  else panic

/-- `AVCodecID.String` (/repo/utils/codec_id.go:536-571). -/
def codecIDString (a : Int) : List Char :=
  if a = 4 then ['H', '2', '6', '3']
  else if a = codecH264 then ['H', '2', '6', '4']
  else if a = codecH265 then ['H', '2', '6', '5']
  else if a = 0x8b then ['V', 'P', '8']
  else if a = 0xa7 then ['V', 'P', '9']
  else if a = 0x801d then ['A', 'V', '1']
  else if a = codecAAC then ['A', 'A', 'C']
  else if a = 0x10007 then ['P', 'C', 'M', 'A']
  else if a = 0x10006 then ['P', 'C', 'M', 'U']
  else if a = 0x1503c then ['O', 'P', 'U', 'S']
  else if a = 0x15001 then ['M', 'P', '3']
  else if a = 0x1101c then ['G', '7', '2', '2']
  else if a = codecG726 then ['G', '7', '2', '6']
  else if a = codecPCMS16LE then ['P', 'C', 'M', 'S', '1', '6', 'L', 'E']
  else itoa a

/-! ## Files -/

/-- A regular file: permission bits and contents. -/
structure DiskFile where
  mode : Nat
  data : Bytes
deriving DecidableEq, Repr

/-- The files there are. -/
abbrev Disk := List (List Char × DiskFile)

/-- `*os.File`: which file, and the position of the next write. -/
structure OpenFile where
  name : List Char
  pos : Nat := 0
deriving DecidableEq, Repr

/-- `os.OpenFile(name, O_WRONLY|O_CREATE, perm)`: a file that exists is opened as it is (no `O_TRUNC`), otherwise it is made. -/
def Disk.openFile (d : Disk) (name : List Char) (perm : Nat) : OpenFile × Disk :=
  match d.lookup name with
  | some _ => ({ name := name }, d)
  | none => ({ name := name }, d ++ [(name, { mode := perm, data := [] })])

/-- Bytes from position `pos` on are replaced; a gap is filled with zeros. -/
def writeAt (old : Bytes) (pos : Nat) (b : Bytes) : Bytes :=
  old.take pos ++ List.replicate (pos - old.length) 0 ++ b ++ old.drop (pos + b.length)

/-- `Write`: at the position of the open file, which moves on. -/
def Disk.write (d : Disk) (f : OpenFile) (b : Bytes) : OpenFile × Disk :=
  ({ f with pos := f.pos + b.length },
   d.map fun (n, x) => if n = f.name then (n, { x with data := writeAt x.data f.pos b }) else (n, x))

/-! ## The handlers -/

/-- `OnUnpackStream2FileHandler` with the embedded `OnUnpackStreamLogger` (/repo/handler.go:23-25 and 49-53), and the disk. -/
structure FileHandler where
  path : List Char
  tracks : TrackManager := {}
  fos : List OpenFile := []
  disk : Disk := []

namespace FileHandler

/-- `OnUnpackStreamLogger.OnNewTrack` (/repo/handler.go:27-35). -/
def logNewTrack (o : FileHandler) (t : AVStream) : Go FileHandler := do
  let (added, tracks) := o.tracks.add t
  if ¬ added then panic
  else do
    let _ ← mediaTypeString t.mediaType
    return { o with tracks := tracks }

/-- The name of the file of a track (/repo/handler.go:58). -/
def fileName (path : List Char) (t : AVStream) : Go (List Char) := do
  let m ← mediaTypeString t.mediaType
  return path ++ ['.'] ++ m ++ ['.'] ++ itoa t.index ++ ['.'] ++ codecIDString t.codecID

/-- `OnNewTrack` (/repo/handler.go:55-64). The permissions are the decimal number 132. -/
def onNewTrack (o : FileHandler) (t : AVStream) : Go FileHandler := do
  let o ← o.logNewTrack t
  let name ← fileName o.path t
  let (f, disk) := o.disk.openFile name 132
  return { o with fos := o.fos ++ [f], disk := disk }

/-- `OnUnpackStreamLogger.OnPacket` (/repo/handler.go:41-43). -/
def logPacket (o : FileHandler) (p : AVPacket) : Go FileHandler := do
  let _ ← mediaTypeString p.mediaType
  return o

/-- Writing to `o.fos[index]` (/repo/handler.go:79 and 85). -/
def writeTo (o : FileHandler) (index : Int) (b : Bytes) : Go FileHandler := do
  let f ← idxI o.fos index
  let (f, disk) := o.disk.write f b
  return { o with fos := o.fos.set index.toNat f, disk := disk }

/-- `OnPacket` (/repo/handler.go:70-88). -/
def onPacket (o : FileHandler) (p : AVPacket) : Go FileHandler := do
  let o ← o.logPacket p
  if p.mediaType = mediaVideo then do
    let stream ← o.tracks.get p.index
    let (data, p) ← avccPacket2AnnexB stream p
    match stream.codecParameters with
    | some c =>
      if p.key ∧ p.packetType = packAVCC then do
        let o ← o.writeTo p.index c.annexBExtraData
        o.writeTo p.index data
      else o.writeTo p.index data
    | none => o.writeTo p.index data
  else o.writeTo p.index p.data

/-- A call of the handler; the other calls are not its own. `OnTrackComplete` and `OnTrackNotFind`
(/repo/handler.go:37-39, /repo/handler.go:45-47 and /repo/handler.go:66-68) print only. -/
def handle (o : FileHandler) : Call → Go FileHandler
  | .newTrack t => o.onNewTrack t
  | .packet p => o.onPacket p
  | _ => ok o

/-- A sequence of calls. -/
def handleAll (o : FileHandler) : List Call → Go FileHandler
  | [] => ok o
  | c :: cs => do
    let o ← o.handle c
    o.handleAll cs

end FileHandler
end Avf
