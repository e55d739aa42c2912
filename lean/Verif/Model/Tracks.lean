import Verif.Model.Codec
/-!
# Model of /repo/tracks.go and /repo/muxer.go

A `Track` is its stream (/repo/track.go); the methods of `TrackManager` read the stream's fields only.
-/
namespace Avf
open Go

/-- `TrackManager` (/repo/tracks.go:5-7). -/
structure TrackManager where
  tracks : List AVStream := []
deriving DecidableEq, Repr

namespace TrackManager

/-- `Add` (/repo/tracks.go:9-16). -/
def add (t : TrackManager) (track : AVStream) : Bool × TrackManager := (true, { tracks := t.tracks ++ [track] })

/-- The loops of `Find` and `FindTrackWithType` (/repo/tracks.go:19-23 and 29-33). -/
def search (cond : AVStream → Bool) : List AVStream → Option AVStream
  | [] => none
  | s :: rest => if cond s then some s else search cond rest

/-- `Find` (/repo/tracks.go:18-26). -/
def find (t : TrackManager) (id : Int) : Option AVStream := search (fun s => s.codecID = id) t.tracks

/-- `FindTrackWithType` (/repo/tracks.go:28-36). -/
def findTrackWithType (t : TrackManager) (mediaType : Int) : Option AVStream := search (fun s => s.mediaType = mediaType) t.tracks

/-- `Get` (/repo/tracks.go:38-40). -/
def get (t : TrackManager) (index : Int) : Go AVStream := idxI t.tracks index

/-- `Size` (/repo/tracks.go:42-44). -/
def size (t : TrackManager) : Nat := t.tracks.length

end TrackManager

/-- `BaseMuxer` (/repo/muxer.go:13-16). `Input` (/repo/muxer.go:34-37) always panics. -/
structure BaseMuxer where
  tracks : TrackManager := {}
  completed : Bool := false
deriving DecidableEq, Repr

namespace BaseMuxer

/-- `AddTrack` (/repo/muxer.go:18-27): index and error (`none` for nil), and the muxer afterwards. The `%s` of the error
message calls `AVMediaType.String`, whose panic for unknown types is caught by package fmt. -/
def addTrack (b : BaseMuxer) (track : AVStream) : (Int × Option String) × BaseMuxer :=
  match b.tracks.findTrackWithType track.mediaType with
  | some _ => ((-1, some "track with media type already exists"), b)
  | none =>
    let (_, t) := b.tracks.add track
    (((t.size : Int) - 1, none), { b with tracks := t })

/-- `WriteHeader` (/repo/muxer.go:29-32). -/
def writeHeader (b : BaseMuxer) : Int × BaseMuxer := (0, { b with completed := true })

end BaseMuxer
end Avf
