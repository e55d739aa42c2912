import Verif.Lemmas.DemuxerSource
import Verif.Spec.DemuxerProbe
/-! # Lemmas: announced tracks -/
namespace Avf
open Go
namespace Demuxer

theorem hasType_iff (s : Demuxer) (m : Int) : (s.tracks.findTrackWithType m).isNone = true ↔ ¬ HasType s m := by
  unfold TrackManager.findTrackWithType HasType
  rw [Option.isNone_iff_eq_none, search_none]
  simp

/-- What registering a track does. -/
theorem register_exact {s : Demuxer} (hi : Inv s) (b : Int) {u : AVStream} (hu : u.index = s.tracks.tracks.length) :
    s.register b u = if s.completed then (none, s) else
      (some u, { s with tracks := { tracks := s.tracks.tracks ++ [u] }, bufferOf := s.bufferOf ++ [((s.tracks.tracks.length : Int), b)] }) := by
  unfold register addTrack
  cases hc : s.completed with
  | true => simp
  | false =>
    have := hi.mapSet b
    simp only [Bool.false_eq_true, if_false, TrackManager.add, if_true, hu]
    rw [this]

theorem len_eq {s : Demuxer} (hi : Inv s) : s.bufferOf.length = s.tracks.tracks.length := by
  have := congrArg List.length hi.keys; simpa using this

end Demuxer

open Demuxer in
theorem back_eq (s : Demuxer) (t : Option AVStream) (b : Int) (e : Option Bytes) :
    (if (e.getD []).length > 0 then pure (t, s.call [.discardBack b]) else pure (t, s) : Go (Option AVStream × Demuxer)) =
      ok (t, s.call (backCall b e)) := by
  unfold backCall
  by_cases he : e.getD [] = []
  · rw [if_pos he, he]
    simp [call, pure_def]
  · rw [if_neg he, if_pos (List.length_pos_iff.2 he)]
    rfl
end Avf
