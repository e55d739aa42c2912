import Verif.Lemmas.DemuxerAnnounce
import Verif.Props.DemuxerSource
/-! # C75: announced tracks -/
namespace Avf
open Go

open scoped Classical in
/-- **C75**, audio: what announcing a track returns and does. There is no track if probing is over, if there is an audio track already
and the format is not TS, or if the AAC configuration cannot be read. The block with the configuration is given back in any
case. -/
theorem C75_audio {name : String} {a : Bool} {h : List (Oracle × DemuxOp)} {s s' : Demuxer} (hr : Reached name a h s)
    {b id tb : Int} {e : Option Bytes} {c : AudioConfig} {t : Option AVStream} (hs : s.onNewAudioTrack b id tb e c = ok (t, s')) :
    if s.completed = true ∨ (name ≠ "ts" ∧ HasType s mediaAudio) ∨
        (id = codecAAC ∧ c.hasADTSHeader = false ∧ ∃ m, parseMpeg4AudioConfig (e.getD []) = err m) then
      t = none ∧ OnlyCalls s s' (backCall b e)
    else ∃ u, t = some u ∧ Appends s s' b u (backCall b e) ∧ u.mediaType = mediaAudio ∧ u.codecID = id ∧ u.timebase = tb ∧
      u.data = e.getD [] ∧ u.codecParameters = none ∧
      if id = codecAAC ∧ c.hasADTSHeader = false then
        ∃ m, parseMpeg4AudioConfig (e.getD []) = ok m ∧ u.toAudioConfig = { c with sampleRate := m.sampleRate, channels := m.channels }
      else u.toAudioConfig = c := by
  have hi := Demuxer.Reached.inv hr
  have hname : s.name = name := Demuxer.Reached.name hr
  unfold Demuxer.onNewAudioTrack at hs
  obtain ⟨⟨t1, s1⟩, h1, hs⟩ := bind_eq_ok.1 hs
  dsimp only at hs
  rw [back_eq] at hs
  cases hs
  have none_case : t = none ∧ s1 = s → t = none ∧ OnlyCalls s (s1.call (backCall b e)) (backCall b e) := by
    rintro ⟨rfl, rfl⟩; exact ⟨rfl, rfl⟩
  by_cases hty : ¬ HasType s mediaAudio ∨ name = "ts"
  · rw [if_pos (by rw [Demuxer.hasType_iff, hname]; exact hty)] at h1
    unfold Demuxer.createAudioTrack at h1
    dsimp only at h1
    by_cases hc : id = codecAAC ∧ c.hasADTSHeader = false
    · rw [if_pos (by simpa using hc)] at h1
      cases e with
      | none => cases h1
      | some data =>
        dsimp only at h1
        cases hm : parseMpeg4AudioConfig data with
        | err m =>
          rw [hm] at h1
          cases h1
          rw [if_pos (Or.inr (Or.inr ⟨hc.1, hc.2, m, hm⟩))]
          exact none_case ⟨rfl, rfl⟩
        | panic => rw [hm] at h1; cases h1
        | ok m =>
          rw [hm] at h1
          dsimp only at h1
          rw [Demuxer.register_exact hi b rfl] at h1
          by_cases hcomp : s.completed = true
          · rw [if_pos hcomp] at h1
            cases h1
            rw [if_pos (Or.inl hcomp)]
            exact none_case ⟨rfl, rfl⟩
          · rw [if_neg hcomp] at h1
            cases h1
            have hneg : ¬ (s.completed = true ∨ (name ≠ "ts" ∧ HasType s mediaAudio) ∨
                (id = codecAAC ∧ c.hasADTSHeader = false ∧ ∃ m, parseMpeg4AudioConfig ((some data).getD []) = err m)) := by
              rintro (h2 | ⟨h2, h3⟩ | ⟨_, _, m', h2⟩)
              · exact hcomp h2
              · rcases hty with h4 | h4
                · exact h4 h3
                · exact h2 h4
              · rw [Option.getD_some, hm] at h2; cases h2
            rw [if_neg hneg]
            refine ⟨_, rfl, ⟨rfl, rfl⟩, rfl, rfl, rfl, rfl, rfl, ?_⟩
            rw [if_pos hc]
            exact ⟨m, hm, rfl⟩
    · rw [if_neg (by simpa using hc)] at h1
      rw [Demuxer.register_exact hi b rfl] at h1
      by_cases hcomp : s.completed = true
      · rw [if_pos hcomp] at h1
        cases h1
        rw [if_pos (Or.inl hcomp)]
        exact none_case ⟨rfl, rfl⟩
      · rw [if_neg hcomp] at h1
        cases h1
        rw [if_neg]
        · refine ⟨_, rfl, ⟨rfl, rfl⟩, rfl, rfl, rfl, rfl, rfl, ?_⟩
          rw [if_neg hc]
        · rintro (h2 | ⟨h2, h3⟩ | ⟨h2, h3, _⟩)
          · exact hcomp h2
          · rcases hty with h4 | h4
            · exact h4 h3
            · exact h2 h4
          · exact hc ⟨h2, h3⟩
  · rw [if_neg (by rw [Demuxer.hasType_iff, hname]; exact hty)] at h1
    cases h1
    rw [if_pos]
    · exact none_case ⟨rfl, rfl⟩
    · push Not at hty
      exact Or.inr (Or.inl ⟨hty.2, hty.1⟩)

open scoped Classical in
/-- **C75**, video: the same; there is no track if the parameter sets cannot be read. -/
theorem C75_video {name : String} {a : Bool} {h : List (Oracle × DemuxOp)} {s s' : Demuxer} (hr : Reached name a h s)
    {o : Oracle} {b id tb : Int} {e : Option Bytes} {t : Option AVStream} (hs : s.onNewVideoTrack o b id tb e = ok (t, s')) :
    if s.completed = true ∨ (name ≠ "ts" ∧ HasType s mediaVideo) ∨
        (∃ m, generateVideoCodecData o.undef o.grow s.getPackType id (e.getD []) = err m) then
      t = none ∧ OnlyCalls s s' (backCall b e)
    else ∃ u, t = some u ∧ Appends s s' b u (backCall b e) ∧ u.mediaType = mediaVideo ∧ u.codecID = id ∧ u.timebase = tb ∧
      u.data = e.getD [] ∧ generateVideoCodecData o.undef o.grow s.getPackType id (e.getD []) = ok u.codecParameters := by
  have hi := Demuxer.Reached.inv hr
  have hname : s.name = name := Demuxer.Reached.name hr
  unfold Demuxer.onNewVideoTrack at hs
  obtain ⟨⟨t1, s1⟩, h1, hs⟩ := bind_eq_ok.1 hs
  dsimp only at hs
  rw [back_eq] at hs
  cases hs
  have none_case : t = none ∧ s1 = s → t = none ∧ OnlyCalls s (s1.call (backCall b e)) (backCall b e) := by
    rintro ⟨rfl, rfl⟩; exact ⟨rfl, rfl⟩
  by_cases hty : ¬ HasType s mediaVideo ∨ name = "ts"
  · rw [if_pos (by rw [Demuxer.hasType_iff, hname]; exact hty)] at h1
    unfold Demuxer.createVideoTrack at h1
    dsimp only at h1
    cases hm : generateVideoCodecData o.undef o.grow s.getPackType id (e.getD []) with
    | err m =>
      rw [hm] at h1
      cases h1
      rw [if_pos (Or.inr (Or.inr ⟨m, rfl⟩))]
      exact none_case ⟨rfl, rfl⟩
    | panic => rw [hm] at h1; cases h1
    | ok m =>
      rw [hm] at h1
      dsimp only at h1
      rw [Demuxer.register_exact hi b rfl] at h1
      by_cases hcomp : s.completed = true
      · rw [if_pos hcomp] at h1
        cases h1
        rw [if_pos (Or.inl hcomp)]
        exact none_case ⟨rfl, rfl⟩
      · rw [if_neg hcomp] at h1
        cases h1
        rw [if_neg]
        · exact ⟨_, rfl, ⟨rfl, rfl⟩, rfl, rfl, rfl, rfl, rfl⟩
        · rintro (h2 | ⟨h2, h3⟩ | ⟨m', h2⟩)
          · exact hcomp h2
          · rcases hty with h4 | h4
            · exact h4 h3
            · exact h2 h4
          · cases h2
  · rw [if_neg (by rw [Demuxer.hasType_iff, hname]; exact hty)] at h1
    cases h1
    rw [if_pos]
    · exact none_case ⟨rfl, rfl⟩
    · push Not at hty
      exact Or.inr (Or.inl ⟨hty.2, hty.1⟩)

/-- **C75**: packets of a buffer that got its track by an announcement go to that track. -/
theorem C75_lookup {s s' : Demuxer} {b : Int} {u : AVStream}
    {cs : List Call} (hs : Appends s s' b u cs) (hb : b ∉ s.bufferOf.map Prod.snd) {o : Oracle} (ho : o.Valid) :
    s'.findTrackByBufferIndex o b = ok (some u) := by
  obtain ⟨hu, rfl⟩ := hs
  unfold Demuxer.findTrackByBufferIndex
  dsimp only
  have hperm := ho.order (s.bufferOf ++ [((s.tracks.tracks.length : Int), b)])
  cases hf : (o.order (s.bufferOf ++ [((s.tracks.tracks.length : Int), b)])).find? (fun e => b = e.2) with
  | none =>
    rw [List.find?_eq_none] at hf
    have := hf _ (hperm.mem_iff.2 (List.mem_append_right _ (List.mem_singleton_self _)))
    simp at this
  | some x =>
    have h1 := List.find?_some hf
    have h2 := hperm.mem_iff.1 (List.mem_of_find?_eq_some hf)
    simp only [decide_eq_true_eq] at h1
    rw [List.mem_append, List.mem_singleton] at h2
    rcases h2 with h2 | rfl
    · exact absurd (h1 ▸ List.mem_map_of_mem (f := Prod.snd) h2) hb
    · have : TrackManager.get { tracks := s.tracks.tracks ++ [u] } ((s.tracks.tracks.length : Nat) : Int) = ok u := by
        unfold TrackManager.get
        rw [Demuxer.idxI_natCast]
        exact Demuxer.idx_middle _ _ _
      dsimp only
      rw [this]; rfl

end Avf
