import Verif.Lemmas.Tracks
/-! # C59, C60: track registration and buffer indices -/
namespace Avf
open Go

/-! ## C59 -/

theorem addTrack_cases (b : BaseMuxer) (t : AVStream) :
    ((∃ u ∈ b.tracks.tracks, u.mediaType = t.mediaType) ∧ (∃ m, (b.addTrack t).1 = (-1, some m)) ∧ (b.addTrack t).2 = b) ∨
    ((∀ u ∈ b.tracks.tracks, u.mediaType ≠ t.mediaType) ∧ (b.addTrack t).1 = ((b.tracks.tracks.length : Int), none) ∧
      (b.addTrack t).2 = { b with tracks := ⟨b.tracks.tracks ++ [t]⟩ }) := by
  unfold BaseMuxer.addTrack TrackManager.findTrackWithType
  cases e : TrackManager.search (fun s => decide (s.mediaType = t.mediaType)) b.tracks.tracks with
  | some u =>
    obtain ⟨x, y, e1, e2, _⟩ := search_some.1 e
    refine Or.inl ⟨⟨u, by rw [e1]; simp, by simpa using e2⟩, ⟨_, rfl⟩, rfl⟩
  | none =>
    rw [search_none] at e
    refine Or.inr ⟨fun u hu => by simpa using e u hu, ?_, rfl⟩
    simp [TrackManager.add, TrackManager.size]

/-- **C59**: a track is refused, with index -1, an error and no change, if and only if one of its media type is there;
otherwise its index is the next one. -/
theorem C59_add_track (b : BaseMuxer) (t : AVStream) :
    (b.addTrack t).1.2 ≠ none ↔ ∃ u ∈ b.tracks.tracks, u.mediaType = t.mediaType := by
  rcases addTrack_cases b t with ⟨h1, ⟨m, h2⟩, _⟩ | ⟨h1, h2, _⟩
  · rw [h2]; simpa using h1
  · rw [h2]; simp; exact fun u hu => h1 u hu

theorem C59_refused (b : BaseMuxer) (t : AVStream) (h : (b.addTrack t).1.2 ≠ none) : (b.addTrack t).1.1 = -1 ∧ (b.addTrack t).2 = b := by
  rcases addTrack_cases b t with ⟨_, ⟨m, h2⟩, h3⟩ | ⟨_, h2, _⟩
  · exact ⟨by rw [h2], h3⟩
  · rw [h2] at h; exact absurd rfl h

/-- **C59**: in any history no two tracks have the same media type. -/
theorem C59_one_per_type (h : List MuxOp) : ((runMux {} h).tracks.tracks.map (·.mediaType)).Nodup := by
  suffices ∀ b : BaseMuxer, (b.tracks.tracks.map (·.mediaType)).Nodup → ((runMux b h).tracks.tracks.map (·.mediaType)).Nodup from
    this {} (by simp)
  induction h with
  | nil => exact fun b hb => hb
  | cons o h ih =>
    intro b hb
    cases o with
    | writeHeader => exact ih _ hb
    | addTrack t =>
      refine ih _ ?_
      rcases addTrack_cases b t with ⟨_, _, h3⟩ | ⟨h1, _, h3⟩
      · rw [h3]; exact hb
      · rw [h3]
        dsimp only
        rw [List.map_append, List.map_singleton, List.nodup_append]
        refine ⟨hb, by simp, ?_⟩
        intro a ha c hc
        obtain ⟨u, hu, rfl⟩ := List.mem_map.1 ha
        rw [List.mem_singleton] at hc
        rw [hc]; exact h1 u hu

theorem runMux_prefix (b : BaseMuxer) (h : List MuxOp) : ∃ more, (runMux b h).tracks.tracks = b.tracks.tracks ++ more := by
  induction h generalizing b with
  | nil => exact ⟨[], by simp [runMux]⟩
  | cons o h ih =>
    cases o with
    | writeHeader => exact ih _
    | addTrack t =>
      obtain ⟨more, hm⟩ := ih (b.addTrack t).2
      rcases addTrack_cases b t with ⟨_, _, h3⟩ | ⟨_, _, h3⟩
      · rw [h3] at hm; exact ⟨more, by rw [runMux, h3]; exact hm⟩
      · rw [h3] at hm; exact ⟨t :: more, by rw [runMux, h3, hm]; simp⟩

/-- **C59**: the index returned for an accepted track gives that track, then and after any further history. -/
theorem C59_index_stable (b : BaseMuxer) (t : AVStream) (h : (b.addTrack t).1.2 = none) (later : List MuxOp) :
    (runMux (b.addTrack t).2 later).tracks.get (b.addTrack t).1.1 = ok t := by
  obtain ⟨more, hm⟩ := runMux_prefix (b.addTrack t).2 later
  rcases addTrack_cases b t with ⟨_, ⟨m, h2⟩, _⟩ | ⟨_, h2, h3⟩
  · rw [h2] at h; cases h
  · unfold TrackManager.get
    rw [hm, h2, h3]
    unfold idxI
    rw [if_neg (by simp), idx_eq_ok]
    simp

theorem runMux_completed (b : BaseMuxer) (h : List MuxOp) : (runMux b h).completed = true ↔ b.completed = true ∨ MuxOp.writeHeader ∈ h := by
  induction h generalizing b with
  | nil => simp [runMux]
  | cons o h ih =>
    cases o with
    | writeHeader => simp [runMux, ih, BaseMuxer.writeHeader]
    | addTrack t =>
      rw [runMux, ih]
      have : (b.addTrack t).2.completed = b.completed := by
        rcases addTrack_cases b t with ⟨_, _, h3⟩ | ⟨_, _, h3⟩ <;> rw [h3]
      simp [this]

/-- **C59**: a muxer is completed exactly after a `WriteHeader`, and stays so. `WriteHeader` writes nothing and keeps the tracks;
it does not stop tracks from being added. -/
theorem C59_completed (h : List MuxOp) : ((runMux {} h).completed = true ↔ MuxOp.writeHeader ∈ h) ∧
    ∀ b : BaseMuxer, b.writeHeader.1 = 0 ∧ b.writeHeader.2.tracks = b.tracks ∧
      ∀ t, (b.writeHeader.2.addTrack t).1 = (b.addTrack t).1 ∧ (b.writeHeader.2.addTrack t).2.tracks = (b.addTrack t).2.tracks := by
  refine ⟨by simpa using runMux_completed {} h, fun b => ⟨rfl, rfl, fun t => ?_⟩⟩
  unfold BaseMuxer.addTrack BaseMuxer.writeHeader
  dsimp only
  split <;> exact ⟨rfl, rfl⟩

/-- **C59**: `Find` and `FindTrackWithType` give the earliest track of the codec or type, or nil if there is none. -/
theorem C59_find (m : TrackManager) (id : Int) :
    (∀ t, m.find id = some t ↔ IsFirst (fun s => s.codecID = id) m.tracks t) ∧ (m.find id = none ↔ ∀ t ∈ m.tracks, t.codecID ≠ id) := by
  unfold TrackManager.find
  refine ⟨fun t => ?_, ?_⟩
  · rw [search_some]; simp
  · rw [search_none]; simp

theorem C59_find_type (m : TrackManager) (ty : Int) :
    (∀ t, m.findTrackWithType ty = some t ↔ IsFirst (fun s => s.mediaType = ty) m.tracks t) ∧
    (m.findTrackWithType ty = none ↔ ∀ t ∈ m.tracks, t.mediaType ≠ ty) := by
  unfold TrackManager.findTrackWithType
  refine ⟨fun t => ?_, ?_⟩
  · rw [search_some]; simp
  · rw [search_none]; simp

example : (runMux {} [.addTrack { mediaType := mediaVideo, index := 0, codecID := codecH264 }, .writeHeader,
    .addTrack { mediaType := mediaVideo, index := 1, codecID := codecH265 },
    .addTrack { mediaType := mediaAudio, index := 5, codecID := codecAAC }]).tracks.tracks.map (·.codecID) = [codecH264, codecAAC] := by decide

/-! ## C60 -/

/-- **C60**: in any history of a demuxer the buffer indices are dense, in the order of first use. -/
theorem C60_dense (name : String) (a : Bool) (h : List (Oracle × DemuxOp)) (xs : List (Int × Nat))
    (hr : answers (Demuxer.new name a) h = ok xs) : Dense [] xs := Demuxer.answers_dense hr

/-- **C60**: `FindBufferIndexByMediaType` is `FindBufferIndex` with the number of the media type as marker, so both share one
numbering: a marker gets the buffer of a media type exactly if it is the same number. -/
theorem C60_media_type (s : Demuxer) (ty m : Int) :
    (s.findBufferIndexByMediaType ty).1 = (((s.findBufferIndexByMediaType ty).2).findBufferIndex m).1 ↔ m = ty := by
  have key : ∀ (s : Demuxer) (a : Int), (s.findBufferIndex a).2.orderedStreams[(s.findBufferIndex a).1]? = some a := by
    intro s a
    unfold Demuxer.findBufferIndex
    split
    · rename_i i hi
      obtain ⟨h1, h2, _⟩ := List.findIdx?_eq_some_iff_getElem.1 hi
      dsimp only
      rw [List.getElem?_eq_getElem h1]
      simpa using (of_decide_eq_true h2).symm
    · simp
  have keep : ∀ (s : Demuxer) (a : Int) (i : Nat) (x : Int), s.orderedStreams[i]? = some x →
      (s.findBufferIndex a).2.orderedStreams[i]? = some x := by
    intro s a i x h
    unfold Demuxer.findBufferIndex
    split
    · exact h
    · dsimp only
      rw [List.getElem?_append_left (List.getElem?_eq_some_iff.1 h).1, h]
  constructor
  · intro h
    have h1 := keep _ m _ _ (key s ty)
    have h2 := key (s.findBufferIndex ty).2 m
    rw [show (s.findBufferIndex ty).1 = ((s.findBufferIndex ty).2.findBufferIndex m).1 from h, h2] at h1
    exact (Option.some.inj h1)
  · rintro rfl
    show (s.findBufferIndex m).1 = _
    cases hf : s.orderedStreams.findIdx? (fun x => m = x) with
    | some i =>
      have : s.findBufferIndex m = (i, s) := by unfold Demuxer.findBufferIndex; rw [hf]
      show _ = ((s.findBufferIndex m).2.findBufferIndex m).1
      rw [this, this]
    | none =>
      show _ = ((s.findBufferIndex m).2.findBufferIndex m).1
      have : s.findBufferIndex m = (s.orderedStreams.length, { s with orderedStreams := s.orderedStreams ++ [m] }) := by
        unfold Demuxer.findBufferIndex; rw [hf]
      rw [this]
      unfold Demuxer.findBufferIndex
      simp [List.findIdx?_append, hf]

/-- **C60**: so equal markers get equal indices and different markers different ones, at any two times. -/
theorem C60_injective (name : String) (a : Bool) (h : List (Oracle × DemuxOp)) (xs : List (Int × Nat))
    (hr : answers (Demuxer.new name a) h = ok xs) : ∀ x ∈ xs, ∀ y ∈ xs, x.1 = y.1 ↔ x.2 = y.2 := by
  have hd := C60_dense name a h xs hr
  have key : ∀ (xs : List (Int × Nat)) (seen : List Int), seen.Nodup → Dense seen xs →
      ∃ l : List Int, l.Nodup ∧ (∃ r, l = seen ++ r) ∧ ∀ x ∈ xs, l[x.2]? = some x.1 := by
    intro xs
    induction xs with
    | nil => exact fun seen hn _ => ⟨seen, hn, ⟨[], by simp⟩, by simp⟩
    | cons x xs ih =>
      obtain ⟨m, i⟩ := x
      intro seen hn hd
      rcases hd with ⟨h1, h2, h3⟩ | ⟨h1, h2, h3⟩
      · obtain ⟨l, hl, ⟨r, rfl⟩, hx⟩ := ih seen hn h3
        refine ⟨_, hl, ⟨r, rfl⟩, ?_⟩
        intro y hy
        rcases List.mem_cons.1 hy with rfl | hy
        · obtain ⟨hi, _⟩ := List.getElem?_eq_some_iff.1 h2
          rw [List.getElem?_append_left hi]; exact h2
        · exact hx y hy
      · obtain ⟨l, hl, ⟨r, rfl⟩, hx⟩ := ih (seen ++ [m]) (by
          rw [List.nodup_append]; exact ⟨hn, by simp, by intro a ha b hb; rw [List.mem_singleton] at hb; rw [hb]; rintro rfl; exact h1 ha⟩) h3
        refine ⟨_, hl, ⟨m :: r, by simp⟩, ?_⟩
        intro y hy
        rcases List.mem_cons.1 hy with rfl | hy
        · dsimp only; rw [h2]; simp
        · exact hx y hy
  obtain ⟨l, hl, _, hx⟩ := key xs [] (by simp) hd
  intro x hxm y hym
  have e1 := hx x hxm
  have e2 := hx y hym
  constructor
  · intro e
    rw [← e] at e2
    obtain ⟨h1, e1⟩ := List.getElem?_eq_some_iff.1 e1
    obtain ⟨h2, e2⟩ := List.getElem?_eq_some_iff.1 e2
    exact (List.Nodup.getElem_inj_iff hl).1 (e1.trans e2.symm)
  · intro e
    rw [e, e2] at e1
    exact (Option.some.inj e1).symm

example : answers (Demuxer.new "ts" true) [(exOracle, .findBufferIndex 256), (exOracle, .probeComplete), (exOracle, .findBufferIndex 257),
    (exOracle, .findBufferIndex 256)] = ok [(256, 0), (257, 1), (256, 0)] := by decide +kernel

end Avf
