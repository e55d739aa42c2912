import Verif.Lemmas.DemuxerObjectsQueue
/-! # Helper lemmas: runs of demuxers with packet objects -/
namespace Avf
open Go PacketPool

variable {K : Kept}

/-! ## Operations that do not look at packets -/

/-- The same with other packets. -/
def Demuxer.put (s : Demuxer) (P : List (List AVPacket)) : Demuxer := { s with packets := P }

/-- The same for results. -/
def putR (P : List (List AVPacket)) (r : Option AVStream × Demuxer) : Option AVStream × Demuxer := (r.1, r.2.put P)

namespace Demuxer

theorem put_addTrack (s : Demuxer) (P : List (List AVPacket)) (t : AVStream) :
    (s.put P).addTrack t = ((s.addTrack t).1, (s.addTrack t).2.put P) := by
  unfold addTrack put
  by_cases h : s.completed <;> simp [h]

theorem put_register (s : Demuxer) (P : List (List AVPacket)) (b : Int) (t : AVStream) :
    (s.put P).register b t = putR P (s.register b t) := by
  unfold register
  rw [put_addTrack]
  cases h : s.addTrack t with
  | mk r s' =>
    cases r <;> rfl

theorem put_createAudioTrack (s : Demuxer) (P : List (List AVPacket)) (b id tb : Int) (e : Option Bytes) (c : AudioConfig) :
    (s.put P).createAudioTrack b id tb e c = putR P <$> s.createAudioTrack b id tb e c := by
  unfold createAudioTrack
  by_cases h : id = codecAAC ∧ ¬ c.hasADTSHeader = true
  · rw [if_pos h, if_pos h]
    cases e with
    | none => rfl
    | some data =>
      dsimp only
      cases parseMpeg4AudioConfig data with
      | ok c =>
        dsimp only
        rw [put_register]; rfl
      | err m => rfl
      | panic => rfl
  · rw [if_neg h, if_neg h, put_register]; rfl

theorem put_createVideoTrack (o : Oracle) (s : Demuxer) (P : List (List AVPacket)) (b id tb : Int) (e : Option Bytes) :
    (s.put P).createVideoTrack o b id tb e = putR P <$> s.createVideoTrack o b id tb e := by
  unfold createVideoTrack
  dsimp only
  rw [show (s.put P).getPackType = s.getPackType from rfl]
  cases generateVideoCodecData o.undef o.grow s.getPackType id (e.getD []) with
  | ok c =>
    dsimp only
    rw [put_register]; rfl
  | err m => rfl
  | panic => rfl

theorem put_onNewAudioTrack (s : Demuxer) (P : List (List AVPacket)) (b id tb : Int) (e : Option Bytes) (c : AudioConfig) :
    (s.put P).onNewAudioTrack b id tb e c = putR P <$> s.onNewAudioTrack b id tb e c := by
  unfold onNewAudioTrack
  rw [show (s.put P).tracks = s.tracks from rfl, show (s.put P).name = s.name from rfl, put_createAudioTrack]
  by_cases h : (s.tracks.findTrackWithType mediaAudio).isNone = true ∨ s.name = "ts"
  · rw [if_pos h, if_pos h]
    cases s.createAudioTrack b id tb e c with
    | ok r =>
      simp only [map_ok, ok_bind, putR]
      by_cases h2 : (e.getD []).length > 0
      · rw [if_pos h2, if_pos h2]; rfl
      · rw [if_neg h2, if_neg h2]; rfl
    | err m => rfl
    | panic => rfl
  · rw [if_neg h, if_neg h]
    simp only [ok_bind]
    by_cases h2 : (e.getD []).length > 0
    · rw [if_pos h2, if_pos h2]; rfl
    · rw [if_neg h2, if_neg h2]; rfl

theorem put_onNewVideoTrack (o : Oracle) (s : Demuxer) (P : List (List AVPacket)) (b id tb : Int) (e : Option Bytes) :
    (s.put P).onNewVideoTrack o b id tb e = putR P <$> s.onNewVideoTrack o b id tb e := by
  unfold onNewVideoTrack
  rw [show (s.put P).tracks = s.tracks from rfl, show (s.put P).name = s.name from rfl, put_createVideoTrack]
  by_cases h : (s.tracks.findTrackWithType mediaVideo).isNone = true ∨ s.name = "ts"
  · rw [if_pos h, if_pos h]
    cases s.createVideoTrack o b id tb e with
    | ok r =>
      simp only [map_ok, ok_bind, putR]
      by_cases h2 : (e.getD []).length > 0
      · rw [if_pos h2, if_pos h2]; rfl
      · rw [if_neg h2, if_neg h2]; rfl
    | err m => rfl
    | panic => rfl
  · rw [if_neg h, if_neg h]
    simp only [ok_bind]
    by_cases h2 : (e.getD []).length > 0
    · rw [if_pos h2, if_pos h2]; rfl
    · rw [if_neg h2, if_neg h2]; rfl

theorem put_findBufferIndex (s : Demuxer) (P : List (List AVPacket)) (m : Int) :
    ((s.put P).findBufferIndex m).2 = (s.findBufferIndex m).2.put P := by
  unfold findBufferIndex
  rw [show (s.put P).orderedStreams = s.orderedStreams from rfl]
  cases s.orderedStreams.findIdx? fun x => decide (m = x) <;> rfl

theorem put_audioTrack (o : Oracle) (s : Demuxer) (P : List (List AVPacket)) (b id : Int) (data : Bytes) :
    ObjDemuxer.audioTrack o (s.put P) b id data = putR P <$> ObjDemuxer.audioTrack o s b id data := by
  unfold ObjDemuxer.audioTrack
  rw [show (s.put P).findTrackByBufferIndex o b = s.findTrackByBufferIndex o b from rfl,
    show (s.put P).completed = s.completed from rfl, show (s.put P).getTimebase = s.getTimebase from rfl]
  cases s.findTrackByBufferIndex o b with
  | ok track =>
    simp only [ok_bind]
    by_cases h : ¬ s.completed = true ∧ track = none
    · rw [if_pos h, if_pos h]
      cases extractAudioExtraData id data with
      | ok r =>
        obtain ⟨e, r2, c⟩ := r
        dsimp only
        cases s.getTimebase with
        | ok tb => simp only [ok_bind, put_createAudioTrack]
        | err m => rfl
        | panic => rfl
      | err m => rfl
      | panic => rfl
    · rw [if_neg h, if_neg h]; rfl
  | err m => rfl
  | panic => rfl

theorem put_videoTrack (o : Oracle) (s : Demuxer) (P : List (List AVPacket)) (b id : Int) (data : Bytes) (key : Bool) :
    ObjDemuxer.videoTrack o (s.put P) b id data key = putR P <$> ObjDemuxer.videoTrack o s b id data key := by
  unfold ObjDemuxer.videoTrack
  rw [show (s.put P).findTrackByBufferIndex o b = s.findTrackByBufferIndex o b from rfl,
    show (s.put P).completed = s.completed from rfl, show (s.put P).getTimebase = s.getTimebase from rfl,
    show (s.put P).getPackType = s.getPackType from rfl, show (s.put P).videoExtraData id data key = s.videoExtraData id data key from rfl]
  cases s.findTrackByBufferIndex o b with
  | ok track =>
    simp only [ok_bind]
    by_cases h : track = none ∧ ¬ s.completed = true ∧ s.getPackType = packAnnexB
    · rw [if_pos h, if_pos h]
      cases s.videoExtraData id data key with
      | ok r =>
        simp only [ok_bind]
        cases r with
        | none => rfl
        | some e =>
          dsimp only
          cases s.getTimebase with
          | ok tb => simp only [ok_bind, put_createVideoTrack]
          | err m => rfl
          | panic => rfl
      | err m => rfl
      | panic => rfl
    · rw [if_neg h, if_neg h]; rfl
  | err m => rfl
  | panic => rfl

/-- `OnAudioPacket` in two parts. -/
theorem onAudioPacket_eq (o : Oracle) (s : Demuxer) (b id : Int) (data : Bytes) (ts : Int) :
    s.onAudioPacket o b id data ts = ObjDemuxer.audioTrack o s b id data >>= fun r =>
      match r.1 with
      | none => ok (r.2.call [.discardBack b])
      | some t =>
        let packet : AVPacket :=
          { data := data, pts := ts, dts := ts, codecID := id, index := t.index, timebase := t.timebase, mediaType := mediaAudio
            packetType := o.audioType, bufferIndex := b }
        (r.2.call [.accepted packet]).processBufferedPacket o packet := by
  unfold onAudioPacket ObjDemuxer.audioTrack
  rw [bind_assoc]
  rfl

theorem onVideoPacket_eq (o : Oracle) (s : Demuxer) (b id : Int) (data : Bytes) (key : Bool) (dts pts : Int) :
    s.onVideoPacket o b id data key dts pts = ObjDemuxer.videoTrack o s b id data key >>= fun r =>
      match r.1 with
      | none => ok (r.2.call [.discardBack b])
      | some t =>
        let packet : AVPacket := o.preprocess
          { data := data, pts := pts, dts := dts, key := key, codecID := id, index := t.index, timebase := t.timebase
            mediaType := mediaVideo, packetType := r.2.getPackType, bufferIndex := b }
        (r.2.call [.accepted packet]).processBufferedPacket o packet := by
  unfold onVideoPacket ObjDemuxer.videoTrack
  rw [bind_assoc]
  rfl

end Demuxer

/-! ## Simulation -/

theorem process_sim {o : ObjOracle} (ho : o.Valid) {d : ObjDemuxer} {ts : List Row} {p : Nat} {x : AVPacket} {s : Demuxer}
    (h : ObjSim K d ts [p] [x] s) :
    ∃ f, SortOk f ∧ ∀ o' : Oracle, o'.undef = o.undef → o'.sort = f →
      Agrees K (d.processBufferedPacket o p) (s.processBufferedPacket o' x) := by
  have hx : d.shared.pool.objs[p]? = some x := by have := h.rest; simpa using this
  have hl : d.queues.length = s.packets.length := by rw [h.queues, h.packets]; simp
  unfold ObjDemuxer.processBufferedPacket Demuxer.processBufferedPacket
  rw [idx_eq_ok.2 hx]
  simp only [ok_bind]
  by_cases hi : x.index < (s.packets.length : Int)
  · rw [hl]
    simp only [if_pos hi]
    exact enqueue_sim ho _ h
  · rw [hl]
    simp only [if_neg hi]
    have h' : ObjSim K { d with queues := d.queues ++ [LList.empty] } (ts ++ [⟨LList.empty, [], []⟩]) [p] [x]
        { s with packets := s.packets ++ [[]] } := by
      refine ⟨?_, ?_, ?_, ?_, h.rest, h.frame, ?_⟩
      · have hb := h.base
        dsimp only
        generalize s.packets = P at hb ⊢
        subst hb; rfl
      · simp [h.queues]
      · simp [h.packets]
      · intro t ht
        rcases List.mem_append.1 ht with ht | ht
        · exact h.rows t ht
        · rw [List.mem_singleton] at ht
          subst ht
          exact ⟨⟨[], LList.rep_empty⟩, rfl⟩
      · have e : (ts ++ [(⟨LList.empty, [], []⟩ : Row)]).flatMap Row.l = ts.flatMap Row.l := by simp
        rw [e]
        exact h.inv
    exact enqueue_sim ho _ h'

/-- A new packet. -/
theorem alloc_sim {d : ObjDemuxer} {ts : List Row} {s : Demuxer} (h : ObjSim K d ts [] [] s) (pick : Option Nat) (f : AVPacket → AVPacket) :
    ∃ x, BlankPacket x ∧ ObjSim K { d with shared := { d.shared with pool := (d.shared.pool.get pick).2.modify (d.shared.pool.get pick).1 f } } ts
      [(d.shared.pool.get pick).1] [f x] s := by
  obtain ⟨h1, ⟨x, h2, hb⟩, h3⟩ := modify_new h.inv pick f
  refine ⟨x, hb, h.base, h.queues, h.packets, fun t ht => (h.rows t ht).keep fun q hq => ?_, by simpa using h2,
    fun q hq => (h3 q (List.mem_append_left _ (List.mem_append_right _ hq))).trans (h.frame q hq), h1.perm ?_⟩
  · exact h3 q (List.mem_append_left _ (List.mem_append_left _ (List.mem_append_left _ (List.mem_flatMap.2 ⟨t, ht, hq⟩))))
  · rw [List.append_nil]
    show ((d.shared.pool.get pick).1 :: (ts.flatMap Row.l ++ K.l ++ d.shared.theirs)).Perm (ts.flatMap Row.l ++ [_] ++ K.l ++ d.shared.theirs)
    simp only [List.append_assoc, List.singleton_append]
    exact List.perm_middle.symm

theorem ObjSim.put {d : ObjDemuxer} {ts : List Row} {todo : List Nat} {xs : List AVPacket} {s : Demuxer} (h : ObjSim K d ts todo xs s) :
    s = d.base.put s.packets := h.base

theorem modify_twice (s : PacketPool) (p : Nat) (f g : AVPacket → AVPacket) : (s.modify p f).modify p g = s.modify p (g ∘ f) := by
  simp [PacketPool.modify, List.modify_modify_eq]

theorem blank_fields {x : AVPacket} (h : BlankPacket x) : (x.packetType = 0 ∨ x.packetType = packNone) ∧ x.duration = 0 ∧ x.key = false ∧
    x.createdTime = 0 ∧ x.dataAVCC = none ∧ x.dataAnnexB = none ∧ x.onBufferAlloc = none := by
  rcases h with rfl | rfl
  · exact ⟨Or.inl rfl, rfl, rfl, rfl, rfl, rfl, rfl⟩
  · exact ⟨Or.inr rfl, rfl, rfl, rfl, rfl, rfl, rfl⟩

/-- The choices for packet values. -/
def ObjOracle.values (o : ObjOracle) (f : List AVPacket → List AVPacket) (t : Byte) : Oracle := { o.toOracle with sort := f, audioType := t }

theorem ObjOracle.values_valid {o : ObjOracle} (ho : o.Valid) {f : List AVPacket → List AVPacket} (hf : SortOk f) (t : Byte) :
    (o.values f t).Valid := ⟨ho.order, hf.1, hf.2, ho.index, ho.buffer⟩

theorem audio_sim {o : ObjOracle} (ho : o.Valid) {d : ObjDemuxer} {ts : List Row} {s : Demuxer} (h : ObjSim K d ts [] [] s)
    (b id : Int) (data : Bytes) (time : Int) :
    ∃ f t, SortOk f ∧ (t = 0 ∨ t = packNone) ∧
      Agrees K (d.onAudioPacket o b id data time) (s.onAudioPacket (o.values f t) b id data time) := by
  have ex : SortOk exOracle.sort := ⟨exOracle_valid.sortPerm, exOracle_valid.sorted⟩
  have htr : ∀ f t, ObjDemuxer.audioTrack (o.values f t) s b id data = putR s.packets <$> ObjDemuxer.audioTrack o.toOracle d.base b id data := by
    intro f t
    conv_lhs => rw [h.put]
    rw [Demuxer.put_audioTrack]
    rfl
  simp only [Demuxer.onAudioPacket_eq, htr]
  unfold ObjDemuxer.onAudioPacket
  cases hr : ObjDemuxer.audioTrack o.toOracle d.base b id data with
  | err m => exact ⟨_, 0, ex, Or.inl rfl, trivial⟩
  | panic => exact ⟨_, 0, ex, Or.inl rfl, trivial⟩
  | ok r =>
    obtain ⟨track, s1⟩ := r
    simp only [map_ok, ok_bind, putR]
    have h1 : ObjSim K { d with base := s1 } ts [] [] (s1.put s.packets) := h.rebase s1
    cases track with
    | none => exact ⟨_, 0, ex, Or.inl rfl, ts, h.rebase (s1.call [.discardBack b])⟩
    | some t =>
      dsimp only
      obtain ⟨x, hb, h2⟩ := alloc_sim h1 o.pick ((fun x => { x with bufferIndex := b }) ∘ fun x =>
        { x with data := data, dts := time, pts := time, codecID := id, index := t.index, timebase := t.timebase, mediaType := mediaAudio })
      obtain ⟨b1, b2, b3, b4, b5, b6, b7⟩ := blank_fields hb
      have hval : (((fun x => { x with bufferIndex := b }) ∘ fun x : AVPacket =>
          { x with data := data, dts := time, pts := time, codecID := id, index := t.index, timebase := t.timebase, mediaType := mediaAudio }) x : AVPacket) =
          { data := data, pts := time, dts := time, codecID := id, index := t.index, timebase := t.timebase, mediaType := mediaAudio
            packetType := x.packetType, bufferIndex := b } := by
        cases x
        simp only at b2 b3 b4 b5 b6 b7
        subst b2 b3 b4 b5 b6 b7
        rfl
      rw [hval] at h2
      rw [← modify_twice] at h2
      have h3 := h2.rebase (s1.call [.accepted { data := data, pts := time, dts := time, codecID := id, index := t.index, timebase := t.timebase, mediaType := mediaAudio
                                                 packetType := x.packetType, bufferIndex := b }])
      obtain ⟨f, hf, hag⟩ := process_sim ho h3
      refine ⟨f, x.packetType, hf, b1, ?_⟩
      have := hag (o.values f x.packetType) rfl rfl
      have hx := idx_eq_ok.2 (show (((d.shared.pool.newAudioPacket o.pick data time id t.index t.timebase).2).modify
          (d.shared.pool.newAudioPacket o.pick data time id t.index t.timebase).1 fun x => { x with bufferIndex := b }).objs[(d.shared.pool.newAudioPacket o.pick data time id t.index t.timebase).1]? = _ by
        have := h2.rest
        simp only [List.map_cons, List.map_nil, List.cons.injEq, and_true] at this
        exact this)
      have e : idx (ObjDemuxer.modify { d with base := s1, shared := { d.shared with pool := (d.shared.pool.newAudioPacket o.pick data time id t.index t.timebase).2 } }
          (d.shared.pool.newAudioPacket o.pick data time id t.index t.timebase).1 fun x => { x with bufferIndex := b }).shared.pool.objs
          (d.shared.pool.newAudioPacket o.pick data time id t.index t.timebase).1 = _ := hx
      rw [e, ok_bind]
      exact this

theorem video_sim {o : ObjOracle} (ho : o.Valid) {d : ObjDemuxer} {ts : List Row} {s : Demuxer} (h : ObjSim K d ts [] [] s)
    (b id : Int) (data : Bytes) (key : Bool) (dts pts : Int) :
    ∃ f, SortOk f ∧
      Agrees K (d.onVideoPacket o b id data key dts pts) (s.onVideoPacket (o.values f 0) b id data key dts pts) := by
  have ex : SortOk exOracle.sort := ⟨exOracle_valid.sortPerm, exOracle_valid.sorted⟩
  have htr : ∀ f t, ObjDemuxer.videoTrack (o.values f t) s b id data key = putR s.packets <$> ObjDemuxer.videoTrack o.toOracle d.base b id data key := by
    intro f t
    conv_lhs => rw [h.put]
    rw [Demuxer.put_videoTrack]
    rfl
  simp only [Demuxer.onVideoPacket_eq, htr]
  unfold ObjDemuxer.onVideoPacket
  cases hr : ObjDemuxer.videoTrack o.toOracle d.base b id data key with
  | err m => exact ⟨_, ex, trivial⟩
  | panic => exact ⟨_, ex, trivial⟩
  | ok r =>
    obtain ⟨track, s1⟩ := r
    simp only [map_ok, ok_bind, putR]
    have h1 : ObjSim K { d with base := s1 } ts [] [] (s1.put s.packets) := h.rebase s1
    cases track with
    | none => exact ⟨_, ex, ts, h.rebase (s1.call [.discardBack b])⟩
    | some t =>
      dsimp only
      obtain ⟨x, hb, h2⟩ := alloc_sim h1 o.pick (o.preprocess ∘ (fun x => { x with bufferIndex := b }) ∘ fun x =>
        { x with data := data, dts := dts, pts := pts, key := key, packetType := s1.getPackType, codecID := id, index := t.index,
                 timebase := t.timebase, mediaType := mediaVideo })
      obtain ⟨b1, b2, b3, b4, b5, b6, b7⟩ := blank_fields hb
      have hval : ((o.preprocess ∘ (fun x => { x with bufferIndex := b }) ∘ fun x : AVPacket =>
          { x with data := data, dts := dts, pts := pts, key := key, packetType := s1.getPackType, codecID := id, index := t.index,
                   timebase := t.timebase, mediaType := mediaVideo }) x : AVPacket) =
          o.preprocess { data := data, pts := pts, dts := dts, key := key, codecID := id, index := t.index, timebase := t.timebase
                         mediaType := mediaVideo, packetType := s1.getPackType, bufferIndex := b } := by
        cases x
        simp only at b2 b4 b5 b6 b7
        subst b2 b4 b5 b6 b7
        rfl
      rw [hval] at h2
      rw [← modify_twice, ← modify_twice] at h2
      have h3 := h2.rebase (s1.call [.accepted (o.preprocess { data := data, pts := pts, dts := dts, key := key, codecID := id, index := t.index, timebase := t.timebase
                                                               mediaType := mediaVideo, packetType := s1.getPackType, bufferIndex := b })])
      obtain ⟨f, hf, hag⟩ := process_sim ho h3
      refine ⟨f, hf, ?_⟩
      have := hag (o.values f 0) rfl rfl
      have hx := idx_eq_ok.2 (show ((((d.shared.pool.newVideoPacket o.pick data dts pts key s1.getPackType id t.index t.timebase).2).modify
          (d.shared.pool.newVideoPacket o.pick data dts pts key s1.getPackType id t.index t.timebase).1 fun x => { x with bufferIndex := b }).modify
          (d.shared.pool.newVideoPacket o.pick data dts pts key s1.getPackType id t.index t.timebase).1 o.preprocess).objs[(d.shared.pool.newVideoPacket o.pick data dts pts key s1.getPackType id t.index t.timebase).1]? = _ by
        have := h2.rest
        simp only [List.map_cons, List.map_nil, List.cons.injEq, and_true] at this
        exact this)
      have e : idx ((ObjDemuxer.modify { d with base := s1, shared := { d.shared with pool := (d.shared.pool.newVideoPacket o.pick data dts pts key s1.getPackType id t.index t.timebase).2 } }
          (d.shared.pool.newVideoPacket o.pick data dts pts key s1.getPackType id t.index t.timebase).1 fun x => { x with bufferIndex := b }).modify
          (d.shared.pool.newVideoPacket o.pick data dts pts key s1.getPackType id t.index t.timebase).1 o.preprocess).shared.pool.objs
          (d.shared.pool.newVideoPacket o.pick data dts pts key s1.getPackType id t.index t.timebase).1 = _ := hx
      rw [e, ok_bind]
      exact this

theorem try_sim {o : ObjOracle} (ho : o.Valid) {d : ObjDemuxer} {ts : List Row} {s : Demuxer} (h : ObjSim K d ts [] [] s) :
    ∃ f, SortOk f ∧ Agrees K (d.tryCompleteProbe o) (s.tryCompleteProbe (o.values f 0)) := by
  have ex : SortOk exOracle.sort := ⟨exOracle_valid.sortPerm, exOracle_valid.sorted⟩
  have ht : s.tracks = d.base.tracks := h.fields.2.1
  have hz : ∀ i : Int, (d.queues.zipIdx.any fun (q, j) => (j : Int) = i ∧ q.size < 2) = s.packets.zipIdx.any fun (q, j) => (j : Int) = i ∧ q.length < 2 := by
    intro i
    rw [h.queues, h.packets, List.zipIdx_map, List.zipIdx_map, List.any_map, List.any_map]
    rw [Bool.eq_iff_iff, List.any_eq_true, List.any_eq_true]
    refine exists_congr fun e => and_congr_right fun he => ?_
    obtain ⟨t, j⟩ := e
    have hm : t ∈ ts := List.fst_mem_of_mem_zipIdx he
    have hr := h.rows t hm
    have : t.q.size = t.vs.length := by rw [LRel_size hr.1, hr.len]
    simp [this]
  unfold ObjDemuxer.tryCompleteProbe Demuxer.tryCompleteProbe
  dsimp only
  simp only [ht, hz]
  split
  · exact ⟨_, ex, ts, h⟩
  · obtain ⟨f, hf, hag⟩ := complete_sim ho h
    exact ⟨f, hf, hag _ rfl rfl⟩

/-- One operation. -/
theorem step_sim {o : ObjOracle} (ho : o.Valid) {d : ObjDemuxer} {ts : List Row} {s : Demuxer} (h : ObjSim K d ts [] [] s) (e : DemuxOp) :
    ∃ f t, SortOk f ∧ (t = 0 ∨ t = packNone) ∧ Agrees K (d.step o e) (e.run (o.values f t) s) := by
  have ex : SortOk exOracle.sort := ⟨exOracle_valid.sortPerm, exOracle_valid.sorted⟩
  have h := h.others ho
  unfold ObjDemuxer.step
  dsimp only
  generalize d.others o none = d at h
  have hput := h.put
  cases e with
  | findBufferIndex m =>
    refine ⟨_, 0, ex, Or.inl rfl, ts, ?_⟩
    rw [hput, Demuxer.put_findBufferIndex]
    exact h.rebase _
  | newAudioTrack b id tb x c =>
    refine ⟨_, 0, ex, Or.inl rfl, ?_⟩
    have e : s.onNewAudioTrack b id tb x c = putR s.packets <$> d.base.onNewAudioTrack b id tb x c := by
      conv_lhs => rw [hput]
      exact Demuxer.put_onNewAudioTrack ..
    simp only [DemuxOp.run, e]
    cases d.base.onNewAudioTrack b id tb x c with
    | ok r => exact ⟨ts, h.rebase r.2⟩
    | err m => trivial
    | panic => trivial
  | newVideoTrack b id tb x =>
    refine ⟨exOracle.sort, 0, ex, Or.inl rfl, ?_⟩
    have e : s.onNewVideoTrack (o.values exOracle.sort 0) b id tb x = putR s.packets <$> d.base.onNewVideoTrack o.toOracle b id tb x := by
      conv_lhs => rw [hput]
      exact Demuxer.put_onNewVideoTrack ..
    simp only [DemuxOp.run, e]
    cases d.base.onNewVideoTrack o.toOracle b id tb x with
    | ok r => exact ⟨ts, h.rebase r.2⟩
    | err m => trivial
    | panic => trivial
  | audioPacket b id data time => exact audio_sim ho h b id data time
  | videoPacket b id data key dts pts =>
    obtain ⟨f, hf, hag⟩ := video_sim ho h b id data key dts pts
    exact ⟨f, 0, hf, Or.inl rfl, hag⟩
  | probeComplete =>
    obtain ⟨f, hf, hag⟩ := complete_sim ho h
    exact ⟨f, 0, hf, Or.inl rfl, hag _ rfl rfl⟩
  | tryCompleteProbe =>
    obtain ⟨f, hf, hag⟩ := try_sim ho h
    exact ⟨f, 0, hf, Or.inl rfl, hag⟩
  | setProbeDuration n =>
    refine ⟨_, 0, ex, Or.inl rfl, ts, ?_⟩
    rw [hput]
    exact h.rebase _

/-- A history. -/
theorem run_sim (H : List (ObjOracle × DemuxOp)) : ∀ {d : ObjDemuxer} {ts : List Row} {s : Demuxer}, (∀ x ∈ H, x.1.Valid) → ObjSim K d ts [] [] s →
    ∃ h : List (Oracle × DemuxOp), h.map Prod.snd = H.map Prod.snd ∧ (∀ x ∈ h, x.1.Valid ∧ (x.1.audioType = 0 ∨ x.1.audioType = packNone)) ∧
      Agrees K (d.run H) (runDemux s h) := by
  induction H with
  | nil => intro d ts s _ h; exact ⟨[], rfl, by simp, ts, h⟩
  | cons x H ih =>
    intro d ts s hv h
    obtain ⟨o, e⟩ := x
    have ho : o.Valid := hv (o, e) (List.mem_cons_self ..)
    obtain ⟨f, t, hf, ht, hag⟩ := step_sim ho h e
    have hhead : (o.values f t).Valid ∧ ((o.values f t).audioType = 0 ∨ (o.values f t).audioType = packNone) :=
      ⟨ObjOracle.values_valid ho hf t, ht⟩
    cases hd : d.step o e with
    | ok d1 =>
      rw [hd] at hag
      cases hs : e.run (o.values f t) s with
      | ok s1 =>
        rw [hs] at hag
        obtain ⟨ts1, h1⟩ := hag
        obtain ⟨hist, q1, q2, q3⟩ := ih (fun x hx => hv x (List.mem_cons_of_mem _ hx)) h1
        refine ⟨(o.values f t, e) :: hist, by simp [q1], ?_, ?_⟩
        · intro x hx
          rcases List.mem_cons.1 hx with rfl | hx
          · exact hhead
          · exact q2 x hx
        · simp only [ObjDemuxer.run, runDemux, hd, hs, ok_bind]
          exact q3
      | err m => rw [hs] at hag; exact hag.elim
      | panic => rw [hs] at hag; exact hag.elim
    | err m =>
      rw [hd] at hag
      cases hs : e.run (o.values f t) s with
      | ok s1 => rw [hs] at hag; exact hag.elim
      | err m' =>
        refine ⟨(o.values f t, e) :: H.map fun x => (exOracle, x.2), by simp, ?_, ?_⟩
        · intro x hx
          rcases List.mem_cons.1 hx with rfl | hx
          · exact hhead
          · obtain ⟨y, _, rfl⟩ := List.mem_map.1 hx
            exact ⟨exOracle_valid, Or.inl rfl⟩
        · simp only [ObjDemuxer.run, runDemux, hd, hs, err_bind]
          trivial
      | panic => rw [hs] at hag; exact hag.elim
    | panic =>
      rw [hd] at hag
      cases hs : e.run (o.values f t) s with
      | ok s1 => rw [hs] at hag; exact hag.elim
      | err m' => rw [hs] at hag; exact hag.elim
      | panic =>
        refine ⟨(o.values f t, e) :: H.map fun x => (exOracle, x.2), by simp, ?_, ?_⟩
        · intro x hx
          rcases List.mem_cons.1 hx with rfl | hx
          · exact hhead
          · obtain ⟨y, _, rfl⟩ := List.mem_map.1 hx
            exact ⟨exOracle_valid, Or.inl rfl⟩
        · simp only [ObjDemuxer.run, runDemux, hd, hs, panic_bind]
          trivial

end Avf
