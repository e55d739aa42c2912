import Verif.Lemmas.DemuxerFatal
import Verif.Model.DemuxerPanics
import Verif.Spec.DemuxerPanics
/-! # Helper lemmas for C100 and C101: the demuxer with the states that panics leave -/
namespace Avf
open Go

/-- A `Go` computation that leaves `s` when it panics. -/
def Outcome.ofGo {α : Type} (s : Demuxer) : Go (α × Demuxer) → Outcome α
  | .ok (a, s') => .done a s'
  | _ => .panicked s

namespace DM

theorem bind_apply {α β : Type} (x : DM α) (f : α → DM β) (s : Demuxer) :
    (x >>= f) s = match x s with
      | .done a s => f a s
      | .panicked s => .panicked s := rfl

theorem pure_apply {α : Type} (a : α) (s : Demuxer) : (pure a : DM α) s = .done a s := rfl

theorem get_bind {β : Type} (f : Demuxer → DM β) (s : Demuxer) : (get >>= f) s = f s s := rfl

theorem modify_bind {β : Type} (g : Demuxer → Demuxer) (f : Unit → DM β) (s : Demuxer) : (modify g >>= f) s = f () (g s) := rfl

theorem compute_bind {α β : Type} (x : Go α) (f : α → DM β) (s : Demuxer) :
    (compute x >>= f) s = match x with
      | .ok a => f a s
      | _ => .panicked s := by
  cases x <;> rfl

theorem tell_none (c : Call) (s : Demuxer) : tell .none c s = .done () (s.call [c]) := rfl

end DM

namespace Demuxer
open DM

theorem createAudioTrackP_eq (b id tb : Int) (e : Option Bytes) (c : AudioConfig) (s : Demuxer) :
    createAudioTrackP b id tb e c s = .ofGo s (s.createAudioTrack b id tb e c) := by
  unfold createAudioTrackP createAudioTrack
  rw [get_bind]
  dsimp only
  split
  · cases e with
    | none => rfl
    | some d => dsimp only; cases parseMpeg4AudioConfig d <;> rfl
  · rfl

theorem createVideoTrackP_eq (o : Oracle) (b id tb : Int) (e : Option Bytes) (s : Demuxer) :
    createVideoTrackP o b id tb e s = .ofGo s (s.createVideoTrack o b id tb e) := by
  unfold createVideoTrackP createVideoTrack
  rw [get_bind]
  dsimp only
  cases generateVideoCodecData o.undef o.grow s.getPackType id (e.getD []) <;> rfl

theorem onNewAudioTrackP_eq (b id tb : Int) (e : Option Bytes) (c : AudioConfig) (s : Demuxer) :
    onNewAudioTrackP b id tb e c s = .ofGo s (s.onNewAudioTrack b id tb e c) := by
  unfold onNewAudioTrackP onNewAudioTrack
  rw [get_bind]
  dsimp only
  rw [bind_apply]
  by_cases hc : (s.tracks.findTrackWithType mediaAudio).isNone = true ∨ s.name = "ts"
  · rw [if_pos hc, if_pos hc, createAudioTrackP_eq]
    cases s.createAudioTrack b id tb e c with
    | ok x => obtain ⟨t, s'⟩ := x; rw [ok_bind]; dsimp only [Outcome.ofGo]; split <;> rfl
    | err m => rfl
    | panic => rfl
  · rw [if_neg hc, if_neg hc, ok_bind, pure_apply]; dsimp only; split <;> rfl

theorem onNewVideoTrackP_eq (o : Oracle) (b id tb : Int) (e : Option Bytes) (s : Demuxer) :
    onNewVideoTrackP o b id tb e s = .ofGo s (s.onNewVideoTrack o b id tb e) := by
  unfold onNewVideoTrackP onNewVideoTrack
  rw [get_bind]
  dsimp only
  rw [bind_apply]
  by_cases hc : (s.tracks.findTrackWithType mediaVideo).isNone = true ∨ s.name = "ts"
  · rw [if_pos hc, if_pos hc, createVideoTrackP_eq]
    cases s.createVideoTrack o b id tb e with
    | ok x => obtain ⟨t, s'⟩ := x; rw [ok_bind]; dsimp only [Outcome.ofGo]; split <;> rfl
    | err m => rfl
    | panic => rfl
  · rw [if_neg hc, if_neg hc, ok_bind, pure_apply]; dsimp only; split <;> rfl

/-- The track of an audio packet, as part of `onAudioPacket`. -/
def audioFront (o : Oracle) (s : Demuxer) (b id : Int) (d : Bytes) : Go (Option AVStream × Demuxer) := do
  let track ← s.findTrackByBufferIndex o b
  if ¬ s.completed ∧ track = none then
    match extractAudioExtraData id d with
    | .err _ => ok (none, s)
    | .panic => panic
    | .ok (extraData, _, config) => do
      let timebase ← s.getTimebase
      s.createAudioTrack b id timebase extraData config
  else ok (track, s)

/-- The track of a video packet, as part of `onVideoPacket`. -/
def videoFront (o : Oracle) (s : Demuxer) (b id : Int) (d : Bytes) (k : Bool) : Go (Option AVStream × Demuxer) := do
  let track ← s.findTrackByBufferIndex o b
  if track = none ∧ ¬ s.completed ∧ s.getPackType = packAnnexB then do
    match ← s.videoExtraData id d k with
    | some e => do
      let timebase ← s.getTimebase
      s.createVideoTrack o b id timebase (some e)
    | none => ok (none, s)
  else ok (track, s)

theorem onAudioPacket_front (o : Oracle) (s : Demuxer) (b id : Int) (d : Bytes) (ts : Int) :
    s.onAudioPacket o b id d ts = audioFront o s b id d >>= fun r => match r.1 with
      | none => ok (r.2.call [.discardBack b])
      | some t => (r.2.call [.accepted (audioPkt o b id d ts t)]).processBufferedPacket o (audioPkt o b id d ts t) := by
  unfold onAudioPacket audioFront
  cases s.findTrackByBufferIndex o b <;> rfl

theorem onVideoPacket_front (o : Oracle) (s : Demuxer) (b id : Int) (d : Bytes) (k : Bool) (dts pts : Int) :
    s.onVideoPacket o b id d k dts pts = videoFront o s b id d k >>= fun r => match r.1 with
      | none => ok (r.2.call [.discardBack b])
      | some t => (r.2.call [.accepted (o.preprocess (videoPkt r.2 b id d k dts pts t))]).processBufferedPacket o
          (o.preprocess (videoPkt r.2 b id d k dts pts t)) := by
  unfold onVideoPacket videoFront
  cases s.findTrackByBufferIndex o b <;> rfl

theorem audioTrackP_eq (o : Oracle) (b id : Int) (d : Bytes) (s : Demuxer) :
    audioTrackP o b id d s = .ofGo s (audioFront o s b id d) := by
  unfold audioTrackP audioFront
  rw [get_bind, compute_bind]
  cases s.findTrackByBufferIndex o b with
  | err m => rfl
  | panic => rfl
  | ok t =>
    rw [ok_bind]
    dsimp only
    split
    · cases extractAudioExtraData id d with
      | err m => rfl
      | panic => rfl
      | ok x =>
        obtain ⟨e, _, c⟩ := x
        dsimp only
        rw [compute_bind]
        cases s.getTimebase with
        | err m => rfl
        | panic => rfl
        | ok tb => rw [ok_bind]; exact createAudioTrackP_eq b id tb e c s
    · rfl

theorem videoTrackP_eq (o : Oracle) (b id : Int) (d : Bytes) (k : Bool) (s : Demuxer) :
    videoTrackP o b id d k s = .ofGo s (videoFront o s b id d k) := by
  unfold videoTrackP videoFront
  rw [get_bind, compute_bind]
  cases s.findTrackByBufferIndex o b with
  | err m => rfl
  | panic => rfl
  | ok t =>
    rw [ok_bind]
    dsimp only
    split
    · rw [compute_bind]
      cases s.videoExtraData id d k with
      | err m => rfl
      | panic => rfl
      | ok x =>
        rw [ok_bind]
        cases x with
        | none => rfl
        | some e =>
          dsimp only
          rw [compute_bind]
          cases s.getTimebase with
          | err m => rfl
          | panic => rfl
          | ok tb => rw [ok_bind]; exact createVideoTrackP_eq o b id tb (some e) s
    · rfl

/-! ## Nobody panics -/

theorem forwardPacketP_none {s s' : Demuxer} {p : AVPacket} (h : s.forwardPacket p = ok s') :
    forwardPacketP .none p s = .done () s' := by
  unfold forwardPacket at h
  unfold forwardPacketP
  rw [bind_apply, tell_none]
  dsimp only at h ⊢
  rw [get_bind]
  split at h
  next hf =>
    rw [if_pos hf]
    split at h
    · cases h
    next b hb => rw [hb]; cases h; rfl
  next hf => rw [if_neg hf]; cases h; rfl

theorem forwardAllP_none {ps : List AVPacket} : ∀ {s s' : Demuxer}, s.forwardAll ps = ok s' → forwardAllP .none ps s = .done () s' := by
  induction ps with
  | nil => intro s s' h; cases h; rfl
  | cons p ps ih =>
    intro s s' h
    obtain ⟨s1, h1, h2⟩ := bind_eq_ok.1 (show (s.forwardPacket p >>= fun s => s.forwardAll ps) = ok s' from h)
    unfold forwardAllP
    rw [bind_apply, forwardPacketP_none h1]
    exact ih h2

theorem tellAll_none (cs : List Call) : ∀ s : Demuxer, tellAll .none cs s = .done () (s.call cs) := by
  induction cs with
  | nil => intro s; simp [tellAll, pure_apply, call]
  | cons c cs ih =>
    intro s
    unfold tellAll
    rw [bind_apply, tell_none]
    dsimp only
    rw [ih]
    simp [call]

theorem onProbeCompleteP_none {o : Oracle} {s s' : Demuxer} (h : s.onProbeComplete o = ok s') :
    onProbeCompleteP .none o s = .done () s' := by
  unfold onProbeComplete at h
  unfold onProbeCompleteP
  rw [get_bind]
  split at h
  next hc => rw [if_pos hc]; cases h; rfl
  next hc =>
    rw [if_neg hc, modify_bind]
    dsimp only at h
    split at h
    next ht => rw [if_pos ht]; cases h; rfl
    next ht =>
      rw [if_neg ht]
      obtain ⟨s1, h1, h2⟩ := bind_eq_ok.1 h
      rw [bind_apply, prepareTracksP, h1]
      dsimp only
      rw [get_bind, bind_apply, tellAll_none]
      dsimp only
      rw [bind_apply, tell_none]
      dsimp only
      rw [get_bind, modify_bind]
      exact forwardAllP_none h2

theorem set_set {l : List (List AVPacket)} {i : Nat} {a b : List AVPacket} : (l.set i a).set i b = l.set i b := by simp

theorem enqueueP_none {o : Oracle} {s s' : Demuxer} {i : Int} {p : AVPacket} (h : s.enqueue o i p = ok s') :
    enqueueP .none o i p s = .done () s' := by
  unfold enqueue at h
  obtain ⟨q, h1, h⟩ := bind_eq_ok.1 h
  unfold enqueueP
  rw [get_bind, compute_bind, h1]
  dsimp only at h ⊢
  rw [modify_bind]
  split at h
  next hp => rw [if_pos hp]; cases h; rfl
  next hp =>
    rw [if_neg hp]
    obtain ⟨pp, h2, h⟩ := bind_eq_ok.1 h
    rw [compute_bind, h2]
    dsimp only
    rw [modify_bind]
    simp only [set_set]
    split at h
    next hc =>
      rw [if_pos hc]
      obtain ⟨x, h3, h⟩ := bind_eq_ok.1 h
      rw [compute_bind, h3]
      dsimp only
      rw [modify_bind]
      simp only [set_set]
      exact forwardPacketP_none h
    next hc =>
      rw [if_neg hc]
      split at h
      next hd => rw [if_pos hd]; exact onProbeCompleteP_none h
      next hd => rw [if_neg hd]; cases h; rfl

theorem processP_none {o : Oracle} {s s' : Demuxer} {p : AVPacket} (h : s.processBufferedPacket o p = ok s') :
    processBufferedPacketP .none o p s = .done () s' := by
  unfold processBufferedPacket at h
  unfold processBufferedPacketP
  rw [get_bind]
  split at h
  next hi => rw [if_pos hi]; exact enqueueP_none h
  next hi => rw [if_neg hi, modify_bind]; exact enqueueP_none h

theorem audioFront_known {o : Oracle} (ho : o.Valid) {s s1 : Demuxer} (h : Inv s) {b id : Int} {d : Bytes} {t : Option AVStream}
    (hr : audioFront o s b id d = ok (t, s1)) : Inv s1 ∧ ∀ u, t = some u → s1.bufferOf.lookup u.index = some b := by
  unfold audioFront at hr
  obtain ⟨t0, e0, hk0⟩ := findTrack_known ho h (b := b)
  rw [e0, ok_bind] at hr
  split at hr
  · split at hr
    · cases hr; exact ⟨h, by simp⟩
    · cases hr
    · obtain ⟨tb, _, hr⟩ := bind_eq_ok.1 hr
      obtain ⟨m, hk⟩ := audioTrack_micros h hr
      exact ⟨h.micros m, hk⟩
  · cases hr; exact ⟨h, hk0⟩

theorem videoFront_known {o : Oracle} (ho : o.Valid) {s s1 : Demuxer} (h : Inv s) {b id : Int} {d : Bytes} {k : Bool} {t : Option AVStream}
    (hr : videoFront o s b id d k = ok (t, s1)) : Inv s1 ∧ ∀ u, t = some u → s1.bufferOf.lookup u.index = some b := by
  unfold videoFront at hr
  obtain ⟨t0, e0, hk0⟩ := findTrack_known ho h (b := b)
  rw [e0, ok_bind] at hr
  split at hr
  · obtain ⟨x, _, hr⟩ := bind_eq_ok.1 hr
    split at hr
    · obtain ⟨tb, _, hr⟩ := bind_eq_ok.1 hr
      obtain ⟨m, hk⟩ := videoTrack_micros h hr
      exact ⟨h.micros m, hk⟩
    · cases hr; exact ⟨h, by simp⟩
  · cases hr; exact ⟨h, hk0⟩

theorem audioFront_fresh {o : Oracle} (ho : o.Valid) {s : Demuxer} (h : Inv s) {b id : Int} {d : Bytes}
    (hr : ∀ x, audioFront o s b id d ≠ ok x) : b ∉ s.bufferOf.map Prod.snd := by
  obtain ⟨t0, e0, hk0⟩ := findTrack_known ho h (b := b)
  unfold audioFront at hr
  rw [e0, ok_bind] at hr
  by_cases hc : ¬ s.completed = true ∧ t0 = none
  · rw [hc.2] at e0; exact findTrack_none ho e0
  · rw [if_neg hc] at hr; exact absurd rfl (hr _)

theorem videoFront_fresh {o : Oracle} (ho : o.Valid) {s : Demuxer} (h : Inv s) {b id : Int} {d : Bytes} {k : Bool}
    (hr : ∀ x, videoFront o s b id d k ≠ ok x) : b ∉ s.bufferOf.map Prod.snd := by
  obtain ⟨t0, e0, hk0⟩ := findTrack_known ho h (b := b)
  unfold videoFront at hr
  rw [e0, ok_bind] at hr
  by_cases hc : t0 = none ∧ ¬ s.completed = true ∧ s.getPackType = packAnnexB
  · rw [hc.1] at e0; exact findTrack_none ho e0
  · rw [if_neg hc] at hr; exact absurd rfl (hr _)

/-- The state after a panic: of a packet the block has been discarded. -/
def dropped (s : Demuxer) (e : DemuxOp) : Demuxer :=
  match e.packetBuffer with
  | some b => s.call [.discardBack b]
  | none => s

/-- One operation, when only the demuxer itself may panic. -/
theorem runP_none {o : Oracle} (ho : o.Valid) {s : Demuxer} (h : Inv s) (e : DemuxOp) :
    (∃ s', e.run o s = ok s' ∧ e.runP .none o s = .done () s') ∨
    (∀ s', e.run o s ≠ ok s') ∧ e.runP .none o s = .panicked (s.dropped e) ∧
      (e.IsTrack ∨ ∃ b, e.packetBuffer = some b ∧ b ∉ s.bufferOf.map Prod.snd) := by
  cases e with
  | findBufferIndex m => exact Or.inl ⟨_, rfl, rfl⟩
  | setProbeDuration n => exact Or.inl ⟨_, rfl, rfl⟩
  | probeComplete =>
    obtain ⟨s1, e1, _⟩ := complete_micros o ho h
    exact Or.inl ⟨s1, e1, onProbeCompleteP_none e1⟩
  | tryCompleteProbe =>
    left
    simp only [DemuxOp.run, DemuxOp.runP]
    unfold Demuxer.tryCompleteProbe Demuxer.tryCompleteProbeP
    rw [get_bind]
    dsimp only
    split
    · exact ⟨_, rfl, rfl⟩
    · obtain ⟨s1, e1, _⟩ := complete_micros o ho h
      exact ⟨s1, e1, onProbeCompleteP_none e1⟩
  | newAudioTrack b id tb e c =>
    simp only [DemuxOp.run, DemuxOp.runP]
    rw [bind_apply, onNewAudioTrackP_eq]
    cases s.onNewAudioTrack b id tb e c with
    | ok x => exact Or.inl ⟨x.2, rfl, rfl⟩
    | err m => exact Or.inr ⟨fun s' h => (by cases h), rfl, Or.inl trivial⟩
    | panic => exact Or.inr ⟨fun s' h => (by cases h), rfl, Or.inl trivial⟩
  | newVideoTrack b id tb e =>
    simp only [DemuxOp.run, DemuxOp.runP]
    rw [bind_apply, onNewVideoTrackP_eq]
    cases s.onNewVideoTrack o b id tb e with
    | ok x => exact Or.inl ⟨x.2, rfl, rfl⟩
    | err m => exact Or.inr ⟨fun s' h => (by cases h), rfl, Or.inl trivial⟩
    | panic => exact Or.inr ⟨fun s' h => (by cases h), rfl, Or.inl trivial⟩
  | audioPacket b id d ts =>
    simp only [DemuxOp.run, DemuxOp.runP]
    rw [onAudioPacket_front, onAudioPacketP, bind_apply, deferred, audioTrackP_eq]
    cases hf : audioFront o s b id d with
    | ok x =>
      obtain ⟨t, s1⟩ := x
      obtain ⟨hi, hk⟩ := audioFront_known ho h hf
      rw [ok_bind]
      left
      cases t with
      | none => exact ⟨_, rfl, rfl⟩
      | some u =>
        obtain ⟨s', e', _⟩ := process_micros (s := s1) (p := audioPkt o b id d ts u) o ho hi (hk u rfl)
        exact ⟨s', e', processP_none e'⟩
    | err m => exact Or.inr ⟨fun s' h => (by cases h), rfl, Or.inr ⟨b, rfl, audioFront_fresh ho h (by rw [hf]; simp)⟩⟩
    | panic => exact Or.inr ⟨fun s' h => (by cases h), rfl, Or.inr ⟨b, rfl, audioFront_fresh ho h (by rw [hf]; simp)⟩⟩
  | videoPacket b id d k dts pts =>
    simp only [DemuxOp.run, DemuxOp.runP]
    rw [onVideoPacket_front, onVideoPacketP, bind_apply, deferred, videoTrackP_eq]
    cases hf : videoFront o s b id d k with
    | ok x =>
      obtain ⟨t, s1⟩ := x
      obtain ⟨hi, hk⟩ := videoFront_known ho h hf
      rw [ok_bind]
      left
      cases t with
      | none => exact ⟨_, rfl, rfl⟩
      | some u =>
        obtain ⟨s', e', _⟩ := process_micros (s := s1) (p := o.preprocess (videoPkt s1 b id d k dts pts u)) o ho hi
          (by unfold Known; rw [ho.index, ho.buffer]; exact hk u rfl)
        exact ⟨s', e', processP_none e'⟩
    | err m => exact Or.inr ⟨fun s' h => (by cases h), rfl, Or.inr ⟨b, rfl, videoFront_fresh ho h (by rw [hf]; simp)⟩⟩
    | panic => exact Or.inr ⟨fun s' h => (by cases h), rfl, Or.inr ⟨b, rfl, videoFront_fresh ho h (by rw [hf]; simp)⟩⟩

/-- A picture of an unknown codec that is no key frame is refused. -/
theorem unknown_refused {o : Oracle} (ho : o.Valid) {s : Demuxer} (h : Inv s) {b id : Int} (hb : b ∉ s.bufferOf.map Prod.snd)
    (hid : ∀ t ∈ s.tracks.tracks, t.codecID ≠ id) (d : Bytes) (dts pts : Int) :
    (DemuxOp.videoPacket b id d false dts pts).run o s = ok (s.call [.discardBack b]) := by
  simp only [DemuxOp.run]
  rw [onVideoPacket_front]
  have hf : videoFront o s b id d false = ok (none, s) := by
    unfold videoFront
    rw [findTrack_fresh ho h hb, ok_bind]
    split
    · have hx : s.videoExtraData id d false = ok none := by
        have hn : s.tracks.find id = none := by
          unfold TrackManager.find
          rw [search_none]
          intro t ht
          simpa using hid t ht
        unfold videoExtraData
        rw [if_neg (by simp), ok_bind, hn]
        rfl
      rw [hx]; rfl
    · rfl
  rw [hf]; rfl

/-- There is always such a codec. -/
theorem unknown_codec (s : Demuxer) : ∃ id : Int, ∀ t ∈ s.tracks.tracks, t.codecID ≠ id := by
  have key : ∀ l : List AVStream, ∃ id : Int, ∀ t ∈ l, t.codecID < id := by
    intro l
    induction l with
    | nil => exact ⟨0, by simp⟩
    | cons t l ih =>
      obtain ⟨id, h⟩ := ih
      refine ⟨max id (t.codecID + 1), fun u hu => ?_⟩
      rcases List.mem_cons.1 hu with rfl | hu
      · omega
      · have := h u hu; omega
  obtain ⟨id, h⟩ := key s.tracks.tracks
  exact ⟨id, fun t ht => by have := h t ht; omega⟩

end Demuxer
end Avf
