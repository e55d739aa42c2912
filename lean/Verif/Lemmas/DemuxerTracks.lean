import Verif.Lemmas.DemuxerOps
import Verif.Lemmas.Tracks
import Verif.Spec.DemuxerTracks
import Verif.Props.Codec
import Verif.Props.StartCode
/-! # Lemmas: which tracks an operation makes, and that it does not panic -/
namespace Avf
open Go
namespace Demuxer

/-! ## Tracks change by tuning only, except for new ones -/

/-- Only the sample rate of PCM and the bit rate of G.726 differ. -/
def Fine (a b : AVStream) : Prop :=
  Tuned a b ∧ (a.codecID ≠ codecPCMS16LE → b.sampleRate = a.sampleRate) ∧ (a.codecID ≠ codecG726 → b.bitRate = a.bitRate)

theorem Fine.refl (a : AVStream) : Fine a a := ⟨Tuned.refl a, fun _ => rfl, fun _ => rfl⟩

theorem retune_fine (u : Int) (qs : List (List AVPacket)) (t : AVStream) : Fine t (retune u qs t) := by
  refine ⟨retune_tuned u qs t, fun h => ?_, fun h => ?_⟩
  · have e : pcmTune u qs t = t := by
      unfold pcmTune
      split
      · rfl
      · rename_i hn; exact absurd (Or.inr h) hn
    unfold retune
    rw [e]
    unfold g726Tune
    split
    · rfl
    · split <;> rfl
  · unfold retune
    have e : (pcmTune u qs t).codecID = t.codecID ∧ (pcmTune u qs t).bitRate = t.bitRate := by
      unfold pcmTune; split <;> exact ⟨rfl, rfl⟩
    unfold g726Tune
    rw [if_pos (Or.inr (by rw [e.1]; exact h)), e.2]

def TunedTo (s s' : Demuxer) : Prop := List.Forall₂ Fine s.tracks.tracks s'.tracks.tracks

theorem forall₂_tuned_refl (l : List AVStream) : List.Forall₂ Fine l l := by
  induction l with
  | nil => exact .nil
  | cons a l ih => exact .cons (Fine.refl a) ih

theorem fine_map (l : List AVStream) (f : AVStream → AVStream) (hf : ∀ t, Fine t (f t)) : List.Forall₂ Fine l (l.map f) := by
  induction l with
  | nil => exact .nil
  | cons a l ih => exact .cons (hf a) ih

theorem TunedTo.refl (s : Demuxer) : TunedTo s s := forall₂_tuned_refl _

theorem forwardPacket_tracks {s s' : Demuxer} {p : AVPacket} (h : s.forwardPacket p = ok s') : s'.tracks = s.tracks := by
  unfold forwardPacket at h
  dsimp only at h
  split at h
  · split at h
    · cases h
    · cases h; rfl
  · cases h; rfl

theorem forwardAll_tracks {ps : List AVPacket} {s s' : Demuxer} (h : s.forwardAll ps = ok s') : s'.tracks = s.tracks := by
  induction ps generalizing s with
  | nil => cases h; rfl
  | cons p ps ih =>
    obtain ⟨s1, h1, h2⟩ := bind_eq_ok.1 h
    rw [ih h2, forwardPacket_tracks h1]

theorem onProbeComplete_tuned {o : Oracle} {s s' : Demuxer} (h : s.onProbeComplete o = ok s') : TunedTo s s' := by
  unfold onProbeComplete at h
  split at h
  · cases h; exact TunedTo.refl _
  · dsimp only at h
    split at h
    · cases h; exact TunedTo.refl _
    · rw [prepare_eq, ok_bind] at h
      have := forwardAll_tracks h
      unfold TunedTo
      rw [this]
      exact fine_map _ _ (retune_fine _ _)

theorem enqueue_tuned {o : Oracle} {s s' : Demuxer} {i : Int} {p : AVPacket} (h : s.enqueue o i p = ok s') : TunedTo s s' := by
  unfold enqueue at h
  obtain ⟨q, _, h⟩ := bind_eq_ok.1 h
  dsimp only at h
  split at h
  · cases h; exact TunedTo.refl _
  · obtain ⟨pp, _, h⟩ := bind_eq_ok.1 h
    split at h
    · obtain ⟨x, _, h⟩ := bind_eq_ok.1 h
      have := forwardPacket_tracks h
      unfold TunedTo
      rw [this]; exact forall₂_tuned_refl _
    · split at h
      · have := onProbeComplete_tuned h; exact this
      · cases h; exact TunedTo.refl _

theorem process_tuned {o : Oracle} {s s' : Demuxer} {p : AVPacket} (h : s.processBufferedPacket o p = ok s') : TunedTo s s' := by
  unfold processBufferedPacket at h
  split at h
  · exact enqueue_tuned h
  · have := enqueue_tuned h; exact this

/-- A stream made by `createAudioTrack`. -/
def AudioMade (s : Demuxer) (id tb : Int) (e : Option Bytes) (c : AudioConfig) (u : AVStream) : Prop :=
  ∃ c' : AudioConfig, u = { toAudioConfig := c', mediaType := mediaAudio, index := s.tracks.size, codecID := id, timebase := tb
                            data := e.getD [] } ∧
    (id = codecAAC ∧ c.hasADTSHeader = false →
      ∃ m, parseMpeg4AudioConfig (e.getD []) = ok m ∧ c' = { c with sampleRate := m.sampleRate, channels := m.channels }) ∧
    (¬ (id = codecAAC ∧ c.hasADTSHeader = false) → c' = c)

/-- A stream made by `createVideoTrack`. -/
def VideoMade (o : Oracle) (s : Demuxer) (id tb : Int) (e : Option Bytes) (u : AVStream) : Prop :=
  ∃ config, generateVideoCodecData o.undef o.grow s.getPackType id (e.getD []) = ok config ∧
    u = { mediaType := mediaVideo, index := s.tracks.size, codecID := id, data := e.getD [], codecParameters := config, timebase := tb }

/-- The track that one operation makes. -/
inductive Made (o : Oracle) (s : Demuxer) : DemuxOp → AVStream → Prop where
  | audio (b id : Int) (d : Bytes) (ts tb skip : Int) (e : Option Bytes) (c : AudioConfig) (u : AVStream)
      (hx : extractAudioExtraData id d = ok (e, skip, c)) (ht : s.getTimebase = ok tb) (hu : AudioMade s id tb e c u) :
      Made o s (.audioPacket b id d ts) u
  | video (b id : Int) (d e : Bytes) (k : Bool) (dts pts tb : Int) (u : AVStream) (hk : s.getPackType = packAnnexB)
      (hx : s.videoExtraData id d k = ok (some e)) (ht : s.getTimebase = ok tb) (hu : VideoMade o s id tb (some e) u) :
      Made o s (.videoPacket b id d k dts pts) u
  | newAudio (b id tb : Int) (e : Option Bytes) (c : AudioConfig) (u : AVStream) (hu : AudioMade s id tb e c u) :
      Made o s (.newAudioTrack b id tb e c) u
  | newVideo (b id tb : Int) (e : Option Bytes) (u : AVStream) (hu : VideoMade o s id tb e u) :
      Made o s (.newVideoTrack b id tb e) u

theorem register_cases (s : Demuxer) (b : Int) (t : AVStream) :
    (s.register b t = (none, s) ∧ s.completed = true) ∨
    (s.completed = false ∧ (s.register b t).1 = some t ∧ (s.register b t).2.tracks.tracks = s.tracks.tracks ++ [t] ∧
      (s.register b t).2.name = s.name ∧ (s.register b t).2.completed = false) := by
  unfold register addTrack
  cases hc : s.completed with
  | true => left; simp
  | false => right; simp [TrackManager.add]

/-- No new track, or `u` behind the others. -/
def Grown (s s' : Demuxer) (t : Option AVStream) (P : AVStream → Prop) : Prop :=
  (t = none ∧ s' = s) ∨ ∃ u, t = some u ∧ P u ∧ s.completed = false ∧ s'.tracks.tracks = s.tracks.tracks ++ [u] ∧ s'.name = s.name

theorem register_grown {s s' : Demuxer} {b : Int} {t0 : AVStream} {t : Option AVStream} {P : AVStream → Prop} (hP : P t0)
    (h : (ok (s.register b t0) : Go (Option AVStream × Demuxer)) = ok (t, s')) : Grown s s' t P := by
  injection h with h
  rcases register_cases s b t0 with ⟨e, _⟩ | ⟨hc, e1, e2, e3, _⟩
  · rw [e] at h; cases h; exact Or.inl ⟨rfl, rfl⟩
  · rw [h] at e1 e2 e3
    exact Or.inr ⟨t0, e1, hP, hc, e2, e3⟩

theorem createAudio_grown {s s' : Demuxer} {b id tb : Int} {e : Option Bytes} {c : AudioConfig} {t : Option AVStream}
    (h : s.createAudioTrack b id tb e c = ok (t, s')) : Grown s s' t (AudioMade s id tb e c) := by
  unfold createAudioTrack at h
  dsimp only at h
  split at h
  · rename_i hc
    have hc' : id = codecAAC ∧ c.hasADTSHeader = false := by simpa using hc
    split at h
    · cases h
    · rename_i data
      split at h
      · cases h; exact Or.inl ⟨rfl, rfl⟩
      · cases h
      · rename_i m hm
        refine register_grown ?_ h
        exact ⟨_, rfl, fun _ => ⟨m, hm, rfl⟩, fun hn => absurd hc' hn⟩
  · rename_i hc
    have hc' : ¬ (id = codecAAC ∧ c.hasADTSHeader = false) := by simpa using hc
    refine register_grown ?_ h
    exact ⟨c, rfl, fun hy => absurd hy hc', fun _ => rfl⟩

theorem createVideo_grown {o : Oracle} {s s' : Demuxer} {b id tb : Int} {e : Option Bytes} {t : Option AVStream}
    (h : s.createVideoTrack o b id tb e = ok (t, s')) : Grown s s' t (VideoMade o s id tb e) := by
  unfold createVideoTrack at h
  dsimp only at h
  split at h
  · cases h; exact Or.inl ⟨rfl, rfl⟩
  · cases h
  · rename_i config hg
    exact register_grown ⟨config, hg, rfl⟩ h

/-- Tracks before and after one operation. -/
def Tracks (o : Oracle) (s s' : Demuxer) (e : DemuxOp) : Prop :=
  s'.name = s.name ∧ (TunedTo s s' ∨
    ∃ u, Made o s e u ∧ s.completed = false ∧ List.Forall₂ Fine (s.tracks.tracks ++ [u]) s'.tracks.tracks)

theorem Stays.name' {s s' : Demuxer} (h : Stays s s') : s'.name = s.name := by
  have := Stays.keeps h
  unfold Keeps at this
  simp only [Prod.mk.injEq] at this
  exact this.2.1

theorem Grown.tracks {o : Oracle} {s s1 s' : Demuxer} {t : Option AVStream} {P : AVStream → Prop} {e : DemuxOp}
    (h : Grown s s1 t P) (hP : ∀ u, P u → Made o s e u) (hn : s'.name = s1.name) (ht : TunedTo s1 s') : Tracks o s s' e := by
  rcases h with ⟨_, rfl⟩ | ⟨u, _, hu, hc, e1, e2⟩
  · exact ⟨hn, Or.inl ht⟩
  · refine ⟨hn.trans e2, Or.inr ⟨u, hP u hu, hc, ?_⟩⟩
    unfold TunedTo at ht
    rw [e1] at ht
    exact ht

theorem run_tracks {o : Oracle} {s s' : Demuxer} {e : DemuxOp} (hr : e.run o s = ok s') : Tracks o s s' e := by
  cases e with
  | findBufferIndex m =>
    simp only [DemuxOp.run, Go.ok.injEq] at hr
    unfold findBufferIndex at hr
    split at hr <;> (cases hr; exact ⟨rfl, Or.inl (TunedTo.refl _)⟩)
  | setProbeDuration n => cases hr; exact ⟨rfl, Or.inl (TunedTo.refl _)⟩
  | probeComplete => exact ⟨Stays.name' (onProbeComplete_stays hr), Or.inl (onProbeComplete_tuned hr)⟩
  | tryCompleteProbe =>
    simp only [DemuxOp.run] at hr
    unfold Demuxer.tryCompleteProbe at hr
    dsimp only at hr
    split at hr
    · cases hr; exact ⟨rfl, Or.inl (TunedTo.refl _)⟩
    · exact ⟨Stays.name' (onProbeComplete_stays hr), Or.inl (onProbeComplete_tuned hr)⟩
  | newAudioTrack b id tb e c =>
    simp only [DemuxOp.run] at hr
    unfold onNewAudioTrack at hr
    obtain ⟨⟨t, s1⟩, h1, hr⟩ := bind_eq_ok.1 hr
    obtain ⟨⟨t2, s2⟩, h2, h1⟩ := bind_eq_ok.1 h1
    have hg : Grown s s2 t2 (AudioMade s id tb e c) := by
      split at h2
      · exact createAudio_grown h2
      · cases h2; exact Or.inl ⟨rfl, rfl⟩
    cases hr
    dsimp only at h1
    split at h1 <;> (cases h1; exact hg.tracks (fun u hu => .newAudio b id tb e c u hu) rfl (TunedTo.refl _))
  | newVideoTrack b id tb e =>
    simp only [DemuxOp.run] at hr
    unfold onNewVideoTrack at hr
    obtain ⟨⟨t, s1⟩, h1, hr⟩ := bind_eq_ok.1 hr
    obtain ⟨⟨t2, s2⟩, h2, h1⟩ := bind_eq_ok.1 h1
    have hg : Grown s s2 t2 (VideoMade o s id tb e) := by
      split at h2
      · exact createVideo_grown h2
      · cases h2; exact Or.inl ⟨rfl, rfl⟩
    cases hr
    dsimp only at h1
    split at h1 <;> (cases h1; exact hg.tracks (fun u hu => .newVideo b id tb e u hu) rfl (TunedTo.refl _))
  | audioPacket b id d ts =>
    simp only [DemuxOp.run] at hr
    unfold onAudioPacket at hr
    obtain ⟨t0, h0, hr⟩ := bind_eq_ok.1 hr
    obtain ⟨⟨t, s1⟩, h1, hr⟩ := bind_eq_ok.1 hr
    have hfin : s'.name = s1.name ∧ TunedTo s1 s' := by
      dsimp only at hr
      split at hr
      · cases hr; exact ⟨rfl, TunedTo.refl _⟩
      · have hs := Stays.name' (process_stays hr)
        have ht := process_tuned hr
        exact ⟨hs, ht⟩
    split at h1
    · split at h1
      · cases h1; exact ⟨hfin.1, Or.inl hfin.2⟩
      · cases h1
      · rename_i x e skip c hx
        obtain ⟨tb, htb, h1⟩ := bind_eq_ok.1 h1
        exact (createAudio_grown h1).tracks (fun u hu => .audio b id d ts tb skip e c u hx htb hu) hfin.1 hfin.2
    · cases h1; exact ⟨hfin.1, Or.inl hfin.2⟩
  | videoPacket b id d k dts pts =>
    simp only [DemuxOp.run] at hr
    unfold onVideoPacket at hr
    obtain ⟨t0, h0, hr⟩ := bind_eq_ok.1 hr
    obtain ⟨⟨t, s1⟩, h1, hr⟩ := bind_eq_ok.1 hr
    have hfin : s'.name = s1.name ∧ TunedTo s1 s' := by
      dsimp only at hr
      split at hr
      · cases hr; exact ⟨rfl, TunedTo.refl _⟩
      · have hs := Stays.name' (process_stays hr)
        have ht := process_tuned hr
        exact ⟨hs, ht⟩
    split at h1
    · rename_i hcond
      obtain ⟨ex, hex, h1⟩ := bind_eq_ok.1 h1
      split at h1
      · rename_i e
        obtain ⟨tb, htb, h1⟩ := bind_eq_ok.1 h1
        exact (createVideo_grown h1).tracks (fun u hu => .video b id d e k dts pts tb u hcond.2.2 hex htb hu) hfin.1 hfin.2
      · cases h1; exact ⟨hfin.1, Or.inl hfin.2⟩
    · cases h1; exact ⟨hfin.1, Or.inl hfin.2⟩

theorem forall₂_mem {α : Type} {R : α → α → Prop} {l l' : List α} (h : List.Forall₂ R l l') {b : α} (hb : b ∈ l') :
    ∃ a ∈ l, R a b := by
  induction h with
  | nil => cases hb
  | cons hr _ ih =>
    rcases List.mem_cons.1 hb with rfl | hb
    · exact ⟨_, List.mem_cons_self .., hr⟩
    · obtain ⟨a, ha, hr'⟩ := ih hb
      exact ⟨a, List.mem_cons_of_mem _ ha, hr'⟩

/-- What holds of every new track and does not depend on measured rates holds of all tracks. -/
theorem runDemux_tracks {P : AVStream → Prop} (hP : ∀ a b, Fine a b → P a → P b) {s s' : Demuxer} {l : List (Oracle × DemuxOp)}
    (hm : ∀ x ∈ l, ∀ s1 u, s1.name = s.name → (∀ t ∈ s1.tracks.tracks, P t) → Made x.1 s1 x.2 u → P u)
    (h0 : ∀ t ∈ s.tracks.tracks, P t) (hr : runDemux s l = ok s') : ∀ t ∈ s'.tracks.tracks, P t := by
  induction l generalizing s with
  | nil => cases hr; exact h0
  | cons x l ih =>
    obtain ⟨o, e⟩ := x
    obtain ⟨s1, h1, hr⟩ := bind_eq_ok.1 hr
    obtain ⟨hn, ht⟩ := run_tracks h1
    refine ih (fun y hy s2 u hs2 => hm y (List.mem_cons_of_mem _ hy) s2 u (hs2.trans hn)) ?_ hr
    intro t htm
    rcases ht with ht | ⟨u, hu, _, ht⟩
    · obtain ⟨a, ha, hf⟩ := forall₂_mem ht htm
      exact hP a t hf (h0 a ha)
    · obtain ⟨a, ha, hf⟩ := forall₂_mem ht htm
      refine hP a t hf ?_
      rcases List.mem_append.1 ha with ha | ha
      · exact h0 a ha
      · rw [List.mem_singleton] at ha
        subst ha
        exact hm _ (List.mem_cons_self ..) s _ rfl h0 hu

end Demuxer
end Avf
