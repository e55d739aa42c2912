import Verif.Lemmas.DemuxerCalls
/-! # Lemmas: the shape of one operation of a demuxer -/
namespace Avf
open Go
namespace Demuxer

/-- The search for a track, and its creation, at the start of `OnAudioPacket` and `OnVideoPacket`. -/
inductive Front (s : Demuxer) (b : Int) : Option AVStream → Demuxer → Prop where
  | none (hb : b ∉ s.bufferOf.map Prod.snd) : Front s b none s
  | old (u : AVStream) (hu : u ∈ s.tracks.tracks) (hb : (u.index, b) ∈ s.bufferOf) : Front s b (some u) s
  | new (u : AVStream) (hc : s.completed = false) (hb : b ∉ s.bufferOf.map Prod.snd) (hu : u.index = s.tracks.tracks.length) :
      Front s b (some u) { s with tracks := ⟨s.tracks.tracks ++ [u]⟩, bufferOf := s.bufferOf ++ [(u.index, b)] }

theorem findTrack_front {o : Oracle} (ho : o.Valid) {s : Demuxer} (h : Inv s) {b : Int} {t : Option AVStream}
    (hf : s.findTrackByBufferIndex o b = ok t) : Front s b t s := by
  cases t with
  | none => exact .none (findTrack_none ho hf)
  | some u =>
    obtain ⟨t', e, hk⟩ := findTrack_known ho h (b := b)
    rw [hf] at e
    cases e
    have hl := hk u rfl
    refine .old u ?_ (lookup_mem hl)
    unfold findTrackByBufferIndex at hf
    split at hf
    · obtain ⟨v, hv, hf⟩ := bind_eq_ok.1 hf
      cases hf
      unfold TrackManager.get idxI at hv
      split at hv
      · cases hv
      · exact List.mem_of_getElem? (idx_eq_ok.1 hv)
    · cases hf

theorem register_front {s s1 : Demuxer} (h : Inv s) {b : Int} {t0 : AVStream} {t : Option AVStream} (hc : s.completed = false)
    (hb : b ∉ s.bufferOf.map Prod.snd) (ht : t0.index = s.tracks.tracks.length)
    (hr : (ok (s.register b t0) : Go (Option AVStream × Demuxer)) = ok (t, s1)) : Front s b t s1 := by
  injection hr with hr
  unfold register addTrack at hr
  rw [if_neg (by rw [hc]; simp)] at hr
  simp only [TrackManager.add, if_true] at hr
  cases hr
  have hm := h.mapSet b
  rw [← ht] at hm
  rw [hm]
  exact .new t0 hc hb ht

/-- The packet that `OnAudioPacket` makes. -/
def audioPkt (o : Oracle) (b id : Int) (d : Bytes) (ts : Int) (t : AVStream) : AVPacket :=
  { data := d, pts := ts, dts := ts, codecID := id, index := t.index, timebase := t.timebase, mediaType := mediaAudio
    packetType := o.audioType, bufferIndex := b }

/-- The packet that `OnVideoPacket` makes, before preprocessing. -/
def videoPkt (s : Demuxer) (b id : Int) (d : Bytes) (k : Bool) (dts pts : Int) (t : AVStream) : AVPacket :=
  { data := d, pts := pts, dts := dts, key := k, codecID := id, index := t.index, timebase := t.timebase, mediaType := mediaVideo
    packetType := s.getPackType, bufferIndex := b }

theorem audio_shape {o : Oracle} (ho : o.Valid) {s s' : Demuxer} (h : Inv s) {b id : Int} {d : Bytes} {ts : Int}
    (hr : s.onAudioPacket o b id d ts = ok s') :
    ∃ t s1, Front s b t s1 ∧ (t = none → s' = s1.call [.discardBack b]) ∧
      ∀ u, t = some u → (s1.call [.accepted (audioPkt o b id d ts u)]).processBufferedPacket o (audioPkt o b id d ts u) = ok s' := by
  unfold onAudioPacket at hr
  obtain ⟨t0, h0, hr⟩ := bind_eq_ok.1 hr
  obtain ⟨⟨t, s1⟩, h1, hr⟩ := bind_eq_ok.1 hr
  have hf0 := findTrack_front ho h h0
  have hf : Front s b t s1 := by
    split at h1
    · rename_i hcond
      obtain ⟨hc, rfl⟩ := hcond
      have hc : s.completed = false := by simpa using hc
      have hb : b ∉ s.bufferOf.map Prod.snd := findTrack_none ho h0
      split at h1
      · cases h1; exact .none hb
      · cases h1
      · obtain ⟨tb, _, h1⟩ := bind_eq_ok.1 h1
        unfold createAudioTrack at h1
        dsimp only at h1
        split at h1
        · split at h1
          · cases h1
          · split at h1
            · cases h1; exact .none hb
            · cases h1
            · exact register_front h hc hb rfl h1
        · exact register_front h hc hb rfl h1
    · cases h1; exact hf0
  dsimp only at hr
  refine ⟨t, s1, hf, ?_, ?_⟩
  · rintro rfl; cases hr; rfl
  · rintro u rfl; exact hr

theorem Front.name {s s1 : Demuxer} {b : Int} {t : Option AVStream} (h : Front s b t s1) : s1.name = s.name := by
  cases h <;> rfl

theorem video_shape {o : Oracle} (ho : o.Valid) {s s' : Demuxer} (h : Inv s) {b id : Int} {d : Bytes} {k : Bool} {dts pts : Int}
    (hr : s.onVideoPacket o b id d k dts pts = ok s') :
    ∃ t s1, Front s b t s1 ∧ (t = none → s' = s1.call [.discardBack b]) ∧
      ∀ u, t = some u → (s1.call [.accepted (o.preprocess (videoPkt s b id d k dts pts u))]).processBufferedPacket o
        (o.preprocess (videoPkt s b id d k dts pts u)) = ok s' := by
  unfold onVideoPacket at hr
  obtain ⟨t0, h0, hr⟩ := bind_eq_ok.1 hr
  obtain ⟨⟨t, s1⟩, h1, hr⟩ := bind_eq_ok.1 hr
  have hf0 := findTrack_front ho h h0
  have hf : Front s b t s1 := by
    split at h1
    · rename_i hcond
      obtain ⟨rfl, hc, _⟩ := hcond
      have hc : s.completed = false := by simpa using hc
      have hb : b ∉ s.bufferOf.map Prod.snd := findTrack_none ho h0
      obtain ⟨ex, _, h1⟩ := bind_eq_ok.1 h1
      split at h1
      · obtain ⟨tb, _, h1⟩ := bind_eq_ok.1 h1
        unfold createVideoTrack at h1
        dsimp only at h1
        split at h1
        · cases h1; exact .none hb
        · cases h1
        · exact register_front h hc hb rfl h1
      · cases h1; exact .none hb
    · cases h1; exact hf0
  dsimp only at hr
  refine ⟨t, s1, hf, ?_, ?_⟩
  · rintro rfl; cases hr; rfl
  · rintro u rfl
    have hp : s1.getPackType = s.getPackType := by unfold getPackType; rw [hf.name]
    unfold videoPkt
    rw [← hp]
    exact hr

theorem Front.micros {s s1 : Demuxer} {b : Int} {t : Option AVStream} (h : Front s b t s1) : Micros s s1 := by
  cases h with
  | none => exact .refl
  | old => exact .refl
  | new u hc hb hu => exact .single (.register s u b hc hu)

theorem Front.calls {s s1 : Demuxer} {b : Int} {t : Option AVStream} (h : Front s b t s1) : s1.calls = s.calls := by
  cases h <;> rfl

theorem Front.known {s s1 : Demuxer} (hi : Inv s) {b : Int} {u : AVStream} (h : Front s b (some u) s1) :
    s1.bufferOf.lookup u.index = some b := by
  cases h with
  | old _ hu hb => exact lookup_of_mem hi.nodup hb
  | new _ hc hb hu =>
    have hi' := hi.micro (.register s u b hc hu)
    exact lookup_of_mem hi'.nodup (by simp)

/-! ## Calls made by the parts of an operation -/

/-- Calls that neither take packets nor reject them. -/
def Plain (cs : List Call) : Prop := ∀ c ∈ cs, (∀ p, c ≠ .accepted p) ∧ ∀ b, c ≠ .discardBack b

/-- Only such calls were added. -/
def Adds (s s' : Demuxer) : Prop := ∃ cs, s'.calls = s.calls ++ cs ∧ Plain cs

theorem Plain.append {a b : List Call} (ha : Plain a) (hb : Plain b) : Plain (a ++ b) :=
  fun c hc => (List.mem_append.1 hc).elim (ha c) (hb c)

theorem Plain.taken {cs : List Call} (h : Plain cs) : taken cs = [] := by
  unfold Avf.taken
  rw [List.filterMap_eq_nil_iff]
  intro c hc
  cases c with
  | accepted p => exact absurd rfl ((h _ hc).1 p)
  | _ => rfl

theorem Adds.refl (s : Demuxer) : Adds s s := ⟨[], by simp, by simp [Plain]⟩

theorem Adds.trans {a b c : Demuxer} (h : Adds a b) (h' : Adds b c) : Adds a c := by
  obtain ⟨x, e, hx⟩ := h
  obtain ⟨y, e', hy⟩ := h'
  exact ⟨x ++ y, by rw [e', e, List.append_assoc], hx.append hy⟩

theorem forwardPacket_adds {s s' : Demuxer} {p : AVPacket} (h : s.forwardPacket p = ok s') : Adds s s' := by
  unfold forwardPacket at h
  dsimp only at h
  split at h
  · split at h
    · cases h
    · rename_i b _
      cases h
      exact ⟨[.packet p, .discardHead b, .free p], by simp [call], by simp [Plain]⟩
  · cases h
    exact ⟨[.packet p], rfl, by simp [Plain]⟩

theorem forwardAll_adds {ps : List AVPacket} {s s' : Demuxer} (h : s.forwardAll ps = ok s') : Adds s s' := by
  induction ps generalizing s with
  | nil => cases h; exact Adds.refl _
  | cons p ps ih =>
    obtain ⟨s1, h1, h2⟩ := bind_eq_ok.1 h
    exact (forwardPacket_adds h1).trans (ih h2)

theorem onProbeComplete_adds {o : Oracle} {s s' : Demuxer} (h : s.onProbeComplete o = ok s') : Adds s s' := by
  unfold onProbeComplete at h
  split at h
  · cases h; exact Adds.refl _
  · dsimp only at h
    split at h
    · cases h; exact ⟨[.trackNotFound], rfl, by simp [Plain]⟩
    · rw [prepare_eq, ok_bind] at h
      obtain ⟨cs, e, hq⟩ := forwardAll_adds h
      refine ⟨(s.tracks.tracks.map (retune o.undef s.packets)).map .newTrack ++ [.trackComplete] ++ cs, ?_, ?_⟩
      · rw [e]; simp only [call, List.append_assoc]
      · refine Plain.append (Plain.append ?_ (by simp [Plain])) hq
        intro c hc
        obtain ⟨t, _, rfl⟩ := List.mem_map.1 hc
        simp

theorem enqueue_adds {o : Oracle} {s s' : Demuxer} {i : Int} {p : AVPacket} (h : s.enqueue o i p = ok s') : Adds s s' := by
  unfold enqueue at h
  obtain ⟨q, _, h⟩ := bind_eq_ok.1 h
  dsimp only at h
  split at h
  · cases h; exact Adds.refl _
  · obtain ⟨pp, _, h⟩ := bind_eq_ok.1 h
    split at h
    · obtain ⟨x, _, h⟩ := bind_eq_ok.1 h
      have := forwardPacket_adds h
      exact this
    · split at h
      · have := onProbeComplete_adds h; exact this
      · cases h; exact Adds.refl _

theorem process_adds {o : Oracle} {s s' : Demuxer} {p : AVPacket} (h : s.processBufferedPacket o p = ok s') : Adds s s' := by
  unfold processBufferedPacket at h
  split at h
  · exact enqueue_adds h
  · have := enqueue_adds h; exact this

/-- What one operation does to the pipeline's caller: nothing, one rejection, or one packet taken. -/
inductive Shape (o : Oracle) (e : DemuxOp) (s s' : Demuxer) : Prop where
  | plain (cs : List Call) (h : s'.calls = s.calls ++ cs) (hp : Plain cs) (hb : s'.bufferOf = s.bufferOf) (hk : e.block = none)
  | track (b : Int) (h : (s'.calls = s.calls ∧ e.block = none) ∨ ∃ d, s'.calls = s.calls ++ [.discardBack b] ∧ e.block = some (b, d))
      (hn : ¬ e.PacketOnly) (hb : s'.bufferOf = s.bufferOf ∨ s'.bufferOf = s.bufferOf ++ [((s.tracks.tracks.length : Int), b)])
  | reject (b : Int) (d : Bytes) (hk : e.block = some (b, d)) (h : s'.calls = s.calls ++ [.discardBack b]) (hb : s'.bufferOf = s.bufferOf) (hno : b ∉ s.bufferOf.map Prod.snd)
  | accept (p : AVPacket) (cs : List Call) (d : Bytes) (hk : e.block = some (p.bufferIndex, d))
      (hd : (∀ p, (o.preprocess p).data = p.data) → p.data = d) (h : s'.calls = s.calls ++ .accepted p :: cs) (hp : Plain cs)
      (hb : (s'.bufferOf = s.bufferOf ∧ (p.index, p.bufferIndex) ∈ s.bufferOf) ∨
        (p.bufferIndex ∉ s.bufferOf.map Prod.snd ∧ p.index = s.tracks.tracks.length ∧ s'.bufferOf = s.bufferOf ++ [(p.index, p.bufferIndex)]))

theorem Stays.bufferOf {s s' : Demuxer} (h : Stays s s') : s'.bufferOf = s.bufferOf := by
  unfold Stays Demuxer.fixed at h
  simp only [Prod.mk.injEq] at h
  exact h.2.2.2

theorem packet_shape {e : DemuxOp} {o : Oracle} {s s1 s' : Demuxer} {b : Int} {t : Option AVStream} {f : AVStream → AVPacket}
    (hf : Front s b t s1) (h0 : t = none → s' = s1.call [.discardBack b])
    (h1 : ∀ u, t = some u → (s1.call [.accepted (f u)]).processBufferedPacket o (f u) = ok s')
    (hi : ∀ u, (f u).index = u.index) (hb : ∀ u, (f u).bufferIndex = b) {d : Bytes} (hk : e.block = some (b, d))
    (hd : (∀ p, (o.preprocess p).data = p.data) → ∀ u, (f u).data = d) : Shape o e s s' := by
  cases hf with
  | none hn =>
    rw [h0 rfl]
    exact .reject b d hk rfl rfl hn
  | old u hu hm =>
    obtain ⟨cs, e, hp⟩ := process_adds (h1 u rfl)
    have hbuf := Stays.bufferOf (process_stays (h1 u rfl))
    refine .accept (f u) cs d (by rw [hb]; exact hk) (fun h => hd h u) (by rw [e]; simp [call]) hp (Or.inl ⟨hbuf, ?_⟩)
    rw [hi, hb]; exact hm
  | new u hc hn hu =>
    obtain ⟨cs, e, hp⟩ := process_adds (h1 u rfl)
    have hbuf := Stays.bufferOf (process_stays (h1 u rfl))
    refine .accept (f u) cs d (by rw [hb]; exact hk) (fun h => hd h u) (by rw [e]; simp [call]) hp (Or.inr ⟨?_, ?_, ?_⟩)
    · rw [hb]; exact hn
    · rw [hi]; exact hu
    · rw [hbuf, hi, hb]; rfl

theorem register_buffers {s s1 : Demuxer} (h : Inv s) {b : Int} {t0 : AVStream} {t : Option AVStream}
    (ht : t0.index = s.tracks.tracks.length) (hr : (ok (s.register b t0) : Go (Option AVStream × Demuxer)) = ok (t, s1)) :
    s1.calls = s.calls ∧ (s1.bufferOf = s.bufferOf ∨ s1.bufferOf = s.bufferOf ++ [((s.tracks.tracks.length : Int), b)]) := by
  injection hr with hr
  unfold register addTrack at hr
  by_cases hc : s.completed = true
  · rw [if_pos hc] at hr; cases hr; exact ⟨rfl, Or.inl rfl⟩
  · rw [if_neg hc] at hr
    simp only [TrackManager.add, if_true] at hr
    cases hr
    have hm := h.mapSet b
    refine ⟨rfl, Or.inr ?_⟩
    rw [← ht] at hm ⊢
    exact hm

theorem run_shape {o : Oracle} (ho : o.Valid) {s s' : Demuxer} (h : Inv s) {e : DemuxOp} (hr : e.run o s = ok s') : Shape o e s s' := by
  cases e with
  | findBufferIndex m =>
    simp only [DemuxOp.run, Go.ok.injEq] at hr
    refine .plain [] ?_ (by simp [Plain]) ?_ rfl
    all_goals (unfold findBufferIndex at hr; split at hr <;> (cases hr; simp))
  | setProbeDuration n => cases hr; exact .plain [] (by simp [setProbeDuration]) (by simp [Plain]) rfl rfl
  | probeComplete =>
    obtain ⟨cs, e, hp⟩ := onProbeComplete_adds hr
    exact .plain cs e hp (Stays.bufferOf (onProbeComplete_stays hr)) rfl
  | tryCompleteProbe =>
    simp only [DemuxOp.run] at hr
    unfold Demuxer.tryCompleteProbe at hr
    dsimp only at hr
    split at hr
    · cases hr; exact .plain [] (by simp) (by simp [Plain]) rfl rfl
    · obtain ⟨cs, e, hp⟩ := onProbeComplete_adds hr
      exact .plain cs e hp (Stays.bufferOf (onProbeComplete_stays hr)) rfl
  | audioPacket b id d ts =>
    obtain ⟨t, s1, hf, h0, h1⟩ := audio_shape ho h hr
    exact packet_shape hf h0 h1 (fun _ => rfl) (fun _ => rfl) rfl (fun _ _ => rfl)
  | videoPacket b id d k dts pts =>
    obtain ⟨t, s1, hf, h0, h1⟩ := video_shape ho h hr
    exact packet_shape hf h0 h1 (fun _ => ho.index _) (fun _ => ho.buffer _) rfl (fun h _ => h _)
  | newAudioTrack b id tb e c =>
    simp only [DemuxOp.run] at hr
    unfold onNewAudioTrack at hr
    obtain ⟨⟨t, s1⟩, h1, hr⟩ := bind_eq_ok.1 hr
    obtain ⟨⟨t2, s2⟩, h2, h1⟩ := bind_eq_ok.1 h1
    have hm : s2.calls = s.calls ∧ (s2.bufferOf = s.bufferOf ∨ s2.bufferOf = s.bufferOf ++ [((s.tracks.tracks.length : Int), b)]) := by
      split at h2
      · unfold createAudioTrack at h2
        dsimp only at h2
        split at h2
        · split at h2
          · cases h2
          · split at h2
            · cases h2; exact ⟨rfl, Or.inl rfl⟩
            · cases h2
            · exact register_buffers h rfl h2
        · exact register_buffers h rfl h2
      · cases h2; exact ⟨rfl, Or.inl rfl⟩
    cases hr
    dsimp only at h1
    split at h1
    · rename_i hlen
      cases h1
      refine .track b (Or.inr ⟨e.getD [], by simp [call, hm.1], if_neg ?_⟩) (by simp [DemuxOp.PacketOnly]) hm.2
      intro he; rw [he] at hlen; simp at hlen
    · rename_i hlen
      cases h1
      refine .track b (Or.inl ⟨hm.1, if_pos ?_⟩) (by simp [DemuxOp.PacketOnly]) hm.2
      exact List.length_eq_zero_iff.1 (by omega)
  | newVideoTrack b id tb e =>
    simp only [DemuxOp.run] at hr
    unfold onNewVideoTrack at hr
    obtain ⟨⟨t, s1⟩, h1, hr⟩ := bind_eq_ok.1 hr
    obtain ⟨⟨t2, s2⟩, h2, h1⟩ := bind_eq_ok.1 h1
    have hm : s2.calls = s.calls ∧ (s2.bufferOf = s.bufferOf ∨ s2.bufferOf = s.bufferOf ++ [((s.tracks.tracks.length : Int), b)]) := by
      split at h2
      · unfold createVideoTrack at h2
        dsimp only at h2
        split at h2
        · cases h2; exact ⟨rfl, Or.inl rfl⟩
        · cases h2
        · exact register_buffers h rfl h2
      · cases h2; exact ⟨rfl, Or.inl rfl⟩
    cases hr
    dsimp only at h1
    split at h1
    · rename_i hlen
      cases h1
      refine .track b (Or.inr ⟨e.getD [], by simp [call, hm.1], if_neg ?_⟩) (by simp [DemuxOp.PacketOnly]) hm.2
      intro he; rw [he] at hlen; simp at hlen
    · rename_i hlen
      cases h1
      refine .track b (Or.inl ⟨hm.1, if_pos ?_⟩) (by simp [DemuxOp.PacketOnly]) hm.2
      exact List.length_eq_zero_iff.1 (by omega)

end Demuxer
end Avf
