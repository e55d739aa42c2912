import Verif.Spec.Determinism
import Verif.Lemmas.ProbeTime
/-! # Helpers: runs with other choices -/
namespace Avf
open Go
namespace Demuxer

/-- The same state, with calls that may be in another order once probing is complete. -/
structure Alike (s s' : Demuxer) : Prop where
  core : s' = { s with calls := s'.calls }
  early : s.completed = false → s'.calls = s.calls
  calls : Reordered s.autoFree s.calls s'.calls

theorem Alike.refl (s : Demuxer) : Alike s s := ⟨rfl, fun _ => rfl, s.calls, [], [], [], by simp, by simp, .nil, .nil, .nil⟩

theorem find_perm {m l : List (Int × Int)} (hn : (m.map Prod.snd).Nodup) (hp : l.Perm m) (b : Int) :
    l.find? (fun e => b = e.2) = m.find? (fun e => b = e.2) := by
  cases h1 : l.find? (fun e => b = e.2) with
  | none =>
    symm
    rw [List.find?_eq_none] at h1 ⊢
    exact fun x hx => h1 x (hp.mem_iff.2 hx)
  | some e =>
    cases h2 : m.find? (fun e => b = e.2) with
    | none =>
      rw [List.find?_eq_none] at h2
      exact absurd (List.find?_some h1) (h2 e (hp.mem_iff.1 (List.mem_of_find?_eq_some h1)))
    | some e' =>
      have h3 := List.find?_some h1
      have h4 := List.find?_some h2
      simp only [decide_eq_true_eq] at h3 h4
      rw [List.inj_on_of_nodup_map hn (hp.mem_iff.1 (List.mem_of_find?_eq_some h1)) (List.mem_of_find?_eq_some h2) (h3.symm.trans h4)]

theorem findTrack_free {o o' : Oracle} (ho : o.Valid) (ho' : o'.Valid) {s : Demuxer} (hn : (s.bufferOf.map Prod.snd).Nodup) (b : Int) :
    s.findTrackByBufferIndex o' b = s.findTrackByBufferIndex o b := by
  unfold findTrackByBufferIndex
  rw [find_perm hn (ho.order _), find_perm hn (ho'.order _)]

/-- At the end of probing. -/
theorem complete_alike {o o' : Oracle} (ho : o.Valid) (ho' : o'.Valid) (ha : o.Agrees o') {s t : Demuxer} (hi : Inv s)
    (hr : s.onProbeComplete o = ok t) : ∃ t', s.onProbeComplete o' = ok t' ∧ Alike t t' := by
  cases hc : s.completed with
  | true =>
    rw [complete_again o hc] at hr
    cases hr
    exact ⟨_, complete_again o' hc, Alike.refl _⟩
  | false =>
    by_cases ht : s.tracks.tracks = []
    · rw [complete_none o hc ht] at hr
      cases hr
      exact ⟨_, complete_none o' hc ht, Alike.refl _⟩
    · rw [complete_eq o ho hi hc ht] at hr
      cases hr
      refine ⟨_, complete_eq o' ho' hi hc ht, ?_, (fun h => by cases h), ?_⟩
      · rw [ha.undef]; rfl
      · have hsort : ∀ {o : Oracle}, o.Valid → ∀ ps, (o.sort ps).Pairwise fun p q => p.dts ≤ q.dts :=
          fun ho ps => (ho.sorted ps).imp fun h => by omega
        rw [ha.undef]
        refine ⟨s.calls ++ (s.tracks.tracks.map (retune o.undef s.packets)).map .newTrack ++ [.trackComplete],
          o.sort (s.packets.flatMap fun q => q.take (q.length - 1)), o'.sort (s.packets.flatMap fun q => q.take (q.length - 1)), [], ?_, ?_,
          (ho.sortPerm _).trans (ho'.sortPerm _).symm, hsort ho _, hsort ho' _⟩
        · simp only [Demuxer.done, List.append_assoc, List.append_nil, List.singleton_append]; rfl
        · simp only [Demuxer.done, List.append_assoc, List.append_nil, List.singleton_append]; rfl

/-- A packet while probing. -/
theorem process_alike {o o' : Oracle} (ho : o.Valid) (ho' : o'.Valid) (ha : o.Agrees o') {s t : Demuxer} {p : AVPacket} (hi : Inv s)
    (hk : Known s p) (hr : (s.call [.accepted p]).processBufferedPacket o p = ok t) :
    ∃ t', (s.call [.accepted p]).processBufferedPacket o' p = ok t' ∧ Alike t t' := by
  by_cases hc : s.completed = true
  · rw [process_live o hc hi hk] at hr
    cases hr
    exact ⟨_, process_live o' hc hi hk, Alike.refl _⟩
  rw [Bool.not_eq_true] at hc
  have h0 := (hi.range hk).1
  have hm : Micro s { s with packets := push s.packets p, calls := s.calls ++ [.accepted p] } := .probing s p hc hk
  have first : ∀ h, ∃ t', (s.call [.accepted p]).processBufferedPacket o' p = ok t' ∧ Alike t t' := fun h => by
    rw [process_first o (s := s.call [.accepted p]) h0 h] at hr
    cases hr
    exact ⟨_, process_first o' (s := s.call [.accepted p]) h0 h, Alike.refl _⟩
  cases e : s.packets[slot s.packets p]? with
  | none => exact first (Or.inl e)
  | some q =>
    rcases List.eq_nil_or_concat q with rfl | ⟨r, x, hq⟩
    · exact first (Or.inr e)
    · rw [List.concat_eq_append] at hq
      subst hq
      have h1 := process_next o (s := s.call [.accepted p]) h0 e
      have h2 := process_next o' (s := s.call [.accepted p]) h0 e
      have hc' : ¬ (s.call [.accepted p]).completed = true := by rw [show (s.call [.accepted p]).completed = false from hc]; simp
      dsimp only at h1 h2
      rw [if_neg hc'] at h1 h2
      rw [h1] at hr
      rw [h2, ha.undef]
      split at hr
      · next hd => rw [if_pos hd]; exact complete_alike ho ho' ha (hi.micro hm) hr
      · next hd => rw [if_neg hd]; exact ⟨_, hr, Alike.refl _⟩

theorem register_late {s : Demuxer} (hc : s.completed = true) (b : Int) (t : AVStream) : s.register b t = (none, s) := by
  unfold register addTrack
  rw [if_pos hc]
  rfl

theorem createAudio_late {s s1 : Demuxer} {b id tb : Int} {e : Option Bytes} {c : AudioConfig} {t : Option AVStream} (hc : s.completed = true)
    (k : List Call) (h : s.createAudioTrack b id tb e c = ok (t, s1)) :
    (t, s1) = (none, s) ∧ ({ s with calls := k } : Demuxer).createAudioTrack b id tb e c = ok (none, { s with calls := k }) := by
  have hc' : ({ s with calls := k } : Demuxer).completed = true := hc
  unfold createAudioTrack at h ⊢
  dsimp only at h ⊢
  split at h
  · next ha =>
    rw [if_pos ha]
    split at h
    · cases h
    · next d =>
      split at h
      · cases h; exact ⟨rfl, rfl⟩
      · cases h
      · rw [register_late hc] at h; cases h; exact ⟨rfl, by rw [register_late hc']; rfl⟩
  · next ha => rw [if_neg ha, register_late hc']; rw [register_late hc] at h; cases h; exact ⟨rfl, rfl⟩

theorem createVideo_late {o o' : Oracle} (ha : o.Agrees o') {s s1 : Demuxer} {b id tb : Int} {e : Option Bytes} {t : Option AVStream}
    (hc : s.completed = true) (k : List Call) (h : s.createVideoTrack o b id tb e = ok (t, s1)) :
    (t, s1) = (none, s) ∧ ({ s with calls := k } : Demuxer).createVideoTrack o' b id tb e = ok (none, { s with calls := k }) := by
  have hc' : ({ s with calls := k } : Demuxer).completed = true := hc
  unfold createVideoTrack at h ⊢
  dsimp only at h ⊢
  rw [ha.undef, ha.grow]
  have hg : ({ s with calls := k } : Demuxer).getPackType = s.getPackType := rfl
  rw [hg]
  split at h
  · cases h; exact ⟨rfl, rfl⟩
  · cases h
  · rw [register_late hc] at h; cases h; exact ⟨rfl, by rw [register_late hc']⟩

/-- A packet when probing is over. -/
theorem live_relocated (o : Oracle) {s : Demuxer} {p : AVPacket} (hc : s.completed = true) (hi : Inv s) (hk : Known s p) (k : List Call) :
    ∃ d, (s.live p).calls = s.calls ++ d ∧
      (({ s with calls := k } : Demuxer).call [.accepted p]).processBufferedPacket o p = ok { s.live p with calls := k ++ d } := by
  have hi' : Inv { s with calls := k } := ⟨hi.index, hi.keys, hi.known, hi.short⟩
  have h1 := process_live o (s := { s with calls := k }) hc hi' hk
  rw [h1]
  unfold Demuxer.live
  dsimp only
  split
  · exact ⟨_, rfl, rfl⟩
  · exact ⟨_, rfl, rfl⟩

/-- When probing is over an operation makes the same calls whatever was called before. -/
theorem late {o o' : Oracle} (ho : o.Valid) (ho' : o'.Valid) (ha : o.Agrees o') {e : DemuxOp} {s t : Demuxer} (hi : Inv s)
    (hn : (s.bufferOf.map Prod.snd).Nodup) (hc : s.completed = true) (hr : e.run o s = ok t) (k : List Call) :
    ∃ d, t.calls = s.calls ++ d ∧ e.run o' { s with calls := k } = ok { t with calls := k ++ d } := by
  have hc' : ({ s with calls := k } : Demuxer).completed = true := hc
  cases e with
  | findBufferIndex m =>
    simp only [DemuxOp.run, Go.ok.injEq] at hr ⊢
    unfold findBufferIndex at hr ⊢
    dsimp only
    split at hr <;> cases hr <;> exact ⟨[], by simp, by simp⟩
  | newAudioTrack b id tb e c =>
    simp only [DemuxOp.run] at hr ⊢
    unfold onNewAudioTrack at hr ⊢
    obtain ⟨⟨u, s1⟩, h1, hr⟩ := bind_eq_ok.1 hr
    obtain ⟨⟨u2, s2⟩, h2, h1⟩ := bind_eq_ok.1 h1
    have hm : (u2, s2) = (none, s) ∧ (if (({ s with calls := k } : Demuxer).tracks.findTrackWithType mediaAudio).isNone ∨
          ({ s with calls := k } : Demuxer).name = "ts" then ({ s with calls := k } : Demuxer).createAudioTrack b id tb e c
        else ok (none, { s with calls := k }) : Go (Option AVStream × Demuxer)) = ok (none, { s with calls := k }) := by
      dsimp only
      split at h2
      · next hx => rw [if_pos hx]; exact createAudio_late hc k h2
      · next hx => rw [if_neg hx]; cases h2; exact ⟨rfl, rfl⟩
    cases hr
    rw [hm.2, ok_bind]
    obtain ⟨e1, e2⟩ := Prod.mk.inj hm.1
    rw [e1, e2] at h1
    dsimp only at h1 ⊢
    split at h1 <;> cases h1
    · next hl => rw [if_pos hl]; exact ⟨_, rfl, rfl⟩
    · next hl => rw [if_neg hl]; exact ⟨[], by simp, by simp [ok_bind]⟩
  | newVideoTrack b id tb e =>
    simp only [DemuxOp.run] at hr ⊢
    unfold onNewVideoTrack at hr ⊢
    obtain ⟨⟨u, s1⟩, h1, hr⟩ := bind_eq_ok.1 hr
    obtain ⟨⟨u2, s2⟩, h2, h1⟩ := bind_eq_ok.1 h1
    have hm : (u2, s2) = (none, s) ∧ (if (({ s with calls := k } : Demuxer).tracks.findTrackWithType mediaVideo).isNone ∨
          ({ s with calls := k } : Demuxer).name = "ts" then ({ s with calls := k } : Demuxer).createVideoTrack o' b id tb e
        else ok (none, { s with calls := k }) : Go (Option AVStream × Demuxer)) = ok (none, { s with calls := k }) := by
      dsimp only
      split at h2
      · next hx => rw [if_pos hx]; exact createVideo_late ha hc k h2
      · next hx => rw [if_neg hx]; cases h2; exact ⟨rfl, rfl⟩
    cases hr
    rw [hm.2, ok_bind]
    obtain ⟨e1, e2⟩ := Prod.mk.inj hm.1
    rw [e1, e2] at h1
    dsimp only at h1 ⊢
    split at h1 <;> cases h1
    · next hl => rw [if_pos hl]; exact ⟨_, rfl, rfl⟩
    · next hl => rw [if_neg hl]; exact ⟨[], by simp, by simp [ok_bind]⟩
  | audioPacket b id d ts =>
    simp only [DemuxOp.run] at hr ⊢
    unfold onAudioPacket at hr ⊢
    obtain ⟨t0, h0, hr⟩ := bind_eq_ok.1 hr
    obtain ⟨t0', e0, hk0⟩ := findTrack_known ho hi (b := b)
    rw [e0] at h0
    cases h0
    have hf : ({ s with calls := k } : Demuxer).findTrackByBufferIndex o' b = ok t0 := by
      rw [← e0, ← findTrack_free ho ho' hn b]; rfl
    rw [hf, ok_bind]
    rw [if_neg (by simp [hc]), ok_bind] at hr ⊢
    dsimp only at hr ⊢
    cases t0 with
    | none => cases hr; exact ⟨_, rfl, rfl⟩
    | some u =>
      dsimp only at hr ⊢
      rw [ha.audioType]
      have hk : Known s
        { data := d, pts := ts, dts := ts, codecID := id, index := u.index, timebase := u.timebase, mediaType := mediaAudio
          packetType := o.audioType, bufferIndex := b } := hk0 u rfl
      rw [process_live o hc hi hk] at hr
      cases hr
      exact live_relocated o' hc hi hk k
  | videoPacket b id d kk dts pts =>
    simp only [DemuxOp.run] at hr ⊢
    unfold onVideoPacket at hr ⊢
    obtain ⟨t0, h0, hr⟩ := bind_eq_ok.1 hr
    obtain ⟨t0', e0, hk0⟩ := findTrack_known ho hi (b := b)
    rw [e0] at h0
    cases h0
    have hf : ({ s with calls := k } : Demuxer).findTrackByBufferIndex o' b = ok t0 := by
      rw [← e0, ← findTrack_free ho ho' hn b]; rfl
    rw [hf, ok_bind]
    rw [if_neg (by simp [hc]), ok_bind] at hr ⊢
    dsimp only at hr ⊢
    cases t0 with
    | none => cases hr; exact ⟨_, rfl, rfl⟩
    | some u =>
      dsimp only at hr ⊢
      rw [ha.preprocess]
      have hk : Known s (o.preprocess
        { data := d, pts := pts, dts := dts, key := kk, codecID := id, index := u.index, timebase := u.timebase
          mediaType := mediaVideo, packetType := s.getPackType, bufferIndex := b }) := by
        unfold Known; rw [ho.index, ho.buffer]; exact hk0 u rfl
      rw [process_live o hc hi hk] at hr
      cases hr
      exact live_relocated o' hc hi hk k
  | probeComplete =>
    simp only [DemuxOp.run] at hr ⊢
    rw [complete_again o hc] at hr
    rw [complete_again o' hc']
    cases hr
    exact ⟨[], by simp, by simp⟩
  | tryCompleteProbe =>
    simp only [DemuxOp.run] at hr ⊢
    unfold Demuxer.tryCompleteProbe at hr ⊢
    dsimp only at hr ⊢
    split at hr
    · next h0 => rw [if_pos h0]; cases hr; exact ⟨[], by simp, by simp⟩
    · next h0 =>
      rw [if_neg h0]
      rw [complete_again o hc] at hr
      rw [complete_again o' hc']
      cases hr
      exact ⟨[], by simp, by simp⟩
  | setProbeDuration n => cases hr; exact ⟨[], by simp [setProbeDuration], by simp [DemuxOp.run, setProbeDuration]⟩

/-- One operation while probing. -/
theorem run_alike {o o' : Oracle} (ho : o.Valid) (ho' : o'.Valid) (ha : o.Agrees o') {e : DemuxOp} {s t : Demuxer} (hi : Inv s)
    (hn : (s.bufferOf.map Prod.snd).Nodup) (hr : e.run o s = ok t) : ∃ t', e.run o' s = ok t' ∧ Alike t t' := by
  have hcv : ∀ b id tb x, s.createVideoTrack o' b id tb x = s.createVideoTrack o b id tb x := by
    intro b id tb x; unfold createVideoTrack; rw [ha.undef, ha.grow]
  cases e with
  | findBufferIndex m => exact ⟨t, hr, Alike.refl t⟩
  | newAudioTrack b id tb e c => exact ⟨t, hr, Alike.refl t⟩
  | newVideoTrack b id tb e =>
    refine ⟨t, ?_, Alike.refl t⟩
    rw [← hr]
    simp only [DemuxOp.run]
    unfold onNewVideoTrack
    rw [hcv]
  | audioPacket b id d ts =>
    simp only [DemuxOp.run] at hr ⊢
    unfold onAudioPacket at hr ⊢
    obtain ⟨t0, h0, hr⟩ := bind_eq_ok.1 hr
    obtain ⟨⟨u, s1⟩, h1, hr⟩ := bind_eq_ok.1 hr
    obtain ⟨t0', e0, hk0⟩ := findTrack_known ho hi (b := b)
    rw [e0] at h0
    cases h0
    have hm : Micros s s1 ∧ ∀ v, u = some v → s1.bufferOf.lookup v.index = some b := by
      split at h1
      · split at h1
        · cases h1; exact ⟨.refl, by simp⟩
        · cases h1
        · obtain ⟨tb, _, h1⟩ := bind_eq_ok.1 h1
          exact audioTrack_micros hi h1
      · cases h1; exact ⟨.refl, hk0⟩
    rw [findTrack_free ho ho' hn b, e0, ok_bind, h1, ok_bind]
    dsimp only at hr ⊢
    cases u with
    | none => exact ⟨t, hr, Alike.refl t⟩
    | some v =>
      dsimp only at hr ⊢
      rw [ha.audioType]
      exact process_alike ho ho' ha (hi.micros hm.1) (hm.2 v rfl) hr
  | videoPacket b id d k dts pts =>
    simp only [DemuxOp.run] at hr ⊢
    unfold onVideoPacket at hr ⊢
    obtain ⟨t0, h0, hr⟩ := bind_eq_ok.1 hr
    obtain ⟨⟨u, s1⟩, h1, hr⟩ := bind_eq_ok.1 hr
    obtain ⟨t0', e0, hk0⟩ := findTrack_known ho hi (b := b)
    rw [e0] at h0
    cases h0
    have hm : Micros s s1 ∧ ∀ v, u = some v → s1.bufferOf.lookup v.index = some b := by
      split at h1
      · obtain ⟨ex, _, h1⟩ := bind_eq_ok.1 h1
        split at h1
        · obtain ⟨tb, _, h1⟩ := bind_eq_ok.1 h1
          exact videoTrack_micros hi h1
        · cases h1; exact ⟨.refl, by simp⟩
      · cases h1; exact ⟨.refl, hk0⟩
    rw [findTrack_free ho ho' hn b, e0, ok_bind]
    simp only [hcv]
    rw [h1, ok_bind]
    dsimp only at hr ⊢
    cases u with
    | none => exact ⟨t, hr, Alike.refl t⟩
    | some v =>
      dsimp only at hr ⊢
      rw [ha.preprocess]
      exact process_alike ho ho' ha (hi.micros hm.1) (by unfold Known; rw [ho.index, ho.buffer]; exact hm.2 v rfl) hr
  | probeComplete => exact complete_alike ho ho' ha hi hr
  | tryCompleteProbe =>
    simp only [DemuxOp.run] at hr ⊢
    unfold Demuxer.tryCompleteProbe at hr ⊢
    dsimp only at hr ⊢
    split at hr
    · next h0 => rw [if_pos h0]; exact ⟨t, hr, Alike.refl t⟩
    · next h0 => rw [if_neg h0]; exact complete_alike ho ho' ha hi hr
  | setProbeDuration n => exact ⟨t, hr, Alike.refl t⟩

theorem Micros.still {s s' : Demuxer} (m : Micros s s') (hc : s.completed = true) : s'.completed = true := by
  induction m with
  | refl => exact hc
  | tail _ m ih =>
    cases m with
    | live p _ _ => unfold Demuxer.live; split <;> exact ih
    | done => rfl
    | notFound => rfl
    | _ => exact ih

theorem Micros.keepsFree {s s' : Demuxer} (m : Micros s s') : s'.autoFree = s.autoFree := by
  induction m with
  | refl => rfl
  | tail _ m ih =>
    rw [← ih]
    cases m with
    | live p _ _ => unfold Demuxer.live; split <;> rfl
    | _ => rfl

/-- One operation. -/
theorem step_alike {o o' : Oracle} (ho : o.Valid) (ho' : o'.Valid) (ha : o.Agrees o') {e : DemuxOp} {s s' t : Demuxer} (hi : Inv s)
    (hn : (s.bufferOf.map Prod.snd).Nodup) (h : Alike s s') (hr : e.run o s = ok t) : ∃ t', e.run o' s' = ok t' ∧ Alike t t' := by
  cases hc : s.completed with
  | false =>
    have e : s' = s := by rw [h.core, h.early hc]
    subst e
    exact run_alike ho ho' ha hi hn hr
  | true =>
    obtain ⟨d, e1, e2⟩ := late ho ho' ha hi hn hc hr s'.calls
    rw [← h.core] at e2
    have hcomp : t.completed = true := (run_micros ho hi hr).still hc
    have hauto : t.autoFree = s.autoFree := (run_micros ho hi hr).keepsFree
    refine ⟨_, e2, rfl, fun h => (by rw [hcomp] at h; cases h), ?_⟩
    obtain ⟨a, l, l', b, g1, g2, g3⟩ := h.calls
    rw [hauto]
    exact ⟨a, l, l', b ++ d, by rw [e1, g1]; simp, by rw [g2]; simp, g3⟩

end Demuxer
end Avf
