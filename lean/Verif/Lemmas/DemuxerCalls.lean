import Verif.Lemmas.DemuxerRun
import Verif.Lemmas.Tracks
/-! # Lemmas: the record of calls of a demuxer -/
namespace Avf
open Go
namespace Demuxer

theorem toHandler_append (a b : List Call) : toHandler (a ++ b) = toHandler a ++ toHandler b := List.filter_append ..
theorem delivered_append (a b : List Call) : delivered (a ++ b) = delivered a ++ delivered b := List.filterMap_append
theorem taken_append (a b : List Call) : taken (a ++ b) = taken a ++ taken b := List.filterMap_append

theorem toHandler_fwd (s : Demuxer) (p : AVPacket) : toHandler (fwdCalls s p) = [.packet p] := by
  unfold fwdCalls; split <;> rfl

theorem delivered_fwd (s : Demuxer) (p : AVPacket) : delivered (fwdCalls s p) = [p] := by
  unfold fwdCalls; split <;> rfl

theorem taken_fwd (s : Demuxer) (p : AVPacket) : taken (fwdCalls s p) = [] := by
  unfold fwdCalls; split <;> rfl

theorem toHandler_fwds (s : Demuxer) (ps : List AVPacket) : toHandler (ps.flatMap (fwdCalls s)) = ps.map .packet := by
  induction ps with
  | nil => rfl
  | cons p ps ih => rw [List.flatMap_cons, toHandler_append, ih, toHandler_fwd]; rfl

theorem delivered_fwds (s : Demuxer) (ps : List AVPacket) : delivered (ps.flatMap (fwdCalls s)) = ps := by
  induction ps with
  | nil => rfl
  | cons p ps ih => rw [List.flatMap_cons, delivered_append, ih, delivered_fwd]; rfl

theorem taken_fwds (s : Demuxer) (ps : List AVPacket) : taken (ps.flatMap (fwdCalls s)) = [] := by
  induction ps with
  | nil => rfl
  | cons p ps ih => rw [List.flatMap_cons, taken_append, ih, taken_fwd]; rfl

theorem toHandler_tracks (ts : List AVStream) : toHandler (ts.map .newTrack) = ts.map .newTrack := by
  unfold toHandler; rw [List.filter_eq_self]; simp

theorem delivered_tracks (ts : List AVStream) : delivered (ts.map .newTrack) = [] := by
  unfold delivered; rw [List.filterMap_eq_nil_iff]; simp

theorem taken_tracks (ts : List AVStream) : taken (ts.map .newTrack) = [] := by
  unfold taken; rw [List.filterMap_eq_nil_iff]; simp

theorem done_calls (s : Demuxer) (ts : List AVStream) (rs : List AVPacket) :
    (s.done ts rs).calls = s.calls ++ (ts.map .newTrack ++ ([.trackComplete] ++ rs.flatMap (fwdCalls s))) := rfl

theorem live_calls {s : Demuxer} {p x : AVPacket} (h : s.packets[slot s.packets p]? = some [x]) :
    (s.live p).calls = s.calls ++ ([.accepted p] ++ fwdCalls s { x with duration := wrap64 (p.dts - x.dts) }) := by
  unfold Demuxer.live; rw [h]; rfl

theorem live_calls' {s : Demuxer} {p : AVPacket} (h : ∀ x, s.packets[slot s.packets p]? ≠ some [x]) :
    (s.live p).calls = s.calls ++ [.accepted p] := by
  unfold Demuxer.live
  split
  · rename_i x hx; exact absurd hx (h x)
  · rfl

theorem done_toHandler (s : Demuxer) (ts : List AVStream) (rs : List AVPacket) :
    toHandler (s.done ts rs).calls = toHandler s.calls ++ (ts.map .newTrack ++ .trackComplete :: rs.map .packet) := by
  rw [done_calls, toHandler_append, toHandler_append, toHandler_append, toHandler_tracks, toHandler_fwds]
  rfl

theorem done_delivered (s : Demuxer) (ts : List AVStream) (rs : List AVPacket) :
    delivered (s.done ts rs).calls = delivered s.calls ++ rs := by
  rw [done_calls, delivered_append, delivered_append, delivered_append, delivered_tracks, delivered_fwds]
  rfl

theorem done_taken (s : Demuxer) (ts : List AVStream) (rs : List AVPacket) : taken (s.done ts rs).calls = taken s.calls := by
  rw [done_calls, taken_append, taken_append, taken_append, taken_tracks, taken_fwds]
  show _ ++ [] = _
  simp

theorem live_taken (s : Demuxer) (p : AVPacket) : taken (s.live p).calls = taken s.calls ++ [p] := by
  by_cases h : ∃ x, s.packets[slot s.packets p]? = some [x]
  · obtain ⟨x, h⟩ := h
    rw [live_calls h, taken_append, taken_append, taken_fwd]; rfl
  · rw [live_calls' (by simpa using h)]; exact taken_append ..

/-- The handler's view of a reachable state. -/
def Seen (s : Demuxer) : Prop :=
  (s.completed = false → toHandler s.calls = []) ∧
  (s.completed = true →
    (s.tracks.tracks = [] ∧ toHandler s.calls = [.trackNotFound]) ∨
    (s.tracks.tracks ≠ [] ∧ ∃ ps : List AVPacket, toHandler s.calls = s.tracks.tracks.map .newTrack ++ .trackComplete :: ps.map .packet ∧
      ∀ p ∈ ps, 0 ≤ p.index ∧ p.index < s.tracks.tracks.length))

theorem Seen.micro {s s' : Demuxer} (hi : Inv s) (h : Seen s) (m : Micro s s') : Seen s' := by
  cases m with
  | quiet os pd => exact h
  | register t b hc ht =>
    refine ⟨fun _ => h.1 hc, fun hc' => ?_⟩
    rw [show s.completed = true from hc'] at hc; cases hc
  | reject b =>
    have : toHandler (s.call [.discardBack b]).calls = toHandler s.calls := by
      show toHandler (_ ++ _) = _
      rw [toHandler_append]; show _ ++ [] = _; simp
    unfold Seen
    rw [this]; exact h
  | probing p hc hk =>
    refine ⟨fun _ => ?_, fun hc' => ?_⟩
    · dsimp only
      rw [toHandler_append, h.1 hc]; rfl
    · rw [show s.completed = true from hc'] at hc; cases hc
  | live p hc hk =>
    obtain ⟨h1, _, h3, _⟩ := live_tracks s p
    refine ⟨fun hc' => (by rw [h3, hc] at hc'; cases hc'), fun _ => ?_⟩
    rw [h1]
    rcases h.2 hc with ⟨ht, _⟩ | ⟨ht, ps, e, hp⟩
    · have := hi.range hk; rw [ht] at this; simp at this; omega
    · refine Or.inr ⟨ht, ?_⟩
      by_cases hx : ∃ x, s.packets[slot s.packets p]? = some [x]
      · obtain ⟨x, hx⟩ := hx
        refine ⟨ps ++ [{ x with duration := wrap64 (p.dts - x.dts) }], ?_, ?_⟩
        · rw [live_calls hx, toHandler_append, toHandler_append, toHandler_fwd, e]
          show _ ++ ([] ++ _) = _
          simp
        · intro y hy
          rcases List.mem_append.1 hy with hy | hy
          · exact hp y hy
          · rw [List.mem_singleton] at hy; subst hy
            exact hi.range (hi.known _ (List.mem_of_getElem? hx) x (List.mem_singleton.2 rfl))
      · refine ⟨ps, ?_, hp⟩
        rw [live_calls' (by simpa using hx), toHandler_append, e]; show _ ++ [] = _; simp
  | done ts rs hc ht hts hp hs =>
    refine ⟨fun hc' => (by cases hc'), fun _ => Or.inr ⟨?_, rs, ?_, ?_⟩⟩
    · intro e
      rw [show (s.done ts rs).tracks.tracks = ts from rfl] at e
      subst e
      exact ht (List.length_eq_zero_iff.1 hts.length_eq)
    · rw [done_toHandler, h.1 hc]; rfl
    · intro p hpr
      show _ ∧ _ < (ts.length : Int)
      rw [← hts.length_eq]
      obtain ⟨q, hq, hpq⟩ := List.mem_flatMap.1 (hp.subset hpr)
      exact hi.range (hi.known q hq p (List.mem_of_mem_take hpq))
  | notFound hc ht =>
    refine ⟨fun hc' => (by cases hc'), fun _ => Or.inl ⟨ht, ?_⟩⟩
    dsimp only
    rw [toHandler_append, h.1 hc]; rfl

theorem Reached.seen {name : String} {a : Bool} {l : List (Oracle × DemuxOp)} {s : Demuxer} (h : Reached name a l s) : Seen s :=
  Reached.induct h ⟨fun _ => rfl, fun hc => by cases hc⟩ fun _ _ hi hs m => hs.micro hi m

theorem Micro.grows {s s' : Demuxer} (m : Micro s s') : s.calls <+: s'.calls := by
  cases m with
  | quiet os pd => exact List.prefix_refl _
  | register t b hc ht => exact List.prefix_refl _
  | reject b => exact List.prefix_append ..
  | probing p hc hk => exact List.prefix_append ..
  | live p hc hk => unfold Demuxer.live; split <;> exact List.prefix_append ..
  | done ts rs hc ht hts hp hs => exact List.prefix_append ..
  | notFound hc ht => exact List.prefix_append ..

theorem Micros.grows {s s' : Demuxer} (m : Micros s s') : s.calls <+: s'.calls := by
  induction m with
  | refl => exact List.prefix_refl _
  | tail _ m ih => exact ih.trans m.grows

theorem Micros.frozen {s s' : Demuxer} (m : Micros s s') (hc : s.completed = true) :
    s'.completed = true ∧ s'.tracks = s.tracks ∧ s'.bufferOf = s.bufferOf := by
  induction m with
  | refl => exact ⟨hc, rfl, rfl⟩
  | tail _ m ih =>
    obtain ⟨i1, i2, i3⟩ := ih
    rw [← i2, ← i3]
    cases m with
    | quiet os pd => exact ⟨i1, rfl, rfl⟩
    | reject b => exact ⟨i1, rfl, rfl⟩
    | live p hc hk => rename_i b _; have := live_tracks b p; exact ⟨this.2.2.1.trans i1, this.1, this.2.1⟩
    | register t b hc ht => rw [i1] at hc; cases hc
    | probing p hc hk => rw [i1] at hc; cases hc
    | done ts rs hc ht hts hp hs => rw [i1] at hc; cases hc
    | notFound hc ht => rw [i1] at hc; cases hc

theorem Micros.after {s s' : Demuxer} (m : Micros s s') (hc : s.completed = true) :
    ∃ ps : List AVPacket, toHandler s'.calls = toHandler s.calls ++ ps.map .packet := by
  induction m with
  | refl => exact ⟨[], by simp⟩
  | @tail b c m0 m ih =>
    obtain ⟨ps, ih⟩ := ih
    have i1 := (Micros.frozen m0 hc).1
    cases m with
    | quiet os pd => exact ⟨ps, ih⟩
    | reject b' =>
      refine ⟨ps, ?_⟩
      show toHandler (_ ++ _) = _
      rw [toHandler_append, ih]; show _ ++ [] = _; simp
    | live p hc hk =>
      by_cases hx : ∃ x, b.packets[slot b.packets p]? = some [x]
      · obtain ⟨x, hx⟩ := hx
        refine ⟨ps ++ [{ x with duration := wrap64 (p.dts - x.dts) }], ?_⟩
        rw [live_calls hx, toHandler_append, toHandler_append, toHandler_fwd, ih]
        show _ ++ ([] ++ _) = _
        simp
      · refine ⟨ps, ?_⟩
        rw [live_calls' (by simpa using hx), toHandler_append, ih]; show _ ++ [] = _; simp
    | register t b hc ht => rw [i1] at hc; cases hc
    | probing p hc hk => rw [i1] at hc; cases hc
    | done ts rs hc ht hts hp hs => rw [i1] at hc; cases hc
    | notFound hc ht => rw [i1] at hc; cases hc

theorem register_fresh {s s' : Demuxer} (hi : Inv s) {b : Int} {t0 : AVStream} {t : Option AVStream}
    (ht : t0.index = s.tracks.tracks.length) (hr : (ok (s.register b t0) : Go _) = ok (t, s')) :
    s'.bufferOf = s.bufferOf ∨ ∃ k, s'.bufferOf = s.bufferOf ++ [(k, b)] := by
  injection hr with hr
  unfold register addTrack at hr
  by_cases h : s.completed = true
  · rw [if_pos h] at hr; cases hr; exact Or.inl rfl
  · rw [if_neg h] at hr
    simp only [TrackManager.add, if_true] at hr
    cases hr
    have := hi.mapSet b
    rw [← ht] at this
    exact Or.inr ⟨_, this⟩

theorem findTrack_none {o : Oracle} (ho : o.Valid) {s : Demuxer} {b : Int}
    (h : s.findTrackByBufferIndex o b = ok none) : b ∉ s.bufferOf.map Prod.snd := by
  unfold findTrackByBufferIndex at h
  split at h
  · obtain ⟨t, _, h⟩ := bind_eq_ok.1 h; cases h
  · rename_i hn
    rw [List.find?_eq_none] at hn
    intro hb
    obtain ⟨e, he, rfl⟩ := List.mem_map.1 hb
    have := hn e ((ho.order _).symm.subset he)
    simp at this

/-- Buffers belong to one track each. -/
theorem run_injective {o : Oracle} (ho : o.Valid) {s s' : Demuxer} (hi : Inv s) {e : DemuxOp} (he : e.PacketOnly)
    (hr : e.run o s = ok s') (h : (s.bufferOf.map Prod.snd).Nodup) : (s'.bufferOf.map Prod.snd).Nodup := by
  have hsame : ∀ {x y : Demuxer}, Stays x y → y.bufferOf = x.bufferOf := by
    intro x y hxy
    unfold Stays Demuxer.fixed at hxy
    simp only [Prod.mk.injEq] at hxy
    exact hxy.2.2.2
  have hadd : ∀ {b k : Int}, b ∉ s.bufferOf.map Prod.snd → ((s.bufferOf ++ [(k, b)]).map Prod.snd).Nodup := by
    intro b k hb
    rw [List.map_append, List.nodup_append]
    refine ⟨h, by simp, ?_⟩
    intro x hx y hy
    simp at hy
    rw [hy]; rintro rfl; exact hb hx
  cases e with
  | newAudioTrack b id tb e c => exact absurd he (by simp [DemuxOp.PacketOnly])
  | newVideoTrack b id tb e => exact absurd he (by simp [DemuxOp.PacketOnly])
  | findBufferIndex m =>
    simp only [DemuxOp.run, Go.ok.injEq] at hr
    unfold findBufferIndex at hr
    split at hr <;> (cases hr; exact h)
  | setProbeDuration n => cases hr; exact h
  | probeComplete => rw [hsame (onProbeComplete_stays hr)]; exact h
  | tryCompleteProbe =>
    simp only [DemuxOp.run] at hr
    unfold Demuxer.tryCompleteProbe at hr
    dsimp only at hr
    split at hr
    · cases hr; exact h
    · rw [hsame (onProbeComplete_stays hr)]; exact h
  | audioPacket b id d ts =>
    simp only [DemuxOp.run] at hr
    unfold onAudioPacket at hr
    obtain ⟨t0, h0, hr⟩ := bind_eq_ok.1 hr
    obtain ⟨⟨t, s1⟩, h1, hr⟩ := bind_eq_ok.1 hr
    have hm : (s1.bufferOf.map Prod.snd).Nodup := by
      split at h1
      · rename_i hcond
        rw [hcond.2] at h0
        have hb := findTrack_none ho h0
        split at h1
        · cases h1; exact h
        · cases h1
        · obtain ⟨tb, _, h1⟩ := bind_eq_ok.1 h1
          have hfin : s1.bufferOf = s.bufferOf ∨ ∃ k, s1.bufferOf = s.bufferOf ++ [(k, b)] := by
            unfold createAudioTrack at h1
            dsimp only at h1
            split at h1
            · split at h1
              · cases h1
              · split at h1
                · cases h1; exact Or.inl rfl
                · cases h1
                · exact register_fresh hi rfl h1
            · exact register_fresh hi rfl h1
          rcases hfin with e | ⟨k, e⟩
          · rw [e]; exact h
          · rw [e]; exact hadd hb
      · cases h1; exact h
    dsimp only at hr
    split at hr
    · cases hr; exact hm
    · rw [hsame (process_stays hr)]; exact hm
  | videoPacket b id d k dts pts =>
    simp only [DemuxOp.run] at hr
    unfold onVideoPacket at hr
    obtain ⟨t0, h0, hr⟩ := bind_eq_ok.1 hr
    obtain ⟨⟨t, s1⟩, h1, hr⟩ := bind_eq_ok.1 hr
    have hm : (s1.bufferOf.map Prod.snd).Nodup := by
      split at h1
      · rename_i hcond
        rw [hcond.1] at h0
        have hb := findTrack_none ho h0
        obtain ⟨ex, _, h1⟩ := bind_eq_ok.1 h1
        split at h1
        · obtain ⟨tb, _, h1⟩ := bind_eq_ok.1 h1
          have hfin : s1.bufferOf = s.bufferOf ∨ ∃ k, s1.bufferOf = s.bufferOf ++ [(k, b)] := by
            unfold createVideoTrack at h1
            dsimp only at h1
            split at h1
            · cases h1; exact Or.inl rfl
            · cases h1
            · exact register_fresh hi rfl h1
          rcases hfin with e | ⟨k, e⟩
          · rw [e]; exact h
          · rw [e]; exact hadd hb
        · cases h1; exact h
      · cases h1; exact h
    dsimp only at hr
    split at hr
    · cases hr; exact hm
    · rw [hsame (process_stays hr)]; exact hm

theorem runDemux_injective {s s' : Demuxer} (hi : Inv s) {l : List (Oracle × DemuxOp)} (hv : ∀ x ∈ l, x.1.Valid)
    (hp : ∀ x ∈ l, x.2.PacketOnly) (hr : runDemux s l = ok s') (h : (s.bufferOf.map Prod.snd).Nodup) :
    (s'.bufferOf.map Prod.snd).Nodup := by
  induction l generalizing s with
  | nil => cases hr; exact h
  | cons x l ih =>
    obtain ⟨o, e⟩ := x
    obtain ⟨s1, h1, hr⟩ := bind_eq_ok.1 hr
    have ho := hv _ (List.mem_cons_self ..)
    exact ih (hi.micros (run_micros ho hi h1)) (fun y hy => hv y (List.mem_cons_of_mem _ hy)) (fun y hy => hp y (List.mem_cons_of_mem _ hy)) hr
      (run_injective ho hi (hp _ (List.mem_cons_self ..)) h1 h)

end Demuxer
end Avf
