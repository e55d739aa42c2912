import Verif.Lemmas.Demuxer
import Mathlib.Logic.Relation
/-! # Lemmas: every operation of the demuxer is a sequence of small steps -/
namespace Avf
open Go
namespace Demuxer

theorem idxI_natCast {α : Type} (l : List α) (n : Nat) : idxI l (n : Int) = idx l n := by
  unfold idxI; rw [if_neg (by omega)]; rfl

theorem idx_middle {α : Type} (a : List α) (x : α) (b : List α) : idx (a ++ x :: b) a.length = ok x := by
  rw [idx_eq_ok]; simp

theorem set_middle {α : Type} (a : List α) (x y : α) (b : List α) : (a ++ x :: b).set a.length y = a ++ y :: b := by
  simp

theorem max_probe (a d : Int) : d ≥ max (max a 200) d ↔ max a 200 ≤ d := by omega

/-- `processBufferedPacket` when the queue exists and is empty, or does not exist. -/
theorem process_first (o : Oracle) {s : Demuxer} {p : AVPacket} (hi : 0 ≤ p.index)
    (h : s.packets[slot s.packets p]? = none ∨ s.packets[slot s.packets p]? = some []) :
    s.processBufferedPacket o p = ok { s with packets := push s.packets p } := by
  by_cases hlt : p.index < s.packets.length
  · have hsl : slot s.packets p = p.index.toNat := by unfold slot; rw [if_pos hlt]
    have hl : p.index.toNat < s.packets.length := by omega
    rw [hsl, List.getElem?_eq_getElem hl] at h
    have he : s.packets[p.index.toNat] = [] := by simpa using h
    unfold processBufferedPacket push
    rw [if_pos hlt, if_pos hlt]
    unfold enqueue
    have hp : idxI s.packets p.index = ok [] := by
      unfold idxI
      rw [if_neg (by omega), idx_eq_ok, List.getElem?_eq_getElem hl, he]
    rw [hp, ok_bind]
    dsimp only
    rw [if_pos (by simp)]
    rw [List.modify_eq_set_getElem?, List.getElem?_eq_getElem hl, he]
    rfl
  · unfold processBufferedPacket push
    rw [if_neg hlt, if_neg hlt]
    unfold enqueue
    dsimp only
    rw [idxI_natCast, idx_middle, ok_bind]
    rw [if_pos (by simp), Int.toNat_natCast, set_middle]
    rfl

/-- `processBufferedPacket` when the queue has a packet. -/
theorem process_next (o : Oracle) {s : Demuxer} {p x : AVPacket} {q : List AVPacket} (hi : 0 ≤ p.index)
    (h : s.packets[slot s.packets p]? = some (q ++ [x])) :
    let x' : AVPacket := { x with duration := wrap64 (p.dts - x.dts) }
    s.processBufferedPacket o p =
      if s.completed then
        ({ s with packets := s.packets.set (slot s.packets p) (q ++ [p]) } : Demuxer).forwardPacket x'
      else if max s.probeDuration 200 ≤ probed o.undef (q ++ [x']) then
        ({ s with packets := push s.packets p } : Demuxer).onProbeComplete o
      else ok { s with packets := push s.packets p } := by
  intro x'
  have hlt : p.index < s.packets.length := by
    by_contra hge
    unfold slot at h
    rw [if_neg hge, List.getElem?_eq_none (by omega)] at h
    cases h
  have hsl : slot s.packets p = p.index.toNat := by unfold slot; rw [if_pos hlt]
  rw [hsl] at h ⊢
  have hl : p.index.toNat < s.packets.length := by omega
  have hpush : push s.packets p = s.packets.set p.index.toNat (q ++ [x', p]) := by
    unfold push
    rw [if_pos hlt, List.modify_eq_set_getElem?, h]
    show s.packets.set _ (stamp (q ++ [x]) p) = _
    rw [stamp_concat]
  unfold processBufferedPacket
  rw [if_pos hlt]
  unfold enqueue
  have hp : idxI s.packets p.index = ok (q ++ [x]) := by
    unfold idxI; rw [if_neg (by omega), idx_eq_ok]; exact h
  rw [hp, ok_bind]
  dsimp only
  rw [if_neg (by simp), List.append_assoc]
  have hprev : (((q ++ ([x] ++ [p])).length : Nat) : Int) - 2 = (q.length : Int) := by simp
  rw [hprev, idxI_natCast, show q ++ ([x] ++ [p]) = q ++ x :: [p] from rfl, idx_middle, ok_bind]
  rw [Int.toNat_natCast, set_middle]
  show (if s.completed = true then _ else _) = _
  split
  · rw [idxI_natCast, idx_middle, ok_bind]
    have : (q ++ x' :: [p]).eraseIdx q.length = q ++ [p] := by
      rw [List.eraseIdx_append_of_length_le (Nat.le_refl _)]; simp
    rw [this]
  · have h2 : ((q.length : Int) + 1).toNat = q.length + 1 := by omega
    have h3 : (q ++ x' :: [p]).take (q.length + 1) = q ++ [x'] := by
      rw [List.take_append, List.take_of_length_le (by omega)]
      simp
    rw [h2, h3, hpush]
    by_cases hd : max s.probeDuration 200 ≤ probed o.undef (q ++ [x'])
    · rw [if_pos ((max_probe _ _).2 hd), if_pos hd]
    · rw [if_neg (fun hh => hd ((max_probe _ _).1 hh)), if_neg hd]
      rfl

/-- After completion. -/
theorem process_live (o : Oracle) {s : Demuxer} {p : AVPacket} (hc : s.completed = true) (h : Inv s) (hk : Known s p) :
    (s.call [.accepted p]).processBufferedPacket o p = ok (s.live p) := by
  have hi := (h.range hk).1
  cases e : s.packets[slot s.packets p]? with
  | none =>
    rw [process_first o (s := s.call [.accepted p]) hi (Or.inl e)]
    unfold Demuxer.live; rw [e]; rfl
  | some q =>
    have hs := h.short hc q (List.mem_of_getElem? e)
    rcases q with _ | ⟨x, _ | ⟨y, r⟩⟩
    · rw [process_first o (s := s.call [.accepted p]) hi (Or.inr e)]
      unfold Demuxer.live; rw [e]; rfl
    · have := process_next o (s := s.call [.accepted p]) (q := []) hi e
      dsimp only at this
      have hc' : (s.call [.accepted p]).completed = true := hc
      rw [this, if_pos hc', forwardPacket_ok]
      · unfold Demuxer.live; rw [e]; simp only [call, fwdCalls, List.append_assoc, List.cons_append, List.nil_append]
        rfl
      · have hx := h.known _ (List.mem_of_getElem? e) x (List.mem_singleton.2 rfl)
        exact hx
    · simp at hs

theorem tuned_map (l : List AVStream) (f : AVStream → AVStream) (hf : ∀ t, Tuned t (f t)) : List.Forall₂ Tuned l (l.map f) := by
  induction l with
  | nil => exact .nil
  | cons a l ih => exact .cons (hf a) ih

/-- `OnProbeComplete` never fails in a reachable state. -/
theorem complete_eq (o : Oracle) (ho : o.Valid) {s : Demuxer} (h : Inv s) (hc : s.completed = false) (ht : s.tracks.tracks ≠ []) :
    s.onProbeComplete o =
      ok (s.done (s.tracks.tracks.map (retune o.undef s.packets)) (o.sort (s.packets.flatMap fun q => q.take (q.length - 1)))) := by
  unfold onProbeComplete
  rw [if_neg (by rw [hc]; simp)]
  dsimp only
  have h0 : ¬ s.tracks.size = 0 := by
    intro e; exact ht (List.length_eq_zero_iff.1 e)
  rw [if_neg h0]
  rw [prepare_eq, ok_bind]
  dsimp only
  have hd1 : (fun q => (drain q).1) = fun q : List AVPacket => q.take (q.length - 1) := by funext q; rw [drain_eq]
  have hd2 : (fun q => (drain q).2) = fun q : List AVPacket => q.drop (q.length - 1) := by funext q; rw [drain_eq]
  rw [hd1, hd2, forwardAll_ok]
  · simp only [call, Demuxer.done]
    congr 2
    rw [List.append_assoc, List.append_assoc, List.append_assoc]
    rfl
  · intro p hp
    have := (ho.sortPerm _).subset hp
    simp only [call] at this
    obtain ⟨q, hq, hpq⟩ := List.mem_flatMap.1 this
    exact h.known q hq p (List.mem_of_mem_take hpq)

theorem complete_none (o : Oracle) {s : Demuxer} (hc : s.completed = false) (ht : s.tracks.tracks = []) :
    s.onProbeComplete o = ok { s with completed := true, calls := s.calls ++ [.trackNotFound] } := by
  unfold onProbeComplete
  rw [if_neg (by rw [hc]; simp)]
  dsimp only
  rw [if_pos (show s.tracks.size = 0 by unfold TrackManager.size; rw [ht]; rfl)]
  rfl

theorem complete_again (o : Oracle) {s : Demuxer} (hc : s.completed = true) : s.onProbeComplete o = ok s := by
  unfold onProbeComplete; rw [if_pos hc]

abbrev Micros := Relation.ReflTransGen Micro

theorem Inv.micros {s s' : Demuxer} (h : Inv s) (m : Micros s s') : Inv s' := by
  induction m with
  | refl => exact h
  | tail _ m ih => exact ih.micro m

theorem complete_micros (o : Oracle) (ho : o.Valid) {s : Demuxer} (h : Inv s) :
    ∃ s', s.onProbeComplete o = ok s' ∧ Micros s s' := by
  cases hc : s.completed with
  | true => exact ⟨s, complete_again o hc, .refl⟩
  | false =>
    by_cases ht : s.tracks.tracks = []
    · exact ⟨_, complete_none o hc ht, .single (.notFound s hc ht)⟩
    · refine ⟨_, complete_eq o ho h hc ht, .single (.done s _ _ hc ht ?_ (ho.sortPerm _) (ho.sorted _) ⟨_, rfl⟩)⟩
      exact tuned_map _ _ (retune_tuned _ _)

theorem process_micros (o : Oracle) (ho : o.Valid) {s : Demuxer} {p : AVPacket} (h : Inv s) (hk : Known s p) :
    ∃ s', (s.call [.accepted p]).processBufferedPacket o p = ok s' ∧ Micros s s' := by
  have hi := (h.range hk).1
  cases hc : s.completed with
  | true => exact ⟨_, process_live o hc h hk, .single (.live s p hc hk)⟩
  | false =>
    have hm : Micro s { s with packets := push s.packets p, calls := s.calls ++ [.accepted p] } := .probing s p hc hk
    have hq : ∀ q, s.packets[slot s.packets p]? = some q → q = [] ∨ ∃ r x, q = r ++ [x] := by
      intro q _
      rcases List.eq_nil_or_concat q with h | ⟨r, x, h⟩
      · exact Or.inl h
      · exact Or.inr ⟨r, x, by simpa using h⟩
    cases e : s.packets[slot s.packets p]? with
    | none => exact ⟨_, process_first o (s := s.call [.accepted p]) hi (Or.inl e), .single hm⟩
    | some q =>
      rcases hq q e with rfl | ⟨r, x, rfl⟩
      · exact ⟨_, process_first o (s := s.call [.accepted p]) hi (Or.inr e), .single hm⟩
      · have := process_next o (s := s.call [.accepted p]) hi e
        dsimp only at this
        rw [this, if_neg (by rw [show (s.call [.accepted p]).completed = false from hc]; simp)]
        split
        · obtain ⟨s', e1, e2⟩ := complete_micros o ho (h.micro hm)
          exact ⟨s', e1, .head hm e2⟩
        · exact ⟨_, rfl, .single hm⟩

theorem process_micros' {o : Oracle} (ho : o.Valid) {s s' : Demuxer} {p : AVPacket} (h : Inv s)
    (hr : (s.call [.accepted p]).processBufferedPacket o p = ok s') (hk : Known s p) : Micros s s' := by
  obtain ⟨s2, e2, m2⟩ := process_micros o ho h hk
  rw [e2] at hr
  cases hr
  exact m2

theorem register_micros {s : Demuxer} (h : Inv s) (b : Int) (t : AVStream) (ht : t.index = s.tracks.tracks.length) :
    Micros s (s.register b t).2 ∧ ∀ u, (s.register b t).1 = some u → (s.register b t).2.bufferOf.lookup u.index = some b := by
  unfold register addTrack
  by_cases hc' : s.completed = true
  · rw [if_pos hc']; exact ⟨.refl, by simp⟩
  · have hc : s.completed = false := by simpa using hc'
    rw [if_neg hc']
    simp only [TrackManager.add, if_true]
    have hm := h.mapSet b
    rw [← ht] at hm
    rw [hm]
    refine ⟨.single (.register s t b hc ht), ?_⟩
    intro u hu
    cases hu
    have hnone : s.bufferOf.lookup t.index = none := by
      cases e : s.bufferOf.lookup t.index with
      | none => rfl
      | some c =>
        have := h.keyRange (lookup_mem e)
        rw [ht] at this; omega
    rw [lookup_append, hnone]
    simp

theorem register_micros' {s s' : Demuxer} (h : Inv s) {b : Int} {t0 : AVStream} {t : Option AVStream} (ht : t0.index = s.tracks.tracks.length)
    (hr : (ok (s.register b t0) : Go _) = ok (t, s')) : Micros s s' ∧ ∀ u, t = some u → s'.bufferOf.lookup u.index = some b := by
  have := register_micros h b t0 ht
  injection hr with hr
  rw [hr] at this
  exact this

theorem audioTrack_micros {s s' : Demuxer} (h : Inv s) {b id tb : Int} {e : Option Bytes} {c : AudioConfig} {t : Option AVStream}
    (hr : s.createAudioTrack b id tb e c = ok (t, s')) :
    Micros s s' ∧ ∀ u, t = some u → s'.bufferOf.lookup u.index = some b := by
  unfold createAudioTrack at hr
  dsimp only at hr
  split at hr
  · split at hr
    · cases hr
    · split at hr
      · cases hr; exact ⟨.refl, by simp⟩
      · cases hr
      · exact register_micros' h rfl hr
  · exact register_micros' h rfl hr

theorem videoTrack_micros {o : Oracle} {s s' : Demuxer} (h : Inv s) {b id tb : Int} {e : Option Bytes} {t : Option AVStream}
    (hr : s.createVideoTrack o b id tb e = ok (t, s')) :
    Micros s s' ∧ ∀ u, t = some u → s'.bufferOf.lookup u.index = some b := by
  unfold createVideoTrack at hr
  dsimp only at hr
  split at hr
  · cases hr; exact ⟨.refl, by simp⟩
  · cases hr
  · exact register_micros' h rfl hr

theorem findTrack_known {o : Oracle} (ho : o.Valid) {s : Demuxer} (h : Inv s) {b : Int} :
    ∃ t, s.findTrackByBufferIndex o b = ok t ∧ ∀ u, t = some u → s.bufferOf.lookup u.index = some b := by
  unfold findTrackByBufferIndex
  split
  · rename_i e he
    have hm := (ho.order _).subset (List.mem_of_find?_eq_some he)
    have hb := List.find?_some he
    have hr := h.keyRange (k := e.1) (b := e.2) hm
    have hb' : b = e.2 := by simpa using hb
    have hl : e.1.toNat < s.tracks.tracks.length := by omega
    refine ⟨some s.tracks.tracks[e.1.toNat], ?_, ?_⟩
    · unfold TrackManager.get idxI
      rw [if_neg (by omega), idx_of_lt hl]; rfl
    · intro u hu
      cases hu
      rw [h.index _ _ (List.getElem?_eq_getElem hl), hb', Int.toNat_of_nonneg hr.1]
      exact lookup_of_mem h.nodup hm
  · exact ⟨none, rfl, by simp⟩

/-- Every operation is a sequence of small steps. -/
theorem run_micros {o : Oracle} (ho : o.Valid) {s s' : Demuxer} (h : Inv s) {e : DemuxOp} (hr : e.run o s = ok s') : Micros s s' := by
  cases e with
  | findBufferIndex m =>
    simp only [DemuxOp.run, Go.ok.injEq] at hr
    unfold findBufferIndex at hr
    split at hr
    · cases hr; exact .refl
    · cases hr; exact .single (.quiet s _ s.probeDuration)
  | newAudioTrack b id tb e c =>
    simp only [DemuxOp.run] at hr
    unfold onNewAudioTrack at hr
    obtain ⟨⟨t, s1⟩, h1, hr⟩ := bind_eq_ok.1 hr
    obtain ⟨⟨t2, s2⟩, h2, h1⟩ := bind_eq_ok.1 h1
    have hm : Micros s s2 := by
      split at h2
      · exact (audioTrack_micros h h2).1
      · cases h2; exact .refl
    cases hr
    dsimp only at h1
    split at h1
    · cases h1; exact hm.tail (.reject s2 b)
    · cases h1; exact hm
  | newVideoTrack b id tb e =>
    simp only [DemuxOp.run] at hr
    unfold onNewVideoTrack at hr
    obtain ⟨⟨t, s1⟩, h1, hr⟩ := bind_eq_ok.1 hr
    obtain ⟨⟨t2, s2⟩, h2, h1⟩ := bind_eq_ok.1 h1
    have hm : Micros s s2 := by
      split at h2
      · exact (videoTrack_micros h h2).1
      · cases h2; exact .refl
    cases hr
    dsimp only at h1
    split at h1
    · cases h1; exact hm.tail (.reject s2 b)
    · cases h1; exact hm
  | audioPacket b id d ts =>
    simp only [DemuxOp.run] at hr
    unfold onAudioPacket at hr
    obtain ⟨t0, h0, hr⟩ := bind_eq_ok.1 hr
    obtain ⟨⟨t, s1⟩, h1, hr⟩ := bind_eq_ok.1 hr
    obtain ⟨t0', e0, hk0⟩ := findTrack_known ho h (b := b)
    rw [e0] at h0
    cases h0
    have hm : Micros s s1 ∧ ∀ u, t = some u → s1.bufferOf.lookup u.index = some b := by
      split at h1
      · split at h1
        · cases h1; exact ⟨.refl, by simp⟩
        · cases h1
        · obtain ⟨tb, _, h1⟩ := bind_eq_ok.1 h1
          exact audioTrack_micros h h1
      · cases h1; exact ⟨.refl, hk0⟩
    dsimp only at hr
    split at hr
    · cases hr; exact hm.1.tail (.reject s1 b)
    · exact hm.1.trans (process_micros' ho (h.micros hm.1) hr (hm.2 _ rfl))
  | videoPacket b id d k dts pts =>
    simp only [DemuxOp.run] at hr
    unfold onVideoPacket at hr
    obtain ⟨t0, h0, hr⟩ := bind_eq_ok.1 hr
    obtain ⟨⟨t, s1⟩, h1, hr⟩ := bind_eq_ok.1 hr
    obtain ⟨t0', e0, hk0⟩ := findTrack_known ho h (b := b)
    rw [e0] at h0
    cases h0
    have hm : Micros s s1 ∧ ∀ u, t = some u → s1.bufferOf.lookup u.index = some b := by
      split at h1
      · obtain ⟨ex, _, h1⟩ := bind_eq_ok.1 h1
        split at h1
        · obtain ⟨tb, _, h1⟩ := bind_eq_ok.1 h1
          exact videoTrack_micros h h1
        · cases h1; exact ⟨.refl, by simp⟩
      · cases h1; exact ⟨.refl, hk0⟩
    dsimp only at hr
    split at hr
    · cases hr; exact hm.1.tail (.reject s1 b)
    · exact hm.1.trans (process_micros' ho (h.micros hm.1) hr (by unfold Known; rw [ho.index, ho.buffer]; exact hm.2 _ rfl))
  | probeComplete =>
    obtain ⟨s1, e1, m1⟩ := complete_micros o ho h
    simp only [DemuxOp.run] at hr
    rw [e1] at hr; cases hr; exact m1
  | tryCompleteProbe =>
    simp only [DemuxOp.run] at hr
    unfold Demuxer.tryCompleteProbe at hr
    dsimp only at hr
    split at hr
    · cases hr; exact .refl
    · obtain ⟨s1, e1, m1⟩ := complete_micros o ho h
      rw [e1] at hr; cases hr; exact m1
  | setProbeDuration n =>
    cases hr; exact .single (.quiet s s.orderedStreams n)

theorem runDemux_micros {s s' : Demuxer} (h : Inv s) {l : List (Oracle × DemuxOp)} (hv : ∀ x ∈ l, x.1.Valid)
    (hr : runDemux s l = ok s') : Micros s s' := by
  induction l generalizing s with
  | nil => cases hr; exact .refl
  | cons x l ih =>
    obtain ⟨o, e⟩ := x
    obtain ⟨s1, h1, hr⟩ := bind_eq_ok.1 hr
    have m1 := run_micros (hv _ (List.mem_cons_self ..)) h h1
    exact m1.trans (ih (h.micros m1) (fun y hy => hv y (List.mem_cons_of_mem _ hy)) hr)

theorem Reached.micros {name : String} {a : Bool} {l : List (Oracle × DemuxOp)} {s : Demuxer} (h : Reached name a l s) :
    Micros (Demuxer.new name a) s := runDemux_micros (Inv.new name a) h.1 h.2

theorem Reached.inv {name : String} {a : Bool} {l : List (Oracle × DemuxOp)} {s : Demuxer} (h : Reached name a l s) : Inv s :=
  (Inv.new name a).micros (Reached.micros h)

/-- Induction over the small steps of a run. -/
theorem Reached.induct {name : String} {a : Bool} {l : List (Oracle × DemuxOp)} {s : Demuxer} (h : Reached name a l s)
    {P : Demuxer → Prop} (h0 : P (Demuxer.new name a)) (hs : ∀ s s', Inv s → P s → Micro s s' → P s') : P s := by
  have := Reached.micros h
  clear h
  induction this with
  | refl => exact h0
  | tail m m' ih => exact hs _ _ ((Inv.new name a).micros m) ih m'

end Demuxer
end Avf
