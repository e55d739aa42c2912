import Verif.Lemmas.DemuxerQueue
import Verif.Props.Demuxer
/-! # C62, C63, C65 (second part): what the handler gets for what was put in -/
namespace Avf
open Go

/-! ## C62 -/

/-- **C62**, all histories: what was taken is what was delivered and what is still queued, nothing lost, nothing twice, and
unchanged but for the duration. -/
theorem C62_conserved {name : String} {a : Bool} {h : List (Oracle × DemuxOp)} {s : Demuxer} (hr : Reached name a h s) :
    ((delivered s.calls ++ s.packets.flatten).map bare).Perm ((taken s.calls).map bare) := Demuxer.Reached.conserved hr

/-- **C62**, all histories: after probing at most one packet per queue is held back. -/
theorem C62_held_back {name : String} {a : Bool} {h : List (Oracle × DemuxOp)} {s : Demuxer} (hr : Reached name a h s)
    (hc : s.completed = true) : ∀ q ∈ s.packets, q.length ≤ 1 := (Demuxer.Reached.inv hr).short hc

/-- **C62** in full. -/
def C62_claim : Prop :=
  ∀ name a h s, Reached name a h s → s.completed = true → ∀ i, (ofTrack i (delivered s.calls)).Perm (timed (ofTrack i (taken s.calls)))

/-- **C62** when first packets come in index order: the handler first gets the packets buffered while probing, sorted by DTS, and
then the others; per track these are the packets taken before the end of probing and after it, in input order, all but the
most recent one, each with its duration. What is missing is histories in which the first packets come in another order, for
which this is false (`C62_claim_violated`). -/
theorem C62_in_order_partial {name : String} {a : Bool} {h : List (Oracle × DemuxOp)} {s : Demuxer} (hr : Reached name a h s)
    (hf : FirstsInOrder (taken s.calls)) (hc : s.completed = true) :
    ∃ early late, delivered s.calls = early ++ late ∧ (early.Pairwise fun a b => ¬ b.dts < a.dts) ∧
      (∀ i, (ofTrack i early).Perm (timed (ofTrack i (taken (beforeComplete s.calls))))) ∧
      ∀ i, timed (ofTrack i (taken s.calls)) = timed (ofTrack i (taken (beforeComplete s.calls))) ++ ofTrack i late := by
  have hq := Demuxer.Reached.queues hr hf
  obtain ⟨⟨r, hpre⟩, early, late, h1, h2, h3, h4, _⟩ := hq.done hc
  refine ⟨early, late, h1, h2, h3, fun i => ?_⟩
  rw [h4 i]
  obtain ⟨r', hr'⟩ := timed_prefix (ofTrack i (taken (beforeComplete s.calls))) (ofTrack i r)
  rw [← ofTrack_append, hpre] at hr'
  rw [hr', List.drop_left]

/-- **C62**: each packet of a track but the most recent one is delivered once, with its duration. -/
theorem C62_each_once_partial {name : String} {a : Bool} {h : List (Oracle × DemuxOp)} {s : Demuxer} (hr : Reached name a h s)
    (hf : FirstsInOrder (taken s.calls)) (hc : s.completed = true) (i : Nat) :
    (ofTrack i (delivered s.calls)).Perm (timed (ofTrack i (taken s.calls))) := by
  obtain ⟨early, late, h1, _, h3, h4⟩ := C62_in_order_partial hr hf hc
  rw [h1, ofTrack_append, h4 i]
  exact (h3 i).append_right _

/-- **C62**: if tracks only come from packets, first packets come in index order, so the above holds for all such histories. -/
theorem C62_packet_input {name : String} {a : Bool} {h : List (Oracle × DemuxOp)} {s : Demuxer} (hr : Reached name a h s)
    (hp : ∀ x ∈ h, x.2.PacketOnly) : FirstsInOrder (taken s.calls) := Demuxer.Reached.firsts hr hp

/-- **C62**: until probing ends nothing is delivered and each queue holds all packets of its track. -/
theorem C62_probing_partial {name : String} {a : Bool} {h : List (Oracle × DemuxOp)} {s : Demuxer} (hr : Reached name a h s)
    (hf : FirstsInOrder (taken s.calls)) (hc : s.completed = false) :
    delivered s.calls = [] ∧ ∀ i, s.packets.getD i [] = timed (ofTrack i (taken s.calls)) ++ (ofTrack i (taken s.calls)).getLast?.toList :=
  (Demuxer.Reached.queues hr hf).probing hc

/-- **C62**: audio input is refused, with one block given back, or taken as it is, for a track of that buffer; it is not refused if
the buffer has a track. -/
theorem C62_audio_input {name : String} {a : Bool} {h : List (Oracle × DemuxOp)} {s s' : Demuxer} (hr : Reached name a h s)
    {o : Oracle} (ho : o.Valid) {b id : Int} {d : Bytes} {ts : Int} (h1 : s.onAudioPacket o b id d ts = ok s') :
    (s'.calls = s.calls ++ [.discardBack b] ∧ b ∉ s.bufferOf.map Prod.snd) ∨
    ∃ p cs, s'.calls = s.calls ++ .accepted p :: cs ∧ taken s'.calls = taken s.calls ++ [p] ∧ p.data = d ∧ p.dts = ts ∧ p.pts = ts ∧
      p.codecID = id ∧ p.mediaType = mediaAudio ∧ p.bufferIndex = b ∧ (p.index, b) ∈ s'.bufferOf := by
  have hi := Demuxer.Reached.inv hr
  obtain ⟨t, s1, hf, h0, h2⟩ := Demuxer.audio_shape ho hi h1
  cases t with
  | none =>
    refine Or.inl ?_
    rw [h0 rfl]
    cases hf with
    | none hn => exact ⟨rfl, hn⟩
  | some u =>
    have h3 := h2 u rfl
    refine Or.inr ⟨Demuxer.audioPkt o b id d ts u, ?_⟩
    obtain ⟨cs, e, hp⟩ := Demuxer.process_adds h3
    have hk := hf.known hi
    have hb := Demuxer.Stays.bufferOf (Demuxer.process_stays h3)
    have e' : s'.calls = s.calls ++ .accepted (Demuxer.audioPkt o b id d ts u) :: cs := by
      rw [e]; simp [Demuxer.call, hf.calls]
    refine ⟨cs, e', ?_, rfl, rfl, rfl, rfl, rfl, rfl, ?_⟩
    · rw [e', show ∀ p : AVPacket, s.calls ++ .accepted p :: cs = s.calls ++ [.accepted p] ++ cs by simp, Demuxer.taken_append, hp.taken,
        List.append_nil, Demuxer.taken_accept]
    · rw [hb]; exact Demuxer.lookup_mem hk

/-- **C62**: the same for video input without a preprocess callback. -/
theorem C62_video_input {name : String} {a : Bool} {h : List (Oracle × DemuxOp)} {s s' : Demuxer} (hr : Reached name a h s)
    {o : Oracle} (ho : o.Valid) (hid : o.preprocess = id) {b cid : Int} {d : Bytes} {k : Bool} {dts pts : Int}
    (h1 : s.onVideoPacket o b cid d k dts pts = ok s') :
    (s'.calls = s.calls ++ [.discardBack b] ∧ b ∉ s.bufferOf.map Prod.snd) ∨
    ∃ p cs, s'.calls = s.calls ++ .accepted p :: cs ∧ taken s'.calls = taken s.calls ++ [p] ∧ p.data = d ∧ p.dts = dts ∧ p.pts = pts ∧
      p.key = k ∧ p.codecID = cid ∧ p.mediaType = mediaVideo ∧ p.packetType = s.getPackType ∧ p.bufferIndex = b ∧
      (p.index, b) ∈ s'.bufferOf := by
  have hi := Demuxer.Reached.inv hr
  obtain ⟨t, s1, hf, h0, h2⟩ := Demuxer.video_shape ho hi h1
  cases t with
  | none =>
    refine Or.inl ?_
    rw [h0 rfl]
    cases hf with
    | none hn => exact ⟨rfl, hn⟩
  | some u =>
    have h3 := h2 u rfl
    refine Or.inr ⟨s.videoPkt b cid d k dts pts u, ?_⟩
    rw [hid] at h3
    obtain ⟨cs, e, hp⟩ := Demuxer.process_adds h3
    have hk := hf.known hi
    have hb := Demuxer.Stays.bufferOf (Demuxer.process_stays h3)
    have e' : s'.calls = s.calls ++ .accepted (s.videoPkt b cid d k dts pts u) :: cs := by
      rw [e]; simp [Demuxer.call, hf.calls]
    refine ⟨cs, e', ?_, rfl, rfl, rfl, rfl, rfl, rfl, rfl, rfl, ?_⟩
    · rw [e', show ∀ p : AVPacket, s.calls ++ .accepted p :: cs = s.calls ++ [.accepted p] ++ cs by simp, Demuxer.taken_append, hp.taken,
        List.append_nil, Demuxer.taken_accept]
    · rw [hb]; exact Demuxer.lookup_mem hk

/-- Two announced tracks, the second one's packets first. -/
def mixedRun : List (Oracle × DemuxOp) :=
  [(exOracle, .newAudioTrack 0 codecPCMS16LE 1000 none {}), (exOracle, .newAudioTrack 1 codecG726 1000 none {}),
   (exOracle, .audioPacket 1 codecG726 [1] 0), (exOracle, .audioPacket 1 codecG726 [2] 1000)]

theorem mixedRun_valid : ∀ x ∈ mixedRun, x.1.Valid := by
  intro x hx
  simp only [mixedRun, List.mem_cons, List.not_mem_nil, or_false] at hx
  rcases hx with rfl | rfl | rfl | rfl <;> exact exOracle_valid

theorem mixedRun_result : ∃ s s', runDemux (Demuxer.new "ts" true) mixedRun = ok s ∧ s.completed = false ∧
    s.onProbeComplete exOracle = ok s' ∧ s'.completed = true ∧
    (ofTrack 1 (delivered s'.calls)).length = 0 ∧ (timed (ofTrack 1 (taken s'.calls))).length = 1 ∧
    (taken s.calls).map AVPacket.index = [1, 1] := by
  have h : (runDemux (Demuxer.new "ts" true) mixedRun >>= fun s => s.onProbeComplete exOracle >>= fun s' => do
      return (s.completed, s'.completed, (ofTrack 1 (delivered s'.calls)).length, (timed (ofTrack 1 (taken s'.calls))).length,
        (taken s.calls).map AVPacket.index)) = ok (false, true, 0, 1, [1, 1]) := by decide +kernel
  obtain ⟨s, h1, h⟩ := bind_eq_ok.1 h
  obtain ⟨s', h2, h⟩ := bind_eq_ok.1 h
  simp only [pure_def, Go.ok.injEq, Prod.mk.injEq] at h
  exact ⟨s, s', h1, h.1, h2, h.2⟩

/-- **C62** is false of the code: if the first packet of track 1 comes before any of track 0 it is put into queue 0, and the
second one, in queue 1, holds back nothing but itself. -/
theorem C62_claim_violated : ¬ C62_claim := by
  intro hc
  obtain ⟨s, s', h1, _, h2, h3, h4, h5, _⟩ := mixedRun_result
  have hr : Reached "ts" true (mixedRun ++ [(exOracle, .probeComplete)]) s' :=
    Reached.append ⟨mixedRun_valid, h1⟩ (by intro x hx; rw [List.mem_singleton] at hx; subst hx; exact exOracle_valid)
      (by show (s.onProbeComplete exOracle >>= _) = _; rw [h2]; rfl)
  have := (hc _ _ _ _ hr h3 1).length_eq
  omega

/-! ## C63 -/

/-- **C63**, all histories: the packets delivered when probing ends are the queued ones but the last of each queue, sorted by DTS. -/
theorem C63_sorted {name : String} {a : Bool} {h : List (Oracle × DemuxOp)} {s s' : Demuxer} (hr : Reached name a h s)
    (hc : s.completed = false) {o : Oracle} (ho : o.Valid) (hs : s.onProbeComplete o = ok s') :
    ∃ rs, delivered s'.calls = delivered s.calls ++ rs ∧ (rs.Pairwise fun a b => a.dts ≤ b.dts) ∧
      (s.tracks.tracks ≠ [] → rs.Perm (s.packets.flatMap List.dropLast)) ∧ (s.tracks.tracks = [] → rs = []) := by
  by_cases ht : s.tracks.tracks = []
  · rw [Demuxer.complete_none o hc ht] at hs
    cases hs
    refine ⟨[], ?_, .nil, fun h => absurd ht h, fun _ => rfl⟩
    dsimp only
    rw [Demuxer.delivered_append]; rfl
  · rw [Demuxer.complete_eq o ho (Demuxer.Reached.inv hr) hc ht] at hs
    cases hs
    refine ⟨_, Demuxer.done_delivered .., (ho.sorted _).imp (by simp), fun _ => ?_, fun h => absurd h ht⟩
    have : (fun q : List AVPacket => q.take (q.length - 1)) = List.dropLast := by funext q; rw [List.dropLast_eq_take]
    rw [← this]
    exact ho.sortPerm _

/-- **C63**: with strictly increasing DTS the input order of a track is kept, whatever the sort does: the packets delivered
are exactly those taken, but the last one. -/
theorem C63_input_order_firsts {name : String} {a : Bool} {h : List (Oracle × DemuxOp)} {s : Demuxer} (hr : Reached name a h s)
    (hf : FirstsInOrder (taken s.calls)) (hc : s.completed = true) (i : Nat)
    (hd : (ofTrack i (taken s.calls)).Pairwise fun a b => a.dts < b.dts) :
    ofTrack i (delivered s.calls) = timed (ofTrack i (taken s.calls)) := by
  obtain ⟨early, late, h1, h2, h3, h4⟩ := C62_in_order_partial hr hf hc
  have hd' : (timed (ofTrack i (taken s.calls))).Pairwise fun a b => a.dts < b.dts := by
    generalize ofTrack i (taken s.calls) = l at hd
    have := (List.Pairwise.sublist (List.take_sublist (l.length - 1) l) hd)
    have h5 : ((l.take (l.length - 1)).map bare).Pairwise fun a b => a.dts < b.dts := List.pairwise_map.2 this
    rw [← timed_map_bare] at h5
    exact (List.pairwise_map (f := bare) (R := fun a b => a.dts < b.dts)).1 h5
  rw [h1, ofTrack_append, h4 i]
  congr 1
  rw [h4 i] at hd'
  have hd1 := (List.pairwise_append.1 hd').1
  refine List.Perm.eq_of_pairwise (le := fun a b => a.dts ≤ b.dts) ?_ ?_ ?_ (h3 i)
  · intro x y hx hy hxy hyx
    have hx' := (h3 i).subset hx
    by_contra hne
    rcases List.pairwise_iff_getElem.1 hd1 with hpair
    obtain ⟨m, hm, rfl⟩ := List.mem_iff_getElem.1 hx'
    obtain ⟨n, hn, rfl⟩ := List.mem_iff_getElem.1 hy
    rcases Nat.lt_trichotomy m n with hlt | rfl | hlt
    · have := hpair m n hm hn hlt; omega
    · exact hne rfl
    · have := hpair n m hn hm hlt; omega
  · exact (h2.sublist List.filter_sublist).imp (by simp)
  · exact hd1.imp (by intro a b; exact Int.le_of_lt)

/-- **C63**: so with packet input. -/
theorem C63_input_order {name : String} {a : Bool} {h : List (Oracle × DemuxOp)} {s : Demuxer} (hr : Reached name a h s)
    (hp : ∀ x ∈ h, x.2.PacketOnly) (hc : s.completed = true) (i : Nat)
    (hd : (ofTrack i (taken s.calls)).Pairwise fun a b => a.dts < b.dts) :
    ofTrack i (delivered s.calls) = timed (ofTrack i (taken s.calls)) :=
  C63_input_order_firsts hr (C62_packet_input hr hp) hc i hd

/-! ## C65, second part -/

/-- **C65**: a packet that is taken ends probing if and only if the packets that then last, in the queue that it joins, sum up
to `ProbeDuration`, at least 200 ms. A packet that is refused does not end it. -/
theorem packet_ends {name : String} {a : Bool} {h : List (Oracle × DemuxOp)} {s s' : Demuxer} (hr : Reached name a h s)
    (hc : s.completed = false) {o : Oracle} (ho : o.Valid) {e : DemuxOp} (he : e.IsPacket) (h1 : e.run o s = ok s') :
    (∃ b, s'.calls = s.calls ++ [.discardBack b] ∧ s'.completed = false) ∨
    ∃ (p : AVPacket) (s1 : Demuxer), taken s'.calls = taken s.calls ++ [p] ∧ s1.calls = s.calls ∧ s1.packets = s.packets ∧ 0 ≤ p.index ∧ s1.completed = false ∧
      (s'.completed = true ↔ ∃ q x, s1.packets[Demuxer.slot s1.packets p]? = some (q ++ [x]) ∧
        max s.probeDuration 200 ≤ bufferedMs o.undef (q ++ [{ x with duration := wrap64 (p.dts - x.dts) }])) := by
  have hi := Demuxer.Reached.inv hr
  have main : ∀ (b : Int) (f : AVStream → AVPacket), (∀ u, (f u).index = u.index) → (∀ u, (f u).bufferIndex = b) →
      (∃ t s1, Demuxer.Front s b t s1 ∧ (t = none → s' = s1.call [.discardBack b]) ∧
        ∀ u, t = some u → (s1.call [.accepted (f u)]).processBufferedPacket o (f u) = ok s') →
      (∃ b, s'.calls = s.calls ++ [.discardBack b] ∧ s'.completed = false) ∨
      ∃ (p : AVPacket) (s1 : Demuxer), taken s'.calls = taken s.calls ++ [p] ∧ s1.calls = s.calls ∧ s1.packets = s.packets ∧ 0 ≤ p.index ∧ s1.completed = false ∧
        (s'.completed = true ↔ ∃ q x, s1.packets[Demuxer.slot s1.packets p]? = some (q ++ [x]) ∧
          max s.probeDuration 200 ≤ bufferedMs o.undef (q ++ [{ x with duration := wrap64 (p.dts - x.dts) }])) := by
    rintro b f hfi hfb ⟨t, s1, hf, h0, h2⟩
    cases t with
    | none =>
      refine Or.inl ⟨b, ?_⟩
      rw [h0 rfl]
      cases hf with
      | none hn => exact ⟨rfl, hc⟩
    | some u =>
      have h3 := h2 u rfl
      have hi1 := hi.micros hf.micros
      have hk : Demuxer.Known s1 (f u) := by unfold Demuxer.Known; rw [hfi, hfb]; exact hf.known hi
      have hc1 : s1.completed = false := by cases hf <;> exact hc
      have hp1 : s1.packets = s.packets := by cases hf <;> rfl
      have hpd : s1.probeDuration = s.probeDuration := by cases hf <;> rfl
      obtain ⟨cs, e, hp⟩ := Demuxer.process_adds h3
      refine Or.inr ⟨f u, s1, ?_, hf.calls, hp1, (hi1.range hk).1, hc1, ?_⟩
      · rw [e, Demuxer.taken_append, hp.taken, List.append_nil]
        show taken (s1.calls ++ _) = _
        rw [Demuxer.taken_accept, hf.calls]
      · rw [← hpd]
        exact Demuxer.process_completes ho hi1 hk hc1 h3
  cases e with
  | audioPacket b id d ts => exact main b _ (fun _ => rfl) (fun _ => rfl) (Demuxer.audio_shape ho hi h1)
  | videoPacket b id d k dts pts => exact main b _ (fun _ => ho.index _) (fun _ => ho.buffer _) (Demuxer.video_shape ho hi h1)
  | _ => exact absurd he (by simp [DemuxOp.IsPacket])

/-- **C65** for one operation. -/
def EndsWhenEnough (o : Oracle) (s s' : Demuxer) : Prop :=
  (taken s'.calls = taken s.calls ∧ s'.completed = false) ∨
  ∃ p, taken s'.calls = taken s.calls ++ [p] ∧
    (s'.completed = true ↔ max s.probeDuration 200 ≤ bufferedMs o.undef (timed (ofTrack p.index.toNat (taken s'.calls))))

/-- **C65** in full. -/
def C65_claim : Prop :=
  ∀ name a h s, Reached name a h s → s.completed = false → ∀ o : Oracle, o.Valid → ∀ e : DemuxOp, e.IsPacket → ∀ s', e.run o s = ok s' →
    EndsWhenEnough o s s'

/-- **C65** when first packets come in index order, as they do when tracks only come from packets (`C62_packet_input`): a packet ends
probing if and only if the packets of its track, all but itself, last `ProbeDuration` ms and at least 200 ms. -/
theorem C65_on_packet_partial {name : String} {a : Bool} {h : List (Oracle × DemuxOp)} {s s' : Demuxer} (hr : Reached name a h s)
    (hc : s.completed = false) {o : Oracle} (ho : o.Valid) {e : DemuxOp} (he : e.IsPacket) (h1 : e.run o s = ok s')
    (hf : FirstsInOrder (taken s'.calls)) : EndsWhenEnough o s s' := by
  rcases packet_ends hr hc ho he h1 with ⟨b, e1, e2⟩ | ⟨p, s1, e1, e2, e3, h0, hc1, hiff⟩
  · exact Or.inl ⟨by rw [e1, Demuxer.taken_reject], e2⟩
  · refine Or.inr ⟨p, e1, ?_⟩
    rw [e1] at hf ⊢
    have hq := Demuxer.Reached.queues hr hf.prefix
    rw [hiff, e3]
    exact hq.joins hc h0 hf (fun l => max s.probeDuration 200 ≤ bufferedMs o.undef l) (by
      have : bufferedMs o.undef [] = 0 := by simp [bufferedMs, wrap64]
      rw [this]; omega)

/-- **C65** if tracks only come from packets. -/
theorem C65_packet_input {name : String} {a : Bool} {h : List (Oracle × DemuxOp)} {s s' : Demuxer} (hr : Reached name a h s)
    (hp : ∀ x ∈ h, x.2.PacketOnly) (hc : s.completed = false) {o : Oracle} (ho : o.Valid) {e : DemuxOp} (he : e.IsPacket)
    (h1 : e.run o s = ok s') : EndsWhenEnough o s s' := by
  have hr' : Reached name a (h ++ [(o, e)]) s' :=
    Reached.append hr (by intro x hx; rw [List.mem_singleton] at hx; subst hx; exact ho)
      (by show (e.run o s >>= _) = _; rw [h1]; rfl)
  refine C65_on_packet_partial hr hc ho he h1 (C62_packet_input hr' fun x hx => (List.mem_append.1 hx).elim (hp x) ?_)
  intro hx
  rw [List.mem_singleton] at hx
  subst hx
  cases e <;> trivial

/-- **C65** is false of the code for other histories: two packets of track 1, 1000 ms apart, do not end probing. -/
theorem C65_claim_violated : ¬ C65_claim := by
  intro hcl
  have h : (runDemux (Demuxer.new "ts" true) (mixedRun.take 3) >>= fun s => (DemuxOp.audioPacket 1 codecG726 [2] 1000).run exOracle s >>= fun s' => do
      return (s.completed, s'.completed, (taken s'.calls).map (fun p => p.index.toNat), s.probeDuration,
        (taken s.calls).length, bufferedMs 0 (timed (ofTrack 1 (taken s'.calls))))) =
      ok (false, false, [1, 1], 0, 1, 1000) := by decide +kernel
  obtain ⟨s, h1, h⟩ := bind_eq_ok.1 h
  obtain ⟨s', h2, h⟩ := bind_eq_ok.1 h
  simp only [pure_def, Go.ok.injEq, Prod.mk.injEq] at h
  obtain ⟨e1, e2, e3, e4, e5, e6⟩ := h
  rcases hcl _ _ _ s ⟨fun x hx => mixedRun_valid x (List.mem_of_mem_take hx), h1⟩ e1 exOracle exOracle_valid (.audioPacket 1 codecG726 [2] 1000) trivial s' h2 with ⟨h3, _⟩ | ⟨p, h3, h4⟩
  · have := congrArg List.length e3
    rw [h3, List.length_map, e5] at this; cases this
  · have hp : p.index.toNat = 1 := by
      rw [h3, List.map_append] at e3
      have := congrArg List.getLast? e3
      simpa using this
    rw [hp, show exOracle.undef = 0 from rfl, e6, e2, e4] at h4
    revert h4; decide

/-! ## Examples (`demoRun` and its hypotheses: see `Props/Demuxer.lean`) -/

/-- What is held back is the last packet of each track; DTS and durations of track 1 are as `timed` says. -/
example : (runDemux (Demuxer.new "ps" true) demoRun >>= fun s => ok (s.completed, s.packets.map List.length,
      (ofTrack 1 (taken s.calls)).map AVPacket.dts, (ofTrack 1 (delivered s.calls)).map fun p => (p.dts, p.duration))) =
    ok (true, [1, 1], [100, 550, 1000], [(100, 450), (550, 450)]) := by decide +kernel

/-- Equal and decreasing DTS: what is delivered at the end of probing is sorted. -/
example : (runDemux (Demuxer.new "ps" true) [(exOracle, .audioPacket 0 codecPCMS16LE [1] 90), (exOracle, .audioPacket 0 codecPCMS16LE [2] 30),
      (exOracle, .audioPacket 1 codecPCMS16LE [3] 30), (exOracle, .audioPacket 0 codecPCMS16LE [4] 60), (exOracle, .audioPacket 1 codecPCMS16LE [5] 60),
      (exOracle, .probeComplete)] >>= fun s => ok (s.completed, (delivered s.calls).map fun p => (p.dts, p.data))) =
    ok (true, [(30, [2]), (30, [3]), (90, [1])]) := by decide +kernel

/-- 17100 / 90 = 190 ms is not enough, 18000 / 90 = 200 ms is. -/
example : (runDemux (Demuxer.new "ps" true) [(exOracle, .audioPacket 0 codecPCMS16LE [1] 0), (exOracle, .audioPacket 0 codecPCMS16LE [2] 17100)] >>=
      fun s => ok s.completed) = ok false ∧
    (runDemux (Demuxer.new "ps" true) [(exOracle, .audioPacket 0 codecPCMS16LE [1] 0), (exOracle, .audioPacket 0 codecPCMS16LE [2] 18000)] >>=
      fun s => ok s.completed) = ok true := by decide +kernel

end Avf
