import Mathlib.Data.List.Chain
import Verif.Spec.ProbeTime
import Verif.Lemmas.EndToEnd
import Verif.Lemmas.Millis
import Verif.Lemmas.DemuxerLoad
import Verif.Props.DemuxerLanes
/-! # Lemmas: the time that probing has seen -/
namespace Avf
open Go

theorem timebaseOf_cases (name : String) : timebaseOf name = 90000 ∨ timebaseOf name = 1000 := by
  unfold timebaseOf; split
  · exact Or.inl rfl
  · exact Or.inr rfl

/-- A duration in milliseconds is cut to whole milliseconds. -/
theorem duration_ms (undef : Int) (p : AVPacket) (htb : p.timebase = 90000 ∨ p.timebase = 1000) (h0 : 0 ≤ p.duration)
    (h1 : p.duration ≤ 2 ^ 51) : p.getDuration undef 1000 = 1000 * p.duration / p.timebase := by
  unfold AVPacket.getDuration
  rcases htb with htb | htb
  · rw [if_neg (by rw [htb]; decide), htb, convertTs_ms undef (by rw [abs_of_nonneg h0]; exact h1), Int.tdiv_eq_ediv_of_nonneg h0]
    omega
  · rw [if_pos htb, htb]
    omega

/-- The sum of the durations of packets. -/
def msSum (undef : Int) (ps : List AVPacket) : Int := ((timed ps).map fun p => p.getDuration undef 1000).sum

theorem wrap64_small {x : Int} (h0 : -2 ^ 63 ≤ x) (h1 : x < 2 ^ 63) : wrap64 x = x := by
  unfold wrap64; omega

theorem msSum_eq (undef tb : Int) (htb : tb = 90000 ∨ tb = 1000) : ∀ (l : List AVPacket),
    (∀ q ∈ l, q.timebase = tb ∧ -2 ^ 50 ≤ q.dts ∧ q.dts ≤ 2 ^ 50) → l.IsChain (fun f g => f.dts ≤ g.dts) →
    msSum undef l = wholeMs tb (l.map (·.dts))
  | [], _, _ => rfl
  | [_], _, _ => rfl
  | p :: q :: l, hq, hc => by
    rw [List.isChain_cons_cons] at hc
    have ih := msSum_eq undef tb htb (q :: l) (fun x hx => hq x (List.mem_cons_of_mem _ hx)) hc.2
    have hp := hq p (by simp)
    have hq' := hq q (by simp)
    have hs : msSum undef (p :: q :: l) =
        ({ p with duration := wrap64 (q.dts - p.dts) } : AVPacket).getDuration undef 1000 + msSum undef (q :: l) := rfl
    rw [hs, ih, wrap64_small (by omega) (by omega),
      duration_ms undef { p with duration := q.dts - p.dts } (by show p.timebase = _ ∨ p.timebase = _; rw [hp.1]; exact htb)
        (by show 0 ≤ q.dts - p.dts; omega) (by show q.dts - p.dts ≤ _; omega)]
    show 1000 * (q.dts - p.dts) / p.timebase + _ = _
    rw [hp.1]; rfl

/-- Cutting to whole milliseconds takes less than one millisecond off for each packet but the first, and never adds anything. -/
theorem wholeMs_bounds {tb : Int} (htb : tb = 90000 ∨ tb = 1000) (k : Nat) : ∀ (l : List Int) (a : Int), (a :: l).IsChain (fun x y => x ≤ y) →
    a ≤ (a :: l).getLast (by simp) ∧ 0 ≤ wholeMs tb (a :: l) ∧ wholeMs tb (a :: l) * tb ≤ 1000 * ((a :: l).getLast (by simp) - a) ∧
    (1000 * ((a :: l).getLast (by simp) - a) ≤ wholeMs tb (a :: l) * tb + l.length * (tb - 1000)) ∧
    ((a :: l).IsChain (fun x y => (k : Int) * tb ≤ 1000 * (y - x)) → (l.length : Int) * k ≤ wholeMs tb (a :: l)) := by
  intro l
  induction l with
  | nil =>
    intro a _
    have : wholeMs tb [a] = 0 := rfl
    rw [this]; simp
  | cons b l ih =>
    intro a hc
    rw [List.isChain_cons_cons] at hc
    obtain ⟨i1, i2, i3, i4, i5⟩ := ih b hc.2
    have hl : (a :: b :: l).getLast (by simp) = (b :: l).getLast (by simp) := List.getLast_cons_cons
    have hw : wholeMs tb (a :: b :: l) = 1000 * (b - a) / tb + wholeMs tb (b :: l) := rfl
    have hle := hc.1
    rw [hl, hw]
    generalize (b :: l).getLast (by simp) = z at *
    generalize wholeMs tb (b :: l) = m at *
    rw [List.length_cons]
    refine ⟨by omega, ?_, ?_, ?_, fun hk => ?_⟩
    · rcases htb with rfl | rfl <;> omega
    · rcases htb with rfl | rfl <;> omega
    · rcases htb with rfl | rfl <;> push_cast <;> omega
    · rw [List.isChain_cons_cons] at hk
      have h5 := i5 hk.2
      have e : ((l.length + 1 : Nat) : Int) * k = (l.length : Int) * k + k := by push_cast; ring
      have h6 : (k : Int) ≤ 1000 * (b - a) / tb := by
        rcases htb with rfl | rfl <;> omega
      omega

theorem msSum_eq_undef (undef : Int) {tb : Int} (htb : tb = 90000 ∨ tb = 1000) {l : List AVPacket}
    (hq : ∀ q ∈ l, q.timebase = tb ∧ -2 ^ 50 ≤ q.dts ∧ q.dts ≤ 2 ^ 50) (hc : l.IsChain (fun f g => f.dts ≤ g.dts)) :
    msSum undef l = msSum 0 l := by rw [msSum_eq undef tb htb l hq hc, msSum_eq 0 tb htb l hq hc]

theorem msSum_small {undef tb : Int} (htb : tb = 90000 ∨ tb = 1000) {l : List AVPacket}
    (hq : ∀ q ∈ l, q.timebase = tb ∧ -2 ^ 50 ≤ q.dts ∧ q.dts ≤ 2 ^ 50) (hc : l.IsChain (fun f g => f.dts ≤ g.dts)) :
    bufferedMs undef (timed l) = msSum 0 l := by
  unfold bufferedMs
  cases l with
  | nil => rfl
  | cons p l =>
    rw [← msSum_eq_undef undef htb hq hc]
    have e := msSum_eq undef tb htb (p :: l) hq hc
    obtain ⟨b1, b2, b3, _, _⟩ := wholeMs_bounds htb 0 (l.map (·.dts)) p.dts (by
      rw [← List.map_cons (f := fun x : AVPacket => x.dts), List.isChain_map]; exact hc)
    rw [← List.map_cons (f := fun x : AVPacket => x.dts)] at b2
    have hlast : ∃ x ∈ p :: l, x.dts = (p.dts :: l.map (·.dts)).getLast (by simp) := by
      have := List.getLast_mem (l := (p :: l).map (·.dts)) (by simp)
      obtain ⟨x, hx, h⟩ := List.mem_map.1 this
      exact ⟨x, hx, h⟩
    obtain ⟨x, hx, hxe⟩ := hlast
    have hx' := (hq x hx).2
    have hp := (hq p (by simp)).2.1
    rw [← hxe] at b3
    have b3' : msSum undef (p :: l) * tb ≤ 1000 * (x.dts - p.dts) := by rw [e]; exact b3
    rw [← e] at b2
    refine wrap64_small ?_ ?_
    · show _ ≤ msSum undef (p :: l); omega
    · show msSum undef (p :: l) < _
      rcases htb with rfl | rfl <;> omega

/-- Packets have the time base of the demuxer. -/
theorem taken_timebase {name : String} {a : Bool} (hn : KnownName name) : ∀ (l : List (Oracle × DemuxOp)) {h : List (Oracle × DemuxOp)} {s s' : Demuxer},
    Reached name a h s → (∀ x ∈ h ++ l, x.2.PacketOnly) → (∀ x ∈ l, x.1.Valid ∧ x.1.preprocess = id) → runDemux s l = ok s' →
    (∀ p ∈ taken s.calls, p.timebase = timebaseOf name) → ∀ p ∈ taken s'.calls, p.timebase = timebaseOf name := by
  intro l
  induction l with
  | nil => intro h s s' _ _ _ h1 hs; cases h1; exact hs
  | cons x l ih =>
    intro h s s' hr hp hv h1 hs
    obtain ⟨o, e⟩ := x
    obtain ⟨s1, h2, h3⟩ := bind_eq_ok.1 h1
    obtain ⟨ho, hid⟩ := hv _ (List.mem_cons_self ..)
    have hr1 : Reached name a (h ++ [(o, e)]) s1 := Reached.append hr (by intro x hx; rw [List.mem_singleton] at hx; subst hx; exact ho) (by
      show (e.run o s >>= _) = _
      rw [h2]; rfl)
    refine ih hr1 (by simpa using hp) (fun x hx => hv x (List.mem_cons_of_mem _ hx)) h3 ?_
    have hi := Demuxer.Reached.inv hr
    -- tracks
    have htr : ∀ t ∈ s1.tracks.tracks, t.timebase = timebaseOf name := by
      refine Demuxer.runDemux_tracks (P := fun t => t.timebase = timebaseOf name) (s := Demuxer.new name a) ?_ ?_ ?_ hr1.2
      · intro t t' hf ht; rw [(Demuxer.Fine.fields hf).2.2.1]; exact ht
      · intro x hx s2 u hs2 _ hm
        have hpx : x.2.PacketOnly := hp x (by
          rcases List.mem_append.1 hx with hx | hx
          · exact List.mem_append_left _ hx
          · rw [List.mem_singleton] at hx; subst hx; simp)
        have hs2 : s2.name = name := hs2
        have hgt : ∀ tb, s2.getTimebase = ok tb → tb = timebaseOf name := by
          intro tb ht
          rw [Demuxer.getTimebase_known (by rw [hs2]; exact hn), hs2] at ht
          cases ht; rfl
        generalize x.2 = e at hm hpx
        cases hm with
        | audio b id d ts tb skip e c u hx ht hu =>
          obtain ⟨c', rfl, _⟩ := hu
          exact hgt tb ht
        | video b id d e k dts pts tb u hk hx ht hu =>
          obtain ⟨config, _, rfl⟩ := hu
          exact hgt tb ht
        | newAudio => exact absurd hpx id
        | newVideo => exact absurd hpx id
      · intro t ht; cases ht
    have key : ∀ (b : Int) (t : Option AVStream) (s2 : Demuxer) (f : AVStream → AVPacket), (∀ u, (f u).timebase = u.timebase) →
        Demuxer.Front s b t s2 → (t = none → s1 = s2.call [.discardBack b]) →
        (∀ u, t = some u → (s2.call [.accepted (f u)]).processBufferedPacket o (f u) = ok s1) →
        ∀ p ∈ taken s1.calls, p.timebase = timebaseOf name := by
      intro b t s2 f hft hf h0 hu p hpt
      cases t with
      | none =>
        rw [h0 rfl] at hpt
        have : taken (s2.call [.discardBack b]).calls = taken s2.calls := Demuxer.taken_reject ..
        rw [this, hf.calls] at hpt
        exact hs p hpt
      | some u =>
        have hpr := hu u rfl
        obtain ⟨cs, e, hpl⟩ := Demuxer.process_adds hpr
        rw [e, Demuxer.taken_append, hpl.taken, List.append_nil] at hpt
        have : taken (s2.call [.accepted (f u)]).calls = taken s.calls ++ [f u] := by
          show taken (s2.calls ++ _) = _
          rw [Demuxer.taken_accept, hf.calls]
        rw [this, List.mem_append, List.mem_singleton] at hpt
        rcases hpt with hpt | rfl
        · exact hs p hpt
        · rw [hft]
          have hmem : u ∈ s2.tracks.tracks := by
            cases hf with
            | old _ hm _ => exact hm
            | new => simp
          have ht := Demuxer.process_tuned hpr
          have : ∃ u' ∈ s1.tracks.tracks, Demuxer.Fine u u' := by
            have ht : List.Forall₂ Demuxer.Fine s2.tracks.tracks s1.tracks.tracks := ht
            clear * - ht hmem
            generalize s2.tracks.tracks = ts at ht hmem
            generalize s1.tracks.tracks = ts' at ht
            induction ht with
            | nil => cases hmem
            | @cons a b l l' hab _ ih =>
              rcases List.mem_cons.1 hmem with rfl | hm
              · exact ⟨b, by simp, hab⟩
              · obtain ⟨x, hx, hf⟩ := ih hm
                exact ⟨x, List.mem_cons_of_mem _ hx, hf⟩
          obtain ⟨u', hu', hfine⟩ := this
          rw [← (Demuxer.Fine.fields hfine).2.2.1]
          exact htr u' hu'
    by_cases he : e.IsPacket
    · cases e with
      | audioPacket b id d ts =>
        obtain ⟨t, s2, hf, h0, hu⟩ := Demuxer.audio_shape ho hi h2
        exact key b t s2 _ (fun _ => rfl) hf h0 hu
      | videoPacket b id d k dts pts =>
        obtain ⟨t, s2, hf, h0, hu⟩ := Demuxer.video_shape ho hi h2
        rw [hid] at hu
        exact key b t s2 _ (fun _ => rfl) hf h0 hu
      | _ => exact absurd he (by simp [DemuxOp.IsPacket])
    · obtain ⟨_, cs, hc, hpl⟩ := other_op ho hi (hp (o, e) (by simp)) he h2
      rw [hc, Demuxer.taken_append, hpl.taken, List.append_nil]
      exact hs

theorem reached_timebase {name : String} {a : Bool} {h : List (Oracle × DemuxOp)} {s : Demuxer} (hn : KnownName name) (hr : Reached name a h s)
    (hp : ∀ x ∈ h, x.2.PacketOnly) (hid : ∀ x ∈ h, x.1.preprocess = id) : ∀ p ∈ taken s.calls, p.timebase = timebaseOf name :=
  taken_timebase hn h (reached_new name a) (by simpa using hp) (fun x hx => ⟨hr.1 x hx, hid x hx⟩) hr.2 (by intro p h; cases h)

theorem forall₂_chain {α β : Type} {R : α → β → Prop} {A : α → α → Prop} {B : β → β → Prop} {l : List α} {l' : List β}
    (h : List.Forall₂ R l l') (hAB : ∀ a a' b b', R a b → R a' b' → A a a' → B b b') (hc : l.IsChain A) : l'.IsChain B := by
  induction h with
  | nil => exact .nil
  | @cons a b l l' hab ht ih =>
    cases ht with
    | nil => exact .singleton _
    | @cons a' b' l l' hab' ht =>
      rw [List.isChain_cons_cons] at hc ⊢
      exact ⟨hAB _ _ _ _ hab hab' hc.1, ih hc.2⟩

/-- The packets that were taken for a buffer: time base, range, distance. -/
theorem taken_paced {name : String} {a : Bool} {h : List (Oracle × DemuxOp)} {s : Demuxer} {ms : Nat} (hn : KnownName name) (hr : Reached name a h s)
    (hp : ∀ x ∈ h, x.2.PacketOnly) (hid : ∀ x ∈ h, x.1.preprocess = id) (hd : Paced ms name h) (b : Int) :
    (∀ q ∈ ofBuffer b (taken s.calls), q.timebase = timebaseOf name ∧ -2 ^ 50 ≤ q.dts ∧ q.dts ≤ 2 ^ 50) ∧
    (ofBuffer b (taken s.calls)).IsChain (fun f g => (ms : Int) * timebaseOf name ≤ 1000 * (g.dts - f.dts)) ∧
    (ofBuffer b (taken s.calls)).IsChain (fun f g => f.dts ≤ g.dts) := by
  obtain ⟨_, hm⟩ := taken_frames hr hp hid b
  have hch : (ofBuffer b (taken s.calls)).IsChain (fun f g => (ms : Int) * timebaseOf name ≤ 1000 * (g.dts - f.dts)) := by
    refine forall₂_chain hm (fun f g p q hf hg hfg => ?_) ((hd.apart b).drop (refusals b s.calls))
    rw [hf.dts, hg.dts]; exact hfg
  refine ⟨fun q hq => ?_, hch, hch.imp fun f g hfg => ?_⟩
  · refine ⟨reached_timebase hn hr hp hid q (List.mem_of_mem_filter hq), ?_⟩
    obtain ⟨f, hf, hfq⟩ := forall₂_mem hm hq
    rw [hfq.dts]
    exact hd.range b f (List.mem_of_mem_drop hf)
  · have : (0 : Int) ≤ (ms : Int) * timebaseOf name := by
      rcases timebaseOf_cases name with e | e <;> rw [e] <;> omega
    omega

theorem framesOf_append (b : Int) (h h' : List (Oracle × DemuxOp)) : framesOf b (h ++ h') = framesOf b h ++ framesOf b h' :=
  List.filterMap_append ..

theorem Paced.prefix {ms : Nat} {name : String} {h h' : List (Oracle × DemuxOp)} (hd : Paced ms name (h ++ h')) : Paced ms name h :=
  ⟨fun b => by have := hd.apart b; rw [framesOf_append] at this; exact (List.isChain_append.1 this).1,
   fun b f hf => hd.range b f (by rw [framesOf_append]; exact List.mem_append_left _ hf)⟩

theorem forwardPacket_setting {s s' : Demuxer} {p : AVPacket} (h : s.forwardPacket p = ok s') : s'.probeDuration = s.probeDuration := by
  unfold Demuxer.forwardPacket at h
  dsimp only at h
  split at h
  · split at h
    · cases h
    · cases h; rfl
  · cases h; rfl

theorem forwardAll_setting {ps : List AVPacket} {s s' : Demuxer} (h : s.forwardAll ps = ok s') : s'.probeDuration = s.probeDuration := by
  induction ps generalizing s with
  | nil => cases h; rfl
  | cons p ps ih =>
    obtain ⟨s1, h1, h2⟩ := bind_eq_ok.1 h
    rw [ih h2, forwardPacket_setting h1]

theorem onProbeComplete_setting {o : Oracle} {s s' : Demuxer} (h : s.onProbeComplete o = ok s') : s'.probeDuration = s.probeDuration := by
  unfold Demuxer.onProbeComplete at h
  split at h
  · cases h; rfl
  · dsimp only at h
    split at h
    · cases h; rfl
    · rw [Demuxer.prepare_eq, ok_bind] at h
      have := forwardAll_setting h; exact this

theorem enqueue_setting {o : Oracle} {s s' : Demuxer} {i : Int} {p : AVPacket} (h : s.enqueue o i p = ok s') : s'.probeDuration = s.probeDuration := by
  unfold Demuxer.enqueue at h
  obtain ⟨q, _, h⟩ := bind_eq_ok.1 h
  dsimp only at h
  split at h
  · cases h; rfl
  · obtain ⟨pp, _, h⟩ := bind_eq_ok.1 h
    split at h
    · obtain ⟨x, _, h⟩ := bind_eq_ok.1 h
      have := forwardPacket_setting h; exact this
    · split at h
      · have := onProbeComplete_setting h; exact this
      · cases h; rfl

theorem process_setting {o : Oracle} {s s' : Demuxer} {p : AVPacket} (h : s.processBufferedPacket o p = ok s') :
    s'.probeDuration = s.probeDuration := by
  unfold Demuxer.processBufferedPacket at h
  split at h
  · exact enqueue_setting h
  · have := enqueue_setting h; exact this

theorem Demuxer.Front.setting {s s1 : Demuxer} {b : Int} {t : Option AVStream} (h : Demuxer.Front s b t s1) : s1.probeDuration = s.probeDuration := by
  cases h <;> rfl

/-- Only `SetProbeDuration` sets the time to probe. -/
theorem run_setting {o : Oracle} (ho : o.Valid) {s s' : Demuxer} (hi : Demuxer.Inv s) {e : DemuxOp} (hp : e.PacketOnly)
    (h : e.run o s = ok s') : s'.probeDuration = s.probeDuration ∨ e = .setProbeDuration s'.probeDuration := by
  cases e with
  | findBufferIndex m =>
    simp only [DemuxOp.run, Go.ok.injEq] at h
    unfold Demuxer.findBufferIndex at h
    split at h <;> (cases h; exact Or.inl rfl)
  | setProbeDuration n => cases h; exact Or.inr rfl
  | probeComplete => exact Or.inl (onProbeComplete_setting h)
  | tryCompleteProbe =>
    simp only [DemuxOp.run] at h
    unfold Demuxer.tryCompleteProbe at h
    dsimp only at h
    split at h
    · cases h; exact Or.inl rfl
    · exact Or.inl (onProbeComplete_setting h)
  | newAudioTrack => exact absurd hp id
  | newVideoTrack => exact absurd hp id
  | audioPacket b id d ts =>
    obtain ⟨t, s2, hf, h0, hu⟩ := Demuxer.audio_shape ho hi h
    cases t with
    | none => rw [h0 rfl]; exact Or.inl hf.setting
    | some u => exact Or.inl ((process_setting (hu u rfl)).trans hf.setting)
  | videoPacket b id d k dts pts =>
    obtain ⟨t, s2, hf, h0, hu⟩ := Demuxer.video_shape ho hi h
    cases t with
    | none => rw [h0 rfl]; exact Or.inl hf.setting
    | some u => exact Or.inl ((process_setting (hu u rfl)).trans hf.setting)

theorem probe_setting {name : String} {a : Bool} {P : Nat} : ∀ (l : List (Oracle × DemuxOp)) {h : List (Oracle × DemuxOp)} {s s' : Demuxer},
    Reached name a h s → (∀ x ∈ l, x.1.Valid) → (∀ x ∈ l, x.2.PacketOnly) → runDemux s l = ok s' → ProbeAtMost P l → s.probeDuration ≤ P → s'.probeDuration ≤ P := by
  intro l
  induction l with
  | nil => intro h s s' _ _ _ h1 _ hs; cases h1; exact hs
  | cons x l ih =>
    intro h s s' hr hv hp h1 hP hs
    obtain ⟨o, e⟩ := x
    obtain ⟨s1, h2, h3⟩ := bind_eq_ok.1 h1
    have ho := hv _ (List.mem_cons_self ..)
    have hr1 : Reached name a (h ++ [(o, e)]) s1 := Reached.append hr (by intro x hx; rw [List.mem_singleton] at hx; subst hx; exact ho) (by
      show (e.run o s >>= _) = _
      rw [h2]; rfl)
    refine ih hr1 (fun x hx => hv x (List.mem_cons_of_mem _ hx)) (fun x hx => hp x (List.mem_cons_of_mem _ hx)) h3
      (fun x hx => hP x (List.mem_cons_of_mem _ hx)) ?_
    rcases run_setting ho (Demuxer.Reached.inv hr) (hp _ (List.mem_cons_self ..)) h2 with e1 | e1
    · rw [e1]; exact hs
    · exact hP (o, e) (List.mem_cons_self ..) _ e1

theorem reached_snoc {name : String} {a : Bool} {h : List (Oracle × DemuxOp)} {x : Oracle × DemuxOp} {s : Demuxer} (hr : Reached name a (h ++ [x]) s) :
    ∃ s1, Reached name a h s1 ∧ x.1.Valid ∧ x.2.run x.1 s1 = ok s := by
  obtain ⟨s1, h1, h2⟩ := runDemux_prefix hr.2
  obtain ⟨s2, h3, h4⟩ := bind_eq_ok.1 h2
  cases h4
  exact ⟨s1, ⟨fun y hy => hr.1 y (List.mem_append_left _ hy), h1⟩, hr.1 x (by simp), h3⟩

/-- While probing, what is kept of a buffer lasts less than the time to probe. -/
theorem probing_short {name : String} {a : Bool} {P ms : Nat} (hn : KnownName name) : ∀ (h : List (Oracle × DemuxOp)) {s : Demuxer},
    Reached name a h s → (∀ x ∈ h, x.2.PacketOnly) → (∀ x ∈ h, x.1.preprocess = id) → Paced ms name h → ProbeAtMost P h →
    s.completed = false → ∀ b, msSum 0 (ofBuffer b (taken s.calls)) < (max P 200 : Nat) := by
  intro h
  induction h using List.reverseRecOn with
  | nil =>
    intro s hr _ _ _ _ _ b
    cases hr.2
    show (0 : Int) < _
    omega
  | append_singleton h x ih =>
    intro s' hr' hp hid hd hP hc b
    obtain ⟨s, hr, ho, h1⟩ := reached_snoc hr'
    obtain ⟨o, e⟩ := x
    have hp0 : ∀ x ∈ h, x.2.PacketOnly := fun x hx => hp x (List.mem_append_left _ hx)
    have hid0 : ∀ x ∈ h, x.1.preprocess = id := fun x hx => hid x (List.mem_append_left _ hx)
    have hP0 : ProbeAtMost P h := fun x hx => hP x (List.mem_append_left _ hx)
    have hc0 : s.completed = false := by
      by_contra hcn
      have := (C65_once hr (by simpa using hcn) (h' := [(o, e)]) (by intro x hx; rw [List.mem_singleton] at hx; subst hx; exact ho)
        (by show (e.run o s >>= _) = _; rw [h1]; rfl)).1
      rw [hc] at this; cases this
    have hih := ih hr hp0 hid0 hd.prefix hP0 hc0 b
    by_cases he : e.IsPacket
    · rcases C65_packet_input hr hp0 hc0 ho he h1 with ⟨e1, _⟩ | ⟨p, e1, e2⟩
      · rw [e1]; exact hih
      · by_cases hb : p.bufferIndex = b
        · have hpt : p ∈ taken s'.calls := by rw [e1]; simp
          have hk := Demuxer.lookup_mem (Demuxer.Reached.takenKnown hr' p hpt)
          have h0 := taken_nonneg hr' p hpt
          obtain ⟨i, hi⟩ := Int.eq_ofNat_of_zero_le h0
          have htb := track_buffer hr' hp (i := i) (b := b) (by rw [← hb]; rw [hi] at hk; exact hk)
          rw [hi, Int.toNat_natCast, htb] at e2
          obtain ⟨t1, _, t3⟩ := taken_paced hn hr' hp hid hd b
          rw [msSum_small (timebaseOf_cases name) t1 t3] at e2
          have hpd : s.probeDuration ≤ P := probe_setting h (reached_new name a) hr.1 hp0 hr.2 hP0 (by show (0 : Int) ≤ P; omega)
          by_contra hcon
          have := e2.2 (by omega)
          rw [hc] at this; cases this
        · have : ofBuffer b (taken s'.calls) = ofBuffer b (taken s.calls) := by
            rw [e1, ofBuffer_append]; simp [ofBuffer, hb]
          rw [this]; exact hih
    · obtain ⟨_, cs, hcs, hpl⟩ := other_op ho (Demuxer.Reached.inv hr) (hp (o, e) (by simp)) he h1
      rw [hcs, Demuxer.taken_append, hpl.taken, List.append_nil]
      exact hih

end Avf
