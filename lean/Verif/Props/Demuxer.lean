import Verif.Lemmas.DemuxerCalls
/-! # C61, C65 (first part), C66, C67: callbacks, end of probing, track indices, detected rates -/
namespace Avf
open Go

/-! ## C61 -/

/-- **C61**: after any history the handler has seen nothing, or `OnTrackNotFind`, or all tracks in index order, then
`OnTrackComplete`, then only packets of these tracks. -/
theorem C61_order {name : String} {a : Bool} {h : List (Oracle × DemuxOp)} {s : Demuxer} (hr : Reached name a h s) :
    CallOrder (toHandler s.calls) := by
  have hs := Demuxer.Reached.seen hr
  have hi := Demuxer.Reached.inv hr
  cases hc : s.completed with
  | false => exact Or.inl (hs.1 hc)
  | true =>
    rcases hs.2 hc with ⟨_, e⟩ | ⟨ht, ps, e, hp⟩
    · exact Or.inr (Or.inl e)
    · refine Or.inr (Or.inr ⟨s.tracks.tracks, ps, e, ht, hi.index, ?_⟩)
      intro p hpm
      obtain ⟨h0, h1⟩ := hp p hpm
      obtain ⟨n, hn⟩ := Int.eq_ofNat_of_zero_le h0
      rw [hn] at h1
      have h1 : n < s.tracks.tracks.length := by exact_mod_cast h1
      refine ⟨s.tracks.tracks[n], List.getElem_mem h1, ?_⟩
      rw [hn]
      exact (hi.index n _ (List.getElem?_eq_getElem h1)).symm

/-- **C61**: until probing ends the handler sees nothing; when it has ended it has seen `OnTrackNotFind` if there is no track and
the tracks otherwise. -/
theorem C61_when {name : String} {a : Bool} {h : List (Oracle × DemuxOp)} {s : Demuxer} (hr : Reached name a h s) :
    (toHandler s.calls = [] ↔ s.completed = false) ∧
    (s.completed = true → s.tracks.tracks = [] → toHandler s.calls = [.trackNotFound]) ∧
    (s.completed = true → s.tracks.tracks ≠ [] → ∃ ps, toHandler s.calls = s.tracks.tracks.map .newTrack ++ .trackComplete :: ps) := by
  have hs := Demuxer.Reached.seen hr
  refine ⟨⟨fun e => ?_, hs.1⟩, fun hc ht => ?_, fun hc ht => ?_⟩
  · cases hc : s.completed with
    | false => rfl
    | true =>
      rcases hs.2 hc with ⟨_, e'⟩ | ⟨_, ps, e', _⟩
      · rw [e] at e'; cases e'
      · rw [e] at e'; simp at e'
  · rcases hs.2 hc with ⟨_, e⟩ | ⟨ht', _⟩
    · exact e
    · exact absurd ht ht'
  · rcases hs.2 hc with ⟨ht', _⟩ | ⟨_, ps, e, _⟩
    · exact absurd ht' ht
    · exact ⟨_, e⟩

theorem Reached.append {name : String} {a : Bool} {h h' : List (Oracle × DemuxOp)} {s s' : Demuxer} (hr : Reached name a h s)
    (hv : ∀ x ∈ h', x.1.Valid) (hr' : runDemux s h' = ok s') : Reached name a (h ++ h') s' := by
  refine ⟨fun x hx => (List.mem_append.1 hx).elim (hr.1 x) (hv x), ?_⟩
  have : ∀ (s0 : Demuxer), runDemux s0 h = ok s → runDemux s0 (h ++ h') = ok s' := by
    intro s0 h0
    clear hr
    induction h generalizing s0 with
    | nil => cases h0; exact hr'
    | cons x h ih =>
      obtain ⟨o, e⟩ := x
      obtain ⟨s1, h1, h0⟩ := bind_eq_ok.1 h0
      show (e.run o s0 >>= _) = _
      rw [h1]; exact ih s1 h0
  exact this _ hr.2

/-- **C61**: what has been called stays called. -/
theorem C61_grows {name : String} {a : Bool} {h h' : List (Oracle × DemuxOp)} {s s' : Demuxer} (hr : Reached name a h s)
    (hv : ∀ x ∈ h', x.1.Valid) (hr' : runDemux s h' = ok s') : toHandler s.calls <+: toHandler s'.calls :=
  (Demuxer.Micros.grows (Demuxer.runDemux_micros (Demuxer.Reached.inv hr) hv hr')).filter _

/-! ## C65, first part -/

/-- **C65**: after probing no track is added or changed, probing does not start again, and the handler only gets packets. -/
theorem C65_once {name : String} {a : Bool} {h h' : List (Oracle × DemuxOp)} {s s' : Demuxer} (hr : Reached name a h s)
    (hc : s.completed = true) (hv : ∀ x ∈ h', x.1.Valid) (hr' : runDemux s h' = ok s') :
    s'.completed = true ∧ s'.tracks = s.tracks ∧ s'.bufferOf = s.bufferOf ∧
    ∃ ps : List AVPacket, toHandler s'.calls = toHandler s.calls ++ ps.map .packet := by
  have m := Demuxer.runDemux_micros (Demuxer.Reached.inv hr) hv hr'
  obtain ⟨h1, h2, h3⟩ := Demuxer.Micros.frozen m hc
  exact ⟨h1, h2, h3, Demuxer.Micros.after m hc⟩

/-- **C65**: `OnProbeComplete` and `ProbeComplete` end probing whatever has been seen, and do not fail. -/
theorem C65_forced {name : String} {a : Bool} {h : List (Oracle × DemuxOp)} {s : Demuxer} (hr : Reached name a h s)
    {o : Oracle} (ho : o.Valid) : ∃ s', s.onProbeComplete o = ok s' ∧ s'.completed = true := by
  have hi := Demuxer.Reached.inv hr
  cases hc : s.completed with
  | true => exact ⟨s, Demuxer.complete_again o hc, hc⟩
  | false =>
    by_cases ht : s.tracks.tracks = []
    · exact ⟨_, Demuxer.complete_none o hc ht, rfl⟩
    · exact ⟨_, Demuxer.complete_eq o ho hi hc ht, rfl⟩

/-! ## C66 -/

/-- **C66**: the `i`-th track has index `i`, and every track has exactly one entry in the map of buffers. -/
theorem C66_index {name : String} {a : Bool} {h : List (Oracle × DemuxOp)} {s : Demuxer} (hr : Reached name a h s) :
    (∀ (i : Nat) t, s.tracks.tracks[i]? = some t → t.index = i) ∧
    s.bufferOf.map Prod.fst = (List.range s.tracks.tracks.length).map (fun i : Nat => (i : Int)) :=
  ⟨(Demuxer.Reached.inv hr).index, (Demuxer.Reached.inv hr).keys⟩

/-- **C66**: if tracks only come from packets, every buffer belongs to one track, and the lookup gives that track, whatever
the order of iteration of the map. -/
theorem C66_lookup {name : String} {a : Bool} {h : List (Oracle × DemuxOp)} {s : Demuxer} (hr : Reached name a h s)
    (hp : ∀ x ∈ h, x.2.PacketOnly) {o : Oracle} (ho : o.Valid) (b : Int) :
    ∃ r, s.findTrackByBufferIndex o b = ok r ∧ ∀ t, r = some t ↔ ∃ i : Nat, s.tracks.tracks[i]? = some t ∧ ((i : Int), b) ∈ s.bufferOf := by
  have hi := Demuxer.Reached.inv hr
  have hn := Demuxer.runDemux_injective (s := Demuxer.new name a) (Demuxer.Inv.new name a) hr.1 hp hr.2 List.nodup_nil
  have huniq : ∀ e ∈ s.bufferOf, ∀ e' ∈ s.bufferOf, e.2 = e'.2 → e = e' := fun e he e' he' => List.inj_on_of_nodup_map hn he he'
  have hkey : ∀ e ∈ s.bufferOf, ∃ i : Nat, e.1 = (i : Int) ∧ i < s.tracks.tracks.length := by
    intro e he
    have := List.mem_map_of_mem (f := Prod.fst) he
    rw [hi.keys] at this
    obtain ⟨i, h1, h2⟩ := List.mem_map.1 this
    exact ⟨i, h2.symm, List.mem_range.1 h1⟩
  unfold Demuxer.findTrackByBufferIndex
  cases hf : (o.order s.bufferOf).find? (fun e => b = e.2) with
  | none =>
    refine ⟨none, rfl, fun t => ⟨fun e => absurd e (by simp), ?_⟩⟩
    rintro ⟨i, _, hm⟩
    rw [List.find?_eq_none] at hf
    have := hf _ ((ho.order _).symm.subset hm)
    simp at this
  | some e =>
    have hm := (ho.order _).subset (List.mem_of_find?_eq_some hf)
    have hb : b = e.2 := by simpa using List.find?_some hf
    obtain ⟨i, h1, h2⟩ := hkey e hm
    have hget : s.tracks.get e.1 = ok s.tracks.tracks[i] := by
      unfold TrackManager.get
      rw [h1, Demuxer.idxI_natCast, idx_eq_ok]
      exact List.getElem?_eq_getElem h2
    refine ⟨some s.tracks.tracks[i], by dsimp only; rw [hget]; rfl, fun t => ⟨fun ht => ?_, ?_⟩⟩
    · cases ht
      refine ⟨i, List.getElem?_eq_getElem h2, ?_⟩
      rw [hb, ← h1]; exact hm
    · rintro ⟨j, hj, hmj⟩
      have := huniq _ hm _ hmj hb.symm
      rw [this] at h1
      have : j = i := Int.ofNat.inj h1
      subst this
      rw [← hj, List.getElem?_eq_getElem h2]

/-- **C66**: so the result does not depend on the order of iteration. -/
theorem C66_order_free {name : String} {a : Bool} {h : List (Oracle × DemuxOp)} {s : Demuxer} (hr : Reached name a h s)
    (hp : ∀ x ∈ h, x.2.PacketOnly) {o o' : Oracle} (ho : o.Valid) (ho' : o'.Valid) (b : Int) :
    s.findTrackByBufferIndex o b = s.findTrackByBufferIndex o' b := by
  obtain ⟨r, e, h1⟩ := C66_lookup hr hp ho b
  obtain ⟨r', e', h1'⟩ := C66_lookup hr hp ho' b
  rw [e, e']
  congr 1
  cases r with
  | none =>
    cases r' with
    | none => rfl
    | some t => have := (h1 t).2 ((h1' t).1 rfl); cases this
  | some t => exact ((h1' t).2 ((h1 t).1 rfl)).symm

/-- An oracle that iterates maps the other way round. -/
def backOracle : Oracle := { exOracle with order := List.reverse }

theorem backOracle_valid : backOracle.Valid := { exOracle_valid with order := fun m => List.reverse_perm m }

/-- Two tracks of a TS demuxer announced for the same buffer. -/
def twoTracks : List (Oracle × DemuxOp) :=
  [(exOracle, .newAudioTrack 0 codecPCMS16LE 90000 none {}), (exOracle, .newAudioTrack 0 codecG726 90000 none {})]

theorem twoTracks_run : ∃ s, runDemux (Demuxer.new "ts" true) twoTracks = ok s ∧
    s.findTrackByBufferIndex exOracle 0 ≠ s.findTrackByBufferIndex backOracle 0 := by
  refine ⟨_, rfl, ?_⟩
  decide +kernel

/-- What C66 would say without the restriction to packet input. -/
def C66_any_input : Prop :=
  ∀ name a h s, Reached name a h s → ∀ o o' : Oracle, o.Valid → o'.Valid → ∀ b,
    s.findTrackByBufferIndex o b = s.findTrackByBufferIndex o' b

/-- The restriction is needed: tracks announced with `OnNewAudioTrack` can share a buffer, and then the lookup depends on the
order of iteration. -/
theorem C66_any_input_false : ¬ C66_any_input := by
  intro hc
  obtain ⟨s, h1, h2⟩ := twoTracks_run
  refine h2 (hc "ts" true twoTracks s ⟨?_, h1⟩ _ _ exOracle_valid backOracle_valid 0)
  intro x hx
  simp only [twoTracks, List.mem_cons, List.not_mem_nil, or_false] at hx
  rcases hx with rfl | rfl <;> exact exOracle_valid

/-! ## C67 -/

theorem firstPacketOf_eq (u c : Int) (qs : List (List AVPacket)) :
    Demuxer.firstPacketOf u c qs = match firstHead c qs with
      | none => (0, 0)
      | some p => (p.getDuration u 1000, (p.data.length : Int)) := by
  unfold firstHead
  induction qs with
  | nil => rfl
  | cons q qs ih =>
    rcases q with _ | ⟨p, q⟩
    · exact ih
    · unfold Demuxer.firstPacketOf
      by_cases h : p.codecID = c
      · rw [if_neg (by simpa using h)]
        simp [h]
      · rw [if_pos h, ih]
        simp [h]

/-- The tracks after probing, one by one. -/
theorem complete_track {name : String} {a : Bool} {h : List (Oracle × DemuxOp)} {s s' : Demuxer} (hr : Reached name a h s)
    (hc : s.completed = false) {o : Oracle} (ho : o.Valid) (hs : s.onProbeComplete o = ok s') :
    s'.tracks.tracks = s.tracks.tracks.map (Demuxer.retune o.undef s.packets) := by
  by_cases ht : s.tracks.tracks = []
  · rw [Demuxer.complete_none o hc ht] at hs
    cases hs
    dsimp only
    rw [ht]; rfl
  · rw [Demuxer.complete_eq o ho (Demuxer.Reached.inv hr) hc ht] at hs
    cases hs; rfl

theorem tdiv_lt {a b : Int} (ha : 0 ≤ a) (hb : 1 ≤ b) (hl : a < 2 ^ 50) : 0 ≤ Int.tdiv a b ∧ Int.tdiv a b < 2 ^ 50 := by
  rw [Int.tdiv_eq_ediv_of_nonneg ha]
  exact ⟨Int.ediv_nonneg ha (by omega), lt_of_le_of_lt (Int.ediv_le_self b ha) hl⟩

theorem pcmTune_other (u : Int) (qs : List (List AVPacket)) {t : AVStream} (h : t.codecID ≠ codecPCMS16LE) :
    Demuxer.pcmTune u qs t = t := if_pos (Or.inr h)

theorem g726Tune_other (u : Int) (qs : List (List AVPacket)) {t : AVStream} (h : t.codecID ≠ codecG726) :
    Demuxer.g726Tune u qs t = t := if_pos (Or.inr h)

theorem pcmTune_codec (u : Int) (qs : List (List AVPacket)) (t : AVStream) : (Demuxer.pcmTune u qs t).codecID = t.codecID := by
  unfold Demuxer.pcmTune; split <;> rfl

/-- **C67**: G.726 tracks. With a queued packet of at least 1 ms the bit rate becomes the smallest of 16, 24, 32 and 40 kbit/s
that is not below the measured one (whole bytes per ms, times 8000); above 40 kbit/s nothing changes. -/
theorem C67_g726 {name : String} {a : Bool} {h : List (Oracle × DemuxOp)} {s s' : Demuxer} (hr : Reached name a h s)
    (hc : s.completed = false) {o : Oracle} (ho : o.Valid) (hs : s.onProbeComplete o = ok s') {p : AVPacket}
    (hp : firstHead codecG726 s.packets = some p) (hd : 1 ≤ p.getDuration o.undef 1000) (hl : (p.data.length : Int) < 2 ^ 50)
    {i : Nat} {t t' : AVStream} (ht : s.tracks.tracks[i]? = some t) (ht' : s'.tracks.tracks[i]? = some t') (hcod : t.codecID = codecG726)
    {measured : Int} (hmeas : measured = (p.data.length : Int) / p.getDuration o.undef 1000 * 8000) :
    if measured ≤ 40000 then ∃ r, BestRate [16000, 24000, 32000, 40000] measured r ∧ t' = { t with bitRate := r } else t' = t := by
  rw [complete_track hr hc ho hs, List.getElem?_map, ht] at ht'
  obtain rfl := Option.some.inj ht'
  unfold Demuxer.retune
  rw [pcmTune_other _ _ (by rw [hcod]; decide)]
  unfold Demuxer.g726Tune
  rw [firstPacketOf_eq, hp]
  dsimp only
  have hno : ¬ (p.getDuration o.undef 1000 < 1 ∨ t.codecID ≠ codecG726) := by rintro (h' | h') <;> [omega; exact h' hcod]
  rw [if_neg hno]
  obtain ⟨h0, h1⟩ := tdiv_lt (Int.natCast_nonneg p.data.length) hd hl
  have hm : measured = Int.tdiv p.data.length (p.getDuration o.undef 1000) * 8000 := by
    rw [Int.tdiv_eq_ediv_of_nonneg (Int.natCast_nonneg _)]; exact hmeas
  rw [hm]
  generalize Int.tdiv p.data.length (p.getDuration o.undef 1000) = m at h0 h1
  have hw : wrap64 (wrap64 (m * 1000) * 8) = m * 8000 := by
    rw [show wrap64 (m * 1000) = m * 1000 from wrap64_of_range (by omega) (by omega)]
    rw [wrap64_of_range (by omega) (by omega)]; omega
  unfold Demuxer.g726Rate
  dsimp only
  rw [hw]
  by_cases h4 : m * 8000 ≤ 40000
  · rw [if_pos h4]
    by_cases h1 : m * 8000 ≤ 16000
    · rw [if_pos h1]; exact ⟨16000, by simp [BestRate]; omega, rfl⟩
    rw [if_neg h1]
    by_cases h2 : m * 8000 ≤ 24000
    · rw [if_pos h2]; exact ⟨24000, by simp [BestRate]; omega, rfl⟩
    rw [if_neg h2]
    by_cases h3 : m * 8000 ≤ 32000
    · rw [if_pos h3]; exact ⟨32000, by simp [BestRate]; omega, rfl⟩
    rw [if_neg h3, if_pos h4]
    exact ⟨40000, by simp [BestRate]; omega, rfl⟩
  · rw [if_neg h4, if_neg (by omega), if_neg (by omega), if_neg (by omega), if_neg h4]

/-- **C67**: PCM tracks, up to 96 bytes per ms: 8 kHz up to 16 bytes, 16 kHz up to 32, 32 kHz up to 64, 48 kHz up to 96. -/
theorem C67_pcm_partial {name : String} {a : Bool} {h : List (Oracle × DemuxOp)} {s s' : Demuxer} (hr : Reached name a h s)
    (hc : s.completed = false) {o : Oracle} (ho : o.Valid) (hs : s.onProbeComplete o = ok s') {p : AVPacket}
    (hp : firstHead codecPCMS16LE s.packets = some p) (hd : 1 ≤ p.getDuration o.undef 1000)
    (hmax : (p.data.length : Int) / p.getDuration o.undef 1000 ≤ 96)
    {i : Nat} {t t' : AVStream} (ht : s.tracks.tracks[i]? = some t) (ht' : s'.tracks.tracks[i]? = some t') (hcod : t.codecID = codecPCMS16LE) :
    ∃ r limit, (r, limit) ∈ [((8000 : Int), (16 : Int)), (16000, 32), (32000, 64), (48000, 96)] ∧ t' = { t with sampleRate := r } ∧
      BestRate [16, 32, 64, 96] ((p.data.length : Int) / p.getDuration o.undef 1000) limit := by
  rw [complete_track hr hc ho hs, List.getElem?_map, ht] at ht'
  obtain rfl := Option.some.inj ht'
  unfold Demuxer.retune
  rw [g726Tune_other _ _ (by rw [pcmTune_codec, hcod]; decide)]
  unfold Demuxer.pcmTune
  rw [firstPacketOf_eq, hp]
  dsimp only
  rw [if_neg (by rintro (h' | h') <;> [omega; exact h' hcod])]
  have h0 : 0 ≤ (p.data.length : Int) / p.getDuration o.undef 1000 := Int.ediv_nonneg (Int.natCast_nonneg _) (by omega)
  rw [Int.tdiv_eq_ediv_of_nonneg (Int.natCast_nonneg _)]
  generalize (p.data.length : Int) / p.getDuration o.undef 1000 = m at h0 hmax
  unfold Demuxer.pcmRate
  by_cases h1 : m ≤ 16
  · rw [if_pos h1]; exact ⟨8000, 16, by simp, rfl, by simp [BestRate]; omega⟩
  rw [if_neg h1]
  by_cases h2 : m ≤ 32
  · rw [if_pos h2]; exact ⟨16000, 32, by simp, rfl, by simp [BestRate]; omega⟩
  rw [if_neg h2]
  by_cases h3 : m ≤ 64
  · rw [if_pos h3]; exact ⟨32000, 64, by simp, rfl, by simp [BestRate]; omega⟩
  rw [if_neg h3, if_pos hmax]
  exact ⟨48000, 96, by simp, rfl, by simp [BestRate]; omega⟩

/-- **C67**: PCM tracks above 96 bytes per ms: the sample size becomes the sample rate. With `C67_pcm_partial` and `C67_unchanged` this is
all that can happen to a PCM track. -/
theorem C67_pcm_above {name : String} {a : Bool} {h : List (Oracle × DemuxOp)} {s s' : Demuxer} (hr : Reached name a h s)
    (hc : s.completed = false) {o : Oracle} (ho : o.Valid) (hs : s.onProbeComplete o = ok s') {p : AVPacket}
    (hp : firstHead codecPCMS16LE s.packets = some p) (hd : 1 ≤ p.getDuration o.undef 1000)
    (hmin : 96 < (p.data.length : Int) / p.getDuration o.undef 1000)
    {i : Nat} {t t' : AVStream} (ht : s.tracks.tracks[i]? = some t) (ht' : s'.tracks.tracks[i]? = some t') (hcod : t.codecID = codecPCMS16LE) :
    t' = { t with sampleRate := t.sampleSize } := by
  rw [complete_track hr hc ho hs, List.getElem?_map, ht] at ht'
  obtain rfl := Option.some.inj ht'
  unfold Demuxer.retune
  rw [g726Tune_other _ _ (by rw [pcmTune_codec, hcod]; decide)]
  unfold Demuxer.pcmTune
  rw [firstPacketOf_eq, hp]
  dsimp only
  rw [if_neg (by rintro (h' | h') <;> [omega; exact h' hcod])]
  rw [Int.tdiv_eq_ediv_of_nonneg (Int.natCast_nonneg _)]
  generalize (p.data.length : Int) / p.getDuration o.undef 1000 = m at hmin
  unfold Demuxer.pcmRate
  rw [if_neg (by omega), if_neg (by omega), if_neg (by omega), if_neg (by omega)]

/-- **C67**: tracks of other codecs do not change, and no track changes its rate without a queued packet of its codec that
lasts at least 1 ms. So there is no division by zero: completing never fails (`C65_forced`). -/
theorem C67_unchanged {name : String} {a : Bool} {h : List (Oracle × DemuxOp)} {s s' : Demuxer} (hr : Reached name a h s)
    (hc : s.completed = false) {o : Oracle} (ho : o.Valid) (hs : s.onProbeComplete o = ok s')
    {i : Nat} {t t' : AVStream} (ht : s.tracks.tracks[i]? = some t) (ht' : s'.tracks.tracks[i]? = some t')
    (hn : (t.codecID ≠ codecPCMS16LE ∧ t.codecID ≠ codecG726) ∨ ∀ p, firstHead t.codecID s.packets = some p → p.getDuration o.undef 1000 < 1) :
    t' = t := by
  rw [complete_track hr hc ho hs, List.getElem?_map, ht] at ht'
  obtain rfl := Option.some.inj ht'
  have hz : ∀ c, (∀ p, firstHead c s.packets = some p → p.getDuration o.undef 1000 < 1) →
      (Demuxer.firstPacketOf o.undef c s.packets).1 < 1 := by
    intro c hc
    rw [firstPacketOf_eq]
    cases e : firstHead c s.packets with
    | none => exact Int.zero_lt_one
    | some p => exact hc p e
  have h1 : Demuxer.pcmTune o.undef s.packets t = t := by
    rcases hn with hn | hn
    · exact pcmTune_other _ _ hn.1
    · by_cases hcod : t.codecID = codecPCMS16LE
      · rw [hcod] at hn; exact if_pos (Or.inl (hz _ hn))
      · exact pcmTune_other _ _ hcod
  unfold Demuxer.retune
  rw [h1]
  rcases hn with hn | hn
  · exact g726Tune_other _ _ hn.2
  · by_cases hcod : t.codecID = codecG726
    · rw [hcod] at hn; exact if_pos (Or.inl (hz _ hn))
    · exact g726Tune_other _ _ hcod

/-- What C67 asks of PCM tracks: a listed sample rate or, when the measured value is above all limits, the old one. -/
def C67_claim : Prop :=
  ∀ name a h s, Reached name a h s → s.completed = false → ∀ o : Oracle, o.Valid → ∀ s', s.onProbeComplete o = ok s' →
    ∀ (i : Nat) t t', s.tracks.tracks[i]? = some t → s'.tracks.tracks[i]? = some t' → t.codecID = codecPCMS16LE →
      t'.sampleRate ∈ [(8000 : Int), 16000, 32000, 48000] ∨ t'.sampleRate = t.sampleRate

/-- 97 bytes in one ms, 44.1 kHz stereo being announced. -/
def pcmRun : List (Oracle × DemuxOp) :=
  [(exOracle, .newAudioTrack 0 codecPCMS16LE 1000 none { sampleRate := 44100, sampleSize := 2, channels := 2 }),
   (exOracle, .audioPacket 0 codecPCMS16LE (List.replicate 97 7) 0), (exOracle, .audioPacket 0 codecPCMS16LE [1, 2] 1)]

theorem pcmRun_result : ∃ s s' t t', runDemux (Demuxer.new "flv" true) pcmRun = ok s ∧ s.completed = false ∧
    s.onProbeComplete exOracle = ok s' ∧ s.tracks.tracks[0]? = some t ∧ s'.tracks.tracks[0]? = some t' ∧ t.codecID = codecPCMS16LE ∧
    t.sampleRate = 44100 ∧ t'.sampleRate = 2 := by
  have h : (runDemux (Demuxer.new "flv" true) pcmRun >>= fun s => s.onProbeComplete exOracle >>= fun s' => do
      return (s.completed, s.tracks.tracks.map fun t => (t.codecID, t.sampleRate), s'.tracks.tracks.map fun t => t.sampleRate)) =
      ok (false, [(codecPCMS16LE, 44100)], [2]) := by decide +kernel
  obtain ⟨s, h1, h⟩ := bind_eq_ok.1 h
  obtain ⟨s', h2, h⟩ := bind_eq_ok.1 h
  rw [pure_def, Go.ok.injEq, Prod.mk.injEq, Prod.mk.injEq] at h
  obtain ⟨h3, h4, h5⟩ := h
  rcases ht : s.tracks.tracks with _ | ⟨t, r⟩
  · rw [ht] at h4; cases h4
  rcases ht' : s'.tracks.tracks with _ | ⟨t', r'⟩
  · rw [ht'] at h5; cases h5
  rw [ht, List.map_cons, List.cons.injEq, Prod.mk.injEq] at h4
  rw [ht', List.map_cons, List.cons.injEq] at h5
  exact ⟨s, s', t, t', h1, h3, h2, by rw [ht]; rfl, by rw [ht']; rfl, h4.1.1, h4.1.2, h5.1⟩

/-- **C67** is false of the code: the announced sample rate of 44100 becomes 2, the sample size. -/
theorem C67_claim_violated : ¬ C67_claim := by
  intro hc
  obtain ⟨s, s', t, t', h1, h2, h3, h4, h5, h6, h7, h8⟩ := pcmRun_result
  have := hc _ _ pcmRun s ⟨by
    intro x hx
    simp only [pcmRun, List.mem_cons, List.not_mem_nil, or_false] at hx
    rcases hx with rfl | rfl | rfl <;> exact exOracle_valid, h1⟩ h2 _ exOracle_valid s' h3 0 t t' h4 h5 h6
  rw [h7, h8] at this
  revert this; decide

/-! ## An example -/

/-- Two tracks, three packets each; 21 bytes of G.726 in 5 ms. -/
def demoRun : List (Oracle × DemuxOp) :=
  [(exOracle, .audioPacket 3 codecPCMS16LE (List.replicate 320 7) 0), (exOracle, .audioPacket 8 codecG726 (List.replicate 21 1) 100),
   (backOracle, .audioPacket 3 codecPCMS16LE (List.replicate 320 8) 900), (exOracle, .audioPacket 8 codecG726 [2] 550),
   (backOracle, .tryCompleteProbe), (exOracle, .audioPacket 9 codecG726 [9] 1000),
   (exOracle, .audioPacket 3 codecPCMS16LE [9] 1800), (exOracle, .audioPacket 8 codecG726 [3] 1000)]

/-- A short form of a call. -/
def Call.tag : Call → Int × Int × Int
  | .newTrack t => (1, t.index, if t.codecID = codecG726 then t.bitRate else t.sampleRate)
  | .trackComplete => (2, 0, 0)
  | .trackNotFound => (3, 0, 0)
  | .packet p => (4, p.index, p.duration)
  | .discardBack b => (5, b, 0)
  | .discardHead b => (6, b, 0)
  | .free p => (7, p.index, p.duration)
  | .accepted p => (8, p.index, p.dts)

example : ∀ x ∈ demoRun, x.1.Valid ∧ x.2.PacketOnly := by
  intro x hx
  simp only [demoRun, List.mem_cons, List.not_mem_nil, or_false] at hx
  rcases hx with rfl | rfl | rfl | rfl | rfl | rfl | rfl | rfl
  all_goals first | exact ⟨exOracle_valid, trivial⟩ | exact ⟨backOracle_valid, trivial⟩

/-- 320 bytes in 10 ms give 16 kHz, 21 bytes in 5 ms give 32 kbit/s; a packet for a third buffer comes too late. -/
example : (runDemux (Demuxer.new "ps" true) demoRun >>= fun s => ok (s.completed, (s.calls.map Call.tag))) = ok (true,
    [(8, 0, 0), (8, 1, 100), (8, 0, 900), (8, 1, 550), (1, 0, 16000), (1, 1, 32000), (2, 0, 0), (4, 0, 900), (6, 3, 0), (7, 0, 900),
     (4, 1, 450), (6, 8, 0), (7, 1, 450), (5, 9, 0), (8, 0, 1800), (4, 0, 900), (6, 3, 0), (7, 0, 900), (8, 1, 1000), (4, 1, 450),
     (6, 8, 0), (7, 1, 450)]) := by decide +kernel

end Avf
