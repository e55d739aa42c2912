import Verif.Lemmas.Pieces
import Verif.Lemmas.DemuxerSource
/-! # Lemmas: exactly which operations panic -/
namespace Avf
open Go
namespace Demuxer

/-- Tracks of H.264 and H.265 have parameter sets that can be split again. -/
def Splittable (s : Demuxer) : Prop := s.name ≠ "flv" → ∀ t ∈ s.tracks.tracks, HasSets t.codecID → dataIsNil t = true ∨ ¬ BadUnits t.data

theorem parseMpeg4_short {d : Bytes} (h : d.length < 2) : parseMpeg4AudioConfig d = panic := by
  match d, h with
  | [], _ => rfl
  | [a], _ => rfl

theorem createAudio_cases {s : Demuxer} (b id tb : Int) (e : Option Bytes) (c : AudioConfig) :
    (id = codecAAC ∧ c.hasADTSHeader = false ∧ (e.getD []).length < 2) ∧ s.createAudioTrack b id tb e c = panic ∨
    ¬ (id = codecAAC ∧ c.hasADTSHeader = false ∧ (e.getD []).length < 2) ∧ ∃ r, s.createAudioTrack b id tb e c = ok r := by
  by_cases h : id = codecAAC ∧ c.hasADTSHeader = false ∧ (e.getD []).length < 2
  · left
    refine ⟨h, ?_⟩
    unfold createAudioTrack
    dsimp only
    rw [if_pos ⟨h.1, by rw [h.2.1]; simp⟩]
    cases e with
    | none => rfl
    | some d => dsimp only; rw [parseMpeg4_short (d := d) h.2.2]
  · right
    refine ⟨h, createAudio_ok fun h1 h2 => ?_⟩
    exact Decidable.by_contra fun h3 => h ⟨h1, h2, by omega⟩

theorem createVideo_cases {o : Oracle} {s : Demuxer} (b id tb : Int) (e : Option Bytes) (hk : s.getPackType = packAnnexB) :
    (HasSets id ∧ BadUnits (e.getD [])) ∧ s.createVideoTrack o b id tb e = panic ∨
    ¬ (HasSets id ∧ BadUnits (e.getD [])) ∧ ∃ r, s.createVideoTrack o b id tb e = ok r := by
  by_cases hid : HasSets id
  · by_cases hb : BadUnits (e.getD [])
    · left
      refine ⟨⟨hid, hb⟩, ?_⟩
      unfold createVideoTrack
      dsimp only
      rw [hk, (generate_panic_iff hid _).2 hb]
    · right
      refine ⟨fun h => hb h.2, createVideo_ok ?_⟩
      rw [hk]
      exact fun h => hb ((generate_panic_iff hid _).1 h)
  · right
    refine ⟨fun h => hid h.1, createVideo_ok ?_⟩
    unfold HasSets at hid
    rw [hk]
    unfold generateVideoCodecData
    rw [if_neg (by decide), if_neg (fun h => hid (Or.inl h)), if_neg (fun h => hid (Or.inr h))]
    simp

theorem find_splittable {s : Demuxer} (hs : Splittable s) (hn : s.name ≠ "flv") {id : Int} (hid : HasSets id) :
    ∃ r : Option Bytes, (match s.tracks.find id with
      | some old => if dataIsNil old then (ok none : Go (Option Bytes)) else ok (some old.data)
      | none => ok none) = ok r ∧ ∀ e, r = some e → ¬ BadUnits e := by
  split
  · rename_i old ho
    split
    · exact ⟨none, rfl, by simp⟩
    · rename_i hnil
      refine ⟨some old.data, rfl, ?_⟩
      rintro e he
      cases he
      obtain ⟨l, r', e, hc, _⟩ := search_some.1 ho
      have hm : old ∈ s.tracks.tracks := by rw [e]; simp
      have hc' : old.codecID = id := by simpa using hc
      rcases hs hn old hm (by rw [hc']; exact hid) with h | h
      · exact absurd h hnil
      · exact h
  · exact ⟨none, rfl, by simp⟩

/-- The extra data for a video packet, and whether it can be used. -/
theorem videoExtraData_fatal {s : Demuxer} (hs : Splittable s) (hn : s.name ≠ "flv") (id : Int) (d : Bytes) (k : Bool) :
    (k = true ∧ HasSets id ∧ BadFrame id d) ∧ (s.videoExtraData id d k = panic ∨ ∃ e, s.videoExtraData id d k = ok (some e) ∧ BadUnits e) ∨
    ¬ (k = true ∧ HasSets id ∧ BadFrame id d) ∧ ∃ r, s.videoExtraData id d k = ok r ∧ ∀ e, r = some e → HasSets id → ¬ BadUnits e := by
  by_cases hid : HasSets id
  · obtain ⟨r, hr, hg⟩ := find_splittable hs hn hid
    cases k with
    | false =>
      right
      refine ⟨fun h => (by cases h.1), r, ?_, fun e he _ => hg e he⟩
      unfold videoExtraData
      rw [if_neg (by simp), ok_bind]
      exact hr
    | true =>
      rcases extract_cases hid d with ⟨hb, he⟩ | ⟨hb, ps, hp, he⟩ | ⟨hb, hp, m, he⟩
      · left
        refine ⟨⟨rfl, hid, Or.inl hb⟩, Or.inl ?_⟩
        unfold videoExtraData
        rw [if_pos rfl, he]
        rfl
      · have hv : s.videoExtraData id d true = ok (some (withCodes ps)) := by
          unfold videoExtraData
          rw [if_pos rfl, he]
          rfl
        by_cases hw : BadUnits (withCodes ps)
        · left
          exact ⟨⟨rfl, hid, Or.inr ⟨ps, hp, hw⟩⟩, Or.inr ⟨_, hv, hw⟩⟩
        · right
          refine ⟨?_, _, hv, ?_⟩
          · rintro ⟨_, _, h | ⟨ps', hp', hw'⟩⟩
            · exact hb h
            · obtain ⟨ss, h1, _, h2⟩ := hp
              obtain ⟨ss', h1', _, h2'⟩ := hp'
              rw [pieces_unique h1 h1', h2'] at h2
              injection h2 with h2
              rw [h2] at hw'
              exact hw hw'
          · intro e he _
            injection he with he
            rw [← he]; exact hw
      · right
        refine ⟨?_, r, ?_, fun e he _ => hg e he⟩
        · rintro ⟨_, _, h | ⟨ps', hp', hw'⟩⟩
          · exact hb h
          · exact hp ps' hp'
        · unfold videoExtraData
          rw [if_pos rfl, he, ok_bind]
          exact hr
  · right
    refine ⟨fun h => hid h.2.1, ?_⟩
    have hx : extractVideoExtraData id d = ok none := by
      unfold HasSets at hid
      unfold extractVideoExtraData
      rw [if_neg (fun e => hid (Or.inl e)), if_neg (fun e => hid (Or.inr e))]
    have : ∃ r, s.videoExtraData id d k = ok r := by
      unfold videoExtraData
      cases k
      · rw [if_neg (by simp), ok_bind]
        dsimp only
        split
        · split <;> exact ⟨_, rfl⟩
        · exact ⟨_, rfl⟩
      · rw [if_pos rfl, hx, ok_bind]
        dsimp only
        split
        · split <;> exact ⟨_, rfl⟩
        · exact ⟨_, rfl⟩
    obtain ⟨r, hr⟩ := this
    exact ⟨r, hr, fun _ _ h => absurd h hid⟩

theorem findTrackWithType_isNone {s : Demuxer} {m : Int} :
    (s.tracks.findTrackWithType m).isNone = true ↔ ∀ t ∈ s.tracks.tracks, t.mediaType ≠ m := by
  unfold TrackManager.findTrackWithType
  rw [Option.isNone_iff_eq_none, search_none]
  simp

/-- One operation. -/
theorem run_cases {o : Oracle} (ho : o.Valid) {s : Demuxer} (h : Inv s) (hn : KnownName s.name) (hs : Splittable s) {e : DemuxOp}
    (hu : e.Usual s.name) : e.Fatal s ∧ e.run o s = panic ∨ ¬ e.Fatal s ∧ ∃ s', e.run o s = ok s' := by
  cases e with
  | findBufferIndex m => exact Or.inr ⟨id, _, rfl⟩
  | setProbeDuration n => exact Or.inr ⟨id, _, rfl⟩
  | probeComplete =>
    obtain ⟨s1, e1, _⟩ := complete_micros o ho h
    exact Or.inr ⟨id, s1, e1⟩
  | tryCompleteProbe =>
    right
    refine ⟨id, ?_⟩
    simp only [DemuxOp.run]
    unfold Demuxer.tryCompleteProbe
    dsimp only
    split
    · exact ⟨_, rfl⟩
    · obtain ⟨s1, e1, _⟩ := complete_micros o ho h
      exact ⟨s1, e1⟩
  | newAudioTrack b id tb e c =>
    simp only [DemuxOp.run]
    unfold onNewAudioTrack
    by_cases hc : (s.tracks.findTrackWithType mediaAudio).isNone = true ∨ s.name = "ts"
    · rw [if_pos hc]
      rw [findTrackWithType_isNone] at hc
      rcases createAudio_cases (s := s) b id tb e c with ⟨hb, hr⟩ | ⟨hb, r, hr⟩
      · left; exact ⟨⟨hc, hb⟩, by rw [hr]; rfl⟩
      · right
        refine ⟨fun hf => hb hf.2, ?_⟩
        rw [hr, ok_bind]; dsimp only; split <;> exact ⟨_, rfl⟩
    · rw [if_neg hc]
      rw [findTrackWithType_isNone] at hc
      right
      refine ⟨fun hf => hc hf.1, ?_⟩
      rw [ok_bind]; dsimp only; split <;> exact ⟨_, rfl⟩
  | newVideoTrack b id tb e =>
    simp only [DemuxOp.run]
    unfold onNewVideoTrack
    by_cases hc : (s.tracks.findTrackWithType mediaVideo).isNone = true ∨ s.name = "ts"
    · rw [if_pos hc]
      rw [findTrackWithType_isNone] at hc
      by_cases hf : s.name = "flv"
      · right
        refine ⟨fun h => h.2.1 hf, ?_⟩
        have hg : generateVideoCodecData o.undef o.grow s.getPackType id (e.getD []) ≠ panic := by
          rw [getPackType_known hn, if_pos hf]
          exact generate_avcc fun _ => hu hf
        obtain ⟨r, hr⟩ := createVideo_ok (b := b) (tb := tb) hg
        rw [hr, ok_bind]; dsimp only; split <;> exact ⟨_, rfl⟩
      · rcases createVideo_cases (o := o) (s := s) b id tb e (by rw [getPackType_known hn, if_neg hf]) with ⟨hb, hr⟩ | ⟨hb, r, hr⟩
        · left; exact ⟨⟨hc, hf, hb⟩, by rw [hr]; rfl⟩
        · right
          refine ⟨fun hf => hb hf.2.2, ?_⟩
          rw [hr, ok_bind]; dsimp only; split <;> exact ⟨_, rfl⟩
    · rw [if_neg hc]
      rw [findTrackWithType_isNone] at hc
      right
      refine ⟨fun hf => hc hf.1, ?_⟩
      rw [ok_bind]; dsimp only; split <;> exact ⟨_, rfl⟩
  | audioPacket b id d ts =>
    right
    refine ⟨fun h => h, ?_⟩
    simp only [DemuxOp.run]
    unfold onAudioPacket
    obtain ⟨t0, e0, hk0⟩ := findTrack_known ho h (b := b)
    rw [e0, ok_bind]
    refine ok_of_bind (fun r => Inv r.2 ∧ ∀ u, r.1 = some u → r.2.bufferOf.lookup u.index = some b) ?_ ?_
    · split
      · cases hx : extractAudioExtraData id d with
        | panic => exact absurd hx (extractAudio_noPanic id d)
        | err m => exact ⟨(none, s), rfl, h, by simp⟩
        | ok x =>
          obtain ⟨e, skip, c⟩ := x
          dsimp only
          rw [getTimebase_known hn, ok_bind]
          have hc : id = codecAAC → c.hasADTSHeader = false → 2 ≤ (e.getD []).length := by
            intro ha hf
            exfalso
            unfold extractAudioExtraData at hx
            rw [if_pos ha] at hx
            split at hx
            · cases hx
            · obtain ⟨hd, _, hx⟩ := bind_eq_ok.1 hx
              cases hx
              cases hf
          obtain ⟨⟨t, s1⟩, hr⟩ := createAudio_ok (s := s) (b := b) (tb := if s.name = "ps" ∨ s.name = "ts" then 90000 else 1000) hc
          obtain ⟨m, hk⟩ := audioTrack_micros h hr
          exact ⟨(t, s1), hr, h.micros m, hk⟩
      · exact ⟨(t0, s), rfl, h, hk0⟩
    · rintro ⟨t, s1⟩ ⟨hi, hk⟩
      cases t with
      | none => exact ⟨_, rfl⟩
      | some u =>
        dsimp only
        obtain ⟨s', e', _⟩ := process_micros (s := s1) (p := audioPkt o b id d ts u) o ho hi (hk u rfl)
        exact ⟨s', e'⟩
  | videoPacket b id d k dts pts =>
    simp only [DemuxOp.run]
    unfold onVideoPacket
    obtain ⟨t0, e0, hk0⟩ := findTrack_known ho h (b := b)
    rw [e0, ok_bind]
    -- the end of the function does not panic
    have tail : ∀ {x : Go (Option AVStream × Demuxer)}, (∃ r, x = ok r ∧ Inv r.2 ∧ ∀ u, r.1 = some u → r.2.bufferOf.lookup u.index = some b) →
        ∃ s', (x >>= fun r => match r.1 with
          | none => ok (r.2.call [.discardBack b])
          | some t => (r.2.call [.accepted (o.preprocess (videoPkt r.2 b id d k dts pts t))]).processBufferedPacket o
              (o.preprocess (videoPkt r.2 b id d k dts pts t))) = ok s' := by
      intro x hx
      refine ok_of_bind _ hx ?_
      rintro ⟨t, s1⟩ ⟨hi, hk⟩
      cases t with
      | none => exact ⟨_, rfl⟩
      | some u =>
        dsimp only
        obtain ⟨s', e', _⟩ := process_micros (s := s1) (p := o.preprocess (videoPkt s1 b id d k dts pts u)) o ho hi
          (by unfold Known; rw [ho.index, ho.buffer]; exact hk u rfl)
        exact ⟨s', e'⟩
    by_cases hc : t0 = none ∧ ¬ s.completed = true ∧ s.getPackType = packAnnexB
    · rw [if_pos hc]
      have hf : s.name ≠ "flv" := by
        intro e
        have := hc.2.2
        rw [getPackType_known hn, if_pos e] at this
        revert this; decide
      have hb : b ∉ s.bufferOf.map Prod.snd := by
        rw [hc.1] at e0
        exact findTrack_none ho e0
      rcases videoExtraData_fatal hs hf id d k with ⟨hbad, hx⟩ | ⟨hgood, r, hx, hr⟩
      · left
        refine ⟨⟨hf, by simpa using hc.2.1, hb, hbad⟩, ?_⟩
        rcases hx with hx | ⟨e, hx, hbe⟩
        · rw [hx]; rfl
        · rw [hx, ok_bind]
          dsimp only
          rw [getTimebase_known hn, ok_bind]
          rcases createVideo_cases (o := o) (s := s) b id (if s.name = "ps" ∨ s.name = "ts" then 90000 else 1000) (some e) hc.2.2 with ⟨_, hr⟩ | ⟨hb', _⟩
          · rw [hr]; rfl
          · exact absurd ⟨hbad.2.1, hbe⟩ hb'
      · right
        refine ⟨fun hfat => hgood hfat.2.2.2, ?_⟩
        refine tail ?_
        rw [hx, ok_bind]
        cases r with
        | none => exact ⟨(none, s), rfl, h, by simp⟩
        | some e =>
          dsimp only
          rw [getTimebase_known hn, ok_bind]
          rcases createVideo_cases (o := o) (s := s) b id (if s.name = "ps" ∨ s.name = "ts" then 90000 else 1000) (some e) hc.2.2 with ⟨hb', _⟩ | ⟨_, ⟨t, s1⟩, hr'⟩
          · exact absurd hb'.2 (hr e rfl hb'.1)
          · obtain ⟨m, hk⟩ := videoTrack_micros h hr'
            exact ⟨(t, s1), hr', h.micros m, hk⟩
    · right
      constructor
      · intro hfat
        obtain ⟨hf, hcm, hb, _⟩ := hfat
        refine hc ⟨?_, by rw [hcm]; simp, by rw [getPackType_known hn, if_neg hf]⟩
        have := findTrack_fresh ho h hb
        rw [e0] at this
        injection this
      · rw [if_neg hc]
        exact tail ⟨(t0, s), rfl, h, hk0⟩

theorem Made.splittable {o : Oracle} {s : Demuxer} (hk : KnownName s.name) (hn : s.name ≠ "flv") {e : DemuxOp}
    (he : e.Usual s.name) {u : AVStream} (h : Made o s e u) (hid : HasSets u.codecID) : dataIsNil u = true ∨ ¬ BadUnits u.data := by
  have hp : s.getPackType = packAnnexB := by rw [getPackType_known hk, if_neg hn]
  cases h with
  | audio b id d ts tb skip e c u hx ht hu =>
    obtain ⟨c', rfl, _⟩ := hu
    left
    have hid : HasSets id := hid
    have : id ≠ codecAAC := by rintro rfl; revert hid; decide
    unfold extractAudioExtraData at hx
    rw [if_neg this] at hx
    cases hx
    rfl
  | video b id d e k dts pts tb u hk hx ht hu =>
    obtain ⟨config, hg, rfl⟩ := hu
    right
    intro hb
    rw [hp, (generate_panic_iff hid _).2 hb] at hg
    cases hg
  | newAudio b id tb e c u hu =>
    obtain ⟨c', rfl, _⟩ := hu
    exact absurd hid he
  | newVideo b id tb e u hu =>
    obtain ⟨config, hg, rfl⟩ := hu
    right
    intro hb
    rw [hp, (generate_panic_iff hid _).2 hb] at hg
    cases hg

theorem run_splittable {o : Oracle} {s s' : Demuxer} {e : DemuxOp} (hs : Splittable s) (hk : KnownName s.name) (he : e.Usual s.name)
    (hr : e.run o s = ok s') : Splittable s' := by
  obtain ⟨hn, h⟩ := run_tracks hr
  intro hne t ht hid
  rw [hn] at hne
  rcases h with h | ⟨u, hu, _, h⟩
  · obtain ⟨a, ha, hta⟩ := forall₂_mem h ht
    obtain ⟨e1, e2, e3⟩ := Tuned.sets hta.1
    rw [e2, e3]
    exact hs hne a ha (by rw [← e1]; exact hid)
  · obtain ⟨a, ha, hta⟩ := forall₂_mem h ht
    obtain ⟨e1, e2, e3⟩ := Tuned.sets hta.1
    rw [e2, e3]
    rcases List.mem_append.1 ha with ha | ha
    · exact hs hne a ha (by rw [← e1]; exact hid)
    · rw [List.mem_singleton] at ha
      subst ha
      exact Made.splittable hk hne he hu (by rw [← e1]; exact hid)

/-- A history ends in a panic exactly if it reaches an operation that is fatal there; otherwise it runs to its end. -/
theorem runDemux_cases {s : Demuxer} (h : Inv s) (hn : KnownName s.name) (hs : Splittable s) {l : List (Oracle × DemuxOp)}
    (hv : ∀ x ∈ l, x.1.Valid) (hu : ∀ x ∈ l, x.2.Usual s.name) :
    (∃ l1 o e l2 s1, l = l1 ++ (o, e) :: l2 ∧ runDemux s l1 = ok s1 ∧ e.Fatal s1) ∧ runDemux s l = panic ∨
    (¬ ∃ l1 o e l2 s1, l = l1 ++ (o, e) :: l2 ∧ runDemux s l1 = ok s1 ∧ e.Fatal s1) ∧ ∃ s', runDemux s l = ok s' := by
  induction l generalizing s with
  | nil =>
    right
    refine ⟨?_, s, rfl⟩
    rintro ⟨l1, o, e, l2, s1, h, _⟩
    simp at h
  | cons x l ih =>
    obtain ⟨o, e⟩ := x
    have ho := hv _ (List.mem_cons_self ..)
    have he := hu _ (List.mem_cons_self ..)
    rcases run_cases ho h hn hs he with ⟨hf, hr⟩ | ⟨hf, s1, hr⟩
    · left
      refine ⟨⟨[], o, e, l, s, rfl, rfl, hf⟩, ?_⟩
      show (e.run o s >>= fun s => runDemux s l) = panic
      rw [hr]; rfl
    · have hname := (run_tracks hr).1
      have hrun : ∀ l', runDemux s ((o, e) :: l') = runDemux s1 l' := by
        intro l'
        show (e.run o s >>= fun s => runDemux s l') = _
        rw [hr, ok_bind]
      have hiff : (∃ l1 o' e' l2 s2, (o, e) :: l = l1 ++ (o', e') :: l2 ∧ runDemux s l1 = ok s2 ∧ e'.Fatal s2) ↔
          ∃ l1 o' e' l2 s2, l = l1 ++ (o', e') :: l2 ∧ runDemux s1 l1 = ok s2 ∧ e'.Fatal s2 := by
        constructor
        · rintro ⟨l1, o', e', l2, s2, hl, hr2, hf2⟩
          cases l1 with
          | nil =>
            simp only [List.nil_append, List.cons.injEq, Prod.mk.injEq] at hl
            obtain ⟨⟨rfl, rfl⟩, rfl⟩ := hl
            cases hr2
            exact absurd hf2 hf
          | cons y l1 =>
            simp only [List.cons_append, List.cons.injEq] at hl
            obtain ⟨rfl, rfl⟩ := hl
            rw [hrun] at hr2
            exact ⟨l1, o', e', l2, s2, rfl, hr2, hf2⟩
        · rintro ⟨l1, o', e', l2, s2, rfl, hr2, hf2⟩
          exact ⟨(o, e) :: l1, o', e', l2, s2, rfl, by rw [hrun]; exact hr2, hf2⟩
      rw [hiff, hrun]
      exact ih (h.micros (run_micros ho h hr)) (by rw [hname]; exact hn) (run_splittable hs hn he hr)
        (fun y hy => hv y (List.mem_cons_of_mem _ hy)) (fun y hy => by rw [hname]; exact hu y (List.mem_cons_of_mem _ hy))

end Demuxer
end Avf
