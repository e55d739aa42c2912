import Verif.Lemmas.DemuxerTracks
import Verif.Props.Utils
/-! # Lemmas: operations on sound input do not panic -/
namespace Avf
open Go

theorem lastUnit_eq (type : Bytes → Nat) (t : Nat) (us : List Bytes) : lastUnit type t us = (lastOf type t us).map ([0, 0, 0, 1] ++ ·) := rfl

theorem lastOf_mem {type : Bytes → Nat} {t : Nat} {us : List Bytes} {u : Bytes} (h : lastOf type t us = some u) : u ∈ us ∧ type u = t := by
  have := List.mem_of_getLast? h
  simpa using this

theorem paramSets_mem {id : Int} {us ps : List Bytes} (h : paramSets id us = some ps) : ps ≠ [] ∧ ∀ p ∈ ps, p ∈ us := by
  unfold paramSets at h
  split at h
  · split at h
    · rename_i s p h1 h2
      cases h
      refine ⟨by simp, ?_⟩
      intro x hx
      simp only [List.mem_cons, List.not_mem_nil, or_false] at hx
      rcases hx with rfl | rfl
      · exact (lastOf_mem h1).1
      · exact (lastOf_mem h2).1
    · cases h
  · split at h
    · split at h
      · rename_i v s p h0 h1 h2
        cases h
        refine ⟨by simp, ?_⟩
        intro x hx
        simp only [List.mem_cons, List.not_mem_nil, or_false] at hx
        rcases hx with rfl | rfl | rfl
        · exact (lastOf_mem h0).1
        · exact (lastOf_mem h1).1
        · exact (lastOf_mem h2).1
      · cases h
    · cases h

theorem withCodes_annexB (us : List Bytes) : withCodes us = annexB (us.map fun u => (true, u)) := by
  unfold withCodes annexB
  rw [List.flatMap_map]
  rfl

theorem wellFramed_sets {us ps : List Bytes} {id : Int} (h : ∀ u ∈ us, Framed u) (hp : paramSets id us = some ps) :
    WellFramed (withCodes ps) := by
  obtain ⟨hne, hm⟩ := paramSets_mem hp
  refine ⟨ps.map fun u => (true, u), by simpa using hne, ?_, withCodes_annexB ps⟩
  intro x hx
  obtain ⟨u, hu, rfl⟩ := List.mem_map.1 hx
  exact h u (hm u hu)

/-- Extraction of parameter sets. -/
theorem extract_eq {id : Int} (hid : HasSets id) {xs : List (Bool × Bytes)} (hne : xs ≠ []) (h : ∀ x ∈ xs, Framed x.2) :
    (∀ ps, paramSets id (xs.map (·.2)) = some ps → extractVideoExtraData id (annexB xs) = ok (some (withCodes ps))) ∧
    (paramSets id (xs.map (·.2)) = none → ∃ m, extractVideoExtraData id (annexB xs) = err m) := by
  unfold extractVideoExtraData paramSets
  rcases hid with rfl | rfl
  · rw [if_pos rfl, if_pos rfl, C39_avc_parameter_sets xs hne h, lastUnit_eq, lastUnit_eq]
    cases lastOf avcUnitType 7 (xs.map (·.2)) <;> cases lastOf avcUnitType 8 (xs.map (·.2)) <;>
      simp [withCodes, Go.err_bind]
  · rw [if_neg (by decide : ¬ codecH265 = codecH264), if_neg (by decide : ¬ codecH265 = codecH264), if_pos rfl, if_pos rfl, C40_hevc_parameter_sets xs hne h, lastUnit_eq, lastUnit_eq, lastUnit_eq]
    cases lastOf hevcUnitType 32 (xs.map (·.2)) <;> cases lastOf hevcUnitType 33 (xs.map (·.2)) <;>
      cases lastOf hevcUnitType 34 (xs.map (·.2)) <;> simp [withCodes, Go.err_bind]

/-- Parameter sets behind start codes do not make the parser panic. -/
theorem generate_noPanic {undef : Int} {grow : Nat → Nat} {t : Byte} (ht : t = packAnnexB) {id : Int} {d : Bytes}
    (hd : HasSets id → WellFramed d) : generateVideoCodecData undef grow t id d ≠ panic := by
  unfold generateVideoCodecData
  rw [if_neg (by subst ht; decide)]
  have bad : ∀ (u : Bytes), [0, 0, 0, 1] ++ u ∉ ([[], [0], [0, 0], [0, 0, 0]] : List Bytes) := by
    intro u hu
    simp at hu
  by_cases h1 : id = codecH264
  · rw [if_pos h1]
    obtain ⟨xs, hne, hf, rfl⟩ := hd (Or.inl h1)
    rw [C39_avc_parameter_sets xs hne hf, lastUnit_eq, lastUnit_eq]
    cases lastOf avcUnitType 7 (xs.map (·.2)) with
    | none => simp [Go.err_bind]
    | some s =>
      cases lastOf avcUnitType 8 (xs.map (·.2)) with
      | none => simp [Go.err_bind]
      | some p =>
        simp only [Option.map_some, ok_bind]
        intro hb
        have hn := (C69_avc_new_iff undef ([0, 0, 0, 1] ++ s) ([0, 0, 0, 1] ++ p)).2
        cases e : newAVCCodecData undef ([0, 0, 0, 1] ++ s) ([0, 0, 0, 1] ++ p) with
        | ok c => rw [e] at hb; cases hb
        | err m => rw [e] at hb; cases hb
        | panic => exact bad _ (hn.1 e)
  · rw [if_neg h1]
    by_cases h2 : id = codecH265
    · rw [if_pos h2]
      obtain ⟨xs, hne, hf, rfl⟩ := hd (Or.inr h2)
      rw [C40_hevc_parameter_sets xs hne hf, lastUnit_eq, lastUnit_eq, lastUnit_eq]
      cases lastOf hevcUnitType 32 (xs.map (·.2)) with
      | none => simp [Go.err_bind]
      | some v =>
        cases lastOf hevcUnitType 33 (xs.map (·.2)) with
        | none => simp [Go.err_bind]
        | some s =>
          cases lastOf hevcUnitType 34 (xs.map (·.2)) with
          | none => simp [Go.err_bind]
          | some p =>
            simp only [Option.map_some, ok_bind]
            intro hb
            have hn := (C69_hevc_new_iff ([0, 0, 0, 1] ++ v) ([0, 0, 0, 1] ++ s) ([0, 0, 0, 1] ++ p)).2
            cases e : newHEVCCodecData ([0, 0, 0, 1] ++ v) ([0, 0, 0, 1] ++ s) ([0, 0, 0, 1] ++ p) with
            | ok c => rw [e] at hb; cases hb
            | err m => rw [e] at hb; cases hb
            | panic => exact bad _ (hn.1 e)
    · rw [if_neg h2]; simp

theorem generate_avcc {undef : Int} {grow : Nat → Nat} {id : Int} {d : Bytes} (hd : HasSets id → d.length < 2 ^ 62) :
    generateVideoCodecData undef grow packAVCC id d ≠ panic := by
  unfold generateVideoCodecData
  rw [if_pos rfl]
  by_cases h1 : id = codecH264
  · rw [if_pos h1]
    intro hb
    cases e : parseAVCRecord undef d with
    | ok c => rw [e] at hb; cases hb
    | err m => rw [e] at hb; cases hb
    | panic => exact (C69_avc_record_iff undef d (hd (Or.inl h1))).1 e
  · rw [if_neg h1]
    by_cases h2 : id = codecH265
    · rw [if_pos h2]
      intro hb
      cases e : parseHEVCRecord grow d with
      | ok c => rw [e] at hb; cases hb
      | err m => rw [e] at hb; cases hb
      | panic => exact C69_hevc_record_total grow d (hd (Or.inr h2)) e
    · rw [if_neg h2]; simp

theorem extractAudio_noPanic (id : Int) (d : Bytes) : extractAudioExtraData id d ≠ panic := by
  unfold extractAudioExtraData
  split
  · split
    · simp
    · rename_i hl
      by_cases hs : beNat (d.take 2) / 16 = 0xFFF
      · rw [readADts_long d (by omega) hs, ok_bind]; simp
      · rw [readADts_nosync d (by omega) hs, Go.err_bind]; simp
  · simp

theorem parseMpeg4_noPanic {d : Bytes} (h : 2 ≤ d.length) : parseMpeg4AudioConfig d ≠ panic := by
  match d, h with
  | a :: b :: t, _ =>
    unfold parseMpeg4AudioConfig
    rw [show idx (a :: b :: t) 0 = ok a from rfl, show idx (a :: b :: t) 1 = ok b from rfl]
    simp only [ok_bind]
    split
    · simp
    · rename_i hc
      have : ((((b >>> 3) &&& 0xF).toNat : Nat) : Int) < mpeg4AudioChannels.length := by omega
      rw [Demuxer.idxI_natCast, idx_of_lt (by omega)]
      simp

namespace Demuxer

theorem getTimebase_known {s : Demuxer} (h : KnownName s.name) :
    s.getTimebase = ok (if s.name = "ps" ∨ s.name = "ts" then 90000 else 1000) := by
  unfold getTimebase
  rcases h with h | h | h | h <;> rw [h] <;> decide

theorem getPackType_known {s : Demuxer} (h : KnownName s.name) : s.getPackType = if s.name = "flv" then packAVCC else packAnnexB := by
  unfold getPackType
  rcases h with h | h | h | h <;> rw [h] <;> decide

/-- Tracks of H.264 and H.265 have parameter sets that can be parsed again. -/
def Sets (s : Demuxer) : Prop := s.name ≠ "flv" → ∀ t ∈ s.tracks.tracks, HasSets t.codecID → dataIsNil t = true ∨ WellFramed t.data

theorem Tuned.sets {a b : AVStream} (h : Tuned a b) : b.codecID = a.codecID ∧ dataIsNil b = dataIsNil a ∧ b.data = a.data := by
  unfold Tuned at h
  rw [h]
  exact ⟨rfl, rfl, rfl⟩

/-- The extra data of a key frame or of an earlier track. -/
theorem videoExtraData_sound {s : Demuxer} (hs : Sets s) (hn : s.name ≠ "flv") {id : Int} {d : Bytes} {k : Bool}
    (hd : k = true → HasSets id → WellFramed d) :
    s.videoExtraData id d k ≠ panic ∧ (∀ m, s.videoExtraData id d k ≠ err m) ∧
      ∀ e, s.videoExtraData id d k = ok (some e) → HasSets id → WellFramed e := by
  have hold : ∀ r : Option Bytes, (match s.tracks.find id with
      | some old => if dataIsNil old then (ok none : Go (Option Bytes)) else ok (some old.data)
      | none => ok none) = ok r → ∀ e, r = some e → HasSets id → WellFramed e := by
    intro r hr e he hid
    split at hr
    · rename_i old ho
      split at hr
      · cases hr; cases he
      · rename_i hnil
        cases hr; cases he
        obtain ⟨l, r', e, hc, _⟩ := search_some.1 ho
        have hm : old ∈ s.tracks.tracks := by rw [e]; simp
        have hc' : old.codecID = id := by simpa using hc
        rcases hs hn old hm (by rw [hc']; exact hid) with h | h
        · exact absurd h hnil
        · exact h
    · cases hr; cases he
  have hold' : ∃ r : Option Bytes, (match s.tracks.find id with
      | some old => if dataIsNil old then (ok none : Go (Option Bytes)) else ok (some old.data)
      | none => ok none) = ok r := by
    split
    · split <;> exact ⟨_, rfl⟩
    · exact ⟨_, rfl⟩
  obtain ⟨r, hr⟩ := hold'
  have hnone : s.videoExtraData id d k = ok r ∨ ∃ e, s.videoExtraData id d k = ok (some e) ∧ (HasSets id → WellFramed e) := by
    unfold videoExtraData
    by_cases hk : k = true
    · rw [if_pos hk]
      by_cases hid : HasSets id
      · obtain ⟨xs, hne, hf, rfl⟩ := hd hk hid
        have he := extract_eq hid hne hf
        cases hp : paramSets id (xs.map (·.2)) with
        | none =>
          obtain ⟨m, e⟩ := he.2 hp
          rw [e, ok_bind]
          exact Or.inl hr
        | some ps =>
          rw [he.1 ps hp]
          refine Or.inr ⟨withCodes ps, rfl, fun _ => ?_⟩
          refine wellFramed_sets ?_ hp
          intro u hu
          obtain ⟨x, hx, rfl⟩ := List.mem_map.1 hu
          exact hf x hx
      · have : extractVideoExtraData id d = ok none := by
          unfold HasSets at hid
          unfold extractVideoExtraData
          rw [if_neg (fun e => hid (Or.inl e)), if_neg (fun e => hid (Or.inr e))]
        rw [this, ok_bind]
        exact Or.inl hr
    · rw [if_neg hk, ok_bind]
      exact Or.inl hr
  rcases hnone with e | ⟨e', e, he⟩
  · rw [e]
    exact ⟨by simp, by simp, fun e he => hold r hr e (by simpa using he)⟩
  · rw [e]
    refine ⟨by simp, by simp, ?_⟩
    intro e2 h2
    cases h2
    exact he

theorem Made.sets {o : Oracle} {s : Demuxer} (hs : Sets s) (hn : s.name ≠ "flv") {e : DemuxOp} (he : e.Sound s.name) {u : AVStream}
    (h : Made o s e u) (hid : HasSets u.codecID) : dataIsNil u = true ∨ WellFramed u.data := by
  cases h with
  | audio b id d ts tb skip e c u hx ht hu =>
    obtain ⟨c', rfl, _⟩ := hu
    left
    have hid : HasSets id := hid
    have : id ≠ codecAAC := by rintro rfl; revert hid; decide
    unfold extractAudioExtraData at hx
    rw [if_neg this] at hx
    cases hx
    rfl
  | video b id d e k dts pts tb u hk hx ht hu =>
    obtain ⟨config, _, rfl⟩ := hu
    right
    exact (videoExtraData_sound hs hn (he hn)).2.2 e hx hid
  | newAudio b id tb e c u hu =>
    obtain ⟨c', rfl, _⟩ := hu
    exact absurd hid he.1
  | newVideo b id tb e u hu =>
    obtain ⟨config, _, rfl⟩ := hu
    have := he hid
    rw [if_neg hn] at this
    exact Or.inr this

theorem run_sets {o : Oracle} {s s' : Demuxer} {e : DemuxOp} (hs : Sets s) (he : e.Sound s.name) (hr : e.run o s = ok s') : Sets s' := by
  obtain ⟨hn, h⟩ := run_tracks hr
  intro hne t ht hid
  rw [hn] at hne
  rcases h with h | ⟨u, hu, _, h⟩
  · obtain ⟨a, ha, hta⟩ := forall₂_mem h ht
    obtain ⟨e1, e2, e3⟩ := Tuned.sets hta.1
    rw [e2, e3]
    exact hs hne a ha (by rw [← e1]; exact hid)
  · obtain ⟨a, ha, hta⟩ := forall₂_mem h ht
    obtain ⟨e1, e2, e3⟩ := Tuned.sets hta.1
    rw [e2, e3]
    rcases List.mem_append.1 ha with ha | ha
    · exact hs hne a ha (by rw [← e1]; exact hid)
    · rw [List.mem_singleton] at ha
      subst ha
      exact Made.sets hs hne he hu (by rw [← e1]; exact hid)

theorem createAudio_ok {s : Demuxer} {b id tb : Int} {e : Option Bytes} {c : AudioConfig}
    (h : id = codecAAC → c.hasADTSHeader = false → 2 ≤ (e.getD []).length) : ∃ r, s.createAudioTrack b id tb e c = ok r := by
  unfold createAudioTrack
  dsimp only
  split
  · rename_i hc
    have h2 := h hc.1 (by simpa using hc.2)
    split
    · simp at h2
    · rename_i d
      split
      · exact ⟨_, rfl⟩
      · rename_i hp
        exact absurd hp (parseMpeg4_noPanic h2)
      · exact ⟨_, rfl⟩
  · exact ⟨_, rfl⟩

theorem createVideo_ok {o : Oracle} {s : Demuxer} {b id tb : Int} {e : Option Bytes}
    (h : generateVideoCodecData o.undef o.grow s.getPackType id (e.getD []) ≠ panic) : ∃ r, s.createVideoTrack o b id tb e = ok r := by
  unfold createVideoTrack
  dsimp only
  split
  · exact ⟨_, rfl⟩
  · contradiction
  · exact ⟨_, rfl⟩

theorem ok_of_bind {α β : Type} {x : Go α} {f : α → Go β} (P : α → Prop) (h1 : ∃ a, x = ok a ∧ P a) (h2 : ∀ a, P a → ∃ b, f a = ok b) :
    ∃ b, (x >>= f) = ok b := by
  obtain ⟨a, rfl, ha⟩ := h1
  exact h2 a ha

/-- One operation on sound input. -/
theorem run_ok {o : Oracle} (ho : o.Valid) {s : Demuxer} (h : Inv s) (hn : KnownName s.name) (hs : Sets s) {e : DemuxOp} (he : e.Sound s.name) :
    ∃ s', e.run o s = ok s' := by
  cases e with
  | findBufferIndex m => exact ⟨_, rfl⟩
  | setProbeDuration n => exact ⟨_, rfl⟩
  | probeComplete =>
    obtain ⟨s1, e1, _⟩ := complete_micros o ho h
    exact ⟨s1, e1⟩
  | tryCompleteProbe =>
    simp only [DemuxOp.run]
    unfold Demuxer.tryCompleteProbe
    dsimp only
    split
    · exact ⟨_, rfl⟩
    · obtain ⟨s1, e1, _⟩ := complete_micros o ho h
      exact ⟨s1, e1⟩
  | newAudioTrack b id tb e c =>
    simp only [DemuxOp.run]
    unfold onNewAudioTrack
    obtain ⟨r, hr⟩ := createAudio_ok (s := s) (b := b) (tb := tb) he.2
    split
    · rw [hr, ok_bind]; dsimp only; split <;> exact ⟨_, rfl⟩
    · rw [ok_bind]; dsimp only; split <;> exact ⟨_, rfl⟩
  | newVideoTrack b id tb e =>
    simp only [DemuxOp.run]
    unfold onNewVideoTrack
    have hg : generateVideoCodecData o.undef o.grow s.getPackType id (e.getD []) ≠ panic := by
      have he : HasSets id → if s.name = "flv" then (e.getD []).length < 2 ^ 62 else WellFramed (e.getD []) := he
      rw [getPackType_known hn]
      by_cases hf : s.name = "flv"
      · rw [if_pos hf]
        refine generate_avcc fun hid => ?_
        have := he hid
        rwa [if_pos hf] at this
      · rw [if_neg hf]
        refine generate_noPanic rfl fun hid => ?_
        have := he hid
        rwa [if_neg hf] at this
    obtain ⟨r, hr⟩ := createVideo_ok (b := b) (tb := tb) hg
    split
    · rw [hr, ok_bind]; dsimp only; split <;> exact ⟨_, rfl⟩
    · rw [ok_bind]; dsimp only; split <;> exact ⟨_, rfl⟩
  | audioPacket b id d ts =>
    simp only [DemuxOp.run]
    unfold onAudioPacket
    obtain ⟨t0, e0, hk0⟩ := findTrack_known ho h (b := b)
    rw [e0, ok_bind]
    refine ok_of_bind (fun r => Inv r.2 ∧ ∀ u, r.1 = some u → r.2.bufferOf.lookup u.index = some b) ?_ ?_
    · split
      · cases hx : extractAudioExtraData id d with
        | panic => exact absurd hx (extractAudio_noPanic id d)
        | err m => exact ⟨(none, s), rfl, h, by simp⟩
        | ok x =>
          obtain ⟨e, skip, c⟩ := x
          dsimp only
          rw [getTimebase_known hn, ok_bind]
          have hc : id = codecAAC → c.hasADTSHeader = false → 2 ≤ (e.getD []).length := by
            intro ha hf
            exfalso
            unfold extractAudioExtraData at hx
            rw [if_pos ha] at hx
            split at hx
            · cases hx
            · obtain ⟨hd, _, hx⟩ := bind_eq_ok.1 hx
              cases hx
              cases hf
          obtain ⟨⟨t, s1⟩, hr⟩ := createAudio_ok (s := s) (b := b) (tb := if s.name = "ps" ∨ s.name = "ts" then 90000 else 1000) hc
          obtain ⟨m, hk⟩ := audioTrack_micros h hr
          exact ⟨(t, s1), hr, h.micros m, hk⟩
      · exact ⟨(t0, s), rfl, h, hk0⟩
    · rintro ⟨t, s1⟩ ⟨hi, hk⟩
      cases t with
      | none => exact ⟨_, rfl⟩
      | some u =>
        dsimp only
        obtain ⟨s', e', _⟩ := process_micros (s := s1) (p := audioPkt o b id d ts u) o ho hi (hk u rfl)
        exact ⟨s', e'⟩
  | videoPacket b id d k dts pts =>
    simp only [DemuxOp.run]
    unfold onVideoPacket
    obtain ⟨t0, e0, hk0⟩ := findTrack_known ho h (b := b)
    rw [e0, ok_bind]
    refine ok_of_bind (fun r => Inv r.2 ∧ ∀ u, r.1 = some u → r.2.bufferOf.lookup u.index = some b) ?_ ?_
    · split
      · rename_i hc
        have hf : s.name ≠ "flv" := by
          intro e
          have := hc.2.2
          rw [getPackType_known hn, if_pos e] at this
          revert this; decide
        obtain ⟨n1, n2, n3⟩ := videoExtraData_sound hs hf (id := id) (d := d) (k := k) (he hf)
        cases hx : s.videoExtraData id d k with
        | panic => exact absurd hx n1
        | err m => exact absurd hx (n2 m)
        | ok x =>
          rw [ok_bind]
          cases x with
          | none => exact ⟨(none, s), rfl, h, by simp⟩
          | some e =>
            dsimp only
            rw [getTimebase_known hn, ok_bind]
            have hg : generateVideoCodecData o.undef o.grow s.getPackType id ((some e).getD []) ≠ panic :=
              generate_noPanic hc.2.2 (n3 e hx)
            obtain ⟨⟨t, s1⟩, hr⟩ := createVideo_ok (b := b) (tb := if s.name = "ps" ∨ s.name = "ts" then 90000 else 1000) hg
            obtain ⟨m, hk⟩ := videoTrack_micros h hr
            exact ⟨(t, s1), hr, h.micros m, hk⟩
      · exact ⟨(t0, s), rfl, h, hk0⟩
    · rintro ⟨t, s1⟩ ⟨hi, hk⟩
      cases t with
      | none => exact ⟨_, rfl⟩
      | some u =>
        dsimp only
        obtain ⟨s', e', _⟩ := process_micros (s := s1) (p := o.preprocess (videoPkt s1 b id d k dts pts u)) o ho hi
          (by unfold Known; rw [ho.index, ho.buffer]; exact hk u rfl)
        exact ⟨s', e'⟩

theorem runDemux_ok {s : Demuxer} (h : Inv s) (hn : KnownName s.name) (hs : Sets s) {l : List (Oracle × DemuxOp)}
    (hv : ∀ x ∈ l, x.1.Valid) (he : ∀ x ∈ l, x.2.Sound s.name) : ∃ s', runDemux s l = ok s' := by
  induction l generalizing s with
  | nil => exact ⟨s, rfl⟩
  | cons x l ih =>
    obtain ⟨o, e⟩ := x
    have ho := hv _ (List.mem_cons_self ..)
    obtain ⟨s1, h1⟩ := run_ok ho h hn hs (he _ (List.mem_cons_self ..))
    have hname := (run_tracks h1).1
    obtain ⟨s2, h2⟩ := ih (h.micros (run_micros ho h h1)) (by rw [hname]; exact hn) (run_sets hs (he _ (List.mem_cons_self ..)) h1)
      (fun y hy => hv y (List.mem_cons_of_mem _ hy)) (fun y hy => by rw [hname]; exact he y (List.mem_cons_of_mem _ hy))
    refine ⟨s2, ?_⟩
    show (e.run o s >>= fun s => runDemux s l) = ok s2
    rw [h1, ok_bind, h2]

end Demuxer
end Avf
