import Verif.Lemmas.DemuxerSound
import Verif.Lemmas.DemuxerQueue
/-! # Lemmas: where tracks come from -/
namespace Avf
open Go

/-- A header field of an ADTS packet. -/
theorem adtsField_at {d : Bytes} (h : 7 ≤ d.length) (i n : Nat) (m : BitVec 64) (hm : m = BitVec.ofNat 64 (2 ^ n - 1)) (hi : i + n ≤ 56)
    (hn : 56 - i - n + n ≤ 63) : adtsField (BitVec.ofNat 64 (beNat (d.take 7))) (56 - i - n) m = (bitField d i n : Nat) := by
  have hl : (bits (d.take 7)).length = 56 := by rw [bits_length]; simp; omega
  have hv : beNat (d.take 7) = bitsVal (bits (d.take 7)) := beNat_eq_bits _
  rw [adtsField_eq _ _ n m hm hn, BitVec.toNat_ofNat, hv]
  have hlt := bitsVal_lt (bits (d.take 7))
  rw [hl] at hlt
  rw [Nat.mod_eq_of_lt (show bitsVal (bits (d.take 7)) < 2 ^ 64 by omega)]
  have := bitsVal_slice (bits (d.take 7)) i n (by omega)
  rw [hl] at this
  rw [this]
  unfold bitField
  congr 2
  have e : bits d = bits (d.take 7) ++ bits (d.drop 7) := by rw [← bits_append, List.take_append_drop]
  rw [e, List.drop_append, List.take_append_of_le_length]
  · rw [List.length_drop, hl]; omega

theorem bitField_sync {d : Bytes} (h : 2 ≤ d.length) : bitField d 0 12 = beNat (d.take 2) / 16 := by
  have hl : (bits (d.take 2)).length = 16 := by rw [bits_length]; simp; omega
  have hv : beNat (d.take 2) = bitsVal (bits (d.take 2)) := beNat_eq_bits _
  have hlt := bitsVal_lt (bits (d.take 2))
  rw [hl] at hlt
  have := bitsVal_slice (bits (d.take 2)) 0 12 (by omega)
  rw [hl] at this
  have e : bits d = bits (d.take 2) ++ bits (d.drop 2) := by rw [← bits_append, List.take_append_drop]
  unfold bitField
  rw [hv, e, List.drop_append, List.take_append_of_le_length (by rw [List.length_drop, hl]; omega), ← this]
  have : bitsVal (bits (d.take 2)) / 16 < 2 ^ 12 := by omega
  simp only [Nat.reduceSub, Nat.reducePow] at *
  omega

theorem describes_of_generate {undef : Int} {grow : Nat → Nat} {id : Int} {us ps : List Bytes} {config : Option CodecData}
    (hf : ∀ u ∈ us, Framed u) (hp : paramSets id us = some ps)
    (hg : generateVideoCodecData undef grow packAnnexB id (withCodes ps) = ok config) :
    ∃ c, config = some c ∧ Describes id ps c := by
  have hm := (paramSets_mem hp)
  have hfr : ∀ x ∈ ps.map (fun u => (true, u)), Framed x.2 := by
    intro x hx
    obtain ⟨u, hu, rfl⟩ := List.mem_map.1 hx
    exact hf u (hm.2 u hu)
  have hne : ps.map (fun u => (true, u)) ≠ [] := by simpa using hm.1
  have hun : (ps.map fun u => ((true, u) : Bool × Bytes)).map (·.2) = ps := by simp
  rw [withCodes_annexB] at hg
  unfold generateVideoCodecData at hg
  rw [if_neg (by decide)] at hg
  unfold paramSets at hp
  by_cases h1 : id = codecH264
  · rw [if_pos h1] at hg hp
    split at hp
    · rename_i s p hs hp'
      cases hp
      have t1 := (lastOf_mem hs).2
      have t2 := (lastOf_mem hp').2
      rw [C39_avc_parameter_sets _ hne hfr, hun] at hg
      have e1 : lastUnit avcUnitType 7 [s, p] = some ([0, 0, 0, 1] ++ s) := by simp [lastUnit, t1, t2]
      have e2 : lastUnit avcUnitType 8 [s, p] = some ([0, 0, 0, 1] ++ p) := by simp [lastUnit, t1, t2]
      rw [e1, e2] at hg
      simp only [ok_bind] at hg
      obtain ⟨c, hc, hg⟩ := bind_eq_ok.1 hg
      cases hg
      obtain ⟨a0, a1, a2, info, a3, a4, a5⟩ := C69_avc_new undef _ _ c hc
      exact ⟨c, rfl, by rw [a0]; simp [withCodes], Or.inl ⟨h1, s, p, undef, info, rfl, a1, a2, a3, a4, a5⟩⟩
    · cases hp
  · rw [if_neg h1] at hg hp
    by_cases h2 : id = codecH265
    · rw [if_pos h2] at hg hp
      split at hp
      · rename_i v s p hv hs hp'
        cases hp
        have t0 := (lastOf_mem hv).2
        have t1 := (lastOf_mem hs).2
        have t2 := (lastOf_mem hp').2
        rw [C40_hevc_parameter_sets _ hne hfr, hun] at hg
        have e0 : lastUnit hevcUnitType 32 [v, s, p] = some ([0, 0, 0, 1] ++ v) := by simp [lastUnit, t0, t1, t2]
        have e1 : lastUnit hevcUnitType 33 [v, s, p] = some ([0, 0, 0, 1] ++ s) := by simp [lastUnit, t0, t1, t2]
        have e2 : lastUnit hevcUnitType 34 [v, s, p] = some ([0, 0, 0, 1] ++ p) := by simp [lastUnit, t0, t1, t2]
        rw [e0, e1, e2] at hg
        simp only [ok_bind] at hg
        obtain ⟨c, hc, hg⟩ := bind_eq_ok.1 hg
        cases hg
        obtain ⟨a0, a1, a2, info, a3, a4, a5⟩ := C69_hevc_new _ _ _ c hc
        exact ⟨c, rfl, by rw [a0]; simp [withCodes], Or.inr ⟨h2, v, s, p, info, rfl, a1, a2, a3, a4, a5⟩⟩
      · cases hp
    · rw [if_neg h2] at hp
      cases hp

theorem generate_some {undef : Int} {grow : Nat → Nat} {id : Int} {us ps : List Bytes} (hf : ∀ u ∈ us, Framed u)
    (hp : paramSets id us = some ps) (hs : SpsParses undef id ps) :
    ∃ c, generateVideoCodecData undef grow packAnnexB id (withCodes ps) = ok c := by
  have hm := (paramSets_mem hp)
  have hfr : ∀ x ∈ ps.map (fun u => (true, u)), Framed x.2 := by
    intro x hx
    obtain ⟨u, hu, rfl⟩ := List.mem_map.1 hx
    exact hf u (hm.2 u hu)
  have hne : ps.map (fun u => (true, u)) ≠ [] := by simpa using hm.1
  have hun : (ps.map fun u => ((true, u) : Bool × Bytes)).map (·.2) = ps := by simp
  rw [withCodes_annexB]
  unfold generateVideoCodecData
  rw [if_neg (by decide)]
  unfold paramSets at hp
  rcases hs with ⟨h1, s, p, info, e, hi⟩ | ⟨h2, v, s, p, info, e, hi⟩
  · rw [if_pos h1] at hp ⊢
    split at hp
    · rename_i _ _ hs hp'
      cases hp
      cases e
      have t1 := (lastOf_mem hs).2
      have t2 := (lastOf_mem hp').2
      rw [C39_avc_parameter_sets _ hne hfr, hun]
      have e1 : lastUnit avcUnitType 7 [s, p] = some ([0, 0, 0, 1] ++ s) := by simp [lastUnit, t1, t2]
      have e2 : lastUnit avcUnitType 8 [s, p] = some ([0, 0, 0, 1] ++ p) := by simp [lastUnit, t1, t2]
      rw [e1, e2]
      obtain ⟨c, hc⟩ := (C69_avc_new_iff undef ([0, 0, 0, 1] ++ s) ([0, 0, 0, 1] ++ p)).1.2 ⟨info, hi⟩
      simp only [ok_bind]
      rw [hc]
      exact ⟨_, rfl⟩
    · cases hp
  · have h1 : ¬ id = codecH264 := by rw [h2]; decide
    rw [if_neg h1, if_pos h2] at hp ⊢
    split at hp
    · rename_i _ _ _ hv hs hp'
      cases hp
      cases e
      have t0 := (lastOf_mem hv).2
      have t1 := (lastOf_mem hs).2
      have t2 := (lastOf_mem hp').2
      rw [C40_hevc_parameter_sets _ hne hfr, hun]
      have e0 : lastUnit hevcUnitType 32 [v, s, p] = some ([0, 0, 0, 1] ++ v) := by simp [lastUnit, t0, t1, t2]
      have e1 : lastUnit hevcUnitType 33 [v, s, p] = some ([0, 0, 0, 1] ++ s) := by simp [lastUnit, t0, t1, t2]
      have e2 : lastUnit hevcUnitType 34 [v, s, p] = some ([0, 0, 0, 1] ++ p) := by simp [lastUnit, t0, t1, t2]
      rw [e0, e1, e2]
      obtain ⟨c, hc⟩ := (C69_hevc_new_iff ([0, 0, 0, 1] ++ v) ([0, 0, 0, 1] ++ s) ([0, 0, 0, 1] ++ p)).1.2 ⟨info, hi⟩
      simp only [ok_bind]
      rw [hc]
      exact ⟨_, rfl⟩
    · cases hp

namespace Demuxer

theorem Fine.fields {a b : AVStream} (h : Fine a b) : b.codecID = a.codecID ∧ b.mediaType = a.mediaType ∧ b.timebase = a.timebase ∧
    b.data = a.data ∧ b.codecParameters = a.codecParameters ∧ b.sampleSize = a.sampleSize ∧ b.channels = a.channels ∧
    b.hasADTSHeader = a.hasADTSHeader ∧ b.index = a.index := by
  have := h.1
  unfold Tuned at this
  rw [this]
  exact ⟨rfl, rfl, rfl, rfl, rfl, rfl, rfl, rfl, rfl⟩

theorem Fine.fromKeyFrame {name : String} {us : List Bytes} {a b : AVStream} (h : Fine a b) (ha : FromKeyFrame name us a) :
    FromKeyFrame name us b := by
  obtain ⟨e1, e2, e3, e4, e5, _⟩ := h.fields
  obtain ⟨h1, h2, h3⟩ := ha
  exact ⟨by rw [e2, h1], by rw [e3, h2], by rw [e1, e4, e5]; exact h3⟩

theorem Fine.fromAudio {name : String} {d : Bytes} {a b : AVStream} (h : Fine a b) (ha : FromAudio name d a) : FromAudio name d b := by
  obtain ⟨e1, e2, e3, e4, e5, e6, e7, e8, _⟩ := h.fields
  obtain ⟨h1, h2, h3, h4, h5, h6, h7, h8⟩ := ha
  refine ⟨by rw [e2, h1], by rw [e3, h2], by rw [e6, h3], by rw [e5, h4], by rw [e8, e1, h5], ?_, ?_, ?_⟩
  · intro hc
    rw [e1] at hc
    rw [e4, e7, h.2.1 (by rw [hc]; decide)]
    exact h6 hc
  · intro hc
    rw [e1] at hc
    rw [e4, e7, e1]
    refine ⟨(h7 hc).1, (h7 hc).2.1, fun hp => ?_⟩
    rw [h.2.1 hp]
    exact (h7 hc).2.2 hp
  · intro hc
    rw [e1] at hc
    rw [h.2.2 hc, h8 hc]

theorem adts_facts {d extra : Bytes} {skip : Int} {c : AudioConfig} (hx : extractAudioExtraData codecAAC d = ok (some extra, skip, c)) :
    7 ≤ d.length ∧ bitField d 0 12 = 0xFFF ∧
    bits extra = ascBits (bitField d 16 2 + 1) (bitField d 18 4) (bitField d 23 3) ++ [false, false, false] ∧
    c = { sampleRate := match aacRates[bitField d 18 4]? with | some r => (r : Int) | none => -1
          sampleSize := 16, channels := bitField d 23 3, hasADTSHeader := true } := by
  unfold extractAudioExtraData at hx
  rw [if_pos rfl] at hx
  split at hx
  · cases hx
  · rename_i hl
    have hl : 7 ≤ d.length := by omega
    obtain ⟨a, ha, hx⟩ := bind_eq_ok.1 hx
    by_cases hs : beNat (d.take 2) / 16 = 0xFFF
    · rw [readADts_long d hl hs] at ha
      cases ha
      cases hx
      have f1 := adtsField_at hl 16 2 0x3 rfl (by omega) (by omega)
      have f2 := adtsField_at hl 18 4 0xF rfl (by omega) (by omega)
      have f3 := adtsField_at hl 23 3 0x7 rfl (by omega) (by omega)
      have g1 : adtsProfile (BitVec.ofNat 64 (beNat (d.take 7))) = (bitField d 16 2 : Nat) := f1
      have g2 : adtsFrequency (BitVec.ofNat 64 (beNat (d.take 7))) = (bitField d 18 4 : Nat) := f2
      have g3 : adtsChannel (BitVec.ofNat 64 (beNat (d.take 7))) = (bitField d 23 3 : Nat) := f3
      refine ⟨hl, by rw [bitField_sync (by omega), hs], ?_, ?_⟩
      · rw [C54_layout, g1, g2, g3]
        congr 2
      · have hlt : bitField d 18 4 < 16 := by
          have := bitsVal_lt (((bits d).drop 18).take 4)
          have h4 : (((bits d).drop 18).take 4).length ≤ 4 := by simp
          have : 2 ^ (((bits d).drop 18).take 4).length ≤ 2 ^ 4 := Nat.pow_le_pow_right (by omega) h4
          unfold bitField
          omega
        rw [g2, g3, C55_rate_of_index_partial, if_pos ⟨by omega, by omega⟩]
        rfl
    · rw [readADts_nosync d (by omega) hs] at ha
      cases ha

theorem audio_made {s : Demuxer} (hn : KnownName s.name) {id tb skip : Int} {d : Bytes} {e : Option Bytes} {c : AudioConfig} {u : AVStream}
    (hx : extractAudioExtraData id d = ok (e, skip, c)) (ht : s.getTimebase = ok tb) (hu : AudioMade s id tb e c u) :
    FromAudio s.name d u := by
  rw [getTimebase_known hn] at ht
  cases ht
  obtain ⟨c', rfl, _, h2⟩ := hu
  by_cases ha : id = codecAAC
  · subst ha
    cases e with
    | none =>
      unfold extractAudioExtraData at hx
      rw [if_pos rfl] at hx
      split at hx
      · cases hx
      · obtain ⟨a, _, hx⟩ := bind_eq_ok.1 hx
        cases hx
    | some extra =>
      obtain ⟨a1, a2, a3, rfl⟩ := adts_facts hx
      have := h2 (by simp)
      subst this
      exact ⟨rfl, rfl, rfl, rfl, by simp, fun _ => ⟨a1, a2, a3, rfl, rfl⟩, fun h => absurd rfl h, fun _ => rfl⟩
  · unfold extractAudioExtraData at hx
    rw [if_neg ha] at hx
    cases hx
    have := h2 (fun h => ha h.1)
    subst this
    refine ⟨rfl, rfl, rfl, rfl, ?_, fun h => absurd h ha, fun _ => ⟨rfl, rfl, fun _ => rfl⟩, fun _ => rfl⟩
    simp [ha]

theorem videoExtraData_cases {s : Demuxer} {id : Int} {d e : Bytes} {k : Bool} (h : s.videoExtraData id d k = ok (some e)) :
    (k = true ∧ extractVideoExtraData id d = ok (some e)) ∨
    ∃ old ∈ s.tracks.tracks, old.codecID = id ∧ dataIsNil old = false ∧ old.data = e := by
  unfold videoExtraData at h
  obtain ⟨x, h1, h⟩ := bind_eq_ok.1 h
  cases x with
  | some e' =>
    cases h
    split at h1
    · rename_i hk
      split at h1
      · cases h1
      · cases h1
      · rename_i hx
        cases h1
        exact Or.inl ⟨hk, hx⟩
    · cases h1
  | none =>
    dsimp only at h
    split at h
    · rename_i old ho
      split at h
      · cases h
      · rename_i hnil
        cases h
        obtain ⟨l, r, e, hc, _⟩ := search_some.1 ho
        exact Or.inr ⟨old, by rw [e]; simp, by simpa using hc, by simpa using hnil, rfl⟩
    · cases h

theorem extract_some {id : Int} {d e : Bytes} (hd : HasSets id → WellFramed d) (h : extractVideoExtraData id d = ok (some e)) :
    ∃ xs ps, d = annexB xs ∧ xs ≠ [] ∧ (∀ x ∈ xs, Framed x.2) ∧ paramSets id (xs.map (·.2)) = some ps ∧ e = withCodes ps ∧ HasSets id := by
  have hid : HasSets id := by
    by_contra hn
    unfold HasSets at hn
    unfold extractVideoExtraData at h
    rw [if_neg (fun e => hn (Or.inl e)), if_neg (fun e => hn (Or.inr e))] at h
    cases h
  obtain ⟨xs, hne, hf, rfl⟩ := hd hid
  have he := extract_eq hid hne hf
  cases hp : paramSets id (xs.map (·.2)) with
  | none =>
    obtain ⟨m, e⟩ := he.2 hp
    rw [e] at h; cases h
  | some ps =>
    rw [he.1 ps hp] at h
    cases h
    exact ⟨xs, ps, rfl, hne, hf, hp, rfl, hid⟩

theorem findTrack_fresh {o : Oracle} (ho : o.Valid) {s : Demuxer} (h : Inv s) {b : Int} (hb : b ∉ s.bufferOf.map Prod.snd) :
    s.findTrackByBufferIndex o b = ok none := by
  obtain ⟨t, e, hk⟩ := findTrack_known ho h (b := b)
  cases t with
  | none => exact e
  | some u => exact absurd (List.mem_map_of_mem (f := Prod.snd) (lookup_mem (hk u rfl))) hb

theorem runDemux_name {s s' : Demuxer} {l : List (Oracle × DemuxOp)} (h : runDemux s l = ok s') : s'.name = s.name := by
  induction l generalizing s with
  | nil => cases h; rfl
  | cons x l ih =>
    obtain ⟨o, e⟩ := x
    obtain ⟨s1, h1, h⟩ := bind_eq_ok.1 h
    rw [ih h, (run_tracks h1).1]

theorem Reached.name {name : String} {a : Bool} {l : List (Oracle × DemuxOp)} {s : Demuxer} (h : Reached name a l s) : s.name = name :=
  runDemux_name h.2

theorem forall₂_snoc {α : Type} {R : α → α → Prop} {l l' : List α} {a : α} (h : List.Forall₂ R (l ++ [a]) l') :
    ∃ l1 b, l' = l1 ++ [b] ∧ List.Forall₂ R l l1 ∧ R a b := by
  induction l generalizing l' with
  | nil =>
    cases h with
    | cons hr ht =>
      cases ht
      exact ⟨[], _, rfl, .nil, hr⟩
  | cons x l ih =>
    cases h with
    | cons hr ht =>
      obtain ⟨l1, b, rfl, h1, h2⟩ := ih ht
      exact ⟨_ :: l1, b, rfl, .cons hr h1, h2⟩

end Demuxer

theorem makes_track {o : Oracle} {s : Demuxer} (hi : Demuxer.Inv s) (ho : o.Valid) {b : Int} (hc : s.completed = false)
    {u : AVStream} (hu : u.index = s.tracks.tracks.length) {p : AVPacket} (hp : p.index = u.index) (hb : p.bufferIndex = b) :
    ∃ s' u', (((s.register b u).2.call [.accepted p]).processBufferedPacket o p = ok s' ∧ MakesTrack s s' b u' ∧ Demuxer.Fine u u') := by
  obtain ⟨hm, hk⟩ := Demuxer.register_micros hi b u hu
  rcases Demuxer.register_cases s b u with ⟨_, h1⟩ | ⟨_, h1, h2, _, _⟩
  · rw [hc] at h1; cases h1
  · have hk := hk u h1
    obtain ⟨s', e, _⟩ := Demuxer.process_micros (s := (s.register b u).2) (p := p) o ho (hi.micros hm) (by
      unfold Demuxer.Known; rw [hp, hb]; exact hk)
    have ht := Demuxer.process_tuned e
    have hst := Demuxer.process_stays e
    obtain ⟨cs, ec, hpl⟩ := Demuxer.process_adds e
    unfold Demuxer.TunedTo at ht
    rw [show ((s.register b u).2.call [.accepted p]).tracks.tracks = (s.register b u).2.tracks.tracks from rfl, h2] at ht
    obtain ⟨old, u', e', ho, hu'⟩ := Demuxer.forall₂_snoc ht
    refine ⟨s', u', e, ⟨p, old, ?_, hb, by rw [hp, hu], e', ?_, ?_, ?_⟩, hu'⟩
    · rw [ec, Demuxer.taken_append, hpl.taken, List.append_nil]
      have : ((s.register b u).2.call [.accepted p]).calls = s.calls ++ [.accepted p] := by
        have : (s.register b u).2.calls = s.calls := by
          unfold Demuxer.register Demuxer.addTrack
          rw [hc]
          rfl
        unfold Demuxer.call
        rw [this]
      rw [this, Demuxer.taken_accept]
    · exact ho.length_eq.symm
    · rw [(Demuxer.Fine.fields hu').2.2.2.2.2.2.2.2, hu]
    · have hl := Demuxer.lookup_mem hk
      rw [hu] at hl
      rw [Demuxer.Stays.bufferOf hst]
      exact hl

end Avf
