import Verif.Lemmas.TrackRates
import Verif.Spec.TrackRates
/-!
# C116: the rates that are detected, against the rates of the sound

When probing ends the demuxer measures the first packet of the first PCM track and of the first G.726 track: bytes by milliseconds.
-/
namespace Avf
open Go

theorem bestRate_pcm (m : Int) : bestRate pcmTable m =
    if m ≤ 16 then some 8000 else if m ≤ 32 then some 16000 else if m ≤ 64 then some 32000 else if m ≤ 96 then some 48000 else none := by
  unfold bestRate pcmTable
  by_cases h1 : m ≤ 16 <;> by_cases h2 : m ≤ 32 <;> by_cases h3 : m ≤ 64 <;> by_cases h4 : m ≤ 96 <;> simp [List.find?, h1, h2, h3, h4]

theorem bestRate_g726 (m : Int) : bestRate g726Table m =
    if m ≤ 2 then some 16000 else if m ≤ 3 then some 24000 else if m ≤ 4 then some 32000 else if m ≤ 5 then some 40000 else none := by
  unfold bestRate g726Table
  by_cases h1 : m ≤ 2 <;> by_cases h2 : m ≤ 3 <;> by_cases h3 : m ≤ 4 <;> by_cases h4 : m ≤ 5 <;> simp [List.find?, h1, h2, h3, h4]

/-- What completion measures. -/
theorem Measures.measured {name : String} {a : Bool} {h : List (Oracle × DemuxOp)} {s : Demuxer} (hr : Reached name a h s)
    (hf : FirstsInOrder (taken s.calls)) (hc : s.completed = true) {codec : Int} {i : Nat} {p q : AVPacket} {n ms : Int}
    (hm : Measures codec (taken (beforeComplete s.calls)) i p q n ms) (u : Int) :
    Demuxer.firstPacketOf u codec ((lanes (taken (beforeComplete s.calls))).map queueOf) = (ms, n) := by
  obtain ⟨after, _, e, _⟩ := C62_exact hr hc
  obtain ⟨rest, hfst⟩ := hm.first
  rw [e] at hf
  rw [firstPacketOf_eq, firstHead_track (fun x hx => taken_nonneg hr x (by rw [e]; exact List.mem_append_left _ hx)) hf.prefix hm.only hfst]
  dsimp only
  have h1 := hm.forward
  rw [wrap64_small (by omega) (by omega), duration_ms u { p with duration := q.dts - p.dts } hm.timebase (by show 0 ≤ q.dts - p.dts; omega)
    (by show q.dts - p.dts ≤ _; omega), hm.bytes, hm.ms]

/-- **C116** for PCM: every PCM track gets the first rate in the table that the bytes per millisecond of the first packet do not exceed; if
there is none, it gets the size of its samples as its rate. -/
theorem C116_pcm {name : String} {a : Bool} {h : List (Oracle × DemuxOp)} {s : Demuxer} (hr : Reached name a h s)
    (hf : FirstsInOrder (taken s.calls)) (hc : s.completed = true) {i : Nat} {p q : AVPacket} {n ms : Int}
    (hm : Measures codecPCMS16LE (taken (beforeComplete s.calls)) i p q n ms) (h1 : 1 ≤ ms) {t : AVStream} (ht : t ∈ s.tracks.tracks)
    (hcod : t.codecID = codecPCMS16LE) : t.sampleRate = (bestRate pcmTable (n / ms)).getD t.sampleSize := by
  obtain ⟨u, ts, e⟩ := Demuxer.Reached.tuned hr hc
  rw [e] at ht
  obtain ⟨t0, _, rfl⟩ := List.mem_map.1 ht
  have hcod0 : t0.codecID = codecPCMS16LE := by
    unfold Demuxer.retune at hcod
    by_cases hg : (Demuxer.pcmTune u ((lanes (taken (beforeComplete s.calls))).map queueOf) t0).codecID = codecG726
    · rw [pcmTune_codec] at hg
      unfold Demuxer.g726Tune at hcod
      have : t0.codecID = codecPCMS16LE := by
        split at hcod
        · rwa [pcmTune_codec] at hcod
        · split at hcod
          · rwa [pcmTune_codec] at hcod
          · rw [← pcmTune_codec u ((lanes (taken (beforeComplete s.calls))).map queueOf)]; exact hcod
      exact this
    · rw [g726Tune_other _ _ hg, pcmTune_codec] at hcod
      exact hcod
  unfold Demuxer.retune
  rw [g726Tune_other _ _ (by rw [pcmTune_codec, hcod0]; decide)]
  unfold Demuxer.pcmTune
  rw [hm.measured hr hf hc u]
  dsimp only
  rw [if_neg (by rintro (h' | h') <;> [omega; exact h' hcod0])]
  dsimp only
  have h0 : 0 ≤ n := by rw [hm.bytes]; exact Int.natCast_nonneg _
  rw [Int.tdiv_eq_ediv_of_nonneg h0, bestRate_pcm]
  unfold Demuxer.pcmRate
  generalize n / ms = m
  by_cases h1 : m ≤ 16
  · rw [if_pos h1, if_pos h1]; rfl
  rw [if_neg h1, if_neg h1]
  by_cases h2 : m ≤ 32
  · rw [if_pos h2, if_pos h2]; rfl
  rw [if_neg h2, if_neg h2]
  by_cases h3 : m ≤ 64
  · rw [if_pos h3, if_pos h3]; rfl
  rw [if_neg h3, if_neg h3]
  by_cases h4 : m ≤ 96
  · rw [if_pos h4, if_pos h4]; rfl
  rw [if_neg h4, if_neg h4]; rfl

/-- **C116** for G.726, likewise; if there is no rate in the table, the tracks do not change. -/
theorem C116_g726 {name : String} {a : Bool} {h : List (Oracle × DemuxOp)} {s : Demuxer} (hr : Reached name a h s)
    (hf : FirstsInOrder (taken s.calls)) (hc : s.completed = true) {i : Nat} {p q : AVPacket} {n ms : Int}
    (hm : Measures codecG726 (taken (beforeComplete s.calls)) i p q n ms) (h1 : 1 ≤ ms) (hn : n < 2 ^ 50) {t : AVStream}
    (ht : t ∈ s.tracks.tracks) (hcod : t.codecID = codecG726) {r : Int} (hb : bestRate g726Table (n / ms) = some r) : t.bitRate = r := by
  obtain ⟨u, ts, e⟩ := Demuxer.Reached.tuned hr hc
  rw [e] at ht
  obtain ⟨t0, _, rfl⟩ := List.mem_map.1 ht
  have hcod0 : t0.codecID = codecG726 := by
    unfold Demuxer.retune at hcod
    by_contra hg
    rw [g726Tune_other _ _ (by rw [pcmTune_codec]; exact hg), pcmTune_codec] at hcod
    exact hg hcod
  unfold Demuxer.retune
  rw [pcmTune_other _ _ (by rw [hcod0]; decide)]
  unfold Demuxer.g726Tune
  rw [hm.measured hr hf hc u]
  dsimp only
  rw [if_neg (by rintro (h' | h') <;> [omega; exact h' hcod0])]
  have h0 : 0 ≤ n := by rw [hm.bytes]; exact Int.natCast_nonneg _
  obtain ⟨k0, k1⟩ := tdiv_lt h0 h1 hn
  rw [Int.tdiv_eq_ediv_of_nonneg h0] at k0 k1 ⊢
  rw [bestRate_g726] at hb
  generalize n / ms = m at *
  have hw : wrap64 (wrap64 (m * 1000) * 8) = m * 8000 := by
    rw [show wrap64 (m * 1000) = m * 1000 from wrap64_of_range (by omega) (by omega)]
    rw [wrap64_of_range (by omega) (by omega)]; omega
  unfold Demuxer.g726Rate
  dsimp only
  rw [hw]
  by_cases h1 : m ≤ 2
  · rw [if_pos h1] at hb; rw [if_pos (by omega)]; exact Option.some.inj hb
  rw [if_neg h1] at hb; rw [if_neg (show ¬ m * 8000 ≤ 16000 by omega)]
  by_cases h2 : m ≤ 3
  · rw [if_pos h2] at hb; rw [if_pos (by omega)]; exact Option.some.inj hb
  rw [if_neg h2] at hb; rw [if_neg (show ¬ m * 8000 ≤ 24000 by omega)]
  by_cases h3 : m ≤ 4
  · rw [if_pos h3] at hb; rw [if_pos (by omega)]; exact Option.some.inj hb
  rw [if_neg h3] at hb; rw [if_neg (show ¬ m * 8000 ≤ 32000 by omega)]
  by_cases h4 : m ≤ 5
  · rw [if_pos h4] at hb; rw [if_pos (by omega)]; exact Option.some.inj hb
  rw [if_neg h4] at hb; cases hb

/-! ## Sound of which the rate is known -/

/-- Milliseconds, cut, of `n` samples at `r` per second. -/
theorem cut_time {n r tb D ms : Int} (htb : tb = 90000 ∨ tb = 1000) (hr : 0 < r) (hD : D * r = n * tb) (hms : ms = 1000 * D / tb) :
    ms * r ≤ 1000 * n := by
  have h1 : ms * tb ≤ 1000 * D := by rcases htb with e | e <;> rw [e] at hms ⊢ <;> omega
  have h2 : ms * tb * r ≤ 1000 * D * r := Int.mul_le_mul_of_nonneg_right h1 (by omega)
  have h3 : 1000 * D * r = 1000 * n * tb := by rw [Int.mul_assoc, hD, Int.mul_assoc]
  rw [h3, Int.mul_right_comm] at h2
  exact Int.le_of_mul_le_mul_right h2 (by rcases htb with e | e <;> rw [e] <;> decide)

/-- **C116**: let the first PCM packet hold `n` samples of one channel, and let the next packet come when they have been played at the rate
`r`, one of the four in the table. The rate that is detected is `r` if and only if the time, cut to whole milliseconds, is not too short. -/
theorem C116_right {name : String} {a : Bool} {h : List (Oracle × DemuxOp)} {s : Demuxer} (hr : Reached name a h s)
    (hf : FirstsInOrder (taken s.calls)) (hc : s.completed = true) {i : Nat} {p q : AVPacket} {n ms r : Int}
    (hm : Measures codecPCMS16LE (taken (beforeComplete s.calls)) i p q (2 * n) ms) (h1 : 1 ≤ ms) {t : AVStream} (ht : t ∈ s.tracks.tracks)
    (hcod : t.codecID = codecPCMS16LE) (h16 : t.sampleSize = 16) (hrt : r ∈ [(8000 : Int), 16000, 32000, 48000])
    (hplay : (q.dts - p.dts) * r = n * p.timebase) : t.sampleRate = r ↔ 2 * n < (r / 500 + 1) * ms := by
  rw [C116_pcm hr hf hc hm h1 ht hcod, h16, bestRate_pcm]
  have hr0 : 0 < r := by revert hrt; simp; rintro (e | e | e | e) <;> omega
  have hcut := cut_time hm.timebase hr0 hplay hm.ms
  have hdiv : ∀ k : Int, 2 * n / ms ≤ k ↔ 2 * n < (k + 1) * ms := fun k => by
    rw [← Int.lt_add_one_iff, Int.ediv_lt_iff_lt_mul (by omega)]
  have hlow : r / 500 ≤ 2 * n / ms := by
    rw [Int.le_ediv_iff_mul_le (by omega)]
    revert hrt; simp
    rintro (rfl | rfl | rfl | rfl) <;> norm_num <;> omega
  rw [← hdiv]
  generalize 2 * n / ms = m at *
  revert hrt; simp only [List.mem_cons, List.not_mem_nil, or_false]
  rintro (rfl | rfl | rfl | rfl) <;> norm_num at hlow ⊢ <;>
    (by_cases k1 : m ≤ 16 <;> by_cases k2 : m ≤ 32 <;> by_cases k3 : m ≤ 64 <;> by_cases k4 : m ≤ 96 <;> simp [k1, k2, k3, k4] <;> omega)

/-- **C116**: so it is right if packets last whole milliseconds. -/
theorem C116_whole_milliseconds {name : String} {a : Bool} {h : List (Oracle × DemuxOp)} {s : Demuxer} (hr : Reached name a h s)
    (hf : FirstsInOrder (taken s.calls)) (hc : s.completed = true) {i : Nat} {p q : AVPacket} {n ms r : Int}
    (hm : Measures codecPCMS16LE (taken (beforeComplete s.calls)) i p q (2 * n) ms) (h1 : 1 ≤ ms) {t : AVStream} (ht : t ∈ s.tracks.tracks)
    (hcod : t.codecID = codecPCMS16LE) (h16 : t.sampleSize = 16) (hrt : r ∈ [(8000 : Int), 16000, 32000, 48000])
    (hplay : (q.dts - p.dts) * r = n * p.timebase) (hw : 1000 * (q.dts - p.dts) % p.timebase = 0) : t.sampleRate = r := by
  rw [C116_right hr hf hc hm h1 ht hcod h16 hrt hplay]
  have hD : 1000 * (q.dts - p.dts) = ms * p.timebase := by
    rw [hm.ms]
    rcases hm.timebase with e | e <;> rw [e] at hw ⊢ <;> omega
  have h2 : ms * r = 1000 * n := by
    have h3 : 1000 * ((q.dts - p.dts) * r) = 1000 * (n * p.timebase) := by rw [hplay]
    rw [← Int.mul_assoc, hD, ← Int.mul_assoc, Int.mul_right_comm] at h3
    exact Int.eq_of_mul_eq_mul_right (by rcases hm.timebase with e | e <;> rw [e] <;> decide) h3
  revert hrt; simp only [List.mem_cons, List.not_mem_nil, or_false]
  rintro (rfl | rfl | rfl | rfl) <;> norm_num at h2 ⊢ <;> omega

/-- **C116** for G.726: the bit rate of `n` bytes played at `r` bits per second. -/
theorem C116_g726_right {name : String} {a : Bool} {h : List (Oracle × DemuxOp)} {s : Demuxer} (hr : Reached name a h s)
    (hf : FirstsInOrder (taken s.calls)) (hc : s.completed = true) {i : Nat} {p q : AVPacket} {n ms r : Int}
    (hm : Measures codecG726 (taken (beforeComplete s.calls)) i p q n ms) (h1 : 1 ≤ ms) (hn : n < 2 ^ 50) {t : AVStream}
    (ht : t ∈ s.tracks.tracks) (hcod : t.codecID = codecG726) (hrt : r ∈ [(16000 : Int), 24000, 32000, 40000])
    (hplay : (q.dts - p.dts) * r = 8 * n * p.timebase) (hlong : n < (r / 8000 + 1) * ms) : t.bitRate = r := by
  refine C116_g726 hr hf hc hm h1 hn ht hcod ?_
  have hr0 : 0 < r := by revert hrt; simp; rintro (e | e | e | e) <;> omega
  have hcut := cut_time hm.timebase hr0 hplay hm.ms
  have hhigh : n / ms ≤ r / 8000 := by rw [← Int.lt_add_one_iff, Int.ediv_lt_iff_lt_mul (by omega)]; exact hlong
  have hlow : r / 8000 ≤ n / ms := by
    rw [Int.le_ediv_iff_mul_le (by omega)]
    revert hrt; simp
    rintro (rfl | rfl | rfl | rfl) <;> norm_num <;> omega
  rw [bestRate_g726]
  generalize n / ms = m at *
  revert hrt; simp only [List.mem_cons, List.not_mem_nil, or_false]
  rintro (rfl | rfl | rfl | rfl) <;> norm_num at hlow hhigh ⊢ <;>
    (by_cases k1 : m ≤ 2 <;> by_cases k2 : m ≤ 3 <;> by_cases k3 : m ≤ 4 <;> by_cases k4 : m ≤ 5 <;> simp [k1, k2, k3, k4] <;> omega)

/-! ## Detection goes wrong -/

/-- **C116** in full: sound at a rate of the table is reported with its rate. -/
def C116_claim : Prop :=
  ∀ name a h s, KnownName name → Reached name a h s → (∀ x ∈ h, x.2.PacketOnly) → s.completed = true → ∀ i p q n ms r,
    Measures codecPCMS16LE (taken (beforeComplete s.calls)) i p q (2 * n) ms → 1 ≤ ms → r ∈ [(8000 : Int), 16000, 32000, 48000] →
    (q.dts - p.dts) * r = n * p.timebase → ∀ t ∈ s.tracks.tracks, t.codecID = codecPCMS16LE → t.sampleRate = r

/-- `k` packets of `n` samples, played at 48 kHz. -/
def studioRun (n k : Nat) : List (Oracle × DemuxOp) :=
  (List.range k).map fun i : Nat => (exOracle, .audioPacket 0 codecPCMS16LE (List.replicate (2 * n) 7) (15 * (n : Int) * (i : Int) / 8))

theorem studioRun_ops (n k : Nat) : ∀ x ∈ studioRun n k, x.1 = exOracle ∧ x.2.PacketOnly := by
  intro x hx
  obtain ⟨i, _, rfl⟩ := List.mem_map.1 hx
  exact ⟨rfl, trivial⟩

theorem studioRun_result : ∃ s p q rest, Reached "ts" true (studioRun 1024 11) s ∧ s.completed = true ∧
    taken (beforeComplete s.calls) = p :: q :: rest ∧ (∀ x ∈ taken (beforeComplete s.calls), x.codecID = codecPCMS16LE ∧ x.index = 0) ∧
    p.timebase = 90000 ∧ p.dts = 0 ∧ q.dts = 1920 ∧ p.data.length = 2048 ∧
    s.tracks.tracks.map (fun t => (t.codecID, t.sampleRate, t.sampleSize)) = [(codecPCMS16LE, 16, 16)] := by
  have h : (runDemux (Demuxer.new "ts" true) (studioRun 1024 11) >>= fun s => ok (decide (s.completed = true ∧
      ((taken (beforeComplete s.calls)).take 2).map (fun x => (x.timebase, x.dts, x.data.length)) = [(90000, 0, 2048), (90000, 1920, 2048)] ∧
      (taken (beforeComplete s.calls)).all (fun x => x.codecID = codecPCMS16LE ∧ x.index = 0) = true ∧
      s.tracks.tracks.map (fun t => (t.codecID, t.sampleRate, t.sampleSize)) = [(codecPCMS16LE, 16, 16)]))) = ok true := by decide +kernel
  obtain ⟨s, h1, h2⟩ := bind_eq_ok.1 h
  simp only [Go.ok.injEq, decide_eq_true_eq] at h2
  obtain ⟨e1, e2, e3, e4⟩ := h2
  match hl : taken (beforeComplete s.calls), e2 with
  | [], e2 => cases e2
  | [x], e2 => simp at e2
  | p :: q :: rest, e2 =>
    simp only [List.take, List.map_cons, List.map_nil, List.cons.injEq, Prod.mk.injEq, and_true] at e2
    rw [List.all_eq_true] at e3
    refine ⟨s, p, q, rest, ⟨fun x hx => by rw [(studioRun_ops _ _ x hx).1]; exact exOracle_valid, h1⟩, e1, hl, ?_, e2.1.1, e2.1.2.1, e2.2.2.1, e2.1.2.2, e4⟩
    intro x hx
    simpa using e3 x hx

/-- It is not so: packets of 1024 samples at 48 kHz last 21.33 ms, which are taken for 21, and 97 bytes in a millisecond are more than the
table knows. The track is reported with 16 samples per second. -/
theorem C116_claim_violated : ¬ C116_claim := by
  intro hcl
  obtain ⟨s, p, q, rest, hr, hc, hl, hall, e1, e2, e3, e4, e5⟩ := studioRun_result
  cases ht : s.tracks.tracks with
  | nil => rw [ht] at e5; cases e5
  | cons t ts =>
    rw [ht] at e5
    simp only [List.map_cons, List.cons.injEq, Prod.mk.injEq] at e5
    have := hcl "ts" true _ s (by simp [KnownName]) hr (fun x hx => (studioRun_ops _ _ x hx).2) hc 0 p q 1024 21 48000
      ⟨fun x hx => ⟨fun _ => (hall x hx).2, fun _ => (hall x hx).1⟩,
       ⟨rest, by
        unfold ofTrack
        rw [List.filter_eq_self.2 (fun x hx => by simpa using (hall x hx).2), hl]⟩,
       Or.inl e1, by rw [e2, e3]; decide, by rw [e4]; decide, by rw [e1, e2, e3]; decide⟩ (by decide) (by simp) (by rw [e1, e2, e3]; decide) t
      (by rw [ht]; simp) e5.1.1
    rw [e5.1.2.1] at this
    revert this; decide

/-- The condition of `C116_right`: 1024 samples at 48 kHz are 21 ms, and `2 * 1024` is not less than `97 * 21`; 960 samples are 20 ms. -/
example : 1000 * (1920 : Int) / 90000 = 21 ∧ ¬ (2 * 1024 : Int) < (48000 / 500 + 1) * 21 ∧ 1000 * (1800 : Int) / 90000 = 20 ∧
    (2 * 960 : Int) < (48000 / 500 + 1) * 20 := by decide

/-- 960 samples at 48 kHz: the rate is right. -/
example : (runDemux (Demuxer.new "ts" true) (studioRun 960 11) >>= fun s => ok (s.completed, s.tracks.tracks.map fun t => t.sampleRate)) =
    ok (true, [48000]) := by decide +kernel

/-- Two PCM tracks: the second, at 48 kHz, gets the rate of the first. -/
theorem C116_second_track : (runDemux (Demuxer.new "ts" true) ((List.range 11).flatMap fun i : Nat =>
      [(exOracle, .audioPacket 0 codecPCMS16LE (List.replicate 320 7) (1800 * (i : Int))),
       (exOracle, .audioPacket 1 codecPCMS16LE (List.replicate 1920 7) (1800 * (i : Int)))]) >>= fun s =>
    ok (s.completed, s.tracks.tracks.map fun t => t.sampleRate)) = ok (true, [8000, 8000]) := by decide +kernel

/-- Two channels at 8 kHz are taken for one at 16 kHz. -/
theorem C116_stereo : (runDemux (Demuxer.new "ts" true) ((List.range 11).map fun i : Nat =>
      (exOracle, .audioPacket 0 codecPCMS16LE (List.replicate 640 7) (1800 * (i : Int)))) >>= fun s =>
    ok (s.completed, s.tracks.tracks.map fun t => (t.sampleRate, t.channels))) = ok (true, [(16000, 1)]) := by decide +kernel

/-- G.726 at 40 kbit/s, 20 ms in each packet. -/
example : (runDemux (Demuxer.new "ps" true) ((List.range 11).map fun i : Nat =>
      (exOracle, .audioPacket 0 codecG726 (List.replicate 100 7) (1800 * (i : Int)))) >>= fun s =>
    ok (s.completed, s.tracks.tracks.map fun t => t.bitRate)) = ok (true, [40000]) := by decide +kernel

end Avf
