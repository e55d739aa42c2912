import Verif.Lemmas.PacketOutcome
import Verif.Props.Record
import Verif.Props.RepoTests
import Verif.Lemmas.Repackage
import Verif.Lemmas.AdtsFile
/-!
# C120: which packets `AVCCPacket2AnnexB` converts

C68 has the results for packets that meet its conditions. Here all packets of all streams are covered: the result if there is one, and
a panic otherwise.
-/
namespace Avf
open Go

theorem not_needs {s : AVStream} {p : AVPacket} (h : ¬ NeedsAnnexB s p) :
    p.packetType ≠ packAVCC ∨ (s.codecID ≠ codecH264 ∧ s.codecID ≠ codecH265) := by
  by_cases h1 : p.packetType = packAVCC
  · right
    constructor
    · intro h2; exact h ⟨h1, .inl h2⟩
    · intro h2; exact h ⟨h1, .inr h2⟩
  · exact .inl h1

theorem needs_not {s : AVStream} {p : AVPacket} (h : NeedsAnnexB s p) :
    ¬ (p.packetType ≠ packAVCC ∨ (s.codecID ≠ codecH264 ∧ s.codecID ≠ codecH265)) := by
  rintro (h1 | ⟨h1, h2⟩)
  · exact h1 h.1
  · rcases h.2 with e | e
    · exact h1 e
    · exact h2 e

theorem key_not_avcc {s : AVStream} {p : AVPacket} {c : CodecData} (h : ¬ NeedsAnnexB s p) (hk : KeyWithSets s p c) :
    p.packetType ≠ packAVCC := fun h1 => h ⟨h1, hk.2.1⟩

theorem prepend_plain {s : AVStream} {p : AVPacket} (h : ∀ c, ¬ KeyWithSets s p c) : prependExtraData s p = ok p := by
  unfold prependExtraData
  split
  · rename_i hc
    cases e : s.codecParameters with
    | none => rfl
    | some c => exact absurd ⟨hc.1, hc.2.1, e⟩ (h c)
  · rfl

theorem annexBOf_sound (s : AVStream) (p : AVPacket) (hv : p.mediaType = mediaVideo) (hb : ∀ n, (p.allocBuffer n).length = n)
    (hk : ∀ c r, s.codecParameters = some c → c.record = .hevc r → r.lengthSizeMinusOne.toNat ≤ 7) {out : Bytes}
    (h : AnnexBOf s p out) : ∃ q, avccPacket2AnnexB s p = ok (out, q) := by
  have hb' : ∀ n, n ≤ (p.allocBuffer n).length := fun n => Nat.le_of_eq (hb n).symm
  cases h with
  | kept _ h1 =>
    refine ⟨p, ?_⟩
    unfold avccPacket2AnnexB
    rw [if_neg (by rw [hv]; simp)]
    have : prependExtraData s p = ok p := by
      unfold prependExtraData
      rw [if_neg (by rw [h1]; simp)]
    split
    · rw [this, ok_bind, h1]; rfl
    · rw [h1]
  | plain h1 h2 h3 =>
    refine ⟨p, ?_⟩
    unfold avccPacket2AnnexB
    rw [if_neg (by rw [hv]; simp), if_pos (not_needs h2), prepend_plain h3, ok_bind, h1]
    rfl
  | begins c a h1 h2 h3 h4 h5 =>
    exact ⟨_, C68_annexB_same s p c hv (key_not_avcc h2 h3) h1 h3.2.2 a h4.2 h5.2 h4.1 h5.1⟩
  | prepended c a b h1 h2 h3 h4 h5 h6 =>
    have := C68_annexB_key s p c hv (key_not_avcc h2 h3) h3.2.1 h3.1 h1 h3.2.2 a b h4.2 h5.2 h4.1 h5.1 h6 hb'
    simp only [List.drop_of_length_le (Nat.le_of_eq (hb _)), List.append_nil] at this
    exact ⟨_, this⟩
  | h264 c us tail h1 h2 h3 h4 h5 h6 h7 => exact ⟨_, C68_h264 s p c ⟨hv, h2.1, h2.2, h1⟩ h4 h3 us tail h6 h7 h5 hb'⟩
  | h265 c r us h1 h2 h3 h4 h5 h6 h7 =>
    exact ⟨_, C68_h265 s p c r _ ⟨hv, h2.1, h2.2, h1⟩ h4 h3 h5 rfl (hk c r h3 h5) us h6.2 h6.1 h7 hb'⟩
  | other c h1 h2 h3 h4 h5 =>
    refine ⟨{ p with dataAnnexB := some (keyExtra p c) }, ?_⟩
    have hB := hb ((keyExtra p c).length + p.data.length + 256)
    generalize hBB : p.allocBuffer ((keyExtra p c).length + p.data.length + 256) = B at hB
    unfold avccPacket2AnnexB
    rw [if_neg (by rw [hv]; simp), if_neg (needs_not h2), h1, h3]
    dsimp only
    rw [keyExtra_length, hBB, if_neg h4, if_neg h5, ok_bind]
    have := avcc_finish p c (B.take (keyExtra p c).length) [] (B.drop (keyExtra p c).length) (by rw [List.length_take]; omega)
    simp only [List.append_nil, List.length_nil, List.take_append_drop] at this
    exact this

/-- The other direction. -/
theorem annexBOf_complete (s : AVStream) (p : AVPacket) (hb : ∀ n, (p.allocBuffer n).length = n)
    (hk : ∀ c r, s.codecParameters = some c → c.record = .hevc r → r.lengthSizeMinusOne.toNat ≤ 7) :
    avccPacket2AnnexB s p = Go.panic ∨ p.mediaType = mediaVideo ∧ ∃ out, AnnexBOf s p out := by
  by_cases hv : p.mediaType = mediaVideo
  case neg => exact .inl (C68_not_video s p hv)
  have hb' : ∀ n, n ≤ (p.allocBuffer n).length := fun n => Nat.le_of_eq (hb n).symm
  cases hn : p.dataAnnexB with
  | some d => exact .inr ⟨hv, d, .kept d hn⟩
  | none =>
  by_cases h2 : NeedsAnnexB s p
  · cases hc : s.codecParameters with
    | none =>
      refine .inl ?_
      unfold avccPacket2AnnexB
      rw [if_neg (by rw [hv]; simp), if_neg (needs_not h2), hn, hc]
      dsimp only
      by_cases h4 : p.codecID = codecH264
      · rw [if_pos h4, sliceFrom_of_le (by omega), ok_bind]
        obtain ⟨n, d', e1, e2, e3⟩ := C32_fits p.data ((p.allocBuffer (0 + p.data.length + 256)).drop 0) (by
          rw [List.drop_zero, hb]; omega)
        rw [e1]
        simp [slice]
      · rw [if_neg h4]
        by_cases h5 : p.codecID = codecH265
        · rw [if_pos h5]; rfl
        · rw [if_neg h5]; simp [slice]
    | some c =>
      by_cases h4 : p.codecID = codecH264
      · obtain ⟨us, tail, hd, hus, ht⟩ := C32_decompose p.data
        exact .inr ⟨hv, _, .h264 c us tail hn h2 hc h4 hd hus ht⟩
      · by_cases h5 : p.codecID = codecH265
        · cases hr : c.record with
          | avc r =>
            refine .inl ?_
            obtain ⟨w, hh, ab, m4, rec⟩ := c
            cases hr
            unfold avccPacket2AnnexB
            rw [if_neg (by rw [hv]; simp), if_neg (needs_not h2), hn, hc]
            dsimp only
            rw [if_neg h4, if_pos h5]
            rfl
          | hevc r =>
            have h7 := hk c r hc hr
            obtain ⟨us, tail, hd, hus, ht⟩ := lengthPrefixed_decompose r.lengthSizeMinusOne.toNat p.data
            by_cases hfit : tail = [] ∧ (us.flatMap (([0, 0, 0, 1] : Bytes) ++ ·)).length ≤ p.data.length + 256
            · rw [hfit.1, List.append_nil] at hd
              exact .inr ⟨hv, _, .h265 c r us hn h2 hc h5 hr ⟨hd, hus⟩ hfit.2⟩
            · refine .inl ?_
              obtain ⟨w, hh, ab, m4, rec⟩ := c
              cases hr
              have hB := hb ((keyExtra p ⟨w, hh, ab, m4, .hevc r⟩).length + p.data.length + 256)
              unfold avccPacket2AnnexB
              rw [if_neg (by rw [hv]; simp), if_neg (needs_not h2), hn, hc]
              dsimp only
              rw [keyExtra_length, if_neg h4, if_pos h5]
              generalize p.allocBuffer ((keyExtra p ⟨w, hh, ab, m4, .hevc r⟩).length + p.data.length + 256) = B at hB
              generalize (keyExtra p ⟨w, hh, ab, m4, .hevc r⟩).length = E at hB
              rw [sliceFrom_of_le (by omega), ok_bind]
              cases e : hevcMp4ToAnnexB (B.drop E) p.data [] r.lengthSizeMinusOne.toNat with
              | err e => rfl
              | panic => rfl
              | ok y =>
                obtain ⟨n, d⟩ := y
                unfold hevcMp4ToAnnexB at e
                rw [hd] at e
                obtain ⟨g1, g2, g3⟩ := hevcMp4Loop_counts h7 us tail hus ht e
                have hbig : p.data.length + 256 < n := by
                  rw [g2, Nat.zero_add]
                  exact Nat.lt_of_not_le fun hle => hfit ⟨g1, hle⟩
                dsimp only
                rw [pure_def, ok_bind]
                dsimp only
                rw [List.length_drop] at g3
                rw [slice_of_le (by omega) (by rw [List.length_append, List.length_take]; omega), ok_bind]
                rw [show slice _ 0 (n + E) = (Go.panic : Go Bytes) from ?_]
                · rfl
                · unfold slice
                  rw [if_neg]
                  rintro ⟨-, h⟩
                  rw [List.length_append, length_overwrite (by omega), List.length_drop, List.length_drop, List.length_append,
                    List.length_take, List.length_take, List.length_append, List.length_take, g3, hB] at h
                  omega
        · exact .inr ⟨hv, _, .other c hn h2 hc h4 h5⟩
  · by_cases h3 : ∃ c, KeyWithSets s p c
    · obtain ⟨c, h3⟩ := h3
      have hpanic : (removeStartCode c.annexBExtraData >>= fun e => idx e 0) = Go.panic ∨
          (∃ a, Leads c.annexBExtraData a) ∧ (removeStartCode p.data >>= fun e => idx e 0) = Go.panic →
          avccPacket2AnnexB s p = Go.panic := by
        intro h
        unfold avccPacket2AnnexB
        rw [if_neg (by rw [hv]; simp), if_pos (not_needs h2)]
        suffices hs : prependExtraData s p = Go.panic by rw [hs]; rfl
        unfold prependExtraData
        rw [if_pos ⟨h3.1, h3.2.1, hn⟩, h3.2.2]
        dsimp only
        rcases h with h | ⟨⟨a, ha⟩, h⟩
        · cases e : removeStartCode c.annexBExtraData with
          | ok x =>
            rw [e, ok_bind] at h
            rw [ok_bind, h]
            rfl
          | err x => rw [e] at h; cases h
          | panic => rfl
        · obtain ⟨x, e1, e2⟩ := bind_eq_ok.1 (lead_ok ha)
          rw [e1, ok_bind, e2, ok_bind]
          cases e : removeStartCode p.data with
          | ok x =>
            rw [e, ok_bind] at h
            rw [ok_bind, h]
            rfl
          | err x => rw [e] at h; cases h
          | panic => rfl
      by_cases ha : ∃ a, Leads c.annexBExtraData a
      · by_cases hb : ∃ b, Leads p.data b
        · obtain ⟨a, ha⟩ := ha
          obtain ⟨b, hb⟩ := hb
          by_cases hab : a = b
          · exact .inr ⟨hv, _, .begins c a hn h2 h3 ha (hab ▸ hb)⟩
          · exact .inr ⟨hv, _, .prepended c a b hn h2 h3 ha hb hab⟩
        · exact .inl (hpanic (.inr ⟨ha, lead_panics fun b h => hb ⟨b, h⟩⟩))
      · exact .inl (hpanic (.inl (lead_panics fun b h => ha ⟨b, h⟩)))
    · exact .inr ⟨hv, _, .plain hn h2 (fun c hc => h3 ⟨c, hc⟩)⟩

/-- **C120**: a video packet gives `out` if and only if `out` is its Annex B form, and a packet without Annex B form panics.
`OnBufferAlloc`, if there is one, gives as many bytes as it is asked for. -/
theorem C120_exact (s : AVStream) (p : AVPacket) (hv : p.mediaType = mediaVideo) (hb : ∀ n, (p.allocBuffer n).length = n)
    (hk : ∀ c r, s.codecParameters = some c → c.record = .hevc r → r.lengthSizeMinusOne.toNat ≤ 7) :
    (∀ out, (∃ q, avccPacket2AnnexB s p = ok (out, q)) ↔ AnnexBOf s p out) ∧
      (avccPacket2AnnexB s p = Go.panic ↔ ¬ ∃ out, AnnexBOf s p out) := by
  have hs := fun {out} => annexBOf_sound s p hv hb hk (out := out)
  have hc := annexBOf_complete s p hb hk
  refine ⟨fun out => ⟨?_, hs⟩, ?_, ?_⟩
  · rintro ⟨q, hq⟩
    rcases hc with hc | ⟨-, out', h⟩
    · rw [hq] at hc; cases hc
    · obtain ⟨q', h'⟩ := hs h
      rw [hq] at h'
      cases h'
      exact h
  · rintro h ⟨out, ho⟩
    obtain ⟨q, hq⟩ := hs ho
    rw [h] at hq
    cases hq
  · intro h
    exact hc.resolve_right fun hh => h hh.2

/-- The Annex B form is unique. -/
theorem C120_unique (s : AVStream) (p : AVPacket) (hv : p.mediaType = mediaVideo) (hb : ∀ n, (p.allocBuffer n).length = n)
    (hk : ∀ c r, s.codecParameters = some c → c.record = .hevc r → r.lengthSizeMinusOne.toNat ≤ 7) {a b : Bytes}
    (ha : AnnexBOf s p a) (hb' : AnnexBOf s p b) : a = b := by
  obtain ⟨q, hq⟩ := annexBOf_sound s p hv hb hk ha
  obtain ⟨q', hq'⟩ := annexBOf_sound s p hv hb hk hb'
  rw [hq] at hq'
  cases hq'
  rfl

/-- The claim: every AVCC packet of H.265 with complete units of at least two bytes, of a stream with a record for lengths of that
size, is converted. -/
def C120_claim : Prop := ∀ (s : AVStream) (p : AVPacket) (c : CodecData) (r : HEVCRecord) (us : List Bytes), AvccPacket s p →
  p.codecID = codecH265 → p.onBufferAlloc = none → s.codecParameters = some c → c.record = .hevc r →
  1 ≤ r.lengthSizeMinusOne.toNat → r.lengthSizeMinusOne.toNat ≤ 4 → HevcPayload r.lengthSizeMinusOne.toNat us p.data →
  avccPacket2AnnexB s p ≠ Go.panic

theorem alloc_default {p : AVPacket} (h : p.onBufferAlloc = none) (n : Nat) : (p.allocBuffer n).length = n := by
  unfold AVPacket.allocBuffer; rw [h]; simp

/-- **C120**: what holds of the claim. A well-formed packet is converted if and only if the start codes are at most 256 bytes more than
the lengths they replace: always with lengths of 4 bytes, up to 256 units with 3 bytes, 128 with 2 bytes, 85 with one byte. -/
theorem C120_h265_partial (s : AVStream) (p : AVPacket) (c : CodecData) (r : HEVCRecord) (us : List Bytes) (h : AvccPacket s p)
    (h265 : p.codecID = codecH265) (ha : p.onBufferAlloc = none) (hc : s.codecParameters = some c) (hr : c.record = .hevc r)
    (hk : r.lengthSizeMinusOne.toNat ≤ 4) (hp : HevcPayload r.lengthSizeMinusOne.toNat us p.data) :
    avccPacket2AnnexB s p ≠ Go.panic ↔ (4 - r.lengthSizeMinusOne.toNat) * us.length ≤ 256 := by
  have hk7 : ∀ c' r', s.codecParameters = some c' → c'.record = .hevc r' → r'.lengthSizeMinusOne.toNat ≤ 7 := by
    intro c' r' e1 e2
    rw [hc] at e1
    cases e1
    rw [hr] at e2
    cases e2
    omega
  have hE := C120_exact s p h.video (alloc_default ha) hk7
  have hcount : ∀ us', HevcPayload r.lengthSizeMinusOne.toNat us' p.data →
      (us'.flatMap (([0, 0, 0, 1] : Bytes) ++ ·)).length = (us.flatMap (([0, 0, 0, 1] : Bytes) ++ ·)).length := by
    intro us' hp'
    have h1 := C46_hevc_ok us [] (List.replicate (hevcToAnnexB [] us).length 0) r.lengthSizeMinusOne.toNat (by omega) hp.2 (by simp)
    rw [← hp.1, hp'.1, ← List.append_nil (lengthPrefixed _ us')] at h1
    have h2 := (hevcMp4Loop_counts (by omega) us' [] hp'.2 (.inl rfl) h1).2.1
    rw [hevcToAnnexB_nil] at h2
    omega
  have hlen := start_codes_length r.lengthSizeMinusOne.toNat us
  rw [← hp.1] at hlen
  have hiff : (us.flatMap (([0, 0, 0, 1] : Bytes) ++ ·)).length ≤ p.data.length + 256 ↔ (4 - r.lengthSizeMinusOne.toNat) * us.length ≤ 256 := by
    rw [Nat.sub_mul]
    have : r.lengthSizeMinusOne.toNat * us.length ≤ 4 * us.length := Nat.mul_le_mul_right _ hk
    omega
  rw [← hiff, Ne, hE.2, Classical.not_not]
  constructor
  · rintro ⟨out, ho⟩
    have hnd : NeedsAnnexB s p := ⟨h.type, h.codec⟩
    cases ho with
    | kept d e => rw [h.fresh] at e; cases e
    | plain _ e _ => exact absurd hnd e
    | begins _ _ _ e => exact absurd hnd e
    | prepended _ _ _ _ e => exact absurd hnd e
    | h264 _ _ _ _ _ _ e => rw [h265] at e; exact absurd e (by decide)
    | other _ _ _ _ _ e => exact absurd h265 e
    | h265 c' r' us' _ _ e1 _ e2 e3 e4 =>
      rw [hc] at e1
      cases e1
      rw [hr] at e2
      cases e2
      rw [← hcount us' e3]
      exact e4
  · intro hle
    exact ⟨_, .h265 c r us h.fresh ⟨h.type, h.codec⟩ hc h265 hr hp hle⟩

/-- **C120**: for a stream with the codec data of a configuration record, `n` is the size of the lengths in bits 174 and 175 of the
record; the packet is converted if and only if its payload has the form and `(4 - n) * units ≤ 256`. -/
theorem C120_record (grow : Nat → Nat) (data : Bytes) (hlen : data.length < 2 ^ 62) (c : CodecData) (hd : parseHEVCRecord grow data = ok c)
    (s : AVStream) (p : AVPacket) (h : AvccPacket s p) (h265 : p.codecID = codecH265) (ha : p.onBufferAlloc = none)
    (hc : s.codecParameters = some c) :
    (∃ q, avccPacket2AnnexB s p = ok q) ↔
      ∃ us, HevcPayload (bitField data 174 2 + 1) us p.data ∧ (3 - bitField data 174 2) * us.length ≤ 256 := by
  obtain ⟨r, hr, hu⟩ := parseHEVCRecord_record hd
  obtain ⟨_, _, _, _, _, _, _, _, _, _, _, _, _, _, _, _, hk, _⟩ := C70_header_fields grow {} r data hlen hu
  have hf : bitField data 174 2 < 4 := bitField_lt ..
  have hk7 : ∀ c' r', s.codecParameters = some c' → c'.record = .hevc r' → r'.lengthSizeMinusOne.toNat ≤ 7 := by
    intro c' r' e1 e2
    rw [hc] at e1
    cases e1
    rw [hr] at e2
    cases e2
    omega
  have hE := C120_exact s p h.video (alloc_default ha) hk7
  have hpart := fun us => C120_h265_partial s p c r us h h265 ha hc hr (by omega)
  rw [hk] at hpart
  constructor
  · rintro ⟨⟨out, q⟩, hq⟩
    have ho := (hE.1 out).1 ⟨q, hq⟩
    have hnd : NeedsAnnexB s p := ⟨h.type, h.codec⟩
    cases ho with
    | kept d e => rw [h.fresh] at e; cases e
    | plain _ e _ => exact absurd hnd e
    | begins _ _ _ e => exact absurd hnd e
    | prepended _ _ _ _ e => exact absurd hnd e
    | h264 _ _ _ _ _ _ e => rw [h265] at e; exact absurd e (by decide)
    | other _ _ _ _ _ e => exact absurd h265 e
    | h265 c' r' us' _ _ e1 _ e2 e3 e4 =>
      rw [hc] at e1
      cases e1
      rw [hr] at e2
      cases e2
      rw [hk] at e3
      refine ⟨us', e3, ?_⟩
      have := (hpart us' e3).1 (by rw [hq]; simp)
      rwa [show 4 - (bitField data 174 2 + 1) = 3 - bitField data 174 2 by omega] at this
  · rintro ⟨us, hp, hle⟩
    have := (hpart us hp).2 (by rwa [show 4 - (bitField data 174 2 + 1) = 3 - bitField data 174 2 by omega])
    have h2 := Classical.not_not.1 (mt hE.2.2 this)
    obtain ⟨out, ho⟩ := h2
    obtain ⟨q, hq⟩ := (hE.1 out).2 ho
    exact ⟨_, hq⟩

/-- A stream with a record for lengths of `k` bytes. -/
def c120Stream (k : Byte) : AVStream :=
  { mediaType := mediaVideo, index := 0, codecID := codecH265
    codecParameters := some ⟨0, 0, none, none, .hevc { lengthSizeMinusOne := k }⟩ }

/-- A packet with `n` units of two bytes. -/
def c120Packet (k n : Nat) : AVPacket :=
  { mediaType := mediaVideo, codecID := codecH265, packetType := packAVCC, data := lengthPrefixed k (List.replicate n [2, 1]) }

theorem c120Packet_payload (k n : Nat) (hk : 1 ≤ k) : HevcPayload k (List.replicate n [2, 1]) (c120Packet k n).data := by
  refine ⟨rfl, fun u hu => ?_⟩
  rw [(List.mem_replicate.1 hu).2]
  refine ⟨Nat.le_refl _, ?_⟩
  calc 2 < 256 ^ 1 := by decide
    _ ≤ 256 ^ k := Nat.pow_le_pow_right (by decide) hk

/-- 86 units with lengths of one byte, 258 bytes: a panic. -/
theorem C120_claim_violated : ¬ C120_claim := by
  intro h
  have h1 := h (c120Stream 1) (c120Packet 1 86) _ _ (List.replicate 86 [2, 1]) ⟨rfl, rfl, .inr rfl, rfl⟩ rfl rfl rfl rfl (by decide) (by decide)
    (c120Packet_payload 1 86 (Nat.le_refl 1))
  rw [C120_h265_partial (c120Stream 1) (c120Packet 1 86) _ _ (List.replicate 86 [2, 1]) ⟨rfl, rfl, .inr rfl, rfl⟩ rfl rfl rfl rfl (by decide)
    (c120Packet_payload 1 86 (Nat.le_refl 1))] at h1
  rw [List.length_replicate] at h1
  exact absurd h1 (by decide)

/-- The last packet that is converted and the first that panics, for lengths of one, two and three bytes. -/
example : ∀ x ∈ [(1, 85), (2, 128), (3, 256)],
    avccPacket2AnnexB (c120Stream (BitVec.ofNat 8 x.1)) (c120Packet x.1 x.2) ≠ Go.panic ∧
    avccPacket2AnnexB (c120Stream (BitVec.ofNat 8 x.1)) (c120Packet x.1 (x.2 + 1)) = Go.panic := by
  intro x hx
  have key : ∀ k n, 1 ≤ k → k ≤ 4 → (avccPacket2AnnexB (c120Stream (BitVec.ofNat 8 k)) (c120Packet k n) ≠ Go.panic ↔ (4 - k) * n ≤ 256) := by
    intro k n h1 h4
    have hk : (BitVec.ofNat 8 k).toNat = k := by rw [BitVec.toNat_ofNat, Nat.mod_eq_of_lt (by omega)]
    have := C120_h265_partial (c120Stream (BitVec.ofNat 8 k)) (c120Packet k n) _ _ (List.replicate n [2, 1]) ⟨rfl, rfl, .inr rfl, rfl⟩
      rfl rfl rfl rfl (by rw [hk]; exact h4) (by rw [hk]; exact c120Packet_payload k n h1)
    rwa [hk, List.length_replicate] at this
  simp only [List.mem_cons, List.not_mem_nil, or_false] at hx
  rcases hx with rfl | rfl | rfl <;>
    exact ⟨(key _ _ (by decide) (by decide)).2 (by decide), Classical.not_not.1 fun h => absurd ((key _ _ (by decide) (by decide)).1 h) (by decide)⟩

/-- `C120_exact` has such cases: three units, one of them a key picture, and the parameter sets of the record in front. -/
example : AnnexBOf
    { mediaType := mediaVideo, index := 0, codecID := codecH265
      codecParameters := some ⟨0, 0, some [0, 0, 0, 1, 64, 1], none, .hevc { lengthSizeMinusOne := 2 }⟩ }
    { mediaType := mediaVideo, codecID := codecH265, packetType := packAVCC, key := true, data := [0, 3, 0x26, 1, 7, 0, 2, 2, 1] }
    [0, 0, 0, 1, 64, 1, 0, 0, 0, 1, 0x26, 1, 7, 0, 0, 0, 1, 2, 1] :=
  .h265 ⟨0, 0, some [0, 0, 0, 1, 64, 1], none, .hevc { lengthSizeMinusOne := 2 }⟩ { lengthSizeMinusOne := 2 } [[0x26, 1, 7], [2, 1]]
    rfl ⟨rfl, .inr rfl⟩ rfl rfl rfl ⟨by decide, by decide⟩ (by decide)

/-- `C120_record` has such cases: the record of the repository's test, and the same record for lengths of one byte. -/
example : (fun c => c.width) <$> parseHEVCRecord id RepoTests.hevcRecordBytes = ok 1280 ∧ bitField RepoTests.hevcRecordBytes 174 2 = 3 ∧
    (fun c => c.width) <$> parseHEVCRecord id (RepoTests.hevcRecordBytes.set 21 0x0c) = ok 1280 ∧
    bitField (RepoTests.hevcRecordBytes.set 21 0x0c) 174 2 = 0 := by
  refine ⟨?_, ?_, ?_, ?_⟩ <;> decide +kernel

/-- No Annex B form: an Annex B key frame that has no unit, and a key frame of a stream with empty parameter sets. -/
example : avccPacket2AnnexB
    { mediaType := mediaVideo, index := 0, codecID := codecH264
      codecParameters := some ⟨0, 0, some [0, 0, 0, 1, 0x67], none, .avc {}⟩ }
    { mediaType := mediaVideo, codecID := codecH264, packetType := packAnnexB, key := true, data := [0, 0, 1] } = Go.panic ∧
  avccPacket2AnnexB
    { mediaType := mediaVideo, index := 0, codecID := codecH264, codecParameters := some ⟨0, 0, none, none, .avc {}⟩ }
    { mediaType := mediaVideo, codecID := codecH264, packetType := packAnnexB, key := true, data := [0, 0, 1, 0x65] } = Go.panic :=
  ⟨rfl, rfl⟩

end Avf
