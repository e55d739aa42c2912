import Verif.Lemmas.Packet
/-! # C36, C68: packet conversion -/
namespace Avf
open Go

/-! ## C36: `AnnexBPacket2AVCC` -/

/-- An H.264 or H.265 packet in Annex B form that has not been converted yet. -/
structure AnnexBPacket (p : AVPacket) : Prop where
  video : p.mediaType = mediaVideo
  type : p.packetType = packAnnexB
  codec : p.codecID = codecH264 ∨ p.codecID = codecH265
  fresh : p.dataAVCC = none

theorem annexBPacket2AVCC_run {p : AVPacket} (h : AnnexBPacket p) :
    annexBPacket2AVCC p = (do
      let (n, bytes) ← annexB2AVCC (p.allocBuffer (p.data.length + 256)) p.data
      let out ← slice bytes 0 n
      return (out, { p with dataAVCC := some out })) := by
  have hc : ¬ (p.packetType ≠ packAnnexB ∨ (p.codecID ≠ codecH264 ∧ p.codecID ≠ codecH265)) := by
    rintro (hh | ⟨h1, h2⟩)
    · exact hh h.type
    · rcases h.codec with e | e
      · exact h1 e
      · exact h2 e
  unfold annexBPacket2AVCC
  rw [if_neg (by rw [h.video]; simp), if_neg hc, h.fresh]

/-- The claim: the default allocation suffices for every packet. -/
def C36_claim : Prop := ∀ p : AVPacket, AnnexBPacket p → p.onBufferAlloc = none → annexBPacket2AVCC p ≠ panic

/-- **C36**, for every packet made of clean units: the conversion succeeds if and only if the length-prefixed form is at most
256 bytes longer than the packet, and it panics otherwise. The payload does not change and the result is kept. -/
theorem C36_clean (p : AVPacket) (h : AnnexBPacket p) (ha : p.onBufferAlloc = none) (pre : Bytes) (hpre : NoCode pre)
    (xs : List (Bool × Bytes)) (hne : xs ≠ []) (hxs : ∀ x ∈ xs, Clean x.2) (hxl : ∀ x ∈ xs, x.2.length < 2 ^ 32)
    (hd : p.data = pre ++ annexB xs) :
    ((avcc (xs.map (·.2))).length ≤ p.data.length + 256 →
      annexBPacket2AVCC p = ok (avcc (xs.map (·.2)), { p with dataAVCC := some (avcc (xs.map (·.2))) })) ∧
    (p.data.length + 256 < (avcc (xs.map (·.2))).length → annexBPacket2AVCC p = panic) := by
  have hal : p.allocBuffer (p.data.length + 256) = List.replicate (p.data.length + 256) 0 := by unfold AVPacket.allocBuffer; rw [ha]
  rw [annexBPacket2AVCC_run h, hal]
  generalize hN : p.data.length + 256 = N
  constructor
  · intro hfit
    rw [hd, annexB2AVCC_spec pre hpre xs hne hxs hxl _ (by rw [List.length_replicate]; exact hfit), ok_bind]
    dsimp only
    rw [slice_of_le (by omega) (by simp), ok_bind, List.take_left]
    rfl
  · intro hbig
    rw [hd]
    rcases annexB2AVCC_any pre hpre xs hne hxs (List.replicate N 0) with e | ⟨d, hdl, e⟩
    · rw [e]; rfl
    · rw [e, ok_bind]
      dsimp only
      unfold slice
      rw [if_neg (by rw [hdl, List.length_replicate]; omega)]
      rfl

/-- **C36**: the growth is one byte for each short start code. -/
theorem C36_growth (xs : List (Bool × Bytes)) :
    (avcc (xs.map (·.2))).length = (annexB xs).length + (xs.filter fun x => !x.1).length := by
  induction xs with
  | nil => rfl
  | cons x xs ih =>
    obtain ⟨b, u⟩ := x
    rw [List.map_cons, avcc_cons, annexB_cons, List.length_append, List.length_append, List.length_append, ih, length_avccUnit]
    cases b <;> simp [code] <;> omega

/-- 257 units with short start codes make the conversion panic. -/
theorem C36_claim_violated : ¬ C36_claim := by
  intro h
  have hcl : ∀ x ∈ List.replicate 257 ((false, [5]) : Bool × Bytes), Clean x.2 := by
    intro x hx; rw [List.eq_of_mem_replicate hx]; decide
  have key := (C36_clean
    { data := [] ++ annexB (List.replicate 257 (false, [5])), packetType := packAnnexB, codecID := codecH264 }
    ⟨rfl, rfl, Or.inl rfl, rfl⟩ rfl [] (by intro j hj; simp at hj) (List.replicate 257 (false, [5])) (by decide) hcl
    (by intro x hx; rw [List.eq_of_mem_replicate hx]; decide) rfl).2 (by
      rw [C36_growth, List.filter_replicate, if_pos (by rfl), List.length_replicate]
      show (annexB _).length + 256 < _
      omega)
  exact h _ ⟨rfl, rfl, Or.inl rfl, rfl⟩ rfl key

/-- **C36** (partial: at most 256 NAL headers in the packet): it succeeds on any payload, clean or not, also when the caller
supplies the buffer. -/
theorem C36_total_partial (p : AVPacket) (h : AnnexBPacket p) (hn : (headers p.data).length ≤ 256)
    (hbuf : p.data.length + 256 ≤ (p.allocBuffer (p.data.length + 256)).length) :
    ∃ out, annexBPacket2AVCC p = ok (out, { p with dataAVCC := some out }) ∧ out.length ≤ p.data.length + (headers p.data).length := by
  rw [annexBPacket2AVCC_run h]
  obtain ⟨n, dst', h1, h2, h3⟩ := annexB2AVCC_total (p.allocBuffer (p.data.length + 256)) p.data (by omega)
  refine ⟨dst'.take n, ?_, by rw [List.length_take]; omega⟩
  rw [h1, ok_bind]
  dsimp only
  rw [slice_of_le (by omega) (by omega), ok_bind]
  rfl

/-- **C36**: packets that are not Annex B, or of other codecs, come back as they are; a conversion that was kept is reused. -/
theorem C36_unchanged (p : AVPacket) (h : p.mediaType = mediaVideo)
    (hc : p.packetType ≠ packAnnexB ∨ (p.codecID ≠ codecH264 ∧ p.codecID ≠ codecH265)) : annexBPacket2AVCC p = ok (p.data, p) := by
  unfold annexBPacket2AVCC
  rw [if_neg (by rw [h]; simp), if_pos hc]

/-- **C36**: repeated calls give the same bytes and change nothing but the kept conversion. -/
theorem C36_repeat (p p' : AVPacket) (out : Bytes) (h : annexBPacket2AVCC p = ok (out, p')) :
    p' = { p with dataAVCC := p'.dataAVCC } ∧ annexBPacket2AVCC p' = ok (out, p') := by
  have h0 := h
  unfold annexBPacket2AVCC at h
  by_cases h1 : p.mediaType ≠ mediaVideo
  · rw [if_pos h1] at h; cases h
  rw [if_neg h1] at h
  by_cases h2 : p.packetType ≠ packAnnexB ∨ (p.codecID ≠ codecH264 ∧ p.codecID ≠ codecH265)
  · rw [if_pos h2] at h; cases h; exact ⟨rfl, h0⟩
  · rw [if_neg h2] at h
    cases hk : p.dataAVCC with
    | some d => rw [hk] at h; cases h; exact ⟨rfl, h0⟩
    | none =>
      rw [hk] at h
      obtain ⟨⟨n, b⟩, _, h⟩ := bind_eq_ok.1 h
      obtain ⟨o, _, h⟩ := bind_eq_ok.1 h
      cases h
      refine ⟨rfl, ?_⟩
      unfold annexBPacket2AVCC
      rw [if_neg h1, if_neg h2]

example : annexB [(true, [0x67, 1]), (false, [0x65])] = [0, 0, 0, 1, 0x67, 1, 0, 0, 1, 0x65] ∧ Clean [0x67, 1] ∧ Clean [0x65] ∧
    (∃ q, annexBPacket2AVCC { data := [0, 0, 0, 1, 0x67, 1, 0, 0, 1, 0x65], packetType := packAnnexB, codecID := codecH264 } =
      ok ([0, 0, 0, 2, 0x67, 1, 0, 0, 0, 1, 0x65], q)) :=
  ⟨by decide, by decide, by decide, _, (C36_clean { data := [0, 0, 0, 1, 0x67, 1, 0, 0, 1, 0x65], packetType := packAnnexB, codecID := codecH264 }
    ⟨rfl, rfl, Or.inl rfl, rfl⟩ rfl [] (by intro j hj; simp at hj) [(true, [0x67, 1]), (false, [0x65])] (by decide) (by decide) (by decide)
    (by decide)).1 (by decide)⟩

/-! ## C68: `AVCCPacket2AnnexB` -/

/-- A packet in AVCC form of an H.264 or H.265 stream that has not been converted yet. -/
structure AvccPacket (s : AVStream) (p : AVPacket) : Prop where
  video : p.mediaType = mediaVideo
  type : p.packetType = packAVCC
  codec : s.codecID = codecH264 ∨ s.codecID = codecH265
  fresh : p.dataAnnexB = none

theorem AvccPacket.notOther {s : AVStream} {p : AVPacket} (h : AvccPacket s p) :
    ¬ (p.packetType ≠ packAVCC ∨ (s.codecID ≠ codecH264 ∧ s.codecID ≠ codecH265)) := by
  rintro (hh | ⟨h1, h2⟩)
  · exact hh h.type
  · rcases h.codec with e | e
    · exact h1 e
    · exact h2 e

/-- **C68**, H.264: the extra data for key frames, then the units but SEI with start codes, the first one long. It works with
the default allocation and with any buffer of the requested size. -/
theorem C68_h264 (s : AVStream) (p : AVPacket) (c : CodecData) (h : AvccPacket s p) (h264 : p.codecID = codecH264)
    (hc : s.codecParameters = some c) (us : List Bytes) (tail : Bytes) (hus : ∀ u ∈ us, u ≠ [] ∧ u.length < 2 ^ 32)
    (ht : NoUnit 4 tail) (hd : p.data = avcc us ++ tail) (hbuf : ∀ n, n ≤ (p.allocBuffer n).length) :
    let out := (if p.key then c.annexBExtraData else []) ++ annexB (firstLong (us.filter fun u => avcUnitType u ≠ 6))
    avccPacket2AnnexB s p = ok (out, { p with dataAnnexB := some out }) := by
  intro out
  obtain ⟨A, hA⟩ : ∃ A, A = annexB (firstLong (us.filter fun u => avcUnitType u ≠ 6)) := ⟨_, rfl⟩
  have hle : A.length ≤ p.data.length := by
    obtain ⟨n, d', e1, e2, _⟩ := C32_fits p.data (List.replicate (A.length + p.data.length) 0) (by simp)
    rw [hd, C32_avcc_to_annexB us tail _ hus ht (by rw [← hA]; simp)] at e1
    rw [hA]
    cases e1
    exact e2
  obtain ⟨B, hB⟩ : ∃ B, B = p.allocBuffer ((keyExtra p c).length + p.data.length + 256) := ⟨_, rfl⟩
  have hBl := hbuf ((keyExtra p c).length + p.data.length + 256)
  rw [← hB] at hBl
  have hEB : (keyExtra p c).length ≤ B.length := by omega
  have hrun := C32_avcc_to_annexB us tail (B.drop (keyExtra p c).length) hus ht (by rw [← hA, List.length_drop]; omega)
  rw [← hd, ← hA] at hrun
  unfold avccPacket2AnnexB
  rw [if_neg (by rw [h.video]; simp), if_neg h.notOther, h.fresh, hc]
  dsimp only
  rw [keyExtra_length, ← hB, if_pos h264, sliceFrom_of_le hEB, ok_bind, hrun, ok_bind]
  dsimp only
  rw [pure_def, ok_bind]
  dsimp only
  rw [← List.append_assoc]
  have := avcc_finish p c (B.take (keyExtra p c).length) A ((B.drop (keyExtra p c).length).drop A.length)
    (by rw [List.length_take]; omega)
  refine this.trans ?_
  have hout : out = keyExtra p c ++ A := by rw [hA]; rfl
  rw [hout]

/-- **C68**: so the default allocation suffices for every H.264 packet, whatever its payload is. -/
theorem C68_h264_total (s : AVStream) (p : AVPacket) (c : CodecData) (h : AvccPacket s p) (h264 : p.codecID = codecH264)
    (hc : s.codecParameters = some c) (ha : p.onBufferAlloc = none) :
    ∃ out, avccPacket2AnnexB s p = ok (out, { p with dataAnnexB := some out }) := by
  obtain ⟨us, tail, hd, hus, ht⟩ := C32_decompose p.data
  exact ⟨_, C68_h264 s p c h h264 hc us tail hus ht hd (by intro n; unfold AVPacket.allocBuffer; rw [ha]; simp)⟩

/-- **C68**, H.265 with a record parsed from an HEVC record: the same with the length size `k` of the record and with all
units kept, provided the output is at most 256 bytes longer than the payload. -/
theorem C68_h265 (s : AVStream) (p : AVPacket) (c : CodecData) (r : HEVCRecord) (k : Nat) (h : AvccPacket s p) (h265 : p.codecID = codecH265)
    (hc : s.codecParameters = some c) (hr : c.record = .hevc r) (hk : r.lengthSizeMinusOne.toNat = k) (hk7 : k ≤ 7) (us : List Bytes)
    (hus : ∀ u ∈ us, 2 ≤ u.length ∧ u.length < 256 ^ k) (hd : p.data = lengthPrefixed k us)
    (hfit : (us.flatMap ([0, 0, 0, 1] ++ ·)).length ≤ p.data.length + 256) (hbuf : ∀ n, n ≤ (p.allocBuffer n).length) :
    let out := (if p.key then c.annexBExtraData else []) ++ us.flatMap ([0, 0, 0, 1] ++ ·)
    avccPacket2AnnexB s p = ok (out, { p with dataAnnexB := some out }) := by
  intro out
  obtain ⟨A, hA⟩ : ∃ A, A = us.flatMap (([0, 0, 0, 1] : Bytes) ++ ·) := ⟨_, rfl⟩
  rw [← hA] at hfit
  obtain ⟨B, hB⟩ : ∃ B, B = p.allocBuffer ((keyExtra p c).length + p.data.length + 256) := ⟨_, rfl⟩
  have hBl := hbuf ((keyExtra p c).length + p.data.length + 256)
  rw [← hB] at hBl
  have hEB : (keyExtra p c).length ≤ B.length := by omega
  obtain ⟨w, hh, ab, m4, rec⟩ := c
  cases hr
  have hrun := C46_hevc_ok us [] (B.drop (keyExtra p ⟨w, hh, ab, m4, .hevc r⟩).length) k hk7 hus
    (by rw [hevcToAnnexB_nil, ← hA, List.length_drop]; omega)
  rw [← hd, hevcToAnnexB_nil, ← hA] at hrun
  unfold avccPacket2AnnexB
  rw [if_neg (by rw [h.video]; simp), if_neg h.notOther, h.fresh, hc]
  dsimp only
  rw [keyExtra_length, ← hB, if_neg (by rw [h265]; decide), if_pos h265, sliceFrom_of_le hEB, ok_bind, hk, hrun]
  dsimp only
  rw [pure_def, ok_bind]
  dsimp only
  rw [← List.append_assoc]
  have := avcc_finish p ⟨w, hh, ab, m4, .hevc r⟩ (B.take (keyExtra p ⟨w, hh, ab, m4, .hevc r⟩).length) A
    ((B.drop (keyExtra p ⟨w, hh, ab, m4, .hevc r⟩).length).drop A.length) (by rw [List.length_take]; omega)
  refine this.trans ?_
  have hout : out = keyExtra p ⟨w, hh, ab, m4, .hevc r⟩ ++ A := by rw [hA]; rfl
  rw [hout]

/-- **C68**: with 4-byte lengths the output is as long as the payload, so it always fits. -/
theorem C68_h265_fits (us : List Bytes) : (us.flatMap (([0, 0, 0, 1] : Bytes) ++ ·)).length = (lengthPrefixed 4 us).length := by
  induction us with
  | nil => rfl
  | cons u us ih =>
    simp only [lengthPrefixed, List.flatMap_cons, List.length_append, length_avccUnit] at ih ⊢
    rw [ih]; simp

/-- The claim: an AVCC packet never panics. -/
def C68_claim : Prop := ∀ (s : AVStream) (p : AVPacket), AvccPacket s p → p.codecID = s.codecID → p.onBufferAlloc = none →
  avccPacket2AnnexB s p ≠ panic

/-- Without codec parameters every AVCC packet panics. -/
theorem C68_no_parameters (s : AVStream) (p : AVPacket) (h : AvccPacket s p) (h264 : p.codecID = codecH264)
    (hc : s.codecParameters = none) (ha : p.onBufferAlloc = none) : avccPacket2AnnexB s p = panic := by
  unfold avccPacket2AnnexB
  rw [if_neg (by rw [h.video]; simp), if_neg h.notOther, h.fresh, hc]
  dsimp only
  rw [if_pos h264, sliceFrom_of_le (by omega), ok_bind]
  obtain ⟨n, d', e1, e2, e3⟩ := C32_fits p.data ((p.allocBuffer (0 + p.data.length + 256)).drop 0) (by
    unfold AVPacket.allocBuffer; rw [ha]; simp)
  rw [e1]
  simp [slice]

theorem C68_claim_violated : ¬ C68_claim := by
  intro h
  refine h ⟨{}, mediaVideo, 0, codecH264, none, [], 0⟩ { packetType := packAVCC, codecID := codecH264 } ⟨rfl, rfl, Or.inl rfl, rfl⟩ rfl rfl ?_
  exact C68_no_parameters _ _ ⟨rfl, rfl, Or.inl rfl, rfl⟩ rfl rfl rfl

/-- Disagreement: codec data made by `NewHEVCCodecData` has length size 0, and then every AVCC packet that is not empty
panics. -/
theorem C68_h265_new_violated (s : AVStream) (p : AVPacket) (c : CodecData) (vps sps pps : Bytes)
    (hn : newHEVCCodecData vps sps pps = ok c) (hc : s.codecParameters = some c) (h : AvccPacket s p) (h265 : p.codecID = codecH265)
    (hd : p.data ≠ []) (hbuf : ∀ n, n ≤ (p.allocBuffer n).length) : avccPacket2AnnexB s p = panic := by
  obtain ⟨b, rest, hb⟩ := List.exists_cons_of_ne_nil hd
  have hr : ∃ r, c.record = .hevc r ∧ r.lengthSizeMinusOne = 0 := by
    unfold newHEVCCodecData at hn
    cases e : hevcParseSPS sps with
    | ok info => rw [e] at hn; cases hn; exact ⟨_, rfl, rfl⟩
    | err m => rw [e] at hn; cases hn
    | panic => rw [e] at hn; cases hn
  obtain ⟨r, hr, hz⟩ := hr
  have hBl := hbuf ((keyExtra p c).length + p.data.length + 256)
  obtain ⟨w, hh, ab, m4, rec⟩ := c
  cases hr
  unfold avccPacket2AnnexB
  rw [if_neg (by rw [h.video]; simp), if_neg h.notOther, h.fresh, hc]
  dsimp only
  rw [keyExtra_length, if_neg (by rw [h265]; decide), if_pos h265, sliceFrom_of_le (by omega), ok_bind, hz]
  have : ∀ dst, hevcMp4ToAnnexB dst p.data [] ((0 : Byte).toNat) = err "invalid data" := by
    intro dst
    have := C46_hevc_err [] p.data [] dst 0 (by omega) (by simp) (by simp [hevcToAnnexB]) hd (by
      intro u rest h2 h3
      simp at h3
      rw [h3] at h2; simp at h2)
    simpa [lengthPrefixed] using this
  rw [this]
  rfl

/-- **C68**: a malformed H.265 payload panics. -/
theorem C68_h265_malformed (s : AVStream) (p : AVPacket) (c : CodecData) (r : HEVCRecord) (k : Nat) (h : AvccPacket s p)
    (h265 : p.codecID = codecH265) (hc : s.codecParameters = some c) (hr : c.record = .hevc r) (hk : r.lengthSizeMinusOne.toNat = k)
    (hk7 : k ≤ 7) (us : List Bytes) (tail : Bytes) (hus : ∀ u ∈ us, 2 ≤ u.length ∧ u.length < 256 ^ k)
    (hd : p.data = lengthPrefixed k us ++ tail) (hfit : (us.flatMap ([0, 0, 0, 1] ++ ·)).length ≤ p.data.length + 256)
    (hne : tail ≠ []) (ht : ∀ u rest, 2 ≤ u.length → u.length < 256 ^ k → tail ≠ avccUnit k u ++ rest)
    (hbuf : ∀ n, n ≤ (p.allocBuffer n).length) : avccPacket2AnnexB s p = panic := by
  have hBl := hbuf ((keyExtra p c).length + p.data.length + 256)
  obtain ⟨w, hh, ab, m4, rec⟩ := c
  cases hr
  generalize hB : p.allocBuffer ((keyExtra p ⟨w, hh, ab, m4, .hevc r⟩).length + p.data.length + 256) = B at hBl
  have hrun := C46_hevc_err us tail [] (B.drop (keyExtra p ⟨w, hh, ab, m4, .hevc r⟩).length) k hk7 hus
    (by rw [hevcToAnnexB_nil, List.length_drop]; omega) hne ht
  rw [← hd] at hrun
  unfold avccPacket2AnnexB
  rw [if_neg (by rw [h.video]; simp), if_neg h.notOther, h.fresh, hc]
  dsimp only
  rw [keyExtra_length, hB, if_neg (by rw [h265]; decide), if_pos h265, sliceFrom_of_le (by omega), ok_bind, hk, hrun]
  rfl

/-- **C68**: a packet that is not AVCC, with extra data that starts with the same NAL header byte as the packet: nothing
changes. -/
theorem C68_annexB_same (s : AVStream) (p : AVPacket) (c : CodecData) (hv : p.mediaType = mediaVideo) (ht : p.packetType ≠ packAVCC)
    (hn : p.dataAnnexB = none) (hc : s.codecParameters = some c) (a : Byte)
    (hs : c.annexBExtraData ∉ [[0], [0, 0], [0, 0, 0]]) (hps : p.data ∉ [[0], [0, 0], [0, 0, 0]])
    (ha : leadByte c.annexBExtraData = some a) (hb : leadByte p.data = some a) : avccPacket2AnnexB s p = ok (p.data, p) := by
  have h1 := leadByte_ok hs
  have h2 := leadByte_ok hps
  rw [ha] at h1
  rw [hb] at h2
  have : prependExtraData s p = ok p := by
    unfold prependExtraData
    split
    · rw [hc]
      dsimp only
      obtain ⟨e, e1, e2⟩ := bind_eq_ok.1 h1
      obtain ⟨d, d1, d2⟩ := bind_eq_ok.1 h2
      rw [e1, ok_bind, e2, ok_bind, d1, ok_bind, d2, ok_bind, if_neg (by simp)]
      rfl
    · rfl
  unfold avccPacket2AnnexB
  rw [if_neg (by rw [hv]; simp), if_pos (Or.inl ht), this, ok_bind, hn]
  rfl

/-- **C68**: a key packet that is not AVCC and does not start with the parameter sets gets them in front; the payload itself
does not change and the result is kept. A buffer from the caller that is longer than requested leaves its own bytes at the
end. -/
theorem C68_annexB_key (s : AVStream) (p : AVPacket) (c : CodecData) (hv : p.mediaType = mediaVideo) (ht : p.packetType ≠ packAVCC)
    (hcod : s.codecID = codecH264 ∨ s.codecID = codecH265) (hkey : p.key = true)
    (hn : p.dataAnnexB = none) (hc : s.codecParameters = some c) (a b : Byte)
    (hs : c.annexBExtraData ∉ [[0], [0, 0], [0, 0, 0]]) (hps : p.data ∉ [[0], [0, 0], [0, 0, 0]])
    (ha : leadByte c.annexBExtraData = some a) (hb : leadByte p.data = some b) (hab : a ≠ b)
    (hbuf : ∀ n, n ≤ (p.allocBuffer n).length) :
    let n := c.annexBExtraData.length + p.data.length
    let out := c.annexBExtraData ++ p.data ++ (p.allocBuffer n).drop n
    avccPacket2AnnexB s p = ok (out, { p with dataAnnexB := some out }) := by
  intro n out
  have h1 := leadByte_ok hs
  have h2 := leadByte_ok hps
  rw [ha] at h1
  rw [hb] at h2
  have hnb := hbuf n
  have : prependExtraData s p = ok { p with dataAnnexB := some out } := by
    unfold prependExtraData
    split
    · rw [hc]
      dsimp only
      obtain ⟨e, e1, e2⟩ := bind_eq_ok.1 h1
      obtain ⟨d, d1, d2⟩ := bind_eq_ok.1 h2
      rw [e1, ok_bind, e2, ok_bind, d1, ok_bind, d2, ok_bind, if_pos hab]
      obtain ⟨B, hB⟩ : ∃ B, B = p.allocBuffer n := ⟨_, rfl⟩
      have hout : out = c.annexBExtraData ++ p.data ++ B.drop n := by rw [hB]
      rw [← hB] at hnb ⊢
      rw [copyAt_of_le (by omega), ok_bind, overwrite_fit (by omega)]
      have hl : (c.annexBExtraData ++ B.drop c.annexBExtraData.length).length = B.length := by simp; omega
      rw [List.take_zero, List.nil_append, Nat.zero_add, copyAt_of_le (by omega), ok_bind, overwrite_fit (by omega), List.take_left,
        ← List.drop_drop, List.drop_left, List.drop_drop, hout]
      rfl
    · rename_i hneg
      exact absurd ⟨hkey, hcod, hn⟩ hneg
  unfold avccPacket2AnnexB
  rw [if_neg (by rw [hv]; simp), if_pos (Or.inl ht), this, ok_bind]
  rfl

/-- **C68**: with the default allocation nothing but the extra data is added. -/
theorem C68_annexB_default (p : AVPacket) (ha : p.onBufferAlloc = none) (n : Nat) : (p.allocBuffer n).drop n = [] := by
  unfold AVPacket.allocBuffer; rw [ha]; simp

/-- **C68**: a packet that is not AVCC and is no key frame comes back as it is. -/
theorem C68_annexB_not_key (s : AVStream) (p : AVPacket) (hv : p.mediaType = mediaVideo) (ht : p.packetType ≠ packAVCC)
    (hkey : p.key = false) (hn : p.dataAnnexB = none) : avccPacket2AnnexB s p = ok (p.data, p) := by
  have : prependExtraData s p = ok p := by
    unfold prependExtraData; simp [hkey]
  unfold avccPacket2AnnexB
  rw [if_neg (by rw [hv]; simp), if_pos (Or.inl ht), this, ok_bind, hn]
  rfl

/-- **C68**: repeated calls give the same bytes and change nothing but the kept conversion. -/
theorem C68_repeat (s : AVStream) (p p' : AVPacket) (out : Bytes) (h : avccPacket2AnnexB s p = ok (out, p')) :
    p' = { p with dataAnnexB := p'.dataAnnexB } ∧ avccPacket2AnnexB s p' = ok (out, p') := by
  have h0 := h
  unfold avccPacket2AnnexB at h
  by_cases h1 : p.mediaType ≠ mediaVideo
  · rw [if_pos h1] at h; cases h
  rw [if_neg h1] at h
  by_cases h2 : p.packetType ≠ packAVCC ∨ (s.codecID ≠ codecH264 ∧ s.codecID ≠ codecH265)
  · rw [if_pos h2] at h
    obtain ⟨q, hq, h4⟩ := bind_eq_ok.1 h
    clear h
    have hq' : q = p ∨ ∃ d, q = { p with dataAnnexB := some d } := by
      unfold prependExtraData at hq
      split at hq
      · split at hq
        · cases hq; exact Or.inl rfl
        · obtain ⟨e, _, hq⟩ := bind_eq_ok.1 hq
          obtain ⟨e0, _, hq⟩ := bind_eq_ok.1 hq
          obtain ⟨d, _, hq⟩ := bind_eq_ok.1 hq
          obtain ⟨d0, _, hq⟩ := bind_eq_ok.1 hq
          split at hq
          · obtain ⟨x, _, hq⟩ := bind_eq_ok.1 hq
            obtain ⟨y, _, hq⟩ := bind_eq_ok.1 hq
            cases hq; exact Or.inr ⟨_, rfl⟩
          · cases hq; exact Or.inl rfl
      · cases hq; exact Or.inl rfl
    rcases hq' with rfl | ⟨d, rfl⟩
    · have : p' = q := by
        split at h4 <;> (cases h4; rfl)
      subst this
      exact ⟨rfl, h0⟩
    · cases h4
      refine ⟨rfl, ?_⟩
      unfold avccPacket2AnnexB
      rw [if_neg h1, if_pos h2]
      have : prependExtraData s { p with dataAnnexB := some out } = ok { p with dataAnnexB := some out } := by
        unfold prependExtraData; simp
      rw [this, ok_bind]
      rfl
  · rw [if_neg h2] at h
    cases hk : p.dataAnnexB with
    | some d => rw [hk] at h; cases h; exact ⟨rfl, h0⟩
    | none =>
      rw [hk] at h
      obtain ⟨⟨n, b⟩, _, h⟩ := bind_eq_ok.1 h
      obtain ⟨o, _, h⟩ := bind_eq_ok.1 h
      split at h
      · cases h
      · obtain ⟨o, _, h⟩ := bind_eq_ok.1 h
        cases h
        refine ⟨rfl, ?_⟩
        unfold avccPacket2AnnexB
        rw [if_neg h1, if_neg h2]

/-- **C68**: packets that are no video panic. -/
theorem C68_not_video (s : AVStream) (p : AVPacket) (h : p.mediaType ≠ mediaVideo) : avccPacket2AnnexB s p = panic := by
  unfold avccPacket2AnnexB; rw [if_pos h]

/-! Examples: an H.264 key packet with an SEI unit, and the same parameter sets with an Annex B packet. -/

def exCodecData : CodecData := { width := 0, height := 0, m4vc := none, annexB := some [0, 0, 0, 1, 0x67, 0, 0, 0, 1, 0x68], record := .avc {} }
def exStream264 : AVStream := { mediaType := mediaVideo, index := 0, codecID := codecH264, codecParameters := some exCodecData }

example : ∃ q, avccPacket2AnnexB exStream264
    { data := [0, 0, 0, 2, 6, 9, 0, 0, 0, 2, 0x65, 7, 0, 0, 0, 1, 0x61, 1], key := true, packetType := packAVCC, codecID := codecH264 } =
    ok ([0, 0, 0, 1, 0x67, 0, 0, 0, 1, 0x68, 0, 0, 0, 1, 0x65, 7, 0, 0, 1, 0x61], q) := by
  have := C68_h264 exStream264
    { data := [0, 0, 0, 2, 6, 9, 0, 0, 0, 2, 0x65, 7, 0, 0, 0, 1, 0x61, 1], key := true, packetType := packAVCC, codecID := codecH264 }
    exCodecData ⟨rfl, rfl, Or.inl rfl, rfl⟩ rfl rfl [[6, 9], [0x65, 7], [0x61]] [1] (by decide)
    (by intro u r _ _ h; have := congrArg List.length h; simp [length_avccUnit] at this; omega) (by decide) (by intro n; simp [AVPacket.allocBuffer])
  exact ⟨_, this⟩

example : ∃ q, avccPacket2AnnexB exStream264 { data := [0, 0, 1, 0x65, 7], key := true, packetType := packAnnexB, codecID := codecH264 } =
    ok ([0, 0, 0, 1, 0x67, 0, 0, 0, 1, 0x68, 0, 0, 1, 0x65, 7], q) :=
  ⟨_, C68_annexB_key exStream264 { data := [0, 0, 1, 0x65, 7], key := true, packetType := packAnnexB, codecID := codecH264 } exCodecData
    rfl (by decide) (Or.inl rfl) rfl rfl rfl 0x67 0x65 (by decide) (by decide) (by decide) (by decide) (by decide)
    (by intro n; simp [AVPacket.allocBuffer])⟩

end Avf
