import Verif.Lemmas.Aac
import Verif.Lemmas.ConvertTs
import Verif.Lemmas.Millis
/-! # Properties: AAC headers, random values, timestamps (C53 - C57) -/
namespace Avf
open Go

/-! ## C53 ADTS -/

/-- `SetADtsHeader` writes, into the first seven bytes and nowhere else, the header of a frame of `size` bytes without CRC:
the given id, profile, sampling index and channel configuration, buffer fullness 0x7FF, one raw data block. Every argument
is cut to the width of its field. -/
theorem C53_write (header : Bytes) (mpegId aot index ch size : BitVec 64) (h : 7 ≤ header.length) :
    ∃ hd : Bytes, hd.length = 7 ∧ setADtsHeader header mpegId aot index ch size = ok (hd ++ header.drop 7) ∧
      bits hd = Adts.bits
        { id := mpegId.toNat % 2, layer := 0, protectionAbsent := 1, profile := aot.toNat % 4,
          samplingIndex := index.toNat % 16, privateBit := 0, channelConfig := ch.toNat % 8, original := 0, home := 0,
          copyrightBit := 0, copyrightStart := 0, frameLength := size.toNat % 8192, fullness := 0x7FF, blocks := 0 } :=
  ⟨_, rfl, setADtsHeader_long header mpegId aot index ch size h, adtsBytes_bits mpegId aot index ch size⟩

/-- A destination of less than seven bytes is a panic. -/
theorem C53_write_short (header : Bytes) (mpegId aot index ch size : BitVec 64) (h : header.length < 7) :
    setADtsHeader header mpegId aot index ch size = panic := setADtsHeader_short header mpegId aot index ch size h

/-- Every ADTS header, whoever wrote it, is read field by field. -/
theorem C53_read (data : Bytes) (f : Adts) (hf : f.Ok) (h : 7 ≤ data.length) (hb : bits (data.take 7) = f.bits) :
    ∃ a, readADtsFixedHeader data = ok a ∧ adtsSyncWord a = 0xFFF ∧ adtsID a = f.id ∧ adtsLayer a = f.layer ∧
      adtsProtectionAbsent a = f.protectionAbsent ∧ adtsProfile a = f.profile ∧ adtsFrequency a = f.samplingIndex ∧
      adtsPrivateBit a = f.privateBit ∧ adtsChannel a = f.channelConfig ∧ adtsOriginal a = f.original ∧
      adtsHome a = f.home ∧ adtsCopyrightBit a = f.copyrightBit ∧ adtsCopyrightStart a = f.copyrightStart ∧
      adtsFrameLength a = f.frameLength ∧ adtsFullness a = f.fullness ∧ adtsBlocks a = f.blocks := by
  have hs : beNat (data.take 2) / 16 = 0xFFF := by
    rw [sync_bits data (by omega)]
    have h1 : (bits data).take 12 = (bits (data.take 7)).take 12 := by
      conv => lhs; rw [← List.take_append_drop 7 data, bits_append]
      rw [List.take_append_of_le_length]
      rw [bits_length]; simp; omega
    rw [h1, hb]; rfl
  have hblk : adtsBlocks (BitVec.ofNat 64 (beNat (data.take 7))) = adtsField (BitVec.ofNat 64 (beNat (data.take 7))) 0 0x3 := by
    simp [adtsBlocks, adtsField]
  refine ⟨_, readADts_long data h hs, ?_, ?_, ?_, ?_, ?_, ?_, ?_, ?_, ?_, ?_, ?_, ?_, ?_, ?_, hblk.trans ?_⟩
  · exact adtsField_bits data f hb 44 12 0xFFF _ rfl (by omega) (by omega) rfl
  · exact adtsField_bits data f hb 43 1 _ _ rfl (by omega) hf.id rfl
  · exact adtsField_bits data f hb 41 2 _ _ rfl (by omega) hf.layer rfl
  · exact adtsField_bits data f hb 40 1 _ _ rfl (by omega) hf.protectionAbsent rfl
  · exact adtsField_bits data f hb 38 2 _ _ rfl (by omega) hf.profile rfl
  · exact adtsField_bits data f hb 34 4 _ _ rfl (by omega) hf.samplingIndex rfl
  · exact adtsField_bits data f hb 33 1 _ _ rfl (by omega) hf.privateBit rfl
  · exact adtsField_bits data f hb 30 3 _ _ rfl (by omega) hf.channelConfig rfl
  · exact adtsField_bits data f hb 29 1 _ _ rfl (by omega) hf.original rfl
  · exact adtsField_bits data f hb 28 1 _ _ rfl (by omega) hf.home rfl
  · exact adtsField_bits data f hb 27 1 _ _ rfl (by omega) hf.copyrightBit rfl
  · exact adtsField_bits data f hb 26 1 _ _ rfl (by omega) hf.copyrightStart rfl
  · exact adtsField_bits data f hb 13 13 _ _ rfl (by omega) hf.frameLength rfl
  · exact adtsField_bits data f hb 2 11 _ _ rfl (by omega) hf.fullness rfl
  · exact adtsField_bits data f hb 0 2 _ _ rfl (by omega) hf.blocks rfl

/-- Writing and reading back. -/
theorem C53_round_trip (header : Bytes) (mpegId aot index ch size : BitVec 64) (h : 7 ≤ header.length) :
    ∃ out a, setADtsHeader header mpegId aot index ch size = ok out ∧ out.length = header.length ∧
      out.drop 7 = header.drop 7 ∧ readADtsFixedHeader out = ok a ∧ adtsSyncWord a = 0xFFF ∧
      adtsID a = (mpegId.toNat % 2 : Nat) ∧ adtsLayer a = 0 ∧ adtsProtectionAbsent a = 1 ∧
      adtsProfile a = (aot.toNat % 4 : Nat) ∧ adtsFrequency a = (index.toNat % 16 : Nat) ∧
      adtsChannel a = (ch.toNat % 8 : Nat) ∧ adtsFrameLength a = (size.toNat % 8192 : Nat) ∧ adtsFullness a = 0x7FF ∧
      adtsBlocks a = 0 := by
  obtain ⟨hd, hl, hw, hb⟩ := C53_write header mpegId aot index ch size h
  have ht : (hd ++ header.drop 7).take 7 = hd := by rw [← hl, List.take_left']; rfl
  have key := fun hf => C53_read (hd ++ header.drop 7) _ hf (by simp [hl]) (by rw [ht]; exact hb)
  obtain ⟨a, h1, h2, h3, h4, h5, h6, h7, _, h8, _, _, _, _, h9, h10, h11⟩ := key (by constructor <;> dsimp only <;> omega)
  exact ⟨_, a, hw, by simp [hl]; omega, by rw [← hl, List.drop_left'] <;> rfl, h1, h2, h3, h4, h5, h6, h7, h8, h9, h10, h11⟩

/-- What is not a header: less than two bytes, or the sync word with less than seven bytes, is a panic; two bytes or more
that do not start with twelve ones are an error. -/
theorem C53_read_bad (data : Bytes) :
    (data.length < 2 → readADtsFixedHeader data = panic) ∧
    (2 ≤ data.length → (bits data).take 12 ≠ List.replicate 12 true → ∃ m, readADtsFixedHeader data = err m) ∧
    (2 ≤ data.length → data.length < 7 → (bits data).take 12 = List.replicate 12 true → readADtsFixedHeader data = panic) :=
  ⟨fun h => readADts_short data (by omega) (.inl h),
   fun h h' => ⟨_, readADts_nosync data h fun e => h' ((sync_bits data h).mp e)⟩,
   fun h h' e => readADts_short data h' (.inr ((sync_bits data h).mpr e))⟩

example : setADtsHeader (List.replicate 9 0xAA) 0 1 4 2 371 = ok [0xFF, 0xF1, 0x50, 0x80, 0x2E, 0x7F, 0xFC, 0xAA, 0xAA] := by
  decide
example : readADtsFixedHeader [0xFF, 0xF1, 0x50, 0x80, 0x2E, 0x7F, 0xFC, 0xAA] = ok 0xFFF150802E7FFC#64 := by decide
example : adtsFrameLength 0xFFF150802E7FFC#64 = 371 := by decide
example : setADtsHeader (List.replicate 6 0) 0 1 4 2 371 = panic := by decide
example : readADtsFixedHeader [0xFF, 0xF1, 0x50, 0x80, 0x2E, 0x7F] = panic := by decide
example : readADtsFixedHeader [0xFF, 0xE1, 0x50, 0x80, 0x2E, 0x7F, 0xFC] = err "not find syncword" := by decide

/-! ## C54 AudioSpecificConfig -/

theorem adts_three (a : BitVec 64) : ∃ p < 4, ∃ f < 16, ∃ c < 8,
    adtsProfile a = ((p : Nat) : Int) ∧ adtsFrequency a = ((f : Nat) : Int) ∧ adtsChannel a = ((c : Nat) : Int) :=
  ⟨_, Nat.mod_lt _ (by omega), _, Nat.mod_lt _ (by omega), _, Nat.mod_lt _ (by omega),
    adtsField_eq a 38 2 _ rfl (by omega), adtsField_eq a 34 4 _ rfl (by omega), adtsField_eq a 30 3 _ rfl (by omega)⟩

/-- The configuration of any 64-bit header: object type (profile + 1), sampling index and channel configuration, then three
zero bits. -/
theorem C54_layout (a : BitVec 64) :
    bits (adtsHeader2MpegAudioConfigData a) =
      ascBits (adtsProfile a + 1).toNat (adtsFrequency a).toNat (adtsChannel a).toNat ++ [false, false, false] := by
  obtain ⟨p, hp, f, hf, c, hc, h1, h2, h3⟩ := adts_three a
  unfold adtsHeader2MpegAudioConfigData
  rw [h1, h2, h3]
  have key : ∀ p < 4, ∀ f < 16, ∀ c < 8,
      bits [(((u8 ((p : Nat) : Int) + 1) &&& 0x1F) <<< 3) ||| ((u8 ((f : Nat) : Int) >>> 1) &&& 0x7),
        ((u8 ((f : Nat) : Int) &&& 0x1) <<< 7) ||| ((u8 ((c : Nat) : Int) &&& 0xF) <<< 3)] =
      ascBits (((p : Nat) : Int) + 1).toNat ((f : Nat) : Int).toNat ((c : Nat) : Int).toNat ++ [false, false, false] := by
    decide +kernel
  exact key p hp f hf c hc

/-- Parsing any configuration: the three fields, the rate of Table 1.18 (-1 for the reserved and escape indices), the number
of channels of Table 1.19 (0 where it gives none). -/
theorem C54_parse (data : Bytes) (o i c : Nat) (t : List Bool) (ho : o < 32) (hi : i < 16) (hc : c < 14)
    (h : bits data = ascBits o i c ++ t) :
    parseMpeg4AudioConfig data = ok
      { objectType := o, samplingIndex := i,
        sampleRate := (match aacRates[i]? with | some r => (r : Int) | none => -1),
        chanConfig := c, channels := ((aacChannels c).getD 0 : Nat) } := by
  match data, congrArg List.length h with
  | [], hl => simp [bits, ascBits, fieldBits] at hl
  | [a], hl => simp [bits, byteBits, ascBits, fieldBits] at hl
  | a :: b :: rest, _ =>
    obtain ⟨h1, h2, h3⟩ := asc_values a b rest o i c t ho hi (by omega) h
    unfold parseMpeg4AudioConfig
    simp only [idx, List.getElem?_cons_zero, List.getElem?_cons_succ, ok_bind, h1, h2, h3]
    have key : ∀ c < 14, idxI mpeg4AudioChannels ((c : Nat) : Int) = ok (((aacChannels c).getD 0 : Nat) : Int) := by decide
    have keyr : ∀ i < 16, (samplingRateOf ((i : Nat) : Int)).getD 0 =
      match aacRates[i]? with | some r => (r : Int) | none => -1 := by decide
    rw [if_neg (by simp [mpeg4AudioChannels]; omega), key c hc, ok_bind, keyr i hi]
    rfl

/-- Channel configurations 14 and 15 are refused; less than two bytes are a panic. -/
theorem C54_parse_bad (data : Bytes) :
    (∀ o i c t, o < 32 → i < 16 → 14 ≤ c → c < 16 → bits data = ascBits o i c ++ t →
      ∃ m, parseMpeg4AudioConfig data = err m) ∧
    (data.length < 2 → parseMpeg4AudioConfig data = panic) := by
  constructor
  · intro o i c t ho hi hc hc' h
    match data, congrArg List.length h with
    | [], hl => simp [bits, ascBits, fieldBits] at hl
    | [a], hl => simp [bits, byteBits, ascBits, fieldBits] at hl
    | a :: b :: rest, _ =>
      obtain ⟨h1, h2, h3⟩ := asc_values a b rest o i c t ho hi (by omega) h
      unfold parseMpeg4AudioConfig
      simp only [idx, List.getElem?_cons_zero, List.getElem?_cons_succ, ok_bind, h1, h2, h3]
      rw [if_pos (by simp [mpeg4AudioChannels]; omega)]
      exact ⟨_, rfl⟩
  · intro h
    match data, h with
    | [], _ => simp [parseMpeg4AudioConfig, idx]
    | [_], _ => simp [parseMpeg4AudioConfig, idx]

/-- Converting any 64-bit header value and parsing the result. -/
theorem C54_adts_to_config (a : BitVec 64) :
    ∃ cfg, parseMpeg4AudioConfig (adtsHeader2MpegAudioConfigData a) = ok cfg ∧ cfg.objectType = adtsProfile a + 1 ∧
      cfg.samplingIndex = adtsFrequency a ∧ cfg.chanConfig = adtsChannel a ∧
      (cfg.sampleRate = match aacRates[(adtsFrequency a).toNat]? with | some r => (r : Int) | none => -1) ∧
      cfg.channels = ((aacChannels (adtsChannel a).toNat).getD 0 : Nat) := by
  have hl := C54_layout a
  obtain ⟨p, hp, f, hf, c, hc, h1, h2, h3⟩ := adts_three a
  have := C54_parse _ _ _ _ _ (by rw [h1]; omega) (by rw [h2]; omega) (by rw [h3]; omega) hl
  refine ⟨_, this, ?_, ?_, ?_, rfl, rfl⟩
  · dsimp; omega
  · dsimp; omega
  · dsimp; omega

/-- Limits of the parser, both for valid configurations: the escape value 31 of the object type is taken as the type itself
(the type here is 32 + 8 = 40 and the rate index 3), and the escape value 15 of the sampling index gives rate -1 instead of the
24-bit rate that follows. -/
theorem C54_escapes_ignored :
    (parseMpeg4AudioConfig [0xF9, 0x06, 0x40] = ok { objectType := 31, samplingIndex := 2, sampleRate := 64000, chanConfig := 0, channels := 0 }) ∧
    (bits [0xF9, 0x06, 0x40] = fieldBits 5 31 ++ (fieldBits 6 8 ++ (fieldBits 4 3 ++ (fieldBits 4 2 ++ fieldBits 5 0)))) ∧
    (parseMpeg4AudioConfig [0x17, 0x80, 0x67, 0x41, 0x10] = ok { objectType := 2, samplingIndex := 15, sampleRate := -1, chanConfig := 0, channels := 0 }) := by
  decide

example : parseMpeg4AudioConfig [0x12, 0x10] = ok { objectType := 2, samplingIndex := 4, sampleRate := 44100, chanConfig := 2, channels := 2 } := by
  decide
example : adtsHeader2MpegAudioConfigData 0xFFF150802E7FFC#64 = [0x12, 0x10] := by decide
example : parseMpeg4AudioConfig [0x12, 0x78] = err "invalid data" := by decide

/-! ## C55 -/

/-- The full claim: the index of a standard rate is found. -/
def C55_claim : Prop := ∀ i r : Nat, aacRates[i]? = some r → getSampleRateIndex r = i

/-- It is false: the rate is used as the index. -/
theorem C55_claim_violated : ¬ C55_claim := fun h => absurd (h 4 44100 rfl) (by decide)

/-- `GetSampleRateFromFrequency` is the table of the standard, and reports the absence of an index outside 0..15. -/
theorem C55_rate_of_index_partial (i : Int) :
    getSampleRateFromFrequency i =
      if 0 ≤ i ∧ i < 16 then (match aacRates[i.toNat]? with | some r => (r : Int) | none => -1, true) else (0, false) := by
  by_cases h : 0 ≤ i ∧ i < 16
  · rw [if_pos h]
    obtain ⟨n, rfl⟩ := Int.eq_ofNat_of_zero_le h.1
    have key : ∀ n < 16, getSampleRateFromFrequency ((n : Nat) : Int) =
      (match aacRates[((n : Nat) : Int).toNat]? with | some r => (r : Int) | none => -1, true) := by decide
    exact key n (by omega)
  · rw [if_neg h]
    unfold getSampleRateFromFrequency samplingRateOf
    by_cases h0 : 0 ≤ i
    · rw [if_pos h0, List.getElem?_eq_none (by simp [audioSamplingRates]; omega)]
    · rw [if_neg h0]

/-- What `GetSampleRateIndex` returns: 0 for every number outside 0..15, in particular for every rate in Hz. -/
theorem C55_index_of_rate_partial (r : Int) (h : r < 0 ∨ 16 ≤ r) : getSampleRateIndex r = 0 := by
  unfold getSampleRateIndex samplingRateOf
  by_cases h0 : 0 ≤ r
  · rw [if_pos h0, List.getElem?_eq_none (by simp [audioSamplingRates]; omega)]; rfl
  · rw [if_neg h0]; rfl

example : getSampleRateFromFrequency 4 = (44100, true) := by decide
example : getSampleRateIndex 96000 = 0 ∧ getSampleRateIndex 44100 = 0 := by decide

/-! ## C56 -/

/-- Every outcome lies in the range and every value of the range is an outcome. -/
theorem C56_range (min max : Int) (h1 : -2 ^ 63 ≤ min) (h2 : max < 2 ^ 63) (h : min ≤ max) (ho : max - min + 1 < 2 ^ 63) :
    (∀ draw, ∃ v, randomIntInRange draw min max = ok v ∧ min ≤ v ∧ v ≤ max) ∧
    (∀ v, min ≤ v → v ≤ max → ∃ draw, randomIntInRange draw min max = ok v) := by
  have key : ∀ draw : Nat, randomIntInRange draw min max = ok ((draw : Int) % (max - min + 1) + min) := by
    intro draw
    unfold randomIntInRange randIntn
    have m1 := Int.emod_nonneg (draw : Int) (show max - min + 1 ≠ 0 by omega)
    have m2 := Int.emod_lt_of_pos (draw : Int) (show 0 < max - min + 1 by omega)
    rw [if_neg (by omega), wrap64_of_range (x := max - min) (by omega) (by omega),
      wrap64_of_range (x := max - min + 1) (by omega) (by omega), if_neg (by omega), ok_bind,
      wrap64_of_range (by omega) (by omega)]
    rfl
  constructor
  · intro draw
    have m1 := Int.emod_nonneg (draw : Int) (show max - min + 1 ≠ 0 by omega)
    have m2 := Int.emod_lt_of_pos (draw : Int) (show 0 < max - min + 1 by omega)
    exact ⟨_, key draw, by omega, by omega⟩
  · intro v hv hv'
    refine ⟨(v - min).toNat, ?_⟩
    rw [key, Int.toNat_of_nonneg (by omega), Int.emod_eq_of_lt (by omega) (by omega)]
    congr 1; omega

/-- Otherwise it panics, whatever the random source does: `min > max`, or a range of 2^63 numbers or more. -/
theorem C56_panic (min max : Int) (h1 : -2 ^ 63 ≤ min) (h2 : min < 2 ^ 63) (h3 : -2 ^ 63 ≤ max) (h4 : max < 2 ^ 63)
    (h : max < min ∨ 2 ^ 63 ≤ max - min + 1) (draw : Nat) : randomIntInRange draw min max = panic := by
  unfold randomIntInRange
  by_cases hm : min > max
  · rw [if_pos hm]
  · rw [if_neg hm]
    have : wrap64 (wrap64 (max - min) + 1) ≤ 0 := by unfold wrap64; omega
    simp [randIntn, this]

/-- `RandStringBytes(n)`: `n` characters, each a letter or a digit. -/
theorem C56_string (draws : Nat → Nat) (n : Int) (h : 0 ≤ n) :
    ∃ s, randStringBytes draws n = ok s ∧ (s.length : Int) = n ∧
      ∀ b ∈ s, (97 ≤ b.toNat ∧ b.toNat ≤ 122) ∨ (65 ≤ b.toNat ∧ b.toNat ≤ 90) ∨ (48 ≤ b.toNat ∧ b.toNat ≤ 57) := by
  have hall : ∀ k < 62, ∃ b : Byte, idxI letterBytes ((k : Nat) : Int) = ok b ∧
      ((97 ≤ b.toNat ∧ b.toNat ≤ 122) ∨ (65 ≤ b.toNat ∧ b.toNat ≤ 90) ∨ (48 ≤ b.toNat ∧ b.toNat ≤ 57)) := by
    have : ∀ k < 62, idxI letterBytes ((k : Nat) : Int) = ok (letterBytes.getD k 0) ∧
      ((97 ≤ (letterBytes.getD k 0).toNat ∧ (letterBytes.getD k 0).toNat ≤ 122) ∨
       (65 ≤ (letterBytes.getD k 0).toNat ∧ (letterBytes.getD k 0).toNat ≤ 90) ∨
       (48 ≤ (letterBytes.getD k 0).toNat ∧ (letterBytes.getD k 0).toNat ≤ 57)) := by decide
    exact fun k hk => ⟨_, this k hk⟩
  have loop : ∀ ds : List Nat, ∃ s, randLetters ds = ok s ∧ s.length = ds.length ∧
      ∀ b ∈ s, (97 ≤ b.toNat ∧ b.toNat ≤ 122) ∨ (65 ≤ b.toNat ∧ b.toNat ≤ 90) ∨ (48 ≤ b.toNat ∧ b.toNat ≤ 57) := by
    intro ds
    induction ds with
    | nil => exact ⟨[], rfl, rfl, by simp⟩
    | cons d ds ih =>
      obtain ⟨s, hs, hl, hb⟩ := ih
      obtain ⟨b, e1, e2⟩ := hall (d % 62) (Nat.mod_lt _ (by omega))
      have hr : randIntn d letterBytes.length = ok ((d % 62 : Nat) : Int) := by
        have : (letterBytes.length : Int) = 62 := by decide
        rw [this, randIntn, if_neg (by omega)]
        congr 1
      refine ⟨b :: s, ?_, by simp [hl], ?_⟩
      · simp only [randLetters]
        rw [hr, ok_bind, e1, ok_bind, hs]; rfl
      · intro x hx
        rcases List.mem_cons.mp hx with rfl | hx
        · exact e2
        · exact hb x hx
  obtain ⟨s, e, hl, hb⟩ := loop ((List.range n.toNat).map draws)
  refine ⟨s, ?_, by rw [hl]; simp; omega, hb⟩
  rw [randStringBytes, if_neg (by omega), e]

theorem C56_string_negative (draws : Nat → Nat) (n : Int) (h : n < 0) : randStringBytes draws n = panic := by
  rw [randStringBytes, if_pos h]

example : randomIntInRange 12 5 8 = ok 5 := by decide
example : randomIntInRange 12 (-2 ^ 63) (-2 ^ 63) = ok (-2 ^ 63) := by decide
example : randomIntInRange 12 (-2 ^ 62) (2 ^ 62 - 1) = panic := by decide
example : randStringBytes (fun i => 25 * i) 4 = ok [97, 122, 89, 110] := by decide

/-! ## C57 -/

/-- The result is defined (does not depend on what an out-of-range conversion would give) and within
`1 + |x| / 2^50` of the exact value `x = ts * dst / src`, for all 64-bit arguments with `|x| ≤ 2^62`. -/
theorem C57_accurate (undef ts src dst : Int) (hs : src ≠ 0) (h : |ts * dst| ≤ 2 ^ 62 * |src|) :
    |(convertTs undef ts src dst : ℚ) - (ts : ℚ) * dst / src| < 1 + |(ts : ℚ) * dst / src| / 2 ^ 50 := by
  rw [convertTs_eq undef ts src dst hs h]
  have a := truncQ_err (tsProduct ts src dst)
  have b := tsProduct_err ts src dst hs
  have c := abs_sub_le (truncQ (tsProduct ts src dst) : ℚ) (tsProduct ts src dst) ((ts : ℚ) * dst / src)
  linarith

/-- So the error is below 2 as long as the result is not larger than 2^50. -/
theorem C57_below_two (undef ts src dst : Int) (hs : src ≠ 0) (h : |ts * dst| ≤ 2 ^ 50 * |src|) :
    |(convertTs undef ts src dst : ℚ) - (ts : ℚ) * dst / src| < 2 := by
  have a := C57_accurate undef ts src dst hs (h.trans (by have := abs_nonneg src; omega))
  have hs' : (0 : ℚ) < |(src : ℚ)| := abs_pos.mpr (by exact_mod_cast hs)
  have hx : |(ts : ℚ) * dst / src| ≤ 2 ^ 50 := by
    rw [abs_div, div_le_iff₀ hs']; exact_mod_cast h
  have : |(ts : ℚ) * dst / src| / 2 ^ 50 ≤ 1 := by rw [div_le_iff₀ (by positivity), one_mul]; exact hx
  linarith

theorem C57_odd (undef ts src dst : Int) (hs : src ≠ 0) (h : |ts * dst| ≤ 2 ^ 62 * |src|) :
    convertTs undef (-ts) src dst = - convertTs undef ts src dst := by
  rw [convertTs_eq undef ts src dst hs h, convertTs_eq undef (-ts) src dst hs (by rw [neg_mul, abs_neg]; exact h),
    tsProduct_neg, truncQ_neg]

/-- Timestamps keep their order. -/
theorem C57_monotone (undef ts ts' src dst : Int) (hs : 0 < src) (hd : 0 ≤ dst) (hle : ts ≤ ts')
    (h : |ts * dst| ≤ 2 ^ 62 * src) (h' : |ts' * dst| ≤ 2 ^ 62 * src) :
    convertTs undef ts src dst ≤ convertTs undef ts' src dst := by
  have e : |src| = src := abs_of_pos hs
  rw [convertTs_eq undef ts src dst hs.ne' (by rw [e]; exact h), convertTs_eq undef ts' src dst hs.ne' (by rw [e]; exact h')]
  exact truncQ_mono (tsProduct_mono hle hs hd)

/-- Equal time bases: nothing changes. -/
theorem C57_identity (undef ts src : Int) (hs : src ≠ 0) (h : |ts| ≤ 2 ^ 53) : convertTs undef ts src src = ts := by
  rw [convertTs_eq undef ts src src hs, tsProduct_same ts src hs h, truncQ_int]
  rw [abs_mul]
  have := abs_nonneg src
  nlinarith

/-- To a multiple of the time base the conversion is exact. -/
theorem C57_exact_to_multiple (undef ts src k : Int) (hs : src ≠ 0) (hs53 : |src| ≤ 2 ^ 53) (hk : |k * src| ≤ 2 ^ 53)
    (ht : |ts| ≤ 2 ^ 53) (htk : |ts * k| ≤ 2 ^ 53) : convertTs undef ts src (k * src) = ts * k := by
  rw [convertTs_eq undef ts src (k * src) hs, tsProduct_mul ts src k hs hs53 hk ht htk, truncQ_int]
  rw [← mul_assoc, abs_mul]
  have := abs_nonneg src
  nlinarith

/-- From the time base of TS and PS to milliseconds: the exact value, truncated. -/
theorem C57_milliseconds (undef ts : Int) (h : |ts| ≤ 2 ^ 51) : convertTs undef ts 90000 1000 = ts.tdiv 90 := convertTs_ms undef h

/-- From milliseconds to the time base of TS and PS and back nothing is lost. -/
theorem C57_there_and_back (u v ts : Int) (h : |ts| ≤ 2 ^ 44) : convertTs u (convertTs v ts 1000 90000) 90000 1000 = ts := by
  have h' := abs_le.1 h
  have e := C57_exact_to_multiple v ts 1000 90 (by decide) (by decide) (by decide) (by omega) (abs_le.2 ⟨by omega, by omega⟩)
  rw [show (90 : Int) * 1000 = 90000 by decide] at e
  rw [e, C57_milliseconds u _ (abs_le.2 ⟨by omega, by omega⟩), Int.mul_tdiv_cancel _ (by decide)]

/-- The other way round the ticks that are no whole millisecond are lost. -/
theorem C57_back_and_there (u v ts : Int) (h : |ts| ≤ 2 ^ 51) : convertTs u (convertTs v ts 90000 1000) 1000 90000 = ts - ts.tmod 90 := by
  rw [C57_milliseconds v ts h]
  have h' := abs_le.1 h
  have hm := Int.mul_tdiv_add_tmod ts 90
  have hr := Int.tmod_lt_of_pos ts (by decide : (0 : Int) < 90)
  have hr' : -90 < ts.tmod 90 := by
    have := Int.tmod_lt_of_pos (-ts) (by decide : (0 : Int) < 90)
    rw [Int.neg_tmod] at this
    omega
  have e := C57_exact_to_multiple u (ts.tdiv 90) 1000 90 (by decide) (by decide) (by decide) (abs_le.2 ⟨by omega, by omega⟩)
    (abs_le.2 ⟨by omega, by omega⟩)
  rw [show (90 : Int) * 1000 = 90000 by decide] at e
  rw [e]
  omega

/-- The bound of the first version of this property: error below 2 for |ts| < 2^51 and time bases below 2^31. -/
def C57_claim_first_version : Prop := ∀ undef ts src dst : Int, |ts| < 2 ^ 51 → 0 < src → src < 2 ^ 31 → 0 < dst → dst < 2 ^ 31 →
  |(convertTs undef ts src dst : ℚ) - (ts : ℚ) * dst / src| < 2

/-- It does not hold, because the result can be much larger than the argument: the exact value here is
1125899906842625000 and the result 1125899906842625024. -/
theorem C57_claim_first_version_violated : ¬ C57_claim_first_version := by
  intro h
  have := h 0 (2 ^ 50 + 1) 1 1000 (by norm_num) (by norm_num) (by norm_num) (by norm_num) (by norm_num)
  have e : convertTs 0 (2 ^ 50 + 1) 1 1000 = 1125899906842625024 := by decide +kernel
  rw [e] at this
  norm_num at this

/-- Conversion is not exact truncation: one second of a time base of 19 units is 999 milliseconds. -/
theorem C57_not_exact_truncation : convertTs 0 19 19 1000 = 999 := by decide +kernel

/-- Going to another time base and back is not the identity. -/
theorem C57_not_reversible : convertTs 0 (convertTs 0 1 90000 1000) 1000 90000 = 0 := by decide +kernel

example : convertTs 0 4410 90000 1000 = 49 := by decide +kernel
example : convertTs 0 (-4499) 90000 1000 = -49 := by decide +kernel
example : convertTs 0 40 1000 90000 = 3600 := by decide +kernel
example : convertTs 0 (2 ^ 51 - 2) 90000 1000 = 25019997929836 ∧ (2 ^ 51 - 2 : Int).tdiv 90 = 25019997929836 ∧ (-4499 : Int).tdiv 90 = -49 := by
  decide +kernel

end Avf
