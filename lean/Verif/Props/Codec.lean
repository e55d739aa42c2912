import Verif.Lemmas.Codec
/-! # C69: codec data accessors -/
namespace Avf
open Go

/-! ## H.264 -/

/-- **C69**: codec data from parameter sets: the accessors give them back, the Annex B form is their concatenation, and the
size is that of the SPS. -/
theorem C69_avc_new (undef : Int) (sps pps : Bytes) (c : CodecData) (h : newAVCCodecData undef sps pps = ok c) :
    c.annexBExtraData = sps ++ pps ∧ c.sps = [sps] ∧ c.pps = [pps] ∧
      ∃ info, avcParseSPS undef sps = ok info ∧ c.width = info.width ∧ c.height = info.height := by
  unfold newAVCCodecData at h
  cases e : avcParseSPS undef sps with
  | ok info =>
    rw [e] at h
    cases h
    refine ⟨?_, rfl, rfl, info, rfl, rfl, rfl⟩
    show mix [[sps], [pps]] = _
    rw [mix_eq]; simp
  | err m => rw [e] at h; cases h
  | panic => rw [e] at h; cases h

/-- **C69**: it exists exactly if the SPS can be parsed; the only panics are those on a few zeros. -/
theorem C69_avc_new_iff (undef : Int) (sps pps : Bytes) :
    ((∃ c, newAVCCodecData undef sps pps = ok c) ↔ ∃ info, avcParseSPS undef sps = ok info) ∧
    (newAVCCodecData undef sps pps = panic ↔ sps ∈ [[], [0], [0, 0], [0, 0, 0]]) := by
  rw [← (C49_panic_iff undef sps).2]
  unfold newAVCCodecData
  cases avcParseSPS undef sps <;> simp

theorem C69_avc_mp4 {undef : Int} {sps pps : Bytes} {c : CodecData} (h : newAVCCodecData undef sps pps = ok c) :
    c.mp4ExtraData = CodecData.noErr (avcMarshal [sps] [pps]) := by
  unfold newAVCCodecData at h
  cases e : avcParseSPS undef sps with
  | ok info => rw [e] at h; cases h; rfl
  | err m => rw [e] at h; cases h
  | panic => rw [e] at h; cases h

/-- **C69**: the MP4 form of codec data made from parameter sets (bare or with any start code) within the size limit can be
parsed back; the result has the same parameter sets, with 4-byte start codes, and the same size. -/
theorem C69_avc_round_trip (undef : Int) (S P : ParamSet) (hS : S.Plain) (hP : P.Plain)
    (hfit : 11 + S.unit.length + P.unit.length ≤ 1024) (c : CodecData) (h : newAVCCodecData undef S.bytes P.bytes = ok c) :
    ∃ data c', c.mp4ExtraData = ok data ∧ parseAVCRecord undef data = ok c' ∧
      c'.sps = [[0, 0, 0, 1] ++ S.unit] ∧ c'.pps = [[0, 0, 0, 1] ++ P.unit] ∧ c'.width = c.width ∧ c'.height = c.height := by
  obtain ⟨_, _, _, info, hi, hw, hh⟩ := C69_avc_new undef _ _ c h
  have hs := removeStartCode_bytes S hS
  have h4 := avcParseSPS_four hs hi
  obtain ⟨l0, p, q, l, rest, hu⟩ : ∃ l0 p q l rest, S.unit = l0 :: p :: q :: l :: rest := by
    rcases hx : S.unit with _ | ⟨a, _ | ⟨b, _ | ⟨x, _ | ⟨d, r⟩⟩⟩⟩ <;> rw [hx] at h4 <;> simp at h4 <;> exact ⟨_, _, _, _, _, rfl⟩
  have hm := C69_avc_mp4 h
  obtain ⟨data, hd, hr⟩ := C41_round_trip [S] [P] (by simp) (by simp) (by simp) (by simp)
    (by intro s hs; simp at hs; rcases hs with rfl | rfl <;> assumption) (by simp [setsSize]; omega) l0 p q l rest hu
  have hd : avcMarshal [S.bytes] [P.bytes] = ok data := hd
  rw [hd] at hm
  refine ⟨data, { m4vc := some data, width := info.width, height := info.height, annexB := none
                  record := .avc { configurationVersion := 1, avcProfileIndication := p, profileCompatibility := q,
                                   avcLevelIndication := l, lengthSizeMinusOne := 3,
                                   spsList := [[0, 0, 0, 1] ++ S.unit], ppsList := [[0, 0, 0, 1] ++ P.unit] } },
    hm, ?_, rfl, rfl, hw.symm, hh.symm⟩
  have hp : avcParseSPS undef (startCoded S.unit) = ok info := by
    rw [← hi]; exact avcParseSPS_strip (removeStartCode_startCoded _) hs
  unfold parseAVCRecord
  rw [hr, ok_bind]
  dsimp only [List.map]
  rw [show idx [[0, 0, 0, 1] ++ S.unit] 0 = ok (startCoded S.unit) from rfl, ok_bind, hp]
  rfl

/-- Above the limit `MP4ExtraData` returns no bytes, without any error. -/
theorem C69_avc_too_big (undef : Int) (S P : ParamSet) (hS : S.Plain) (hP : P.Plain) (hSl : S.unit.length < 2 ^ 62)
    (hPl : P.unit.length < 2 ^ 62) (hbig : 1024 < 11 + S.unit.length + P.unit.length) (c : CodecData)
    (h : newAVCCodecData undef S.bytes P.bytes = ok c) : c.mp4ExtraData = ok [] := by
  have hm := C69_avc_mp4 h
  obtain ⟨e, he⟩ := C41_too_big [S] [P] (by simp) (by simp)
    (by intro s hs; simp at hs; rcases hs with rfl | rfl <;> assumption)
    (by intro s hs; simp at hs; rcases hs with rfl | rfl <;> assumption) (by simp [setsSize]; omega)
  have he : avcMarshal [S.bytes] [P.bytes] = err e := he
  rw [hm, he]
  rfl

/-- **C69**: codec data parsed from a record: the MP4 form is that record, the lists are the sets in the record, the Annex B
form has them all with start codes, and the size is that of the first SPS. -/
theorem C69_avc_record (undef : Int) (data header : Bytes) (hlen : data.length < 2 ^ 62) (count : Byte) (sps pps : List Bytes)
    (trailing : Bytes) (h : IsAvcRecord data header count sps pps trailing) (c : CodecData)
    (hc : parseAVCRecord undef data = ok c) :
    c.mp4ExtraData = ok data ∧ c.sps = sps.map startCoded ∧ c.pps = pps.map startCoded ∧
      c.annexBExtraData = (sps ++ pps).flatMap startCoded ∧
      ∃ s info, sps.head? = some s ∧ avcParseSPS undef (startCoded s) = ok info ∧ c.width = info.width ∧ c.height = info.height := by
  obtain ⟨v, p, q, l, z, rfl⟩ : ∃ v p c l z, header = [v, p, c, l, z] := by
    have := h.header5
    rcases header with _ | ⟨a, _ | ⟨b, _ | ⟨x, _ | ⟨d, _ | ⟨e, _ | ⟨f, r⟩⟩⟩⟩⟩⟩ <;> simp at this <;> exact ⟨_, _, _, _, _, rfl⟩
  unfold parseAVCRecord at hc
  rw [C42_record {} data hlen v p q l z count sps pps trailing h, ok_bind] at hc
  dsimp only at hc
  obtain ⟨s0, hs0, hc⟩ := bind_eq_ok.1 hc
  obtain ⟨info, hi, hc⟩ := bind_eq_ok.1 hc
  cases hc
  refine ⟨rfl, rfl, rfl, ?_, ?_⟩
  · show mix [_, _] = _
    rw [mix_eq]
    simp [List.flatMap]
    rfl
  · cases sps with
    | nil => exact absurd h.spsSome (by simp)
    | cons s sps =>
      have : s0 = startCoded s := by
        have : idx ((s :: sps).map startCoded) 0 = ok s0 := hs0
        simp [idx] at this
        exact this.symm
      subst this
      exact ⟨s, info, rfl, hi, rfl, rfl⟩

/-- **C69**: parsing a record never panics, and succeeds exactly on the records whose first SPS can be parsed. -/
theorem C69_avc_record_iff (undef : Int) (data : Bytes) (hlen : data.length < 2 ^ 62) :
    parseAVCRecord undef data ≠ panic ∧
    ((∃ c, parseAVCRecord undef data = ok c) ↔ ∃ header count s sps pps trailing info,
      IsAvcRecord data header count (s :: sps) pps trailing ∧ avcParseSPS undef (startCoded s) = ok info) := by
  by_cases hr : ∃ header count sps pps trailing, IsAvcRecord data header count sps pps trailing
  · obtain ⟨header, count, sps, pps, trailing, h⟩ := hr
    cases sps with
    | nil => exact absurd h.spsSome (by simp)
    | cons s sps =>
      have hrun : ∃ r : AVCRecord, parseAVCRecord undef data = (do
          let info ← avcParseSPS undef (startCoded s)
          return { m4vc := some data, width := info.width, height := info.height, record := .avc r, annexB := none }) := by
        obtain ⟨v, p, q, l, z, rfl⟩ : ∃ v p c l z, header = [v, p, c, l, z] := by
          have := h.header5
          rcases header with _ | ⟨a, _ | ⟨b, _ | ⟨x, _ | ⟨d, _ | ⟨e, _ | ⟨f, r⟩⟩⟩⟩⟩⟩ <;> simp at this <;> exact ⟨_, _, _, _, _, rfl⟩
        refine Exists.intro ?_ ?_
        rotate_left
        unfold parseAVCRecord
        rw [C42_record {} data hlen v p q l z count (s :: sps) pps trailing h, ok_bind]
        rfl
      obtain ⟨r, hrun⟩ := hrun
      rw [hrun]
      constructor
      · intro hp
        rcases bind_eq_panic.1 hp with hp | ⟨_, _, hp⟩
        · rw [(C49_panic_iff undef _).1, removeStartCode_startCoded] at hp; cases hp
        · cases hp
      · constructor
        · rintro ⟨c, hc⟩
          obtain ⟨info, hi, _⟩ := bind_eq_ok.1 hc
          exact ⟨header, count, s, sps, pps, trailing, info, h, hi⟩
        · rintro ⟨h', c', s', sps', pps', t', info, hr', hi⟩
          obtain ⟨_, _, e, _, _⟩ := h.unique hr'
          cases e
          exact ⟨_, by rw [hi]; rfl⟩
  · obtain ⟨e, a, he⟩ := C42_not_record {} data hlen (fun a b c d e h => hr ⟨a, b, c, d, e, h⟩)
    have : parseAVCRecord undef data = err e := by
      unfold parseAVCRecord; rw [he]; rfl
    rw [this]
    refine ⟨by simp, ?_⟩
    constructor
    · rintro ⟨c, hc⟩; cases hc
    · rintro ⟨h', c', s', sps', pps', t', info, hr', hi⟩
      exact absurd ⟨_, _, _, _, _, hr'⟩ hr

/-- A 1280x720 stream: bare SPS, PPS with a short start code. -/
example : (∃ c data c', newAVCCodecData 0 [103, 66, 0, 31, 218, 1, 64, 22, 228] [0, 0, 1, 104, 206] = ok c ∧
    c.width = 1280 ∧ c.height = 720 ∧ c.annexBExtraData = [103, 66, 0, 31, 218, 1, 64, 22, 228, 0, 0, 1, 104, 206] ∧
    c.mp4ExtraData = ok data ∧ data = [1, 66, 0, 31, 255, 225, 0, 9, 103, 66, 0, 31, 218, 1, 64, 22, 228, 1, 0, 2, 104, 206] ∧
    parseAVCRecord 0 data = ok c' ∧ c'.width = 1280 ∧ c'.height = 720 ∧
    c'.annexBExtraData = [0, 0, 0, 1, 103, 66, 0, 31, 218, 1, 64, 22, 228, 0, 0, 0, 1, 104, 206]) := by
  refine ⟨⟨1280, 720, some [103, 66, 0, 31, 218, 1, 64, 22, 228, 0, 0, 1, 104, 206], none,
      .avc { spsList := [[103, 66, 0, 31, 218, 1, 64, 22, 228]], ppsList := [[0, 0, 1, 104, 206]] }⟩, _,
    ⟨1280, 720, none, some [1, 66, 0, 31, 255, 225, 0, 9, 103, 66, 0, 31, 218, 1, 64, 22, 228, 1, 0, 2, 104, 206],
      .avc ⟨1, 66, 0, 31, 3, [[0, 0, 0, 1, 103, 66, 0, 31, 218, 1, 64, 22, 228]], [[0, 0, 0, 1, 104, 206]]⟩⟩,
    by decide +kernel, by decide, by decide, by decide, by decide +kernel, rfl, by decide +kernel, by decide, by decide, by decide⟩

/-! ## H.265 -/

/-- **C69** for H.265: `NewHEVCCodecData`. -/
theorem C69_hevc_new (vps sps pps : Bytes) (c : CodecData) (h : newHEVCCodecData vps sps pps = ok c) :
    c.annexBExtraData = vps ++ sps ++ pps ∧ c.sps = [sps] ∧ c.pps = [pps] ∧
      ∃ info, hevcParseSPS sps = ok info ∧ c.width = info.width ∧ c.height = info.height := by
  unfold newHEVCCodecData at h
  cases e : hevcParseSPS sps with
  | ok info =>
    rw [e] at h
    cases h
    refine ⟨?_, rfl, rfl, info, rfl, rfl, rfl⟩
    show mix [[vps], [sps], [pps]] = _
    rw [mix_eq]; simp
  | err m => rw [e] at h; cases h
  | panic => rw [e] at h; cases h

/-- **C69** for H.265: and the VPS. -/
theorem C69_hevc_new_vps (vps sps pps : Bytes) (c : CodecData) (h : newHEVCCodecData vps sps pps = ok c) : c.vps = [vps] := by
  unfold newHEVCCodecData at h
  cases e : hevcParseSPS sps with
  | ok info => rw [e] at h; cases h; rfl
  | err m => rw [e] at h; cases h
  | panic => rw [e] at h; cases h

theorem C69_hevc_new_iff (vps sps pps : Bytes) :
    ((∃ c, newHEVCCodecData vps sps pps = ok c) ↔ ∃ info, hevcParseSPS sps = ok info) ∧
    (newHEVCCodecData vps sps pps = panic ↔ sps ∈ [[], [0], [0, 0], [0, 0, 0]]) := by
  rw [← (C52_panic_iff sps).2]
  unfold newHEVCCodecData
  cases hevcParseSPS sps <;> simp

theorem C69_hevc_mp4 {vps sps pps : Bytes} {c : CodecData} (h : newHEVCCodecData vps sps pps = ok c) :
    c.mp4ExtraData = CodecData.noErr (hevcMarshal [vps] [sps] [pps]) := by
  unfold newHEVCCodecData at h
  cases e : hevcParseSPS sps with
  | ok info => rw [e] at h; cases h; rfl
  | err m => rw [e] at h; cases h
  | panic => rw [e] at h; cases h

/-- **C69** for H.265: parsing the MP4 form back. -/
theorem C69_hevc_round_trip (grow : Nat → Nat) (V S P : ParamSet) (hV : V.Plain) (hS : S.Plain) (hP : P.Plain)
    (tv : hevcUnitType V.unit = 32) (ts : hevcUnitType S.unit = 33) (tp : hevcUnitType P.unit = 34)
    (hfit : 38 + V.unit.length + S.unit.length + P.unit.length ≤ 1024) (c : CodecData)
    (h : newHEVCCodecData V.bytes S.bytes P.bytes = ok c) :
    ∃ data c', c.mp4ExtraData = ok data ∧ parseHEVCRecord grow data = ok c' ∧
      c'.sps = [[0, 0, 0, 1] ++ S.unit] ∧ c'.pps = [[0, 0, 0, 1] ++ P.unit] ∧
      c'.annexBExtraData = [0, 0, 0, 1] ++ V.unit ++ [0, 0, 0, 1] ++ S.unit ++ [0, 0, 0, 1] ++ P.unit ∧
      c'.width = c.width ∧ c'.height = c.height := by
  obtain ⟨_, _, _, info, hi, hw, hh⟩ := C69_hevc_new _ _ _ c h
  have hs := removeStartCode_bytes S hS
  have hm := C69_hevc_mp4 h
  obtain ⟨data, r, hd, hr, e1, e2, e3⟩ := C44_last_sps_partial grow [V] [S] [P] (by simp) (by simp) (by simp)
    (by intro s hs; simp at hs; rcases hs with rfl | rfl | rfl <;> assumption) tv ts tp (by simp [setsSize]; omega)
  have hd : hevcMarshal [V.bytes] [S.bytes] [P.bytes] = ok data := hd
  rw [hd] at hm
  have e2 : r.spsList = [[0, 0, 0, 1] ++ S.unit] := e2
  have e1 : r.vpsList = [[0, 0, 0, 1] ++ V.unit] := e1
  have e3 : r.ppsList = [[0, 0, 0, 1] ++ P.unit] := e3
  have hp : hevcParseSPS (startCoded S.unit) = ok info := by
    rw [← hi]; exact hevcParseSPS_strip (removeStartCode_startCoded _) hs
  refine ⟨data, { m4vc := some data, width := info.width, height := info.height, annexB := none, record := .hevc r },
    hm, ?_, e2, e3, ?_, hw.symm, hh.symm⟩
  · unfold parseHEVCRecord
    rw [hr, ok_bind]
    dsimp only
    rw [e2, show idx [[0, 0, 0, 1] ++ S.unit] 0 = ok (startCoded S.unit) from rfl, ok_bind, hp]
    rfl
  · show mix [r.vpsList, r.spsList, r.ppsList] = _
    rw [mix_eq, e1, e2, e3]; simp

/-- Above the limit `MP4ExtraData` returns no bytes, without any error. -/
theorem C69_hevc_too_big (V S P : ParamSet) (hV : V.Plain) (hS : S.Plain) (hP : P.Plain) (nv : V.unit ≠ []) (ns : S.unit ≠ [])
    (np : P.unit ≠ []) (hVl : V.unit.length < 2 ^ 62) (hSl : S.unit.length < 2 ^ 62) (hPl : P.unit.length < 2 ^ 62)
    (hbig : 1024 < 38 + V.unit.length + S.unit.length + P.unit.length) (c : CodecData)
    (h : newHEVCCodecData V.bytes S.bytes P.bytes = ok c) : c.mp4ExtraData = ok [] := by
  have hm := C69_hevc_mp4 h
  obtain ⟨e, he⟩ := C44_too_big [V] [S] [P] (by simp) (by simp) (by simp)
    (by intro s hs; simp at hs; rcases hs with rfl | rfl | rfl <;> assumption) nv ns np
    (by intro s hs; simp at hs; rcases hs with rfl | rfl | rfl <;> assumption) (by simp [setsSize]; omega)
  have he : hevcMarshal [V.bytes] [S.bytes] [P.bytes] = err e := he
  rw [hm, he]
  rfl

/-- 1280x720. -/
def exHevcSps : Bytes := [66, 1, 1, 1, 96, 0, 0, 3, 0, 144, 0, 0, 3, 0, 0, 3, 0, 93, 160, 2, 128, 128, 45, 22, 89, 89, 164, 145, 40]

/-- The codec data for it. -/
def exHevcCodec (vps pps : Bytes) : CodecData :=
  ⟨1280, 720, some (vps ++ exHevcSps ++ pps), none,
    .hevc { vpsList := [vps], spsList := [exHevcSps], ppsList := [pps], ppsCap := 1 }⟩

/-- An empty parameter set makes `MP4ExtraData` panic. -/
theorem C69_hevc_empty_vps_panics : newHEVCCodecData [] exHevcSps [68, 1] = ok (exHevcCodec [] [68, 1]) ∧
    (exHevcCodec [] [68, 1]).mp4ExtraData = panic := by
  constructor <;> decide +kernel

example : hevcUnitType [64, 1, 7] = 32 ∧ hevcUnitType exHevcSps = 33 ∧ hevcUnitType [68, 1] = 34 ∧
    newHEVCCodecData [64, 1, 7] exHevcSps [68, 1] = ok (exHevcCodec [64, 1, 7] [68, 1]) := by
  refine ⟨?_, ?_, ?_, ?_⟩ <;> decide +kernel

/-- **C69** for H.265: codec data parsed from a record; see C45 for the SPS list. -/
theorem C69_hevc_record (grow : Nat → Nat) (data header : Bytes) (hlen : data.length < 2 ^ 62) (xs : List (Byte × List Bytes))
    (trailing : Bytes) (h : IsHevcRecord data header xs trailing) (c : CodecData) (hc : parseHEVCRecord grow data = ok c) :
    c.mp4ExtraData = ok data ∧ c.vps = (unitsOfType 32 xs).map startCoded ∧ c.pps = (unitsOfType 34 xs).map startCoded ∧
      (∀ s ∈ c.sps, ∃ u, s = startCoded u ∧ (u ∈ unitsOfType 33 xs ∨ u ∈ unitsOfType 34 xs)) ∧
      c.annexBExtraData = (unitsOfType 32 xs).flatMap startCoded ++ c.sps.flatten ++ (unitsOfType 34 xs).flatMap startCoded ∧
      ∃ s info, c.sps.head? = some s ∧ hevcParseSPS s = ok info ∧ c.width = info.width ∧ c.height = info.height := by
  unfold parseHEVCRecord at hc
  obtain ⟨⟨r1, r⟩, hu, hc⟩ := bind_eq_ok.1 hc
  cases r1 with
  | error e => cases hc
  | ok x =>
    dsimp only at hc
    obtain ⟨s0, hs0, hc⟩ := bind_eq_ok.1 hc
    obtain ⟨info, hi, hc⟩ := bind_eq_ok.1 hc
    cases hc
    have hne : unitsOfType 32 xs ≠ [] ∧ unitsOfType 33 xs ≠ [] ∧ unitsOfType 34 xs ≠ [] := by
      by_contra hn
      obtain ⟨e, r', he⟩ := C45_not_record grow data hlen (by
        intro h' ys t' hr
        obtain ⟨_, rfl, _⟩ := h.unique hr
        by_cases a : unitsOfType 32 xs = []
        · exact Or.inl a
        · by_cases b : unitsOfType 33 xs = []
          · exact Or.inr (Or.inl b)
          · by_cases d : unitsOfType 34 xs = []
            · exact Or.inr (Or.inr d)
            · exact absurd ⟨a, b, d⟩ hn)
      rw [hu] at he; cases he
    obtain ⟨r', he, e1, e2, _, e4⟩ := C45_record grow data header hlen xs trailing h hne.1 hne.2.1 hne.2.2
    rw [hu] at he
    cases he
    refine ⟨rfl, e1, e2, e4, ?_, s0, info, ?_, hi, rfl, rfl⟩
    · show mix [r.vpsList, r.spsList, r.ppsList] = _
      rw [mix_eq, e1, e2]
      simp [List.flatMap, CodecData.sps]
      rfl
    · have := idx_eq_ok.1 hs0
      rw [List.head?_eq_getElem?]; exact this

/-- **C69** for H.265: parsing a record never panics. -/
theorem C69_hevc_record_total (grow : Nat → Nat) (data : Bytes) (hlen : data.length < 2 ^ 62) : parseHEVCRecord grow data ≠ panic := by
  by_cases hr : ∃ header xs trailing, IsHevcRecord data header xs trailing ∧ unitsOfType 32 xs ≠ [] ∧ unitsOfType 33 xs ≠ [] ∧
      unitsOfType 34 xs ≠ []
  · obtain ⟨header, xs, trailing, h, a, b, d⟩ := hr
    obtain ⟨r, he, _, _, e3, e4⟩ := C45_record grow data header hlen xs trailing h a b d
    unfold parseHEVCRecord
    rw [he, ok_bind]
    dsimp only
    cases hl : r.spsList with
    | nil => exact absurd hl e3
    | cons s ss =>
      obtain ⟨u, rfl, _⟩ := e4 s (by simp [hl])
      rw [show idx (([0, 0, 0, 1] ++ u) :: ss) 0 = ok (startCoded u) from rfl, ok_bind]
      intro hp
      rcases bind_eq_panic.1 hp with hp | ⟨_, _, hp⟩
      · rw [(C52_panic_iff _).1, removeStartCode_startCoded] at hp; cases hp
      · cases hp
  · obtain ⟨e, r, he⟩ := C45_not_record grow data hlen (by
      intro header xs t h
      by_contra hn
      simp only [not_or] at hn
      exact hr ⟨header, xs, t, h, hn.1, hn.2.1, hn.2.2⟩)
    unfold parseHEVCRecord
    rw [he]
    simp

end Avf
