import Verif.Lemmas.HevcFields
import Verif.Props.StartCode
/-!
# Decoder configuration records (C41..C45)

`Marshal`, `Unmarshal` and `ExtraDataToAnnexB` of /repo/avc/mp4.go and /repo/hevc/mp4.go. The layouts are those of
`Spec/Record.lean`. Lengths below 2^62 keep `int` arithmetic from overflowing; no Go slice is longer.
-/
namespace Avf
open Go

theorem stripped_sets {ss : List ParamSet} (h : ∀ s ∈ ss, s.Plain) : Stripped (ss.map (·.bytes)) (ss.map (·.unit)) := by
  induction ss with
  | nil => rfl
  | cons s ss ih =>
    have hs : removeStartCode s.bytes = ok s.unit := by
      obtain ⟨f, u⟩ := s
      cases f with
      | none =>
        have hp := h ⟨none, u⟩ (by simp) rfl
        exact (C31_remove_start_code u).2.2 hp.1 hp.2
      | some b =>
        cases b
        · exact (C31_remove_start_code _).1 u rfl
        · exact (C31_remove_start_code _).2.1 u rfl
    have := ih fun s hs => h s (by simp [hs])
    unfold Stripped at this ⊢
    rw [List.map_cons, List.map_cons, List.map_cons, List.map_cons, hs, this]

theorem setsSize_eq (ss : List ParamSet) : ((ss.map (·.unit)).flatMap unit16).length = setsSize ss := by
  induction ss with
  | nil => rfl
  | cons s ss ih =>
    rw [List.map_cons, flatMap_unit16_cons, List.length_append, List.length_append, ih, beBytes_length]
    simp [setsSize]

theorem unit_le_setsSize {ss : List ParamSet} {s : ParamSet} (h : s ∈ ss) : s.unit.length ≤ setsSize ss := by
  induction ss with
  | nil => simp at h
  | cons t ss ih =>
    simp only [setsSize, List.map_cons, List.sum_cons]
    rcases List.mem_cons.1 h with rfl | h
    · omega
    · have := ih h; simp only [setsSize] at this; omega

/-! ## C41: AVC record round trip -/

/-- C41. `Marshal` of `S` and `P` (with or without start codes) that fit in 1024 bytes is the record with these units;
profile, compatibility and level are bytes 1..3 of the last SPS. -/
theorem C41_marshal (S P : List ParamSet) (hS : S ≠ []) (hP : P ≠ []) (hplain : ∀ s ∈ S ++ P, s.Plain)
    (hfit : 7 + setsSize S + setsSize P ≤ 1024) (l0 p c l : Byte) (rest : Bytes)
    (hlast : (S.getLast hS).unit = l0 :: p :: c :: l :: rest) :
    avcMarshal (S.map (·.bytes)) (P.map (·.bytes)) =
      ok (avcRecord [1, p, c, l, 0xff] (0xE0 ||| BitVec.ofNat 8 S.length) (S.map (·.unit)) (P.map (·.unit))) := by
  have hm := (avcMarshal_run (stripped_sets (ss := S) fun s h => hplain s (by simp [h])) (stripped_sets (ss := P) fun s h => hplain s (by simp [h]))
    (by simpa using hS) (by simpa using hP) (by
      intro u hu
      rcases List.mem_append.1 hu with h | h <;> obtain ⟨s, hs, rfl⟩ := List.mem_map.1 h <;> have := unit_le_setsSize hs <;> omega)).1
    (by rw [setsSize_eq, setsSize_eq]; omega)
  rw [hm]
  have : (S.map (·.unit)).getLast (by simpa using hS) = l0 :: p :: c :: l :: rest := by rw [List.getLast_map, hlast]
  simp [this, idx]

theorem IsAvcRecord.unique {data h1 h2 t1 t2 : Bytes} {c1 c2 : Byte} {s1 s2 p1 p2 : List Bytes}
    (a : IsAvcRecord data h1 c1 s1 p1 t1) (b : IsAvcRecord data h2 c2 s2 p2 t2) :
    h1 = h2 ∧ c1 = c2 ∧ s1 = s2 ∧ p1 = p2 ∧ t1 = t2 := by
  have hd : data = h2 ++ (c2 :: (s2.flatMap unit16 ++ (BitVec.ofNat 8 p2.length :: (p2.flatMap unit16 ++ t2)))) := by
    rw [b.layout]; simp [avcRecord]
  obtain ⟨e1, e2⟩ := a.split hd b.header5
  obtain ⟨e3, e4⟩ := List.cons.inj e2
  obtain ⟨e5, e6⟩ := units16_unique (by rw [← a.spsCount, ← b.spsCount, e3]) (fun u h => b.short u (by simp [h]))
    (fun u h => a.short u (by simp [h])) e4
  obtain ⟨e7, e8⟩ := List.cons.inj e6
  have h7 := congrArg BitVec.toNat e7
  rw [ofNat8_toNat a.pps256, ofNat8_toNat b.pps256] at h7
  obtain ⟨e9, e10⟩ := units16_unique h7 (fun u h => b.short u (by simp [h])) (fun u h => a.short u (by simp [h])) e8
  exact ⟨e1, e3.symm, e5.symm, e9.symm, e10.symm⟩

/-- C41. Reading the marshalled record back gives the same sets in the same order, each with a 4-byte start code. -/
theorem C41_round_trip (S P : List ParamSet) (hS : S ≠ []) (hP : P ≠ []) (hS31 : S.length ≤ 31) (hP255 : P.length ≤ 255)
    (hplain : ∀ s ∈ S ++ P, s.Plain) (hfit : 7 + setsSize S + setsSize P ≤ 1024) (l0 p c l : Byte) (rest : Bytes)
    (hlast : (S.getLast hS).unit = l0 :: p :: c :: l :: rest) :
    ∃ data, avcMarshal (S.map (·.bytes)) (P.map (·.bytes)) = ok data ∧
      avcUnmarshal {} data = ok (.ok (), {
        configurationVersion := 1, avcProfileIndication := p, profileCompatibility := c, avcLevelIndication := l,
        lengthSizeMinusOne := 3
        spsList := S.map fun s => [0, 0, 0, 1] ++ s.unit
        ppsList := P.map fun s => [0, 0, 0, 1] ++ s.unit }) := by
  refine ⟨_, C41_marshal S P hS hP hplain hfit l0 p c l rest hlast, ?_⟩
  have hrec : IsAvcRecord (avcRecord [1, p, c, l, 0xff] (0xE0 ||| BitVec.ofNat 8 S.length) (S.map (·.unit)) (P.map (·.unit)))
      [1, p, c, l, 0xff] (0xE0 ||| BitVec.ofNat 8 S.length) (S.map (·.unit)) (P.map (·.unit)) [] := by
    refine ⟨rfl, ?_, ?_, ?_, ?_, ?_, by simp⟩
    · rw [List.length_map]
      have : ∀ n : Fin 32, ((0xE0 ||| BitVec.ofNat 8 n.val : Byte) &&& 0x1f).toNat = n.val := by decide
      exact this ⟨S.length, by omega⟩
    · rw [List.length_map]; exact List.length_pos_iff.2 hS
    · rw [List.length_map]; exact List.length_pos_iff.2 hP
    · rw [List.length_map]; omega
    · intro u hu
      rcases List.mem_append.1 hu with h | h <;> obtain ⟨s, hs, rfl⟩ := List.mem_map.1 h <;> have := unit_le_setsSize hs <;> omega
  rcases avcUnmarshal_spec {} (avcRecord [1, p, c, l, 0xff] (0xE0 ||| BitVec.ofNat 8 S.length) (S.map (·.unit)) (P.map (·.unit))) (by
      simp only [avcRecord, List.length_append, setsSize_eq, List.length_cons, List.length_nil]; omega) with
    ⟨h', c', s', p', t', hr, he⟩ | ⟨hno, _⟩
  · obtain ⟨rfl, rfl, rfl, rfl, rfl⟩ := hrec.unique hr
    rw [he]
    simp [AVCRecord.filled, startCoded, Function.comp_def]
  · exact absurd hrec (hno _ _ _ _ _)

/-- C41. A record above 1024 bytes is refused. -/
theorem C41_too_big (S P : List ParamSet) (hS : S ≠ []) (hP : P ≠ []) (hplain : ∀ s ∈ S ++ P, s.Plain)
    (hlen : ∀ s ∈ S ++ P, s.unit.length < 2 ^ 62) (hbig : 1024 < 7 + setsSize S + setsSize P) :
    ∃ e, avcMarshal (S.map (·.bytes)) (P.map (·.bytes)) = err e :=
  (avcMarshal_run (stripped_sets (ss := S) fun s h => hplain s (by simp [h])) (stripped_sets (ss := P) fun s h => hplain s (by simp [h]))
    (by simpa using hS) (by simpa using hP) (by
      intro u hu
      rcases List.mem_append.1 hu with h | h <;> obtain ⟨s, hs, rfl⟩ := List.mem_map.1 h <;> exact hlen s (by simp [hs]))).2
    (by rw [setsSize_eq, setsSize_eq]; omega)

/-- C41. Without an SPS or without a PPS there is an error. -/
theorem C41_missing (ss ps : List Bytes) (h : ss = [] ∨ ps = []) : ∃ e, avcMarshal ss ps = err e := by
  unfold avcMarshal
  by_cases hs : ss.length = 0
  · exact ⟨_, if_pos hs⟩
  · rcases h with rfl | rfl
    · simp at hs
    · exact ⟨"pps cannot be null", by rw [if_neg hs, if_pos (by rfl)]⟩

/-- C41, disagreement: the count field has five bits. With 32 SPS the record is written but says it has none. -/
theorem C41_32_sps_violated :
    ∃ data, avcMarshal (List.replicate 32 [0x67, 66, 0, 30]) [[0x68, 1]] = ok data ∧
      ∃ e a, avcUnmarshal {} data = ok (.error e, a) := by
  refine ⟨(avcRecord [1, 66, 0, 30, 0xff] (0xE0 ||| 32) (List.replicate 32 [0x67, 66, 0, 30]) [[0x68, 1]]), by decide +kernel,
    "no sps found", {}, by decide +kernel⟩

example : ∃ data, avcMarshal [[0, 0, 0, 1, 0x67, 66, 0, 30, 9], [0, 0, 1, 0x67, 77, 1, 31]] [[0x68, 1], [0, 0, 1, 0x68]] = ok data ∧
    avcUnmarshal {} data = ok (.ok (), {
      configurationVersion := 1, avcProfileIndication := 77, profileCompatibility := 1, avcLevelIndication := 31, lengthSizeMinusOne := 3
      spsList := [[0, 0, 0, 1, 0x67, 66, 0, 30, 9], [0, 0, 0, 1, 0x67, 77, 1, 31]]
      ppsList := [[0, 0, 0, 1, 0x68, 1], [0, 0, 0, 1, 0x68]] }) :=
  C41_round_trip [⟨some true, [0x67, 66, 0, 30, 9]⟩, ⟨some false, [0x67, 77, 1, 31]⟩] [⟨none, [0x68, 1]⟩, ⟨some false, [0x68]⟩]
    (by decide) (by decide) (by decide) (by decide) (by decide) (by decide) 0x67 77 1 31 [] rfl

/-! ## C42: `Unmarshal` of the AVC record -/

/-- C42. Data that begins with a record is accepted, and exactly its sets are added to the lists. -/
theorem C42_record (a : AVCRecord) (data : Bytes) (hlen : data.length < 2 ^ 62) (v p c l z count : Byte) (sps pps : List Bytes)
    (trailing : Bytes) (h : IsAvcRecord data [v, p, c, l, z] count sps pps trailing) :
    avcUnmarshal a data = ok (.ok (), {
      configurationVersion := v, avcProfileIndication := p, profileCompatibility := c, avcLevelIndication := l,
      lengthSizeMinusOne := z &&& 3
      spsList := a.spsList ++ sps.map ([0, 0, 0, 1] ++ ·)
      ppsList := a.ppsList ++ pps.map ([0, 0, 0, 1] ++ ·) }) := by
  rcases avcUnmarshal_spec a data hlen with ⟨h', c', s', p', t', hr, he⟩ | ⟨hno, _⟩
  · obtain ⟨rfl, rfl, rfl, rfl, rfl⟩ := h.unique hr
    rw [he]
    rfl
  · exact absurd h (hno _ _ _ _ _)

/-- C42. Data that does not begin with a record is refused with an error. -/
theorem C42_not_record (a : AVCRecord) (data : Bytes) (hlen : data.length < 2 ^ 62)
    (h : ∀ header count sps pps trailing, ¬ IsAvcRecord data header count sps pps trailing) :
    ∃ e a', avcUnmarshal a data = ok (.error e, a') := by
  rcases avcUnmarshal_spec a data hlen with ⟨h', c', s', p', t', hr, he⟩ | ⟨_, he⟩
  · exact absurd hr (h _ _ _ _ _)
  · exact he

/-- C42. No input panics. -/
theorem C42_total (a : AVCRecord) (data : Bytes) (hlen : data.length < 2 ^ 62) : ∃ r, avcUnmarshal a data = ok r := by
  rcases avcUnmarshal_spec a data hlen with ⟨_, _, _, _, _, _, he⟩ | ⟨_, _, _, he⟩ <;> exact ⟨_, he⟩

example : IsAvcRecord [1, 66, 0, 30, 0xff, 0xE1, 0, 4, 0x67, 66, 0, 30, 1, 0, 2, 0x68, 1, 99] [1, 66, 0, 30, 0xff] 0xE1
    [[0x67, 66, 0, 30]] [[0x68, 1]] [99] := ⟨rfl, by decide, by decide, by decide, by decide, by decide, by decide⟩

/-! ## C43: `avc.ExtraDataToAnnexB` -/

theorem writeAll3_spec (xs ys zs : List Bytes) (hu : ∀ u ∈ xs ++ ys ++ zs, u.length < 2 ^ 62) :
    (xs.flatten.length + ys.flatten.length + zs.flatten.length ≤ 1024 →
      (do let w ← writeAll (BytesBuf.setData (List.replicate 1024 0)) xs
          let w ← writeAll w ys
          let w ← writeAll w zs
          sliceI w.data 0 w.offset) = ok (xs.flatten ++ ys.flatten ++ zs.flatten)) ∧
    (1024 < xs.flatten.length + ys.flatten.length + zs.flatten.length →
      ∃ e, (do let w ← writeAll (BytesBuf.setData (List.replicate 1024 0)) xs
               let w ← writeAll w ys
               let w ← writeAll w zs
               sliceI w.data 0 w.offset) = err e) := by
  have hfit : ∀ (x : Bytes) n, x.length + n = 1024 → Fits x (List.replicate n (0 : Byte)) := by
    intro x n h; unfold Fits; rw [List.length_replicate]; omega
  rw [setData_eq_cursor]
  have w1 := writeAll_spec xs [] (List.replicate 1024 0) (hfit _ _ (by simp)) (fun u h => hu u (by simp [h]))
  rw [List.length_replicate, List.drop_replicate, List.nil_append] at w1
  by_cases h1 : xs.flatten.length ≤ 1024
  case neg =>
    obtain ⟨e, he⟩ := w1.2 (by omega)
    exact ⟨fun h => by omega, fun _ => ⟨e, by rw [he]; rfl⟩⟩
  have w2 := writeAll_spec ys xs.flatten (List.replicate (1024 - xs.flatten.length) 0) (hfit _ _ (by omega)) (fun u h => hu u (by simp [h]))
  rw [List.length_replicate, List.drop_replicate] at w2
  by_cases h2 : ys.flatten.length ≤ 1024 - xs.flatten.length
  case neg =>
    obtain ⟨e, he⟩ := w2.2 (by omega)
    exact ⟨fun h => by omega, fun _ => ⟨e, by rw [w1.1 h1, ok_bind, he]; rfl⟩⟩
  have w3 := writeAll_spec zs (xs.flatten ++ ys.flatten) (List.replicate (1024 - xs.flatten.length - ys.flatten.length) 0)
    (hfit _ _ (by rw [List.length_append]; omega)) (fun u h => hu u (by simp [h]))
  rw [List.length_replicate, List.drop_replicate] at w3
  refine ⟨fun h => ?_, fun h => ?_⟩
  · rw [w1.1 h1, ok_bind, w2.1 h2, ok_bind, w3.1 (by omega), ok_bind]
    simp only [cursor]
    unfold sliceI
    rw [if_pos (by simp; omega), Int.toNat_natCast, List.take_left, Int.toNat_zero, List.drop_zero]
  · obtain ⟨e, he⟩ := w3.2 (by omega)
    exact ⟨e, by rw [w1.1 h1, ok_bind, w2.1 h2, ok_bind, he]; rfl⟩

/-- C43. A record becomes the SPS followed by the PPS, each with a 4-byte start code; above 1024 bytes there is an error. -/
theorem C43_record (data header : Bytes) (hlen : data.length < 2 ^ 61) (count : Byte) (sps pps : List Bytes) (trailing : Bytes)
    (h : IsAvcRecord data header count sps pps trailing) :
    let out := (sps ++ pps).flatMap ([0, 0, 0, 1] ++ ·)
    (out.length ≤ 1024 → avcExtraDataToAnnexB data = ok out) ∧ (1024 < out.length → ∃ e, avcExtraDataToAnnexB data = err e) := by
  obtain ⟨v, p, c, l, z, rfl⟩ : ∃ v p c l z, header = [v, p, c, l, z] := by
    have := h.header5
    match header, this with
    | [v, p, c, l, z], _ => exact ⟨v, p, c, l, z, rfl⟩
  have hu := C42_record {} data (by omega) v p c l z count sps pps trailing h
  have hshort : ∀ u ∈ ([] : List Bytes) ++ (sps.map (([0, 0, 0, 1] : Bytes) ++ ·)) ++ pps.map (([0, 0, 0, 1] : Bytes) ++ ·), u.length < 2 ^ 62 := by
    intro u hu
    simp only [List.nil_append, List.mem_append, List.mem_map] at hu
    rcases hu with ⟨w, hw, rfl⟩ | ⟨w, hw, rfl⟩
    · have := h.short w (by simp [hw]); simp; omega
    · have := h.short w (by simp [hw]); simp; omega
  have hw := writeAll3_spec [] (sps.map (([0, 0, 0, 1] : Bytes) ++ ·)) (pps.map (([0, 0, 0, 1] : Bytes) ++ ·)) hshort
  have hrun : avcExtraDataToAnnexB data = (do
      let w ← writeAll (BytesBuf.setData (List.replicate 1024 0)) []
      let w ← writeAll w (sps.map (([0, 0, 0, 1] : Bytes) ++ ·))
      let w ← writeAll w (pps.map (([0, 0, 0, 1] : Bytes) ++ ·))
      sliceI w.data 0 w.offset) := by
    unfold avcExtraDataToAnnexB
    rw [hu]
    simp only [ok_bind, List.nil_append, writeAll]
  rw [← hrun] at hw
  intro out
  have hout : out = ([] : List Bytes).flatten ++ (sps.map (([0, 0, 0, 1] : Bytes) ++ ·)).flatten ++ (pps.map (([0, 0, 0, 1] : Bytes) ++ ·)).flatten := by
    simp only [out, List.flatten_nil, List.nil_append, List.flatMap_def, List.map_append, List.flatten_append]
  rw [hout, List.length_append, List.length_append]
  exact hw

/-- C43. Anything else is an error. -/
theorem C43_not_record (data : Bytes) (hlen : data.length < 2 ^ 61)
    (h : ∀ header count sps pps trailing, ¬ IsAvcRecord data header count sps pps trailing) : ∃ e, avcExtraDataToAnnexB data = err e := by
  obtain ⟨e, a, he⟩ := C42_not_record {} data (by omega) h
  refine ⟨e, ?_⟩
  unfold avcExtraDataToAnnexB
  rw [he]
  rfl

/-- C43. No input panics. -/
theorem C43_total (data : Bytes) (hlen : data.length < 2 ^ 61) : avcExtraDataToAnnexB data ≠ panic := by
  by_cases h : ∃ header count sps pps trailing, IsAvcRecord data header count sps pps trailing
  · obtain ⟨header, count, sps, pps, trailing, h⟩ := h
    have := C43_record data header hlen count sps pps trailing h
    by_cases hl : ((sps ++ pps).flatMap ([0, 0, 0, 1] ++ ·)).length ≤ 1024
    · rw [this.1 hl]; simp
    · obtain ⟨e, he⟩ := this.2 (by omega)
      rw [he]; simp
  · obtain ⟨e, he⟩ := C43_not_record data hlen (by
      intro a b c d e hh; exact h ⟨a, b, c, d, e, hh⟩)
    rw [he]; simp

example : avcExtraDataToAnnexB [1, 66, 0, 30, 0xff, 0xE1, 0, 4, 0x67, 66, 0, 30, 1, 0, 2, 0x68, 1, 99] =
    ok [0, 0, 0, 1, 0x67, 66, 0, 30, 0, 0, 0, 1, 0x68, 1] := by decide +kernel

/-! ## C45: `Unmarshal` of the HEVC record -/

theorem IsHevcRecord.arrays {data : Bytes} (h23 : 23 ≤ data.length) {xs : List (Byte × List Bytes)} {trailing : Bytes}
    (hl : xs.length = data[22].toNat) (hx : ArraysOk xs) (hd : data = data.take 23 ++ (hevcArrays xs ++ trailing)) :
    IsHevcRecord data (data.take 22) xs trailing := by
  refine ⟨by rw [List.length_take]; omega, by have := data[22].isLt; omega, hx, ?_⟩
  have h22 : data.take 23 = data.take 22 ++ [BitVec.ofNat 8 xs.length] := by
    rw [hl, BitVec.ofNat_toNat, BitVec.setWidth_eq, List.take_add_one, List.getElem?_eq_getElem (by omega)]
    rfl
  rw [← h22]
  conv => lhs; rw [hd]
  simp [hevcArrays]

theorem IsHevcRecord.back {data header : Bytes} {xs : List (Byte × List Bytes)} {trailing : Bytes} (h : IsHevcRecord data header xs trailing) :
    ∃ h23 : 23 ≤ data.length, header = data.take 22 ∧ xs.length = data[22].toNat ∧ ArraysOk xs ∧ data = data.take 23 ++ (hevcArrays xs ++ trailing) := by
  have hl := h.layout
  have h22 := h.header22
  have hlen := congrArg List.length hl
  simp only [List.length_append, List.length_cons, List.length_nil, h22] at hlen
  have ht : data.take 23 = header ++ [BitVec.ofNat 8 xs.length] := by
    rw [hl, List.append_assoc, List.take_append_of_le_length (by simp [h22]), List.take_of_length_le (by simp [h22])]
  refine ⟨by omega, ?_, ?_, h.short, ?_⟩
  · have := congrArg (List.take 22) ht
    rw [List.take_take, List.take_append_of_le_length (by omega), List.take_of_length_le (by omega : header.length ≤ 22)] at this
    exact this.symm
  · have : data[22]? = some (BitVec.ofNat 8 xs.length) := by
      rw [hl, List.append_assoc, List.append_assoc, List.getElem?_append_right (by omega), h22]; rfl
    rw [List.getElem?_eq_getElem (by omega)] at this
    rw [Option.some.inj this, ofNat8_toNat h.arrays256]
  · rw [ht]
    conv => lhs; rw [hl]
    simp [hevcArrays]

theorem IsHevcRecord.unique {data h1 h2 t1 t2 : Bytes} {xs ys : List (Byte × List Bytes)}
    (a : IsHevcRecord data h1 xs t1) (b : IsHevcRecord data h2 ys t2) : h1 = h2 ∧ xs = ys ∧ t1 = t2 := by
  obtain ⟨_, a1, a2, a3, a4⟩ := a.back
  obtain ⟨_, b1, b2, b3, b4⟩ := b.back
  have := List.append_cancel_left (a4.symm.trans b4)
  obtain ⟨e1, e2⟩ := hevcArrays_unique (by rw [a2, b2]) a3 b3 this
  exact ⟨a1.trans b1.symm, e1, e2⟩

/-- C45. Whatever the capacity policy `grow` of `append`, no input panics. -/
theorem C45_total (grow : Nat → Nat) (rec : HEVCRecord) (data : Bytes) (hlen : data.length < 2 ^ 62) :
    ∃ r, hevcUnmarshal grow rec data = ok r := by
  have hc : ∀ x, ∃ r, hevcCheck x = ok r := by
    rintro ⟨r, rec⟩
    cases r <;> simp only [hevcCheck]
    · exact ⟨_, rfl⟩
    · split
      · exact ⟨_, rfl⟩
      · split
        · exact ⟨_, rfl⟩
        · split <;> exact ⟨_, rfl⟩
  rcases hevcUnmarshal_spec grow rec data hlen with ⟨_, e, he⟩ | ⟨_, r, _, ⟨xs, t, _, _, _, he⟩ | ⟨_, e, s', he⟩⟩
  · exact ⟨_, he⟩
  · rw [he]; exact hc _
  · exact ⟨_, he⟩

/-- C45. On a fresh record `Unmarshal` succeeds on every HEVC record with at least one VPS, SPS and PPS. The VPS and PPS
lists are then exactly the units of those types, with start codes; every entry of the SPS list is an SPS or a PPS of the
record with a start code, and the list is not empty. -/
theorem C45_record (grow : Nat → Nat) (data header : Bytes) (hlen : data.length < 2 ^ 62) (xs : List (Byte × List Bytes))
    (trailing : Bytes) (h : IsHevcRecord data header xs trailing) (hv : unitsOfType 32 xs ≠ []) (hs : unitsOfType 33 xs ≠ [])
    (hp : unitsOfType 34 xs ≠ []) :
    ∃ r, hevcUnmarshal grow {} data = ok (.ok (), r) ∧ r.vpsList = (unitsOfType 32 xs).map ([0, 0, 0, 1] ++ ·) ∧
      r.ppsList = (unitsOfType 34 xs).map ([0, 0, 0, 1] ++ ·) ∧ r.spsList ≠ [] ∧
      ∀ s ∈ r.spsList, ∃ u, s = [0, 0, 0, 1] ++ u ∧ (u ∈ unitsOfType 33 xs ∨ u ∈ unitsOfType 34 xs) := by
  obtain ⟨h23, _, h2, h3, h4⟩ := h.back
  rcases hevcUnmarshal_spec grow {} data hlen with ⟨hl, _⟩ | ⟨_, r, hr, ⟨ys, t, y1, y2, y3, he⟩ | ⟨hno, _⟩⟩
  · omega
  · obtain ⟨_, rfl, rfl⟩ := h.unique (IsHevcRecord.arrays h23 y1 y2 y3)
    obtain ⟨r', hr', _, f1, f2, f3, _⟩ := hevcHeader_ok {} data h23
    rw [hr] at hr'
    obtain rfl : r = r' := by simpa using hr'
    have g1 : r.vpsList = [] := f1
    have g2 : r.spsList = [] := f2
    have g3 : r.ppsList = [] := f3
    have e1 := hevcFold_vps grow xs r
    have e2 := hevcFold_pps grow xs r
    have e3 := hevcFold_sps grow xs r
    rw [g1, List.nil_append] at e1
    rw [g3, List.nil_append] at e2
    have e4 : (xs.foldl (hevcArrayAdd grow) r).spsList ≠ [] := fun hh => hs (e3.1 hh).2
    refine ⟨xs.foldl (hevcArrayAdd grow) r, ?_, e1, e2, e4, ?_⟩
    · rw [he, hevcCheck, if_neg (by simpa using e4), if_neg (by rw [e2]; simpa using hp), if_neg (by rw [e1]; simpa using hv)]
    · intro s hs'
      rcases hevcFold_sps_mem hs' with h' | h' | h'
      · exact h'
      · rw [g2] at h'; simp at h'
      · rw [g3] at h'; simp at h'
  · exact absurd h4 (hno xs trailing h2 h3)

/-- C45. `Unmarshal` on a fresh record refuses everything else with an error. -/
theorem C45_not_record (grow : Nat → Nat) (data : Bytes) (hlen : data.length < 2 ^ 62)
    (h : ∀ header xs trailing, IsHevcRecord data header xs trailing →
      unitsOfType 32 xs = [] ∨ unitsOfType 33 xs = [] ∨ unitsOfType 34 xs = []) :
    ∃ e r, hevcUnmarshal grow {} data = ok (.error e, r) := by
  rcases hevcUnmarshal_spec grow {} data hlen with ⟨_, e, he⟩ | ⟨h23, r, hr, ⟨ys, t, y1, y2, y3, he⟩ | ⟨_, e, s', he⟩⟩
  · exact ⟨e, _, he⟩
  · obtain ⟨r', hr', _, f1, f2, f3, _⟩ := hevcHeader_ok {} data h23
    rw [hr] at hr'
    obtain rfl : r = r' := by simpa using hr'
    have g1 : r.vpsList = [] := f1
    have g2 : r.spsList = [] := f2
    have g3 : r.ppsList = [] := f3
    have e1 := hevcFold_vps grow ys r
    have e2 := hevcFold_pps grow ys r
    have e3 := hevcFold_sps grow ys r
    rw [g1, List.nil_append] at e1
    rw [g3, List.nil_append] at e2
    rw [he, hevcCheck]
    split
    · exact ⟨_, _, rfl⟩
    · rename_i n1
      split
      · exact ⟨_, _, rfl⟩
      · rename_i n2
        split
        · exact ⟨_, _, rfl⟩
        · rename_i n3
          exfalso
          rw [e1] at n3
          rw [e2] at n2
          rcases h _ _ _ (IsHevcRecord.arrays h23 y1 y2 y3) with h' | h' | h'
          · simp [h'] at n3
          · exact n1 (List.length_eq_zero_iff.2 (e3.2 ⟨g2, h'⟩))
          · simp [h'] at n2
  · exact ⟨e, _, he⟩

/-! ## C44: HEVC record round trip -/

theorem hevcHead_type (u : Bytes) (h : u ≠ []) : (u.head h >>> 1 &&& 0x3F).toNat = hevcUnitType u := by
  cases u with
  | nil => exact absurd rfl h
  | cons b u =>
    simp only [List.head_cons, hevcUnitType, hevcType]
    rw [and3F, BitVec.toNat_ushiftRight, Nat.shiftRight_eq_div_pow, Nat.pow_one]

/-- C44. `Marshal` of three lists that fit in 1024 bytes: a header that is zero but for its version, length size and
array count, and three arrays whose types are those of the first units. -/
theorem C44_marshal (V S P : List ParamSet) (hV : V ≠ []) (hS : S ≠ []) (hP : P ≠ []) (hplain : ∀ s ∈ V ++ S ++ P, s.Plain)
    (hv0 : (V.head hV).unit ≠ []) (hs0 : (S.head hS).unit ≠ []) (hp0 : (P.head hP).unit ≠ [])
    (hfit : 32 + setsSize V + setsSize S + setsSize P ≤ 1024) :
    hevcMarshal (V.map (·.bytes)) (S.map (·.bytes)) (P.map (·.bytes)) = ok (([1] ++ List.replicate 20 0 ++ [3, 3] : Bytes) ++
      hevcArray (BitVec.ofNat 8 (hevcUnitType (V.head hV).unit)) (V.map (·.unit)) ++
      hevcArray (BitVec.ofNat 8 (hevcUnitType (S.head hS).unit)) (S.map (·.unit)) ++
      hevcArray (BitVec.ofNat 8 (hevcUnitType (P.head hP).unit)) (P.map (·.unit))) := by
  have hrun := (hevcMarshal_run (stripped_sets (ss := V) fun s h => hplain s (by simp [h]))
    (stripped_sets (ss := S) fun s h => hplain s (by simp [h])) (stripped_sets (ss := P) fun s h => hplain s (by simp [h]))
    (by simpa using hV) (by simpa using hS) (by simpa using hP) (by rw [List.head_map]; exact hv0)
    (by rw [List.head_map]; exact hs0) (by rw [List.head_map]; exact hp0) (by
      intro u hu
      simp only [List.mem_append, List.mem_map] at hu
      rcases hu with (⟨s, hs, rfl⟩ | ⟨s, hs, rfl⟩) | ⟨s, hs, rfl⟩ <;> have := unit_le_setsSize hs <;> omega)).1
    (by simp only [arraySize, setsSize_eq]; omega)
  rw [hrun]
  have hb : ∀ (u : Bytes) (h : u ≠ []), u.head h >>> 1 &&& 0x3F = BitVec.ofNat 8 (hevcUnitType u) := by
    intro u h
    apply BitVec.eq_of_toNat_eq
    have := (u.head h >>> 1 &&& 0x3F).isLt
    rw [hevcHead_type, BitVec.toNat_ofNat]
    rw [hevcHead_type] at this
    omega
  simp only [hb, List.head_map]

/-- C44. The lists above 1024 bytes are refused. -/
theorem C44_too_big (V S P : List ParamSet) (hV : V ≠ []) (hS : S ≠ []) (hP : P ≠ []) (hplain : ∀ s ∈ V ++ S ++ P, s.Plain)
    (hv0 : (V.head hV).unit ≠ []) (hs0 : (S.head hS).unit ≠ []) (hp0 : (P.head hP).unit ≠ [])
    (hlen : ∀ s ∈ V ++ S ++ P, s.unit.length < 2 ^ 62)
    (hbig : 1024 < 32 + setsSize V + setsSize S + setsSize P) :
    ∃ e, hevcMarshal (V.map (·.bytes)) (S.map (·.bytes)) (P.map (·.bytes)) = err e :=
  (hevcMarshal_run (stripped_sets (ss := V) fun s h => hplain s (by simp [h]))
    (stripped_sets (ss := S) fun s h => hplain s (by simp [h])) (stripped_sets (ss := P) fun s h => hplain s (by simp [h]))
    (by simpa using hV) (by simpa using hS) (by simpa using hP) (by rw [List.head_map]; exact hv0)
    (by rw [List.head_map]; exact hs0) (by rw [List.head_map]; exact hp0) (by
      intro u hu
      simp only [List.mem_append, List.mem_map] at hu
      rcases hu with (⟨s, hs, rfl⟩ | ⟨s, hs, rfl⟩) | ⟨s, hs, rfl⟩ <;> exact hlen s (by simp [hs]))).2
    (by simp only [arraySize, setsSize_eq]; omega)

/-- The claim C44 as one would read it. -/
def C44_claim : Prop :=
  ∀ (grow : Nat → Nat) (V S P : List ParamSet) (hV : V ≠ []) (hS : S ≠ []) (hP : P ≠ []), (∀ s ∈ V ++ S ++ P, s.Plain) →
    hevcUnitType (V.head hV).unit = 32 → hevcUnitType (S.head hS).unit = 33 → hevcUnitType (P.head hP).unit = 34 →
    32 + setsSize V + setsSize S + setsSize P ≤ 1024 →
    ∃ data r, hevcMarshal (V.map (·.bytes)) (S.map (·.bytes)) (P.map (·.bytes)) = ok data ∧
      hevcUnmarshal grow {} data = ok (.ok (), r) ∧ r.vpsList = V.map (fun s => [0, 0, 0, 1] ++ s.unit) ∧
      r.spsList = S.map (fun s => [0, 0, 0, 1] ++ s.unit) ∧ r.ppsList = P.map (fun s => [0, 0, 0, 1] ++ s.unit)

/-- The SPS array before any PPS: only the last SPS stays. -/
theorem hevcArrayAdd_sps_first (grow : Nat → Nat) (r : HEVCRecord) (us : List Bytes) (hne : us ≠ []) (hp : r.ppsList = []) (hc : r.ppsCap = 0) :
    hevcArrayAdd grow r (33, us) = { r with spsList := [startCoded (us.getLast hne)], shared := false } := by
  have hstep : ∀ (r : HEVCRecord) u, r.ppsList = [] → r.ppsCap = 0 →
      hevcAdd grow ((33 : Byte) &&& 0x3F) r (startCoded u) = { r with spsList := [startCoded u], shared := false } := by
    intro r u hp hc
    unfold hevcAdd
    rw [if_neg (by decide), if_pos (by decide), hp, hc]
    simp
  unfold hevcArrayAdd
  simp only
  induction us generalizing r with
  | nil => exact absurd rfl hne
  | cons u us ih =>
    rw [List.foldl_cons, hstep r u hp hc]
    cases us with
    | nil => rfl
    | cons v us =>
      exact ih { r with spsList := [startCoded u], shared := false } (by simp) hp hc

theorem hevcArrayAdd_pps_sps (grow : Nat → Nat) (r : HEVCRecord) (us : List Bytes) (hs : r.shared = false) :
    (hevcArrayAdd grow r (34, us)).spsList = r.spsList := by
  unfold hevcArrayAdd
  simp only
  induction us generalizing r with
  | nil => rfl
  | cons u us ih =>
    have hstep : (hevcAdd grow ((34 : Byte) &&& 0x3F) r (startCoded u)).spsList = r.spsList ∧
        (hevcAdd grow ((34 : Byte) &&& 0x3F) r (startCoded u)).shared = false := by
      unfold hevcAdd
      rw [if_neg (by decide), if_neg (by decide), if_pos (by decide)]
      split <;> simp [hs]
    rw [List.foldl_cons, ih _ hstep.2, hstep.1]

theorem hevcArrayAdd_vps_keep (grow : Nat → Nat) (r : HEVCRecord) (us : List Bytes) :
    hevcArrayAdd grow r (32, us) = { r with vpsList := r.vpsList ++ us.map startCoded } := by
  unfold hevcArrayAdd
  simp only
  induction us generalizing r with
  | nil => simp
  | cons u us ih =>
    rw [List.foldl_cons, ih]
    unfold hevcAdd
    rw [if_pos (by decide)]
    simp

/-- C44, what holds for all lists: VPS and PPS come back, of the SPS only the last one. -/
theorem C44_last_sps_partial (grow : Nat → Nat) (V S P : List ParamSet) (hV : V ≠ []) (hS : S ≠ []) (hP : P ≠ [])
    (hplain : ∀ s ∈ V ++ S ++ P, s.Plain) (hv : hevcUnitType (V.head hV).unit = 32) (hs : hevcUnitType (S.head hS).unit = 33)
    (hp : hevcUnitType (P.head hP).unit = 34) (hfit : 32 + setsSize V + setsSize S + setsSize P ≤ 1024) :
    ∃ data r, hevcMarshal (V.map (·.bytes)) (S.map (·.bytes)) (P.map (·.bytes)) = ok data ∧
      hevcUnmarshal grow {} data = ok (.ok (), r) ∧ r.vpsList = V.map (fun s => [0, 0, 0, 1] ++ s.unit) ∧
      r.spsList = [[0, 0, 0, 1] ++ (S.getLast hS).unit] ∧ r.ppsList = P.map (fun s => [0, 0, 0, 1] ++ s.unit) := by
  have hne : ∀ u n, hevcUnitType u = n → n ≠ 0 → u ≠ [] := by rintro u n h hn rfl; exact hn h.symm
  have hm := C44_marshal V S P hV hS hP hplain (hne _ _ hv (by decide)) (hne _ _ hs (by decide)) (hne _ _ hp (by decide)) hfit
  rw [hv, hs, hp] at hm
  obtain ⟨data, hdata⟩ : ∃ data : Bytes, data = ([1] ++ List.replicate 20 0 ++ [3, 3] : Bytes) ++
      hevcArray 32#8 (V.map (·.unit)) ++ hevcArray 33#8 (S.map (·.unit)) ++ hevcArray 34#8 (P.map (·.unit)) := ⟨_, rfl⟩
  rw [← hdata] at hm
  have hshort : ∀ Q : List ParamSet, setsSize Q ≤ 1024 → (Q.map (·.unit)).length < 2 ^ 16 ∧ ∀ u ∈ Q.map (·.unit), u.length < 2 ^ 16 := by
    intro Q hQ
    constructor
    · have : ∀ Q : List ParamSet, Q.length ≤ setsSize Q := by
        intro Q
        induction Q with
        | nil => simp
        | cons q Q ih => simp only [setsSize, List.map_cons, List.sum_cons, List.length_cons] at ih ⊢; omega
      have := this Q
      rw [List.length_map]; omega
    · intro u hu
      obtain ⟨s, hs, rfl⟩ := List.mem_map.1 hu
      have := unit_le_setsSize hs
      omega
  have hrec : IsHevcRecord data ([1] ++ List.replicate 20 0 ++ [3] : Bytes)
      [(32, V.map (·.unit)), (33, S.map (·.unit)), (34, P.map (·.unit))] [] := by
    refine ⟨rfl, by simp, ?_, ?_⟩
    · intro x hx
      simp only [List.mem_cons, List.not_mem_nil, or_false] at hx
      rcases hx with rfl | rfl | rfl <;> exact hshort _ (by omega)
    · rw [hdata]; simp
  obtain ⟨h23, _, x2, x3, x4⟩ := hrec.back
  have hlen : data.length < 2 ^ 62 := by
    rw [hdata]
    simp only [hevcArray, List.length_append, setsSize_eq, List.length_cons, List.length_nil, beBytes_length, List.length_replicate]
    omega
  rcases hevcUnmarshal_spec grow {} data hlen with ⟨hl, _⟩ | ⟨_, r, hr, ⟨ys, t, y1, y2, y3, he⟩ | ⟨hno, _⟩⟩
  · omega
  · obtain ⟨_, rfl, rfl⟩ := hrec.unique (IsHevcRecord.arrays h23 y1 y2 y3)
    obtain ⟨r', hr', _, f1, f2, f3, f4, f5⟩ := hevcHeader_ok {} data h23
    rw [hr] at hr'
    obtain rfl : r = r' := by simpa using hr'
    have g1 : r.vpsList = [] := f1
    have g3 : r.ppsList = [] := f3
    have g4 : r.ppsCap = 0 := f4
    have hSu : S.map (·.unit) ≠ [] := by simpa using hS
    simp only [List.foldl_cons, List.foldl_nil] at he
    have k1 := hevcArrayAdd_vps_keep grow r (V.map (·.unit))
    obtain ⟨q1, hq1⟩ : ∃ q1, q1 = hevcArrayAdd grow r (32, V.map (·.unit)) := ⟨_, rfl⟩
    rw [← hq1] at he k1
    have k2 := hevcArrayAdd_sps_first grow q1 (S.map (·.unit)) hSu (by rw [k1]; exact g3) (by rw [k1]; exact g4)
    obtain ⟨q2, hq2⟩ : ∃ q2, q2 = hevcArrayAdd grow q1 (33, S.map (·.unit)) := ⟨_, rfl⟩
    rw [← hq2] at he k2
    have v2 : q2.vpsList = (V.map (·.unit)).map startCoded := by rw [k2, k1]; simp [g1]
    have p2 : q2.ppsList = [] := by rw [k2, k1]; exact g3
    have s2 : q2.spsList = [startCoded (S.getLast hS).unit] := by rw [k2]; simp
    have e1 : (hevcArrayAdd grow q2 (34, P.map (·.unit))).vpsList = V.map (fun s => [0, 0, 0, 1] ++ s.unit) := by
      rw [hevcArrayAdd_vps, v2, if_neg (by simp), List.map_map]; simp [startCoded, Function.comp_def]
    have e2 : (hevcArrayAdd grow q2 (34, P.map (·.unit))).ppsList = P.map (fun s => [0, 0, 0, 1] ++ s.unit) := by
      rw [hevcArrayAdd_pps, p2, if_pos (by simp), List.map_map]; simp [startCoded, Function.comp_def]
    have e3 : (hevcArrayAdd grow q2 (34, P.map (·.unit))).spsList = [[0, 0, 0, 1] ++ (S.getLast hS).unit] := by
      rw [hevcArrayAdd_pps_sps grow q2 _ (by rw [k2]), s2]; rfl
    refine ⟨data, _, hm, ?_, e1, e3, e2⟩
    rw [he, hevcCheck, if_neg (by rw [e3]; simp), if_neg (by rw [e2]; simpa using hP), if_neg (by rw [e1]; simpa using hV)]
  · exact absurd x4 (hno _ _ x2 x3)

/-- C44 for one SPS. Missing for the full claim: two or more SPS, where it is false. -/
theorem C44_one_sps_partial (grow : Nat → Nat) (V P : List ParamSet) (S : ParamSet) (hV : V ≠ []) (hP : P ≠ [])
    (hplain : ∀ s ∈ V ++ [S] ++ P, s.Plain) (hv : hevcUnitType (V.head hV).unit = 32) (hs : hevcUnitType S.unit = 33)
    (hp : hevcUnitType (P.head hP).unit = 34) (hfit : 32 + setsSize V + setsSize [S] + setsSize P ≤ 1024) :
    ∃ data r, hevcMarshal (V.map (·.bytes)) [S.bytes] (P.map (·.bytes)) = ok data ∧
      hevcUnmarshal grow {} data = ok (.ok (), r) ∧ r.vpsList = V.map (fun s => [0, 0, 0, 1] ++ s.unit) ∧
      r.spsList = [[0, 0, 0, 1] ++ S.unit] ∧ r.ppsList = P.map (fun s => [0, 0, 0, 1] ++ s.unit) :=
  C44_last_sps_partial grow V [S] P hV (by simp) hP hplain hv hs hp hfit

/-- C44 is false for two SPS: the first is lost (/repo/hevc/mp4.go:192 appends to `PPSList`). -/
theorem C44_two_sps_violated : ¬ C44_claim := by
  intro h
  obtain ⟨data, r, h1, h2, _, h4, _⟩ := h id [⟨none, [64, 1]⟩] [⟨none, [66, 1]⟩, ⟨none, [66, 2]⟩] [⟨none, [68, 1]⟩]
    (by simp) (by simp) (by simp) (by decide) (by decide) (by decide) (by decide) (by decide)
  obtain ⟨data', r', h1', h2', _, h4', _⟩ := C44_last_sps_partial id [⟨none, [64, 1]⟩] [⟨none, [66, 1]⟩, ⟨none, [66, 2]⟩] [⟨none, [68, 1]⟩]
    (by simp) (by simp) (by simp) (by decide) (by decide) (by decide) (by decide) (by decide)
  rw [h1] at h1'
  obtain rfl : data = data' := by simpa using h1'
  rw [h2] at h2'
  obtain rfl : r = r' := by simpa using h2'
  rw [h4] at h4'
  simp at h4'

/-- C45, disagreement: a record whose PPS array comes before its SPS array comes back with a PPS among the SPS. -/
theorem C45_pps_among_sps_violated : ∃ data r, IsHevcRecord data (List.replicate 22 0) [(32, [[64, 1]]), (34, [[68, 1]]), (33, [[66, 1]])] [] ∧
    hevcUnmarshal id {} data = ok (.ok (), r) ∧ [0, 0, 0, 1, 68, 1] ∈ r.spsList := by
  let data : Bytes := List.replicate 22 0 ++ [3] ++ hevcArray 32 [[64, 1]] ++ hevcArray 34 [[68, 1]] ++ hevcArray 33 [[66, 1]]
  have h : (match hevcUnmarshal id {} data with | .ok (.ok (), r) => decide ([0, 0, 0, 1, 68, 1] ∈ r.spsList) | _ => false) = true := by
    decide +kernel
  refine ⟨data, ?_⟩
  cases hu : hevcUnmarshal id {} data with
  | ok x =>
    obtain ⟨e, r⟩ := x
    rw [hu] at h
    cases e with
    | ok _ => exact ⟨r, ⟨rfl, by decide, by decide, by decide⟩, rfl, by simpa using h⟩
    | error _ => simp at h
  | err _ => rw [hu] at h; simp at h
  | panic => rw [hu] at h; simp at h

example : IsHevcRecord (List.replicate 22 0 ++ [1, 0xA1, 0, 1, 0, 2, 66, 1, 7]) (List.replicate 22 0) [(0xA1, [[66, 1]])] [7] :=
  ⟨rfl, by decide, by decide, by decide⟩

/-! ## C70: the header of the HEVC record -/

/-- C70. After a successful `Unmarshal` the header fields are the bit fields of the standard, except for
`LengthSizeMinusOne`, which holds the length size itself. -/
theorem C70_header_fields (grow : Nat → Nat) (rec r : HEVCRecord) (data : Bytes) (hlen : data.length < 2 ^ 62)
    (h : hevcUnmarshal grow rec data = ok (.ok (), r)) :
      r.configurationVersion.toNat = bitField data 0 8 ∧ r.generalProfileSpace.toNat = bitField data 8 2 ∧
      r.generalTierFlag.toNat = bitField data 10 1 ∧ r.generalProfileIdc.toNat = bitField data 11 5 ∧
      r.generalProfileCompatibilityFlags.toNat = bitField data 16 32 ∧ r.generalConstraintIndicatorFlags.toNat = bitField data 48 48 ∧
      r.generalLevelIdc.toNat = bitField data 96 8 ∧ r.minSpatialSegmentationIdc.toNat = bitField data 108 12 ∧
      r.parallelismType.toNat = bitField data 126 2 ∧ r.chromaFormat.toNat = bitField data 134 2 ∧
      r.bitDepthLumaMinus8.toNat = bitField data 141 3 ∧ r.bitDepthChromaMinus8.toNat = bitField data 149 3 ∧
      r.avgFrameRate.toNat = bitField data 152 16 ∧ r.constantFrameRate.toNat = bitField data 168 2 ∧
      r.numTemporalLayers.toNat = bitField data 170 3 ∧ r.temporalIdNested.toNat = bitField data 173 1 ∧
      r.lengthSizeMinusOne.toNat = bitField data 174 2 + 1 ∧ r.numOfArrays.toNat = bitField data 176 8 := by
  rcases hevcUnmarshal_spec grow rec data hlen with ⟨_, e, he⟩ | ⟨h23, r0, hr, ⟨ys, t, y1, y2, y3, he⟩ | ⟨_, e, s', he⟩⟩
  · rw [he] at h; simp at h
  · have hc : ∀ x : HEVCRecord, hevcCheck (.ok (), x) = ok (.ok (), r) → x = r := by
      intro x hx
      rw [hevcCheck] at hx
      split at hx
      · simp at hx
      · split at hx
        · simp at hx
        · split at hx
          · simp at hx
          · simpa using hx
    have hx := hc _ (he.symm.trans h)
    have hh := hevcFold_hdr grow ys r0
    rw [hx] at hh
    obtain ⟨r1, hr1, hf⟩ := hevcHeader_fields rec data h23
    rw [hr] at hr1
    obtain rfl : r0 = r1 := by simpa using hr1
    have h0 : ∀ q : HEVCRecord, HeaderOf q data ↔ HeaderOf q.hdr data := fun _ => Iff.rfl
    have h1 := (h0 r0).1 hf
    rw [← hh] at h1
    exact (h0 r).2 h1
  · rw [he] at h; simp at h

/-! ## C71: `hevc.ExtraDataToAnnexB` -/

/-- C71. If `Unmarshal` succeeds, the result is the concatenation of the VPS, SPS and PPS lists, or an error if that is
longer than 1024 bytes. -/
theorem C71_record (grow : Nat → Nat) (data : Bytes) (hlen : data.length < 2 ^ 61) (r : HEVCRecord)
    (h : hevcUnmarshal grow {} data = ok (.ok (), r)) :
    let out := (r.vpsList ++ r.spsList ++ r.ppsList).flatten
    (out.length ≤ 1024 → hevcExtraDataToAnnexB grow data = ok out) ∧
    (1024 < out.length → ∃ e, hevcExtraDataToAnnexB grow data = err e) := by
  have hshort : ∀ u ∈ r.vpsList ++ r.spsList ++ r.ppsList, u.length < 2 ^ 62 := by
    by_cases hrec : ∃ header xs trailing, IsHevcRecord data header xs trailing ∧ ¬ (unitsOfType 32 xs = [] ∨ unitsOfType 33 xs = [] ∨ unitsOfType 34 xs = [])
    · obtain ⟨header, xs, trailing, h1, h2⟩ := hrec
      obtain ⟨r', hr', f1, f2, _, f3⟩ := C45_record grow data header (by omega) xs trailing h1 (by grind) (by grind) (by grind)
      rw [h] at hr'
      obtain rfl : r = r' := by simpa using hr'
      have hun : ∀ n u, u ∈ unitsOfType n xs → u.length < 2 ^ 16 := by
        intro n u hu
        obtain ⟨x, hx, hu⟩ := List.mem_flatMap.1 hu
        split at hu
        · exact (h1.short x hx).2 u hu
        · simp at hu
      intro u hu
      have : ∃ w, u = [0, 0, 0, 1] ++ w ∧ w.length < 2 ^ 16 := by
        simp only [List.mem_append] at hu
        rcases hu with (hu | hu) | hu
        · rw [f1] at hu; obtain ⟨w, hw, rfl⟩ := List.mem_map.1 hu; exact ⟨w, rfl, hun _ _ hw⟩
        · obtain ⟨w, rfl, hw⟩ := f3 u hu; exact ⟨w, rfl, hw.elim (hun _ _) (hun _ _)⟩
        · rw [f2] at hu; obtain ⟨w, hw, rfl⟩ := List.mem_map.1 hu; exact ⟨w, rfl, hun _ _ hw⟩
      obtain ⟨w, rfl, hw⟩ := this
      simp; omega
    · obtain ⟨e, r', hr'⟩ := C45_not_record grow data (by omega) (fun header xs trailing h1 =>
        Classical.byContradiction fun h2 => hrec ⟨header, xs, trailing, h1, h2⟩)
      rw [h] at hr'
      simp at hr'
  have hw := writeAll3_spec r.vpsList r.spsList r.ppsList hshort
  have hrun : hevcExtraDataToAnnexB grow data = (do
      let w ← writeAll (BytesBuf.setData (List.replicate 1024 0)) r.vpsList
      let w ← writeAll w r.spsList
      let w ← writeAll w r.ppsList
      sliceI w.data 0 w.offset) := by
    unfold hevcExtraDataToAnnexB
    rw [h]
    rfl
  rw [← hrun] at hw
  intro out
  have hout : out = r.vpsList.flatten ++ r.spsList.flatten ++ r.ppsList.flatten := by
    simp only [out, List.flatten_append]
  rw [hout, List.length_append, List.length_append]
  exact hw

/-- C71. If `Unmarshal` fails, there is an error (with C45, that is for everything but a record with a VPS, SPS and PPS). -/
theorem C71_not_record (grow : Nat → Nat) (data : Bytes) (e : String) (r : HEVCRecord) (h : hevcUnmarshal grow {} data = ok (.error e, r)) :
    hevcExtraDataToAnnexB grow data = err e := by
  unfold hevcExtraDataToAnnexB
  rw [h]
  rfl

/-- C71. No input panics. -/
theorem C71_total (grow : Nat → Nat) (data : Bytes) (hlen : data.length < 2 ^ 61) : hevcExtraDataToAnnexB grow data ≠ panic := by
  obtain ⟨⟨x, r⟩, hr⟩ := C45_total grow {} data (by omega)
  cases x with
  | error e => rw [C71_not_record grow data e r hr]; simp
  | ok u =>
    have := C71_record grow data hlen r hr
    by_cases hl : (r.vpsList ++ r.spsList ++ r.ppsList).flatten.length ≤ 1024
    · rw [this.1 hl]; simp
    · obtain ⟨e, he⟩ := this.2 (by omega)
      rw [he]; simp

example : hevcExtraDataToAnnexB id (List.replicate 22 0 ++ [3] ++ hevcArray 32 [[64, 1]] ++ hevcArray 33 [[66, 1]] ++ hevcArray 34 [[68, 1]]) =
    ok [0, 0, 0, 1, 64, 1, 0, 0, 0, 1, 66, 1, 0, 0, 0, 1, 68, 1] := by decide +kernel

end Avf
