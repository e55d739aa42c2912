import Verif.Props.Marshal
import Verif.Props.Record
import Verif.Props.Codec
/-!
# C124: which records that `Marshal` returns can be read back
-/
namespace Avf
open Go

theorem unitOfSet_paramSet {s u : Bytes} (h : unitOfSet s = some u) : ∃ P : ParamSet, P.bytes = s ∧ P.unit = u ∧ P.Plain := by
  unfold unitOfSet at h
  split at h
  · cases h
  · rename_i hn
    split at h
    · rename_i h3
      cases h
      refine ⟨⟨some false, s.drop 3⟩, ?_, rfl, fun h => by cases h⟩
      show [0, 0, 1] ++ s.drop 3 = s
      rw [← h3, List.take_append_drop]
    · rename_i h3
      split at h
      · rename_i h4
        cases h
        refine ⟨⟨some true, s.drop 4⟩, ?_, rfl, fun h => by cases h⟩
        show [0, 0, 0, 1] ++ s.drop 4 = s
        rw [← h4, List.take_append_drop]
      · rename_i h4
        cases h
        exact ⟨⟨none, s⟩, rfl, rfl, fun _ => ⟨fun hc => hc.elim h3 h4, hn⟩⟩

theorem sets_paramSets {ss : List Bytes} (h : none ∉ ss.map unitOfSet) :
    ∃ S : List ParamSet, S.map (·.bytes) = ss ∧ S.map (·.unit) = leadingUnits ss ∧ ∀ s ∈ S, s.Plain := by
  induction ss with
  | nil => exact ⟨[], rfl, rfl, by simp⟩
  | cons s ss ih =>
    rw [List.map_cons, List.mem_cons, not_or] at h
    obtain ⟨S, h1, h2, h3⟩ := ih h.2
    cases hs : unitOfSet s with
    | none => exact absurd hs.symm h.1
    | some u =>
      obtain ⟨P, p1, p2, p3⟩ := unitOfSet_paramSet hs
      refine ⟨P :: S, by simp [p1, h1], by simp [leadingUnits, hs, p2, h2], ?_⟩
      intro x hx
      rcases List.mem_cons.1 hx with rfl | hx
      · exact p3
      · exact h3 x hx

theorem size16_mem {us : List Bytes} {u : Bytes} (h : u ∈ us) : u.length ≤ size16 us := by
  induction us with
  | nil => cases h
  | cons v us ih =>
    rw [size16_cons]
    rcases List.mem_cons.1 h with rfl | h
    · omega
    · have := ih h; omega

/-- **C124**: a record that `Marshal` returns gives its sets back exactly if there are at most 31 SPS and at most 255 PPS. -/
theorem C124_avc_back (ss ps : List Bytes) (hs : ∀ s ∈ ss ++ ps, s.length < 2 ^ 62) (d : Bytes) (h : avcMarshal ss ps = ok d) :
    (∃ r, avcUnmarshal {} d = ok (.ok (), r) ∧ r.spsList = (leadingUnits ss).map ([0, 0, 0, 1] ++ ·) ∧
      r.ppsList = (leadingUnits ps).map ([0, 0, 0, 1] ++ ·)) ↔ ss.length ≤ 31 ∧ ps.length ≤ 255 := by
  obtain ⟨hd, hsn, hpn⟩ := C124_avc_size ss ps hs d h
  rw [(C124_avc ss ps hs).1 d] at h
  unfold avcFate at h
  split at h
  · cases h
  split at h
  · cases h
  split at h
  · cases h
  rename_i hns
  split at h
  · cases h
  rename_i hfit
  split at h
  · cases h
  rename_i hnp
  split at h
  case h_2 => cases h
  rename_i b0 p c l rest _
  injection h with h
  have hsl := leading_length hns
  have hpl := leading_length hnp
  have hs0 : 0 < ss.length := List.length_pos_iff.2 hsn
  have hp0 : 0 < ps.length := List.length_pos_iff.2 hpn
  constructor
  · rintro ⟨r, h1, h2, h3⟩
    rcases avcUnmarshal_spec {} d (by omega) with ⟨h', c', s', p', t', hr, he⟩ | ⟨_, e, a', he⟩
    · rw [h1] at he
      cases he
      have e1 := congrArg List.length h2
      have e2 := congrArg List.length h3
      have e3 := hr.spsCount
      have e4 := hr.pps256
      have e5 : (c' &&& 0x1f).toNat ≤ 31 := by
        have : ∀ x : Byte, (x &&& 0x1f).toNat ≤ 31 := by decide
        exact this c'
      simp only [AVCRecord.filled, List.nil_append, List.length_map] at e1 e2
      omega
    · rw [h1] at he; cases he
  · rintro ⟨h31, h255⟩
    have hr : IsAvcRecord d [1, p, c, l, 0xff] (0xE0 ||| BitVec.ofNat 8 ss.length) (leadingUnits ss) (leadingUnits ps) [] := by
      refine ⟨rfl, ?_, by omega, by omega, by omega, ?_, by rw [← h, List.append_nil]⟩
      · rw [hsl]
        have : ∀ n : Nat, n < 32 → ((0xE0 ||| BitVec.ofNat 8 n : Byte) &&& 0x1f).toNat = n := by decide
        exact this _ (by omega)
      · intro u hu
        rcases List.mem_append.1 hu with hu | hu <;> have := size16_mem hu <;> omega
    exact ⟨_, C42_record {} d (by omega) _ _ _ _ _ _ _ _ _ hr, rfl, rfl⟩

/-- **C124**: for H.265, when the first sets are a VPS, an SPS and a PPS: the record gives its sets back exactly if there is one SPS. -/
theorem C124_hevc_back (grow : Nat → Nat) (vs ss ps : List Bytes) (hs : ∀ s ∈ vs ++ ss ++ ps, s.length < 2 ^ 62) (d : Bytes)
    (h : hevcMarshal vs ss ps = ok d) (hv32 : (leadingUnits vs).head?.map hevcUnitType = some 32)
    (hs33 : (leadingUnits ss).head?.map hevcUnitType = some 33) (hp34 : (leadingUnits ps).head?.map hevcUnitType = some 34) :
    (∃ r, hevcUnmarshal grow {} d = ok (.ok (), r) ∧ r.vpsList = (leadingUnits vs).map ([0, 0, 0, 1] ++ ·) ∧
      r.spsList = (leadingUnits ss).map ([0, 0, 0, 1] ++ ·) ∧ r.ppsList = (leadingUnits ps).map ([0, 0, 0, 1] ++ ·)) ↔ ss.length = 1 := by
  have h0 := h
  rw [(C124_hevc vs ss ps hs).1 d] at h
  have step : ∀ (x : List Bytes) (rest : List (List Bytes)) (out : Bytes), arraysFate out (x :: rest) = .record d →
      none ∉ x.map unitOfSet ∧ out.length + 3 + size16 (leadingUnits x) ≤ 1024 ∧
      ∃ out' : Bytes, out'.length = out.length + 3 + size16 (leadingUnits x) ∧ arraysFate out' rest = .record d := by
    intro x rest out hx
    rw [arraysFate] at hx
    split at hx
    · split at hx
      · cases hx
      · split at hx
        · cases hx
        · rename_i h1 h2
          exact ⟨h2, by omega, _, by rw [List.length_append, size16_array]; omega, hx⟩
    · cases hx
  unfold hevcFate at h
  split at h
  · cases h
  obtain ⟨nv, fv, o1, l1, h⟩ := step _ _ _ h
  obtain ⟨ns, fs, o2, l2, h⟩ := step _ _ _ h
  obtain ⟨np, fp, o3, l3, h⟩ := step _ _ _ h
  obtain ⟨V, v1, v2, v3⟩ := sets_paramSets nv
  obtain ⟨S, s1, s2, s3⟩ := sets_paramSets ns
  obtain ⟨P, p1, p2, p3⟩ := sets_paramSets np
  have hsz : ∀ (X : List ParamSet), setsSize X = size16 (X.map (·.unit)) := by
    intro X; unfold setsSize size16; rw [List.map_map]; rfl
  have hne : ∀ (X : List ParamSet) n, (X.map (·.unit)).head?.map hevcUnitType = some n → ∃ hx : X ≠ [], hevcUnitType (X.head hx).unit = n := by
    intro X n hX
    cases X with
    | nil => cases hX
    | cons x X => exact ⟨by simp, by simpa using hX⟩
  rw [← v2] at hv32
  rw [← s2] at hs33
  rw [← p2] at hp34
  obtain ⟨hV, tv⟩ := hne V _ hv32
  obtain ⟨hS, ts⟩ := hne S _ hs33
  obtain ⟨hP, tp⟩ := hne P _ hp34
  obtain ⟨data, r, e1, e2, e3, e4, e5⟩ := C44_last_sps_partial grow V S P hV hS hP (by
    intro x hx
    simp only [List.mem_append] at hx
    rcases hx with (hx | hx) | hx
    · exact v3 x hx
    · exact s3 x hx
    · exact p3 x hx) tv ts tp (by
      rw [hsz, hsz, hsz, v2, s2, p2]
      simp only [List.length_append, List.length_cons, List.length_nil, List.length_replicate] at l1 fv
      omega)
  rw [v1, s1, p1, h0] at e1
  obtain rfl : d = data := by simpa using e1
  have hmm : ∀ (X : List ParamSet), X.map (fun s => ([0, 0, 0, 1] : Bytes) ++ s.unit) = (X.map (·.unit)).map ([0, 0, 0, 1] ++ ·) := by
    intro X; rw [List.map_map]; rfl
  rw [hmm, v2] at e3
  rw [hmm, p2] at e5
  have hlen : ss.length = S.length := by rw [← s1, List.length_map]
  constructor
  · rintro ⟨r', f1, _, f3, _⟩
    rw [e2] at f1
    obtain rfl : r = r' := by simpa using f1
    rw [e4, ← s2] at f3
    have := congrArg List.length f3
    simp only [List.length_map, List.length_cons, List.length_nil] at this
    omega
  · intro h1
    refine ⟨r, e2, e3, ?_, e5⟩
    rw [e4, ← s2]
    match S, hS, (show S.length = 1 by omega) with
    | [x], _, _ => rfl

/-- **C124**: `MP4ExtraData` of codec data from `NewAVCCodecData`, for any SPS and PPS: a panic exactly if the PPS has no unit and there
is room for the SPS; empty (the error is dropped) exactly if the record is too long; else the record. -/
theorem C124_avc_codec (undef : Int) (sps pps : Bytes) (hs : sps.length < 2 ^ 62) (hp : pps.length < 2 ^ 62) (c : CodecData)
    (h : newAVCCodecData undef sps pps = ok c) :
    ∃ b p q l rest, unitOfSet sps = some (b :: p :: q :: l :: rest) ∧ c.mp4ExtraData =
      match unitOfSet pps with
      | none => if 1024 < 13 + rest.length then ok [] else Go.panic
      | some u => if 1024 < 15 + rest.length + u.length then ok []
        else ok (avcRecord [1, p, q, l, 0xff] 0xE1 [b :: p :: q :: l :: rest] [u]) := by
  obtain ⟨_, _, _, info, hi, _, _⟩ := C69_avc_new undef _ _ c h
  obtain ⟨v, hv⟩ : ∃ v, unitOfSet sps = some v := by
    cases hu : unitOfSet sps with
    | some v => exact ⟨v, rfl⟩
    | none =>
      have := (C49_panic_iff undef sps).1.2 (unitOfSet_none hu)
      rw [hi] at this; cases this
  have h4 := avcParseSPS_four (unitOfSet_some hv) hi
  match v, h4 with
  | b :: p :: q :: l :: rest, _ =>
    refine ⟨b, p, q, l, rest, hv, ?_⟩
    rw [C69_avc_mp4 h]
    have hf := avcMarshal_any [sps] [pps] (by
      intro s h
      simp only [List.cons_append, List.nil_append, List.mem_cons, List.not_mem_nil, or_false] at h
      rcases h with rfl | rfl <;> assumption)
    cases hu : unitOfSet pps with
    | none =>
      dsimp only
      have e : avcFate [sps] [pps] = if 1024 < 13 + rest.length then .refused else .crash := by
        simp only [avcFate, leadingUnits, hv, hu, size16, List.map_cons, List.map_nil, List.sum_cons, List.sum_nil, List.length_cons]
        by_cases hb : 1024 < 13 + rest.length
        · rw [if_neg (by simp), if_pos hb]
          split
          · rfl
          · rw [if_neg (by simp), if_pos (by omega)]
        · rw [if_neg (by simp), if_neg hb, if_neg (by omega), if_neg (by simp), if_neg (by omega), if_pos (by simp)]
      rw [e] at hf
      split at hf
      · rw [if_pos (by assumption)]
        cases hm : avcMarshal [sps] [pps] <;> rw [hm] at hf <;> first | rfl | cases hf
      · rw [if_neg (by assumption)]
        cases hm : avcMarshal [sps] [pps] <;> rw [hm] at hf <;> first | rfl | cases hf
    | some u =>
      dsimp only
      have e : avcFate [sps] [pps] = if 1024 < 15 + rest.length + u.length then .refused
          else .record (avcRecord [1, p, q, l, 0xff] 0xE1 [b :: p :: q :: l :: rest] [u]) := by
        simp only [avcFate, leadingUnits, hv, hu, size16, List.map_cons, List.map_nil, List.sum_cons, List.sum_nil, List.length_cons]
        by_cases hb : 1024 < 15 + rest.length + u.length
        · rw [if_neg (by simp), if_pos hb]
          split
          · rfl
          · rw [if_neg (by simp), if_pos (by omega)]
        · rw [if_neg (by simp), if_neg hb, if_neg (by omega), if_neg (by simp), if_neg (by omega), if_neg (by simp)]
          rfl
      rw [e] at hf
      split at hf
      · rw [if_pos (by assumption)]
        cases hm : avcMarshal [sps] [pps] <;> rw [hm] at hf <;> first | rfl | cases hf
      · rw [if_neg (by assumption)]
        cases hm : avcMarshal [sps] [pps] <;> rw [hm] at hf <;> first | (cases hf; rfl) | cases hf

/-- **C124**: `MP4ExtraData` of codec data from `NewHEVCCodecData` does not panic if the sets are longer than a start code. -/
theorem C124_hevc_codec (vps sps pps : Bytes) (hs : ∀ s ∈ [vps, sps, pps], 5 ≤ s.length ∧ s.length < 2 ^ 62) (c : CodecData)
    (h : newHEVCCodecData vps sps pps = ok c) : c.mp4ExtraData ≠ Go.panic := by
  rw [C69_hevc_mp4 h]
  have := C124_hevc_safe [vps] [sps] [pps] (fun s h => (hs s h).2) (fun s h => (hs s h).1)
  cases hm : hevcMarshal [vps] [sps] [pps] with
  | panic => exact absurd hm this
  | ok d => intro h; cases h
  | err e => intro h; cases h

/-- A case: 31 SPS and one PPS are written. -/
example : ∃ d, avcMarshal (List.replicate 31 [0x67, 66, 0, 30]) [[0x68, 1]] = ok d :=
  ⟨avcRecord [1, 66, 0, 30, 0xff] (0xE0 ||| 31) (List.replicate 31 [0x67, 66, 0, 30]) [[0x68, 1]], by decide +kernel⟩

/-- A case for H.265: two SPS. -/
example : (∃ d, hevcMarshal [[0x40, 1]] [[0x42, 1], [0x42, 2]] [[0x44, 1]] = ok d) ∧
    (leadingUnits [[0x40, 1]]).head?.map hevcUnitType = some 32 ∧ (leadingUnits [[0x42, 1], [0x42, 2]]).head?.map hevcUnitType = some 33 ∧
    (leadingUnits [[0x44, 1]]).head?.map hevcUnitType = some 34 := by
  refine ⟨⟨([1] ++ List.replicate 20 0 ++ [3, 3]) ++ hevcArray 32 [[0x40, 1]] ++ hevcArray 33 [[0x42, 1], [0x42, 2]] ++ hevcArray 34 [[0x44, 1]],
    by decide +kernel⟩, by decide, by decide, by decide⟩

end Avf
