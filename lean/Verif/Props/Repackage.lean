import Verif.Lemmas.Repackage
/-! # C107: repackaging Annex B as AVCC and back -/
namespace Avf
open Go

/-! ## H.264 -/

/-- **C107**, H.264: codec data of parameter sets `S` and `P` goes over as MP4 extra data and can be read; an Annex B frame of clean units
(any start codes, at most 256 more bytes as AVCC) goes over as AVCC; and the receiver makes of it an Annex B frame with the units of the
frame but SEI, for key frames with the two sets in front. For any packet and buffer of the receiver. -/
theorem C107_avc (undef : Int) (S P : ParamSet) (hS : S.Plain) (hP : P.Plain) (hfit : 11 + S.unit.length + P.unit.length ≤ 1024)
    (c : CodecData) (h : newAVCCodecData undef S.bytes P.bytes = ok c) :
    ∃ data c', c.mp4ExtraData = ok data ∧ parseAVCRecord undef data = ok c' ∧ c'.width = c.width ∧ c'.height = c.height ∧
      ∀ (p : AVPacket) (xs : List (Bool × Bytes)), AnnexBPacket p → p.codecID = codecH264 → p.onBufferAlloc = none → xs ≠ [] →
        (∀ x ∈ xs, Clean x.2 ∧ x.2.length < 2 ^ 32) → (xs.filter fun x => !x.1).length ≤ 256 → p.data = annexB xs →
        ∃ sent p', annexBPacket2AVCC p = ok (sent, p') ∧ sent = avcc (xs.map (·.2)) ∧
          ∀ (t : AVStream) (q : AVPacket), t.codecParameters = some c' → AvccPacket t q → q.codecID = codecH264 → q.data = sent →
            (∀ n, n ≤ (q.allocBuffer n).length) →
            ∃ got q', avccPacket2AnnexB t q = ok (got, q') ∧
              HasUnits got ((if q.key then [S.unit, P.unit] else []) ++ withoutSei (xs.map (·.2))) := by
  obtain ⟨data, c', h1, h2, h3, h4, h5, h6⟩ := C69_avc_round_trip undef S P hS hP hfit c h
  have hx := parseAVCRecord_annexB h2
  rw [h3, h4] at hx
  refine ⟨data, c', h1, h2, h5, h6, fun p xs hp hc ha hne hxs hsh hd => ?_⟩
  have hrun := (C36_clean p hp ha [] (by intro j hj; simp at hj) xs hne (fun x hx => (hxs x hx).1) (fun x hx => (hxs x hx).2)
    (by simpa using hd)).1 (by rw [C36_growth, hd]; omega)
  refine ⟨_, _, hrun, rfl, fun t q ht hq hqc hqd hbuf => ?_⟩
  have := C68_h264 t q c' hq hqc ht (xs.map (·.2)) [] (by
    intro u hu
    obtain ⟨x, hx, rfl⟩ := List.mem_map.1 hu
    exact ⟨(hxs x hx).1.ne, (hxs x hx).2⟩) (noUnit_nil 4) (by simpa using hqd) hbuf
  refine ⟨_, _, this, (if q.key then [(true, S.unit), (true, P.unit)] else []) ++ firstLong (withoutSei (xs.map (·.2))), ?_, ?_⟩
  · rw [annexB_append]
    congr 1
    cases q.key
    · rfl
    · simp [hx, annexB, annexUnit, code]
  · rw [List.map_append, map_firstLong]
    cases q.key <;> rfl

/-- **C107**, H.264: a chain of `n` senders and receivers. The units of a frame that is not key are kept, but SEI; a key frame gets the two
sets in front once more at each receiver. -/
theorem C107_avc_relayed (undef : Int) (S P : ParamSet) (hS : S.Plain) (hP : P.Plain) (hfit : 11 + S.unit.length + P.unit.length ≤ 1024)
    (cS : Clean S.unit) (cP : Clean P.unit) (tS : avcUnitType S.unit = 7) (tP : avcUnitType P.unit = 8)
    (c : CodecData) (h : newAVCCodecData undef S.bytes P.bytes = ok c) :
    ∃ data c', c.mp4ExtraData = ok data ∧ parseAVCRecord undef data = ok c' ∧
      ∀ (key : Bool) (n : Nat) (frame : Bytes) (us : List Bytes), HasUnits frame us → withoutSei us ≠ [] →
        (∀ u ∈ us, Clean u ∧ u.length < 2 ^ 32) → us.length + 2 * n ≤ 256 →
        ∃ got, relayed codecH264 c' key n frame = ok got ∧
          HasUnits got (if n = 0 then us else (if key then (List.replicate n [S.unit, P.unit]).flatten else []) ++ withoutSei us) := by
  obtain ⟨data, c', h1, h2, _, _, hstep⟩ := C107_avc undef S P hS hP hfit c h
  refine ⟨data, c', h1, h2, fun key n => ?_⟩
  have one : ∀ (frame : Bytes) (us : List Bytes), HasUnits frame us → us ≠ [] → (∀ u ∈ us, Clean u ∧ u.length < 2 ^ 32) → us.length ≤ 256 →
      ∃ got, overAvcc codecH264 c' key frame = ok got ∧ HasUnits got ((if key then [S.unit, P.unit] else []) ++ withoutSei us) := by
    rintro frame us ⟨xs, rfl, rfl⟩ hne hus hl
    obtain ⟨sent, p', e1, _, e2⟩ := hstep { data := annexB xs, key := key, codecID := codecH264, mediaType := mediaVideo, packetType := packAnnexB }
      xs ⟨rfl, rfl, Or.inl rfl, rfl⟩ rfl rfl (by simpa using hne) (fun x hx => hus _ (List.mem_map.2 ⟨x, hx, rfl⟩))
      (by have := short_le xs; rw [List.length_map] at hl; omega) rfl
    obtain ⟨got, q', e3, e4⟩ := e2 { mediaType := mediaVideo, index := 0, codecID := codecH264, codecParameters := some c' }
      { data := sent, key := key, codecID := codecH264, mediaType := mediaVideo, packetType := packAVCC } rfl
      ⟨rfl, rfl, Or.inl rfl, rfl⟩ rfl rfl (by intro n; simp [AVPacket.allocBuffer])
    refine ⟨got, ?_, e4⟩
    unfold overAvcc
    rw [e1, ok_bind]
    dsimp only
    rw [e3, ok_bind]
    rfl
  induction n with
  | zero => intro frame us hu _ _ _; exact ⟨frame, rfl, by simpa using hu⟩
  | succ n ih =>
    intro frame us hu hne hus hl
    obtain ⟨d, e1, e2⟩ := one frame us hu (by rintro rfl; exact hne rfl) hus (by omega)
    have hw : ∀ pre : List Bytes, (∀ u ∈ pre, avcUnitType u = 7 ∨ avcUnitType u = 8) →
        withoutSei (pre ++ withoutSei us) = pre ++ withoutSei us := by
      intro pre hpre
      unfold withoutSei
      rw [List.filter_append, List.filter_filter]
      congr 1
      · rw [List.filter_eq_self]
        intro u hu
        have := hpre u hu
        simp; omega
      · congr 1; funext u; simp
    have hk : ∀ u ∈ (if key then [S.unit, P.unit] else []), avcUnitType u = 7 ∨ avcUnitType u = 8 := by
      intro u hu
      cases key
      · simp at hu
      · simp at hu
        rcases hu with rfl | rfl <;> simp [tS, tP]
    have hc : ∀ u ∈ (if key then [S.unit, P.unit] else []), Clean u ∧ u.length < 2 ^ 32 := by
      intro u hu
      cases key
      · simp at hu
      · simp at hu
        rcases hu with rfl | rfl
        · exact ⟨cS, by omega⟩
        · exact ⟨cP, by omega⟩
    have hlen : (if key then [S.unit, P.unit] else []).length ≤ 2 := by cases key <;> simp
    have hfl : (withoutSei us).length ≤ us.length := List.length_filter_le _ _
    obtain ⟨got, e3, e4⟩ := ih d _ e2 (by rw [hw _ hk]; simp [hne]) (by
      intro u hu
      rcases List.mem_append.1 hu with hu | hu
      · exact hc u hu
      · exact hus u (List.mem_of_mem_filter hu)) (by rw [List.length_append]; omega)
    refine ⟨got, ?_, ?_⟩
    · rw [relayed, e1, ok_bind]; exact e3
    · rw [hw _ hk] at e4
      rw [if_neg (by omega)]
      by_cases h0 : n = 0
      · subst h0
        rw [if_pos rfl] at e4
        cases key <;> simpa using e4
      · rw [if_neg h0] at e4
        have : (if key then (List.replicate n [S.unit, P.unit]).flatten else []) ++ ((if key then [S.unit, P.unit] else []) ++ withoutSei us) =
            (if key then (List.replicate (n + 1) [S.unit, P.unit]).flatten else []) ++ withoutSei us := by
          cases key
          · rfl
          · simp only [if_true]
            rw [List.replicate_succ', List.flatten_append, List.append_assoc]
            simp
        rw [← this]; exact e4

/-! ## The units of a frame are determined by its bytes -/

/-- **C107**: an Annex B stream has only one list of well-framed units. -/
theorem C107_units_unique (d : Bytes) (us vs : List Bytes) (hu : HasUnits d us) (hv : HasUnits d vs) (cu : ∀ u ∈ us, Framed u)
    (cv : ∀ v ∈ vs, Framed v) : us = vs := by
  obtain ⟨xs, rfl, rfl⟩ := hu
  obtain ⟨ys, hd, rfl⟩ := hv
  have cx : ∀ x ∈ xs, Framed x.2 := fun x hx => cu _ (List.mem_map.2 ⟨x, hx, rfl⟩)
  have cy : ∀ x ∈ ys, Framed x.2 := fun x hx => cv _ (List.mem_map.2 ⟨x, hx, rfl⟩)
  have nil : ∀ zs : List (Bool × Bytes), annexB zs = [] → zs = [] := by
    intro zs hz
    cases zs with
    | nil => rfl
    | cons z zs =>
      obtain ⟨b, u⟩ := z
      cases b <;> simp [annexB, annexUnit, code] at hz
  have inj : ∀ x y : Bool × Bytes, annexUnit x = annexUnit y → x = y := by
    rintro ⟨b, u⟩ ⟨c, v⟩ h
    cases b <;> cases c <;> simp [annexUnit, code] at h ⊢ <;> exact h
  by_cases hx : xs = []
  · subst hx
    rw [nil ys hd.symm]
  · have hy : ys ≠ [] := by rintro rfl; exact hx (nil xs hd)
    have a := C30_split_annexB xs hx cx
    have b := C30_split_annexB ys hy cy
    rw [hd, b] at a
    injection a with a
    rw [List.map_injective_iff.2 (fun x y h => inj x y h) a]

/-! ## H.265 -/

/-- **C107**, H.265: the same for H.265, and all units are kept. -/
theorem C107_hevc (grow : Nat → Nat) (V S P : ParamSet) (hV : V.Plain) (hS : S.Plain) (hP : P.Plain)
    (tv : hevcUnitType V.unit = 32) (ts : hevcUnitType S.unit = 33) (tp : hevcUnitType P.unit = 34)
    (hfit : 38 + V.unit.length + S.unit.length + P.unit.length ≤ 1024) (c : CodecData)
    (h : newHEVCCodecData V.bytes S.bytes P.bytes = ok c) :
    ∃ data c', c.mp4ExtraData = ok data ∧ parseHEVCRecord grow data = ok c' ∧ c'.width = c.width ∧ c'.height = c.height ∧
      ∀ (p : AVPacket) (xs : List (Bool × Bytes)), AnnexBPacket p → p.codecID = codecH265 → p.onBufferAlloc = none → xs ≠ [] →
        (∀ x ∈ xs, Clean x.2 ∧ 2 ≤ x.2.length ∧ x.2.length < 2 ^ 32) → (xs.filter fun x => !x.1).length ≤ 256 → p.data = annexB xs →
        ∃ sent p', annexBPacket2AVCC p = ok (sent, p') ∧ sent = avcc (xs.map (·.2)) ∧
          ∀ (t : AVStream) (q : AVPacket), t.codecParameters = some c' → AvccPacket t q → q.codecID = codecH265 → q.data = sent →
            (∀ n, n ≤ (q.allocBuffer n).length) →
            ∃ got q', avccPacket2AnnexB t q = ok (got, q') ∧
              got = annexB (((if q.key then [V.unit, S.unit, P.unit] else []) ++ xs.map (·.2)).map (true, ·)) := by
  obtain ⟨data, c', h1, h2, h3, h4, hx, h5, h6⟩ := C69_hevc_round_trip grow V S P hV hS hP tv ts tp hfit c h
  obtain ⟨r, hr, hu⟩ := parseHEVCRecord_record h2
  have hne : ∀ u n, hevcUnitType u = n → n ≠ 0 → u ≠ [] := by rintro u n h hn rfl; exact hn h.symm
  have hm := C44_marshal [V] [S] [P] (by simp) (by simp) (by simp)
    (by intro s hs; simp at hs; rcases hs with rfl | rfl | rfl <;> assumption)
    (hne _ _ tv (by decide)) (hne _ _ ts (by decide)) (hne _ _ tp (by decide)) (by simp [setsSize]; omega)
  have hdata : CodecData.noErr (hevcMarshal [V.bytes] [S.bytes] [P.bytes]) = ok data := (C69_hevc_mp4 h).symm.trans h1
  have hm : hevcMarshal [V.bytes] [S.bytes] [P.bytes] = _ := hm
  rw [hm] at hdata
  obtain ⟨rest, hd, hrl⟩ : ∃ rest : Bytes, data = [1] ++ List.replicate 20 0 ++ [3, 3] ++ rest ∧ rest.length ≤ 4096 := by
    refine ⟨hevcArray (BitVec.ofNat 8 (hevcUnitType V.unit)) [V.unit] ++ (hevcArray (BitVec.ofNat 8 (hevcUnitType S.unit)) [S.unit] ++
      hevcArray (BitVec.ofNat 8 (hevcUnitType P.unit)) [P.unit]), ?_, ?_⟩
    · simp only [CodecData.noErr, Go.ok.injEq] at hdata
      rw [← hdata]
      simp only [List.append_assoc, List.map_cons, List.map_nil, List.head_cons]
    · simp only [hevcArray, unit16, List.length_append, beBytes_length, List.length_cons, List.length_nil, List.flatMap_cons, List.flatMap_nil]
      omega
  have hk : r.lengthSizeMinusOne.toNat = 4 := by
    obtain ⟨_, _, _, _, _, _, _, _, _, _, _, _, _, _, _, _, hk, _⟩ := C70_header_fields grow {} r data
      (by rw [hd]; simp; omega) hu
    rw [hk, show (174 : Nat) = 8 * 21 + 6 from rfl, bitField_byte data 21 6 2 (by rw [hd]; simp) (by omega)]
    have : data[21]'(by rw [hd]; simp) = 3 := by simp [hd]
    rw [this]
    decide
  refine ⟨data, c', h1, h2, h5, h6, fun p xs hp hc ha hne hxs hsh hd => ?_⟩
  have hrun := (C36_clean p hp ha [] (by intro j hj; simp at hj) xs hne (fun x hx => (hxs x hx).1) (fun x hx => (hxs x hx).2.2)
    (by simpa using hd)).1 (by rw [C36_growth, hd]; omega)
  refine ⟨_, _, hrun, rfl, fun t q ht hq hqc hqd hbuf => ?_⟩
  have hqd' : q.data = lengthPrefixed 4 (xs.map (·.2)) := hqd
  have := C68_h265 t q c' r 4 hq hqc ht hr hk (by omega) (xs.map (·.2)) (by
    intro u hu
    obtain ⟨x, hx, rfl⟩ := List.mem_map.1 hu
    exact ⟨(hxs x hx).2.1, (hxs x hx).2.2⟩) hqd' (by rw [C68_h265_fits, hqd']; omega) hbuf
  refine ⟨_, _, this, ?_⟩
  rw [List.map_append, annexB_append, annexB_long (xs.map (·.2)), annexB_long]
  have : (if q.key = true then c'.annexBExtraData else []) =
      (if q.key then [V.unit, S.unit, P.unit] else []).flatMap (([0, 0, 0, 1] : Bytes) ++ ·) := by
    cases q.key
    · rfl
    · simp [hx]
  rw [this]

/-- **C107**, H.265: a chain of `n` senders and receivers. All units are kept; a key frame gets the three sets in front once more at each
receiver. Only the frame that comes in must have at most 256 short start codes. -/
theorem C107_hevc_relayed (grow : Nat → Nat) (V S P : ParamSet) (hV : V.Plain) (hS : S.Plain) (hP : P.Plain)
    (tv : hevcUnitType V.unit = 32) (ts : hevcUnitType S.unit = 33) (tp : hevcUnitType P.unit = 34)
    (cV : Clean V.unit) (cS : Clean S.unit) (cP : Clean P.unit) (l2 : 2 ≤ V.unit.length ∧ 2 ≤ S.unit.length ∧ 2 ≤ P.unit.length)
    (hfit : 38 + V.unit.length + S.unit.length + P.unit.length ≤ 1024) (c : CodecData)
    (h : newHEVCCodecData V.bytes S.bytes P.bytes = ok c) :
    ∃ data c', c.mp4ExtraData = ok data ∧ parseHEVCRecord grow data = ok c' ∧
      ∀ (key : Bool) (n : Nat) (xs : List (Bool × Bytes)), xs ≠ [] → (∀ x ∈ xs, Clean x.2 ∧ 2 ≤ x.2.length ∧ x.2.length < 2 ^ 32) →
        (xs.filter fun x => !x.1).length ≤ 256 →
        relayed codecH265 c' key (n + 1) (annexB xs) = ok (annexB
          (((if key then (List.replicate (n + 1) [V.unit, S.unit, P.unit]).flatten else []) ++ xs.map (·.2)).map (true, ·))) := by
  obtain ⟨data, c', h1, h2, _, _, hstep⟩ := C107_hevc grow V S P hV hS hP tv ts tp hfit c h
  refine ⟨data, c', h1, h2, fun key n => ?_⟩
  have one : ∀ xs : List (Bool × Bytes), xs ≠ [] → (∀ x ∈ xs, Clean x.2 ∧ 2 ≤ x.2.length ∧ x.2.length < 2 ^ 32) →
      (xs.filter fun x => !x.1).length ≤ 256 →
      overAvcc codecH265 c' key (annexB xs) =
        ok (annexB (((if key then [V.unit, S.unit, P.unit] else []) ++ xs.map (·.2)).map (true, ·))) := by
    intro xs hne hxs hsh
    obtain ⟨sent, p', e1, _, e2⟩ := hstep { data := annexB xs, key := key, codecID := codecH265, mediaType := mediaVideo, packetType := packAnnexB }
      xs ⟨rfl, rfl, Or.inr rfl, rfl⟩ rfl rfl hne hxs hsh rfl
    obtain ⟨got, q', e3, e4⟩ := e2 { mediaType := mediaVideo, index := 0, codecID := codecH265, codecParameters := some c' }
      { data := sent, key := key, codecID := codecH265, mediaType := mediaVideo, packetType := packAVCC } rfl
      ⟨rfl, rfl, Or.inr rfl, rfl⟩ rfl rfl (by intro n; simp [AVPacket.allocBuffer])
    unfold overAvcc
    rw [e1, ok_bind]
    dsimp only
    rw [e3, ok_bind, e4]
    rfl
  induction n with
  | zero =>
    intro xs hne hxs hsh
    rw [relayed, one xs hne hxs hsh, ok_bind]
    cases key <;> simp [relayed]
  | succ n ih =>
    intro xs hne hxs hsh
    rw [relayed, one xs hne hxs hsh, ok_bind, ih _ (by simp [hne]) ?_ ?_]
    · congr 3
      rw [List.map_map, show ((fun x : Bool × Bytes => x.2) ∘ fun x => (true, x)) = id from rfl, List.map_id]
      cases key
      · rfl
      · simp only [if_true]
        rw [← List.append_assoc]
        congr 1
        conv => rhs; rw [List.replicate_succ', List.flatten_append]
        simp
    · intro x hx
      obtain ⟨u, hu, rfl⟩ := List.mem_map.1 hx
      rcases List.mem_append.1 hu with hu | hu
      · cases key
        · simp at hu
        · simp at hu
          rcases hu with rfl | rfl | rfl
          · exact ⟨cV, l2.1, by dsimp only; omega⟩
          · exact ⟨cS, l2.2.1, by dsimp only; omega⟩
          · exact ⟨cP, l2.2.2, by dsimp only; omega⟩
      · obtain ⟨y, hy, rfl⟩ := List.mem_map.1 hu
        exact hxs y hy
    · have : (List.map (fun x => (true, x)) ((if key then [V.unit, S.unit, P.unit] else []) ++ xs.map (·.2))).filter (fun x => !x.1) = [] := by
        rw [List.filter_eq_nil_iff]
        intro x hx
        obtain ⟨u, _, rfl⟩ := List.mem_map.1 hx
        simp
      rw [this]; simp

/-! ## When the units are kept -/

/-- **C107**: with what is between them, the frame that the receiver makes has the units of the frame that came in exactly if it is not a key
frame and has no SEI. -/
theorem C107_avc_same_iff (S P : ParamSet) (tS : avcUnitType S.unit = 7) (tP : avcUnitType P.unit = 8) (key : Bool) (us : List Bytes) :
    (if key then [S.unit, P.unit] else []) ++ withoutSei us = us ↔ key = false ∧ ∀ u ∈ us, avcUnitType u ≠ 6 := by
  have hself : (∀ u ∈ us, avcUnitType u ≠ 6) → withoutSei us = us := by
    intro h
    unfold withoutSei
    rw [List.filter_eq_self]
    intro u hu
    simpa using h u hu
  constructor
  · intro h
    have hno : ∀ u ∈ us, avcUnitType u ≠ 6 := by
      intro u hu
      rw [← h] at hu
      rcases List.mem_append.1 hu with hu | hu
      · cases key
        · simp at hu
        · simp at hu
          rcases hu with rfl | rfl <;> omega
      · simpa using (List.mem_filter.1 hu).2
    refine ⟨?_, hno⟩
    rw [hself hno] at h
    have := congrArg List.length h
    cases key
    · rfl
    · simp at this
      omega
  · rintro ⟨rfl, h⟩
    simp [hself h]

/-- The claim, for H.264: a frame comes back with the units it had. -/
def C107_claim : Prop := ∀ (undef : Int) (S P : ParamSet) (c c' : CodecData) (data : Bytes) (key : Bool) (frame : Bytes) (us : List Bytes),
  newAVCCodecData undef S.bytes P.bytes = ok c → c.mp4ExtraData = ok data → parseAVCRecord undef data = ok c' →
  HasUnits frame us → us ≠ [] → (∀ u ∈ us, Clean u ∧ u.length < 2 ^ 32) → us.length ≤ 250 →
  ∃ got, overAvcc codecH264 c' key frame = ok got ∧ HasUnits got us

/-- An SPS and a PPS, with a long and a short start code. -/
def relaySps : ParamSet := ⟨some true, [103, 66, 0, 31, 218, 1, 64, 22, 228]⟩
def relayPps : ParamSet := ⟨some false, [104, 206]⟩

theorem relay_codec : ∃ c, newAVCCodecData 0 relaySps.bytes relayPps.bytes = ok c := by
  have h : (match newAVCCodecData 0 relaySps.bytes relayPps.bytes with | .ok _ => true | _ => false) = true := by decide +kernel
  cases e : newAVCCodecData 0 relaySps.bytes relayPps.bytes with
  | ok c => exact ⟨c, rfl⟩
  | err m => rw [e] at h; cases h
  | panic => rw [e] at h; cases h

/-- What the claim says of a frame, against what happens. -/
theorem C107_differs (key : Bool) (us : List Bytes) (hne : withoutSei us ≠ []) (hus : ∀ u ∈ us, Clean u ∧ u.length < 2 ^ 32)
    (hl : us.length ≤ 250) (hd : ¬ (key = false ∧ ∀ u ∈ us, avcUnitType u ≠ 6)) : ¬ C107_claim := by
  intro h
  obtain ⟨c, hc⟩ := relay_codec
  obtain ⟨data, c', h1, h2, hr⟩ := C107_avc_relayed 0 relaySps relayPps (by decide) (by decide) (by decide) (by decide) (by decide)
    (by decide) (by decide) c hc
  obtain ⟨got, hg, hu⟩ := hr key 1 (annexB (us.map (true, ·))) us ⟨us.map (true, ·), rfl, by simp⟩ hne hus (by omega)
  obtain ⟨got', hg', hu'⟩ := h 0 relaySps relayPps c c' data key (annexB (us.map (true, ·))) us hc h1 h2 ⟨us.map (true, ·), rfl, by simp⟩
    (by rintro rfl; exact hne rfl) hus hl
  rw [relayed, hg', ok_bind] at hg
  cases hg
  rw [if_neg (by omega)] at hu
  have := C107_units_unique _ _ _ hu hu' (by
    intro u hu
    rcases List.mem_append.1 hu with hu | hu
    · cases key
      · simp at hu
      · simp at hu
        rcases hu with rfl | rfl <;> decide
    · exact (hus u (List.mem_of_mem_filter hu)).1.toFramed) (fun u hu => (hus u hu).1.toFramed)
  refine hd ((C107_avc_same_iff relaySps relayPps (by decide) (by decide) key us).1 ?_)
  cases key <;> simpa using this

/-- **C107** is false: SEI gets lost. -/
theorem C107_sei_violated : ¬ C107_claim := C107_differs false [[6, 5], [0x41, 9]] (by decide) (by decide) (by decide) (by decide)

/-- **C107** is false: a key frame with its parameter sets gets them twice. -/
theorem C107_sets_violated : ¬ C107_claim :=
  C107_differs true [relaySps.unit, relayPps.unit, [0x65, 9]] (by decide) (by decide) (by decide) (by decide)

/-- All hypotheses of the H.264 theorems hold of these sets, and a key frame through two receivers. -/
example : ∃ c, newAVCCodecData 0 relaySps.bytes relayPps.bytes = ok c ∧ ∃ data c', c.mp4ExtraData = ok data ∧
    parseAVCRecord 0 data = ok c' ∧ ∃ got, relayed codecH264 c' true 2 (annexB [(true, [6, 5]), (false, [0x65, 9])]) = ok got ∧
      HasUnits got [relaySps.unit, relayPps.unit, relaySps.unit, relayPps.unit, [0x65, 9]] := by
  obtain ⟨c, hc⟩ := relay_codec
  obtain ⟨data, c', h1, h2, hr⟩ := C107_avc_relayed 0 relaySps relayPps (by decide) (by decide) (by decide) (by decide) (by decide)
    (by decide) (by decide) c hc
  obtain ⟨got, hg, hu⟩ := hr true 2 _ [[6, 5], [0x65, 9]] ⟨[(true, [6, 5]), (false, [0x65, 9])], rfl, rfl⟩ (by decide) (by decide) (by decide)
  exact ⟨c, hc, data, c', h1, h2, got, hg, hu⟩

/-- The same for H.265. -/
example : ∃ data c', (exHevcCodec [64, 1, 7] [68, 1]).mp4ExtraData = ok data ∧ parseHEVCRecord id data = ok c' ∧
    relayed codecH265 c' true 2 (annexB [(true, [78, 1, 5]), (false, [38, 1, 9])]) =
      ok (annexB ([[64, 1, 7], exHevcSps, [68, 1], [64, 1, 7], exHevcSps, [68, 1], [78, 1, 5], [38, 1, 9]].map (true, ·))) := by
  obtain ⟨data, c', h1, h2, hr⟩ := C107_hevc_relayed id ⟨none, [64, 1, 7]⟩ ⟨none, exHevcSps⟩ ⟨none, [68, 1]⟩ (by decide) (by decide) (by decide)
    (by decide) (by decide) (by decide) (by decide) (by decide) (by decide) (by decide) (by decide) (exHevcCodec [64, 1, 7] [68, 1])
    (by decide +kernel)
  exact ⟨data, c', h1, h2, hr true 1 [(true, [78, 1, 5]), (false, [38, 1, 9])] (by decide) (by decide) (by decide)⟩

end Avf
