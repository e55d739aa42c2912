import Verif.Lemmas.M4vc
/-! # C32–C35, C37, C38, C46: conversion between AVCC / MP4 and Annex B -/
namespace Avf
open Go

/-! ## AVCC to Annex B -/

theorem toAnnexB_plain (us before : List Bytes) (out : Bytes) (hne : out ≠ []) :
    toAnnexB isSEI [] before out us = out ++ annexB ((us.filter fun u => !isSEI u).map (false, ·)) := by
  induction us generalizing before out with
  | nil => simp [toAnnexB, annexB]
  | cons u us ih =>
    rw [toAnnexB]
    by_cases h : isSEI u
    · rw [if_pos h, ih _ _ hne]; simp [h]
    · rw [if_neg h]
      simp only [List.append_nil, ite_self]
      rw [ih _ _ (by simp [hne])]
      simp [h, annexB_cons, hne, List.append_assoc]

theorem toAnnexB_firstLong (us before : List Bytes) :
    toAnnexB isSEI [] before [] us = annexB (firstLong (us.filter fun u => !isSEI u)) := by
  induction us generalizing before with
  | nil => rfl
  | cons u us ih =>
    rw [toAnnexB]
    by_cases h : isSEI u
    · rw [if_pos h, ih]; simp [h]
    · rw [if_neg h]
      simp only [List.append_nil, ite_self]
      rw [toAnnexB_plain _ _ _ (by simp [code])]
      simp [h, firstLong, annexB_cons, List.append_assoc]

/-- Every byte string is a list of complete units followed by something that does not begin with one. -/
theorem C32_decompose (p : Bytes) :
    ∃ us tail, p = avcc us ++ tail ∧ (∀ u ∈ us, u ≠ [] ∧ u.length < 2 ^ 32) ∧ NoUnit 4 tail := avcc_decompose p

/-- **C32**: without extra data the units of the longest well-formed prefix come out in Annex B form, the SEI units left
out, the first with a long start code, the others with a short one; behind the output `dst` is unchanged. -/
theorem C32_avcc_to_annexB (us : List Bytes) (tail dst : Bytes) (hus : ∀ u ∈ us, u ≠ [] ∧ u.length < 2 ^ 32)
    (ht : NoUnit 4 tail) (hd : (annexB (firstLong (us.filter fun u => avcUnitType u ≠ 6))).length ≤ dst.length) :
    avcc2AnnexB dst (avcc us ++ tail) [] =
      ok ((annexB (firstLong (us.filter fun u => avcUnitType u ≠ 6))).length,
        annexB (firstLong (us.filter fun u => avcUnitType u ≠ 6)) ++
          dst.drop (annexB (firstLong (us.filter fun u => avcUnitType u ≠ 6))).length) := by
  have hfe : (us.filter fun u => avcUnitType u ≠ 6) = us.filter fun u => !isSEI u := by
    congr 1; funext u; simp [isSEI]
  rw [hfe, ← toAnnexB_firstLong us []] at hd ⊢
  have := avcc2AnnexBLoop_spec [] us tail hus ht [] [] dst (by simpa using hd)
  simpa [avcc2AnnexB, seenType] using this

/-- **C32**: without extra data a destination as long as the input always suffices, whatever the input is. -/
theorem C32_fits (p dst : Bytes) (hd : p.length ≤ dst.length) :
    ∃ n dst', avcc2AnnexB dst p [] = ok (n, dst') ∧ n ≤ p.length ∧ dst'.length = dst.length := by
  obtain ⟨us, tail, rfl, hus, ht⟩ := avcc_decompose p
  have hle := toAnnexB_length_le isSEI us [] []
  rw [toAnnexB_firstLong us []] at hle
  have hfe : (us.filter fun u => avcUnitType u ≠ 6) = us.filter fun u => !isSEI u := by
    congr 1; funext u; simp [isSEI]
  simp only [List.length_append, List.length_nil] at hle hd
  refine ⟨_, _, C32_avcc_to_annexB us tail dst hus ht (by rw [hfe]; omega), ?_, ?_⟩
  · rw [hfe]; simp; omega
  · rw [hfe]; simp only [List.length_append, List.length_drop]; omega

example : avcc2AnnexB (List.replicate 13 0xaa) [0, 0, 0, 1, 6, 0, 0, 0, 2, 0x65, 9, 0, 9] [] =
    ok (6, [0, 0, 0, 1, 0x65, 9] ++ List.replicate 7 0xaa) := by decide +kernel
example : NoUnit 4 [0, 9] := by
  intro u rest _ _ h
  have := congrArg List.length h
  simp [avccUnit] at this
  omega
example : avcc2AnnexB (List.replicate 12 0) [0, 0, 0, 1, 0x41, 0, 0, 0, 1, 0x42] [] =
    ok (9, [0, 0, 0, 1, 0x41, 0, 0, 1, 0x42, 0, 0, 0]) := by decide +kernel

/-- **C33**: with extra data it goes, whole, before each IDR unit (type 5) that no SPS or PPS precedes; see `toAnnexB`. -/
theorem C33_extra_data (us : List Bytes) (tail extra dst : Bytes) (hus : ∀ u ∈ us, u ≠ [] ∧ u.length < 2 ^ 32)
    (ht : NoUnit 4 tail) (hd : (toAnnexB (fun u => decide (avcUnitType u = 6)) extra [] [] us).length ≤ dst.length) :
    avcc2AnnexB dst (avcc us ++ tail) extra =
      ok ((toAnnexB (fun u => decide (avcUnitType u = 6)) extra [] [] us).length,
        toAnnexB (fun u => decide (avcUnitType u = 6)) extra [] [] us ++
          dst.drop (toAnnexB (fun u => decide (avcUnitType u = 6)) extra [] [] us).length) := by
  have hs : (fun u => decide (avcUnitType u = 6)) = isSEI := rfl
  rw [hs] at hd ⊢
  have := avcc2AnnexBLoop_spec extra us tail hus ht [] [] dst (by simpa using hd)
  simpa [avcc2AnnexB, seenType] using this

/-- What `toAnnexB` says, part one: once a parameter set came by, or without IDR units, no extra data is written. -/
theorem C33_not_inserted (drop : Bytes → Bool) (extra : Bytes) (us before : List Bytes) (out : Bytes)
    (h : ∀ a u b, us = a ++ u :: b → avcUnitType u = 5 → drop u ∨ ∃ v ∈ before ++ a, avcUnitType v = 7 ∨ avcUnitType v = 8) :
    toAnnexB drop extra before out us = toAnnexB drop [] before out us := by
  induction us generalizing before out with
  | nil => rfl
  | cons u us ih =>
    have h' : ∀ a w b, us = a ++ w :: b → avcUnitType w = 5 →
        drop w ∨ ∃ v ∈ (before ++ [u]) ++ a, avcUnitType v = 7 ∨ avcUnitType v = 8 := by
      intro a w b he hw
      have := h (u :: a) w b (by simp [he]) hw
      simpa using this
    rw [toAnnexB, toAnnexB]
    by_cases hd : drop u
    · rw [if_pos hd, if_pos hd, ih _ _ h']
    · rw [if_neg hd, if_neg hd]
      have hc : ¬ (avcUnitType u = 5 ∧ ∀ v ∈ before, avcUnitType v ≠ 7 ∧ avcUnitType v ≠ 8) := by
        rintro ⟨h5, hall⟩
        rcases h [] u us rfl h5 with hh | ⟨v, hv, hv'⟩
        · exact hd hh
        · rw [List.append_nil] at hv
          have := hall v hv
          rcases hv' with e | e
          · exact this.1 e
          · exact this.2 e
      simp only [if_neg hc]
      exact ih _ _ h'

/-- Part two: an IDR unit that comes before any parameter set gets it. -/
theorem C33_inserted (drop : Bytes → Bool) (extra : Bytes) (a : List Bytes) (u : Bytes) (b : List Bytes)
    (hu : avcUnitType u = 5) (hd : drop u = false) (ha : ∀ v ∈ a, avcUnitType v ≠ 7 ∧ avcUnitType v ≠ 8) :
    ∃ c post, toAnnexB drop extra [] [] (a ++ u :: b) = toAnnexB drop extra [] [] a ++ extra ++ code c ++ u ++ post := by
  suffices h : ∀ (before : List Bytes) (out : Bytes), (∀ v ∈ before, avcUnitType v ≠ 7 ∧ avcUnitType v ≠ 8) →
      ∃ c post, toAnnexB drop extra before out (a ++ u :: b) = toAnnexB drop extra before out a ++ extra ++ code c ++ u ++ post from
    h [] [] (by simp)
  induction a with
  | nil =>
    intro before out hb
    rw [List.nil_append, show toAnnexB drop extra before out [] = out from rfl, toAnnexB, if_neg (by simp [hd])]
    simp only [hu, true_and]
    rw [if_pos hb]
    obtain ⟨z, hz⟩ := toAnnexB_prefix drop extra b (before ++ [u]) (out ++ extra ++ code (decide (out ++ extra = [])) ++ u)
    exact ⟨_, z, hz⟩
  | cons w a ih =>
    intro before out hb
    have hb' : ∀ v ∈ before ++ [w], avcUnitType v ≠ 7 ∧ avcUnitType v ≠ 8 := by
      intro v hv
      rcases List.mem_append.1 hv with h | h
      · exact hb v h
      · exact ha v (by simp at h; simp [h])
    rw [List.cons_append, toAnnexB, toAnnexB]
    split
    · exact ih (fun v hv => ha v (by simp [hv])) _ _ hb'
    · exact ih (fun v hv => ha v (by simp [hv])) _ _ hb'

example : avcc2AnnexB (List.replicate 12 0) [0, 0, 0, 1, 0x65] [0xaa, 0xbb] =
    ok (6, [0xaa, 0xbb, 0, 0, 1, 0x65] ++ List.replicate 6 0) := by decide +kernel
example : avcc2AnnexB (List.replicate 12 0) [0, 0, 0, 1, 0x67, 0, 0, 0, 1, 0x65] [0xaa, 0xbb] =
    ok (9, [0, 0, 0, 1, 0x67, 0, 0, 1, 0x65] ++ List.replicate 3 0) := by decide +kernel

/-! ## Annex B to AVCC -/

/-- **C34** (partial: the units have to be non-empty and must not begin with a zero byte). For every sequence of clean
units, any choice of start codes and any prefix without a start code, the result is the length-prefixed units. -/
theorem C34_annexB_to_avcc_partial (pre : Bytes) (hpre : NoCode pre) (xs : List (Bool × Bytes)) (hne : xs ≠ [])
    (hxs : ∀ x ∈ xs, Clean x.2) (hxl : ∀ x ∈ xs, x.2.length < 2 ^ 32) (dst : Bytes)
    (hfit : (avcc (xs.map (·.2))).length ≤ dst.length) :
    annexB2AVCC dst (pre ++ annexB xs) =
      ok ((avcc (xs.map (·.2))).length, avcc (xs.map (·.2)) ++ dst.drop (avcc (xs.map (·.2))).length) :=
  annexB2AVCC_spec pre hpre xs hne hxs hxl dst hfit

/-- **C34**: without a start code nothing is written. -/
theorem C34_no_start_code (dst p : Bytes) (h : ∀ j, ¬ StartAt p j) : annexB2AVCC dst p = ok (0, dst) := by
  unfold annexB2AVCC
  rcases findStartCode_cases p with ⟨hf, _⟩ | ⟨j, _, hs, _⟩
  · rw [hf]; rfl
  · exact absurd hs (h j)

/-- The full claim, as the comment in the code has it: empty units are skipped. -/
def C34_claim : Prop := ∀ (xs : List (Bool × Bytes)) (dst : Bytes), (∀ x ∈ xs, x.2 = [] ∨ Clean x.2) → xs ≠ [] →
  (avcc ((xs.map (·.2)).filter (· ≠ []))).length ≤ dst.length →
  ∃ dst', annexB2AVCC dst (annexB xs) = ok ((avcc ((xs.map (·.2)).filter (· ≠ []))).length, dst')

/-- An empty unit is not skipped: the last byte of its successor's start code becomes part of the data. -/
theorem C34_empty_unit_violated : ¬ C34_claim := by
  intro h
  obtain ⟨d, hd⟩ := h [(true, []), (true, [0x67, 0x42])] (List.replicate 20 0) (by decide) (by decide) (by decide)
  have : annexB2AVCC (List.replicate 20 0) (annexB [(true, []), (true, [0x67, 0x42])]) =
      ok (7, [0, 0, 0, 3, 1, 0x67, 0x42] ++ List.replicate 13 0) := by decide +kernel
  rw [this] at hd
  have h1 := congrArg (fun x => match x with | Go.ok (n, _) => n | _ => 0) hd
  simp only at h1
  exact absurd h1 (by decide)

example : Clean [0x67, 0x42] ∧ Clean [0x68] ∧ annexB [(true, [0x67, 0x42]), (false, [0x68])] = [0, 0, 0, 1, 0x67, 0x42, 0, 0, 1, 0x68] ∧
    annexB2AVCC (List.replicate 11 0) [0, 0, 0, 1, 0x67, 0x42, 0, 0, 1, 0x68] = ok (11, [0, 0, 0, 2, 0x67, 0x42, 0, 0, 0, 1, 0x68]) := by
  decide +kernel

/-- **C35**: AVCC → Annex B → AVCC. -/
theorem C35_round_trip (us : List Bytes) (hne : us ≠ []) (hus : ∀ u ∈ us, Clean u ∧ u.length < 2 ^ 32 ∧ avcUnitType u ≠ 6)
    (dst dst2 : Bytes) (hd : (avcc us).length ≤ dst.length) (hd2 : (avcc us).length ≤ dst2.length) :
    ∃ n b, avcc2AnnexB dst (avcc us) [] = ok (n, b) ∧ n ≤ b.length ∧
      annexB2AVCC dst2 (b.take n) = ok ((avcc us).length, avcc us ++ dst2.drop (avcc us).length) := by
  have hfil : (us.filter fun u => avcUnitType u ≠ 6) = us := by
    rw [List.filter_eq_self]; intro u hu; simpa using (hus u hu).2.2
  have hno : NoUnit 4 [] := by
    intro u rest hu _ he
    have := congrArg List.length he
    simp [avccUnit] at this
    omega
  have hle := toAnnexB_length_le isSEI us [] []
  have hfe : (us.filter fun u => avcUnitType u ≠ 6) = us.filter fun u => !isSEI u := by
    congr 1; funext u; simp [isSEI]
  rw [toAnnexB_firstLong us [], ← hfe, hfil] at hle
  have h1 := C32_avcc_to_annexB us [] dst (fun u hu => ⟨(hus u hu).1.ne, (hus u hu).2.1⟩) hno
    (by rw [hfil]; simp at hle; omega)
  rw [hfil, List.append_nil] at h1
  refine ⟨_, _, h1, by simp, ?_⟩
  rw [List.take_left]
  have hmap : (firstLong us).map (·.2) = us := by
    cases us with
    | nil => rfl
    | cons u us => simp [firstLong, Function.comp_def]
  have hmem : ∀ x ∈ firstLong us, x.2 ∈ us := by
    intro x hx
    have := List.mem_map_of_mem (f := (·.2)) hx
    rwa [hmap] at this
  have := annexB2AVCC_spec [] (by intro j hj; simp at hj) (firstLong us)
    (by cases us with | nil => exact absurd rfl hne | cons u us => simp [firstLong])
    (fun x hx => (hus _ (hmem x hx)).1) (fun x hx => (hus _ (hmem x hx)).2.1) dst2 (by rw [hmap]; exact hd2)
  rwa [hmap, List.nil_append] at this

example : Clean [0x67, 1] ∧ Clean [0x65] ∧ avcUnitType [0x65] ≠ 6 ∧ avcUnitType [0x67, 1] ≠ 6 ∧
    avcc2AnnexB (List.replicate 11 0) (avcc [[0x67, 1], [0x65]]) [] = ok (10, [0, 0, 0, 1, 0x67, 1, 0, 0, 1, 0x65, 0]) := by
  decide +kernel

/-! ## `Mp4ToAnnexB` -/

/-- **C37**: `avc.Mp4ToAnnexB` on a writer with enough room appends the units (SEI included), with the extra data before
each IDR that no SPS or PPS precedes. -/
theorem C37_mp4_to_annexB (us : List Bytes) (tail extra pre room : Bytes) (hus : ∀ u ∈ us, u ≠ [] ∧ u.length < 2 ^ 32)
    (ht : NoUnit 4 tail) (hf : Fits pre room)
    (hd : (toAnnexB (fun _ => false) extra [] [] us).length ≤ room.length) :
    mp4ToAnnexB (cursor pre room) (avcc us ++ tail) extra =
      ok (cursor (pre ++ toAnnexB (fun _ => false) extra [] [] us)
        (room.drop (toAnnexB (fun _ => false) extra [] [] us).length)) := by
  have := mp4ToAnnexBLoop_spec extra pre us tail hus ht [] [] room (by simpa using hf) (by simpa using hd)
  simpa [mp4ToAnnexB, seenType] using this

example : mp4ToAnnexB (cursor [7] (List.replicate 20 0)) [0, 0, 0, 1, 6, 0, 0, 0, 1, 0x65, 0] [0xaa] =
    ok (cursor [7, 0, 0, 0, 1, 6, 0xaa, 0, 0, 1, 0x65] (List.replicate 10 0)) := by decide +kernel

/-- **C46**: `hevc.Mp4ToAnnexB` on complete units of at least two bytes with a `k ≤ 7` byte length (`k = 1..4` in a
record). -/
theorem C46_hevc_ok (us : List Bytes) (extra dst : Bytes) (k : Nat) (hk : k ≤ 7)
    (hus : ∀ u ∈ us, 2 ≤ u.length ∧ u.length < 256 ^ k) (hd : (hevcToAnnexB extra us).length ≤ dst.length) :
    hevcMp4ToAnnexB dst (lengthPrefixed k us) extra k =
      ok ((hevcToAnnexB extra us).length, hevcToAnnexB extra us ++ dst.drop (hevcToAnnexB extra us).length) :=
  hevcMp4ToAnnexB_ok extra dst k hk us hus hd

/-- **C46**: it fails if something incomplete or shorter than two bytes follows; with `C46_decompose` these are all
inputs. -/
theorem C46_hevc_err (us : List Bytes) (tail extra dst : Bytes) (k : Nat) (hk : k ≤ 7)
    (hus : ∀ u ∈ us, 2 ≤ u.length ∧ u.length < 256 ^ k) (hd : (hevcToAnnexB extra us).length ≤ dst.length)
    (hne : tail ≠ []) (ht : ∀ u rest, 2 ≤ u.length → u.length < 256 ^ k → tail ≠ avccUnit k u ++ rest) :
    hevcMp4ToAnnexB dst (lengthPrefixed k us ++ tail) extra k = err "invalid data" :=
  hevcMp4ToAnnexB_err extra dst k hk us tail hus ⟨hne, ht⟩ hd

theorem C46_decompose (k : Nat) (p : Bytes) : ∃ us tail, p = lengthPrefixed k us ++ tail ∧
    (∀ u ∈ us, 2 ≤ u.length ∧ u.length < 256 ^ k) ∧
    (tail = [] ∨ tail ≠ [] ∧ ∀ u rest, 2 ≤ u.length → u.length < 256 ^ k → tail ≠ avccUnit k u ++ rest) :=
  lengthPrefixed_decompose k p

example : hevcMp4ToAnnexB (List.replicate 20 9) (lengthPrefixed 2 [[0x02, 1], [0x26, 1], [0x28, 2]]) [0xaa] 2 =
    ok (19, [0, 0, 0, 1, 2, 1, 0xaa, 0, 0, 0, 1, 0x26, 1, 0, 0, 0, 1, 0x28, 2, 9]) := by decide +kernel
example : hevcMp4ToAnnexB (List.replicate 20 9) ([0, 2, 0x26, 1] ++ [0, 3, 1]) [] 2 = err "invalid data" := by decide +kernel

/-! ## `M4VCExtraDataToAnnexB` -/

/-- The claim: a record with any number of SPS gives all parameter sets. -/
def C38_claim : Prop := ∀ (hdr : Bytes) (b4 b5 : Byte) (sps pps : List Bytes) (src : Bytes), hdr.length = 4 → 0 < sps.length →
  (b5 &&& 0x1f).toNat = sps.length → pps.length < 256 → (∀ u ∈ sps ++ pps, u.length < 2 ^ 16) →
  src = hdr ++ [b4, b5] ++ sps.flatMap unit16 ++ [BitVec.ofNat 8 pps.length] ++ pps.flatMap unit16 → src.length < 2 ^ 62 →
  m4vcExtraDataToAnnexB src = ok (withCodes (sps ++ pps))

/-- **C38** (partial: exactly one SPS, and the output at most 256 bytes longer than the record – with one SPS that is at
most 130 PPS). -/
theorem C38_one_sps_partial (hdr : Bytes) (b4 b5 : Byte) (sps : Bytes) (pps : List Bytes) (trailing src : Bytes)
    (hh : hdr.length = 4) (h5 : b5 &&& 0x1f = 1) (hs : sps.length < 2 ^ 16) (hn : pps.length < 131)
    (hp : ∀ u ∈ pps, u.length < 2 ^ 16)
    (hsrc : src = hdr ++ [b4, b5] ++ unit16 sps ++ [BitVec.ofNat 8 pps.length] ++ pps.flatMap unit16 ++ trailing)
    (hlen : src.length < 2 ^ 62) : m4vcExtraDataToAnnexB src = ok (withCodes (sps :: pps)) := by
  refine (m4vc_one hdr hh b4 b5 h5 sps pps hs (by omega) hp trailing src hsrc hlen).1 ?_
  have key : ∀ l : List Bytes, (withCodes l).length = (l.flatMap unit16).length + 2 * l.length := by
    intro l
    induction l with
    | nil => rfl
    | cons u l ih => rw [withCodes_cons]; simp [length_unit16] at ih ⊢; omega
  rw [withCodes_cons, List.length_append, key pps, hsrc]
  simp [length_unit16]
  omega

/-- With more PPS the writer is too small and the function fails. -/
theorem C38_too_many (hdr : Bytes) (b4 b5 : Byte) (sps : Bytes) (pps : List Bytes) (src : Bytes)
    (hh : hdr.length = 4) (h5 : b5 &&& 0x1f = 1) (hs : sps.length < 2 ^ 16) (hn : 131 ≤ pps.length) (hn' : pps.length < 256)
    (hp : ∀ u ∈ pps, u.length < 2 ^ 16)
    (hsrc : src = hdr ++ [b4, b5] ++ unit16 sps ++ [BitVec.ofNat 8 pps.length] ++ pps.flatMap unit16)
    (hlen : src.length < 2 ^ 62) : ∃ e, m4vcExtraDataToAnnexB src = err e := by
  refine (m4vc_one hdr hh b4 b5 h5 sps pps hs (by omega) hp [] src (by simpa using hsrc) hlen).2 ?_
  have key : ∀ l : List Bytes, (withCodes l).length = (l.flatMap unit16).length + 2 * l.length := by
    intro l
    induction l with
    | nil => rfl
    | cons u l ih => rw [withCodes_cons]; simp [length_unit16] at ih ⊢; omega
  rw [withCodes_cons, List.length_append, key pps, hsrc]
  simp [length_unit16]
  omega

/-- With two SPS the PPS are dropped. -/
theorem C38_two_sps_violated : ¬ C38_claim := by
  intro h
  have h1 := h [1, 2, 3, 4] 0xff 0xe2 [[0x67], [0x67, 1]] [[0x68]] _ rfl (by decide) (by decide) (by decide) (by decide) rfl (by decide)
  have h2 : m4vcExtraDataToAnnexB ([1, 2, 3, 4] ++ [0xff, 0xe2] ++ [[0x67], [0x67, 1]].flatMap unit16 ++
      [BitVec.ofNat 8 1] ++ [[0x68]].flatMap unit16) = ok [0, 0, 0, 1, 0x67, 0, 0, 0, 1, 0x67, 1] := by decide +kernel
  rw [show ([[0x68]] : List Bytes).length = 1 from rfl, h2] at h1
  exact absurd h1 (by decide)

def C38_total_claim : Prop := ∀ src : Bytes, m4vcExtraDataToAnnexB src ≠ panic

/-- A truncated SPS panics (slice bounds out of range). -/
theorem C38_truncated_violated : ¬ C38_total_claim := by
  intro h
  exact h [1, 2, 3, 4, 0xff, 0xe1, 0, 9, 0x67] (by decide +kernel)

example : m4vcExtraDataToAnnexB [1, 2, 3, 4, 0xff, 0xe1, 0, 2, 0x67, 7, 1, 0, 1, 0x68] =
    ok [0, 0, 0, 1, 0x67, 7, 0, 0, 0, 1, 0x68] := by decide +kernel

end Avf
