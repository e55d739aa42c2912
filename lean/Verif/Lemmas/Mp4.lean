import Verif.Lemmas.AnnexB
import Verif.Lemmas.Cursor
/-! # Conversions through a writer, H.265 conversion: lemmas -/
namespace Avf
open Go

/-! ## `avc.Mp4ToAnnexB` -/

theorem writeTwo (out r c data : Bytes) (hf : Fits out r) (h : c.length + data.length ≤ r.length) {α : Type}
    (k : BytesBuf → Go α) :
    ((cursor out r).write c >>= fun x => x.2.write data >>= fun y => k y.2) =
      k (cursor (out ++ c ++ data) (r.drop (c.length + data.length))) := by
  have hfl := hf
  unfold Fits at hfl
  rw [(cursor_write hf c (by omega)).1 (by omega)]
  simp only [ok_bind]
  rw [(cursor_write (hf.write (by omega)) data (by omega)).1 (by rw [List.length_drop]; omega)]
  simp only [ok_bind, List.drop_drop]

theorem copyNalU_code (out r data : Bytes) (n : Nat) (hf : Fits out r)
    (h : (code (decide (n = 0))).length + data.length ≤ r.length) :
    copyNalU (cursor out r) data n true =
      ok ((code (decide (n = 0))).length + data.length,
        cursor (out ++ code (decide (n = 0)) ++ data) (r.drop ((code (decide (n = 0))).length + data.length))) := by
  unfold copyNalU
  simp only [if_true]
  by_cases hn : n = 0
  · simp only [hn, decide_true, if_true] at h ⊢
    exact writeTwo out r (code true) data hf h fun w => pure (4 + data.length, w)
  · simp only [hn, decide_false, if_false] at h ⊢
    exact writeTwo out r (code false) data hf h fun w => pure (3 + data.length, w)

theorem copyNalU_plain (out r data : Bytes) (n : Nat) (hf : Fits out r) (h : data.length ≤ r.length) :
    copyNalU (cursor out r) data n false = ok (data.length, cursor (out ++ data) (r.drop data.length)) := by
  have hfl := hf
  unfold Fits at hfl
  unfold copyNalU
  simp only [Bool.false_eq_true, if_false]
  rw [(cursor_write hf data (by omega)).1 h]; rfl

/-- The writer holds `pre` before the call; `out` are the bytes of this call. -/
theorem mp4ToAnnexBLoop_spec (extra pre : Bytes) (us : List Bytes) (tail : Bytes) (hus : ∀ u ∈ us, u ≠ [] ∧ u.length < 2 ^ 32)
    (ht : NoUnit 4 tail) (before : List Bytes) (out r : Bytes) (hf : Fits (pre ++ out) r)
    (hfit : (toAnnexB (fun _ => false) extra before out us).length ≤ out.length + r.length) :
    mp4ToAnnexBLoop extra (cursor (pre ++ out) r) (avcc us ++ tail) out.length (seenType 7 before) (seenType 8 before) =
      ok (cursor (pre ++ toAnnexB (fun _ => false) extra before out us)
        (r.drop ((toAnnexB (fun _ => false) extra before out us).length - out.length))) := by
  induction us generalizing before out r with
  | nil =>
    have hr : mp4ToAnnexBLoop extra (cursor (pre ++ out) r) tail out.length (seenType 7 before) (seenType 8 before) =
        ok (cursor (pre ++ out) r) := by
      rw [mp4ToAnnexBLoop]
      by_cases hl : 4 < tail.length
      · rw [dif_pos hl]
        obtain ⟨v, hv, hc⟩ := noUnit_read ht hl
        rw [hv]
        simp only [ok_bind, if_pos hc]; rfl
      · rw [dif_neg hl]
    simp only [toAnnexB, avcc, List.flatMap_nil, List.nil_append, hr, Nat.sub_self, List.drop_zero]
  | cons u us ih =>
    have hu := hus u (by simp)
    obtain ⟨a, v, rfl⟩ := List.exists_cons_of_ne_nil hu.1
    have hpos : 0 < (a :: v).length := by simp
    generalize hU : a :: v = u at *
    have hform : avcc (u :: us) ++ tail = avccUnit 4 u ++ (avcc us ++ tail) := by rw [avcc_cons, List.append_assoc]
    have hdrop : (avccUnit 4 u ++ (avcc us ++ tail)).drop (4 + u.length) = avcc us ++ tail := by
      rw [← length_avccUnit, List.drop_left]
    have hidx : idx (avccUnit 4 u ++ (avcc us ++ tail)) 4 = ok a := by
      rw [idx_eq_ok, avccUnit, List.append_assoc, List.getElem?_append_right (by simp), ← hU]; simp
    have hslice : slice (avccUnit 4 u ++ (avcc us ++ tail)) 4 (4 + u.length) = ok u := by
      rw [slice_of_le (by omega) (by rw [List.length_append, length_avccUnit]; omega)]
      rw [← length_avccUnit 4 u, List.take_left, avccUnit, List.drop_append_of_le_length (by simp)]
      rw [List.drop_of_length_le (by simp)]; rfl
    have htype : avcUnitType u = avcType a := by rw [← hU]; rfl
    have hrest := fun w hw => hus w (List.mem_cons_of_mem _ hw)
    rw [hform, mp4ToAnnexBLoop, dif_pos (by rw [List.length_append, length_avccUnit]; omega), uint32At_avcc _ _ hu.2]
    simp only [ok_bind, ofNat32_toNat hu.2]
    rw [if_neg (by rw [List.length_append, length_avccUnit]; omega), hidx, hdrop, hslice]
    simp only [ok_bind, avcType_mask a 7 7 rfl, avcType_mask a 8 8 rfl, avcType_mask a 5 5 rfl, ← htype]
    rw [toAnnexB] at hfit ⊢
    simp only [Bool.false_eq_true, if_false] at hfit ⊢
    have hmain : ∀ o r', Fits (pre ++ o) r' →
        (toAnnexB (fun _ => false) extra (before ++ [u]) (o ++ code (decide (o = [])) ++ u) us).length ≤ o.length + r'.length →
        (copyNalU (cursor (pre ++ o) r') u o.length true >>= fun x =>
          mp4ToAnnexBLoop extra x.2 (avcc us ++ tail) (o.length + x.1) (seenType 7 before || decide (avcUnitType u = 7))
            (seenType 8 before || decide (avcUnitType u = 8))) =
        ok (cursor (pre ++ toAnnexB (fun _ => false) extra (before ++ [u]) (o ++ code (decide (o = [])) ++ u) us)
          (r'.drop ((toAnnexB (fun _ => false) extra (before ++ [u]) (o ++ code (decide (o = [])) ++ u) us).length - o.length))) := by
      intro o r' hf' hfit'
      have hge := toAnnexB_length_ge (fun _ => false) extra us (before ++ [u]) (o ++ code (decide (o = [])) ++ u)
      have hz : decide (o.length = 0) = decide (o = []) := by simp
      have hcl : (code (decide (o.length = 0))).length + u.length ≤ r'.length := by
        rw [hz]; simp only [List.length_append] at hge hfit' ⊢; omega
      rw [copyNalU_code _ r' u o.length hf' hcl, hz]
      simp only [ok_bind]
      rw [hz] at hcl
      have hl2 : o.length + ((code (decide (o = []))).length + u.length) = (o ++ code (decide (o = [])) ++ u).length := by
        simp only [List.length_append]; omega
      have happ : pre ++ o ++ code (decide (o = [])) ++ u = pre ++ (o ++ code (decide (o = [])) ++ u) := by
        simp only [List.append_assoc]
      rw [hl2, ← seenType_snoc, ← seenType_snoc, happ]
      rw [ih hrest (before ++ [u]) (o ++ code (decide (o = [])) ++ u) (r'.drop ((code (decide (o = []))).length + u.length))
          (by
            have := hf'.write (x := code (decide (o = [])) ++ u) (by rw [List.length_append]; exact hcl)
            rw [List.length_append] at this
            rwa [List.append_assoc, ← List.append_assoc o] at this)
          (by simp only [List.length_append, List.length_drop] at hge hfit' ⊢; omega)]
      rw [List.drop_drop]
      simp only [List.length_append] at hge
      rw [show (code (decide (o = []))).length + u.length +
          ((toAnnexB (fun _ => false) extra (before ++ [u]) (o ++ code (decide (o = [])) ++ u) us).length -
            (o ++ code (decide (o = [])) ++ u).length) =
          (toAnnexB (fun _ => false) extra (before ++ [u]) (o ++ code (decide (o = [])) ++ u) us).length - o.length by
        simp only [List.length_append]; omega]
    by_cases hx : avcUnitType u = 5 ∧ ∀ w ∈ before, avcUnitType w ≠ 7 ∧ avcUnitType w ≠ 8
    · have hx' := (seen_iff before).2 hx.2
      have hb7 : (seenType 7 before || decide (avcUnitType u = 7)) = false := by
        simp [hx.1]; simpa using hx'.1
      have hb8 : (seenType 8 before || decide (avcUnitType u = 8)) = false := by
        simp [hx.1]; simpa using hx'.2
      rw [if_pos (⟨hx.1, by rw [hb7]; simp, by rw [hb8]; simp⟩ : avcUnitType u = 5 ∧
        ¬ (seenType 7 before || decide (avcUnitType u = 7)) = true ∧ ¬ (seenType 8 before || decide (avcUnitType u = 8)) = true)]
      rw [if_pos hx] at hfit ⊢
      have hge := toAnnexB_length_ge (fun _ => false) extra us (before ++ [u]) (out ++ extra ++ code (decide (out ++ extra = [])) ++ u)
      have hel : extra.length ≤ r.length := by simp only [List.length_append] at hge hfit; omega
      rw [copyNalU_plain _ _ _ _ hf hel]
      simp only [ok_bind, pure_def]
      rw [← List.length_append, List.append_assoc pre]
      rw [hmain (out ++ extra) (r.drop extra.length) (by have := hf.write hel; rwa [List.append_assoc] at this)
        (by simp only [List.length_append, List.length_drop] at hfit ⊢; omega)]
      rw [List.drop_drop]
      simp only [List.length_append] at hge
      rw [show extra.length + ((toAnnexB (fun _ => false) extra (before ++ [u]) (out ++ extra ++ code (decide (out ++ extra = [])) ++ u) us).length -
          (out ++ extra).length) =
        (toAnnexB (fun _ => false) extra (before ++ [u]) (out ++ extra ++ code (decide (out ++ extra = [])) ++ u) us).length - out.length by
        simp only [List.length_append]; omega]
    · have hcond : ¬ (avcUnitType u = 5 ∧ ¬ (seenType 7 before || decide (avcUnitType u = 7)) = true ∧
            ¬ (seenType 8 before || decide (avcUnitType u = 8)) = true) := by
        rintro ⟨h5, h7, h8⟩
        refine hx ⟨h5, (seen_iff before).1 ⟨fun h => h7 (by simp [h]), fun h => h8 (by simp [h])⟩⟩
      rw [if_neg hcond]
      rw [if_neg hx] at hfit ⊢
      simp only [ok_bind]
      exact hmain out r hf hfit

/-! ## `hevc.Mp4ToAnnexB` -/

theorem lengthField_fold (bs : Bytes) (n : BitVec 64) (j : Nat) (hj : n.toNat < 256 ^ j) (h : j + bs.length ≤ 7) :
    (bs.foldl (fun (n : BitVec 64) b => n <<< 8 ||| b.setWidth 64) n).toNat = 256 ^ bs.length * n.toNat + beNat bs := by
  induction bs generalizing n j with
  | nil => simp [beNat]
  | cons b bs ih =>
    simp only [List.length_cons] at h
    have hb := b.isLt
    have hn : n.toNat < 256 ^ 6 := Nat.lt_of_lt_of_le hj (Nat.pow_le_pow_right (by omega) (by omega))
    have hstep : (n <<< 8 ||| b.setWidth 64).toNat = n.toNat * 256 + b.toNat := by
      rw [BitVec.toNat_or, BitVec.toNat_shiftLeft, setWidth_byte_toNat _ (by omega), Nat.shiftLeft_eq,
        Nat.mod_eq_of_lt (by omega), ← Nat.shiftLeft_eq, ← Nat.shiftLeft_add_eq_or_of_lt (by omega)]
    rw [List.foldl_cons, ih _ (j + 1) (by rw [hstep, Nat.pow_succ]; omega) (by omega), hstep, beNat_cons, List.length_cons,
      Nat.pow_succ, Nat.mul_add, ← Nat.add_assoc]
    congr 1
    rw [Nat.mul_comm n.toNat, ← Nat.mul_assoc]

theorem lengthField_eq (bs : Bytes) (h : bs.length ≤ 7) : lengthField bs = beNat bs := by
  have h1 := lengthField_fold bs 0 0 (by simp) (by omega)
  have h2 := beNat_lt bs
  have h3 : 256 ^ bs.length ≤ 256 ^ 7 := Nat.pow_le_pow_right (by omega) h
  unfold lengthField
  have h4 : (bs.foldl (fun (n : BitVec 64) b => n <<< 8 ||| b.setWidth 64) 0).toNat = beNat bs := by simpa using h1
  rw [BitVec.toInt_eq_toNat_of_lt (by rw [h4]; omega), h4]

/-- Output from the state `n` bytes written, random access unit seen or not. -/
def hevcOut (extra : Bytes) (seen : Bool) (us : List Bytes) : Bytes :=
  if seen then us.flatMap ([0, 0, 0, 1] ++ ·) else hevcToAnnexB extra us

theorem hevcOut_cons (extra : Bytes) (seen : Bool) (u : Bytes) (us : List Bytes) :
    hevcOut extra seen (u :: us) =
      (if decide (isIRAP u) = true ∧ ¬ seen = true then extra else []) ++ [0, 0, 0, 1] ++ u ++ hevcOut extra (seen || decide (isIRAP u)) us := by
  unfold hevcOut
  cases seen with
  | true => simp
  | false =>
    by_cases h : isIRAP u
    · simp [hevcToAnnexB, h]
    · simp [hevcToAnnexB, h]

/-- `p` is not empty and does not begin with a complete unit of at least two bytes. -/
def BadUnit (k : Nat) (p : Bytes) : Prop :=
  p ≠ [] ∧ ∀ u rest, 2 ≤ u.length → u.length < 256 ^ k → p ≠ avccUnit k u ++ rest

theorem hevcMp4Loop_bad {extra dst p : Bytes} {k n : Nat} {seen : Bool} (hk : k ≤ 7) (h : BadUnit k p) :
    hevcMp4Loop extra k dst p n seen = err "invalid data" := by
  have hp : 0 < p.length := List.length_pos_iff.2 h.1
  rw [hevcMp4Loop, dif_pos hp]
  by_cases hl : p.length < k
  · rw [if_pos hl]
  · rw [if_neg hl]
    have hkl : (p.take k).length = k := take_len (by omega)
    simp only
    rw [lengthField_eq _ (by omega)]
    rw [dif_pos]
    apply Classical.byContradiction
    intro hc
    rw [not_or] at hc
    have h1 : 2 ≤ beNat (p.take k) := by omega
    have h2 : beNat (p.take k) ≤ (p.drop k).length := by omega
    have h3 := beNat_lt (p.take k)
    rw [hkl] at h3
    have hul : ((p.drop k).take (beNat (p.take k))).length = beNat (p.take k) := take_len h2
    refine h.2 ((p.drop k).take (beNat (p.take k))) ((p.drop k).drop (beNat (p.take k))) (by omega) (by omega) ?_
    have := beBytes_beNat (p.take k)
    rw [hkl] at this
    rw [avccUnit, hul, List.append_assoc, List.take_append_drop, this, List.take_append_drop]

theorem hevcMp4Loop_unit {extra dst : Bytes} {k n : Nat} {seen : Bool} (hk : k ≤ 7) {u rest : Bytes} (h2 : 2 ≤ u.length)
    (hlt : u.length < 256 ^ k) {out r : Bytes} (hd : dst = out ++ r) (hn : n = out.length)
    (hfit : ((if decide (isIRAP u) = true ∧ ¬ seen = true then extra else []) ++ [0, 0, 0, 1] ++ u).length ≤ r.length) :
    hevcMp4Loop extra k dst (avccUnit k u ++ rest) n seen =
      hevcMp4Loop extra k
        (out ++ ((if decide (isIRAP u) = true ∧ ¬ seen = true then extra else []) ++ [0, 0, 0, 1] ++ u) ++
          r.drop ((if decide (isIRAP u) = true ∧ ¬ seen = true then extra else []) ++ [0, 0, 0, 1] ++ u).length)
        rest (out ++ ((if decide (isIRAP u) = true ∧ ¬ seen = true then extra else []) ++ [0, 0, 0, 1] ++ u)).length
        (seen || decide (isIRAP u)) := by
  obtain ⟨a, v, rfl⟩ := List.exists_cons_of_ne_nil (l := u) (by intro h; simp [h] at h2)
  generalize hU : a :: v = u at *
  have htype : hevcUnitType u = hevcType a := by rw [← hU]; rfl
  have htake : (avccUnit k u ++ rest).take k = beBytes k u.length := by
    rw [avccUnit, List.append_assoc, List.take_append_of_le_length (by simp), List.take_of_length_le (by simp)]
  have hdropk : (avccUnit k u ++ rest).drop k = u ++ rest := by
    rw [avccUnit, List.append_assoc, List.drop_append_of_le_length (by simp), List.drop_of_length_le (by simp)]; rfl
  rw [hevcMp4Loop, dif_pos (by rw [List.length_append, length_avccUnit]; omega),
    if_neg (by rw [List.length_append, length_avccUnit]; omega)]
  simp only [htake, hdropk]
  have hsize : lengthField (beBytes k u.length) = u.length := by
    rw [lengthField_eq _ (by simpa using hk), beNat_beBytes, Nat.mod_eq_of_lt hlt]
  simp only [hsize, Int.toNat_natCast]
  rw [dif_neg (by rw [List.length_append]; omega)]
  have hidx : idx (u ++ rest) 0 = ok a := by rw [← hU]; rfl
  rw [hidx]
  simp only [ok_bind]
  have hr : ((16 : Byte) ≤ a >>> 1 &&& 0x3F ∧ a >>> 1 &&& 0x3F ≤ 23) ↔ isIRAP u := by
    unfold isIRAP
    rw [BitVec.le_def, BitVec.le_def, hevcType_toNat, htype]; exact Iff.rfl
  simp only [hr]
  rw [slice_of_le (by omega) (by rw [List.length_append]; omega), List.take_left, List.drop_left]
  simp only [ok_bind, List.drop_zero]
  subst hd hn
  have hc4 : startCode4 = [0, 0, 0, 1] := rfl
  by_cases hx : decide (isIRAP u) = true ∧ ¬ seen = true
  · simp only [if_pos hx] at hfit ⊢
    have hcont : ∀ o r' : Bytes, ([0, 0, 0, 1] ++ u : Bytes).length ≤ r'.length →
        (copyAt (o ++ r') o.length startCode4 >>= fun dst => copyAt dst (o.length + 4) u >>= fun dst =>
          hevcMp4Loop extra k dst rest (o.length + 4 + u.length) (seen || decide (isIRAP u))) =
        hevcMp4Loop extra k (o ++ [0, 0, 0, 1] ++ u ++ r'.drop (4 + u.length)) rest (o ++ [0, 0, 0, 1] ++ u).length
          (seen || decide (isIRAP u)) := by
      intro o r' hl
      simp only [List.length_append, List.length_cons, List.length_nil] at hl
      rw [hc4, copyAt_append _ _ _ (by simp; omega)]
      simp only [ok_bind]
      rw [show o.length + 4 = (o ++ [0, 0, 0, 1] : Bytes).length by simp, copyAt_append _ _ _ (by simp; omega)]
      simp only [ok_bind, List.drop_drop, List.length_append, List.length_cons, List.length_nil]
    by_cases he : 0 < extra.length
    · rw [if_pos ⟨hx.1, hx.2, he⟩]
      simp only [List.length_append, List.length_cons, List.length_nil] at hfit
      rw [copyAt_append _ _ _ (by omega)]
      simp only [ok_bind, pure_def]
      rw [← List.length_append, hcont _ _ (by simp; omega)]
      simp only [List.append_assoc, List.drop_drop, List.length_append, List.length_cons, List.length_nil]
    · have hnil : extra = [] := List.length_eq_zero_iff.1 (by omega)
      rw [if_neg (fun h => he h.2.2)]
      simp only [hnil, List.nil_append, ok_bind] at hfit ⊢
      rw [hnil] at hcont
      rw [hcont _ _ hfit]
      simp only [List.append_assoc, List.length_append, List.length_cons, List.length_nil]
  · simp only [if_neg hx, List.nil_append] at hfit ⊢
    rw [if_neg (fun h => hx ⟨h.1, h.2.1⟩)]
    simp only [ok_bind]
    simp only [List.length_append, List.length_cons, List.length_nil] at hfit
    rw [hc4, copyAt_append _ _ _ (by simp; omega)]
    simp only [ok_bind]
    rw [show out.length + 4 = (out ++ [0, 0, 0, 1] : Bytes).length by simp, copyAt_append _ _ _ (by simp; omega)]
    simp only [ok_bind, List.drop_drop, List.length_append, List.length_cons, List.length_nil, List.append_assoc]
    congr 1
    omega

theorem hevcMp4Loop_spec (extra : Bytes) (k : Nat) (hk : k ≤ 7) (us : List Bytes) (tail : Bytes)
    (hus : ∀ u ∈ us, 2 ≤ u.length ∧ u.length < 256 ^ k) (seen : Bool) (out r : Bytes)
    (hfit : (hevcOut extra seen us).length ≤ r.length) :
    hevcMp4Loop extra k (out ++ r) (lengthPrefixed k us ++ tail) out.length seen =
      hevcMp4Loop extra k (out ++ hevcOut extra seen us ++ r.drop (hevcOut extra seen us).length) tail
        (out ++ hevcOut extra seen us).length (seen || us.any fun u => decide (isIRAP u)) := by
  induction us generalizing seen out r with
  | nil =>
    have : hevcOut extra seen [] = [] := by cases seen <;> rfl
    rw [this]; simp [lengthPrefixed]
  | cons u us ih =>
    have hu := hus u (by simp)
    rw [hevcOut_cons] at hfit ⊢
    have hform : lengthPrefixed k (u :: us) ++ tail = avccUnit k u ++ (lengthPrefixed k us ++ tail) := by
      simp [lengthPrefixed]
    rw [hform]
    generalize hX : (if decide (isIRAP u) = true ∧ ¬ seen = true then extra else []) ++ [0, 0, 0, 1] ++ u = X at *
    rw [List.length_append] at hfit
    have := hevcMp4Loop_unit (extra := extra) (dst := out ++ r) (n := out.length) (seen := seen) hk (rest := lengthPrefixed k us ++ tail)
      hu.1 hu.2 rfl rfl (by rw [hX]; omega)
    rw [hX] at this
    rw [this, ih (fun w hw => hus w (by simp [hw])) (seen || decide (isIRAP u)) (out ++ X) (r.drop X.length)
      (by rw [List.length_drop]; omega)]
    rw [List.drop_drop, ← List.length_append, List.any_cons, Bool.or_assoc, List.append_assoc out X]

theorem hevcMp4ToAnnexB_ok (extra dst : Bytes) (k : Nat) (hk : k ≤ 7) (us : List Bytes)
    (hus : ∀ u ∈ us, 2 ≤ u.length ∧ u.length < 256 ^ k) (hfit : (hevcToAnnexB extra us).length ≤ dst.length) :
    hevcMp4ToAnnexB dst (lengthPrefixed k us) extra k =
      ok ((hevcToAnnexB extra us).length, hevcToAnnexB extra us ++ dst.drop (hevcToAnnexB extra us).length) := by
  have := hevcMp4Loop_spec extra k hk us [] hus false [] dst hfit
  simp only [List.nil_append, List.append_nil, List.length_nil] at this
  unfold hevcMp4ToAnnexB
  rw [this, hevcMp4Loop, dif_neg (by simp)]
  rfl

theorem hevcMp4ToAnnexB_err (extra dst : Bytes) (k : Nat) (hk : k ≤ 7) (us : List Bytes) (tail : Bytes)
    (hus : ∀ u ∈ us, 2 ≤ u.length ∧ u.length < 256 ^ k) (ht : BadUnit k tail)
    (hfit : (hevcToAnnexB extra us).length ≤ dst.length) :
    hevcMp4ToAnnexB dst (lengthPrefixed k us ++ tail) extra k = err "invalid data" := by
  have := hevcMp4Loop_spec extra k hk us tail hus false [] dst hfit
  simp only [List.nil_append, List.length_nil] at this
  unfold hevcMp4ToAnnexB
  rw [this, hevcMp4Loop_bad hk ht]

/-- Every string is a sequence of complete units of at least two bytes, followed by nothing or by something that is not
one. -/
theorem lengthPrefixed_decompose (k : Nat) (p : Bytes) : ∃ us tail, p = lengthPrefixed k us ++ tail ∧
    (∀ u ∈ us, 2 ≤ u.length ∧ u.length < 256 ^ k) ∧ (tail = [] ∨ BadUnit k tail) := by
  induction hn : p.length using Nat.strongRecOn generalizing p with
  | ind N ih =>
  subst hn
  by_cases h0 : p = []
  · exact ⟨[], [], by simp [h0, lengthPrefixed], by simp, .inl rfl⟩
  by_cases h : BadUnit k p
  · exact ⟨[], p, rfl, by simp, .inr h⟩
  · have : ∃ u rest, 2 ≤ u.length ∧ u.length < 256 ^ k ∧ p = avccUnit k u ++ rest := by
      apply Classical.byContradiction
      intro hc
      exact h ⟨h0, fun u rest h1 h2 h3 => hc ⟨u, rest, h1, h2, h3⟩⟩
    obtain ⟨u, rest, h1, h2, rfl⟩ := this
    obtain ⟨us, tail, rfl, hus, ht⟩ := ih rest.length (by simp [length_avccUnit]; omega) rest rfl
    refine ⟨u :: us, tail, by simp [lengthPrefixed], ?_, ht⟩
    intro v hv
    rcases List.mem_cons.1 hv with rfl | hv
    · exact ⟨h1, h2⟩
    · exact hus v hv

end Avf
