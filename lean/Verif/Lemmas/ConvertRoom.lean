import Verif.Spec.ConvertRoom
import Verif.Lemmas.Avcc
import Verif.Lemmas.Mp4
/-!
# The conversions to Annex B on a destination of any length
-/
namespace Avf
open Go

theorem length_blit (dst out : Bytes) : (blit dst out).length = dst.length := by
  simp [blit]; omega

theorem blit_nil (dst : Bytes) : blit dst [] = dst := by simp [blit]

theorem overwrite_blit (dst out x : Bytes) (h : out.length ≤ dst.length) :
    overwrite (blit dst out) out.length x = blit dst (out ++ x) := by
  have e : blit dst out = out ++ dst.drop out.length := by rw [blit, List.take_of_length_le h]
  unfold overwrite
  rw [length_blit, e, List.take_left, ← List.drop_drop, List.drop_left, List.drop_drop]
  unfold blit
  rw [List.take_append, List.take_of_length_le h, List.length_append]

theorem copyAt_blit (dst out x : Bytes) :
    copyAt (blit dst out) out.length x = if out.length ≤ dst.length then ok (blit dst (out ++ x)) else Go.panic := by
  unfold copyAt
  rw [length_blit]
  split
  · rename_i h; rw [overwrite_blit _ _ _ h]
  · rfl

theorem putAt_blit (dst out x : Bytes) :
    putAt (blit dst out) out.length x = if out.length + x.length ≤ dst.length then ok (blit dst (out ++ x)) else Go.panic := by
  unfold putAt
  rw [length_blit]
  split
  · rename_i h; rw [overwrite_blit _ _ _ (by omega)]
  · rfl

/-- A unit with its start code. -/
theorem copyNalU_blit (dst out u : Bytes) :
    copyNalUWithBytes (blit dst out) out.length u out.length true =
      if (out ++ code (decide (out = []))).length ≤ dst.length then
        ok ((code (decide (out = []))).length + u.length, blit dst (out ++ code (decide (out = [])) ++ u))
      else Go.panic := by
  unfold copyNalUWithBytes
  rw [length_blit]
  by_cases h0 : out.length > dst.length
  · rw [if_pos h0, if_neg (by rw [List.length_append]; omega)]
  rw [if_neg h0, if_pos rfl]
  have key : ∀ (c : Bytes), (putAt (blit dst out) out.length c >>= fun d => copyAt d (out.length + c.length) u >>= fun d =>
      (pure (c.length + u.length, d) : Go (Nat × Bytes))) =
      if (out ++ c).length ≤ dst.length then ok (c.length + u.length, blit dst (out ++ c ++ u)) else Go.panic := by
    intro c
    rw [putAt_blit, ← List.length_append]
    by_cases h : (out ++ c).length ≤ dst.length
    · rw [if_pos h, ok_bind, copyAt_blit, if_pos h, if_pos h]
      rfl
    · rw [if_neg h, if_neg h]
      rfl
  by_cases he : out = []
  · subst he
    have := key (be32 1)
    exact this
  · rw [if_neg (by rwa [List.length_eq_zero_iff]), decide_eq_false he]
    exact key startCode3

/-- The extra data. -/
theorem copyExtra_blit (dst out x : Bytes) (n : Nat) :
    copyNalUWithBytes (blit dst out) out.length x n false =
      if out.length ≤ dst.length then ok (x.length, blit dst (out ++ x)) else Go.panic := by
  unfold copyNalUWithBytes
  rw [length_blit]
  by_cases h0 : out.length > dst.length
  · rw [if_pos h0, if_neg (by omega)]
  · rw [if_neg h0, if_neg (by simp), copyAt_blit, if_pos (by omega), if_pos (by omega)]
    rfl

theorem lastLength_cons (u : Bytes) (us : List Bytes) : lastLength (u :: us) = if us = [] then u.length else lastLength us := by
  cases us with
  | nil => rfl
  | cons v vs => simp [lastLength, List.getLast?_cons_cons]

/-- The last unit that is not dropped ends the output. -/
theorem toAnnexB_last (drop : Bytes → Bool) (extra : Bytes) (us before : List Bytes) (out : Bytes)
    (hne : us.filter (fun u => !drop u) ≠ []) :
    out.length + lastLength (us.filter fun u => !drop u) ≤ (toAnnexB drop extra before out us).length := by
  induction us generalizing before out with
  | nil => exact absurd rfl hne
  | cons u us ih =>
    rw [toAnnexB]
    by_cases hd : drop u = true
    · rw [List.filter_cons_of_neg (by simp [hd])] at hne ⊢
      rw [if_pos hd]
      exact ih _ _ hne
    · rw [List.filter_cons_of_pos (by simp [hd]), if_neg hd, lastLength_cons]
      dsimp only
      generalize ho : (if avcUnitType u = 5 ∧ ∀ v ∈ before, avcUnitType v ≠ 7 ∧ avcUnitType v ≠ 8 then out ++ extra else out) = o
      have hle : out.length ≤ o.length := by
        rw [← ho]; split
        · simp
        · exact Nat.le_refl _
      split
      · have := toAnnexB_length_ge drop extra us (before ++ [u]) (o ++ code (decide (o = [])) ++ u)
        simp only [List.length_append] at this
        omega
      · rename_i h
        have := ih (before ++ [u]) (o ++ code (decide (o = [])) ++ u) h
        simp only [List.length_append] at this
        omega

theorem toAnnexB_dropped (drop : Bytes → Bool) (extra : Bytes) (us before : List Bytes) (out : Bytes)
    (h : us.filter (fun u => !drop u) = []) : toAnnexB drop extra before out us = out := by
  induction us generalizing before with
  | nil => rfl
  | cons u us ih =>
    by_cases hd : drop u = true
    · rw [List.filter_cons_of_neg (by simp [hd])] at h
      rw [toAnnexB, if_pos hd, ih _ h]
    · rw [List.filter_cons_of_pos (by simp [hd])] at h
      cases h

theorem avcc2AnnexBLoop_any (extra dst : Bytes) (us : List Bytes) (tail : Bytes) (hus : ∀ u ∈ us, u ≠ [] ∧ u.length < 2 ^ 32)
    (ht : NoUnit 4 tail) (before : List Bytes) (out : Bytes) :
    avcc2AnnexBLoop extra (blit dst out) (avcc us ++ tail) out.length (seenType 7 before) (seenType 8 before) =
      if us.filter (fun u => !isSEI u) ≠ [] ∧
          dst.length + lastLength (us.filter fun u => !isSEI u) < (toAnnexB isSEI extra before out us).length then Go.panic
      else ok ((toAnnexB isSEI extra before out us).length, blit dst (toAnnexB isSEI extra before out us)) := by
  induction us generalizing before out with
  | nil =>
    have hr : avcc2AnnexBLoop extra (blit dst out) tail out.length (seenType 7 before) (seenType 8 before) =
        ok (out.length, blit dst out) := by
      rw [avcc2AnnexBLoop]
      by_cases hl : 4 < tail.length
      · rw [dif_pos hl]
        obtain ⟨v, hv, hc⟩ := noUnit_read ht hl
        rw [hv]
        simp only [ok_bind, if_pos hc]; rfl
      · rw [dif_neg hl]
    rw [if_neg (fun h => h.1 rfl)]
    exact hr
  | cons u us ih =>
    have hu := hus u (by simp)
    obtain ⟨a, v, rfl⟩ := List.exists_cons_of_ne_nil hu.1
    have hpos : 0 < (a :: v).length := by simp
    generalize hU : a :: v = u at *
    have hform : avcc (u :: us) ++ tail = avccUnit 4 u ++ (avcc us ++ tail) := by rw [avcc_cons, List.append_assoc]
    have hdrop : (avccUnit 4 u ++ (avcc us ++ tail)).drop (4 + u.length) = avcc us ++ tail := by
      rw [← length_avccUnit, List.drop_left]
    have hidx : idx (avccUnit 4 u ++ (avcc us ++ tail)) 4 = ok a := by
      rw [idx_eq_ok, avccUnit, List.append_assoc, List.getElem?_append_right (by simp), ← hU]; simp
    have hslice : slice (avccUnit 4 u ++ (avcc us ++ tail)) 4 (4 + u.length) = ok u := by
      rw [slice_of_le (by omega) (by rw [List.length_append, length_avccUnit]; omega)]
      rw [← length_avccUnit 4 u, List.take_left, avccUnit, List.drop_append_of_le_length (by simp)]
      rw [List.drop_of_length_le (by simp)]; rfl
    have htype : avcUnitType u = avcType a := by rw [← hU]; rfl
    have hrest := fun w hw => hus w (List.mem_cons_of_mem _ hw)
    rw [hform, avcc2AnnexBLoop, dif_pos (by rw [List.length_append, length_avccUnit]; omega), uint32At_avcc _ _ hu.2]
    simp only [ok_bind, ofNat32_toNat hu.2]
    rw [if_neg (by rw [List.length_append, length_avccUnit]; omega), hidx, hdrop, hslice]
    simp only [ok_bind, avcType_mask a 6 6 rfl, avcType_mask a 7 7 rfl, avcType_mask a 8 8 rfl, avcType_mask a 5 5 rfl, ← htype]
    rw [toAnnexB]
    by_cases h6 : avcUnitType u = 6
    · have hd : isSEI u = true := by simp [isSEI, h6]
      have e7 : seenType 7 (before ++ [u]) = seenType 7 before := by rw [seenType_snoc]; simp [h6]
      have e8 : seenType 8 (before ++ [u]) = seenType 8 before := by rw [seenType_snoc]; simp [h6]
      have := ih hrest (before ++ [u]) out
      rw [e7, e8] at this
      rw [List.filter_cons_of_neg (by simp [hd]), if_pos h6, if_pos hd]
      exact this
    · have hd : isSEI u = false := by simp [isSEI, h6]
      rw [List.filter_cons_of_pos (by simp [hd]), if_neg h6, lastLength_cons]
      simp only [hd, Bool.false_eq_true, if_false]
      -- the unit itself, from output `o`
      have hmain : ∀ o, (copyNalUWithBytes (blit dst o) o.length u o.length true >>= fun x =>
            avcc2AnnexBLoop extra x.2 (avcc us ++ tail) (o.length + x.1) (seenType 7 before || decide (avcUnitType u = 7))
              (seenType 8 before || decide (avcUnitType u = 8))) =
          if u :: us.filter (fun u => !isSEI u) ≠ [] ∧
              dst.length + (if us.filter (fun u => !isSEI u) = [] then u.length else lastLength (us.filter fun u => !isSEI u)) <
                (toAnnexB isSEI extra (before ++ [u]) (o ++ code (decide (o = [])) ++ u) us).length then Go.panic
          else ok ((toAnnexB isSEI extra (before ++ [u]) (o ++ code (decide (o = [])) ++ u) us).length,
            blit dst (toAnnexB isSEI extra (before ++ [u]) (o ++ code (decide (o = [])) ++ u) us)) := by
        intro o
        have hl2 : o.length + ((code (decide (o = []))).length + u.length) = (o ++ code (decide (o = [])) ++ u).length := by
          simp only [List.length_append]; omega
        rw [copyNalU_blit]
        by_cases hc : (o ++ code (decide (o = []))).length ≤ dst.length
        · rw [if_pos hc, ok_bind]
          dsimp only
          rw [hl2, ← seenType_snoc, ← seenType_snoc, ih hrest]
          by_cases hn : us.filter (fun u => !isSEI u) = []
          · rw [if_neg (fun h => h.1 hn), if_neg]
            rintro ⟨-, h⟩
            rw [if_pos hn, toAnnexB_dropped _ _ _ _ _ hn, List.length_append] at h
            omega
          · rw [if_neg hn]
            simp only [ne_eq, hn, not_false_eq_true, true_and, reduceCtorEq]
        · rw [if_neg hc, if_pos]
          · rfl
          · refine ⟨by simp, ?_⟩
            split
            · rename_i hn
              rw [toAnnexB_dropped _ _ _ _ _ hn, List.length_append]
              omega
            · rename_i hn
              have := toAnnexB_last isSEI extra us (before ++ [u]) (o ++ code (decide (o = [])) ++ u) hn
              rw [List.length_append] at this
              omega
      by_cases hx : avcUnitType u = 5 ∧ ∀ w ∈ before, avcUnitType w ≠ 7 ∧ avcUnitType w ≠ 8
      · have hx' := (seen_iff before).2 hx.2
        have hb7 : (seenType 7 before || decide (avcUnitType u = 7)) = false := by
          simp [hx.1]; simpa using hx'.1
        have hb8 : (seenType 8 before || decide (avcUnitType u = 8)) = false := by
          simp [hx.1]; simpa using hx'.2
        rw [if_pos hx]
        by_cases he : 0 < extra.length
        · have hcond : avcUnitType u = 5 ∧ ¬ (seenType 7 before || decide (avcUnitType u = 7)) = true ∧
              ¬ (seenType 8 before || decide (avcUnitType u = 8)) = true ∧ extra.length > 0 :=
            ⟨hx.1, by rw [hb7]; simp, by rw [hb8]; simp, he⟩
          rw [if_pos hcond, copyExtra_blit]
          by_cases hc : out.length ≤ dst.length
          · rw [if_pos hc]
            simp only [ok_bind, pure_def]
            rw [← List.length_append]
            exact hmain (out ++ extra)
          · have := hmain (out ++ extra)
            rw [← this, if_neg hc, copyNalU_blit, if_neg (by simp only [List.length_append]; omega)]
            rfl
        · have hnil : extra = [] := List.length_eq_zero_iff.1 (by omega)
          rw [if_neg (fun h => he h.2.2.2), ok_bind]
          subst hnil
          rw [List.append_nil]
          exact hmain out
      · have hcond : ¬ (avcUnitType u = 5 ∧ ¬ (seenType 7 before || decide (avcUnitType u = 7)) = true ∧
              ¬ (seenType 8 before || decide (avcUnitType u = 8)) = true ∧ extra.length > 0) := by
          rintro ⟨h5, h7, h8, -⟩
          refine hx ⟨h5, (seen_iff before).1 ⟨fun h => h7 (by simp [h]), fun h => h8 (by simp [h])⟩⟩
        rw [if_neg hcond, if_neg hx, ok_bind]
        exact hmain out

/-! ## H.265 -/

theorem hevcOut_nil (extra : Bytes) (seen : Bool) : hevcOut extra seen [] = [] := by cases seen <;> rfl

theorem hevcOut_last (extra : Bytes) (us : List Bytes) (seen : Bool) : lastLength us ≤ (hevcOut extra seen us).length := by
  induction us generalizing seen with
  | nil => simp [lastLength]
  | cons u us ih =>
    have := ih (seen || decide (isIRAP u))
    rw [lastLength_cons, hevcOut_cons]
    simp only [List.length_append]
    split <;> omega

/-- One unit. -/
theorem hevcMp4Loop_one {extra dst out : Bytes} {k : Nat} {seen : Bool} (hk : k ≤ 7) {u rest : Bytes} (h2 : 2 ≤ u.length)
    (hlt : u.length < 256 ^ k) (o : Bytes) (ho : o = out ++ (if decide (isIRAP u) = true ∧ ¬ seen = true then extra else [])) :
    hevcMp4Loop extra k (blit dst out) (avccUnit k u ++ rest) out.length seen =
      if (o ++ [0, 0, 0, 1]).length ≤ dst.length then
        hevcMp4Loop extra k (blit dst (o ++ [0, 0, 0, 1] ++ u)) rest (o ++ [0, 0, 0, 1] ++ u).length (seen || decide (isIRAP u))
      else Go.panic := by
  obtain ⟨a, v, rfl⟩ := List.exists_cons_of_ne_nil (l := u) (by rintro rfl; simp at h2)
  generalize hU : a :: v = u at *
  have htype : hevcUnitType u = hevcType a := by rw [← hU]; rfl
  have htake : (avccUnit k u ++ rest).take k = beBytes k u.length := by
    rw [avccUnit, List.append_assoc, List.take_append_of_le_length (by simp), List.take_of_length_le (by simp)]
  have hdropk : (avccUnit k u ++ rest).drop k = u ++ rest := by
    rw [avccUnit, List.append_assoc, List.drop_append_of_le_length (by simp), List.drop_of_length_le (by simp)]; rfl
  rw [hevcMp4Loop, dif_pos (by rw [List.length_append, length_avccUnit]; omega),
    if_neg (by rw [List.length_append, length_avccUnit]; omega)]
  simp only [htake, hdropk]
  have hsize : lengthField (beBytes k u.length) = u.length := by
    rw [lengthField_eq _ (by simpa using hk), beNat_beBytes, Nat.mod_eq_of_lt hlt]
  simp only [hsize, Int.toNat_natCast]
  rw [dif_neg (by rw [List.length_append]; omega)]
  have hidx : idx (u ++ rest) 0 = ok a := by rw [← hU]; rfl
  rw [hidx]
  simp only [ok_bind]
  have hr : ((16 : Byte) ≤ a >>> 1 &&& 0x3F ∧ a >>> 1 &&& 0x3F ≤ 23) ↔ isIRAP u := by
    unfold isIRAP
    rw [BitVec.le_def, BitVec.le_def, hevcType_toNat, htype]; exact Iff.rfl
  simp only [hr]
  rw [slice_of_le (by omega) (by rw [List.length_append]; omega), List.take_left, List.drop_left]
  simp only [ok_bind, List.drop_zero]
  have hcont : (copyAt (blit dst o) o.length startCode4 >>= fun dst => copyAt dst (o.length + 4) u >>= fun dst =>
        hevcMp4Loop extra k dst rest (o.length + 4 + u.length) (seen || decide (isIRAP u))) =
      if (o ++ [0, 0, 0, 1]).length ≤ dst.length then
        hevcMp4Loop extra k (blit dst (o ++ [0, 0, 0, 1] ++ u)) rest (o ++ [0, 0, 0, 1] ++ u).length (seen || decide (isIRAP u))
      else Go.panic := by
    have e1 : o.length + 4 = (o ++ startCode4).length := by rw [List.length_append]; rfl
    have e2 : o.length + 4 + u.length = (o ++ startCode4 ++ u).length := by rw [List.length_append, e1]
    rw [copyAt_blit, e1, ← List.length_append]
    by_cases h : (o ++ startCode4).length ≤ dst.length
    · rw [if_pos (by omega), ok_bind, copyAt_blit, if_pos h, ok_bind]
      exact (if_pos h).symm
    · by_cases h' : o.length ≤ dst.length
      · rw [if_pos h', ok_bind, copyAt_blit, if_neg h]
        exact (if_neg h).symm
      · rw [if_neg h']
        exact (if_neg h).symm
  by_cases hx : decide (isIRAP u) = true ∧ ¬ seen = true
  · rw [if_pos hx] at ho
    by_cases he : 0 < extra.length
    · rw [if_pos ⟨hx.1, hx.2, he⟩, copyAt_blit]
      by_cases hc : out.length ≤ dst.length
      · rw [if_pos hc]
        simp only [ok_bind, pure_def]
        rw [← List.length_append, ← ho]
        exact hcont
      · rw [if_neg hc, if_neg (by rw [ho]; simp only [List.length_append]; omega)]
        rfl
    · have hnil : extra = [] := List.length_eq_zero_iff.1 (by omega)
      rw [hnil, List.append_nil] at ho
      rw [if_neg (fun h => he h.2.2)]
      simp only [ok_bind]
      rw [← ho]
      exact hcont
  · rw [if_neg hx, List.append_nil] at ho
    rw [if_neg (fun h => hx ⟨h.1, h.2.1⟩)]
    simp only [ok_bind]
    rw [← ho]
    exact hcont

theorem hevcMp4Loop_any (extra dst : Bytes) (k : Nat) (hk : k ≤ 7) (us : List Bytes) (tail : Bytes)
    (hus : ∀ u ∈ us, 2 ≤ u.length ∧ u.length < 256 ^ k) (seen : Bool) (out : Bytes) :
    hevcMp4Loop extra k (blit dst out) (lengthPrefixed k us ++ tail) out.length seen =
      if us ≠ [] ∧ dst.length + lastLength us < (out ++ hevcOut extra seen us).length then Go.panic
      else hevcMp4Loop extra k (blit dst (out ++ hevcOut extra seen us)) tail (out ++ hevcOut extra seen us).length
        (seen || us.any fun u => decide (isIRAP u)) := by
  induction us generalizing seen out with
  | nil => rw [hevcOut_nil, if_neg (fun h => h.1 rfl)]; simp [lengthPrefixed]
  | cons u us ih =>
    have hu := hus u (by simp)
    have hform : lengthPrefixed k (u :: us) ++ tail = avccUnit k u ++ (lengthPrefixed k us ++ tail) := by
      simp [lengthPrefixed]
    rw [hform, hevcMp4Loop_one hk hu.1 hu.2 _ rfl, hevcOut_cons, lastLength_cons]
    generalize (if decide (isIRAP u) = true ∧ ¬ seen = true then extra else []) = x
    have hassoc : out ++ (x ++ [0, 0, 0, 1] ++ u ++ hevcOut extra (seen || decide (isIRAP u)) us) =
        out ++ x ++ [0, 0, 0, 1] ++ u ++ hevcOut extra (seen || decide (isIRAP u)) us := by simp only [List.append_assoc]
    rw [hassoc, List.any_cons, ← Bool.or_assoc]
    have hlast := hevcOut_last extra us (seen || decide (isIRAP u))
    by_cases hc : (out ++ x ++ [0, 0, 0, 1]).length ≤ dst.length
    · rw [if_pos hc, ih (fun w hw => hus w (by simp [hw]))]
      by_cases hn : us = []
      · subst hn
        rw [if_neg (fun h => h.1 rfl), if_neg]
        rintro ⟨-, h⟩
        rw [if_pos rfl, hevcOut_nil, List.append_nil, List.length_append] at h
        omega
      · rw [if_neg hn]
        simp only [ne_eq, hn, not_false_eq_true, true_and, reduceCtorEq]
    · rw [if_neg hc, if_pos]
      refine ⟨by simp, ?_⟩
      rw [List.length_append (as := out ++ x ++ [0, 0, 0, 1] ++ u), List.length_append (as := out ++ x ++ [0, 0, 0, 1])]
      split
      · omega
      · omega

end Avf
