import Verif.Lemmas.KeyFrame
/-! # AVCC and Annex B conversion: lemmas -/
namespace Avf
open Go

theorem copyAt_append {α : Type} (out r x : List α) (h : x.length ≤ r.length) :
    copyAt (out ++ r) out.length x = ok (out ++ x ++ r.drop x.length) := by
  rw [copyAt_of_le (by simp)]
  unfold overwrite
  rw [List.take_left, List.length_append, Nat.add_sub_cancel_left, List.take_of_length_le h,
    ← List.drop_drop, List.drop_left]

theorem putAt_append (out r x : Bytes) (h : x.length ≤ r.length) :
    putAt (out ++ r) out.length x = ok (out ++ x ++ r.drop x.length) := by
  unfold putAt
  rw [if_pos (by simp; omega)]
  unfold overwrite
  rw [List.take_left, List.length_append, Nat.add_sub_cancel_left, List.take_of_length_le h,
    ← List.drop_drop, List.drop_left]

theorem copyNalUWithBytes_code (out r data : Bytes) (n : Nat) (h : (code (decide (n = 0))).length + data.length ≤ r.length) :
    copyNalUWithBytes (out ++ r) out.length data n true =
      ok ((code (decide (n = 0))).length + data.length,
        out ++ code (decide (n = 0)) ++ data ++ r.drop ((code (decide (n = 0))).length + data.length)) := by
  unfold copyNalUWithBytes
  rw [if_neg (by simp)]
  simp only [if_true]
  by_cases hn : n = 0
  · simp only [hn, decide_true, if_true] at h ⊢
    have hc : be32 1 = code true := by decide
    rw [hc, putAt_append _ _ _ (by omega)]
    simp only [ok_bind]
    rw [show out.length + 4 = (out ++ code true).length by simp [code],
      copyAt_append _ _ _ (by simp only [List.length_drop]; omega), List.drop_drop]
    rfl
  · simp only [hn, decide_false, if_false] at h ⊢
    have hc : startCode3 = code false := rfl
    rw [hc, putAt_append _ _ _ (by omega)]
    simp only [ok_bind]
    rw [show out.length + 3 = (out ++ code false).length by simp [code],
      copyAt_append _ _ _ (by simp only [List.length_drop]; omega), List.drop_drop]
    rfl

theorem copyNalUWithBytes_plain (out r data : Bytes) (n : Nat) (h : data.length ≤ r.length) :
    copyNalUWithBytes (out ++ r) out.length data n false = ok (data.length, out ++ data ++ r.drop data.length) := by
  unfold copyNalUWithBytes
  rw [if_neg (by simp)]
  simp only [Bool.false_eq_true, if_false]
  rw [copyAt_append _ _ _ h]
  rfl

/-! ## Length-prefixed streams -/

theorem length_avccUnit (k : Nat) (u : Bytes) : (avccUnit k u).length = k + u.length := by simp [avccUnit]

theorem avcc_cons (u : Bytes) (us : List Bytes) : avcc (u :: us) = avccUnit 4 u ++ avcc us := rfl

theorem uint32At_avcc (u rest : Bytes) (h : u.length < 2 ^ 32) :
    uint32At (avccUnit 4 u ++ rest) 0 = ok (BitVec.ofNat 32 u.length) := by
  rw [uint32At_eq _ _ (by simp [length_avccUnit]; omega)]
  congr 2
  rw [List.drop_zero, avccUnit, List.append_assoc, List.take_append_of_le_length (by simp), List.take_of_length_le (by simp),
    beNat_beBytes]
  omega

theorem ofNat32_toNat {n : Nat} (h : n < 2 ^ 32) : (BitVec.ofNat 32 n).toNat = n := by
  rw [BitVec.toNat_ofNat, Nat.mod_eq_of_lt h]

/-- A tail that begins with no complete unit: what the loops read there. -/
theorem noUnit_read {tail : Bytes} (h : NoUnit 4 tail) (hl : 4 < tail.length) :
    ∃ v : BitVec 32, uint32At tail 0 = ok v ∧ (v.toNat = 0 ∨ tail.length - 4 < v.toNat) := by
  have hlt : beNat (tail.take 4) < 256 ^ 4 := by
    have := beNat_lt (tail.take 4)
    rwa [List.length_take, Nat.min_eq_left (by omega)] at this
  refine ⟨_, uint32At_eq _ _ (by omega), ?_⟩
  rw [List.drop_zero, ofNat32_toNat (by omega)]
  by_cases h0 : beNat (tail.take 4) = 0
  · exact .inl h0
  · right
    apply Nat.lt_of_not_le
    intro hle
    have hu : ((tail.drop 4).take (beNat (tail.take 4))).length = beNat (tail.take 4) := by
      rw [List.length_take, List.length_drop, Nat.min_eq_left hle]
    refine h ((tail.drop 4).take (beNat (tail.take 4))) ((tail.drop 4).drop (beNat (tail.take 4))) ?_ ?_ ?_
    · intro he; rw [he] at hu; simp at hu; omega
    · rw [hu]; exact hlt
    · rw [avccUnit, hu, List.append_assoc, List.take_append_drop]
      have := beBytes_beNat (tail.take 4)
      rw [List.length_take, Nat.min_eq_left (by omega)] at this
      rw [this, List.take_append_drop]

/-- Every byte string is a sequence of complete units followed by something that is not one. -/
theorem avcc_decompose (p : Bytes) : ∃ us tail, p = avcc us ++ tail ∧ (∀ u ∈ us, u ≠ [] ∧ u.length < 2 ^ 32) ∧ NoUnit 4 tail := by
  induction hn : p.length using Nat.strongRecOn generalizing p with
  | ind N ih =>
  subst hn
  by_cases h : NoUnit 4 p
  · exact ⟨[], p, rfl, by simp, h⟩
  · simp only [NoUnit] at h
    have : ∃ u rest, u ≠ [] ∧ u.length < 256 ^ 4 ∧ p = avccUnit 4 u ++ rest := by
      apply Classical.byContradiction
      intro hc
      exact h fun u rest h1 h2 h3 => hc ⟨u, rest, h1, h2, h3⟩
    obtain ⟨u, rest, h1, h2, rfl⟩ := this
    obtain ⟨us, tail, rfl, hus, ht⟩ := ih rest.length (by simp [length_avccUnit]; omega) rest rfl
    refine ⟨u :: us, tail, by rw [avcc_cons, List.append_assoc], ?_, ht⟩
    intro v hv
    rcases List.mem_cons.1 hv with rfl | hv
    · exact ⟨h1, by omega⟩
    · exact hus v hv

/-! ## `toAnnexB` -/

theorem toAnnexB_prefix (drop : Bytes → Bool) (extra : Bytes) (us before : List Bytes) (out : Bytes) :
    ∃ z, toAnnexB drop extra before out us = out ++ z := by
  induction us generalizing before out with
  | nil => exact ⟨[], by simp [toAnnexB]⟩
  | cons u us ih =>
    rw [toAnnexB]
    split
    · exact ih _ _
    · simp only
      split
      · obtain ⟨z, hz⟩ := ih (before ++ [u]) (out ++ extra ++ code (decide (out ++ extra = [])) ++ u)
        exact ⟨extra ++ code (decide (out ++ extra = [])) ++ u ++ z, by rw [hz]; simp [List.append_assoc]⟩
      · obtain ⟨z, hz⟩ := ih (before ++ [u]) (out ++ code (decide (out = [])) ++ u)
        exact ⟨code (decide (out = [])) ++ u ++ z, by rw [hz]; simp [List.append_assoc]⟩

theorem toAnnexB_length_ge (drop : Bytes → Bool) (extra : Bytes) (us before : List Bytes) (out : Bytes) :
    out.length ≤ (toAnnexB drop extra before out us).length := by
  obtain ⟨z, hz⟩ := toAnnexB_prefix drop extra us before out
  rw [hz]; simp

theorem length_code_le (b : Bool) : (code b).length ≤ 4 := by cases b <;> decide

theorem toAnnexB_length_le (drop : Bytes → Bool) (us before : List Bytes) (out : Bytes) :
    (toAnnexB drop [] before out us).length ≤ out.length + (avcc us).length := by
  induction us generalizing before out with
  | nil => simp [toAnnexB, avcc]
  | cons u us ih =>
    rw [toAnnexB, avcc_cons, List.length_append, length_avccUnit]
    split
    · have := ih (before ++ [u]) out; omega
    · simp only [List.append_nil, ite_self]
      have := ih (before ++ [u]) (out ++ code (decide (out = [])) ++ u)
      have hc := length_code_le (decide (out = []))
      simp only [List.length_append] at this
      omega

/-- No SPS or PPS among the units. -/
def noParams (us : List Bytes) : Bool := us.all fun v => avcUnitType v ≠ 7 && avcUnitType v ≠ 8

theorem noParams_iff (us : List Bytes) : noParams us = true ↔ ∀ v ∈ us, avcUnitType v ≠ 7 ∧ avcUnitType v ≠ 8 := by
  simp [noParams]

/-- The units of type SEI. -/
def isSEI (u : Bytes) : Bool := decide (avcUnitType u = 6)

/-- The flags of the loops: an SPS (PPS) was seen among `us`. -/
def seenType (t : Nat) (us : List Bytes) : Bool := us.any fun v => decide (avcUnitType v = t)

theorem seenType_snoc (t : Nat) (us : List Bytes) (u : Bytes) :
    seenType t (us ++ [u]) = (seenType t us || decide (avcUnitType u = t)) := by simp [seenType]

theorem seen_iff (us : List Bytes) :
    (¬ seenType 7 us = true ∧ ¬ seenType 8 us = true) ↔ ∀ v ∈ us, avcUnitType v ≠ 7 ∧ avcUnitType v ≠ 8 := by
  simp only [seenType, List.any_eq_true, decide_eq_true_eq, not_exists, not_and]
  exact ⟨fun h v hv => ⟨h.1 v hv, h.2 v hv⟩, fun h => ⟨fun v hv => (h v hv).1, fun v hv => (h v hv).2⟩⟩

theorem avcc2AnnexBLoop_spec (extra : Bytes) (us : List Bytes) (tail : Bytes) (hus : ∀ u ∈ us, u ≠ [] ∧ u.length < 2 ^ 32)
    (ht : NoUnit 4 tail) (before : List Bytes) (out r : Bytes)
    (hfit : (toAnnexB isSEI extra before out us).length ≤ (out ++ r).length) :
    avcc2AnnexBLoop extra (out ++ r) (avcc us ++ tail) out.length (seenType 7 before) (seenType 8 before) =
      ok ((toAnnexB isSEI extra before out us).length,
        toAnnexB isSEI extra before out us ++ (out ++ r).drop (toAnnexB isSEI extra before out us).length) := by
  induction us generalizing before out r with
  | nil =>
    have hr : avcc2AnnexBLoop extra (out ++ r) tail out.length (seenType 7 before) (seenType 8 before) = ok (out.length, out ++ r) := by
      rw [avcc2AnnexBLoop]
      by_cases hl : 4 < tail.length
      · rw [dif_pos hl]
        obtain ⟨v, hv, hc⟩ := noUnit_read ht hl
        rw [hv]
        simp only [ok_bind, if_pos hc]; rfl
      · rw [dif_neg hl]
    simp only [toAnnexB, avcc, List.flatMap_nil, List.nil_append, hr, List.drop_left]
  | cons u us ih =>
    have hu := hus u (by simp)
    obtain ⟨a, v, rfl⟩ := List.exists_cons_of_ne_nil hu.1
    have hpos : 0 < (a :: v).length := by simp
    generalize hU : a :: v = u at *
    have hform : avcc (u :: us) ++ tail = avccUnit 4 u ++ (avcc us ++ tail) := by rw [avcc_cons, List.append_assoc]
    have hdrop : (avccUnit 4 u ++ (avcc us ++ tail)).drop (4 + u.length) = avcc us ++ tail := by
      rw [← length_avccUnit, List.drop_left]
    have hidx : idx (avccUnit 4 u ++ (avcc us ++ tail)) 4 = ok a := by
      rw [idx_eq_ok, avccUnit, List.append_assoc, List.getElem?_append_right (by simp), ← hU]; simp
    have hslice : slice (avccUnit 4 u ++ (avcc us ++ tail)) 4 (4 + u.length) = ok u := by
      rw [slice_of_le (by omega) (by rw [List.length_append, length_avccUnit]; omega)]
      rw [← length_avccUnit 4 u, List.take_left, avccUnit, List.drop_append_of_le_length (by simp)]
      rw [List.drop_of_length_le (by simp)]; rfl
    have htype : avcUnitType u = avcType a := by rw [← hU]; rfl
    have hrest := fun w hw => hus w (List.mem_cons_of_mem _ hw)
    rw [hform, avcc2AnnexBLoop, dif_pos (by rw [List.length_append, length_avccUnit]; omega), uint32At_avcc _ _ hu.2]
    simp only [ok_bind, ofNat32_toNat hu.2]
    rw [if_neg (by rw [List.length_append, length_avccUnit]; omega), hidx, hdrop, hslice]
    simp only [ok_bind, avcType_mask a 6 6 rfl, avcType_mask a 7 7 rfl, avcType_mask a 8 8 rfl, avcType_mask a 5 5 rfl, ← htype]
    rw [toAnnexB] at hfit ⊢
    by_cases h6 : avcUnitType u = 6
    · have hd : isSEI u = true := by simp [isSEI, h6]
      simp only [h6, hd, if_true] at hfit ⊢
      have e7 : seenType 7 (before ++ [u]) = seenType 7 before := by rw [seenType_snoc]; simp [h6]
      have e8 : seenType 8 (before ++ [u]) = seenType 8 before := by rw [seenType_snoc]; simp [h6]
      have := ih hrest (before ++ [u]) out r hfit
      rw [e7, e8] at this
      exact this
    · have hd : isSEI u = false := by simp [isSEI, h6]
      simp only [if_neg h6, hd, Bool.false_eq_true, if_false] at hfit ⊢
      -- the unit itself, from output `o`
      have hmain : ∀ o r', o ++ r' = o ++ r' → (out ++ r).length = (o ++ r').length →
          (toAnnexB isSEI extra (before ++ [u]) (o ++ code (decide (o = [])) ++ u) us).length ≤ (o ++ r').length →
          (out ++ r).drop (o ++ code (decide (o = [])) ++ u).length = (o ++ r').drop (o ++ code (decide (o = [])) ++ u).length →
          (copyNalUWithBytes (o ++ r') o.length u o.length true >>= fun x =>
            avcc2AnnexBLoop extra x.2 (avcc us ++ tail) (o.length + x.1) (seenType 7 before || decide (avcUnitType u = 7))
              (seenType 8 before || decide (avcUnitType u = 8))) =
          ok ((toAnnexB isSEI extra (before ++ [u]) (o ++ code (decide (o = [])) ++ u) us).length,
            toAnnexB isSEI extra (before ++ [u]) (o ++ code (decide (o = [])) ++ u) us ++
              (out ++ r).drop (toAnnexB isSEI extra (before ++ [u]) (o ++ code (decide (o = [])) ++ u) us).length) := by
        intro o r' _ hlen hf hdr
        have hge := toAnnexB_length_ge isSEI extra us (before ++ [u]) (o ++ code (decide (o = [])) ++ u)
        have hz : decide (o.length = 0) = decide (o = []) := by simp
        have hcl : (code (decide (o.length = 0))).length + u.length ≤ r'.length := by
          rw [hz]
          simp only [List.length_append] at hge hf ⊢; omega
        rw [copyNalUWithBytes_code o r' u o.length hcl, hz]
        simp only [ok_bind]
        have hl2 : o.length + ((code (decide (o = []))).length + u.length) = (o ++ code (decide (o = [])) ++ u).length := by
          simp only [List.length_append]; omega
        rw [hl2, ← seenType_snoc, ← seenType_snoc]
        rw [hz] at hcl
        have := ih hrest (before ++ [u]) (o ++ code (decide (o = [])) ++ u) (r'.drop ((code (decide (o = []))).length + u.length))
          (by simp only [List.length_append, List.length_drop] at hf hge ⊢; omega)
        rw [this]
        congr 3
        -- the rest of the destination
        have hfull : o ++ code (decide (o = [])) ++ u ++ r'.drop ((code (decide (o = []))).length + u.length) =
            (o ++ code (decide (o = [])) ++ u) ++ (o ++ r').drop (o ++ code (decide (o = [])) ++ u).length := by
          rw [← hl2, ← List.drop_drop (l := o ++ r'), List.drop_left]
        rw [hfull]
        obtain ⟨z, hz'⟩ := toAnnexB_prefix isSEI extra us (before ++ [u]) (o ++ code (decide (o = [])) ++ u)
        rw [hz']
        rw [List.length_append (as := o ++ code (decide (o = [])) ++ u) (bs := z), ← List.drop_drop, ← List.drop_drop, hdr,
          List.drop_left]
      by_cases hx : avcUnitType u = 5 ∧ ∀ w ∈ before, avcUnitType w ≠ 7 ∧ avcUnitType w ≠ 8
      · have hx' := (seen_iff before).2 hx.2
        have hb7 : (seenType 7 before || decide (avcUnitType u = 7)) = false := by
          simp [hx.1]; simpa using hx'.1
        have hb8 : (seenType 8 before || decide (avcUnitType u = 8)) = false := by
          simp [hx.1]; simpa using hx'.2
        by_cases he : 0 < extra.length
        · have hcond : avcUnitType u = 5 ∧ ¬ (seenType 7 before || decide (avcUnitType u = 7)) = true ∧
              ¬ (seenType 8 before || decide (avcUnitType u = 8)) = true ∧ extra.length > 0 :=
            ⟨hx.1, by rw [hb7]; simp, by rw [hb8]; simp, he⟩
          rw [if_pos hcond]
          rw [if_pos hx] at hfit ⊢
          have hge := toAnnexB_length_ge isSEI extra us (before ++ [u]) (out ++ extra ++ code (decide (out ++ extra = [])) ++ u)
          have hel : extra.length ≤ r.length := by simp only [List.length_append] at hge hfit; omega
          rw [copyNalUWithBytes_plain _ _ _ _ hel]
          simp only [ok_bind, pure_def]
          rw [← List.length_append]
          refine hmain (out ++ extra) (r.drop extra.length) rfl (by simp; omega) ?_ ?_
          · simp only [List.length_append, List.length_drop] at hfit ⊢; omega
          · rw [List.append_assoc (out ++ extra)]
            rw [List.length_append (as := out ++ extra), ← List.drop_drop, ← List.drop_drop (l := out ++ extra ++ _), List.drop_left]
            rw [List.length_append (as := out), ← List.drop_drop (l := out ++ r), List.drop_left]
        · have hnil : extra = [] := List.length_eq_zero_iff.1 (by omega)
          rw [if_neg (by omega)]
          rw [if_pos hx, hnil, List.append_nil] at hfit ⊢
          rw [hnil] at hmain
          simp only [ok_bind]
          exact hmain out r rfl rfl hfit rfl
      · have hcond : ¬ (avcUnitType u = 5 ∧ ¬ (seenType 7 before || decide (avcUnitType u = 7)) = true ∧
              ¬ (seenType 8 before || decide (avcUnitType u = 8)) = true ∧ extra.length > 0) := by
          rintro ⟨h5, h7, h8, _⟩
          refine hx ⟨h5, (seen_iff before).1 ⟨fun h => h7 (by simp [h]), fun h => h8 (by simp [h])⟩⟩
        rw [if_neg hcond]
        rw [if_neg hx] at hfit ⊢
        simp only [ok_bind]
        exact hmain out r rfl rfl hfit rfl

end Avf
