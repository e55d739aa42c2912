import Verif.Lemmas.Split
import Verif.Lemmas.BytesBuf
/-! # Key frames, parameter sets of a key frame: lemmas -/
namespace Avf
open Go

theorem avcType_toNat (h : Byte) : (h &&& 0x1F).toNat = avcType h := by
  unfold avcType
  rw [BitVec.toNat_and, show (0x1F : Byte).toNat = 2 ^ 5 - 1 from rfl, Nat.and_two_pow_sub_one_eq_mod]

theorem avcType_mask (h k : Byte) (n : Nat) (hk : k.toNat = n) : (h &&& 0x1F = k) ↔ avcType h = n := by
  rw [← avcType_toNat, BitVec.toNat_eq, hk]

theorem hevcType_toNat (h : Byte) : (h >>> 1 &&& 0x3F).toNat = hevcType h := by
  unfold hevcType
  rw [BitVec.toNat_and, BitVec.toNat_ushiftRight, show (0x3F : Byte).toNat = 2 ^ 6 - 1 from rfl,
    Nat.and_two_pow_sub_one_eq_mod, Nat.shiftRight_eq_div_pow]

theorem hevcType_mask (h k : Byte) (n : Nat) (hk : k.toNat = n) : (h >>> 1 &&& 0x3F = k) ↔ hevcType h = n := by
  rw [← hevcType_toNat, BitVec.toNat_eq, hk]

theorem avcIsKeyFrame_none {p : Bytes} (h : findStartCode p = ok none) : avcIsKeyFrame p = ok false := by
  rw [avcIsKeyFrame]
  split
  · rfl
  · rename_i h'; rw [h] at h'; simp at h'
  · rename_i h'; rw [h] at h'; simp at h'
  · rename_i h'; rw [h] at h'; simp at h'

theorem avcIsKeyFrame_some {p : Bytes} {n m : Nat} {b : Byte} (h : findStartCode p = ok (some (n, m))) (hb : p[n]? = some b) :
    avcIsKeyFrame p =
      if avcType b = 6 ∨ avcType b = 9 ∨ avcType b = 8 ∨ avcType b = 7 then avcIsKeyFrame (p.drop n)
      else if avcType b = 5 then ok true else ok false := by
  rw [avcIsKeyFrame]
  split
  · rename_i h'; rw [h] at h'; simp at h'
  · rename_i n' m' h'
    rw [h] at h'
    simp only [Go.ok.injEq, Option.some.injEq, Prod.mk.injEq] at h'
    obtain ⟨rfl, rfl⟩ := h'
    simp only [hb, avcType_mask b 6 6 rfl, avcType_mask b 9 9 rfl, avcType_mask b 8 8 rfl, avcType_mask b 7 7 rfl,
      avcType_mask b 5 5 rfl]
  · rename_i h'; rw [h] at h'; simp at h'
  · rename_i h'; rw [h] at h'; simp at h'

theorem avcIsKeyFrame_eq (p : Bytes) : avcIsKeyFrame p = ok (avcKey (headers p)) := by
  induction hn : p.length using Nat.strongRecOn generalizing p with
  | ind N ih =>
  subst hn
  rcases findStartCode_cases p with ⟨h, hno⟩ | ⟨j, h, hs, hm⟩
  · rw [avcIsKeyFrame_none h, headers_none hno]; rfl
  · obtain ⟨b, hb, he⟩ := headers_some hs hm
    have hj := hs.1
    have hjl := hs.2.1
    rw [avcIsKeyFrame_some h hb, he]
    unfold avcKey
    by_cases hsk : avcType b = 6 ∨ avcType b = 9 ∨ avcType b = 8 ∨ avcType b = 7
    · rw [if_pos hsk, ih _ (by rw [List.length_drop]; omega) _ rfl, List.find?_cons_of_neg (by simp; omega)]; rfl
    · rw [if_neg hsk, List.find?_cons_of_pos (by simp; omega)]
      by_cases h5 : avcType b = 5
      · rw [if_pos h5]; simp [h5]
      · rw [if_neg h5]; simp [h5]

theorem hevcIsKeyFrame_none {p : Bytes} (h : findStartCode p = ok none) : hevcIsKeyFrame p = ok false := by
  rw [hevcIsKeyFrame]
  split
  · rfl
  · rename_i h'; rw [h] at h'; simp at h'
  · rename_i h'; rw [h] at h'; simp at h'
  · rename_i h'; rw [h] at h'; simp at h'

theorem hevcIsKeyFrame_some {p : Bytes} {n m : Nat} {b : Byte} (h : findStartCode p = ok (some (n, m))) (hb : p[n]? = some b) :
    hevcIsKeyFrame p =
      if 16 ≤ hevcType b ∧ hevcType b ≤ 23 then ok true
      else if hevcType b = 33 ∨ hevcType b = 34 ∨ hevcType b = 32 ∨ hevcType b = 39 ∨ hevcType b = 40 ∨ hevcType b = 35 then
        hevcIsKeyFrame (p.drop n)
      else ok false := by
  rw [hevcIsKeyFrame]
  split
  · rename_i h'; rw [h] at h'; simp at h'
  · rename_i n' m' h'
    rw [h] at h'
    simp only [Go.ok.injEq, Option.some.injEq, Prod.mk.injEq] at h'
    obtain ⟨rfl, rfl⟩ := h'
    have hr : ((16 : Byte) ≤ b >>> 1 &&& 0x3F ∧ b >>> 1 &&& 0x3F ≤ 23) ↔ 16 ≤ hevcType b ∧ hevcType b ≤ 23 := by
      rw [BitVec.le_def, BitVec.le_def, hevcType_toNat]; exact Iff.rfl
    simp only [hb, hr, hevcType_mask b 33 33 rfl, hevcType_mask b 34 34 rfl, hevcType_mask b 32 32 rfl,
      hevcType_mask b 39 39 rfl, hevcType_mask b 40 40 rfl, hevcType_mask b 35 35 rfl]
  · rename_i h'; rw [h] at h'; simp at h'
  · rename_i h'; rw [h] at h'; simp at h'

theorem hevcIsKeyFrame_eq (p : Bytes) : hevcIsKeyFrame p = ok (hevcKey (headers p)) := by
  induction hn : p.length using Nat.strongRecOn generalizing p with
  | ind N ih =>
  subst hn
  rcases findStartCode_cases p with ⟨h, hno⟩ | ⟨j, h, hs, hm⟩
  · rw [hevcIsKeyFrame_none h, headers_none hno]; rfl
  · obtain ⟨b, hb, he⟩ := headers_some hs hm
    have hj := hs.1
    have hjl := hs.2.1
    rw [hevcIsKeyFrame_some h hb, he]
    unfold hevcKey
    by_cases hk : 16 ≤ hevcType b ∧ hevcType b ≤ 23
    · rw [if_pos hk, List.find?_cons_of_pos (by simp; omega)]
      simp [hk]
    · rw [if_neg hk]
      by_cases hsk : hevcType b = 33 ∨ hevcType b = 34 ∨ hevcType b = 32 ∨ hevcType b = 39 ∨ hevcType b = 40 ∨ hevcType b = 35
      · rw [if_pos hsk, ih _ (by rw [List.length_drop]; omega) _ rfl, List.find?_cons_of_neg (by simp; omega)]; rfl
      · rw [if_neg hsk, List.find?_cons_of_pos (by simp; omega)]
        simp [hk]

/-- The last unit of type `t`, with a 4-byte start code. -/
def lastWithCode (type : Bytes → Nat) (t : Nat) (us : List Bytes) : Option Bytes :=
  ((us.filter fun u => type u = t).getLast?).map ([0, 0, 0, 1] ++ ·)

theorem lastWithCode_snoc (type : Bytes → Nat) (t : Nat) (us : List Bytes) (u : Bytes) :
    lastWithCode type t (us ++ [u]) = if type u = t then some ([0, 0, 0, 1] ++ u) else lastWithCode type t us := by
  unfold lastWithCode
  rw [List.filter_append]
  by_cases h : type u = t <;> simp [h, List.getLast?_append]

theorem avcExtra_fold (xs : List (Bool × Bytes)) (h : ∀ x ∈ xs, x.2 ≠ []) (us : List Bytes) :
    (xs.map annexUnit).foldlM avcExtraStep (lastWithCode avcUnitType 7 us, lastWithCode avcUnitType 8 us) =
      ok (lastWithCode avcUnitType 7 (us ++ xs.map (·.2)), lastWithCode avcUnitType 8 (us ++ xs.map (·.2))) := by
  induction xs generalizing us with
  | nil => simp
  | cons x xs ih =>
    have hx := h x (by simp)
    obtain ⟨a, v, hv⟩ := List.exists_cons_of_ne_nil hx
    rw [List.map_cons, List.foldlM_cons]
    have hstep : avcExtraStep (lastWithCode avcUnitType 7 us, lastWithCode avcUnitType 8 us) (annexUnit x) =
        ok (lastWithCode avcUnitType 7 (us ++ [x.2]), lastWithCode avcUnitType 8 (us ++ [x.2])) := by
      have ht : avcUnitType x.2 = avcType a := by rw [hv]; rfl
      have hi : idx x.2 0 = ok a := by rw [hv]; rfl
      unfold avcExtraStep
      rw [removeStartCode_unit]
      simp only [ok_bind]
      rw [hi, lastWithCode_snoc, lastWithCode_snoc, ht]
      have e7 := avcType_mask a 7 7 rfl
      have e8 := avcType_mask a 8 8 rfl
      simp only [ok_bind]
      by_cases h7 : avcType a = 7
      · rw [if_pos (e7.2 h7), if_pos h7, if_neg (by omega)]; rfl
      · rw [if_neg (fun h => h7 (e7.1 h)), if_neg h7]
        by_cases h8 : avcType a = 8
        · rw [if_pos (e8.2 h8), if_pos h8]; rfl
        · rw [if_neg (fun h => h8 (e8.1 h)), if_neg h8]; rfl
    rw [hstep, ok_bind, ih (fun y hy => h y (by simp [hy]))]
    simp [List.append_assoc]

theorem hevcExtra_fold (xs : List (Bool × Bytes)) (h : ∀ x ∈ xs, x.2 ≠ []) (us : List Bytes) :
    (xs.map annexUnit).foldlM hevcExtraStep (lastWithCode hevcUnitType 32 us, lastWithCode hevcUnitType 33 us, lastWithCode hevcUnitType 34 us) =
      ok (lastWithCode hevcUnitType 32 (us ++ xs.map (·.2)), lastWithCode hevcUnitType 33 (us ++ xs.map (·.2)),
        lastWithCode hevcUnitType 34 (us ++ xs.map (·.2))) := by
  induction xs generalizing us with
  | nil => simp
  | cons x xs ih =>
    have hx := h x (by simp)
    obtain ⟨a, v, hv⟩ := List.exists_cons_of_ne_nil hx
    rw [List.map_cons, List.foldlM_cons]
    have hstep : hevcExtraStep (lastWithCode hevcUnitType 32 us, lastWithCode hevcUnitType 33 us, lastWithCode hevcUnitType 34 us)
        (annexUnit x) = ok (lastWithCode hevcUnitType 32 (us ++ [x.2]), lastWithCode hevcUnitType 33 (us ++ [x.2]),
          lastWithCode hevcUnitType 34 (us ++ [x.2])) := by
      have ht : hevcUnitType x.2 = hevcType a := by rw [hv]; rfl
      have hi : idx x.2 0 = ok a := by rw [hv]; rfl
      unfold hevcExtraStep
      rw [removeStartCode_unit]
      simp only [ok_bind]
      rw [hi, lastWithCode_snoc, lastWithCode_snoc, lastWithCode_snoc, ht]
      have e2 := hevcType_mask a 32 32 rfl
      have e3 := hevcType_mask a 33 33 rfl
      have e4 := hevcType_mask a 34 34 rfl
      simp only [ok_bind]
      by_cases h2 : hevcType a = 32
      · rw [if_pos (e2.2 h2), if_pos h2, if_neg (by omega), if_neg (by omega)]; rfl
      · rw [if_neg (fun h => h2 (e2.1 h)), if_neg h2]
        by_cases h3 : hevcType a = 33
        · rw [if_pos (e3.2 h3), if_pos h3, if_neg (by omega)]; rfl
        · rw [if_neg (fun h => h3 (e3.1 h)), if_neg h3]
          by_cases h4 : hevcType a = 34
          · rw [if_pos (e4.2 h4), if_pos h4]; rfl
          · rw [if_neg (fun h => h4 (e4.1 h)), if_neg h4]; rfl
    rw [hstep, ok_bind, ih (fun y hy => h y (by simp [hy]))]
    simp [List.append_assoc]

end Avf
