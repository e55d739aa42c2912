import Verif.Props.ParseCost
/-!
# C114: the steps of the start code functions, from below

A step looks at no more than three bytes further on: what is counted is not less than a third of the bytes that were passed. So the bounds of
`Props/ParseCost.lean` are met up to this factor.
-/
namespace Avf
open Go

theorem scanStartC_floor (p : Bytes) (i : Nat) :
    ∀ j, scanStart p i = ok j → j ≤ i + 3 * (scanStartC p i).2 := by
  induction i using scanStart.induct p with
  | case1 i hi i1 i2 i3 =>
    rw [scanStart, scanStartC, dif_pos hi, dif_pos hi, idx_of_lt hi]
    have h1 : i - 1 < p.length := by omega
    have h2 : i - 2 < p.length := by omega
    simp only [ok_bind, idx_of_lt h1, idx_of_lt h2]
    intro j
    split
    · intro hj; have := i1 j hj; simp only [tick]; omega
    · split
      · intro hj; have := i2 j hj; simp only [tick]; omega
      · split
        · intro hj; have := i3 j hj; simp only [tick]; omega
        · intro hj; injection hj with hj; simp only; omega
  | case2 i hi =>
    rw [scanStart, scanStartC, dif_neg hi, dif_neg hi]
    intro j hj; injection hj with hj; simp only; omega

/-- **C114** `FindStartCode` from below: up to the start code that is found, or to the end, at least every third byte counts. -/
theorem C114_find_floor (p : Bytes) :
    (findStartCode p = ok none → p.length ≤ 2 + 3 * (findStartCodeC p).2) ∧
    ∀ j n, findStartCode p = ok (some (j, n)) → j ≤ 2 + 3 * (findStartCodeC p).2 := by
  have k := scanStartC_floor p 2
  have e0 : (findStartCodeC p).2 = (scanStartC p 2).2 := rfl
  rw [e0]
  constructor
  · intro h
    simp only [findStartCode, bind_eq_ok] at h
    obtain ⟨i, hi, h⟩ := h
    have := k i hi
    split at h
    · split at h
      · simp only [bind_eq_ok] at h
        obtain ⟨z, _, h⟩ := h
        split at h <;> simp at h
      · simp at h
    · omega
  · intro j n h
    simp only [findStartCode, bind_eq_ok] at h
    obtain ⟨i, hi, h⟩ := h
    have := k i hi
    split at h
    · split at h
      · simp only [bind_eq_ok] at h
        obtain ⟨z, _, h⟩ := h
        split at h <;> simp at h <;> omega
      · simp at h; omega
    · simp at h

/-- The place `k` where `avc.IsKeyFrame` decides: the end of the data, or the header of a unit that is no parameter set, SEI or delimiter. -/
def AvcDecidedAt (p : Bytes) (k : Nat) : Prop :=
  (k = p.length ∧ avcIsKeyFrame p = ok false) ∨
  ∃ b : Byte, p[k]? = some b ∧ b &&& 0x1F ∉ [(6 : Byte), 9, 8, 7] ∧ avcIsKeyFrame p = ok (decide (b &&& 0x1F = 5))

/-- The same in `hevc.IsKeyFrame`. -/
def HevcDecidedAt (p : Bytes) (k : Nat) : Prop :=
  (k = p.length ∧ hevcIsKeyFrame p = ok false) ∨
  ∃ b : Byte, p[k]? = some b ∧ b >>> 1 &&& 0x3F ∉ [(33 : Byte), 34, 32, 39, 40, 35] ∧
    hevcIsKeyFrame p = ok (decide ((16 : Byte) ≤ b >>> 1 &&& 0x3F ∧ b >>> 1 &&& 0x3F ≤ 23))

theorem avcIsKeyFrameC_floor (fuel : Nat) (p : Bytes) (hf : p.length < fuel) :
    ∃ k, AvcDecidedAt p k ∧ k ≤ 3 * (avcIsKeyFrameC fuel p).2 := by
  induction fuel generalizing p with
  | zero => omega
  | succ fuel ih =>
    have k1 := (findStartCodeC_spec p).1
    obtain ⟨f1, f2⟩ := C114_find_floor p
    unfold AvcDecidedAt
    rw [avcIsKeyFrame, avcIsKeyFrameC]
    simp only [k1]
    rcases findStartCode_cases p with ⟨e, _⟩ | ⟨j, e, hs, _⟩
    · rw [e]; have := f1 e; exact ⟨p.length, .inl ⟨rfl, rfl⟩, by simp only; omega⟩
    · rw [e]
      have h3 := f2 _ _ e
      have hj := hs.2.1
      simp only [List.getElem?_eq_getElem hj]
      have hl : (p.drop j).length = p.length - j := List.length_drop
      have hjp := hs.1
      obtain ⟨k, i1, i2⟩ := ih (p.drop j) (by omega)
      split
      · refine ⟨j + k, ?_, by simp only; omega⟩
        rcases i1 with ⟨a, b⟩ | ⟨b, a1, a2, a3⟩
        · exact .inl ⟨by omega, b⟩
        · exact .inr ⟨b, by rw [← a1, List.getElem?_drop], a2, a3⟩
      · rename_i hn
        refine ⟨j, .inr ⟨p[j], List.getElem?_eq_getElem hj, ?_, ?_⟩, ?_⟩
        · simpa only [List.mem_cons, List.not_mem_nil, or_false] using hn
        · split
          · rename_i h5; rw [decide_eq_true h5]
          · rename_i h5; rw [decide_eq_false h5]
        · split <;> (simp only; omega)

theorem hevcIsKeyFrameC_floor (fuel : Nat) (p : Bytes) (hf : p.length < fuel) :
    ∃ k, HevcDecidedAt p k ∧ k ≤ 3 * (hevcIsKeyFrameC fuel p).2 := by
  induction fuel generalizing p with
  | zero => omega
  | succ fuel ih =>
    have k1 := (findStartCodeC_spec p).1
    obtain ⟨f1, f2⟩ := C114_find_floor p
    unfold HevcDecidedAt
    rw [hevcIsKeyFrame, hevcIsKeyFrameC]
    simp only [k1]
    rcases findStartCode_cases p with ⟨e, _⟩ | ⟨j, e, hs, _⟩
    · rw [e]; have := f1 e; exact ⟨p.length, .inl ⟨rfl, rfl⟩, by simp only; omega⟩
    · rw [e]
      have h3 := f2 _ _ e
      have hj := hs.2.1
      simp only [List.getElem?_eq_getElem hj]
      have hl : (p.drop j).length = p.length - j := List.length_drop
      have hjp := hs.1
      obtain ⟨k, i1, i2⟩ := ih (p.drop j) (by omega)
      split
      · rename_i hn
        refine ⟨j, .inr ⟨p[j], List.getElem?_eq_getElem hj, ?_, by rw [decide_eq_true hn]⟩, by simp only; omega⟩
        intro hx
        simp only [List.mem_cons, List.not_mem_nil, or_false] at hx
        rcases hx with hx | hx | hx | hx | hx | hx <;> rw [hx] at hn <;> exact absurd hn (by decide)
      · rename_i h0
        split
        · refine ⟨j + k, ?_, by simp only; omega⟩
          rcases i1 with ⟨a, b⟩ | ⟨b, a1, a2, a3⟩
          · exact .inl ⟨by omega, b⟩
          · exact .inr ⟨b, by rw [← a1, List.getElem?_drop], a2, a3⟩
        · rename_i hn
          refine ⟨j, .inr ⟨p[j], List.getElem?_eq_getElem hj, ?_, by rw [decide_eq_false h0]⟩, by simp only; omega⟩
          simpa only [List.mem_cons, List.not_mem_nil, or_false] using hn

/-- **C114** `IsKeyFrame` from below. -/
theorem C114_key_frame_floor (p : Bytes) :
    (∃ k, AvcDecidedAt p k ∧ k ≤ 3 * (avcIsKeyFrameC (p.length + 1) p).2) ∧
    ∃ k, HevcDecidedAt p k ∧ k ≤ 3 * (hevcIsKeyFrameC (p.length + 1) p).2 :=
  ⟨avcIsKeyFrameC_floor _ p (by omega), hevcIsKeyFrameC_floor _ p (by omega)⟩

theorem splitNalUC_floor (fuel : Nat) (p : Bytes) (hf : p.length < fuel) : p.length ≤ 3 * (splitNalUC fuel p).2 + 2 := by
  induction fuel generalizing p with
  | zero => omega
  | succ fuel ih =>
    rw [splitNalUC]
    by_cases h3 : 3 ≤ p.length
    · rw [if_pos h3]
      obtain ⟨k1, _, k3⟩ := findStartCode2C_spec (p.drop 3)
      obtain ⟨f1, f2⟩ := C114_find_floor (p.drop 3)
      have ec : (findStartCode2C (p.drop 3)).2 = (findStartCodeC (p.drop 3)).2 := rfl
      have hl : (p.drop 3).length = p.length - 3 := List.length_drop
      simp only [k1]
      rcases findStartCode_cases (p.drop 3) with ⟨e, _⟩ | ⟨j, e, hs, _⟩
      · have := f1 e
        rw [findStartCode2, e]
        simp only [ok_bind, pure_def]
        omega
      · have hj := f2 _ _ e
        have hc : 3 ≤ codeLen (p.drop 3) j := by unfold codeLen; split <;> omega
        have e2 : findStartCode2 (p.drop 3) = ok (some (j - codeLen (p.drop 3) j)) := by rw [findStartCode2, e]; rfl
        have h4 := k3 _ e2
        rw [e2]
        generalize hn : j - codeLen (p.drop 3) j = n at *
        have hl2 : (p.drop (n + 3)).length = p.length - (n + 3) := List.length_drop
        have i1 := ih (p.drop (n + 3)) (by omega)
        have hsl : slice p 0 (n + 3) = ok ((p.take (n + 3)).drop 0) := by unfold slice; rw [if_pos (by omega)]
        simp only [hsl]
        omega
    · rw [if_neg h3]; simp only; omega

/-- **C114** `SplitNalU` from below: all data are searched. -/
theorem C114_split_floor (p : Bytes) : p.length ≤ 3 * (splitNalUC (p.length + 1) p).2 + 2 := splitNalUC_floor _ p (by omega)

theorem annexB2AVCCLoopC_floor (fuel : Nat) (dst rest : Bytes) (size : Nat) (hf : rest.length < fuel) (n : Nat) (d : Bytes)
    (h : (annexB2AVCCLoopC fuel dst rest size).1 = ok (n, d)) :
    rest.length ≤ 2 * (annexB2AVCCLoopC fuel dst rest size).2 ∧ n ≤ size + 2 * (annexB2AVCCLoopC fuel dst rest size).2 + 1 := by
  induction fuel generalizing dst rest size with
  | zero => omega
  | succ fuel ih =>
    rw [annexB2AVCCLoopC] at h ⊢
    by_cases h0 : rest.length = 0
    · rw [if_pos h0] at h ⊢; injection h with h; injection h with h; simp only; omega
    rw [if_neg h0] at h ⊢
    obtain ⟨s1, s2⟩ := skipZerosC_spec rest
    simp only [s1] at h ⊢
    generalize skipZeros rest = p at *
    by_cases h1 : p.length = 0
    · rw [if_pos h1] at h ⊢; injection h with h; injection h with h; simp only; omega
    rw [if_neg h1] at h ⊢
    have k1 := (findStartCodeC_spec p).1
    obtain ⟨f1, f2⟩ := C114_find_floor p
    simp only [k1] at h ⊢
    rcases findStartCode_cases p with ⟨e, _⟩ | ⟨j, e, hs, _⟩
    · rw [e] at h ⊢
      simp only [bind_eq_ok] at h
      obtain ⟨_, _, _, _, _, _, h⟩ := h
      injection h with h; injection h with h
      simp only; omega
    · rw [e] at h ⊢
      have h3 := f2 _ _ e
      have hj := hs.2.1
      have hj3 := hs.1
      have hc : codeLen p j ≤ 4 := by unfold codeLen; split <;> omega
      have hl : (p.drop j).length = p.length - j := List.length_drop
      simp only at h ⊢
      generalize hN : (if j - codeLen p j = 0 then 1 else j - codeLen p j) = N at h ⊢
      have hN2 : j ≤ N + 4 ∧ 1 ≤ N := by rw [← hN]; split <;> omega
      cases hd : ((if size ≤ dst.length then putAt dst size (be32 (BitVec.ofNat 32 N)) else panic : Go Bytes) >>= fun dst =>
          slice p 0 N >>= fun bytes => copyAt dst (size + 4) bytes) with
      | ok x =>
        rw [hd] at h
        obtain ⟨i1, i2⟩ := ih x (p.drop j) (size + 4 + N) (by omega) h
        simp only
        omega
      | err m => rw [hd] at h; cases h
      | panic => rw [hd] at h; cases h

/-- **C114** `AnnexB2AVCC` from below: what is searched and what is written both count. -/
theorem C114_to_avcc_floor (dst p : Bytes) (n : Nat) (d : Bytes) (h : annexB2AVCC dst p = ok (n, d)) :
    p.length ≤ 2 + 3 * (annexB2AVCCC dst p).2 ∧ n ≤ 2 * (annexB2AVCCC dst p).2 + 1 := by
  rw [← (C114_to_avcc dst p).1] at h
  have k1 := (findStartCodeC_spec p).1
  obtain ⟨f1, f2⟩ := C114_find_floor p
  rw [annexB2AVCCC] at h ⊢
  simp only [k1] at h ⊢
  rcases findStartCode_cases p with ⟨e, _⟩ | ⟨j, e, hs, _⟩
  · rw [e] at h ⊢
    have := f1 e
    injection h with h; injection h with h
    simp only; omega
  · rw [e] at h ⊢
    have h3 := f2 _ _ e
    have hj3 := hs.1
    have hl : (p.drop j).length = p.length - j := List.length_drop
    obtain ⟨i1, i2⟩ := annexB2AVCCLoopC_floor (p.length + 1) dst (p.drop j) 0 (by omega) n d h
    simp only
    omega

/-- Three units, then a slice that decides: 15 bytes are passed in 11 steps. -/
example : AvcDecidedAt ((List.replicate 3 [0, 0, 1, 0x67]).flatten ++ [0, 0, 1, 0x65, 9, 9, 9, 9]) 15 ∧
    (avcIsKeyFrameC 21 ((List.replicate 3 [0, 0, 1, 0x67]).flatten ++ [0, 0, 1, 0x65, 9, 9, 9, 9])).2 = 11 :=
  ⟨.inr ⟨0x65, rfl, by decide, by decide +kernel⟩, by decide +kernel⟩

/-- Two units of four and two bytes: 14 bytes are written. -/
example : annexB2AVCC (List.replicate 16 0) [0, 0, 1, 0x65, 1, 2, 3, 0, 0, 1, 0x41, 5] =
    ok (14, [0, 0, 0, 4, 0x65, 1, 2, 3, 0, 0, 0, 2, 0x41, 5, 0, 0]) := by decide +kernel

end Avf
