import Verif.Model.ScanCost
import Verif.Lemmas.Split
/-! # The steps of the start code functions: lemmas -/
namespace Avf
open Go

theorem scanStartC_spec (p : Bytes) (i : Nat) :
    (scanStartC p i).1 = scanStart p i ∧ (scanStartC p i).2 ≤ p.length - i ∧
      ∀ j, scanStart p i = ok j → (scanStartC p i).2 + i ≤ j := by
  induction i using scanStart.induct p with
  | case1 i hi i1 i2 i3 =>
    rw [scanStart, scanStartC, dif_pos hi, dif_pos hi, idx_of_lt hi]
    have h1 : i - 1 < p.length := by omega
    have h2 : i - 2 < p.length := by omega
    simp only [ok_bind, idx_of_lt h1, idx_of_lt h2]
    split
    · obtain ⟨k1, k2, k3⟩ := i1
      exact ⟨k1, by simp only [tick]; omega, fun j hj => by have := k3 j hj; simp only [tick]; omega⟩
    · split
      · obtain ⟨k1, k2, k3⟩ := i2
        exact ⟨k1, by simp only [tick]; omega, fun j hj => by have := k3 j hj; simp only [tick]; omega⟩
      · split
        · obtain ⟨k1, k2, k3⟩ := i3
          exact ⟨k1, by simp only [tick]; omega, fun j hj => by have := k3 j hj; simp only [tick]; omega⟩
        · exact ⟨rfl, by simp only; omega, fun j hj => by injection hj with hj; simp only; omega⟩
  | case2 i hi =>
    rw [scanStart, scanStartC, dif_neg hi, dif_neg hi]
    exact ⟨rfl, by simp, fun j hj => by injection hj with hj; simp only; omega⟩

theorem findStartCodeC_spec (p : Bytes) :
    (findStartCodeC p).1 = findStartCode p ∧ (findStartCodeC p).2 ≤ p.length - 2 ∧
      ∀ j n, findStartCode p = ok (some (j, n)) → (findStartCodeC p).2 + 2 ≤ j := by
  obtain ⟨k1, k2, k3⟩ := scanStartC_spec p 2
  refine ⟨by simp only [findStartCodeC, findStartCode, k1], k2, fun j n h => ?_⟩
  simp only [findStartCode, bind_eq_ok] at h
  obtain ⟨i, hi, h⟩ := h
  have := k3 i hi
  have e : i = j := by
    split at h
    · split at h
      · simp only [bind_eq_ok] at h
        obtain ⟨z, _, h⟩ := h
        split at h <;> simp at h <;> omega
      · simp at h; omega
    · simp at h
  subst e
  exact this

theorem findStartCode2C_spec (p : Bytes) :
    (findStartCode2C p).1 = findStartCode2 p ∧ (findStartCode2C p).2 ≤ p.length - 2 ∧
      ∀ n, findStartCode2 p = ok (some n) → (findStartCode2C p).2 ≤ n + 2 ∧ n + 3 < p.length := by
  obtain ⟨k1, k2, k3⟩ := findStartCodeC_spec p
  refine ⟨?_, k2, fun n h => ?_⟩
  · simp only [findStartCode2C, findStartCode2, k1]
    congr 1
  · rcases findStartCode_cases p with ⟨e, _⟩ | ⟨j, e, hs, _⟩
    · rw [findStartCode2, e] at h; simp at h
    · have h3 := k3 _ _ e
      rw [findStartCode2, e] at h
      simp at h
      have := codeLen_le p j hs.1
      have := hs.2.1
      show (findStartCodeC p).2 ≤ _ ∧ _
      omega

theorem avcIsKeyFrameC_spec (fuel : Nat) (p : Bytes) (hf : p.length < fuel) :
    (avcIsKeyFrameC fuel p).1 = avcIsKeyFrame p ∧ (avcIsKeyFrameC fuel p).2 ≤ p.length + 1 := by
  induction fuel generalizing p with
  | zero => omega
  | succ fuel ih =>
    obtain ⟨k1, k2, k3⟩ := findStartCodeC_spec p
    rw [avcIsKeyFrame, avcIsKeyFrameC]
    simp only [k1]
    rcases findStartCode_cases p with ⟨e, _⟩ | ⟨j, e, hs, _⟩
    · rw [e]; exact ⟨rfl, by simp only; omega⟩
    · rw [e]
      have h3 := k3 _ _ e
      have hj := hs.2.1
      simp only [List.getElem?_eq_getElem hj]
      have hl : (p.drop j).length = p.length - j := List.length_drop
      obtain ⟨i1, i2⟩ := ih (p.drop j) (by omega)
      split
      · exact ⟨i1, by simp only; omega⟩
      · split <;> exact ⟨rfl, by simp only; omega⟩

theorem hevcIsKeyFrameC_spec (fuel : Nat) (p : Bytes) (hf : p.length < fuel) :
    (hevcIsKeyFrameC fuel p).1 = hevcIsKeyFrame p ∧ (hevcIsKeyFrameC fuel p).2 ≤ p.length + 1 := by
  induction fuel generalizing p with
  | zero => omega
  | succ fuel ih =>
    obtain ⟨k1, k2, k3⟩ := findStartCodeC_spec p
    rw [hevcIsKeyFrame, hevcIsKeyFrameC]
    simp only [k1]
    rcases findStartCode_cases p with ⟨e, _⟩ | ⟨j, e, hs, _⟩
    · rw [e]; exact ⟨rfl, by simp only; omega⟩
    · rw [e]
      have h3 := k3 _ _ e
      have hj := hs.2.1
      simp only [List.getElem?_eq_getElem hj]
      have hl : (p.drop j).length = p.length - j := List.length_drop
      obtain ⟨i1, i2⟩ := ih (p.drop j) (by omega)
      split
      · exact ⟨rfl, by simp only; omega⟩
      · split
        · exact ⟨i1, by simp only; omega⟩
        · exact ⟨rfl, by simp only; omega⟩

theorem splitNalUC_spec (fuel : Nat) (p : Bytes) (hf : p.length < fuel) :
    (splitNalUC fuel p).1 = splitNalU p ∧ (splitNalUC fuel p).2 ≤ p.length + 1 := by
  induction fuel generalizing p with
  | zero => omega
  | succ fuel ih =>
    rw [splitNalU, splitNalUC]
    by_cases h3 : 3 ≤ p.length
    · rw [if_pos h3, dif_pos h3]
      obtain ⟨k1, k2, k3⟩ := findStartCode2C_spec (p.drop 3)
      have hl : (p.drop 3).length = p.length - 3 := List.length_drop
      simp only [k1]
      rcases findStartCode2_cases (p.drop 3) with ⟨e, _⟩ | ⟨j, e, hs, _⟩
      · rw [e]; exact ⟨rfl, by simp only; omega⟩
      · rw [e]
        have h4 := k3 _ e
        generalize j - codeLen (p.drop 3) j = n at *
        have hl2 : (p.drop (n + 3)).length = p.length - (n + 3) := List.length_drop
        obtain ⟨i1, i2⟩ := ih (p.drop (n + 3)) (by omega)
        simp only
        cases hsl : slice p 0 (n + 3) with
        | ok nal => exact ⟨by simp only [i1, ok_bind]; rfl, by simp only; omega⟩
        | err m => exact ⟨rfl, by simp only; omega⟩
        | panic => exact ⟨rfl, by simp only; omega⟩
    · rw [if_neg h3, dif_neg h3]
      exact ⟨rfl, by simp⟩

theorem skipZerosC_spec (p : Bytes) : (skipZerosC p).1 = skipZeros p ∧ (skipZerosC p).2 + (skipZeros p).length = p.length := by
  induction p with
  | nil => simp [skipZeros, skipZerosC]
  | cons b t ih =>
    unfold skipZeros skipZerosC
    split
    · exact ⟨ih.1, by simp only [tick, List.length_cons]; omega⟩
    · exact ⟨rfl, by simp⟩

theorem annexB2AVCCLoopC_spec (fuel : Nat) (dst rest : Bytes) (size : Nat) (hf : rest.length < fuel) :
    (annexB2AVCCLoopC fuel dst rest size).1 = annexB2AVCCLoop dst rest size ∧
      (annexB2AVCCLoopC fuel dst rest size).2 ≤ 2 * rest.length + 1 := by
  induction fuel generalizing dst rest size with
  | zero => omega
  | succ fuel ih =>
    rw [annexB2AVCCLoop, annexB2AVCCLoopC]
    by_cases h0 : rest.length = 0
    · rw [if_pos h0, dif_pos h0]; exact ⟨rfl, by simp⟩
    rw [if_neg h0, dif_neg h0]
    obtain ⟨s1, s2⟩ := skipZerosC_spec rest
    simp only [s1]
    generalize skipZeros rest = p at *
    by_cases h1 : p.length = 0
    · rw [if_pos h1, dif_pos h1]; exact ⟨rfl, by simp only; omega⟩
    rw [if_neg h1, dif_neg h1]
    obtain ⟨k1, k2, k3⟩ := findStartCodeC_spec p
    simp only [k1]
    rcases findStartCode_cases p with ⟨e, _⟩ | ⟨j, e, hs, _⟩
    · rw [e]; exact ⟨rfl, by simp only; omega⟩
    · rw [e]
      have h3 := k3 _ _ e
      have hj := hs.2.1
      have hc := codeLen_le p j hs.1
      have hl : (p.drop j).length = p.length - j := List.length_drop
      simp only
      generalize hN : (if j - codeLen p j = 0 then 1 else j - codeLen p j) = N
      have hN2 : N + 2 ≤ j := by rw [← hN]; split <;> omega
      cases hd : ((if size ≤ dst.length then putAt dst size (be32 (BitVec.ofNat 32 N)) else panic : Go Bytes) >>= fun dst =>
          slice p 0 N >>= fun bytes => copyAt dst (size + 4) bytes) with
      | ok d =>
        obtain ⟨i1, i2⟩ := ih d (p.drop j) (size + 4 + N) (by omega)
        obtain ⟨d1, e1, h2⟩ := bind_eq_ok.1 hd
        obtain ⟨b, e2, h3⟩ := bind_eq_ok.1 h2
        refine ⟨?_, by simp only; omega⟩
        simp only [i1, e1, e2, h3, ok_bind]
      | err m =>
        refine ⟨?_, by simp only; omega⟩
        have := congrArg (fun x : Go Bytes => x >>= fun dst => annexB2AVCCLoop dst (p.drop j) (size + 4 + N)) hd
        simp only [bind_assoc] at this
        exact this.symm
      | panic =>
        refine ⟨?_, by simp only; omega⟩
        have := congrArg (fun x : Go Bytes => x >>= fun dst => annexB2AVCCLoop dst (p.drop j) (size + 4 + N)) hd
        simp only [bind_assoc] at this
        exact this.symm

end Avf
