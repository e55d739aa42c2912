import Verif.Lemmas.SpsCost
import Verif.Lemmas.ScanCost
import Mathlib.Tactic.NormNum
/-!
# C114: parsing and scanning take a number of steps linear in the length of the data (`avc/util.go`, `hevc/util.go`, `avc/sps.go`,
`hevc/sps.go`)

Steps are calls of `ReadBit` and rounds of loops, and copied bytes in `AnnexB2AVCC`.
-/
namespace Avf
open Go

/-- **C114**: `FindStartCode`. -/
theorem C114_find (p : Bytes) : (findStartCodeC p).1 = findStartCode p ∧ (findStartCodeC p).2 ≤ p.length - 2 :=
  ⟨(findStartCodeC_spec p).1, (findStartCodeC_spec p).2.1⟩

/-- **C114**: `IsKeyFrame` of both codecs, all rounds and all searches in them. -/
theorem C114_key_frame (p : Bytes) :
    ((avcIsKeyFrameC (p.length + 1) p).1 = avcIsKeyFrame p ∧ (avcIsKeyFrameC (p.length + 1) p).2 ≤ p.length + 1) ∧
    ((hevcIsKeyFrameC (p.length + 1) p).1 = hevcIsKeyFrame p ∧ (hevcIsKeyFrameC (p.length + 1) p).2 ≤ p.length + 1) :=
  ⟨avcIsKeyFrameC_spec _ p (by omega), hevcIsKeyFrameC_spec _ p (by omega)⟩

/-- **C114**: `SplitNalU`, all units together. -/
theorem C114_split (p : Bytes) :
    (splitNalUC (p.length + 1) p).1 = splitNalU p ∧ (splitNalUC (p.length + 1) p).2 ≤ p.length + 1 :=
  splitNalUC_spec _ p (by omega)

/-- **C114**: `AnnexB2AVCC`, searching and copying. -/
theorem C114_to_avcc (dst p : Bytes) :
    (annexB2AVCCC dst p).1 = annexB2AVCC dst p ∧ (annexB2AVCCC dst p).2 ≤ 2 * p.length + 1 := by
  obtain ⟨k1, k2, k3⟩ := findStartCodeC_spec p
  rw [annexB2AVCCC, annexB2AVCC]
  simp only [k1]
  rcases findStartCode_cases p with ⟨e, _⟩ | ⟨j, e, hs, _⟩
  · rw [e]; exact ⟨rfl, by simp only; omega⟩
  · rw [e]
    have h3 := k3 _ _ e
    have hl : (p.drop j).length = p.length - j := List.length_drop
    obtain ⟨i1, i2⟩ := annexB2AVCCLoopC_spec (p.length + 1) dst (p.drop j) 0 (by omega)
    exact ⟨i1, by simp only; have := hs.2.1; omega⟩

theorem removeStartCode_length {p q : Bytes} (h : removeStartCode p = ok q) : q.length ≤ p.length := by
  have hd : ∀ n, ∀ r, sliceFrom p n = ok r → r.length ≤ p.length := by
    intro n r hr
    unfold sliceFrom at hr
    split at hr
    · injection hr with hr; subst hr; simp
    · simp at hr
  unfold removeStartCode at h
  obtain ⟨a, _, h⟩ := bind_eq_ok.1 h
  split at h
  · injection h with h; subst h; exact Nat.le_refl _
  · obtain ⟨b, _, h⟩ := bind_eq_ok.1 h
    split at h
    · injection h with h; subst h; exact Nat.le_refl _
    · obtain ⟨c, _, h⟩ := bind_eq_ok.1 h
      split at h
      · exact hd _ _ h
      · split at h
        · obtain ⟨d, _, h⟩ := bind_eq_ok.1 h
          split at h
          · exact hd _ _ h
          · injection h with h; subst h; exact Nat.le_refl _
        · injection h with h; subst h; exact Nat.le_refl _

/-- The steps of a program with a counter, whatever its result is. -/
theorem Counts.total {α : Type} {x : CRd α} {y : Rd α} {A B : Int} (h : Counts x y A B) (d : Bytes) :
    (x (Golomb.ofBytes d)).1 = y (Golomb.ofBytes d) ∧ ((x (Golomb.ofBytes d)).2 : Int) ≤ 24 * d.length + max A B := by
  obtain ⟨h1, h2, h3⟩ := h (Golomb.ofBytes d)
  refine ⟨h1, ?_⟩
  have hr : (Golomb.ofBytes d).room = 8 * d.length := by simp [Golomb.room, Golomb.ofBytes]
  cases hy : y (Golomb.ofBytes d) with
  | ok r => obtain ⟨a, g'⟩ := r; have := h2 a g' hy; omega
  | err m => have := h3 (fun r => by rw [hy]; simp); omega
  | panic => have := h3 (fun r => by rw [hy]; simp); omega

/-- **C114**: `avc.ParseSPS`, also when the data announce 2^32 entries. -/
theorem C114_avc_sps (undef : Int) (p : Bytes) :
    (avcParseSPSC undef p).1 = avcParseSPS undef p ∧ (avcParseSPSC undef p).2 ≤ 24 * p.length + 515 := by
  unfold avcParseSPSC avcParseSPS
  cases hr : removeStartCode p with
  | ok d =>
    have hl := removeStartCode_length hr
    obtain ⟨h1, h2⟩ := (Counts.avcSpsBody undef).total d
    simp only [ok_bind, ← h1]
    cases hx : avcSpsBodyC undef (Golomb.ofBytes d) with
    | mk r c =>
      rw [hx] at h2
      cases r with
      | ok r => exact ⟨rfl, by simp only at h2 ⊢; omega⟩
      | err m => exact ⟨rfl, by simp only at h2 ⊢; omega⟩
      | panic => exact ⟨rfl, by simp only at h2 ⊢; omega⟩
  | err m => exact ⟨rfl, by simp only; omega⟩
  | panic => exact ⟨rfl, by simp only; omega⟩

theorem nal2rbsp_length (p : Bytes) : (nal2rbsp p).length ≤ p.length := by
  induction p using nal2rbsp.induct with
  | case1 => simp [nal2rbsp]
  | case2 a t h ih =>
    rw [nal2rbsp, if_pos h]
    have h2 : 2 ≤ t.length := by
      rcases t with _ | ⟨b, _ | ⟨c, t⟩⟩
      · simp at h
      · simp at h
      · simp
    simp only [List.length_cons, List.length_drop] at ih ⊢
    omega
  | case3 a t h ih =>
    rw [nal2rbsp, if_neg h]
    simp only [List.length_cons]
    omega

/-- **C114**: `hevc.ParseSPS` behind the unescaping. -/
theorem C114_hevc_sps (p : Bytes) :
    (hevcParseSPSC p).1 = hevcParseSPS p ∧ (hevcParseSPSC p).2 ≤ 24 * p.length + 18 := by
  unfold hevcParseSPSC hevcParseSPS
  cases hr : removeStartCode p with
  | ok d =>
    have hl := removeStartCode_length hr
    simp only [ok_bind]
    split
    · exact ⟨rfl, by simp only; omega⟩
    rename_i h2
    have hs : sliceFrom d 2 = ok (d.drop 2) := by unfold sliceFrom; rw [if_pos (by omega)]
    simp only [hs, ok_bind]
    obtain ⟨h1, h2⟩ := Counts.hevcSpsBody.total (nal2rbsp (d.drop 2))
    have hn := nal2rbsp_length (d.drop 2)
    have hd : (d.drop 2).length = d.length - 2 := List.length_drop
    rw [← h1]
    cases hx : hevcSpsBodyC (Golomb.ofBytes (nal2rbsp (d.drop 2))) with
    | mk r c =>
      rw [hx] at h2
      cases r with
      | ok r => exact ⟨rfl, by simp only at h2 ⊢; omega⟩
      | err m => exact ⟨rfl, by simp only at h2 ⊢; omega⟩
      | panic => exact ⟨rfl, by simp only at h2 ⊢; omega⟩
  | err m => exact ⟨rfl, by simp only; omega⟩
  | panic => exact ⟨rfl, by simp only; omega⟩

/-- An SPS that announces 2^32 - 2 entries (31 zeros in front of the count) and ends there. -/
def hostileSps : Bytes := [0x67, 0x42, 0, 0x1E, 0xD3, 0, 0, 0, 1, 0xFF, 0xFF, 0xFF, 0xFF, 0xFF]

/-- The loop over the entries ends with the data: nine entries are read. -/
example : (avcParseSPSC 0 hostileSps).1 = .err "EOF" ∧ (avcParseSPSC 0 hostileSps).2 = 235 := by decide +kernel

/-- 14 bytes: far below the number of entries that they announce. -/
example : (avcParseSPSC 0 hostileSps).2 ≤ 24 * 14 + 515 := (C114_avc_sps 0 hostileSps).2

/-- **C114**: `ParseNalUnits` never returns: with a start code in the data it is still running after any number of rounds, without one
it panics in the first round. -/
theorem C114_parse_nal_units (p : Bytes) :
    ((∃ j, StartAt p j) → ∀ n, parseNalUnitsRounds n p = ok ()) ∧
    ((∀ j, ¬ StartAt p j) → ∀ n, parseNalUnitsRounds (n + 1) p = Go.panic) := by
  rcases findStartCode_cases p with ⟨e, h⟩ | ⟨j, e, hs, _⟩
  · exact ⟨fun ⟨j, hj⟩ => absurd hj (h j), fun _ n => by rw [parseNalUnitsRounds, e]; rfl⟩
  · refine ⟨fun _ n => ?_, fun h => absurd hs (h j)⟩
    induction n with
    | zero => rfl
    | succ n ih => rw [parseNalUnitsRounds, e]; simp only [ok_bind, idx_of_lt hs.2.1, ih]

example : parseNalUnitsRounds 5 [0, 0, 1, 0x65] = ok () := by decide +kernel
example : parseNalUnitsRounds 1 [1, 2, 3, 4] = Go.panic := by decide +kernel

/-- A frame of many parameter sets: the search goes on from each of them, and each byte is looked at once. -/
example : (avcIsKeyFrameC 33 ((List.replicate 8 [0, 0, 1, 0x67]).flatten)).2 ≤ 33 ∧
    (avcIsKeyFrameC 33 ((List.replicate 8 [0, 0, 1, 0x67]).flatten)).1 = ok false := by decide +kernel

example : (splitNalUC 17 [0, 0, 1, 0x67, 1, 0, 0, 1, 0x68, 2, 0, 0, 1, 0x65, 3, 4]).1 =
    ok [[0, 0, 1, 0x67, 1], [0, 0, 1, 0x68, 2], [0, 0, 1, 0x65, 3, 4]] := by decide +kernel

example : (annexB2AVCCC (List.replicate 16 0) [0, 0, 1, 0x67, 1, 0, 0, 1, 0x65, 3]).2 ≤ 21 := (C114_to_avcc _ _).2

end Avf
