import Verif.Lemmas.Marshal
/-!
# C124: `Marshal` of any lists of byte strings

C43 and C44 have lists of sets that are in order and fit. Here the lists are arbitrary (each string below 2^62 bytes).
-/
namespace Avf
open Go

/-- **C124**: how `AVCDecoderConfigurationRecord.Marshal` ends, for any lists. -/
theorem C124_avc (ss ps : List Bytes) (hs : ∀ s ∈ ss ++ ps, s.length < 2 ^ 62) :
    (∀ d, avcMarshal ss ps = ok d ↔ avcFate ss ps = .record d) ∧
    ((∃ e, avcMarshal ss ps = err e) ↔ avcFate ss ps = .refused) ∧
    (avcMarshal ss ps = Go.panic ↔ avcFate ss ps = .crash) := by
  rw [← avcMarshal_any ss ps hs]
  cases avcMarshal ss ps <;> simp [fateOf]

/-- **C124**: how `HEVCDecoderConfigurationRecord.Marshal` ends, for any lists. -/
theorem C124_hevc (vs ss ps : List Bytes) (hs : ∀ s ∈ vs ++ ss ++ ps, s.length < 2 ^ 62) :
    (∀ d, hevcMarshal vs ss ps = ok d ↔ hevcFate vs ss ps = .record d) ∧
    ((∃ e, hevcMarshal vs ss ps = err e) ↔ hevcFate vs ss ps = .refused) ∧
    (hevcMarshal vs ss ps = Go.panic ↔ hevcFate vs ss ps = .crash) := by
  rw [← hevcMarshal_any vs ss ps hs]
  cases hevcMarshal vs ss ps <;> simp [fateOf]

/-- **C124**: no panic if every set is longer than a start code and at least four bytes follow in the last SPS. -/
theorem C124_avc_safe (ss ps : List Bytes) (hs : ∀ s ∈ ss ++ ps, s.length < 2 ^ 62)
    (h4 : ∀ s ∈ ss, 8 ≤ s.length) (hp4 : ∀ s ∈ ps, 4 ≤ s.length) : avcMarshal ss ps ≠ Go.panic := by
  have hsome : ∀ {s : Bytes}, 4 ≤ s.length → unitOfSet s ≠ none := by
    intro s h hn
    unfold unitOfSet at hn
    split at hn
    · rename_i hm
      simp only [List.mem_cons, List.not_mem_nil, or_false] at hm
      rcases hm with rfl | rfl | rfl | rfl <;> simp at h
    · split at hn
      · cases hn
      · split at hn <;> cases hn
  have hlong : ∀ {s u : Bytes}, 8 ≤ s.length → unitOfSet s = some u → 4 ≤ u.length := by
    intro s u h hu
    unfold unitOfSet at hu
    split at hu
    · cases hu
    · split at hu
      · cases hu; rw [List.length_drop]; omega
      · split at hu
        · cases hu; rw [List.length_drop]; omega
        · cases hu; omega
  have hlead : ∀ l : List Bytes, (∀ s ∈ l, 8 ≤ s.length) → ∀ u ∈ leadingUnits l, 4 ≤ u.length := by
    intro l
    induction l with
    | nil => intro _ u hu; cases hu
    | cons s l ih =>
      intro hl u hu
      unfold leadingUnits at hu
      cases hc : unitOfSet s with
      | none => rw [hc] at hu; cases hu
      | some v =>
        rw [hc] at hu
        rcases List.mem_cons.1 hu with rfl | hu
        · exact hlong (hl s (by simp)) hc
        · exact ih (fun x hx => hl x (by simp [hx])) u hu
  have hns : none ∉ ss.map unitOfSet := by
    intro h
    obtain ⟨s, h1, h2⟩ := List.mem_map.1 h
    have := h4 s h1
    exact hsome (by omega) h2
  have hnp : none ∉ ps.map unitOfSet := by
    intro h
    obtain ⟨s, h1, h2⟩ := List.mem_map.1 h
    exact hsome (hp4 s h1) h2
  rw [Ne, (C124_avc ss ps hs).2.2]
  unfold avcFate
  rw [if_neg hns, if_neg hnp]
  split
  · simp
  · rename_i he
    split
    · simp
    · split
      · simp
      · have hne : leadingUnits ss ≠ [] := by
          intro h
          have := leading_length hns
          rw [h] at this
          exact he (.inl (List.length_eq_zero_iff.1 this.symm))
        rw [List.getLast?_eq_some_getLast hne]
        have := hlead ss h4 _ (List.getLast_mem hne)
        match hg : (leadingUnits ss).getLast hne, this with
        | _ :: p :: c :: l :: _, _ => simp

/-- **C124**: no panic if every set is longer than the longest start code. -/
theorem C124_hevc_safe (vs ss ps : List Bytes) (hs : ∀ s ∈ vs ++ ss ++ ps, s.length < 2 ^ 62)
    (h5 : ∀ s ∈ vs ++ ss ++ ps, 5 ≤ s.length) : hevcMarshal vs ss ps ≠ Go.panic := by
  have hsome : ∀ {s : Bytes}, 5 ≤ s.length → ∃ c u, unitOfSet s = some (c :: u) := by
    intro s h
    unfold unitOfSet
    have hcons : ∀ l : Bytes, 1 ≤ l.length → ∃ c u, some l = some (c :: u) := by
      intro l hl
      cases l with
      | nil => simp at hl
      | cons c u => exact ⟨c, u, rfl⟩
    rw [if_neg]
    · split
      · exact hcons _ (by rw [List.length_drop]; omega)
      · split
        · exact hcons _ (by rw [List.length_drop]; omega)
        · exact hcons _ (by omega)
    · intro hm
      simp only [List.mem_cons, List.not_mem_nil, or_false] at hm
      rcases hm with rfl | rfl | rfl | rfl <;> simp at h
  have key : ∀ (xs : List (List Bytes)) (out : Bytes), (∀ x ∈ xs, x ≠ [] ∧ ∀ s ∈ x, 5 ≤ s.length) → arraysFate out xs ≠ .crash := by
    intro xs
    induction xs with
    | nil => intro out _; unfold arraysFate; simp
    | cons x xs ih =>
      intro out hx
      obtain ⟨hne, hall⟩ := hx x (by simp)
      cases x with
      | nil => exact absurd rfl hne
      | cons s x =>
        obtain ⟨c, u, hcu⟩ := hsome (hall s (by simp))
        unfold arraysFate
        rw [List.head?_cons, Option.bind_some, hcu]
        dsimp only
        split
        · simp
        · rw [if_neg]
          · exact ih _ fun y hy => hx y (by simp [hy])
          · intro hm
            obtain ⟨t, h1, h2⟩ := List.mem_map.1 hm
            obtain ⟨c', u', h3⟩ := hsome (hall t h1)
            rw [h2] at h3
            cases h3
  rw [Ne, (C124_hevc vs ss ps hs).2.2]
  unfold hevcFate
  split
  · simp
  · rename_i he
    refine key _ _ ?_
    intro x hx
    simp only [List.mem_cons, List.not_mem_nil, or_false] at hx
    rcases hx with rfl | rfl | rfl
    · exact ⟨fun h => he (.inl h), fun s h => h5 s (by simp [h])⟩
    · exact ⟨fun h => he (.inr (.inl h)), fun s h => h5 s (by simp [h])⟩
    · exact ⟨fun h => he (.inr (.inr h)), fun s h => h5 s (by simp [h])⟩

/-- **C124**: a record has at most 1024 bytes, and its lists are not empty. -/
theorem C124_avc_size (ss ps : List Bytes) (hs : ∀ s ∈ ss ++ ps, s.length < 2 ^ 62) (d : Bytes)
    (h : avcMarshal ss ps = ok d) : d.length ≤ 1024 ∧ ss ≠ [] ∧ ps ≠ [] := by
  rw [(C124_avc ss ps hs).1 d] at h
  unfold avcFate at h
  split at h
  · cases h
  · rename_i he
    split at h
    · cases h
    · split at h
      · cases h
      · split at h
        · cases h
        · rename_i hl
          split at h
          · cases h
          · split at h
            · cases h
              refine ⟨?_, fun h => he (.inl h), fun h => he (.inr h)⟩
              simp only [avcRecord, List.length_append, List.length_cons, List.length_nil, ← size16_eq]
              omega
            · cases h

/-- **C124**: the same for H.265. -/
theorem C124_hevc_size (vs ss ps : List Bytes) (hs : ∀ s ∈ vs ++ ss ++ ps, s.length < 2 ^ 62) (d : Bytes)
    (h : hevcMarshal vs ss ps = ok d) : d.length ≤ 1024 ∧ vs ≠ [] ∧ ss ≠ [] ∧ ps ≠ [] := by
  rw [(C124_hevc vs ss ps hs).1 d] at h
  have key : ∀ (xs : List (List Bytes)) (out : Bytes), out.length ≤ 1024 → arraysFate out xs = .record d → d.length ≤ 1024 := by
    intro xs
    induction xs with
    | nil => intro out ho h; unfold arraysFate at h; cases h; exact ho
    | cons x xs ih =>
      intro out ho h
      unfold arraysFate at h
      split at h
      · split at h
        · cases h
        · split at h
          · cases h
          · refine ih _ ?_ h
            rw [List.length_append, size16_array]
            omega
      · cases h
  unfold hevcFate at h
  split at h
  · cases h
  · rename_i he
    exact ⟨key _ _ (by simp) h, fun h => he (.inl h), fun h => he (.inr (.inl h)), fun h => he (.inr (.inr h))⟩

/-- The claim: `Marshal` returns a record or an error. -/
def C124_claim : Prop :=
  (∀ ss ps : List Bytes, (∀ s ∈ ss ++ ps, s.length < 2 ^ 62) → avcMarshal ss ps ≠ Go.panic) ∧
  (∀ vs ss ps : List Bytes, (∀ s ∈ vs ++ ss ++ ps, s.length < 2 ^ 62) → hevcMarshal vs ss ps ≠ Go.panic)

/-- **C124**: false for both. An SPS of three bytes; a VPS that is a bare start code. -/
theorem C124_claim_violated :
    ¬ C124_claim ∧ avcMarshal [[0, 0, 1, 0x67, 0x64, 0]] [[0x68]] = Go.panic ∧
      hevcMarshal [[0, 0, 1]] [[0x42]] [[0x44]] = Go.panic := by
  have h1 : avcMarshal [[0, 0, 1, 0x67, 0x64, 0]] [[0x68]] = Go.panic := by
    rw [(C124_avc _ _ (by decide)).2.2]; decide +kernel
  have h2 : hevcMarshal [[0, 0, 1]] [[0x42]] [[0x44]] = Go.panic := by
    rw [(C124_hevc _ _ _ (by decide)).2.2]; decide +kernel
  exact ⟨fun h => h.1 _ _ (by decide) h1, h1, h2⟩

/-- **C124**: what comes first decides. A PPS of one zero byte is a panic if there was room for the SPS and the count, else an error. -/
theorem C124_order (s : Bytes) (h4 : 8 ≤ s.length) (hc : s.take 3 ≠ [0, 0, 1]) (hc4 : s.take 4 ≠ [0, 0, 0, 1]) (hl : s.length < 2 ^ 62) :
    (avcMarshal [s] [[0]] = Go.panic ↔ s.length ≤ 1015) ∧ ((∃ e, avcMarshal [s] [[0]] = err e) ↔ 1015 < s.length) := by
  have hu : unitOfSet s = some s := by
    unfold unitOfSet
    rw [if_neg, if_neg hc, if_neg hc4]
    intro hm
    simp only [List.mem_cons, List.not_mem_nil, or_false] at hm
    rcases hm with rfl | rfl | rfl | rfl <;> simp at h4
  have h0 : unitOfSet [0] = none := by decide
  have hs : ∀ x ∈ [s] ++ [[0]], x.length < 2 ^ 62 := by
    intro x hx
    simp only [List.cons_append, List.nil_append, List.mem_cons, List.not_mem_nil, or_false] at hx
    rcases hx with rfl | rfl
    · exact hl
    · decide
  rw [(C124_avc _ _ hs).2.1, (C124_avc _ _ hs).2.2]
  have hf : avcFate [s] [[0]] = if 1015 < s.length then .refused else .crash := by
    simp only [avcFate, leadingUnits, hu, h0, size16, List.map_cons, List.map_nil, List.sum_cons, List.sum_nil]
    by_cases h : 1015 < s.length
    · rw [if_neg (by simp), if_pos h]
      split
      · rfl
      · rw [if_neg (by simp), if_pos (by omega)]
    · rw [if_neg (by simp), if_neg h, if_neg (by omega), if_neg (by simp), if_neg (by omega), if_pos (by simp)]
  rw [hf]
  split <;> simp <;> omega

/-- A case for the theorems: an SPS with a start code, a PPS without. -/
example : avcFate [[0, 0, 0, 1, 0x67, 0x64, 0, 0x1f]] [[0x68, 0xee]] =
    .record [1, 0x64, 0, 0x1f, 0xff, 0xE1, 0, 4, 0x67, 0x64, 0, 0x1f, 1, 0, 2, 0x68, 0xee] := by decide +kernel

/-- And for H.265. -/
example : hevcFate [[0x40, 1]] [[0, 0, 1, 0x42, 1]] [[0x44, 1]] =
    .record ([1] ++ List.replicate 20 0 ++ [3, 3, 32, 0, 1, 0, 2, 0x40, 1, 33, 0, 1, 0, 2, 0x42, 1, 34, 0, 1, 0, 2, 0x44, 1]) := by
  decide +kernel

end Avf
