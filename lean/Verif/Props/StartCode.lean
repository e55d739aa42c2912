import Verif.Lemmas.KeyFrame
/-! # C26–C31, C39, C40: start codes, key frames, splitting -/
namespace Avf
open Go

/-- **C26**: `FindStartCode` returns the first NAL header of `p` (a byte right behind `00 00 01`) and 4 if another zero
precedes the start code, 3 otherwise; and "not found" exactly if there is none. It never panics. -/
theorem C26_find_start_code (p : Bytes) :
    (findStartCode p = ok none ∧ ∀ j, ¬ StartAt p j) ∨
    ∃ j n, findStartCode p = ok (some (j, n)) ∧ StartAt p j ∧ (∀ k, k < j → ¬ StartAt p k) ∧
      (n = 4 ∧ 4 ≤ j ∧ p[j - 4]? = some 0 ∨ n = 3 ∧ ¬ (4 ≤ j ∧ p[j - 4]? = some 0)) := by
  rcases findStartCode_cases p with h | ⟨j, h, hs, hm⟩
  · exact .inl h
  · refine .inr ⟨j, _, h, hs, hm, ?_⟩
    unfold codeLen
    by_cases hc : 3 < j ∧ p[j - 4]? = some 0
    · rw [if_pos hc]; exact .inl ⟨rfl, hc⟩
    · rw [if_neg hc]; exact .inr ⟨rfl, hc⟩

/-- **C26**: `FindStartCode2` returns the first byte of that start code. -/
theorem C26_find_start_code2 (p : Bytes) :
    (findStartCode2 p = ok none ∧ ∀ j, ¬ StartAt p j) ∨
    ∃ i j, findStartCode2 p = ok (some i) ∧ StartAt p j ∧ (∀ k, k < j → ¬ StartAt p k) ∧ HasCode (p.drop i) ∧
      (j = i + 4 ∨ j = i + 3 ∧ (p.take i).getLast? ≠ some 0) := by
  rcases findStartCode2_cases p with h | ⟨j, h, hs, hm⟩
  · exact .inl h
  · refine .inr ⟨_, j, h, hs, hm, hasCode_drop hs, ?_⟩
    have := hs.1
    rcases codeLen_spec hs with ⟨e, _, h2⟩ | ⟨e, h4, _⟩
    · rw [e]; exact .inr ⟨by omega, h2⟩
    · rw [e]; left; omega

example : findStartCode [9, 0, 0, 0, 1, 0x67, 0, 0, 1] = ok (some (5, 4)) ∧ StartAt [9, 0, 0, 0, 1, 0x67, 0, 0, 1] 5 := by
  decide +kernel
example : findStartCode [9, 0, 0, 1] = ok none := by decide +kernel
example : findStartCode [2, 0, 0, 1, 5] = ok (some (4, 3)) := by decide +kernel

/-- **C27**: `FindStartCodeWithReader` on a cursor in range. -/
theorem C27_find_with_reader (r : BytesBuf) (hv : r.Valid) :
    (findStartCodeWithReader r = ok (-1, r) ∧ ∀ j, ¬ StartAt (r.data.drop r.offset.toNat) j) ∨
    ∃ j b, StartAt (r.data.drop r.offset.toNat) j ∧ (∀ k, k < j → ¬ StartAt (r.data.drop r.offset.toNat) k) ∧
      (r.data.drop r.offset.toNat)[j]? = some b ∧
      findStartCodeWithReader r = ok ((b.toNat : Int), { r with offset := r.offset + j + 1 }) := by
  have h1 := hv.len
  have h2 := hv.lo
  have h3 := hv.hi
  have hr : r.remainingBytes = ok (r.data.drop r.offset.toNat) := by
    unfold BytesBuf.remainingBytes sliceI
    rw [if_pos (by omega)]; simp
  unfold findStartCodeWithReader
  rw [hr]
  simp only [ok_bind]
  rcases findStartCode_cases (r.data.drop r.offset.toNat) with ⟨h, hno⟩ | ⟨j, h, hs, hm⟩
  · left; rw [h]; exact ⟨rfl, hno⟩
  · right
    have hl := hs.2.1
    refine ⟨j, _, hs, hm, List.getElem?_eq_getElem hl, ?_⟩
    rw [h]
    simp only [ok_bind]
    rw [idx_of_lt hl]
    rw [List.length_drop] at hl
    unfold BytesBuf.seek
    rw [BytesBuf.peekN_ok hv (by unfold BytesBuf.moveSpec; omega)]
    simp [Int.add_assoc]

/-- The reader stands behind the header byte. -/
example : findStartCodeWithReader { data := [1, 2, 0, 0, 1, 0x65, 7], length := 7, offset := 1 } =
    ok (0x65, { data := [1, 2, 0, 0, 1, 0x65, 7], length := 7, offset := 6 }) := by decide +kernel

/-- **C28**. -/
theorem C28_avc_key_frame (p : Bytes) : avcIsKeyFrame p = ok (avcKey (headers p)) := avcIsKeyFrame_eq p

/-- The byte at `j`, if it is a NAL header. -/
def headerAt (p : Bytes) (j : Nat) : Option Byte := if StartAt p j then p[j]? else none

theorem headerAt_cons {a : Byte} {t : Bytes} {j : Nat} (h : 3 ≤ j) : headerAt (a :: t) (j + 1) = headerAt t j := by
  unfold headerAt
  have := startAt_drop (p := a :: t) (k := 1) h
  rw [Nat.add_comm 1 j] at this
  simp only [List.drop_one, List.tail_cons] at this
  simp only [this, List.getElem?_cons_succ]

theorem headerAt_small {p : Bytes} {j : Nat} (h : j < 3) : headerAt p j = none := if_neg fun hs => by have := hs.1; omega

theorem headerAt_range (p : Bytes) : (List.range p.length).filterMap (headerAt p) =
    (List.range (p.length - 3)).filterMap (fun j => headerAt p (3 + j)) := by
  by_cases h : 3 ≤ p.length
  · have hr : List.range p.length = List.range 3 ++ (List.range (p.length - 3)).map (3 + ·) := by
      rw [← List.range_add, show 3 + (p.length - 3) = p.length by omega]
    rw [hr, List.filterMap_append, List.filterMap_map]
    have : (List.range 3).filterMap (headerAt p) = [] := by
      rw [List.filterMap_eq_nil_iff]
      intro j hj; exact headerAt_small (List.mem_range.1 hj)
    rw [this]; rfl
  · rw [show p.length - 3 = 0 by omega]
    simp only [List.range_zero, List.filterMap_nil, List.filterMap_eq_nil_iff]
    intro j hj; exact headerAt_small (by have := List.mem_range.1 hj; omega)

/-- **C28**, the list of headers: exactly the bytes at the positions behind a start code, in order of position. -/
theorem C28_headers (p : Bytes) : headers p = (List.range p.length).filterMap (headerAt p) := by
  rw [headerAt_range]
  induction p with
  | nil => rfl
  | cons a t ih =>
    rw [headers_cons, ih]
    by_cases h : 3 ≤ t.length
    · rw [show (a :: t).length - 3 = (t.length - 3) + 1 by simp; omega, List.range_succ_eq_map, List.filterMap_cons,
        List.filterMap_map]
      have h3 : headerAt (a :: t) (3 + 0) = if CodeAt (a :: t) 0 then (a :: t)[3]? else none := by
        unfold headerAt
        by_cases hc : CodeAt (a :: t) 0
        · rw [if_pos hc, if_pos ⟨by omega, by simp; omega, hc⟩]
        · rw [if_neg hc, if_neg fun h => hc h.2.2]
      have hf : ((fun j => headerAt (a :: t) (3 + j)) ∘ Nat.succ) = fun j => headerAt t (3 + j) := by
        funext j
        show headerAt (a :: t) (3 + j + 1) = _
        rw [headerAt_cons (by omega)]
      rw [h3, hf]
      by_cases hc : CodeAt (a :: t) 0
      · rw [if_pos hc, if_pos hc, List.getElem?_eq_getElem (by simp; omega)]; rfl
      · rw [if_neg hc, if_neg hc]; rfl
    · rw [show t.length - 3 = 0 by omega, show (a :: t).length - 3 = 0 by simp; omega]
      have : (a :: t)[3]? = none := by rw [List.getElem?_eq_none_iff]; simp; omega
      rw [this]; simp

example : headers [0, 0, 0, 1, 0x67, 1, 0, 0, 1, 0x68, 0, 0, 1, 0x65, 4, 0, 0, 1] = [0x67, 0x68, 0x65] := by decide +kernel
example : avcIsKeyFrame [0, 0, 0, 1, 0x67, 1, 0, 0, 1, 0x68, 0, 0, 1, 0x65, 4] = ok true := by decide +kernel
example : avcIsKeyFrame [0, 0, 0, 1, 0x67, 1, 0, 0, 1, 0x41, 0, 0, 1, 0x65, 4] = ok false := by decide +kernel

/-- **C29**. -/
theorem C29_hevc_key_frame (p : Bytes) : hevcIsKeyFrame p = ok (hevcKey (headers p)) := hevcIsKeyFrame_eq p

example : hevcIsKeyFrame [0, 0, 0, 1, 0x40, 1, 0, 0, 1, 0x42, 0, 0, 1, 0x26, 4] = ok true := by decide +kernel
example : hevcIsKeyFrame [0, 0, 0, 1, 0x40, 1, 0, 0, 1, 0x42, 0, 0, 1, 0x02, 4] = ok false := by decide +kernel

/-- **C30**: splitting any string of at least three bytes. -/
theorem C30_split (p : Bytes) (hl : 3 ≤ p.length) : ∃ ss, splitNalU p = ok ss ∧
    ss.flatten = p ∧
    (∀ s ∈ ss, 3 ≤ s.length ∧ ∀ j, ¬ StartAt (s.drop 3) j) ∧
    (∀ a s t b, ss = a ++ s :: t :: b → HasCode t ∧ (t.take 3 = [0, 0, 1] → (s.drop 3).getLast? ≠ some 0)) ∧
    (HasCode p → ∀ s ∈ ss, HasCode s) := by
  obtain ⟨ss, h, hs⟩ := splitNalU_spec p hl
  exact ⟨ss, h, hs.flatten, hs.inner, hs.next, hs.first⟩

/-- **C30**: a shorter string panics. -/
theorem C30_short_panics (p : Bytes) (hl : p.length < 3) : splitNalU p = panic := by
  rw [splitNalU, dif_neg (by omega)]

/-- **C30**: an Annex B stream is split into its units, with their start codes. -/
theorem C30_split_annexB (xs : List (Bool × Bytes)) (hne : xs ≠ []) (h : ∀ x ∈ xs, Framed x.2) :
    splitNalU (annexB xs) = ok (xs.map annexUnit) := splitNalU_annexB hne h

example : (∀ x ∈ [(true, [0x67, 0, 0, 3]), (false, [0x68]), (true, [0x65, 1])], Framed x.2) ∧
    splitNalU (annexB [(true, [0x67, 0, 0, 3]), (false, [0x68]), (true, [0x65, 1])]) =
      ok [[0, 0, 0, 1, 0x67, 0, 0, 3], [0, 0, 1, 0x68], [0, 0, 0, 1, 0x65, 1]] := by decide +kernel

/-- **C31**: the result of `RemoveStartCode`. -/
theorem C31_remove_start_code (data : Bytes) :
    (∀ u, data = [0, 0, 1] ++ u → removeStartCode data = ok u) ∧
    (∀ u, data = [0, 0, 0, 1] ++ u → removeStartCode data = ok u) ∧
    (¬ HasCode data → data ∉ [[], [0], [0, 0], [0, 0, 0]] → removeStartCode data = ok data) := by
  refine ⟨?_, ?_, ?_⟩
  · rintro u rfl; simp [removeStartCode, idx, sliceFrom]
  · rintro u rfl; simp [removeStartCode, idx, sliceFrom]
  · intro h hn
    match data with
    | [] => simp at hn
    | [a] =>
      by_cases ha : a = 0
      · subst ha; simp at hn
      · have : ¬ a = 0#8 := ha
        simp [removeStartCode, idx, this]
    | [a, b] =>
      by_cases ha : a = 0#8
      · subst ha
        by_cases hb : b = 0#8
        · subst hb; simp at hn
        · simp [removeStartCode, idx, hb]
      · simp [removeStartCode, idx, ha]
    | [a, b, c] =>
      by_cases ha : a = 0#8
      · subst ha
        by_cases hb : b = 0#8
        · subst hb
          by_cases hc : c = 0#8
          · subst hc; simp at hn
          · by_cases hc1 : c = 1#8
            · subst hc1; simp [HasCode] at h
            · simp [removeStartCode, idx, hc, hc1]
        · simp [removeStartCode, idx, hb]
      · simp [removeStartCode, idx, ha]
    | a :: b :: c :: d :: t =>
      by_cases ha : a = 0#8
      · subst ha
        by_cases hb : b = 0#8
        · subst hb
          by_cases hc1 : c = 1#8
          · subst hc1; simp [HasCode] at h
          · by_cases hc : c = 0#8
            · subst hc
              by_cases hd : d = 1#8
              · subst hd; simp [HasCode] at h
              · simp [removeStartCode, idx, hd]
            · simp [removeStartCode, idx, hc, hc1]
        · simp [removeStartCode, idx, hb]
      · simp [removeStartCode, idx, ha]

/-- **C31**: the strings on which it panics. -/
theorem C31_panic_iff (data : Bytes) : removeStartCode data = panic ↔ data ∈ [[], [0], [0, 0], [0, 0, 0]] := by
  constructor
  · intro h
    by_cases hc : HasCode data
    · rcases hc with hc | hc
      · have := (C31_remove_start_code data).1 (data.drop 3) (by rw [← hc, List.take_append_drop])
        rw [this] at h; simp at h
      · have := (C31_remove_start_code data).2.1 (data.drop 4) (by rw [← hc, List.take_append_drop])
        rw [this] at h; simp at h
    · by_cases hn : data ∈ [[], [0], [0, 0], [0, 0, 0]]
      · exact hn
      · rw [(C31_remove_start_code data).2.2 hc hn] at h; simp at h
  · intro h
    simp only [List.mem_cons, List.not_mem_nil, or_false] at h
    rcases h with rfl | rfl | rfl | rfl <;> decide

example : removeStartCode [0, 0, 0, 1, 5, 6] = ok [5, 6] ∧ removeStartCode [0, 0, 2, 1] = ok [0, 0, 2, 1] := by decide

/-- The last unit of `us` with `type u = t`, behind a 4-byte start code. -/
def lastUnit (type : Bytes → Nat) (t : Nat) (us : List Bytes) : Option Bytes :=
  ((us.filter fun u => type u = t).getLast?).map ([0, 0, 0, 1] ++ ·)

/-- **C39**: the parameter sets of an H.264 access unit. -/
theorem C39_avc_parameter_sets (xs : List (Bool × Bytes)) (hne : xs ≠ []) (h : ∀ x ∈ xs, Framed x.2) :
    avcParseExtraData (annexB xs) =
      match lastUnit avcUnitType 7 (xs.map (·.2)), lastUnit avcUnitType 8 (xs.map (·.2)) with
      | some sps, some pps => ok (sps, pps)
      | _, _ => err "not find extra data for H264" := by
  unfold avcParseExtraData
  rw [splitNalU_annexB hne h]
  have := avcExtra_fold xs (fun x hx => (h x hx).ne) []
  simp only [List.nil_append] at this
  simp only [ok_bind]
  rw [show ((none, none) : Option Bytes × Option Bytes) = (lastWithCode avcUnitType 7 [], lastWithCode avcUnitType 8 []) from rfl,
    this]
  simp only [ok_bind]
  show _ = match lastWithCode avcUnitType 7 _, lastWithCode avcUnitType 8 _ with | some sps, some pps => _ | _, _ => _
  cases lastWithCode avcUnitType 7 (xs.map (·.2)) <;> cases lastWithCode avcUnitType 8 (xs.map (·.2)) <;> rfl

example : avcParseExtraData (annexB [(true, [9]), (true, [0x67, 1]), (false, [0x67, 2]), (false, [0x68, 3]), (false, [0x65, 4])]) =
    ok ([0, 0, 0, 1, 0x67, 2], [0, 0, 0, 1, 0x68, 3]) := by decide +kernel
example : avcParseExtraData (annexB [(true, [0x67, 1]), (false, [0x65, 4])]) = err "not find extra data for H264" := by decide +kernel

/-- The claim of C39 without the hypothesis that units are not empty: no Annex B stream makes it panic. -/
def C39_empty_units_claim : Prop := ∀ xs : List (Bool × Bytes), xs ≠ [] → (∀ x ∈ xs, x.2 = [] ∨ Framed x.2) →
  avcParseExtraData (annexB xs) ≠ panic ∧ hevcParseExtraData (annexB xs) ≠ panic

/-- An empty unit makes `ParseExtraDataFromKeyNALU` panic (index 0 of an empty slice). -/
theorem C39_empty_unit_violated : ¬ C39_empty_units_claim := by
  intro h
  exact (h [(false, []), (false, [0x67, 1])] (by decide) (by decide)).1 (by decide +kernel)

/-- **C40**: the parameter sets of an H.265 access unit. -/
theorem C40_hevc_parameter_sets (xs : List (Bool × Bytes)) (hne : xs ≠ []) (h : ∀ x ∈ xs, Framed x.2) :
    hevcParseExtraData (annexB xs) =
      match lastUnit hevcUnitType 32 (xs.map (·.2)), lastUnit hevcUnitType 33 (xs.map (·.2)),
        lastUnit hevcUnitType 34 (xs.map (·.2)) with
      | some vps, some sps, some pps => ok (vps, sps, pps)
      | _, _, _ => err "not find extra data for H265" := by
  unfold hevcParseExtraData
  rw [splitNalU_annexB hne h]
  have := hevcExtra_fold xs (fun x hx => (h x hx).ne) []
  simp only [List.nil_append] at this
  simp only [ok_bind]
  rw [show ((none, none, none) : Option Bytes × Option Bytes × Option Bytes) =
    (lastWithCode hevcUnitType 32 [], lastWithCode hevcUnitType 33 [], lastWithCode hevcUnitType 34 []) from rfl, this]
  simp only [ok_bind]
  show _ = match lastWithCode hevcUnitType 32 _, lastWithCode hevcUnitType 33 _, lastWithCode hevcUnitType 34 _ with
    | some vps, some sps, some pps => _ | _, _, _ => _
  cases lastWithCode hevcUnitType 32 (xs.map (·.2)) <;> cases lastWithCode hevcUnitType 33 (xs.map (·.2)) <;>
    cases lastWithCode hevcUnitType 34 (xs.map (·.2)) <;> rfl

example : hevcParseExtraData (annexB [(true, [0x40, 1]), (true, [0x42, 2]), (false, [0x44, 3]), (false, [0x26, 4])]) =
    ok ([0, 0, 0, 1, 0x40, 1], [0, 0, 0, 1, 0x42, 2], [0, 0, 0, 1, 0x44, 3]) := by decide +kernel

end Avf
