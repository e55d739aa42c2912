import Verif.Lemmas.AnnexUnits
import Verif.Lemmas.DemuxerSound
import Verif.Spec.Pieces
/-! # Splitting and the search for parameter sets on every input: lemmas -/
namespace Avf
open Go

theorem findStartCode2_unit {u : Bytes} (h : NoCode u) {b : Bool} (hl : b = false → u.getLast? ≠ some 0) (a : Byte) (v : Bytes) :
    findStartCode2 (u ++ code b ++ a :: v) = ok (some u.length) := by
  rw [findStartCode2, findStartCode_unit h hl]
  simp

theorem splitNalU_pieces {p : Bytes} {ss : List Bytes} (h : Pieces p ss) : splitNalU p = ok ss := by
  induction h with
  | last p hl hn =>
    rw [splitNalU, dif_pos hl, findStartCode2, findStartCode_none hn]
    rfl
  | next h u b a t ss hh hn hz _ ih =>
    rw [splitNalU, dif_pos (by simp; omega)]
    have e1 : (h ++ (u ++ code b ++ a :: t)).drop 3 = u ++ code b ++ a :: t := by rw [← hh, List.drop_left]
    have e2 : (h ++ (u ++ code b ++ a :: t)).drop (u.length + 3) = code b ++ a :: t := by
      rw [← List.append_assoc, ← List.append_assoc, List.append_assoc (h ++ u), show u.length + 3 = (h ++ u).length by simp; omega, List.drop_left]
    have e3 : (h ++ (u ++ code b ++ a :: t)).take (u.length + 3) = h ++ u := by
      rw [← List.append_assoc, ← List.append_assoc, List.append_assoc (h ++ u), show u.length + 3 = (h ++ u).length by simp; omega, List.take_left]
    rw [e1, findStartCode2_unit hn hz]
    dsimp only
    rw [slice_of_le (by omega) (by simp; omega), ok_bind, e2, ih]
    simp only [ok_bind, List.drop_zero, e3, pure_def]

theorem pieces_exists (p : Bytes) (hl : 3 ≤ p.length) : ∃ ss, Pieces p ss := by
  induction hn : p.length using Nat.strongRecOn generalizing p with
  | ind N ih =>
  subst hn
  rcases findStartCode_cases (p.drop 3) with ⟨_, hno⟩ | ⟨j, hf, hs, hm⟩
  · exact ⟨_, .last p hl hno⟩
  · obtain ⟨a, t, he, hd, hnc⟩ := startAt_split hs hm
    generalize hv : (p.drop 3).take (j - 3) = v at *
    have hp : p = p.take 3 ++ (v ++ [0, 0, 1] ++ a :: t) := by rw [← he, List.take_append_drop]
    have h3 : (p.take 3).length = 3 := by simp; omega
    by_cases hz : v.getLast? = some 0
    · obtain ⟨w, rfl⟩ : ∃ w, v = w ++ [0] := List.getLast?_eq_some_iff.1 hz
      have hwn : NoCode w := by
        intro i hi hc
        have := codeAt_lt hc
        exact hnc i (by simp; omega) ((codeAt_append_left (by omega)).2 hc)
      obtain ⟨ss, hss⟩ := ih (code true ++ a :: t).length (by
        rw [hp]; simp only [List.length_append, h3, List.length_cons, List.length_nil, code]; omega) (code true ++ a :: t)
        (by simp [code]) rfl
      refine ⟨(p.take 3 ++ w) :: ss, ?_⟩
      have := Pieces.next (p.take 3) w true a t ss h3 hwn (by simp) hss
      rw [show w ++ code true ++ a :: t = w ++ [0] ++ [0, 0, 1] ++ a :: t by simp [code], ← hp] at this
      exact this
    · obtain ⟨ss, hss⟩ := ih (code false ++ a :: t).length (by
        rw [hp]; simp only [List.length_append, h3, List.length_cons, List.length_nil, code]; omega) (code false ++ a :: t)
        (by simp [code]) rfl
      refine ⟨(p.take 3 ++ v) :: ss, ?_⟩
      have := Pieces.next (p.take 3) v false a t ss h3 hnc (fun _ => hz) hss
      rw [show v ++ code false ++ a :: t = v ++ [0, 0, 1] ++ a :: t by simp [code], ← hp] at this
      exact this

theorem pieces_unique {p : Bytes} {ss ts : List Bytes} (h1 : Pieces p ss) (h2 : Pieces p ts) : ss = ts := by
  have := splitNalU_pieces h1
  rw [splitNalU_pieces h2] at this
  simpa using this.symm

theorem Pieces.length {p : Bytes} {ss : List Bytes} (h : Pieces p ss) : 3 ≤ p.length ∧ ∀ s ∈ ss, 3 ≤ s.length := by
  induction h with
  | last p hl _ => exact ⟨hl, by simpa using hl⟩
  | next h u b a t ss hh hn hz _ ih =>
    refine ⟨by simp; omega, ?_⟩
    intro s hs
    rcases List.mem_cons.1 hs with rfl | hs
    · simp; omega
    · exact ih.2 s hs

theorem removeStartCode_piece {s : Bytes} (h3 : 3 ≤ s.length) (h : s ≠ [0, 0, 0]) : removeStartCode s = ok (unitIn s) := by
  unfold unitIn
  by_cases h1 : s.take 3 = [0, 0, 1]
  · rw [if_pos h1]
    exact (C31_remove_start_code s).1 _ (by rw [← h1, List.take_append_drop])
  · rw [if_neg h1]
    by_cases h2 : s.take 4 = [0, 0, 0, 1]
    · rw [if_pos h2]
      exact (C31_remove_start_code s).2.1 _ (by rw [← h2, List.take_append_drop])
    · rw [if_neg h2]
      refine (C31_remove_start_code s).2.2 (by unfold HasCode; simp only [h1, h2]; simp) ?_
      simp only [List.mem_cons, List.not_mem_nil, or_false]
      rintro (rfl | rfl | rfl | rfl) <;> simp at h3 h

theorem unitIn_ne {s : Bytes} (h3 : 3 ≤ s.length) (h : ¬ BadPiece s) : unitIn s ≠ [] := by
  unfold unitIn
  unfold BadPiece at h
  split
  · rename_i h1
    intro he
    have := List.take_append_drop 3 s
    rw [he, h1] at this
    exact h (Or.inr (Or.inl this.symm))
  · split
    · rename_i h1
      intro he
      have := List.take_append_drop 4 s
      rw [he, h1] at this
      exact h (Or.inr (Or.inr this.symm))
    · rintro rfl; simp at h3

theorem avcExtraStep_bad {s : Bytes} (h : BadPiece s) (x : Option Bytes × Option Bytes) : avcExtraStep x s = panic := by
  rcases h with rfl | rfl | rfl <;> rfl

theorem hevcExtraStep_bad {s : Bytes} (h : BadPiece s) (x : Option Bytes × Option Bytes × Option Bytes) : hevcExtraStep x s = panic := by
  rcases h with rfl | rfl | rfl <;> rfl

theorem avcExtraStep_piece {s : Bytes} (h3 : 3 ≤ s.length) (h : ¬ BadPiece s) (us : List Bytes) :
    avcExtraStep (lastWithCode avcUnitType 7 us, lastWithCode avcUnitType 8 us) s =
      ok (lastWithCode avcUnitType 7 (us ++ [unitIn s]), lastWithCode avcUnitType 8 (us ++ [unitIn s])) := by
  have hne := unitIn_ne h3 h
  have := avcExtra_fold [(true, unitIn s)] (by simpa using hne) us
  simp only [List.map_cons, List.map_nil, List.foldlM_cons, List.foldlM_nil, bind_pure] at this
  rw [← this]
  unfold avcExtraStep
  rw [removeStartCode_piece h3 (fun e => h (Or.inl e)), removeStartCode_unit]

theorem hevcExtraStep_piece {s : Bytes} (h3 : 3 ≤ s.length) (h : ¬ BadPiece s) (us : List Bytes) :
    hevcExtraStep (lastWithCode hevcUnitType 32 us, lastWithCode hevcUnitType 33 us, lastWithCode hevcUnitType 34 us) s =
      ok (lastWithCode hevcUnitType 32 (us ++ [unitIn s]), lastWithCode hevcUnitType 33 (us ++ [unitIn s]),
        lastWithCode hevcUnitType 34 (us ++ [unitIn s])) := by
  have hne := unitIn_ne h3 h
  have := hevcExtra_fold [(true, unitIn s)] (by simpa using hne) us
  simp only [List.map_cons, List.map_nil, List.foldlM_cons, List.foldlM_nil, bind_pure] at this
  rw [← this]
  unfold hevcExtraStep
  rw [removeStartCode_piece h3 (fun e => h (Or.inl e)), removeStartCode_unit]

theorem avcExtra_pieces (ss : List Bytes) (h : ∀ s ∈ ss, 3 ≤ s.length) (us : List Bytes) :
    ss.foldlM avcExtraStep (lastWithCode avcUnitType 7 us, lastWithCode avcUnitType 8 us) =
      if ∃ s ∈ ss, BadPiece s then panic
      else ok (lastWithCode avcUnitType 7 (us ++ ss.map unitIn), lastWithCode avcUnitType 8 (us ++ ss.map unitIn)) := by
  induction ss generalizing us with
  | nil => simp
  | cons s ss ih =>
    rw [List.foldlM_cons]
    by_cases hb : BadPiece s
    · rw [avcExtraStep_bad hb, if_pos ⟨s, by simp, hb⟩]; rfl
    · rw [avcExtraStep_piece (h s (by simp)) hb, ok_bind, ih (fun y hy => h y (by simp [hy]))]
      have : (∃ x ∈ s :: ss, BadPiece x) ↔ ∃ x ∈ ss, BadPiece x := by simp [hb]
      simp only [this, List.map_cons, List.append_assoc, List.singleton_append]

theorem hevcExtra_pieces (ss : List Bytes) (h : ∀ s ∈ ss, 3 ≤ s.length) (us : List Bytes) :
    ss.foldlM hevcExtraStep (lastWithCode hevcUnitType 32 us, lastWithCode hevcUnitType 33 us, lastWithCode hevcUnitType 34 us) =
      if ∃ s ∈ ss, BadPiece s then panic
      else ok (lastWithCode hevcUnitType 32 (us ++ ss.map unitIn), lastWithCode hevcUnitType 33 (us ++ ss.map unitIn),
        lastWithCode hevcUnitType 34 (us ++ ss.map unitIn)) := by
  induction ss generalizing us with
  | nil => simp
  | cons s ss ih =>
    rw [List.foldlM_cons]
    by_cases hb : BadPiece s
    · rw [hevcExtraStep_bad hb, if_pos ⟨s, by simp, hb⟩]; rfl
    · rw [hevcExtraStep_piece (h s (by simp)) hb, ok_bind, ih (fun y hy => h y (by simp [hy]))]
      have : (∃ x ∈ s :: ss, BadPiece x) ↔ ∃ x ∈ ss, BadPiece x := by simp [hb]
      simp only [this, List.map_cons, List.append_assoc, List.singleton_append]

theorem avcParse_pieces {p : Bytes} {ss : List Bytes} (h : Pieces p ss) :
    avcParseExtraData p = if ∃ s ∈ ss, BadPiece s then panic
      else match lastUnit avcUnitType 7 (ss.map unitIn), lastUnit avcUnitType 8 (ss.map unitIn) with
      | some sps, some pps => ok (sps, pps)
      | _, _ => err "not find extra data for H264" := by
  unfold avcParseExtraData
  rw [splitNalU_pieces h, ok_bind]
  have := avcExtra_pieces ss h.length.2 []
  rw [show (lastWithCode avcUnitType 7 [], lastWithCode avcUnitType 8 []) = ((none, none) : Option Bytes × Option Bytes) from rfl] at this
  rw [this]
  by_cases hb : ∃ s ∈ ss, BadPiece s
  · rw [if_pos hb, if_pos hb]; rfl
  · rw [if_neg hb, if_neg hb, ok_bind, List.nil_append]
    show _ = match lastWithCode avcUnitType 7 _, lastWithCode avcUnitType 8 _ with | some sps, some pps => _ | _, _ => _
    cases lastWithCode avcUnitType 7 (ss.map unitIn) <;> cases lastWithCode avcUnitType 8 (ss.map unitIn) <;> rfl

theorem hevcParse_pieces {p : Bytes} {ss : List Bytes} (h : Pieces p ss) :
    hevcParseExtraData p = if ∃ s ∈ ss, BadPiece s then panic
      else match lastUnit hevcUnitType 32 (ss.map unitIn), lastUnit hevcUnitType 33 (ss.map unitIn), lastUnit hevcUnitType 34 (ss.map unitIn) with
      | some vps, some sps, some pps => ok (vps, sps, pps)
      | _, _, _ => err "not find extra data for H265" := by
  unfold hevcParseExtraData
  rw [splitNalU_pieces h, ok_bind]
  have := hevcExtra_pieces ss h.length.2 []
  rw [show (lastWithCode hevcUnitType 32 [], lastWithCode hevcUnitType 33 [], lastWithCode hevcUnitType 34 []) =
    ((none, none, none) : Option Bytes × Option Bytes × Option Bytes) from rfl] at this
  rw [this]
  by_cases hb : ∃ s ∈ ss, BadPiece s
  · rw [if_pos hb, if_pos hb]; rfl
  · rw [if_neg hb, if_neg hb, ok_bind, List.nil_append]
    show _ = match lastWithCode hevcUnitType 32 _, lastWithCode hevcUnitType 33 _, lastWithCode hevcUnitType 34 _ with
      | some vps, some sps, some pps => _ | _, _, _ => _
    cases lastWithCode hevcUnitType 32 (ss.map unitIn) <;> cases lastWithCode hevcUnitType 33 (ss.map unitIn) <;>
      cases lastWithCode hevcUnitType 34 (ss.map unitIn) <;> rfl

theorem badUnits_pieces {p : Bytes} {ss : List Bytes} (h : Pieces p ss) : BadUnits p ↔ ∃ s ∈ ss, BadPiece s := by
  constructor
  · rintro (hl | ⟨ts, ht, hb⟩)
    · have := h.length.1; omega
    · rw [pieces_unique h ht]; exact hb
  · exact fun hb => Or.inr ⟨ss, h, hb⟩

theorem setsIn_pieces {id : Int} {p : Bytes} {ss ps : List Bytes} (h : Pieces p ss) :
    SetsIn id p ps ↔ (¬ ∃ s ∈ ss, BadPiece s) ∧ paramSets id (ss.map unitIn) = some ps := by
  constructor
  · rintro ⟨ts, ht, hb, hp⟩
    rw [pieces_unique h ht]
    exact ⟨fun ⟨s, hs, hb'⟩ => hb s hs hb', hp⟩
  · rintro ⟨hb, hp⟩
    exact ⟨ss, h, fun s hs hb' => hb ⟨s, hs, hb'⟩, hp⟩

/-- `ExtractVideoExtraDataFromKeyFrame` on every payload. -/
theorem extract_cases {id : Int} (hid : HasSets id) (d : Bytes) :
    BadUnits d ∧ extractVideoExtraData id d = panic ∨
    (¬ BadUnits d ∧ ∃ ps, SetsIn id d ps ∧ extractVideoExtraData id d = ok (some (withCodes ps))) ∨
    (¬ BadUnits d ∧ (∀ ps, ¬ SetsIn id d ps) ∧ ∃ m, extractVideoExtraData id d = err m) := by
  by_cases hl : d.length < 3
  · left
    refine ⟨Or.inl hl, ?_⟩
    have hs : splitNalU d = panic := by rw [splitNalU, dif_neg (by omega)]
    unfold extractVideoExtraData avcParseExtraData hevcParseExtraData
    rw [hs]
    rcases hid with rfl | rfl
    · rfl
    · rw [if_neg (by decide), if_pos rfl]; rfl
  · obtain ⟨ss, h⟩ := pieces_exists d (by omega)
    rw [badUnits_pieces h]
    simp only [setsIn_pieces h]
    unfold extractVideoExtraData
    rw [avcParse_pieces h, hevcParse_pieces h]
    by_cases hb : ∃ s ∈ ss, BadPiece s
    · left
      refine ⟨hb, ?_⟩
      rw [if_pos hb, if_pos hb]
      rcases hid with rfl | rfl
      · rfl
      · rw [if_neg (by decide), if_pos rfl]; rfl
    · right
      rw [if_neg hb, if_neg hb]
      simp only [hb, not_false_eq_true, true_and]
      rcases hid with rfl | rfl
      · rw [if_pos rfl]
        unfold paramSets
        rw [if_pos rfl, lastUnit_eq, lastUnit_eq]
        cases lastOf avcUnitType 7 (ss.map unitIn) <;> cases lastOf avcUnitType 8 (ss.map unitIn) <;>
          simp [withCodes, Go.err_bind]
      · rw [if_neg (by decide), if_pos rfl]
        unfold paramSets
        rw [if_neg (by decide), if_pos rfl, lastUnit_eq, lastUnit_eq, lastUnit_eq]
        cases lastOf hevcUnitType 32 (ss.map unitIn) <;> cases lastOf hevcUnitType 33 (ss.map unitIn) <;>
          cases lastOf hevcUnitType 34 (ss.map unitIn) <;> simp [withCodes, Go.err_bind]

/-- Reading the parameter sets of a track panics exactly if the search for them does. -/
theorem generate_panic_iff {undef : Int} {grow : Nat → Nat} {id : Int} (hid : HasSets id) (d : Bytes) :
    generateVideoCodecData undef grow packAnnexB id d = panic ↔ BadUnits d := by
  unfold generateVideoCodecData
  rw [if_neg (by decide)]
  have bad : ∀ (u : Bytes), [0, 0, 0, 1] ++ u ∉ ([[], [0], [0, 0], [0, 0, 0]] : List Bytes) := by
    intro u hu
    simp at hu
  by_cases hl : d.length < 3
  · have hs : splitNalU d = panic := by rw [splitNalU, dif_neg (by omega)]
    unfold avcParseExtraData hevcParseExtraData
    rw [hs]
    refine ⟨fun _ => Or.inl hl, fun _ => ?_⟩
    rcases hid with rfl | rfl
    · rfl
    · rw [if_neg (by decide), if_pos rfl]; rfl
  · obtain ⟨ss, h⟩ := pieces_exists d (by omega)
    rw [badUnits_pieces h, avcParse_pieces h, hevcParse_pieces h]
    by_cases hb : ∃ s ∈ ss, BadPiece s
    · refine ⟨fun _ => hb, fun _ => ?_⟩
      rw [if_pos hb, if_pos hb]
      rcases hid with rfl | rfl
      · rfl
      · rw [if_neg (by decide), if_pos rfl]; rfl
    · rw [if_neg hb, if_neg hb]
      refine ⟨fun he => ?_, fun hb' => absurd hb' hb⟩
      exfalso
      rcases hid with rfl | rfl
      · rw [if_pos rfl, lastUnit_eq, lastUnit_eq] at he
        cases h1 : lastOf avcUnitType 7 (ss.map unitIn) with
        | none => rw [h1] at he; simp [Go.err_bind] at he
        | some s =>
          cases h2 : lastOf avcUnitType 8 (ss.map unitIn) with
          | none => rw [h1, h2] at he; simp [Go.err_bind] at he
          | some p =>
            rw [h1, h2] at he
            simp only [Option.map_some, ok_bind] at he
            cases e : newAVCCodecData undef ([0, 0, 0, 1] ++ s) ([0, 0, 0, 1] ++ p) with
            | ok c => rw [e] at he; cases he
            | err m => rw [e] at he; cases he
            | panic => exact bad _ ((C69_avc_new_iff undef _ _).2.1 e)
      · rw [if_neg (by decide), if_pos rfl, lastUnit_eq, lastUnit_eq, lastUnit_eq] at he
        cases h1 : lastOf hevcUnitType 32 (ss.map unitIn) with
        | none => rw [h1] at he; simp [Go.err_bind] at he
        | some v =>
          cases h2 : lastOf hevcUnitType 33 (ss.map unitIn) with
          | none => rw [h1, h2] at he; simp [Go.err_bind] at he
          | some s =>
            cases h3 : lastOf hevcUnitType 34 (ss.map unitIn) with
            | none => rw [h1, h2, h3] at he; simp [Go.err_bind] at he
            | some p =>
              rw [h1, h2, h3] at he
              simp only [Option.map_some, ok_bind] at he
              cases e : newHEVCCodecData ([0, 0, 0, 1] ++ v) ([0, 0, 0, 1] ++ s) ([0, 0, 0, 1] ++ p) with
              | ok c => rw [e] at he; cases he
              | err m => rw [e] at he; cases he
              | panic => exact bad _ ((C69_hevc_new_iff _ _ _).2.1 e)

end Avf
