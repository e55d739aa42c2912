import Verif.Spec.Marshal
import Verif.Lemmas.HevcRecord
import Verif.Props.StartCode
/-!
# `Marshal` of any lists
-/
namespace Avf
open Go

/-- How a call ended. -/
def fateOf : Go Bytes → Fate
  | .ok d => .record d
  | .err _ => .refused
  | .panic => .crash

theorem unitOfSet_none {s : Bytes} (h : unitOfSet s = none) : removeStartCode s = Go.panic := by
  rw [C31_panic_iff]
  unfold unitOfSet at h
  split at h
  · assumption
  · split at h
    · cases h
    · split at h <;> cases h

theorem unitOfSet_some {s u : Bytes} (h : unitOfSet s = some u) : removeStartCode s = ok u := by
  unfold unitOfSet at h
  split at h
  · cases h
  · rename_i hn
    split at h
    · rename_i h3
      cases h
      exact (C31_remove_start_code s).1 _ (by rw [← h3, List.take_append_drop])
    · rename_i h3
      split at h
      · rename_i h4
        cases h
        exact (C31_remove_start_code s).2.1 _ (by rw [← h4, List.take_append_drop])
      · rename_i h4
        cases h
        refine (C31_remove_start_code s).2.2 (fun hc => ?_) hn
        rcases hc with hc | hc
        · exact h3 hc
        · exact h4 hc

theorem size16_eq (us : List Bytes) : size16 us = (us.flatMap unit16).length := by
  induction us with
  | nil => rfl
  | cons u us ih =>
    rw [flatMap_unit16_cons, List.length_append, List.length_append, beBytes_length, ← ih]
    simp [size16]

theorem size16_cons (u : Bytes) (us : List Bytes) : size16 (u :: us) = 2 + u.length + size16 us := by simp [size16]

/-- All sets have a unit, or there is a first that has none. -/
theorem sets_cases (ss : List Bytes) :
    (none ∉ ss.map unitOfSet ∧ Stripped ss (leadingUnits ss)) ∨
      none ∈ ss.map unitOfSet ∧ ∃ a s b, ss = a ++ s :: b ∧ Stripped a (leadingUnits ss) ∧ unitOfSet s = none := by
  induction ss with
  | nil => left; exact ⟨by simp, rfl⟩
  | cons s ss ih =>
    cases h : unitOfSet s with
    | none =>
      right
      refine ⟨by simp [h], [], s, ss, rfl, ?_, h⟩
      simp [leadingUnits, h, Stripped]
    | some u =>
      have e : leadingUnits (s :: ss) = u :: leadingUnits ss := by simp [leadingUnits, h]
      rw [e]
      rcases ih with ⟨h1, h2⟩ | ⟨h1, a, t, b, h2, h3, h4⟩
      · left
        refine ⟨by simp [h]; simpa using h1, ?_⟩
        unfold Stripped at h2 ⊢
        rw [List.map_cons, List.map_cons, h2, unitOfSet_some h]
      · right
        refine ⟨List.mem_cons_of_mem _ h1, s :: a, t, b, by rw [h2]; rfl, ?_, h4⟩
        unfold Stripped at h3 ⊢
        rw [List.map_cons, List.map_cons, h3, unitOfSet_some h]

theorem writeSets_append (w : BytesBuf) (last : Bytes) (a b : List Bytes) :
    writeSets w last (a ++ b) = writeSets w last a >>= fun x => writeSets x.1 x.2 b := by
  induction a generalizing w last with
  | nil => rfl
  | cons s a ih =>
    rw [List.cons_append, writeSets, writeSets]
    cases removeStartCode s with
    | panic => rfl
    | err e => rfl
    | ok u =>
      simp only [ok_bind]
      cases w.writeUint16 (BitVec.ofNat 16 u.length) with
      | panic => rfl
      | err e => rfl
      | ok x =>
        obtain ⟨r, w⟩ := x
        simp only [ok_bind]
        cases r with
        | error e => rfl
        | ok _ =>
          dsimp only
          cases w.write u with
          | panic => rfl
          | err e => rfl
          | ok x =>
            obtain ⟨r, w⟩ := x
            simp only [ok_bind]
            cases r with
            | error e => rfl
            | ok _ => exact ih _ _

theorem leading_short {ss : List Bytes} {n : Nat} (h : ∀ s ∈ ss, s.length < n) : ∀ u ∈ leadingUnits ss, u.length < n := by
  induction ss with
  | nil => intro u hu; cases hu
  | cons s ss ih =>
    intro u hu
    unfold leadingUnits at hu
    cases hs : unitOfSet s with
    | none => rw [hs] at hu; cases hu
    | some v =>
      rw [hs] at hu
      rcases List.mem_cons.1 hu with rfl | hu
      · have h1 := h s (by simp)
        have h2 : u.length ≤ s.length := by
          unfold unitOfSet at hs
          split at hs
          · cases hs
          · split at hs
            · cases hs; simp
            · split at hs
              · cases hs; simp
              · cases hs; exact Nat.le_refl _
        omega
      · exact ih (fun t ht => h t (by simp [ht])) u hu

/-- The loops on any list. -/
theorem writeSets_any (ss : List Bytes) (last a b : Bytes) (hf : Fits a b) (hb : b.length < 2 ^ 62) (hu : ∀ s ∈ ss, s.length < 2 ^ 62) :
    (b.length < size16 (leadingUnits ss) → ∃ e, writeSets (cursor a b) last ss = err e) ∧
    (size16 (leadingUnits ss) ≤ b.length → none ∈ ss.map unitOfSet → writeSets (cursor a b) last ss = Go.panic) ∧
    (size16 (leadingUnits ss) ≤ b.length → none ∉ ss.map unitOfSet → writeSets (cursor a b) last ss =
      ok (cursor (a ++ (leadingUnits ss).flatMap unit16) (b.drop (size16 (leadingUnits ss))), (leadingUnits ss).getLast?.getD last)) := by
  have hu' := leading_short hu
  rw [size16_eq]
  rcases sets_cases ss with ⟨h1, h2⟩ | ⟨h1, x, s, y, h2, h3, h4⟩
  · have := writeSets_spec h2 last a b hf hb hu'
    exact ⟨this.2, fun _ h => absurd h h1, fun h _ => this.1 h⟩
  · have hw := writeSets_spec h3 last a b hf hb hu'
    have happ : writeSets (cursor a b) last ss = writeSets (cursor a b) last x >>= fun z => writeSets z.1 z.2 (s :: y) := by
      conv => lhs; rw [h2]
      exact writeSets_append _ _ _ _
    refine ⟨fun h => ?_, fun h _ => ?_, fun _ h => absurd h1 h⟩
    · obtain ⟨e, he⟩ := hw.2 h
      exact ⟨e, by rw [happ, he]; rfl⟩
    · rw [happ, hw.1 h, ok_bind, writeSets, unitOfSet_none h4]
      rfl

theorem leading_length {ss : List Bytes} (h : none ∉ ss.map unitOfSet) : (leadingUnits ss).length = ss.length := by
  rcases sets_cases ss with ⟨_, h2⟩ | ⟨h1, _⟩
  · exact h2.length.symm
  · exact absurd h1 h

/-- A last SPS that is too short. -/
theorem last_header (u : Bytes) (k : Byte → Byte → Byte → Go Bytes) :
    (idx u 1 >>= fun a => idx u 2 >>= fun b => idx u 3 >>= fun c => k a b c) =
      match u with
      | _ :: p :: c :: l :: _ => k p c l
      | _ => Go.panic := by
  match u with
  | [] => rfl
  | [_] => rfl
  | [_, _] => rfl
  | [_, _, _] => rfl
  | _ :: _ :: _ :: _ :: _ => rfl

/-- The beginning of `Marshal`, up to the first loop. -/
theorem avcMarshal_start {ss ps : List Bytes} (hs0 : ¬ ss.length = 0) (hp0 : ¬ ps.length = 0) :
    ∃ H : Bytes, H.length = 6 ∧ ∃ k : BytesBuf → Bytes → Go Bytes,
      avcMarshal ss ps = (writeSets (cursor H (List.replicate 1018 0)) [] ss >>= fun x =>
        x.1.writeUint8 (BitVec.ofNat 8 ps.length) >>= fun y =>
          match y with
          | (.error e, _) => err e
          | (.ok (), w) => writeSets w [] ps >>= fun z => k z.1 x.2) := by
  have hf0 : Fits [] (List.replicate 1024 (0 : Byte)) := by unfold Fits; simp only [List.length_nil, List.length_replicate]; omega
  have hseek := (cursor_seek hf0 5 (by omega)).1 (by rw [List.length_replicate]; omega)
  rw [← setData_eq_cursor, show ((5 : Nat) : Int) = 5 from rfl, List.nil_append] at hseek
  have ht5 : (List.replicate 1024 (0 : Byte)).take 5 = [0, 0, 0, 0, 0] := by rw [List.take_replicate]; rfl
  have hd5 : (List.replicate 1024 (0 : Byte)).drop 5 = List.replicate 1019 0 := by rw [List.drop_replicate]
  rw [ht5, hd5] at hseek
  have hf1 : Fits [0, 0, 0, 0, 0] (List.replicate 1019 (0 : Byte)) := by unfold Fits; simp only [List.length_cons, List.length_nil, List.length_replicate]; omega
  have hw1 := (cursor_writeUint8 hf1 (BitVec.ofNat 8 ss.length &&& 0x1F)).1 (by rw [List.length_replicate]; omega)
  rw [List.drop_replicate, show 1019 - 1 = 1018 from rfl] at hw1
  refine ⟨[0, 0, 0, 0, 0] ++ [BitVec.ofNat 8 ss.length &&& 0x1F], rfl, fun w sps => do
    let s1 ← idx sps 1
    let s2 ← idx sps 2
    let s3 ← idx sps 3
    let d ← setIdx w.data 0 1
    let d ← setIdx d 1 s1
    let d ← setIdx d 2 s2
    let d ← setIdx d 3 s3
    let d ← setIdx d 4 0xff
    let d ← setIdx d 5 (0xE0 ||| BitVec.ofNat 8 ss.length)
    sliceI d 0 w.offset, ?_⟩
  unfold avcMarshal
  rw [if_neg hs0, if_neg hp0, hseek]
  simp only
  rw [hw1]
  simp only [ok_bind]
  rfl

theorem avcMarshal_any (ss ps : List Bytes) (hs : ∀ s ∈ ss ++ ps, s.length < 2 ^ 62) : fateOf (avcMarshal ss ps) = avcFate ss ps := by
  unfold avcFate
  by_cases h0 : ss = [] ∨ ps = []
  · rw [if_pos h0]
    unfold avcMarshal
    by_cases hs0 : ss.length = 0
    · rw [if_pos hs0]; rfl
    · rw [if_neg hs0]
      rcases h0 with rfl | rfl
      · exact absurd rfl hs0
      · rfl
  rw [if_neg h0]
  have hsn : ss ≠ [] := fun h => h0 (.inl h)
  have hpn : ps ≠ [] := fun h => h0 (.inr h)
  have hs0 : ¬ ss.length = 0 := by simpa using hsn
  have hp0 : ¬ ps.length = 0 := by simpa using hpn
  by_cases hS : none ∈ ss.map unitOfSet
  case neg =>
    rcases sets_cases ss with ⟨_, hSs⟩ | ⟨h, _⟩
    case inr => exact absurd h hS
    by_cases hP : none ∈ ps.map unitOfSet
    case neg =>
      -- all sets have units
      rcases sets_cases ps with ⟨_, hPs⟩ | ⟨h, _⟩
      case inr => exact absurd h hP
      have hSn : leadingUnits ss ≠ [] := fun h => hs0 (by rw [← leading_length hS, h]; rfl)
      have hPn : leadingUnits ps ≠ [] := fun h => hp0 (by rw [← leading_length hP, h]; rfl)
      have hrun := avcMarshal_run hSs hPs hSn hPn (by
        intro u hu
        rcases List.mem_append.1 hu with hu | hu
        · exact leading_short (fun s h => hs s (by simp [h])) u hu
        · exact leading_short (fun s h => hs s (by simp [h])) u hu)
      rw [← size16_eq, ← size16_eq] at hrun
      by_cases hfit : 7 + size16 (leadingUnits ss) + size16 (leadingUnits ps) ≤ 1024
      · rw [if_neg (by omega), if_neg hS, if_neg (by omega), if_neg hP, hrun.1 (by omega), last_header,
          List.getLast?_eq_some_getLast hSn, leading_length hS]
        generalize (leadingUnits ss).getLast hSn = u
        match u with
        | [] => rfl
        | [_] => rfl
        | [_, _] => rfl
        | [_, _, _] => rfl
        | _ :: _ :: _ :: _ :: _ => rfl
      · obtain ⟨e, he⟩ := hrun.2 (by omega)
        rw [he]
        by_cases h : 1024 < 6 + size16 (leadingUnits ss)
        · rw [if_pos h]; rfl
        · rw [if_neg h, if_neg hS, if_pos (by omega)]; rfl
    -- a bad PPS
    obtain ⟨H, hH, k, hk⟩ := avcMarshal_start hs0 hp0
    have hf : Fits H (List.replicate 1018 (0 : Byte)) := by unfold Fits; rw [List.length_replicate]; omega
    have hw := writeSets_any ss [] H (List.replicate 1018 0) hf (by rw [List.length_replicate]; omega) (fun s h => hs s (by simp [h]))
    rw [List.length_replicate] at hw
    by_cases h1 : 1024 < 6 + size16 (leadingUnits ss)
    · obtain ⟨e, he⟩ := hw.1 (by omega)
      rw [if_pos h1, hk, he]; rfl
    rw [if_neg h1, if_neg hS, hk, hw.2.2 (by omega) hS, ok_bind]
    dsimp only
    have hf3 : Fits (H ++ (leadingUnits ss).flatMap unit16) (List.drop (size16 (leadingUnits ss)) (List.replicate 1018 (0 : Byte))) := by
      unfold Fits; rw [List.length_append, ← size16_eq, List.length_drop, List.length_replicate]; omega
    have hw2 := cursor_writeUint8 hf3 (BitVec.ofNat 8 ps.length)
    rw [List.length_drop, List.length_replicate] at hw2
    by_cases h2 : size16 (leadingUnits ss) = 1018
    · obtain ⟨e, he⟩ := hw2.2 (by rw [h2]; decide +kernel)
      rw [if_pos (by omega), he]; rfl
    rw [hw2.1 (by omega), ok_bind, List.drop_drop]
    dsimp only
    have hf4 : Fits (H ++ (leadingUnits ss).flatMap unit16 ++ [BitVec.ofNat 8 ps.length])
        (List.drop (size16 (leadingUnits ss) + 1) (List.replicate 1018 (0 : Byte))) := by
      unfold Fits
      rw [List.length_append, List.length_append, ← size16_eq, List.length_drop, List.length_replicate, List.length_singleton]; omega
    have hw3 := writeSets_any ps [] _ _ hf4 (by rw [List.length_drop, List.length_replicate]; omega) (fun s h => hs s (by simp [h]))
    rw [List.length_drop, List.length_replicate] at hw3
    by_cases h3 : 1024 < 7 + size16 (leadingUnits ss) + size16 (leadingUnits ps)
    · obtain ⟨e, he⟩ := hw3.1 (by omega)
      rw [if_pos h3, he]; rfl
    · rw [if_neg h3, if_pos hP, hw3.2.1 (by omega) hP]; rfl
  -- a bad SPS
  obtain ⟨H, hH, k, hk⟩ := avcMarshal_start hs0 hp0
  have hf : Fits H (List.replicate 1018 (0 : Byte)) := by unfold Fits; rw [List.length_replicate]; omega
  have hw := writeSets_any ss [] H (List.replicate 1018 0) hf (by rw [List.length_replicate]; omega) (fun s h => hs s (by simp [h]))
  rw [List.length_replicate] at hw
  by_cases h1 : 1024 < 6 + size16 (leadingUnits ss)
  · obtain ⟨e, he⟩ := hw.1 (by omega)
    rw [if_pos h1, hk, he]; rfl
  · rw [if_neg h1, if_pos hS, hk, hw.2.1 (by omega) hS]; rfl

/-! ## H.265 -/

theorem hevcType_byte (c : Byte) : c >>> 1 &&& 0x3F = BitVec.ofNat 8 (hevcType c) := by
  revert c; decide

/-- One array, for any list. -/
theorem hevcWriteArray_any (ss : List Bytes) (a b : Bytes) (hf : Fits a b) (hb : b.length < 2 ^ 62) (hu : ∀ s ∈ ss, s.length < 2 ^ 62) :
    ((∀ c u, ss.head?.bind unitOfSet ≠ some (c :: u)) → hevcWriteArray (cursor a b) ss = Go.panic) ∧
    ∀ c u, ss.head?.bind unitOfSet = some (c :: u) →
      (b.length < 3 + size16 (leadingUnits ss) → ∃ e, hevcWriteArray (cursor a b) ss = err e) ∧
      (3 + size16 (leadingUnits ss) ≤ b.length → none ∈ ss.map unitOfSet → hevcWriteArray (cursor a b) ss = Go.panic) ∧
      (3 + size16 (leadingUnits ss) ≤ b.length → none ∉ ss.map unitOfSet → hevcWriteArray (cursor a b) ss =
        ok (cursor (a ++ hevcArray (BitVec.ofNat 8 (hevcType c)) (leadingUnits ss)) (b.drop (3 + size16 (leadingUnits ss))))) := by
  cases ss with
  | nil =>
    refine ⟨fun _ => rfl, fun c u h => by cases h⟩
  | cons s ss =>
    simp only [List.head?_cons, Option.bind_some]
    refine ⟨fun h => ?_, fun c u h => ?_⟩
    · unfold hevcWriteArray
      simp only [idx, List.getElem?_cons_zero, ok_bind]
      cases hs : unitOfSet s with
      | none => rw [unitOfSet_none hs]; rfl
      | some v =>
        rw [unitOfSet_some hs]
        cases v with
        | nil => rfl
        | cons c u => exact absurd hs (h c u)
    · have hrun : hevcWriteArray (cursor a b) (s :: ss) = ((cursor a b).writeUint8 (BitVec.ofNat 8 (hevcType c)) >>= fun y =>
          match y with
          | (.error e, _) => err e
          | (.ok (), w) => w.writeUint16 (BitVec.ofNat 16 (s :: ss).length) >>= fun y =>
            match y with
            | (.error e, _) => err e
            | (.ok (), w) => writeSets w [] (s :: ss) >>= fun z => pure z.1) := by
        unfold hevcWriteArray
        simp only [idx, List.getElem?_cons_zero, ok_bind]
        rw [unitOfSet_some h]
        simp only [ok_bind, List.getElem?_cons_zero]
        rw [hevcType_byte]
        rfl
      have hw1 := cursor_writeUint8 hf (BitVec.ofNat 8 (hevcType c))
      by_cases hb1 : 1 ≤ b.length
      case neg =>
        obtain ⟨e, he⟩ := hw1.2 (List.length_eq_zero_iff.1 (by omega))
        exact ⟨fun _ => ⟨e, by rw [hrun, he]; rfl⟩, fun h => by omega, fun h => by omega⟩
      rw [hw1.1 hb1, ok_bind] at hrun
      dsimp only at hrun
      have hf1 : Fits (a ++ [BitVec.ofNat 8 (hevcType c)]) (b.drop 1) := by
        unfold Fits at hf ⊢; simp only [List.length_append, List.length_drop, List.length_cons, List.length_nil] at hf ⊢; omega
      have hw2 := cursor_writeUint16 hf1 (BitVec.ofNat 16 (s :: ss).length)
      rw [List.length_drop, List.drop_drop] at hw2
      by_cases hb2 : 2 ≤ b.length - 1
      case neg =>
        obtain ⟨e, he⟩ := hw2.2 (by omega)
        exact ⟨fun _ => ⟨e, by rw [hrun, he]; rfl⟩, fun h => by omega, fun h => by omega⟩
      rw [hw2.1 hb2, ok_bind] at hrun
      dsimp only at hrun
      have hf2 : Fits (a ++ [BitVec.ofNat 8 (hevcType c)] ++ beBytes 2 (BitVec.ofNat 16 (s :: ss).length).toNat) (b.drop (1 + 2)) := by
        unfold Fits at hf ⊢
        simp only [List.length_append, List.length_drop, List.length_cons, List.length_nil, beBytes_length] at hf ⊢; omega
      have hw3 := writeSets_any (s :: ss) [] _ _ hf2 (by rw [List.length_drop]; omega) hu
      rw [List.length_drop] at hw3
      refine ⟨fun h1 => ?_, fun h1 h2 => ?_, fun h1 h2 => ?_⟩
      · obtain ⟨e, he⟩ := hw3.1 (by omega)
        exact ⟨e, by rw [hrun, he]; rfl⟩
      · rw [hrun, hw3.2.1 (by omega) h2]; rfl
      · rw [hrun, hw3.2.2 (by omega) h2, ok_bind, List.drop_drop]
        have e1 : beBytes 2 (BitVec.ofNat 16 (s :: ss).length).toNat = beBytes 2 (leadingUnits (s :: ss)).length := by
          rw [leading_length h2, BitVec.toNat_ofNat]; exact beBytes_mod 2 _
        rw [e1]
        unfold hevcArray
        simp only [List.append_assoc]
        rfl

/-- The arrays one after the other. -/
def writeArrays (w : BytesBuf) : List (List Bytes) → Go Bytes
  | [] => sliceI w.data 0 w.offset
  | ss :: rest => hevcWriteArray w ss >>= fun w => writeArrays w rest

theorem size16_array (t : Byte) (us : List Bytes) : (hevcArray t us).length = 3 + size16 us := by
  rw [size16_eq]
  simp only [hevcArray, List.length_append, List.length_cons, List.length_nil, beBytes_length]

theorem writeArrays_any (xs : List (List Bytes)) (hx : ∀ ss ∈ xs, ∀ s ∈ ss, s.length < 2 ^ 62) (a b : Bytes)
    (hl : a.length + b.length = 1024) : fateOf (writeArrays (cursor a b) xs) = arraysFate a xs := by
  induction xs generalizing a b with
  | nil =>
    unfold writeArrays arraysFate
    simp only [cursor]
    unfold sliceI
    rw [if_pos (by simp; omega), Int.toNat_natCast, List.take_left, Int.toNat_zero, List.drop_zero]
    rfl
  | cons ss rest ih =>
    have hf : Fits a b := by unfold Fits; omega
    obtain ⟨hbad, hgood⟩ := hevcWriteArray_any ss a b hf (by omega) (hx ss (by simp))
    rw [writeArrays, arraysFate]
    cases hh : ss.head?.bind unitOfSet with
    | none => rw [hbad (by rw [hh]; simp)]; rfl
    | some v =>
      cases v with
      | nil => rw [hbad (by rw [hh]; simp)]; rfl
      | cons c u =>
        obtain ⟨h1, h2, h3⟩ := hgood c u hh
        dsimp only
        by_cases hfit : 1024 < a.length + 3 + size16 (leadingUnits ss)
        · obtain ⟨e, he⟩ := h1 (by omega)
          rw [if_pos hfit, he]; rfl
        · rw [if_neg hfit]
          by_cases hn : none ∈ ss.map unitOfSet
          · rw [if_pos hn, h2 (by omega) hn]; rfl
          · rw [if_neg hn, h3 (by omega) hn, ok_bind]
            refine ih (fun y hy => hx y (by simp [hy])) _ _ ?_
            rw [List.length_append, size16_array, List.length_drop]
            omega

theorem hevcMarshal_any (vs ss ps : List Bytes) (hs : ∀ s ∈ vs ++ ss ++ ps, s.length < 2 ^ 62) :
    fateOf (hevcMarshal vs ss ps) = hevcFate vs ss ps := by
  unfold hevcFate hevcMarshal
  by_cases hsn : ss = []
  · rw [if_pos (by rw [hsn]; rfl), if_pos (.inr (.inl hsn))]; rfl
  rw [if_neg (by simpa using hsn)]
  by_cases hpn : ps = []
  · rw [if_pos (by rw [hpn]; rfl), if_pos (.inr (.inr hpn))]; rfl
  rw [if_neg (by simpa using hpn)]
  by_cases hvn : vs = []
  · rw [if_pos (by rw [hvn]; rfl), if_pos (.inl hvn)]; rfl
  rw [if_neg (by simpa using hvn), if_neg (by simp [hsn, hpn, hvn])]
  have hinit : ∀ k : Bytes → Go Bytes, (setIdx (List.replicate 1024 (0 : Byte)) 0 1 >>= fun b => setIdx b 21 3 >>= fun b => setIdx b 22 3 >>= k) =
      k ([1] ++ List.replicate 20 0 ++ [3, 3] ++ List.replicate 1001 0) := by
    intro k
    rw [show List.replicate 1024 (0 : Byte) = [0] ++ List.replicate 20 0 ++ [0, 0] ++ List.replicate 1001 0 by decide +kernel]
    generalize List.replicate 1001 (0 : Byte) = z
    simp [setIdx, List.replicate]
  obtain ⟨H, hH⟩ : ∃ H : Bytes, H = [1] ++ List.replicate 20 0 ++ [3, 3] := ⟨_, rfl⟩
  have hHl : H.length = 23 := by rw [hH]; rfl
  rw [← hH] at hinit ⊢
  have hf0 : Fits [] (H ++ List.replicate 1001 (0 : Byte)) := by
    unfold Fits; simp only [List.length_append, List.length_nil, List.length_replicate]; omega
  have hseek := (cursor_seek hf0 23 (by omega)).1 (by simp only [List.length_append, List.length_replicate]; omega)
  rw [← setData_eq_cursor, show ((23 : Nat) : Int) = 23 from rfl, List.nil_append,
    List.take_append_of_le_length (by omega), List.take_of_length_le (by omega),
    List.drop_append_of_le_length (by omega), List.drop_of_length_le (by omega), List.nil_append] at hseek
  rw [hinit, hseek]
  refine writeArrays_any [vs, ss, ps] ?_ H (List.replicate 1001 0) (by rw [List.length_replicate]; omega)
  intro l hl s h
  apply hs
  simp only [List.mem_cons, List.not_mem_nil, or_false] at hl
  rcases hl with rfl | rfl | rfl <;> simp [h]

end Avf
