import Verif.Lemmas.Mp4
import Verif.Spec.Mp4
/-! # Helper lemmas: `avc.Mp4ToAnnexB` on a writer of any size -/
namespace Avf
open Go

/-- A writer, as what it has passed and what is ahead, after pieces. -/
def fillUp (s : Bytes × Bytes) : List Bytes → Bytes × Bytes
  | [] => s
  | p :: ps => fillUp (if p.length ≤ s.2.length then (s.1 ++ p, s.2.drop p.length) else s) ps

theorem fillUp_eq (ps : List Bytes) : ∀ a r : Bytes, fillUp (a, r) ps =
    (a ++ (writeFitting r.length ps).flatten, r.drop (writeFitting r.length ps).flatten.length) := by
  induction ps with
  | nil => intro a r; simp [fillUp, writeFitting]
  | cons p ps ih =>
    intro a r
    rw [fillUp, writeFitting]
    dsimp only
    split
    · rw [ih, List.length_drop]
      simp [List.drop_drop]
    · rw [ih]

theorem writeFitting_length (ps : List Bytes) : ∀ n, (writeFitting n ps).flatten.length ≤ n := by
  induction ps with
  | nil => intro n; simp [writeFitting]
  | cons p ps ih =>
    intro n
    rw [writeFitting]
    split
    · have := ih (n - p.length)
      rw [List.flatten_cons, List.length_append]
      omega
    · exact ih n

theorem writeFitting_all (ps : List Bytes) : ∀ n, ps.flatten.length ≤ n → writeFitting n ps = ps := by
  induction ps with
  | nil => intro n _; rfl
  | cons p ps ih =>
    intro n h
    rw [List.flatten_cons, List.length_append] at h
    rw [writeFitting, if_pos (by omega), ih _ (by omega)]

theorem writeFitting_sublist (ps : List Bytes) : ∀ n, (writeFitting n ps).Sublist ps := by
  induction ps with
  | nil => intro n; exact .slnil
  | cons p ps ih =>
    intro n
    rw [writeFitting]
    split
    · exact (ih _).cons_cons p
    · exact (ih _).cons p

/-- The cursor. -/
def curs (s : Bytes × Bytes) : BytesBuf := cursor s.1 s.2

/-- One step. -/
def fill1 (s : Bytes × Bytes) (p : Bytes) : Bytes × Bytes := if p.length ≤ s.2.length then (s.1 ++ p, s.2.drop p.length) else s

theorem fill1_fits {s : Bytes × Bytes} (hf : Fits s.1 s.2) (p : Bytes) : Fits (fill1 s p).1 (fill1 s p).2 := by
  unfold fill1
  split
  · exact hf.write ‹_›
  · exact hf

theorem write_any {s : Bytes × Bytes} (hf : Fits s.1 s.2) {p : Bytes} (hp : p.length < 2 ^ 63) :
    ∃ e, (curs s).write p = ok (e, curs (fill1 s p)) := by
  unfold fill1
  by_cases h : p.length ≤ s.2.length
  · rw [if_pos h]
    exact ⟨_, (cursor_write hf p hp).1 h⟩
  · rw [if_neg h]
    obtain ⟨e, he⟩ := (cursor_write hf p hp).2 (by omega)
    exact ⟨_, he⟩

theorem copyNalU_any {s : Bytes × Bytes} (hf : Fits s.1 s.2) {p : Bytes} (hp : p.length < 2 ^ 63) (n : Nat) :
    copyNalU (curs s) p n true =
      ok ((code (decide (n = 0))).length + p.length, curs (fill1 (fill1 s (code (decide (n = 0)))) p)) := by
  have two : ∀ c : Bytes, c.length < 2 ^ 63 → ∀ k : Nat, (do
      let (_, w) ← (curs s).write c
      let (_, w) ← w.write p
      return (k, w) : Go (Nat × BytesBuf)) = ok (k, curs (fill1 (fill1 s c) p)) := by
    intro c hc k
    obtain ⟨e1, h1⟩ := write_any hf hc
    obtain ⟨e2, h2⟩ := write_any (fill1_fits hf c) hp
    rw [h1]
    simp only [ok_bind, h2]
    rfl
  unfold copyNalU
  simp only [if_true]
  by_cases hn : n = 0
  · simp only [hn, decide_true, if_true]
    exact two (code true) (by decide) _
  · simp only [hn, decide_false, if_false]
    exact two (code false) (by decide) _

theorem copyNalU_plain_any {s : Bytes × Bytes} (hf : Fits s.1 s.2) {p : Bytes} (hp : p.length < 2 ^ 63) (n : Nat) :
    copyNalU (curs s) p n false = ok (p.length, curs (fill1 s p)) := by
  obtain ⟨e1, h1⟩ := write_any hf hp
  unfold copyNalU
  simp only [Bool.false_eq_true, if_false, h1]
  rfl

theorem mp4Loop_any (extra : Bytes) (he : extra.length < 2 ^ 63) (us : List Bytes) (tail : Bytes) (hus : ∀ u ∈ us, u ≠ [] ∧ u.length < 2 ^ 32)
    (ht : NoUnit 4 tail) : ∀ (before : List Bytes) (size : Nat) (s : Bytes × Bytes), Fits s.1 s.2 →
    mp4ToAnnexBLoop extra (curs s) (avcc us ++ tail) size (seenType 7 before) (seenType 8 before) =
      ok (curs (fillUp s (mp4Pieces extra before size us))) := by
  induction us with
  | nil =>
    intro before size s _
    rw [mp4Pieces, fillUp, show avcc [] ++ tail = tail from rfl, mp4ToAnnexBLoop]
    by_cases hl : 4 < tail.length
    · rw [dif_pos hl]
      obtain ⟨v, hv, hc⟩ := noUnit_read ht hl
      rw [hv]
      simp only [ok_bind, if_pos hc]; rfl
    · rw [dif_neg hl]
  | cons u us ih =>
    intro before size s hf
    have hu := hus u (by simp)
    have hrest := fun w hw => hus w (List.mem_cons_of_mem _ hw)
    have hu63 : u.length < 2 ^ 63 := Nat.lt_trans hu.2 (by decide)
    obtain ⟨a, v, rfl⟩ := List.exists_cons_of_ne_nil hu.1
    have hpos : 0 < (a :: v).length := by simp
    generalize hU : a :: v = u at *
    have hform : avcc (u :: us) ++ tail = avccUnit 4 u ++ (avcc us ++ tail) := by rw [avcc_cons, List.append_assoc]
    have hdrop : (avccUnit 4 u ++ (avcc us ++ tail)).drop (4 + u.length) = avcc us ++ tail := by
      rw [← length_avccUnit, List.drop_left]
    have hidx : idx (avccUnit 4 u ++ (avcc us ++ tail)) 4 = ok a := by
      rw [idx_eq_ok, avccUnit, List.append_assoc, List.getElem?_append_right (by simp), ← hU]; simp
    have hslice : slice (avccUnit 4 u ++ (avcc us ++ tail)) 4 (4 + u.length) = ok u := by
      rw [slice_of_le (by omega) (by rw [List.length_append, length_avccUnit]; omega)]
      rw [← length_avccUnit 4 u, List.take_left, avccUnit, List.drop_append_of_le_length (by simp)]
      rw [List.drop_of_length_le (by simp)]; rfl
    have htype : avcUnitType u = avcType a := by rw [← hU]; rfl
    rw [hform, mp4ToAnnexBLoop, dif_pos (by rw [List.length_append, length_avccUnit]; omega), uint32At_avcc _ _ hu.2]
    simp only [ok_bind, ofNat32_toNat hu.2]
    rw [if_neg (by rw [List.length_append, length_avccUnit]; omega), hidx, hdrop, hslice]
    simp only [ok_bind, avcType_mask a 7 7 rfl, avcType_mask a 8 8 rfl, avcType_mask a 5 5 rfl, ← htype]
    rw [mp4Pieces]
    by_cases hx : avcUnitType u = 5 ∧ ∀ w ∈ before, avcUnitType w ≠ 7 ∧ avcUnitType w ≠ 8
    · have hx' := (seen_iff before).2 hx.2
      have hb7 : (seenType 7 before || decide (avcUnitType u = 7)) = false := by
        simp [hx.1]; simpa using hx'.1
      have hb8 : (seenType 8 before || decide (avcUnitType u = 8)) = false := by
        simp [hx.1]; simpa using hx'.2
      rw [if_pos (⟨hx.1, by rw [hb7]; simp, by rw [hb8]; simp⟩ : avcUnitType u = 5 ∧
        ¬ (seenType 7 before || decide (avcUnitType u = 7)) = true ∧ ¬ (seenType 8 before || decide (avcUnitType u = 8)) = true), if_pos hx]
      rw [copyNalU_plain_any hf he]
      simp only [ok_bind, pure_def]
      rw [copyNalU_any (fill1_fits hf _) hu63]
      simp only [ok_bind]
      rw [← seenType_snoc, ← seenType_snoc, ih hrest _ _ _ (fill1_fits (fill1_fits (fill1_fits hf _) _) _)]
      simp only [fillUp, Nat.add_assoc]
      rfl
    · have hcond : ¬ (avcUnitType u = 5 ∧ ¬ (seenType 7 before || decide (avcUnitType u = 7)) = true ∧
            ¬ (seenType 8 before || decide (avcUnitType u = 8)) = true) := by
        rintro ⟨h5, h7, h8⟩
        refine hx ⟨h5, (seen_iff before).1 ⟨fun h => h7 (by simp [h]), fun h => h8 (by simp [h])⟩⟩
      rw [if_neg hcond, if_neg hx]
      simp only [ok_bind]
      rw [copyNalU_any hf hu63]
      simp only [ok_bind]
      rw [← seenType_snoc, ← seenType_snoc, ih hrest _ _ _ (fill1_fits (fill1_fits hf _) _)]
      simp only [fillUp, Nat.add_assoc]
      rfl

theorem pieces_flatten (extra : Bytes) (us : List Bytes) : ∀ (before : List Bytes) (out : Bytes),
    toAnnexB (fun _ => false) extra before out us = out ++ (mp4Pieces extra before out.length us).flatten := by
  induction us with
  | nil => intro before out; simp [toAnnexB, mp4Pieces]
  | cons u us ih =>
    intro before out
    rw [toAnnexB, mp4Pieces]
    simp only [Bool.false_eq_true, if_false]
    split
    · rw [ih]
      simp only [List.flatten_cons, List.length_append, List.append_assoc]
      congr 3
      · simp
      · simp [Nat.add_assoc]
    · rw [ih]
      simp only [List.flatten_cons, List.length_append, List.append_assoc]
      congr 3
      · simp
      · simp [Nat.add_assoc]

end Avf
