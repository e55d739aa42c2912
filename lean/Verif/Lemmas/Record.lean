import Verif.Model.Record
import Verif.Spec.Record
import Verif.Lemmas.M4vc
/-! # Decoder configuration records: lemmas -/
namespace Avf
open Go

theorem beBytes_mod (k n : Nat) : beBytes k (n % 256 ^ k) = beBytes k n := by
  have h := beBytes_beNat (beBytes k n)
  rwa [beBytes_length, beNat_beBytes] at h

theorem flatMap_unit16_cons (u : Bytes) (us : List Bytes) :
    (u :: us).flatMap unit16 = beBytes 2 u.length ++ u ++ us.flatMap unit16 := by simp [unit16]

/-- The lists after `RemoveStartCode`. -/
def Stripped (ss us : List Bytes) : Prop := ss.map removeStartCode = us.map ok

theorem Stripped.cons {s u : Bytes} {ss us : List Bytes} (h : Stripped (s :: ss) (u :: us)) :
    removeStartCode s = ok u ∧ Stripped ss us := by
  simpa [Stripped] using h

theorem Stripped.length {ss us : List Bytes} (h : Stripped ss us) : ss.length = us.length := by
  have := congrArg List.length h
  simpa using this

theorem writeSets_spec {ss us : List Bytes} (hs : Stripped ss us) (last a b : Bytes) (hf : Fits a b) (hb : b.length < 2 ^ 62) (hu : ∀ u ∈ us, u.length < 2 ^ 62) :
    ((us.flatMap unit16).length ≤ b.length →
      writeSets (cursor a b) last ss =
        ok (cursor (a ++ us.flatMap unit16) (b.drop (us.flatMap unit16).length), us.getLast?.getD last)) ∧
    (b.length < (us.flatMap unit16).length → ∃ e, writeSets (cursor a b) last ss = err e) := by
  induction ss generalizing us last a b with
  | nil =>
    cases us with
    | nil => simp [writeSets]
    | cons u us => simp [Stripped] at hs
  | cons s ss ih =>
    cases us with
    | nil => simp [Stripped] at hs
    | cons u us =>
      obtain ⟨h1, h2⟩ := hs.cons
      have hul := hu u (by simp)
      rw [flatMap_unit16_cons]
      simp only [List.length_append, beBytes_length]
      have hw2 := cursor_writeUint16 hf (BitVec.ofNat 16 u.length)
      rw [BitVec.toNat_ofNat, show (2 : Nat) ^ 16 = 256 ^ 2 by decide, beBytes_mod] at hw2
      by_cases hb2 : 2 ≤ b.length
      · have hf2 : Fits (a ++ beBytes 2 u.length) (b.drop 2) := by
          have := hf.write (x := beBytes 2 u.length) (by simpa using hb2)
          simpa using this
        have hw := cursor_write hf2 u (by omega)
        by_cases hbu : u.length ≤ (b.drop 2).length
        · have hf3 : Fits (a ++ beBytes 2 u.length ++ u) ((b.drop 2).drop u.length) := hf2.write hbu
          have hrun : writeSets (cursor a b) last (s :: ss) =
              writeSets (cursor (a ++ beBytes 2 u.length ++ u) ((b.drop 2).drop u.length)) u ss := by
            rw [writeSets]
            rw [h1]
            simp only [ok_bind]
            rw [hw2.1 hb2]
            simp only [ok_bind]
            rw [hw.1 hbu]
            simp only [ok_bind]
          have hih := ih h2 u _ _ hf3 (by simp only [List.length_drop]; omega) (fun w hw => hu w (by simp [hw]))
          simp only [List.length_drop] at hbu hih
          constructor
          · intro h
            rw [hrun, hih.1 (by omega)]
            congr 2
            · congr 1
              · simp
              · rw [List.drop_drop, List.drop_drop, Nat.add_assoc]
            · cases us with
              | nil => rfl
              | cons v vs => simp [List.getLast?_cons]
          · intro h
            obtain ⟨e, he⟩ := hih.2 (by omega)
            exact ⟨e, by rw [hrun, he]⟩
        · constructor
          · intro h; simp only [List.length_drop] at hbu; omega
          · intro _
            obtain ⟨e, he⟩ := hw.2 (by omega)
            refine ⟨e, ?_⟩
            rw [writeSets]
            rw [h1]
            simp only [ok_bind]
            rw [hw2.1 hb2]
            simp only [ok_bind]
            rw [he]
            simp only [ok_bind]
      · constructor
        · intro h; omega
        · intro _
          obtain ⟨e, he⟩ := hw2.2 (by omega)
          refine ⟨e, ?_⟩
          rw [writeSets]
          rw [h1]
          simp only [ok_bind]
          rw [he]
          simp only [ok_bind]

theorem readSets_nalu (u : Bytes) {α : Type} (k : Bytes → Go α) :
    (putAt (List.replicate (u.length + 4) (0 : Byte)) 0 (be32 1) >>= fun nalu => copyAt nalu 4 u >>= k) = k (startCoded u) := by
  have h := putAt_append [] (List.replicate (u.length + 4) (0 : Byte)) (be32 1) (by simp [be32])
  simp only [List.nil_append, List.length_nil] at h
  rw [h]
  simp only [ok_bind]
  have hl : (be32 1).length = 4 := rfl
  have h2 := copyAt_append (be32 1) ((List.replicate (u.length + 4) (0 : Byte)).drop (be32 1).length) u (by rw [hl]; simp)
  rw [hl] at h2 ⊢
  rw [h2]
  simp only [ok_bind]
  congr 1
  simp only [List.drop_replicate]
  have : u.length + 4 - 4 - u.length = 0 := by omega
  rw [this]
  have : be32 1 = [0, 0, 0, 1] := by decide
  rw [this]
  simp [startCoded]

/-- The reading loop: it succeeds exactly if `n` complete sets are ahead. -/
theorem readSets_spec {σ : Type} (add : σ → Bytes → σ) (n : Nat) (a b : Bytes) (hf : Fits a b) (s : σ) :
    (∃ (us : List Bytes) (rest : Bytes), us.length = n ∧ (∀ u ∈ us, u.length < 2 ^ 16) ∧ b = us.flatMap unit16 ++ rest ∧
      readSets add n (cursor a b) s = ok (.ok (cursor (a ++ us.flatMap unit16) rest), us.foldl (fun s u => add s (startCoded u)) s)) ∨
    ((∀ (us : List Bytes) (rest : Bytes), us.length = n → (∀ u ∈ us, u.length < 2 ^ 16) → b ≠ us.flatMap unit16 ++ rest) ∧
      ∃ (e : String) (us : List Bytes) (rest : Bytes), us.length < n ∧ (∀ u ∈ us, u.length < 2 ^ 16) ∧ b = us.flatMap unit16 ++ rest ∧
        readSets add n (cursor a b) s = ok (.error e, us.foldl (fun s u => add s (startCoded u)) s)) := by
  induction n generalizing a b s with
  | zero => exact .inl ⟨[], b, rfl, by simp, rfl, by simp [readSets]⟩
  | succ n ih =>
    have hr := cursor_readUint16 hf
    by_cases hb2 : 2 ≤ b.length
    · have hlen : beNat (b.take 2) < 2 ^ 16 := by
        have := beNat_lt (b.take 2)
        rw [take_len hb2] at this
        simpa using this
      have hsize : (BitVec.ofNat 16 (beNat (b.take 2))).toNat = beNat (b.take 2) := by
        rw [BitVec.toNat_ofNat, Nat.mod_eq_of_lt hlen]
      have hf2 : Fits (a ++ b.take 2) (b.drop 2) := hf.move 2
      have hrb := cursor_readBytes hf2 (beNat (b.take 2)) (by omega)
      by_cases hbu : beNat (b.take 2) ≤ (b.drop 2).length
      · obtain ⟨u, hu⟩ : ∃ u, u = (b.drop 2).take (beNat (b.take 2)) := ⟨_, rfl⟩
        have hul : u.length = beNat (b.take 2) := by rw [hu, take_len hbu]
        have hbu' : b = unit16 u ++ (b.drop 2).drop (beNat (b.take 2)) := by
          have h1 : beBytes 2 u.length = b.take 2 := by
            rw [hul]
            have := beBytes_beNat (b.take 2)
            rwa [take_len hb2] at this
          rw [unit16, h1, hu, List.append_assoc, List.take_append_drop, List.take_append_drop]
        have hf3 : Fits (a ++ b.take 2 ++ u) ((b.drop 2).drop (beNat (b.take 2))) := by rw [hu]; exact hf2.move _
        have hau : a ++ b.take 2 ++ u = a ++ unit16 u := by
          have h1 : beBytes 2 u.length = b.take 2 := by
            rw [hul]
            have := beBytes_beNat (b.take 2)
            rwa [take_len hb2] at this
          rw [unit16, h1, List.append_assoc]
        have hrun : readSets add (n + 1) (cursor a b) s =
            readSets add n (cursor (a ++ unit16 u) ((b.drop 2).drop (beNat (b.take 2)))) (add s (startCoded u)) := by
          rw [readSets]
          rw [hr.1 hb2]
          simp only [ok_bind]
          rw [hsize, hrb.1 hbu, ← hu]
          simp only [ok_bind]
          rw [readSets_nalu u (fun nalu => readSets add n (cursor (a ++ b.take 2 ++ u) ((b.drop 2).drop (beNat (b.take 2)))) (add s nalu)), hau]
        rw [hau] at hf3
        rcases ih _ _ hf3 (add s (startCoded u)) with ⟨us, rest, h1, h2, h3, h4⟩ | ⟨h1, e, us, rest, h2, h3, h4, h5⟩
        · refine .inl ⟨u :: us, rest, by simp [h1], ?_, ?_, ?_⟩
          · intro w hw
            rcases List.mem_cons.1 hw with rfl | h
            · omega
            · exact h2 w h
          · rw [hbu', h3]; simp
          · rw [hrun, h4]; simp
        · refine .inr ⟨?_, e, u :: us, rest, by simp [h2], ?_, ?_, ?_⟩
          · intro vs rest' hl hv hb
            cases vs with
            | nil => simp at hl
            | cons v vs =>
              have hb' : b = unit16 v ++ (vs.flatMap unit16 ++ rest') := by rw [hb]; simp
              have hvl : beNat (b.take 2) = v.length := by
                rw [hb', unit16_take, beNat_beBytes]
                have := hv v (by simp)
                omega
              have : (b.drop 2).drop (beNat (b.take 2)) = vs.flatMap unit16 ++ rest' := by
                rw [hvl]
                have : b.drop 2 = v ++ (vs.flatMap unit16 ++ rest') := by rw [hb', unit16_drop]
                rw [this, List.drop_left]
              exact h1 vs rest' (by simpa using hl) (fun w hw => hv w (by simp [hw])) this
          · intro w hw
            rcases List.mem_cons.1 hw with rfl | h
            · omega
            · exact h3 w h
          · rw [hbu', h4]; simp
          · rw [hrun, h5]; simp
      · obtain ⟨e, he⟩ := hrb.2 (by omega)
        refine .inr ⟨?_, e, [], b, by simp, by simp, by simp, ?_⟩
        · intro vs rest' hl hv hb
          cases vs with
          | nil => simp at hl
          | cons v vs =>
            have hb' : b = unit16 v ++ (vs.flatMap unit16 ++ rest') := by rw [hb]; simp
            have hvl : beNat (b.take 2) = v.length := by
              rw [hb', unit16_take, beNat_beBytes]
              have := hv v (by simp)
              omega
            have : b.drop 2 = v ++ (vs.flatMap unit16 ++ rest') := by rw [hb', unit16_drop]
            rw [this, hvl] at hbu
            simp at hbu
        · rw [readSets]
          rw [hr.1 hb2]
          simp only [ok_bind]
          rw [hsize, he]
          simp only [ok_bind, pure_def, List.foldl_nil]
    · obtain ⟨e, he⟩ := hr.2 (by omega)
      refine .inr ⟨?_, e, [], b, by simp, by simp, by simp, ?_⟩
      · intro vs rest' hl hv hb
        cases vs with
        | nil => simp at hl
        | cons v vs =>
          rw [hb] at hb2
          simp [length_unit16] at hb2
          omega
      · rw [readSets]
        rw [he]
        simp only [ok_bind, pure_def, List.foldl_nil]

/-- The sets ahead are determined. -/
theorem units16_unique {us vs : List Bytes} {r1 r2 : Bytes} (hl : us.length = vs.length) (hu : ∀ u ∈ us, u.length < 2 ^ 16)
    (hv : ∀ u ∈ vs, u.length < 2 ^ 16) (h : us.flatMap unit16 ++ r1 = vs.flatMap unit16 ++ r2) : us = vs ∧ r1 = r2 := by
  induction us generalizing vs with
  | nil =>
    cases vs with
    | nil => exact ⟨rfl, by simpa using h⟩
    | cons v vs => simp at hl
  | cons u us ih =>
    cases vs with
    | nil => simp at hl
    | cons v vs =>
      have h' : unit16 u ++ (us.flatMap unit16 ++ r1) = unit16 v ++ (vs.flatMap unit16 ++ r2) := by simpa using h
      have h2 := congrArg (fun l => l.take 2) h'
      simp only [unit16_take] at h2
      have h3 := congrArg beNat h2
      rw [beNat_beBytes, beNat_beBytes] at h3
      have hlu := hu u (by simp)
      have hlv := hv v (by simp)
      have hlen : u.length = v.length := by omega
      have h4 := congrArg (fun l => l.drop 2) h'
      simp only [unit16_drop] at h4
      obtain ⟨e1, e2⟩ := List.append_inj h4 hlen
      obtain ⟨e3, e4⟩ := ih (by simpa using hl) (fun w hw => hu w (by simp [hw])) (fun w hw => hv w (by simp [hw])) e2
      exact ⟨by rw [e1, e3], e4⟩

theorem writeAll_spec (ss : List Bytes) (a b : Bytes) (hf : Fits a b) (hu : ∀ u ∈ ss, u.length < 2 ^ 62) :
    (ss.flatten.length ≤ b.length → writeAll (cursor a b) ss = ok (cursor (a ++ ss.flatten) (b.drop ss.flatten.length))) ∧
    (b.length < ss.flatten.length → ∃ e, writeAll (cursor a b) ss = err e) := by
  induction ss generalizing a b with
  | nil => simp [writeAll]
  | cons s ss ih =>
    have hw := cursor_write hf s (by have := hu s (by simp); omega)
    simp only [List.flatten_cons, List.length_append]
    by_cases hb : s.length ≤ b.length
    · have hrun : writeAll (cursor a b) (s :: ss) = writeAll (cursor (a ++ s) (b.drop s.length)) ss := by
        rw [writeAll]
        rw [hw.1 hb]
        simp only [ok_bind]
      have hih := ih _ _ (hf.write hb) (fun w hw => hu w (by simp [hw]))
      simp only [List.length_drop] at hih
      constructor
      · intro h
        rw [hrun, hih.1 (by omega), List.drop_drop, List.append_assoc]
      · intro h
        obtain ⟨e, he⟩ := hih.2 (by omega)
        exact ⟨e, by rw [hrun, he]⟩
    · constructor
      · intro h; omega
      · intro _
        obtain ⟨e, he⟩ := hw.2 (by omega)
        refine ⟨e, ?_⟩
        rw [writeAll]
        rw [he]
        simp only [ok_bind]

end Avf
