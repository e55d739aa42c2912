import Verif.Lemmas.AvcRecord
/-! # The HEVC record: lemmas -/
namespace Avf
open Go

/-- What one array adds to the record. -/
def hevcArrayAdd (grow : Nat → Nat) (r : HEVCRecord) (x : Byte × List Bytes) : HEVCRecord :=
  x.2.foldl (fun r u => hevcAdd grow (x.1 &&& 0x3F) r (startCoded u)) r

/-- The arrays of a record. -/
def hevcArrays (xs : List (Byte × List Bytes)) : Bytes := xs.flatMap fun x => hevcArray x.1 x.2

/-- Few enough units, all short enough for their length fields. -/
def ArraysOk (xs : List (Byte × List Bytes)) : Prop := ∀ x ∈ xs, x.2.length < 2 ^ 16 ∧ ∀ u ∈ x.2, u.length < 2 ^ 16

theorem hevcReadArrays_spec (grow : Nat → Nat) (n : Nat) (a b : Bytes) (hf : Fits a b) (s : HEVCRecord) :
    (∃ (xs : List (Byte × List Bytes)) (rest : Bytes), xs.length = n ∧ ArraysOk xs ∧ b = hevcArrays xs ++ rest ∧
      hevcReadArrays grow n (cursor a b) s = ok (.ok (), xs.foldl (hevcArrayAdd grow) s)) ∨
    ((∀ (xs : List (Byte × List Bytes)) (rest : Bytes), xs.length = n → ArraysOk xs → b ≠ hevcArrays xs ++ rest) ∧
      ∃ e s', hevcReadArrays grow n (cursor a b) s = ok (.error e, s')) := by
  induction n generalizing a b s with
  | zero => exact .inl ⟨[], b, rfl, by simp [ArraysOk], rfl, by simp [hevcReadArrays]⟩
  | succ n ih =>
    have hr := cursor_readUint8 hf
    have hcons : ∀ (x : Byte × List Bytes) xs rest, hevcArrays (x :: xs) ++ rest =
        x.1 :: (beBytes 2 x.2.length ++ (x.2.flatMap unit16 ++ (hevcArrays xs ++ rest))) := by
      intro x xs rest; simp [hevcArrays, hevcArray]
    cases b with
    | nil =>
      obtain ⟨e, he⟩ := hr.2 rfl
      refine .inr ⟨?_, e, s, by rw [hevcReadArrays, he, ok_bind]; rfl⟩
      intro xs rest hl _ h
      cases xs with
      | nil => simp at hl
      | cons x xs => rw [hcons] at h; simp at h
    | cons t b =>
      have hr1 := hr.1 _ _ rfl
      have hf1 : Fits (a ++ [t]) b := by unfold Fits at hf ⊢; simp at hf ⊢; omega
      have hr2 := cursor_readUint16 hf1
      by_cases hb2 : 2 ≤ b.length
      case neg =>
        obtain ⟨e, he⟩ := hr2.2 (by omega)
        refine .inr ⟨?_, e, s, ?_⟩
        · intro xs rest hl _ h
          cases xs with
          | nil => simp at hl
          | cons x xs =>
            rw [hcons] at h
            have := congrArg List.length h
            simp at this
            omega
        · rw [hevcReadArrays, hr1]
          simp only [ok_bind]
          rw [he]
          simp only [ok_bind, pure_def]
      have hlen : beNat (b.take 2) < 2 ^ 16 := by
        have := beNat_lt (b.take 2)
        rw [take_len hb2] at this
        simpa using this
      have hsize : (BitVec.ofNat 16 (beNat (b.take 2))).toNat = beNat (b.take 2) := by
        rw [BitVec.toNat_ofNat, Nat.mod_eq_of_lt hlen]
      have hf2 : Fits (a ++ [t] ++ b.take 2) (b.drop 2) := hf1.move 2
      have hb0 : beBytes 2 (beNat (b.take 2)) = b.take 2 := by
        have := beBytes_beNat (b.take 2)
        rwa [take_len hb2] at this
      rcases readSets_spec (hevcAdd grow (t &&& 0x3F)) (beNat (b.take 2)) _ _ hf2 s with
        ⟨us, rest, hul, hus, hub, hrd⟩ | ⟨hno, e, us, rest, hul, hus, hub, hrd⟩
      · have hf3 : Fits (a ++ [t] ++ b.take 2 ++ us.flatMap unit16) rest := by
          rw [hub] at hf2
          unfold Fits at hf2 ⊢
          simp only [List.length_append] at hf2 ⊢
          omega
        have hrun : hevcReadArrays grow (n + 1) (cursor a (t :: b)) s =
            hevcReadArrays grow n (cursor (a ++ [t] ++ b.take 2 ++ us.flatMap unit16) rest) (hevcArrayAdd grow s (t, us)) := by
          rw [hevcReadArrays, hr1]
          simp only [ok_bind]
          rw [hr2.1 hb2]
          simp only [ok_bind]
          rw [hsize, hrd]
          simp only [ok_bind]
          rfl
        have hbt : t :: b = hevcArray t us ++ rest := by
          rw [hevcArray, hul, hb0]
          simp only [List.append_assoc, List.cons_append, List.nil_append]
          rw [← hub, List.take_append_drop]
        rcases ih _ _ hf3 (hevcArrayAdd grow s (t, us)) with ⟨xs, r2, h1, h2, h3, h4⟩ | ⟨h1, e, s', h2⟩
        · refine .inl ⟨(t, us) :: xs, r2, by simp [h1], ?_, ?_, ?_⟩
          · intro x hx
            rcases List.mem_cons.1 hx with rfl | h
            · exact ⟨by simpa [hul] using hlen, hus⟩
            · exact h2 x h
          · rw [hbt, h3]; simp [hevcArrays]
          · rw [hrun, h4]; rfl
        · refine .inr ⟨?_, e, s', by rw [hrun, h2]⟩
          intro xs r2 hl hx h
          cases xs with
          | nil => simp at hl
          | cons x xs =>
            rw [hcons] at h
            have hb' : b = beBytes 2 x.2.length ++ (x.2.flatMap unit16 ++ (hevcArrays xs ++ r2)) := by simpa using congrArg List.tail h
            have ht2 : b.take 2 = beBytes 2 x.2.length := by
              rw [hb', List.take_append_of_le_length (by simp), List.take_of_length_le (by simp)]
            have hd2 : b.drop 2 = x.2.flatMap unit16 ++ (hevcArrays xs ++ r2) := by
              rw [hb', List.drop_append_of_le_length (by simp), List.drop_of_length_le (by simp), List.nil_append]
            have hx0 := hx x (by simp)
            have hn : beNat (b.take 2) = x.2.length := by
              rw [ht2, beNat_beBytes]; have := hx0.1; omega
            rw [hd2] at hub
            obtain ⟨e1, e2⟩ := units16_unique (by rw [hul, hn]) hx0.2 hus hub
            exact h1 xs r2 (by simpa using hl) (fun y hy => hx y (by simp [hy])) e2.symm
      · refine .inr ⟨?_, e, us.foldl (fun s u => hevcAdd grow (t &&& 0x3F) s (startCoded u)) s, ?_⟩
        · intro xs r2 hl hx h
          cases xs with
          | nil => simp at hl
          | cons x xs =>
            rw [hcons] at h
            have hb' : b = beBytes 2 x.2.length ++ (x.2.flatMap unit16 ++ (hevcArrays xs ++ r2)) := by simpa using congrArg List.tail h
            have ht2 : b.take 2 = beBytes 2 x.2.length := by
              rw [hb', List.take_append_of_le_length (by simp), List.take_of_length_le (by simp)]
            have hd2 : b.drop 2 = x.2.flatMap unit16 ++ (hevcArrays xs ++ r2) := by
              rw [hb', List.drop_append_of_le_length (by simp), List.drop_of_length_le (by simp), List.nil_append]
            have hx0 := hx x (by simp)
            have hn : beNat (b.take 2) = x.2.length := by
              rw [ht2, beNat_beBytes]; have := hx0.1; omega
            exact hno x.2 _ hn.symm hx0.2 hd2
        · rw [hevcReadArrays, hr1]
          simp only [ok_bind]
          rw [hr2.1 hb2]
          simp only [ok_bind]
          rw [hsize, hrd]
          simp only [ok_bind, pure_def]

/-- The arrays are determined by the bytes. -/
theorem hevcArrays_unique {xs ys : List (Byte × List Bytes)} {r1 r2 : Bytes} (hl : xs.length = ys.length) (hx : ArraysOk xs)
    (hy : ArraysOk ys) (h : hevcArrays xs ++ r1 = hevcArrays ys ++ r2) : xs = ys ∧ r1 = r2 := by
  induction xs generalizing ys with
  | nil =>
    cases ys with
    | nil => exact ⟨rfl, by simpa [hevcArrays] using h⟩
    | cons y ys => simp at hl
  | cons x xs ih =>
    cases ys with
    | nil => simp at hl
    | cons y ys =>
      have h' : x.1 :: (beBytes 2 x.2.length ++ (x.2.flatMap unit16 ++ (hevcArrays xs ++ r1))) =
          y.1 :: (beBytes 2 y.2.length ++ (y.2.flatMap unit16 ++ (hevcArrays ys ++ r2))) := by
        simpa [hevcArrays, hevcArray] using h
      obtain ⟨e1, e2⟩ := List.cons.inj h'
      obtain ⟨e3, e4⟩ := List.append_inj e2 (by simp)
      have h3 := congrArg beNat e3
      rw [beNat_beBytes, beNat_beBytes] at h3
      have hx0 := hx x (by simp)
      have hy0 := hy y (by simp)
      obtain ⟨e5, e6⟩ := units16_unique (by have := hx0.1; have := hy0.1; omega) hx0.2 hy0.2 e4
      obtain ⟨e7, e8⟩ := ih (by simpa using hl) (fun z hz => hx z (by simp [hz])) (fun z hz => hy z (by simp [hz])) e6
      exact ⟨by rw [e7, Prod.ext e1 e5], e8⟩

theorem hevcHeader_ok (rec : HEVCRecord) (data : Bytes) (h : 23 ≤ data.length) :
    ∃ r, hevcHeader rec data = ok r ∧ r.numOfArrays = data[22] ∧ r.vpsList = rec.vpsList ∧ r.spsList = rec.spsList ∧
      r.ppsList = rec.ppsList ∧ r.ppsCap = rec.ppsCap ∧ r.shared = rec.shared := by
  unfold hevcHeader
  rw [idx_of_lt (by omega), idx_of_lt (by omega), uint32At_eq _ _ (by omega), uint32At_eq _ _ (by omega), uint16At_eq _ _ (by omega),
    idx_of_lt (by omega), uint16At_eq _ _ (by omega), idx_of_lt (by omega), idx_of_lt (by omega), idx_of_lt (by omega),
    idx_of_lt (by omega), uint16At_eq _ _ (by omega), idx_of_lt (by omega), idx_of_lt (by omega)]
  simp only [ok_bind, pure_def]
  exact ⟨_, rfl, rfl, rfl, rfl, rfl, rfl, rfl⟩

/-- `Unmarshal` of the HEVC record on every input. -/
theorem hevcUnmarshal_spec (grow : Nat → Nat) (rec : HEVCRecord) (data : Bytes) (hlen : data.length < 2 ^ 62) :
    (data.length < 23 ∧ ∃ e, hevcUnmarshal grow rec data = ok (.error e, rec)) ∨
    ∃ (h23 : 23 ≤ data.length) (r : HEVCRecord), hevcHeader rec data = ok r ∧
      ((∃ xs trailing, xs.length = data[22].toNat ∧ ArraysOk xs ∧ data = data.take 23 ++ (hevcArrays xs ++ trailing) ∧
        hevcUnmarshal grow rec data = hevcCheck (.ok (), xs.foldl (hevcArrayAdd grow) r)) ∨
      ((∀ xs trailing, xs.length = data[22].toNat → ArraysOk xs → data ≠ data.take 23 ++ (hevcArrays xs ++ trailing)) ∧
        ∃ e s', hevcUnmarshal grow rec data = ok (.error e, s'))) := by
  have hf0 : Fits [] data := by unfold Fits; simp; omega
  have hseek := cursor_seek hf0 23 (by omega)
  rw [← setData_eq_cursor, show ((23 : Nat) : Int) = 23 from rfl] at hseek
  by_cases h23 : 23 ≤ data.length
  case neg =>
    obtain ⟨e, he⟩ := hseek.2 (by omega)
    refine .inl ⟨by omega, e, ?_⟩
    unfold hevcUnmarshal
    rw [he]
  have hs := hseek.1 h23
  rw [List.nil_append] at hs
  obtain ⟨r, hr, hn, _⟩ := hevcHeader_ok rec data h23
  refine .inr ⟨h23, r, hr, ?_⟩
  have hrun : hevcUnmarshal grow rec data =
      hevcReadArrays grow data[22].toNat (cursor (data.take 23) (data.drop 23)) r >>= hevcCheck := by
    unfold hevcUnmarshal
    rw [hs]
    simp only
    rw [hr]
    simp only [ok_bind]
    rw [hn]
  have hf1 : Fits (data.take 23) (data.drop 23) := by
    have := hf0.move 23
    simpa using this
  rcases hevcReadArrays_spec grow data[22].toNat _ _ hf1 r with ⟨xs, rest, h1, h2, h3, h4⟩ | ⟨h1, e, s', h2⟩
  · exact .inl ⟨xs, rest, h1, h2, by rw [← h3, List.take_append_drop], by rw [hrun, h4, ok_bind]⟩
  · refine .inr ⟨fun xs trailing hl hx h => h1 xs trailing hl hx ?_, e, s', by rw [hrun, h2, ok_bind]; rfl⟩
    have h' := h
    conv at h' => lhs; rw [← List.take_append_drop 23 data]
    exact List.append_cancel_left h'

/-- Where the sets in the lists come from. -/
theorem hevcAdd_mem {grow : Nat → Nat} {t : Byte} {r : HEVCRecord} {nalu x : Bytes}
    (h : x ∈ (hevcAdd grow t r nalu).vpsList ∨ x ∈ (hevcAdd grow t r nalu).spsList ∨ x ∈ (hevcAdd grow t r nalu).ppsList) :
    x = nalu ∨ x ∈ r.vpsList ∨ x ∈ r.spsList ∨ x ∈ r.ppsList := by
  unfold hevcAdd at h
  split at h
  · simp at h; grind
  · split at h
    · simp at h; grind
    · split at h
      · split at h
        · simp only at h
          rcases h with h | h | h
          · exact .inr (.inl h)
          · split at h
            · rcases List.mem_or_eq_of_mem_set h with h | h
              · exact .inr (.inr (.inl h))
              · exact .inl h
            · exact .inr (.inr (.inl h))
          · rcases List.mem_append.1 h with h | h
            · exact .inr (.inr (.inr h))
            · exact .inl (by simpa using h)
        · simp at h; grind
      · exact .inr h

theorem and3F (t : Byte) : (t &&& 0x3F).toNat = t.toNat % 64 := by
  rw [BitVec.toNat_and]; exact Nat.and_two_pow_sub_one_eq_mod t.toNat 6

theorem hevcType_iff (t : Byte) (n : Nat) (hn : n < 64) : t &&& 0x3F = BitVec.ofNat 8 n ↔ t.toNat % 64 = n := by
  rw [← BitVec.toNat_inj, and3F, BitVec.toNat_ofNat]; omega

theorem hevcArrayAdd_vps (grow : Nat → Nat) (r : HEVCRecord) (x : Byte × List Bytes) :
    (hevcArrayAdd grow r x).vpsList = r.vpsList ++ (if x.1.toNat % 64 = 32 then x.2 else []).map startCoded := by
  obtain ⟨t, us⟩ := x
  unfold hevcArrayAdd
  by_cases h : t &&& 0x3F = 32
  · rw [if_pos ((hevcType_iff t 32 (by omega)).1 h)]
    simp only [h]
    induction us generalizing r with
    | nil => simp
    | cons u us ih => rw [List.foldl_cons, ih]; simp [hevcAdd]
  · rw [if_neg (fun h' => h ((hevcType_iff t 32 (by omega)).2 h'))]
    simp only [List.map_nil, List.append_nil]
    induction us generalizing r with
    | nil => rfl
    | cons u us ih =>
      rw [List.foldl_cons, ih]
      unfold hevcAdd
      rw [if_neg h]
      split
      · rfl
      · split
        · split <;> rfl
        · rfl

theorem hevcArrayAdd_pps (grow : Nat → Nat) (r : HEVCRecord) (x : Byte × List Bytes) :
    (hevcArrayAdd grow r x).ppsList = r.ppsList ++ (if x.1.toNat % 64 = 34 then x.2 else []).map startCoded := by
  obtain ⟨t, us⟩ := x
  unfold hevcArrayAdd
  by_cases h : t &&& 0x3F = 34
  · rw [if_pos ((hevcType_iff t 34 (by omega)).1 h)]
    simp only [h]
    induction us generalizing r with
    | nil => simp
    | cons u us ih =>
      rw [List.foldl_cons, ih]
      unfold hevcAdd
      rw [if_neg (by decide), if_neg (by decide), if_pos rfl]
      split <;> simp
  · rw [if_neg (fun h' => h ((hevcType_iff t 34 (by omega)).2 h'))]
    simp only [List.map_nil, List.append_nil]
    induction us generalizing r with
    | nil => rfl
    | cons u us ih =>
      rw [List.foldl_cons, ih]
      unfold hevcAdd
      rw [if_neg h]
      split
      · rfl
      · split <;> rfl

/-- `SPSList` is empty exactly until the first unit of an SPS array. -/
theorem hevcArrayAdd_sps (grow : Nat → Nat) (r : HEVCRecord) (x : Byte × List Bytes) :
    (hevcArrayAdd grow r x).spsList = [] ↔ r.spsList = [] ∧ (if x.1.toNat % 64 = 33 then x.2 else []) = [] := by
  obtain ⟨t, us⟩ := x
  unfold hevcArrayAdd
  have h33 := hevcType_iff t 33 (by omega)
  simp only
  induction us generalizing r with
  | nil => simp
  | cons u us ih =>
    rw [List.foldl_cons]
    refine (ih _).trans ?_
    unfold hevcAdd
    by_cases h : t &&& 0x3F = 33
    · rw [if_pos (h33.1 h), if_pos (h33.1 h), if_neg (by rw [h]; decide), if_pos h]
      simp
    · rw [if_neg (fun h' => h (h33.2 h')), if_neg (fun h' => h (h33.2 h'))]
      split
      · simp
      · split
        · split
          · simp only [and_true]
            split <;> simp
          · simp
        · simp

theorem hevcFold_vps (grow : Nat → Nat) (xs : List (Byte × List Bytes)) (r : HEVCRecord) :
    (xs.foldl (hevcArrayAdd grow) r).vpsList = r.vpsList ++ (unitsOfType 32 xs).map startCoded := by
  induction xs generalizing r with
  | nil => simp [unitsOfType]
  | cons x xs ih => rw [List.foldl_cons, ih, hevcArrayAdd_vps]; simp [unitsOfType]

theorem hevcFold_pps (grow : Nat → Nat) (xs : List (Byte × List Bytes)) (r : HEVCRecord) :
    (xs.foldl (hevcArrayAdd grow) r).ppsList = r.ppsList ++ (unitsOfType 34 xs).map startCoded := by
  induction xs generalizing r with
  | nil => simp [unitsOfType]
  | cons x xs ih => rw [List.foldl_cons, ih, hevcArrayAdd_pps]; simp [unitsOfType]

theorem hevcFold_sps (grow : Nat → Nat) (xs : List (Byte × List Bytes)) (r : HEVCRecord) :
    (xs.foldl (hevcArrayAdd grow) r).spsList = [] ↔ r.spsList = [] ∧ unitsOfType 33 xs = [] := by
  induction xs generalizing r with
  | nil => simp [unitsOfType]
  | cons x xs ih =>
    rw [List.foldl_cons]
    refine (ih _).trans ?_
    rw [hevcArrayAdd_sps]
    simp only [unitsOfType, List.flatMap_cons, List.append_eq_nil_iff, and_assoc]

/-- Everything in `SPSList` was there before, or is a set of an SPS array or a PPS. -/
theorem hevcAdd_sps_mem {grow : Nat → Nat} {t : Byte} {r : HEVCRecord} {nalu s : Bytes} (h : s ∈ (hevcAdd grow t r nalu).spsList) :
    (s = nalu ∧ (t = 33 ∨ t = 34)) ∨ s ∈ r.spsList ∨ s ∈ r.ppsList := by
  unfold hevcAdd at h
  split at h
  · exact .inr (.inl h)
  · split at h
    · rcases List.mem_append.1 h with h | h
      · exact .inr (.inr h)
      · exact .inl ⟨by simpa using h, .inl ‹_›⟩
    · split at h
      · split at h
        · simp only at h
          split at h
          · rcases List.mem_or_eq_of_mem_set h with h | h
            · exact .inr (.inl h)
            · exact .inl ⟨h, .inr ‹_›⟩
          · exact .inr (.inl h)
        · exact .inr (.inl h)
      · exact .inr (.inl h)

theorem hevcArrayAdd_sps_mem {grow : Nat → Nat} {r : HEVCRecord} {x : Byte × List Bytes} {s : Bytes}
    (h : s ∈ (hevcArrayAdd grow r x).spsList) :
    (∃ u, s = startCoded u ∧ u ∈ x.2 ∧ (x.1.toNat % 64 = 33 ∨ x.1.toNat % 64 = 34)) ∨ s ∈ r.spsList ∨ s ∈ r.ppsList := by
  obtain ⟨t, us⟩ := x
  induction us generalizing r with
  | nil => exact .inr (.inl h)
  | cons u us ih =>
    have h' : s ∈ (hevcArrayAdd grow (hevcAdd grow (t &&& 0x3F) r (startCoded u)) (t, us)).spsList := h
    have key : ∀ {p : Prop}, (t &&& 0x3F = 33 ∨ t &&& 0x3F = 34) → t.toNat % 64 = 33 ∨ t.toNat % 64 = 34 := by
      intro _ h
      exact h.imp (hevcType_iff t 33 (by omega)).1 (hevcType_iff t 34 (by omega)).1
    rcases ih h' with ⟨v, h1, h2, h3⟩ | h1 | h1
    · exact .inl ⟨v, h1, List.mem_cons_of_mem _ h2, h3⟩
    · rcases hevcAdd_sps_mem h1 with ⟨h2, h3⟩ | h2
      · exact .inl ⟨u, h2, by simp, key (p := True) h3⟩
      · exact .inr h2
    · have := hevcArrayAdd_pps grow r (t, [u])
      simp only [hevcArrayAdd, List.foldl_cons, List.foldl_nil] at this
      rw [this] at h1
      rcases List.mem_append.1 h1 with h2 | h2
      · exact .inr (.inr h2)
      · split at h2
        · exact .inl ⟨u, by simpa using h2, by simp, .inr ‹_›⟩
        · simp at h2

theorem hevcFold_sps_mem {grow : Nat → Nat} {xs : List (Byte × List Bytes)} {r : HEVCRecord} {s : Bytes}
    (h : s ∈ (xs.foldl (hevcArrayAdd grow) r).spsList) :
    (∃ u, s = startCoded u ∧ (u ∈ unitsOfType 33 xs ∨ u ∈ unitsOfType 34 xs)) ∨ s ∈ r.spsList ∨ s ∈ r.ppsList := by
  induction xs generalizing r with
  | nil => exact .inr (.inl h)
  | cons x xs ih =>
    have hmem : ∀ n u, u ∈ unitsOfType n xs → u ∈ unitsOfType n (x :: xs) := by
      intro n u hu; simp only [unitsOfType, List.flatMap_cons]; exact List.mem_append_right _ hu
    have hmem2 : ∀ n u, u ∈ x.2 → x.1.toNat % 64 = n → u ∈ unitsOfType n (x :: xs) := by
      intro n u hu hn; simp only [unitsOfType, List.flatMap_cons]; apply List.mem_append_left; rw [if_pos hn]; exact hu
    rw [List.foldl_cons] at h
    rcases ih h with ⟨u, h1, h2⟩ | h1 | h1
    · exact .inl ⟨u, h1, h2.imp (hmem _ _) (hmem _ _)⟩
    · rcases hevcArrayAdd_sps_mem h1 with ⟨u, h2, h3, h4⟩ | h2
      · exact .inl ⟨u, h2, h4.imp (hmem2 _ _ h3) (hmem2 _ _ h3)⟩
      · exact .inr h2
    · rw [hevcArrayAdd_pps] at h1
      rcases List.mem_append.1 h1 with h2 | h2
      · exact .inr (.inr h2)
      · split at h2
        · obtain ⟨u, hu, rfl⟩ := List.mem_map.1 h2
          exact .inl ⟨u, rfl, .inr (hmem2 _ _ hu ‹_›)⟩
        · simp at h2

/-- `Marshal` of one array. -/
theorem hevcWriteArray_spec {ss us : List Bytes} (hs : Stripped ss us) (hne : us ≠ []) (h0 : us.head hne ≠ []) (a b : Bytes)
    (hf : Fits a b) (hb : b.length < 2 ^ 62) (hu : ∀ u ∈ us, u.length < 2 ^ 62) :
    (3 + (us.flatMap unit16).length ≤ b.length →
      hevcWriteArray (cursor a b) ss =
        ok (cursor (a ++ hevcArray ((us.head hne).head h0 >>> 1 &&& 0x3F) us) (b.drop (3 + (us.flatMap unit16).length)))) ∧
    (b.length < 3 + (us.flatMap unit16).length → ∃ e, hevcWriteArray (cursor a b) ss = err e) := by
  have hlen := hs.length
  have hws := fun a b hf hb => writeSets_spec hs [] a b hf hb hu
  cases us with
  | nil => exact absurd rfl hne
  | cons u us =>
    cases ss with
    | nil => simp at hlen
    | cons s ss =>
      have hsu := hs.cons.1
      cases u with
      | nil => exact absurd rfl h0
      | cons c u =>
        simp only [List.head_cons]
        obtain ⟨t, ht⟩ : ∃ t, t = (c >>> 1 &&& 0x3F : Byte) := ⟨_, rfl⟩
        have hw1 := cursor_writeUint8 hf t
        have hcount : beBytes 2 (BitVec.ofNat 16 (s :: ss).length).toNat = beBytes 2 ((c :: u) :: us).length := by
          rw [hlen, BitVec.toNat_ofNat]; exact beBytes_mod 2 _
        by_cases hb1 : 1 ≤ b.length
        case neg =>
          obtain ⟨e, he⟩ := hw1.2 (List.length_eq_zero_iff.1 (by omega))
          refine ⟨fun h => by omega, fun _ => ⟨e, ?_⟩⟩
          unfold hevcWriteArray
          simp only [idx, List.getElem?_cons_zero, ok_bind]
          rw [hsu]
          simp only [ok_bind, List.getElem?_cons_zero]
          rw [← ht, he]
          rfl
        have hf1 : Fits (a ++ [t]) (b.drop 1) := by
          unfold Fits at hf ⊢; simp only [List.length_append, List.length_drop, List.length_cons, List.length_nil] at hf ⊢; omega
        have hw2 := cursor_writeUint16 hf1 (BitVec.ofNat 16 (s :: ss).length)
        rw [List.length_drop] at hw2
        by_cases hb2 : 2 ≤ b.length - 1
        case neg =>
          obtain ⟨e, he⟩ := hw2.2 (by omega)
          refine ⟨fun h => by omega, fun _ => ⟨e, ?_⟩⟩
          unfold hevcWriteArray
          simp only [idx, List.getElem?_cons_zero, ok_bind]
          rw [hsu]
          simp only [ok_bind, List.getElem?_cons_zero]
          rw [← ht, hw1.1 hb1]
          simp only [ok_bind]
          rw [he]
          rfl
        have hw2' := hw2.1 hb2
        rw [hcount, List.drop_drop] at hw2'
        have hf2 : Fits (a ++ [t] ++ beBytes 2 ((c :: u) :: us).length) (b.drop (1 + 2)) := by
          unfold Fits at hf ⊢
          simp only [List.length_append, List.length_drop, List.length_cons, List.length_nil, beBytes_length] at hf ⊢
          omega
        have hw3 := hws _ _ hf2 (by rw [List.length_drop]; omega)
        rw [List.length_drop] at hw3
        refine ⟨fun h => ?_, fun h => ?_⟩
        · have hw3' := hw3.1 (by omega)
          unfold hevcWriteArray
          simp only [idx, List.getElem?_cons_zero, ok_bind]
          rw [hsu]
          simp only [ok_bind, List.getElem?_cons_zero]
          rw [← ht, hw1.1 hb1]
          simp only [ok_bind]
          rw [hw2']
          simp only [ok_bind]
          rw [hw3']
          simp only [ok_bind, pure_def, hevcArray, List.append_assoc, List.drop_drop]
        · obtain ⟨e, he⟩ := hw3.2 (by omega)
          refine ⟨e, ?_⟩
          unfold hevcWriteArray
          simp only [idx, List.getElem?_cons_zero, ok_bind]
          rw [hsu]
          simp only [ok_bind, List.getElem?_cons_zero]
          rw [← ht, hw1.1 hb1]
          simp only [ok_bind]
          rw [hw2']
          simp only [ok_bind]
          rw [he]
          rfl

/-- Size of an array. -/
def arraySize (us : List Bytes) : Nat := 3 + (us.flatMap unit16).length

theorem hevcMarshal_run {vs ss ps vps sps pps : List Bytes} (hv : Stripped vs vps) (hs : Stripped ss sps) (hp : Stripped ps pps)
    (hvn : vps ≠ []) (hsn : sps ≠ []) (hpn : pps ≠ []) (hv0 : vps.head hvn ≠ []) (hs0 : sps.head hsn ≠ []) (hp0 : pps.head hpn ≠ [])
    (hu : ∀ u ∈ vps ++ sps ++ pps, u.length < 2 ^ 62) :
    (23 + arraySize vps + arraySize sps + arraySize pps ≤ 1024 →
      hevcMarshal vs ss ps = ok (([1] ++ List.replicate 20 0 ++ [3, 3] : Bytes) ++
        hevcArray ((vps.head hvn).head hv0 >>> 1 &&& 0x3F) vps ++ hevcArray ((sps.head hsn).head hs0 >>> 1 &&& 0x3F) sps ++
        hevcArray ((pps.head hpn).head hp0 >>> 1 &&& 0x3F) pps)) ∧
    (1024 < 23 + arraySize vps + arraySize sps + arraySize pps → ∃ e, hevcMarshal vs ss ps = err e) := by
  have hlv : ¬ vs.length = 0 := by rw [hv.length]; simpa using hvn
  have hls : ¬ ss.length = 0 := by rw [hs.length]; simpa using hsn
  have hlp : ¬ ps.length = 0 := by rw [hp.length]; simpa using hpn
  have hinit : ∀ k : Bytes → Go Bytes, (setIdx (List.replicate 1024 (0 : Byte)) 0 1 >>= fun b => setIdx b 21 3 >>= fun b => setIdx b 22 3 >>= k) =
      k ([1] ++ List.replicate 20 0 ++ [3, 3] ++ List.replicate 1001 0) := by
    intro k
    rw [show List.replicate 1024 (0 : Byte) = [0] ++ List.replicate 20 0 ++ [0, 0] ++ List.replicate 1001 0 by decide +kernel]
    generalize List.replicate 1001 (0 : Byte) = z
    simp [setIdx, List.replicate]
  obtain ⟨H, hH⟩ : ∃ H : Bytes, H = [1] ++ List.replicate 20 0 ++ [3, 3] := ⟨_, rfl⟩
  have hHl : H.length = 23 := by rw [hH]; rfl
  rw [← hH] at hinit
  have hf0 : Fits [] (H ++ List.replicate 1001 (0 : Byte)) := by
    unfold Fits; simp only [List.length_append, List.length_nil, List.length_replicate]; omega
  have hseek := (cursor_seek hf0 23 (by omega)).1 (by simp only [List.length_append, List.length_replicate]; omega)
  rw [← setData_eq_cursor, show ((23 : Nat) : Int) = 23 from rfl, List.nil_append,
    List.take_append_of_le_length (by omega), List.take_of_length_le (by omega),
    List.drop_append_of_le_length (by omega), List.drop_of_length_le (by omega), List.nil_append] at hseek
  have hrun : hevcMarshal vs ss ps = (hevcWriteArray (cursor H (List.replicate 1001 0)) vs >>= fun w =>
      hevcWriteArray w ss >>= fun w => hevcWriteArray w ps >>= fun w => sliceI w.data 0 w.offset) := by
    unfold hevcMarshal
    rw [if_neg hls, if_neg hlp, if_neg hlv, hinit, hseek]
  have hfit : ∀ (x : Bytes) n, x.length + n = 1024 → Fits x (List.replicate n (0 : Byte)) := by
    intro x n h; unfold Fits; rw [List.length_replicate]; omega
  have hal : ∀ t us, (hevcArray t us).length = arraySize us := by
    intro t us; simp only [hevcArray, arraySize, List.length_append, List.length_cons, List.length_nil, beBytes_length]
  have hw1 := hevcWriteArray_spec hv hvn hv0 H (List.replicate 1001 0) (hfit _ _ (by omega)) (by rw [List.length_replicate]; omega)
    (fun u h => hu u (by simp [h]))
  rw [List.length_replicate, List.drop_replicate, ← arraySize] at hw1
  by_cases h1 : arraySize vps ≤ 1001
  case neg =>
    obtain ⟨e, he⟩ := hw1.2 (by omega)
    exact ⟨fun h => by omega, fun _ => ⟨e, by rw [hrun, he]; rfl⟩⟩
  have hw1' := hw1.1 h1
  have hw2 := hevcWriteArray_spec hs hsn hs0 _ (List.replicate (1001 - arraySize vps) 0)
    (hfit (H ++ hevcArray ((vps.head hvn).head hv0 >>> 1 &&& 0x3F) vps) _ (by rw [List.length_append, hal]; omega)) (by rw [List.length_replicate]; omega)
    (fun u h => hu u (by simp [h]))
  rw [List.length_replicate, List.drop_replicate, ← arraySize] at hw2
  by_cases h2 : arraySize sps ≤ 1001 - arraySize vps
  case neg =>
    obtain ⟨e, he⟩ := hw2.2 (by omega)
    exact ⟨fun h => by omega, fun _ => ⟨e, by rw [hrun, hw1', ok_bind, he]; rfl⟩⟩
  have hw2' := hw2.1 h2
  have hw3 := hevcWriteArray_spec hp hpn hp0 _ (List.replicate (1001 - arraySize vps - arraySize sps) 0)
    (hfit (H ++ hevcArray ((vps.head hvn).head hv0 >>> 1 &&& 0x3F) vps ++ hevcArray ((sps.head hsn).head hs0 >>> 1 &&& 0x3F) sps) _
      (by rw [List.length_append, List.length_append, hal, hal]; omega)) (by rw [List.length_replicate]; omega)
    (fun u h => hu u (by simp [h]))
  rw [List.length_replicate, List.drop_replicate, ← arraySize] at hw3
  refine ⟨fun h => ?_, fun h => ?_⟩
  · rw [hrun, hw1', ok_bind, hw2', ok_bind, hw3.1 (by omega), ok_bind]
    simp only [cursor]
    unfold sliceI
    rw [if_pos (by simp; omega), Int.toNat_natCast, List.take_left, Int.toNat_zero, List.drop_zero, hH]
  · obtain ⟨e, he⟩ := hw3.2 (by omega)
    exact ⟨e, by rw [hrun, hw1', ok_bind, hw2', ok_bind, he]; rfl⟩

end Avf
