import Verif.Spec.RecordReuse
import Verif.Props.RecordLists
/-!
# C118: reading a configuration record into a variable that has been used

`Unmarshal` appends to the lists of its receiver. All calls in /repo are on a new variable; here is what happens on any other.
-/
namespace Avf
open Go

theorem recordSets_append (xs ys : List (Byte × List Bytes)) : recordSets (xs ++ ys) = recordSets xs ++ recordSets ys := by
  unfold recordSets; rw [List.flatMap_append]

/-- One record. -/
theorem unmarshal_listed {grow : Nat → Nat} {es : List (Nat × Bytes)} {rec : HEVCRecord} (h : Listed grow es rec) {data header : Bytes}
    (hlen : data.length < 2 ^ 62) {xs : List (Byte × List Bytes)} {trailing : Bytes} (hd : IsHevcRecord data header xs trailing) :
    ∃ res r, hevcUnmarshal grow rec data = ok (res, r) ∧ Listed grow (es ++ recordSets xs) r ∧
      (res = .ok () ↔ AllKinds (es ++ recordSets xs)) := by
  obtain ⟨h23, _, h2, h3, h4⟩ := hd.back
  rcases hevcUnmarshal_spec grow rec data hlen with ⟨hl, _⟩ | ⟨_, r0, hr, ⟨ys, t, y1, y2, y3, he⟩ | ⟨hno, _⟩⟩
  · omega
  · obtain ⟨_, rfl, rfl⟩ := hd.unique (IsHevcRecord.arrays h23 y1 y2 y3)
    obtain ⟨r0', hr', _, hv, hs, hp, hc, hsh⟩ := hevcHeader_ok rec data h23
    rw [hr] at hr'
    obtain rfl : r0 = r0' := by simpa using hr'
    have h0 : Listed grow es r0 := ⟨hv.trans h.vps, hp.trans h.pps, by rw [hc, hp]; exact h.cap, by rw [hs, hsh]; exact h.sps⟩
    have hL := h0.arrays xs
    rw [he]
    generalize xs.foldl (hevcArrayAdd grow) r0 = r at hL
    have hsps : r.spsList = [] ↔ setsOfType 33 (es ++ recordSets xs) = [] := by
      rcases hL.sps with ⟨a, b⟩ | ⟨before, s, after, a, b, _, c⟩
      · rw [a, b]
      · rw [a, c]; simp [setsOfType]
    unfold hevcCheck AllKinds
    rw [← hL.vps, ← hL.pps]
    simp only [List.length_eq_zero_iff]
    by_cases e1 : r.spsList = []
    · rw [if_pos e1]; exact ⟨_, _, rfl, hL, by simp [hsps.1 e1]⟩
    · rw [if_neg e1]
      by_cases e2 : r.ppsList = []
      · rw [if_pos e2]; exact ⟨_, _, rfl, hL, by simp [e2]⟩
      · rw [if_neg e2]
        by_cases e3 : r.vpsList = []
        · rw [if_pos e3]; exact ⟨_, _, rfl, hL, by simp [e3]⟩
        · rw [if_neg e3]; exact ⟨_, _, rfl, hL, ⟨fun _ => ⟨e3, fun hh => e1 (hsps.2 hh), e2⟩, fun _ => rfl⟩⟩
  · exact absurd h4 (hno _ _ h2 h3)

/-- Records one after the other. -/
theorem reads_listed (grow : Nat → Nat) (ds : List (Bytes × Bytes × List (Byte × List Bytes) × Bytes)) :
    ∀ {es : List (Nat × Bytes)} {rec : HEVCRecord}, Listed grow es rec →
    (∀ d ∈ ds, d.1.length < 2 ^ 62 ∧ IsHevcRecord d.1 d.2.1 d.2.2.1 d.2.2.2) →
    ∃ res r, hevcReads grow rec (ds.map (·.1)) = ok (res, r) ∧ Listed grow (es ++ recordSets (ds.flatMap (·.2.2.1))) r ∧
      res.length = ds.length ∧
      ∀ k, k < ds.length → (res[k]? = some (.ok ()) ↔ AllKinds (es ++ recordSets ((ds.take (k + 1)).flatMap (·.2.2.1)))) := by
  induction ds with
  | nil => intro es rec h _; exact ⟨[], rec, rfl, by simpa [recordSets] using h, rfl, fun k hk => absurd hk (by simp)⟩
  | cons d ds ih =>
    intro es rec h hd
    obtain ⟨hlen, hrec⟩ := hd d (List.mem_cons_self ..)
    obtain ⟨e, r, h1, h2, h3⟩ := unmarshal_listed h hlen hrec
    obtain ⟨res, r', h4, h5, h6, h7⟩ := ih h2 fun x hx => hd x (List.mem_cons_of_mem _ hx)
    refine ⟨e :: res, r', ?_, ?_, by simp [h6], fun k hk => ?_⟩
    · rw [List.map_cons]
      unfold hevcReads
      rw [h1, ok_bind]
      dsimp only
      rw [h4]
      rfl
    · rw [List.flatMap_cons, recordSets_append, ← List.append_assoc]; exact h5
    · cases k with
      | zero =>
        simp only [List.getElem?_cons_zero, Option.some.injEq, List.take_succ_cons, List.take_zero, List.flatMap_cons, List.flatMap_nil, List.append_nil]
        exact h3
      | succ k =>
        rw [List.getElem?_cons_succ, List.take_succ_cons, List.flatMap_cons, recordSets_append, ← List.append_assoc]
        exact h7 k (by simpa using hk)

/-- **C118** for HEVC: after records have been read one after the other into a variable that was new, the lists are those of C95 for
the parameter sets of all of them; a record is accepted if and only if a VPS, an SPS and a PPS were in it or in one before it. -/
theorem C118_hevc (grow : Nat → Nat) (ds : List (Bytes × Bytes × List (Byte × List Bytes) × Bytes))
    (hd : ∀ d ∈ ds, d.1.length < 2 ^ 62 ∧ IsHevcRecord d.1 d.2.1 d.2.2.1 d.2.2.2) :
    ∃ res r, hevcReads grow {} (ds.map (·.1)) = ok (res, r) ∧ res.length = ds.length ∧
      r.vpsList = setsOfType 32 (recordSets (ds.flatMap (·.2.2.1))) ∧ r.ppsList = setsOfType 34 (recordSets (ds.flatMap (·.2.2.1))) ∧
      SpsListed grow (recordSets (ds.flatMap (·.2.2.1))) r.spsList ∧
      ∀ k, k < ds.length → (res[k]? = some (.ok ()) ↔ AllKinds (recordSets ((ds.take (k + 1)).flatMap (·.2.2.1)))) := by
  have h0 : Listed grow [] {} := ⟨rfl, rfl, rfl, .inl ⟨rfl, rfl⟩⟩
  obtain ⟨res, r, h1, h2, h3, h4⟩ := reads_listed grow ds h0 hd
  simp only [List.nil_append] at h2 h4
  refine ⟨res, r, h1, h3, h2.vps, h2.pps, ?_, h4⟩
  rcases h2.sps with h | ⟨before, s, after, a, b, _, c⟩
  · exact .inl h
  · exact .inr ⟨before, s, after, a, b, c⟩

/-- **C118** for AVC: all are accepted; the lists have the sets of all. -/
theorem C118_avc (ds : List (Bytes × Bytes × Byte × List Bytes × List Bytes × Bytes)) :
    ∀ (a : AVCRecord), (∀ d ∈ ds, d.1.length < 2 ^ 62 ∧ IsAvcRecord d.1 d.2.1 d.2.2.1 d.2.2.2.1 d.2.2.2.2.1 d.2.2.2.2.2) →
    ∃ r, avcReads a (ds.map (·.1)) = ok (List.replicate ds.length (.ok ()), r) ∧
      r.spsList = a.spsList ++ (ds.flatMap (·.2.2.2.1)).map ([0, 0, 0, 1] ++ ·) ∧
      r.ppsList = a.ppsList ++ (ds.flatMap (·.2.2.2.2.1)).map ([0, 0, 0, 1] ++ ·) := by
  induction ds with
  | nil => intro a _; exact ⟨a, rfl, by simp, by simp⟩
  | cons d ds ih =>
    intro a hd
    obtain ⟨hlen, hrec⟩ := hd d (List.mem_cons_self ..)
    obtain ⟨data, header, count, sps, pps, trailing⟩ := d
    have h5 := hrec.header5
    obtain ⟨v, p, c, l, z, rfl⟩ : ∃ v p c l z, header = [v, p, c, l, z] := by
      match header, h5 with
      | [v, p, c, l, z], _ => exact ⟨v, p, c, l, z, rfl⟩
    obtain ⟨a', h1, hs, hp⟩ : ∃ a', avcUnmarshal a data = ok (.ok (), a') ∧ a'.spsList = a.spsList ++ sps.map ([0, 0, 0, 1] ++ ·) ∧
        a'.ppsList = a.ppsList ++ pps.map ([0, 0, 0, 1] ++ ·) := ⟨_, C42_record a data hlen v p c l z count sps pps trailing hrec, rfl, rfl⟩
    obtain ⟨r, h2, h3, h4⟩ := ih a' fun x hx => hd x (List.mem_cons_of_mem _ hx)
    refine ⟨r, ?_, by rw [h3, hs]; simp, by rw [h4, hp]; simp⟩
    rw [List.map_cons]
    unfold avcReads
    rw [h1, ok_bind]
    dsimp only
    rw [h2]
    rfl

/-- **C118** as one would like it: what was in the variable does not matter for what `Unmarshal` says, nor for the lists. -/
def C118_claim : Prop :=
  (∀ (a : AVCRecord) (data : Bytes), data.length < 2 ^ 62 →
    ((·.1) <$> avcUnmarshal a data) = ((·.1) <$> avcUnmarshal {} data) ∧
    ∀ r r', avcUnmarshal a data = ok (.ok (), r) → avcUnmarshal {} data = ok (.ok (), r') → r.spsList = r'.spsList ∧ r.ppsList = r'.ppsList) ∧
  ∀ (grow : Nat → Nat) (before data : Bytes) (rec : HEVCRecord) (e : Except String Unit), hevcUnmarshal grow {} before = ok (e, rec) →
    ((·.1) <$> hevcUnmarshal grow rec data) = ((·.1) <$> hevcUnmarshal grow {} data)

/-- The part that holds, for AVC: the old contents do not decide whether a record is accepted. -/
theorem C118_avc_accepts_partial (a : AVCRecord) (data : Bytes) (hlen : data.length < 2 ^ 62) :
    (∃ r, avcUnmarshal a data = ok (.ok (), r)) ↔ ∃ r, avcUnmarshal {} data = ok (.ok (), r) := by
  by_cases h : ∃ header count sps pps trailing, IsAvcRecord data header count sps pps trailing
  · obtain ⟨header, count, sps, pps, trailing, h⟩ := h
    have h5 := h.header5
    obtain ⟨v, p, c, l, z, rfl⟩ : ∃ v p c l z, header = [v, p, c, l, z] := by
      match header, h5 with
      | [v, p, c, l, z], _ => exact ⟨v, p, c, l, z, rfl⟩
    exact ⟨fun _ => ⟨_, C42_record {} data hlen v p c l z count sps pps trailing h⟩, fun _ => ⟨_, C42_record a data hlen v p c l z count sps pps trailing h⟩⟩
  · have h' : ∀ header count sps pps trailing, ¬ IsAvcRecord data header count sps pps trailing :=
      fun header count sps pps trailing hh => h ⟨header, count, sps, pps, trailing, hh⟩
    obtain ⟨e, x, h1⟩ := C42_not_record a data hlen h'
    obtain ⟨e', x', h2⟩ := C42_not_record {} data hlen h'
    constructor
    · rintro ⟨r, hr⟩; rw [h1] at hr; cases hr
    · rintro ⟨r, hr⟩; rw [h2] at hr; cases hr

/-! ## Counterexamples -/

/-- A record with a VPS, an SPS and a PPS, and one with a PPS only. -/
def fullRecord : Bytes := List.replicate 22 0 ++ [3] ++ hevcArray 32 [[64, 1]] ++ hevcArray 33 [[66, 1]] ++ hevcArray 34 [[68, 1]]
def ppsRecord : Bytes := List.replicate 22 0 ++ [1] ++ hevcArray 34 [[68, 2]]

/-- A record without VPS and SPS is refused, but accepted if a whole record was read into the variable before. -/
theorem C118_stale_accepted : (fun x => x.1.map fun e => e.toOption.isSome) <$> hevcReads id {} [ppsRecord] = ok [false] ∧
    (fun x => x.1.map fun e => e.toOption.isSome) <$> hevcReads id {} [fullRecord, ppsRecord] = ok [true, true] := by
  constructor <;> decide +kernel

/-- The same record twice: the first SPS of the variable is the PPS now. -/
theorem C118_stale_pps : (fun x => (x.2.vpsList, x.2.spsList, x.2.ppsList)) <$> hevcReads id {} [fullRecord, fullRecord] =
    ok ([[0, 0, 0, 1, 64, 1], [0, 0, 0, 1, 64, 1]], [[0, 0, 0, 1, 68, 1], [0, 0, 0, 1, 66, 1]],
      [[0, 0, 0, 1, 68, 1], [0, 0, 0, 1, 68, 1]]) := by
  decide +kernel

theorem C118_claim_violated : ¬ C118_claim := by
  intro h
  have h3 : (fun e : Except String Unit => e.toOption.isSome) <$>
      (hevcUnmarshal id {} fullRecord >>= fun x => (·.1) <$> hevcUnmarshal id x.2 ppsRecord) = ok true := by decide +kernel
  have h4 : (fun e : Except String Unit => e.toOption.isSome) <$> (·.1) <$> hevcUnmarshal id {} ppsRecord = ok false := by decide +kernel
  cases hf : hevcUnmarshal id {} fullRecord with
  | ok x =>
    rw [hf, ok_bind, h.2 id fullRecord ppsRecord x.2 x.1 hf, h4] at h3
    cases h3
  | err m => rw [hf] at h3; cases h3
  | panic => rw [hf] at h3; cases h3

/-- The hypotheses of `C118_hevc`, and of `C118_avc`. -/
example : IsHevcRecord fullRecord (List.replicate 22 0) [(32, [[64, 1]]), (33, [[66, 1]]), (34, [[68, 1]])] [] ∧
    IsHevcRecord ppsRecord (List.replicate 22 0) [(34, [[68, 2]])] [] :=
  ⟨⟨rfl, by decide, by decide, by decide⟩, ⟨rfl, by decide, by decide, by decide⟩⟩

example : (fun x => (x.2.spsList, x.2.ppsList)) <$>
      avcReads {} (List.replicate 2 [1, 66, 0, 30, 0xff, 0xE1, 0, 4, 0x67, 66, 0, 30, 1, 0, 2, 0x68, 1]) =
    ok ([[0, 0, 0, 1, 0x67, 66, 0, 30], [0, 0, 0, 1, 0x67, 66, 0, 30]], [[0, 0, 0, 1, 0x68, 1], [0, 0, 0, 1, 0x68, 1]]) := by
  decide +kernel

end Avf
