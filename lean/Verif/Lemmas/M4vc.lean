import Verif.Lemmas.Mp4
/-! # `M4VCExtraDataToAnnexB`: lemmas -/
namespace Avf
open Go

theorem cursor_slice (a b : Bytes) (n : Nat) (h : n ≤ b.length) :
    sliceI (a ++ b) (cursor a b).offset ((cursor a b).offset + n) = ok (b.take n) := by
  unfold sliceI cursor
  simp only
  rw [if_pos (by simp; omega)]
  congr 1
  have e1 : ((a.length : Int) + (n : Int)).toNat = (a ++ b.take n).length := by rw [List.length_append, take_len h]; omega
  rw [e1, Int.toNat_natCast]
  have : a ++ b = (a ++ b.take n) ++ b.drop n := by rw [List.append_assoc, List.take_append_drop]
  rw [this, List.take_left, List.drop_left]

theorem cursor_slice_panic (a b : Bytes) (n : Nat) (h : b.length < n) :
    sliceI (a ++ b) (cursor a b).offset ((cursor a b).offset + n) = panic := by
  unfold sliceI cursor
  simp only
  rw [if_neg (by simp; omega)]

theorem unit16_take (u rest : Bytes) : (unit16 u ++ rest).take 2 = beBytes 2 u.length := by
  rw [unit16, List.append_assoc, List.take_append_of_le_length (by simp), List.take_of_length_le (by simp)]

theorem unit16_drop (u rest : Bytes) : (unit16 u ++ rest).drop 2 = u ++ rest := by
  rw [unit16, List.append_assoc, List.drop_append_of_le_length (by simp), List.drop_of_length_le (by simp)]; rfl

theorem length_unit16 (u : Bytes) : (unit16 u).length = 2 + u.length := by simp [unit16]

theorem ofNat16_toNat {n : Nat} (h : n < 2 ^ 16) : (BitVec.ofNat 16 n).toNat = n := by
  rw [BitVec.toNat_ofNat, Nat.mod_eq_of_lt h]

theorem cursor_read_unit16 {a u rest : Bytes} (hf : Fits a (unit16 u ++ rest)) (hu : u.length < 2 ^ 16) :
    (cursor a (unit16 u ++ rest)).readUint16 = ok (.ok (BitVec.ofNat 16 u.length), cursor (a ++ beBytes 2 u.length) (u ++ rest)) := by
  rw [(cursor_readUint16 hf).1 (by simp [length_unit16]; omega), unit16_take, unit16_drop, beNat_beBytes]
  congr 3
  rw [Nat.mod_eq_of_lt (by omega)]

/-- One unit: what the loop does up to the decision about the next one. -/
theorem m4vcLoop_unit {src a u rest out z : Bytes} {nb : Byte} {done : Nat} (hnb : nb ≠ 0) (hsrc : src = a ++ (unit16 u ++ rest))
    (hf : Fits a (unit16 u ++ rest)) (hu : u.length < 2 ^ 16) (hfw : Fits out z) :
    (([0, 0, 0, 1] ++ u : Bytes).length ≤ z.length →
      (¬ (2 < rest.length ∧ nb - 1 = 0 ∧ done = 0) →
        m4vcLoop src (cursor a (unit16 u ++ rest)) (cursor out z) nb done =
          m4vcLoop src (cursor (a ++ unit16 u) rest) (cursor (out ++ ([0, 0, 0, 1] ++ u)) (z.drop (4 + u.length))) (nb - 1) (done + 1)) ∧
      (2 < rest.length ∧ nb - 1 = 0 ∧ done = 0 → ∀ n rest', rest = n :: rest' →
        m4vcLoop src (cursor a (unit16 u ++ rest)) (cursor out z) nb done =
          m4vcLoop src (cursor (a ++ unit16 u ++ [n]) rest') (cursor (out ++ ([0, 0, 0, 1] ++ u)) (z.drop (4 + u.length))) n (done + 1))) ∧
    (z.length < ([0, 0, 0, 1] ++ u : Bytes).length →
      ∃ e, m4vcLoop src (cursor a (unit16 u ++ rest)) (cursor out z) nb done = err e) := by
  have hfl := hf
  unfold Fits at hfl
  rw [List.length_append, length_unit16] at hfl
  have hflw := hfw
  unfold Fits at hflw
  have hr := cursor_read_unit16 hf hu
  have hsrc' : src = (a ++ beBytes 2 u.length) ++ (u ++ rest) := by rw [hsrc, unit16]; simp
  have hf2 : Fits (a ++ beBytes 2 u.length) (u ++ rest) := by
    unfold Fits; simp only [List.length_append, beBytes_length]; omega
  have hw4 := cursor_write hfw startCode4 (by simp [startCode4])
  have hl4 : startCode4.length = 4 := rfl
  have hc4 : startCode4 = [0, 0, 0, 1] := rfl
  have hs : sliceI src (cursor (a ++ beBytes 2 u.length) (u ++ rest)).offset
      ((cursor (a ++ beBytes 2 u.length) (u ++ rest)).offset + ((BitVec.ofNat 16 u.length).toNat : Int)) = ok u := by
    rw [ofNat16_toNat hu, hsrc', cursor_slice _ _ _ (by simp), List.take_left]
  have hsk : (cursor (a ++ beBytes 2 u.length) (u ++ rest)).seek (((BitVec.ofNat 16 u.length).toNat : Nat) : Int) =
      (.ok (), cursor (a ++ unit16 u) rest) := by
    rw [ofNat16_toNat hu, (cursor_seek hf2 u.length (by omega)).1 (by simp), List.take_left, List.drop_left, unit16,
      List.append_assoc]
  constructor
  · intro hl
    simp only [List.length_append, List.length_cons, List.length_nil] at hl
    rw [m4vcLoop, dif_neg hnb, hr]
    simp only [ok_bind]
    rw [hw4.1 (by omega)]
    simp only [ok_bind]
    rw [hs]
    simp only [ok_bind]
    rw [(cursor_write (hfw.write (by omega)) u (by omega)).1 (by rw [List.length_drop]; omega)]
    rw [hsk]
    simp only [ok_bind]
    simp only [cursor_readableBytes, List.drop_drop, hl4]
    have hc : ((rest.length : Int) > 2 ∧ nb - 1 = 0 ∧ done = 0) ↔ (2 < rest.length ∧ nb - 1 = 0 ∧ done = 0) := by
      constructor <;> (intro h; exact ⟨by omega, h.2⟩)
    have ho : out ++ startCode4 ++ u = out ++ ([0, 0, 0, 1] ++ u) := by rw [hc4, List.append_assoc]
    rw [ho]
    refine ⟨fun h => by rw [if_neg (fun hh => h (hc.1 hh))], fun h n rest' hr' => ?_⟩
    rw [if_pos (hc.2 h)]
    subst hr'
    have hf3 : Fits (a ++ unit16 u) (n :: rest') := by
      unfold Fits; simp only [List.length_append, List.length_cons, length_unit16] at hfl ⊢; omega
    rw [(cursor_readUint8 hf3).1 n rest' rfl]
    simp only [ok_bind]
  · intro hl
    simp only [List.length_append, List.length_cons, List.length_nil] at hl
    rw [m4vcLoop, dif_neg hnb, hr]
    simp only [ok_bind]
    by_cases h4 : 4 ≤ z.length
    · rw [hw4.1 (by omega)]
      simp only [ok_bind]
      rw [hs]
      simp only [ok_bind]
      obtain ⟨e, he⟩ := (cursor_write (hfw.write (x := startCode4) (by omega)) u (by omega)).2 (by rw [List.length_drop]; omega)
      rw [he]
      simp only [ok_bind]
      exact ⟨e, rfl⟩
    · obtain ⟨e, he⟩ := hw4.2 (by omega)
      rw [he]
      simp only [ok_bind]
      exact ⟨e, rfl⟩

theorem m4vcLoop_zero (src : Bytes) (r w : BytesBuf) (done : Nat) : m4vcLoop src r w 0 done = ok w := by
  rw [m4vcLoop, dif_pos rfl]

theorem ofNat8_pred {n : Nat} (_h : n + 1 < 256) : (BitVec.ofNat 8 (n + 1) - 1 : Byte) = BitVec.ofNat 8 n := by
  apply BitVec.eq_of_toNat_eq
  rw [BitVec.toNat_sub]
  simp
  omega

theorem withCodes_cons (u : Bytes) (us : List Bytes) : withCodes (u :: us) = ([0, 0, 0, 1] ++ u) ++ withCodes us := by
  simp [withCodes]

theorem m4vcLoop_list {src : Bytes} (us : List Bytes) (hn : us.length < 256) (hus : ∀ u ∈ us, u.length < 2 ^ 16) (rest : Bytes)
    (done : Nat) (hd : done ≠ 0) (a out z : Bytes) (hsrc : src = a ++ (us.flatMap unit16 ++ rest))
    (hf : Fits a (us.flatMap unit16 ++ rest)) (hfw : Fits out z) :
    ((withCodes us).length ≤ z.length →
      m4vcLoop src (cursor a (us.flatMap unit16 ++ rest)) (cursor out z) (BitVec.ofNat 8 us.length) done =
        ok (cursor (out ++ withCodes us) (z.drop (withCodes us).length))) ∧
    (z.length < (withCodes us).length →
      ∃ e, m4vcLoop src (cursor a (us.flatMap unit16 ++ rest)) (cursor out z) (BitVec.ofNat 8 us.length) done = err e) := by
  induction us generalizing a out z done with
  | nil =>
    have : (BitVec.ofNat 8 ([] : List Bytes).length : Byte) = 0 := rfl
    rw [this, m4vcLoop_zero]
    simp [withCodes]
  | cons u us ih =>
    have hform : (u :: us).flatMap unit16 ++ rest = unit16 u ++ (us.flatMap unit16 ++ rest) := by simp
    rw [hform] at hsrc hf ⊢
    have hnb : (BitVec.ofNat 8 (u :: us).length : Byte) ≠ 0 := by
      intro h
      have := congrArg BitVec.toNat h
      simp only [BitVec.toNat_ofNat, List.length_cons] at this hn
      rw [Nat.mod_eq_of_lt (by omega)] at this
      exact absurd this (by simp)
    have hstep := m4vcLoop_unit (out := out) (z := z) (done := done) hnb hsrc hf (hus u (by simp)) hfw
    have hnext : ([0, 0, 0, 1] ++ u : Bytes).length ≤ z.length →
        m4vcLoop src (cursor a (unit16 u ++ (us.flatMap unit16 ++ rest))) (cursor out z) (BitVec.ofNat 8 (u :: us).length) done =
        m4vcLoop src (cursor (a ++ unit16 u) (us.flatMap unit16 ++ rest)) (cursor (out ++ ([0, 0, 0, 1] ++ u)) (z.drop (4 + u.length)))
          (BitVec.ofNat 8 us.length) (done + 1) := by
      intro hl
      rw [(hstep.1 hl).1 (fun h => hd h.2.2), List.length_cons, ofNat8_pred (by simpa using hn)]
    have hl5 : ([0, 0, 0, 1] ++ u : Bytes).length = 4 + u.length := by simp; omega
    have hf' : Fits (a ++ unit16 u) (us.flatMap unit16 ++ rest) := by
      unfold Fits at hf ⊢; simp only [List.length_append] at hf ⊢; omega
    rw [withCodes_cons, List.length_append]
    constructor
    · intro hl
      rw [hnext (by omega)]
      have hfw' : Fits (out ++ ([0, 0, 0, 1] ++ u)) (z.drop (4 + u.length)) := by rw [← hl5]; exact hfw.write (by omega)
      have := (ih (by simp at hn; omega) (fun w hw => hus w (by simp [hw])) (done + 1) (by omega) (a ++ unit16 u)
        (out ++ ([0, 0, 0, 1] ++ u)) (z.drop (4 + u.length)) (by rw [hsrc]; simp) hf' hfw').1 (by rw [List.length_drop]; omega)
      rw [this, List.drop_drop, List.append_assoc out, hl5]
    · intro hl
      by_cases h1 : ([0, 0, 0, 1] ++ u : Bytes).length ≤ z.length
      · rw [hnext h1]
        have hfw' : Fits (out ++ ([0, 0, 0, 1] ++ u)) (z.drop (4 + u.length)) := by rw [← hl5]; exact hfw.write (by omega)
        exact (ih (by simp at hn; omega) (fun w hw => hus w (by simp [hw])) (done + 1) (by omega) (a ++ unit16 u)
          (out ++ ([0, 0, 0, 1] ++ u)) (z.drop (4 + u.length)) (by rw [hsrc]; simp) hf' hfw').2 (by rw [List.length_drop]; omega)
      · exact hstep.2 (by omega)

/-- A record with one SPS. -/
theorem m4vc_one (hdr : Bytes) (hh : hdr.length = 4) (b4 b5 : Byte) (h5 : b5 &&& 0x1f = 1) (sps : Bytes) (pps : List Bytes)
    (hs : sps.length < 2 ^ 16) (hn : pps.length < 256) (hp : ∀ u ∈ pps, u.length < 2 ^ 16) (trailing src : Bytes)
    (hsrc : src = hdr ++ [b4, b5] ++ unit16 sps ++ [BitVec.ofNat 8 pps.length] ++ pps.flatMap unit16 ++ trailing)
    (hlen : src.length < 2 ^ 62) :
    ((withCodes (sps :: pps)).length ≤ src.length + 256 → m4vcExtraDataToAnnexB src = ok (withCodes (sps :: pps))) ∧
    (src.length + 256 < (withCodes (sps :: pps)).length → ∃ e, m4vcExtraDataToAnnexB src = err e) := by
  let body := pps.flatMap unit16 ++ trailing
  have hform : src = hdr ++ (b4 :: b5 :: (unit16 sps ++ (BitVec.ofNat 8 pps.length :: body))) := by rw [hsrc]; simp [body]
  have hf0 : Fits [] src := by unfold Fits; simp; omega
  have hseek : (BytesBuf.setData src).seek 4 = (.ok (), cursor hdr (b4 :: b5 :: (unit16 sps ++ (BitVec.ofNat 8 pps.length :: body)))) := by
    rw [setData_eq_cursor]
    have := (cursor_seek hf0 4 (by omega)).1 (by rw [hform]; simp; omega)
    rw [hform, ← hh, List.take_left, List.drop_left, hh, ← hform] at this
    simpa using this
  have hL : src.length = 4 + (2 + ((2 + sps.length) + (1 + body.length))) := by
    rw [hform]; simp [length_unit16, hh]; omega
  have hf1 : Fits hdr (b4 :: b5 :: (unit16 sps ++ (BitVec.ofNat 8 pps.length :: body))) := by
    unfold Fits; rw [← List.length_append, ← hform]; omega
  have hf2 : Fits (hdr ++ [b4]) (b5 :: (unit16 sps ++ (BitVec.ofNat 8 pps.length :: body))) := by
    unfold Fits at hf1 ⊢; simp at hf1 ⊢; omega
  have hf3 : Fits (hdr ++ [b4] ++ [b5]) (unit16 sps ++ (BitVec.ofNat 8 pps.length :: body)) := by
    unfold Fits at hf1 ⊢; simp at hf1 ⊢; omega
  have hfw : Fits [] (List.replicate (src.length + 256) (0 : Byte)) := by unfold Fits; simp; omega
  have hrun : m4vcExtraDataToAnnexB src =
      m4vcLoop src (cursor (hdr ++ [b4] ++ [b5]) (unit16 sps ++ (BitVec.ofNat 8 pps.length :: body)))
        (cursor [] (List.replicate (src.length + 256) 0)) 1 0 >>= fun w => w.writtenBytes := by
    unfold m4vcExtraDataToAnnexB
    rw [hseek]
    simp only
    rw [(cursor_readUint8 hf1).1 _ _ rfl]
    simp only [ok_bind]
    rw [(cursor_readUint8 hf2).1 _ _ rfl]
    simp only [ok_bind, h5, setData_eq_cursor]
  have hstep := m4vcLoop_unit (nb := 1) (done := 0) (src := src) (a := hdr ++ [b4] ++ [b5]) (u := sps)
    (rest := BitVec.ofNat 8 pps.length :: body) (out := []) (z := List.replicate (src.length + 256) 0) (by decide)
    (by rw [hform]; simp) hf3 hs hfw
  have hfit : ([0, 0, 0, 1] ++ sps : Bytes).length ≤ (List.replicate (src.length + 256) (0 : Byte)).length := by
    rw [List.length_replicate, hL]; simp; omega
  have hfw' : Fits ([] ++ ([0, 0, 0, 1] ++ sps)) ((List.replicate (src.length + 256) (0 : Byte)).drop (4 + sps.length)) := by
    unfold Fits at hfw ⊢; simp at hfw ⊢; omega
  have hf4 : Fits (hdr ++ [b4] ++ [b5] ++ unit16 sps ++ [BitVec.ofNat 8 pps.length]) body := by
    unfold Fits; simp [length_unit16]; omega
  have hlist := m4vcLoop_list (src := src) pps hn hp trailing 1 (by omega)
    (hdr ++ [b4] ++ [b5] ++ unit16 sps ++ [BitVec.ofNat 8 pps.length]) _ _ (by rw [hform]; simp [body]) hf4 hfw'
  have hwl : (withCodes (sps :: pps)).length = 4 + sps.length + (withCodes pps).length := by
    rw [withCodes_cons]; simp; omega
  have hd1 : ([0, 0, 0, 1] ++ sps : Bytes).length = 4 + sps.length := by simp; omega
  have hzl : ((List.replicate (src.length + 256) (0 : Byte)).drop (4 + sps.length)).length = src.length + 256 - (4 + sps.length) := by
    simp
  rw [hzl] at hlist
  by_cases hc : 2 < (BitVec.ofNat 8 pps.length :: body).length
  · have h1 := (hstep.1 hfit).2 ⟨hc, by decide, rfl⟩ _ _ rfl
    rw [h1] at hrun
    constructor
    · intro h
      rw [hrun, hlist.1 (by omega), ok_bind, cursor_writtenBytes, List.nil_append, withCodes_cons]
    · intro h
      obtain ⟨e, he⟩ := hlist.2 (by omega)
      exact ⟨e, by rw [hrun, he]; rfl⟩
  · have hpn : pps = [] := by
      cases pps with
      | nil => rfl
      | cons u us => simp [body, length_unit16] at hc; omega
    have h1 := (hstep.1 hfit).1 (fun h => hc h.1)
    rw [h1, show (1 - 1 : Byte) = 0 from rfl, m4vcLoop_zero, ok_bind, cursor_writtenBytes, List.nil_append] at hrun
    subst hpn
    constructor
    · intro _; rw [hrun, withCodes_cons]; simp [withCodes]
    · intro h; simp [withCodes] at hwl h; omega

end Avf
