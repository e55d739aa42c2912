import Verif.Lemmas.Record
/-! # The AVC record: lemmas -/
namespace Avf
open Go

/-- The record that `Unmarshal` leaves. -/
def AVCRecord.filled (a : AVCRecord) (header : Bytes) (sps pps : List Bytes) : AVCRecord :=
  { a with
    configurationVersion := header.getD 0 0
    avcProfileIndication := header.getD 1 0
    profileCompatibility := header.getD 2 0
    avcLevelIndication := header.getD 3 0
    lengthSizeMinusOne := header.getD 4 0 &&& 0x3
    spsList := a.spsList ++ sps.map startCoded
    ppsList := a.ppsList ++ pps.map startCoded }

theorem foldl_sps (us : List Bytes) (a : AVCRecord) :
    us.foldl (fun (a : AVCRecord) u => { a with spsList := a.spsList ++ [startCoded u] }) a =
      { a with spsList := a.spsList ++ us.map startCoded } := by
  induction us generalizing a with
  | nil => simp
  | cons u us ih => rw [List.foldl_cons, ih]; simp

theorem foldl_pps (us : List Bytes) (a : AVCRecord) :
    us.foldl (fun (a : AVCRecord) u => { a with ppsList := a.ppsList ++ [startCoded u] }) a =
      { a with ppsList := a.ppsList ++ us.map startCoded } := by
  induction us generalizing a with
  | nil => simp
  | cons u us ih => rw [List.foldl_cons, ih]; simp

/-- A record in the data, seen from its header on. -/
theorem IsAvcRecord.split {data header rest : Bytes} {h' : Bytes} {count : Byte} {sps pps : List Bytes} {trailing : Bytes}
    (h : IsAvcRecord data h' count sps pps trailing) (hd : data = header ++ rest) (hl : header.length = 5) :
    h' = header ∧ rest = count :: (sps.flatMap unit16 ++ (BitVec.ofNat 8 pps.length :: (pps.flatMap unit16 ++ trailing))) := by
  have hlay := h.layout
  rw [hd, avcRecord] at hlay
  have : header ++ rest = h' ++ (count :: (sps.flatMap unit16 ++ (BitVec.ofNat 8 pps.length :: (pps.flatMap unit16 ++ trailing)))) := by
    rw [hlay]; simp
  obtain ⟨e1, e2⟩ := List.append_inj this (by rw [hl, h.header5])
  exact ⟨e1.symm, e2⟩

theorem byte_lt_one (b : Byte) : b < 1 ↔ b.toNat = 0 := by
  rw [BitVec.lt_def]; simp

theorem ofNat8_toNat {n : Nat} (h : n < 256) : (BitVec.ofNat 8 n : Byte).toNat = n := by
  rw [BitVec.toNat_ofNat, Nat.mod_eq_of_lt h]

theorem avcUnmarshal_spec (a : AVCRecord) (data : Bytes) (hlen : data.length < 2 ^ 62) :
    (∃ header count sps pps trailing, IsAvcRecord data header count sps pps trailing ∧
      avcUnmarshal a data = ok (.ok (), a.filled header sps pps)) ∨
    ((∀ header count sps pps trailing, ¬ IsAvcRecord data header count sps pps trailing) ∧
      ∃ e a', avcUnmarshal a data = ok (.error e, a')) := by
  have hf0 : Fits [] data := by unfold Fits; simp; omega
  have hseek := cursor_seek hf0 5 (by omega)
  rw [← setData_eq_cursor, show ((5 : Nat) : Int) = 5 from rfl] at hseek
  by_cases h5 : 5 ≤ data.length
  case neg =>
    obtain ⟨e, he⟩ := hseek.2 (by omega)
    refine .inr ⟨fun header count sps pps trailing h => ?_, e, a, ?_⟩
    · have := congrArg List.length h.layout
      simp only [avcRecord, List.length_append, h.header5] at this
      omega
    · unfold avcUnmarshal
      rw [he]
  have hs5 := hseek.1 h5
  rw [List.nil_append] at hs5
  obtain ⟨header, hhd⟩ : ∃ header, header = data.take 5 := ⟨_, rfl⟩
  obtain ⟨rest, hrest⟩ : ∃ rest, rest = data.drop 5 := ⟨_, rfl⟩
  have hd : data = header ++ rest := by rw [hhd, hrest, List.take_append_drop]
  have hhl : header.length = 5 := by rw [hhd, take_len h5]
  rw [← hhd, ← hrest] at hs5
  have hf1 : Fits header rest := by unfold Fits; rw [← List.length_append, ← hd]; omega
  have hr := cursor_readUint8 hf1
  cases rest with
  | nil =>
    obtain ⟨e, he⟩ := hr.2 rfl
    refine .inr ⟨fun header' count sps pps trailing h => ?_, e, a, ?_⟩
    · have := (h.split hd hhl).2
      simp at this
    · unfold avcUnmarshal
      rw [hs5]
      simp only
      rw [he]
      simp only [ok_bind, pure_def]
  | cons count rest =>
    have hr1 := hr.1 _ _ rfl
    have hf2 : Fits (header ++ [count]) rest := by unfold Fits at hf1 ⊢; simp at hf1 ⊢; omega
    by_cases h0 : count &&& 0x1F < 1
    · refine .inr ⟨fun header' count' sps pps trailing h => ?_, "no sps found", a, ?_⟩
      · have hh := (h.split hd hhl).2
        have hc : count = count' := by simpa using congrArg List.head? hh
        have := h.spsCount
        have := h.spsSome
        rw [byte_lt_one, hc] at h0
        omega
      · unfold avcUnmarshal
        rw [hs5]
        simp only
        rw [hr1]
        simp only [ok_bind]
        rw [if_pos h0]
        rfl
    have hrun1 : avcUnmarshal a data =
        readSets (fun a s => { a with spsList := a.spsList ++ [s] }) (count &&& 0x1F).toNat (cursor (header ++ [count]) rest) a >>=
          avcAfterSps data := by
      unfold avcUnmarshal
      rw [hs5]
      simp only
      rw [hr1]
      simp only [ok_bind]
      rw [if_neg h0]
    rcases readSets_spec (fun (a : AVCRecord) s => { a with spsList := a.spsList ++ [s] }) (count &&& 0x1F).toNat _ _ hf2 a with
      ⟨sps, rest2, hl, hshort, hb, hrd⟩ | ⟨hno, e, us, rest2, _, _, _, hrd⟩
    case inr =>
      refine .inr ⟨fun header' count' sps pps trailing h => ?_, e, _, by rw [hrun1, hrd, ok_bind]; rfl⟩
      have hh := (h.split hd hhl).2
      have hc : count = count' := by simpa using congrArg List.head? hh
      have hrest2 : rest = sps.flatMap unit16 ++ (BitVec.ofNat 8 pps.length :: (pps.flatMap unit16 ++ trailing)) := by simpa using congrArg List.tail hh
      exact hno sps _ (by rw [hc, h.spsCount]) (fun u hu => h.short u (by simp [hu])) hrest2
    rw [foldl_sps] at hrd
    rw [hrd, ok_bind, avcAfterSps] at hrun1
    have hf3 : Fits (header ++ [count] ++ sps.flatMap unit16) rest2 := by
      rw [hb] at hf2; unfold Fits at hf2 ⊢; simp only [List.length_append] at hf2 ⊢; omega
    have hr3 := cursor_readUint8 hf3
    have huniq : ∀ header' count' sps' pps trailing, IsAvcRecord data header' count' sps' pps trailing →
        header' = header ∧ count' = count ∧ sps' = sps ∧ rest2 = BitVec.ofNat 8 pps.length :: (pps.flatMap unit16 ++ trailing) := by
      intro header' count' sps' pps trailing h
      obtain ⟨h1, hh⟩ := h.split hd hhl
      have hc : count = count' := by simpa using congrArg List.head? hh
      have hrest2 : rest = sps'.flatMap unit16 ++ (BitVec.ofNat 8 pps.length :: (pps.flatMap unit16 ++ trailing)) := by simpa using congrArg List.tail hh
      rw [hb] at hrest2
      obtain ⟨e1, e2⟩ := units16_unique (by rw [hl, hc, h.spsCount]) hshort (fun u hu => h.short u (by simp [hu])) hrest2
      exact ⟨h1, hc.symm, e1.symm, e2⟩
    cases rest2 with
    | nil =>
      obtain ⟨e, he⟩ := hr3.2 rfl
      refine .inr ⟨fun header' count' sps' pps trailing h => ?_, e, _, by rw [hrun1, he, ok_bind]; rfl⟩
      have := (huniq _ _ _ _ _ h).2.2.2
      simp at this
    | cons np rest3 =>
      rw [hr3.1 _ _ rfl, ok_bind] at hrun1
      simp only at hrun1
      have hf4 : Fits (header ++ [count] ++ sps.flatMap unit16 ++ [np]) rest3 := by
        unfold Fits at hf3 ⊢; simp only [List.length_append, List.length_cons, List.length_nil] at hf3 ⊢; omega
      by_cases hnp : np < 1
      · refine .inr ⟨fun header' count' sps' pps trailing h => ?_, _, _, by rw [hrun1, if_pos hnp]; rfl⟩
        have hh := (huniq _ _ _ _ _ h).2.2.2
        have hc : np = BitVec.ofNat 8 pps.length := by simpa using congrArg List.head? hh
        rw [byte_lt_one, hc, ofNat8_toNat h.pps256] at hnp
        have := h.ppsSome
        omega
      rw [if_neg hnp] at hrun1
      rcases readSets_spec (fun (a : AVCRecord) s => { a with ppsList := a.ppsList ++ [s] }) np.toNat _ _ hf4
          { a with spsList := a.spsList ++ sps.map startCoded } with
        ⟨pps, trailing, hl2, hshort2, hb2, hrd2⟩ | ⟨hno, e, us, rest4, _, _, _, hrd2⟩
      case inr =>
        refine .inr ⟨fun header' count' sps' pps trailing h => ?_, e, _, by rw [hrun1, hrd2, ok_bind]; rfl⟩
        have hh := (huniq _ _ _ _ _ h).2.2.2
        have hc : np = BitVec.ofNat 8 pps.length := by simpa using congrArg List.head? hh
        have ht : rest3 = pps.flatMap unit16 ++ trailing := by simpa using congrArg List.tail hh
        exact hno pps trailing (by rw [hc, ofNat8_toNat h.pps256]) (fun u hu => h.short u (by simp [hu])) ht
      rw [foldl_pps] at hrd2
      rw [hrd2, ok_bind, avcAfterPps] at hrun1
      refine .inl ⟨header, count, sps, pps, trailing, ⟨hhl, hl.symm, ?_, ?_, ?_, ?_, ?_⟩, ?_⟩
      · rw [byte_lt_one] at h0; omega
      · rw [byte_lt_one] at hnp; omega
      · have := np.isLt; omega
      · intro u hu
        rcases List.mem_append.1 hu with h | h
        · exact hshort u h
        · exact hshort2 u h
      · have : np = BitVec.ofNat 8 pps.length := by
          apply BitVec.eq_of_toNat_eq
          have := np.isLt
          rw [ofNat8_toNat (by omega), hl2]
        rw [hd, avcRecord, hb, hb2, this]
        simp
      · have hi : ∀ i, i < 5 → idx data i = ok (header.getD i 0) := by
          intro i hi
          rw [idx_eq_ok, hd, List.getElem?_append_left (by omega)]
          simp [hhl, hi]
        rw [hrun1, hi 0 (by omega), hi 1 (by omega), hi 2 (by omega), hi 3 (by omega), hi 4 (by omega)]
        simp only [ok_bind, pure_def, AVCRecord.filled]

theorem avcMarshal_run {spsList ppsList sps pps : List Bytes} (hs : Stripped spsList sps) (hp : Stripped ppsList pps)
    (hsn : sps ≠ []) (hpn : pps ≠ []) (hu : ∀ u ∈ sps ++ pps, u.length < 2 ^ 62) :
    (6 + (sps.flatMap unit16).length + 1 + (pps.flatMap unit16).length ≤ 1024 →
      avcMarshal spsList ppsList = (do
        let s1 ← idx (sps.getLast hsn) 1
        let s2 ← idx (sps.getLast hsn) 2
        let s3 ← idx (sps.getLast hsn) 3
        ok (avcRecord [1, s1, s2, s3, 0xff] (0xE0 ||| BitVec.ofNat 8 sps.length) sps pps))) ∧
    (1024 < 6 + (sps.flatMap unit16).length + 1 + (pps.flatMap unit16).length → ∃ e, avcMarshal spsList ppsList = err e) := by
  have hls := hs.length
  have hlp := hp.length
  have hs0 : ¬ spsList.length = 0 := by rw [hls]; simpa using hsn
  have hp0 : ¬ ppsList.length = 0 := by rw [hlp]; simpa using hpn
  have hf0 : Fits [] (List.replicate 1024 (0 : Byte)) := by unfold Fits; simp only [List.length_nil, List.length_replicate]; omega
  have hseek := (cursor_seek hf0 5 (by omega)).1 (by rw [List.length_replicate]; omega)
  rw [← setData_eq_cursor, show ((5 : Nat) : Int) = 5 from rfl, List.nil_append] at hseek
  have ht5 : (List.replicate 1024 (0 : Byte)).take 5 = [0, 0, 0, 0, 0] := by rw [List.take_replicate]; rfl
  have hd5 : (List.replicate 1024 (0 : Byte)).drop 5 = List.replicate 1019 0 := by rw [List.drop_replicate]
  rw [ht5, hd5] at hseek
  have hf1 : Fits [0, 0, 0, 0, 0] (List.replicate 1019 (0 : Byte)) := by unfold Fits; simp only [List.length_cons, List.length_nil, List.length_replicate]; omega
  have hw1 := (cursor_writeUint8 hf1 (BitVec.ofNat 8 spsList.length &&& 0x1F)).1 (by rw [List.length_replicate]; omega)
  rw [List.drop_replicate, show 1019 - 1 = 1018 from rfl] at hw1
  obtain ⟨cnt, hcnt⟩ : ∃ c, c = (BitVec.ofNat 8 spsList.length &&& 0x1F : Byte) := ⟨_, rfl⟩
  rw [← hcnt] at hw1
  have hf2 : Fits ([0, 0, 0, 0, 0] ++ [cnt]) (List.replicate 1018 (0 : Byte)) := by unfold Fits; simp only [List.length_append, List.length_cons, List.length_nil, List.length_replicate]; omega
  have hws := writeSets_spec hs [] _ _ hf2 (by rw [List.length_replicate]; omega) (fun u h => hu u (by simp [h]))
  rw [List.length_replicate] at hws
  by_cases hfit1 : (sps.flatMap unit16).length ≤ 1018
  case neg =>
    obtain ⟨e, he⟩ := hws.2 (by omega)
    refine ⟨fun h => by omega, fun _ => ⟨e, ?_⟩⟩
    unfold avcMarshal
    rw [if_neg hs0, if_neg hp0, hseek]
    simp only
    rw [← hcnt, hw1]
    simp only [ok_bind]
    rw [he]
    rfl
  have hws1 := hws.1 hfit1
  rw [List.drop_replicate] at hws1
  have hf3 : Fits ([0, 0, 0, 0, 0] ++ [cnt] ++ sps.flatMap unit16) (List.replicate (1018 - (sps.flatMap unit16).length) (0 : Byte)) := by
    unfold Fits; simp only [List.length_append, List.length_cons, List.length_nil, List.length_replicate]; omega
  have hw2 := cursor_writeUint8 hf3 (BitVec.ofNat 8 ppsList.length)
  rw [List.length_replicate] at hw2
  by_cases hfit2 : (sps.flatMap unit16).length = 1018
  · obtain ⟨e, he⟩ := hw2.2 (by rw [hfit2]; rfl)
    refine ⟨fun h => by omega, fun _ => ⟨e, ?_⟩⟩
    unfold avcMarshal
    rw [if_neg hs0, if_neg hp0, hseek]
    simp only
    rw [← hcnt, hw1]
    simp only [ok_bind]
    rw [hws1]
    simp only [ok_bind]
    rw [he]
    rfl
  have hw2' := hw2.1 (by omega)
  rw [List.drop_replicate] at hw2'
  have hf4 : Fits ([0, 0, 0, 0, 0] ++ [cnt] ++ sps.flatMap unit16 ++ [BitVec.ofNat 8 ppsList.length])
      (List.replicate (1018 - (sps.flatMap unit16).length - 1) (0 : Byte)) := by
    unfold Fits; simp only [List.length_append, List.length_cons, List.length_nil, List.length_replicate]; omega
  have hwp := writeSets_spec hp [] _ _ hf4 (by rw [List.length_replicate]; omega) (fun u h => hu u (by simp [h]))
  rw [List.length_replicate] at hwp
  by_cases hfit3 : (pps.flatMap unit16).length ≤ 1018 - (sps.flatMap unit16).length - 1
  case neg =>
    obtain ⟨e, he⟩ := hwp.2 (by omega)
    refine ⟨fun h => by omega, fun _ => ⟨e, ?_⟩⟩
    unfold avcMarshal
    rw [if_neg hs0, if_neg hp0, hseek]
    simp only
    rw [← hcnt, hw1]
    simp only [ok_bind]
    rw [hws1]
    simp only [ok_bind]
    rw [hw2']
    simp only [ok_bind]
    rw [he]
    rfl
  refine ⟨fun _ => ?_, fun h => by omega⟩
  have hlast : sps.getLast?.getD [] = sps.getLast hsn := by rw [List.getLast?_eq_some_getLast hsn]; rfl
  obtain ⟨z, hz⟩ : ∃ z, z = (List.replicate (1018 - (sps.flatMap unit16).length - 1) (0 : Byte)).drop (pps.flatMap unit16).length := ⟨_, rfl⟩
  have hwp1 := hwp.1 hfit3
  rw [← hz] at hwp1
  unfold avcMarshal
  rw [if_neg hs0, if_neg hp0, hseek]
  simp only
  rw [← hcnt, hw1]
  simp only [ok_bind]
  rw [hws1]
  simp only [ok_bind]
  rw [hw2']
  simp only [ok_bind]
  rw [hwp1]
  simp only [ok_bind, hlast]
  refine bind_congr fun s1 => ?_
  refine bind_congr fun s2 => ?_
  refine bind_congr fun s3 => ?_
  have hdata : (cursor ([0, 0, 0, 0, 0] ++ [cnt] ++ sps.flatMap unit16 ++ [BitVec.ofNat 8 ppsList.length] ++ pps.flatMap unit16) z).data =
      0 :: 0 :: 0 :: 0 :: 0 :: cnt :: (sps.flatMap unit16 ++ [BitVec.ofNat 8 ppsList.length] ++ pps.flatMap unit16 ++ z) := by
    simp [cursor]
  have hoff : (cursor ([0, 0, 0, 0, 0] ++ [cnt] ++ sps.flatMap unit16 ++ [BitVec.ofNat 8 ppsList.length] ++ pps.flatMap unit16) z).offset =
      ((avcRecord [1, s1, s2, s3, 0xff] (0xE0 ||| BitVec.ofNat 8 sps.length) sps pps).length : Int) := by
    simp [cursor, avcRecord]
  rw [hdata, hoff]
  have hassoc : ∀ k : Bytes → Go Bytes, (setIdx (0 :: 0 :: 0 :: 0 :: 0 :: cnt :: (sps.flatMap unit16 ++ [BitVec.ofNat 8 ppsList.length] ++ pps.flatMap unit16 ++ z)) 0 1 >>= fun d =>
      setIdx d 1 s1 >>= fun d => setIdx d 2 s2 >>= fun d => setIdx d 3 s3 >>= fun d => setIdx d 4 0xff >>= fun d =>
      setIdx d 5 (0xE0 ||| BitVec.ofNat 8 spsList.length) >>= k) =
      k (1 :: s1 :: s2 :: s3 :: 0xff :: (0xE0 ||| BitVec.ofNat 8 spsList.length) :: (sps.flatMap unit16 ++ [BitVec.ofNat 8 ppsList.length] ++ pps.flatMap unit16 ++ z)) := by
    intro k
    simp [setIdx]
  rw [hassoc]
  have hfin : (1 :: s1 :: s2 :: s3 :: 0xff :: (0xE0 ||| BitVec.ofNat 8 spsList.length) :: (sps.flatMap unit16 ++ [BitVec.ofNat 8 ppsList.length] ++ pps.flatMap unit16 ++ z) : Bytes) =
      avcRecord [1, s1, s2, s3, 0xff] (0xE0 ||| BitVec.ofNat 8 sps.length) sps pps ++ z := by
    rw [hls, hlp]; simp [avcRecord]
  rw [hfin]
  unfold sliceI
  rw [if_pos (by simp; omega), Int.toNat_natCast, List.take_left, Int.toNat_zero, List.drop_zero]

end Avf
