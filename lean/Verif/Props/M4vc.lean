import Verif.Lemmas.M4vcExact
/-! # C38, exactly: `M4VCExtraDataToAnnexB` on every byte string -/
namespace Avf
open Go

/-- **C38** (exact): on every byte string the function does what `m4vcSpec` says – result, error or panic. -/
theorem C38_exact (src : Bytes) (hlen : src.length < 2 ^ 62) : SameUpToText (m4vcExtraDataToAnnexB src) (m4vcSpec src) := by
  have hf : Fits [] src := by unfold Fits; simp; omega
  have hseek := cursor_seek hf 4 (by omega)
  unfold m4vcSpec
  dsimp only
  by_cases h5 : src.length < 5
  · rw [if_pos h5]
    by_cases h4 : src.length < 4
    · obtain ⟨e, he⟩ := hseek.2 h4
      have : m4vcExtraDataToAnnexB src = err e := by
        unfold m4vcExtraDataToAnnexB; rw [setData_eq_cursor, show (4 : Int) = ((4 : Nat) : Int) from rfl, he]
      rw [this]; trivial
    · have hd : src.drop 4 = [] := List.drop_of_length_le (by omega)
      obtain ⟨e, he⟩ := (cursor_readUint8 (hf.move 4)).2 hd
      have : m4vcExtraDataToAnnexB src = err e := by
        unfold m4vcExtraDataToAnnexB
        rw [setData_eq_cursor, show (4 : Int) = ((4 : Nat) : Int) from rfl, hseek.1 (by omega)]
        simp only
        rw [he]; rfl
      rw [this]; trivial
  · rw [if_neg h5]
    obtain ⟨b4, r4, hr4⟩ : ∃ b r, src.drop 4 = b :: r := by
      cases h : src.drop 4 with
      | nil => have := congrArg List.length h; simp at this; omega
      | cons b r => exact ⟨b, r, rfl⟩
    have hr5 : src.drop 5 = r4 := by
      rw [show 5 = 4 + 1 from rfl, ← List.drop_drop, hr4]; rfl
    rw [hr5]
    have hfm := hf.move 4
    rw [hr4] at hfm
    have hsplit : src = src.take 4 ++ b4 :: r4 := by rw [← hr4, List.take_append_drop]
    have hf5 : Fits ([] ++ src.take 4 ++ [b4]) r4 := by
      unfold Fits at hfm ⊢; simp only [List.length_append, List.length_cons, List.length_nil] at hfm ⊢; omega
    have hfw : Fits [] (List.replicate (src.length + 256) (0 : Byte)) := by unfold Fits; simp; omega
    have hz : ([] : Bytes).length + (List.replicate (src.length + 256) (0 : Byte)).length = src.length + 256 := by simp
    have hrunO : ∀ n r, (cursor ([] ++ src.take 4 ++ [b4]) r4).readUint8 = ok (.ok n, r) → m4vcExtraDataToAnnexB src =
        m4vcLoop src r (cursor [] (List.replicate (src.length + 256) 0)) (n &&& 0x1f) 0 >>= fun w => w.writtenBytes := by
      intro n r h
      unfold m4vcExtraDataToAnnexB
      rw [setData_eq_cursor, show (4 : Int) = ((4 : Nat) : Int) from rfl, hseek.1 (by omega)]
      simp only
      rw [hr4, (cursor_readUint8 hfm).1 b4 r4 rfl]
      simp only [ok_bind, h, setData_eq_cursor]
    have hrunE : ∀ e r, (cursor ([] ++ src.take 4 ++ [b4]) r4).readUint8 = ok (.error e, r) → m4vcExtraDataToAnnexB src =
        m4vcLoop src r (cursor [] (List.replicate (src.length + 256) 0)) (0 &&& 0x1f) 0 >>= fun w => w.writtenBytes := by
      intro n r h
      unfold m4vcExtraDataToAnnexB
      rw [setData_eq_cursor, show (4 : Int) = ((4 : Nat) : Int) from rfl, hseek.1 (by omega)]
      simp only
      rw [hr4, (cursor_readUint8 hfm).1 b4 r4 rfl]
      simp only [ok_bind, h, setData_eq_cursor]
    cases r4 with
    | nil =>
      obtain ⟨e, he⟩ := (cursor_readUint8 hf5).2 rfl
      have hrun := hrunE _ _ he
      rw [show ((0 : Byte) &&& 0x1f) = 0 from rfl, m4vcLoop_zero, ok_bind, cursor_writtenBytes] at hrun
      rw [hrun]; rfl
    | cons b rest =>
      have hrun := hrunO _ _ ((cursor_readUint8 hf5).1 b rest rfl)
      have hnb : b &&& 0x1f = BitVec.ofNat 8 (b.toNat % 32) := by
        apply BitVec.eq_of_toNat_eq
        rw [BitVec.toNat_and, BitVec.toNat_ofNat, show (0x1f : Byte).toNat = 2 ^ 5 - 1 from rfl, Nat.and_two_pow_sub_one_eq_mod]
        have := b.isLt
        omega
      have hk : b.toNat % 32 < 32 := Nat.mod_lt _ (by omega)
      have hsrc : src = ([] ++ src.take 4 ++ [b4] ++ [b]) ++ rest := hsplit.trans (by simp)
      have hf6 : Fits ([] ++ src.take 4 ++ [b4] ++ [b]) rest := by
        unfold Fits at hf5 ⊢; simp only [List.length_append, List.length_cons, List.length_nil] at hf5 ⊢; omega
      have fin : ∀ y : Go (Bytes × Bytes),
          LoopIs (m4vcLoop src (cursor ([] ++ src.take 4 ++ [b4] ++ [b]) rest)
            (cursor [] (List.replicate (src.length + 256) 0)) (b &&& 0x1f) 0) y →
          SameUpToText (m4vcExtraDataToAnnexB src) (match y with | ok (out, _) => ok out | err e => err e | .panic => .panic) := by
        intro y hy
        rw [hrun]
        match y, hy with
        | ok (o, _), ⟨z', h⟩ => rw [h, ok_bind, cursor_writtenBytes]; rfl
        | err _, ⟨e, h⟩ => rw [h]; trivial
        | .panic, h => rw [show m4vcLoop src _ _ _ _ = .panic from h]; trivial
      dsimp only
      by_cases h1 : b.toNat % 32 = 1
      · have := m4vcLoop_single hsrc hf6 hfw
        rw [hz, show (1 : Byte) = b &&& 0x1f by rw [hnb, h1]; rfl] at this
        rw [h1]
        simp only [if_true]
        split
        · rename_i out m p q t he
          rw [he] at this
          exact fin _ this
        · rename_i out r hne he
          rw [he] at this
          match r, hne, this with
          | [], _, this => exact fin _ this
          | [_], _, this => exact fin _ this
          | [_, _], _, this => exact fin _ this
          | m :: p :: q :: t, hne, _ => exact absurd rfl (hne m p q t)
        · rename_i e he; rw [he] at this; exact fin _ this
        · rename_i he; rw [he] at this; exact fin _ this
      · have := m4vcLoop_units (src := src) (b.toNat % 32) (by omega) 0 (Or.inr h1) _ rest [] (List.replicate (src.length + 256) 0)
          hsrc hf6 hfw
        rw [hz, ← hnb] at this
        have := fin _ this
        revert this
        cases m4vcUnits (src.length + 256) (b.toNat % 32) [] rest with
        | ok p =>
          obtain ⟨o, r⟩ := p
          intro this
          match r, this with
          | [], this => exact this
          | [_], this => exact this
          | [_, _], this => exact this
          | _ :: _ :: _ :: _, this => dsimp only; rw [if_neg h1]; exact this
        | err e => exact id
        | panic => exact id

/-- When `m4vcSpec` panics. -/
theorem m4vcSpec_panic (hdr : Bytes) (b : Byte) (rest : Bytes) (hh : hdr.length = 5) : m4vcSpec (hdr ++ b :: rest) = .panic ↔
    CutOff ((hdr ++ b :: rest).length + 256) (b.toNat % 32) rest ∨
    b.toNat % 32 = 1 ∧ ∃ (u : Bytes) (m : Byte) (r : Bytes), u.length < 2 ^ 16 ∧ rest = unit16 u ++ m :: r ∧ 2 ≤ r.length ∧
      CutOff ((hdr ++ b :: rest).length + 256 - (4 + u.length)) m.toNat r := by
  have hd : (hdr ++ b :: rest).drop 5 = b :: rest := by rw [← hh, List.drop_left]
  have hl : ¬ (hdr ++ b :: rest).length < 5 := by simp; omega
  have hroom : 5 + rest.length + 256 < (hdr ++ b :: rest).length + 256 := by simp; omega
  unfold m4vcSpec
  dsimp only
  rw [if_neg hl, hd]
  dsimp only
  generalize (hdr ++ b :: rest).length + 256 = room at hroom
  have hp := m4vcUnits_panic room (b.toNat % 32) [] rest
  rw [List.length_nil, Nat.sub_zero] at hp
  rw [← hp]
  cases he : m4vcUnits room (b.toNat % 32) [] rest with
  | err e =>
    refine ⟨fun h => by simp at h, ?_⟩
    rintro (h | ⟨h1, u, m, r, hu, hr, _⟩)
    · simp at h
    · have hlen := congrArg List.length hr
      rw [List.length_append, length_unit16] at hlen
      rw [h1, (m4vcUnits_one room rest _ (m :: r)).2 ⟨u, hu, hr, rfl, by omega⟩] at he
      simp at he
  | panic => exact ⟨fun _ => Or.inl rfl, fun _ => rfl⟩
  | ok o =>
    obtain ⟨out, r0⟩ := o
    have second : b.toNat % 32 = 1 → ∀ (m : Byte) (r : Bytes), r0 = m :: r → (m4vcUnits room m.toNat out r = .panic ↔
        ∃ (u : Bytes) (m : Byte) (r : Bytes), u.length < 2 ^ 16 ∧ rest = unit16 u ++ m :: r ∧
          CutOff (room - (4 + u.length)) m.toNat r) := by
      intro h1 m r hr
      rw [h1] at he
      obtain ⟨u, hu, hrest, ho, hroom'⟩ := (m4vcUnits_one room rest out r0).1 he
      rw [m4vcUnits_panic, ho, List.length_append, show ([0, 0, 0, 1] : Bytes).length = 4 from rfl]
      constructor
      · intro h; exact ⟨u, m, r, hu, by rw [hrest, hr], h⟩
      · rintro ⟨u', m', r', hu', hrest', hc⟩
        have hlen := congrArg List.length hrest'
        rw [List.length_append, length_unit16] at hlen
        have h2 := (m4vcUnits_one room rest ([0, 0, 0, 1] ++ u') (m' :: r')).2 ⟨u', hu', hrest', rfl, by omega⟩
        rw [h2] at he
        simp only [ok.injEq, Prod.mk.injEq] at he
        rw [ho, hr] at he
        obtain ⟨e1, e2⟩ := he
        have e1 := List.append_cancel_left e1
        injection e2 with e2 e3
        subst e1 e2 e3
        exact hc
    have noway : ∀ (m : Byte) (r : Bytes) (u : Bytes), b.toNat % 32 = 1 → u.length < 2 ^ 16 → rest = unit16 u ++ m :: r → r0 = m :: r := by
      intro m r u h1 hu hr
      have hlen := congrArg List.length hr
      rw [List.length_append, length_unit16] at hlen
      rw [h1, (m4vcUnits_one room rest ([0, 0, 0, 1] ++ u) (m :: r)).2 ⟨u, hu, hr, rfl, by omega⟩] at he
      simp only [ok.injEq, Prod.mk.injEq] at he
      exact he.2.symm
    match r0, he, second, noway with
    | [], _, _, nw =>
      refine ⟨fun h => by simp at h, ?_⟩
      rintro (h | ⟨h1, u, m, r, hu, hr, _⟩)
      · simp at h
      · have := nw m r u h1 hu hr; simp at this
    | [_], _, _, nw =>
      refine ⟨fun h => by simp at h, ?_⟩
      rintro (h | ⟨h1, u, m, r, hu, hr, h2, _⟩)
      · simp at h
      · have := congrArg List.length (nw m r u h1 hu hr); simp only [List.length_cons, List.length_nil] at this; omega
    | [_, _], _, _, nw =>
      refine ⟨fun h => by simp at h, ?_⟩
      rintro (h | ⟨h1, u, m, r, hu, hr, h2, _⟩)
      · simp at h
      · have := congrArg List.length (nw m r u h1 hu hr); simp only [List.length_cons, List.length_nil] at this; omega
    | m :: p :: q :: t, _, sec, nw =>
      dsimp only
      by_cases h1 : b.toNat % 32 = 1
      · rw [if_pos h1]
        have hs := sec h1 m (p :: q :: t) rfl
        have hg : (∃ (u : Bytes) (m : Byte) (r : Bytes), u.length < 2 ^ 16 ∧ rest = unit16 u ++ m :: r ∧ 2 ≤ r.length ∧
            CutOff (room - (4 + u.length)) m.toNat r) ↔ m4vcUnits room m.toNat out (p :: q :: t) = .panic := by
          rw [hs]
          constructor
          · rintro ⟨u, m, r, hu, hr, _, h⟩; exact ⟨u, m, r, hu, hr, h⟩
          · rintro ⟨u, m, r, hu, hr, h⟩
            refine ⟨u, m, r, hu, hr, ?_, h⟩
            have := nw m r u h1 hu hr
            injection this with _ e
            rw [← e]; simp
        rw [hg]
        cases m4vcUnits room m.toNat out (p :: q :: t) with
        | ok o => simp
        | err e => simp
        | panic => simp [h1]
      · rw [if_neg h1]
        simp [h1]

/-- **C38**: exactly these byte strings make the function panic: among the announced units, one is longer than what is left
of the record (and there was still room for its start code). -/
theorem C38_panics_iff (src : Bytes) (hlen : src.length < 2 ^ 62) : m4vcExtraDataToAnnexB src = .panic ↔
    ∃ (hdr : Bytes) (b : Byte) (rest : Bytes), src = hdr ++ b :: rest ∧ hdr.length = 5 ∧
      (CutOff (src.length + 256) (b.toNat % 32) rest ∨
       b.toNat % 32 = 1 ∧ ∃ (u : Bytes) (m : Byte) (r : Bytes), u.length < 2 ^ 16 ∧ rest = unit16 u ++ m :: r ∧ 2 ≤ r.length ∧
        CutOff (src.length + 256 - (4 + u.length)) m.toNat r) := by
  have hsame : m4vcExtraDataToAnnexB src = .panic ↔ m4vcSpec src = .panic := by
    have := C38_exact src hlen
    revert this
    cases m4vcExtraDataToAnnexB src <;> cases m4vcSpec src <;> simp [SameUpToText]
  rw [hsame]
  constructor
  · intro h
    have h6 : 5 < src.length := by
      refine Decidable.by_contra fun hc => ?_
      unfold m4vcSpec at h
      dsimp only at h
      by_cases h5 : src.length < 5
      · rw [if_pos h5] at h; simp at h
      · rw [if_neg h5, List.drop_of_length_le (by omega)] at h; simp at h
    have hs : src = src.take 5 ++ src[5] :: src.drop 6 := by
      rw [← List.drop_eq_getElem_cons (by omega), List.take_append_drop]
    refine ⟨src.take 5, src[5], src.drop 6, hs, by simp; omega, ?_⟩
    have := m4vcSpec_panic (src.take 5) src[5] (src.drop 6) (by simp; omega)
    rw [← hs] at this
    exact this.1 h
  · rintro ⟨hdr, b, rest, rfl, hh, h⟩
    exact (m4vcSpec_panic hdr b rest hh).2 h

/-- **C38**: a record with several SPS gives the SPS and nothing else – whatever follows them. -/
theorem C38_many_sps (hdr : Bytes) (b : Byte) (sps : List Bytes) (rest : Bytes) (hh : hdr.length = 5) (hb : b.toNat % 32 = sps.length)
    (h2 : sps.length ≠ 1) (hs : ∀ u ∈ sps, u.length < 2 ^ 16)
    (hlen : (hdr ++ b :: (sps.flatMap unit16 ++ rest)).length < 2 ^ 62) :
    m4vcExtraDataToAnnexB (hdr ++ b :: (sps.flatMap unit16 ++ rest)) = ok (withCodes sps) := by
  have hk : b.toNat % 32 < 32 := Nat.mod_lt _ (by omega)
  have key : m4vcSpec (hdr ++ b :: (sps.flatMap unit16 ++ rest)) = ok (withCodes sps) := by
    have hd : (hdr ++ b :: (sps.flatMap unit16 ++ rest)).drop 5 = b :: (sps.flatMap unit16 ++ rest) := by rw [← hh, List.drop_left]
    have hl : (hdr ++ b :: (sps.flatMap unit16 ++ rest)).length = 6 + (sps.flatMap unit16).length + rest.length := by
      simp only [List.length_append, List.length_cons]; omega
    unfold m4vcSpec
    dsimp only
    rw [if_neg (by omega), hd, hl]
    dsimp only
    rw [hb, show sps.length = sps.length + 0 from rfl, m4vcUnits_list _ sps hs rest 0 []
      (by rw [withCodes_length, List.length_nil]; omega)]
    rw [Nat.add_zero, m4vcUnits, List.nil_append]
    match rest with
    | [] => rfl
    | [_] => rfl
    | [_, _] => rfl
    | _ :: _ :: _ :: _ => dsimp only; rw [if_neg (show ¬ sps.length + 0 = 1 from h2)]
  have := C38_exact _ hlen
  rw [key] at this
  revert this
  cases m4vcExtraDataToAnnexB (hdr ++ b :: (sps.flatMap unit16 ++ rest)) <;> simp [SameUpToText]

example : m4vcSpec [1, 2, 3, 4, 0xff, 0xe1, 0, 2, 0x67, 7, 1, 0, 1, 0x68] = ok [0, 0, 0, 1, 0x67, 7, 0, 0, 0, 1, 0x68] := by decide
example : m4vcSpec [1, 2, 3, 4, 0xff, 0xe1, 0, 2, 0x67, 7, 1, 0] = ok [0, 0, 0, 1, 0x67, 7] := by decide
example : m4vcSpec [1, 2, 3, 4, 0xff, 0xe1, 0, 2, 0x67, 7, 2, 0, 1, 0x68, 0] = err "" := by decide
example : m4vcSpec [1, 2, 3, 4, 0xff, 0xe1, 0, 2, 0x67, 7, 1, 0, 2, 0x68] = .panic := by decide
example : m4vcSpec [1, 2, 3, 4, 0xff] = ok [] := by decide
example : m4vcExtraDataToAnnexB [1, 2, 3, 4, 0xff, 0xe1, 0, 2, 0x67, 7, 1, 0, 2, 0x68] = .panic :=
  (C38_panics_iff _ (by decide)).2 ⟨[1, 2, 3, 4, 0xff], 0xe1, [0, 2, 0x67, 7, 1, 0, 2, 0x68], rfl, rfl,
    Or.inr ⟨rfl, [0x67, 7], 1, [0, 2, 0x68], by decide, by decide, by decide,
      [], 0, 2, [0x68], by decide, by simp, by decide, by decide, by decide⟩⟩
example : m4vcExtraDataToAnnexB ([1, 2, 3, 4, 0xff] ++ 0xe2 :: ([[0x67], [0x67, 1]].flatMap unit16 ++ [1, 0, 1, 0x68])) =
    ok [0, 0, 0, 1, 0x67, 0, 0, 0, 1, 0x67, 1] :=
  C38_many_sps _ _ _ _ rfl (by decide) (by decide) (by decide) (by decide)

end Avf
