import Verif.Model.Capacity
import Verif.Props.BitsBytes
import Verif.Props.M4vc
import Verif.Props.AnnexUnits
/-!
# C91: what lies behind the end of a slice

`Spec`: a function of a slice should only depend on the bytes of the slice, not on those between its length and its capacity.
-/
namespace Avf
open Go

/-- **C91** in full: bytes behind the end of a slice do not matter. -/
def C91_claim : Prop :=
  (∀ (b : BitsReader) (n : Int) (spare : Bytes), b.readBytesCap spare n = b.readBytes n) ∧
  (∀ src spare : Bytes, src.length < 2 ^ 62 → m4vcExtraDataToAnnexBCap src spare = m4vcExtraDataToAnnexB src) ∧
  (∀ (s : AVStream) (p : AVPacket) (spare : Bytes), avccPacket2AnnexBCap spare s p = avccPacket2AnnexB s p) ∧
  (∀ (p : AVPacket) (spare : Bytes), annexBPacket2AVCCCap spare p = annexBPacket2AVCC p)

theorem slice_spare {α : Type} {s t x : List α} {a b : Nat} (h : slice s a b = ok x) : slice (s ++ t) a b = ok x := by
  unfold slice at h ⊢
  split at h
  · rename_i hh
    rw [if_pos ⟨hh.1, by rw [List.length_append]; omega⟩, List.take_append_of_le_length hh.2]; exact h
  · cases h

theorem sliceI_spare {α : Type} {s t x : List α} {a b : Int} (h : sliceI s a b = ok x) : sliceI (s ++ t) a b = ok x := by
  unfold sliceI at h ⊢
  split at h
  · rename_i hh
    rw [if_pos ⟨hh.1, hh.2.1, by rw [List.length_append]; omega⟩, List.take_append_of_le_length (by omega)]; exact h
  · cases h

/-- **C91**, `BitsReader.ReadBytes`: the bytes of the array from the current byte on, up to the capacity. -/
theorem C91_read_exact (data spare : Bytes) (o n : Nat) :
    (BitsReader.mk data o).readBytesCap spare n =
      if o / 8 + n ≤ data.length + spare.length then
        ok (((data ++ spare).drop (o / 8)).take n, ⟨data, ((o + 8 * n : Nat) : Int)⟩) else Go.panic := by
  have := C86_read_exact (data ++ spare) o n
  unfold BitsReader.readBytes at this
  unfold BitsReader.readBytesCap
  rw [List.length_append] at this
  dsimp only at this ⊢
  split
  · rename_i h
    rw [if_pos h] at this
    obtain ⟨s, h1, h2⟩ := bind_eq_ok.1 this
    rw [h1, ok_bind]
    simp only [pure_def, Go.ok.injEq, Prod.mk.injEq, BitsReader.mk.injEq, true_and] at h2 ⊢
    exact h2
  · rename_i h
    rw [if_neg h] at this
    cases e : sliceI (data ++ spare) (Int.tdiv o 8) (Int.tdiv (o + 8 * n) 8) with
    | ok x => rw [e, ok_bind] at this; cases this
    | err x => rw [e] at this; cases this
    | panic => rfl

/-- **C91**: `ReadBytes` that stays within the slice does not see the rest. -/
theorem C91_read_partial (b : BitsReader) (spare : Bytes) (n : Int) (h : b.readBytes n ≠ Go.panic) :
    b.readBytesCap spare n = b.readBytes n := by
  unfold BitsReader.readBytes at h ⊢
  unfold BitsReader.readBytesCap
  dsimp only at h ⊢
  cases e : sliceI b.data (b.offset.tdiv 8) ((b.offset + 8 * n).tdiv 8) with
  | ok x => rw [sliceI_spare e]
  | err x => unfold sliceI at e; split at e <;> cases e
  | panic => rw [e] at h; exact absurd rfl h

/-! ## `M4VCExtraDataToAnnexB` -/

/-- `y` is `x`, unless `x` panics; then `y` panics – with little spare capacity – or fails. -/
def SameUnlessCut {α : Type} (spare : Bytes) (x y : Go α) : Prop :=
  (x ≠ Go.panic → y = x) ∧ (x = Go.panic → (y = Go.panic ∧ spare.length < 65535) ∨ ∃ e, y = err e)

/-- The same for the loop, which ends with a cursor. -/
def LoopCut (spare : Bytes) (x y : Go BytesBuf) : Prop := SameUnlessCut spare x y ∧ ∀ w, x = ok w → ∃ a b, w = cursor a b

theorem LoopCut.err {spare : Bytes} {x y : Go BytesBuf} (e : String) (h1 : x = err e) (h2 : y = err e) : LoopCut spare x y :=
  ⟨⟨fun _ => by rw [h1, h2], fun h => by rw [h1] at h; cases h⟩, fun w h => by rw [h1] at h; cases h⟩

theorem LoopCut.ok {spare : Bytes} {x y : Go BytesBuf} (a b : Bytes) (h1 : x = ok (cursor a b)) (h2 : y = ok (cursor a b)) : LoopCut spare x y :=
  ⟨⟨fun _ => by rw [h1, h2], fun h => by rw [h1] at h; cases h⟩, fun w h => by rw [h1] at h; cases h; exact ⟨a, b, rfl⟩⟩

theorem m4vcLoopCap_spec {src spare : Bytes} : ∀ (k : Nat) (nb : Byte) (done : Nat), (if done = 0 then 256 else 0) + nb.toNat ≤ k →
    ∀ (a rest out z : Bytes), src = a ++ rest → Fits a rest → Fits out z →
    LoopCut spare (m4vcLoop src (cursor a rest) (cursor out z) nb done) (m4vcLoopCap src spare (cursor a rest) (cursor out z) nb done) := by
  intro k
  induction k with
  | zero =>
    intro nb done hk a rest out z hsrc hf hfw
    have hnb : nb = 0 := BitVec.eq_of_toNat_eq (by simp; omega)
    exact .ok out z (by rw [m4vcLoop, dif_pos hnb]) (by rw [m4vcLoopCap, dif_pos hnb])
  | succ k ih =>
    intro nb done hk a rest out z hsrc hf hfw
    by_cases hnb : nb = 0
    · exact .ok out z (by rw [m4vcLoop, dif_pos hnb]) (by rw [m4vcLoopCap, dif_pos hnb])
    have hnb0 : nb.toNat ≠ 0 := fun h => hnb (BitVec.eq_of_toNat_eq (by simpa using h))
    by_cases h2 : rest.length < 2
    · obtain ⟨e, he⟩ := (cursor_readUint16 hf).2 h2
      exact .err e (by rw [m4vcLoop, dif_neg hnb, he]; rfl) (by rw [m4vcLoopCap, dif_neg hnb, he]; rfl)
    obtain ⟨p, q, t, rfl⟩ : ∃ p q t, rest = p :: q :: t := by
      match rest, h2 with
      | [], h => simp at h
      | [p], h => simp at h
      | p :: q :: t, _ => exact ⟨p, q, t, rfl⟩
    have hr := (cursor_readUint16 hf).1 (by simp)
    rw [show (p :: q :: t).take 2 = [p, q] from rfl, show (p :: q :: t).drop 2 = t from rfl, beNat_two] at hr
    have hlt : 256 * p.toNat + q.toNat < 2 ^ 16 := by have := p.isLt; have := q.isLt; omega
    have hcutp := m4vcLoop_cut (z := z) (out := out) (done := done) hnb hsrc hf hfw
    generalize 256 * p.toNat + q.toNat = size at hr hlt hcutp
    have hw4 := cursor_write hfw startCode4 (by simp [startCode4])
    have hl4 : startCode4.length = 4 := rfl
    have hs : src = (a ++ [p, q]) ++ t := by rw [hsrc]; simp
    have hf2 : Fits (a ++ [p, q]) t := by
      unfold Fits at hf ⊢; simp only [List.length_append, List.length_cons, List.length_nil] at hf ⊢; omega
    have htoN : (BitVec.ofNat 16 size).toNat = size := ofNat16_toNat hlt
    by_cases h4 : z.length < 4
    · obtain ⟨e, he⟩ := hw4.2 (by omega)
      refine .err e ?_ ?_
      · rw [m4vcLoop, dif_neg hnb, hr]; simp only [ok_bind]; rw [he]; simp only [ok_bind]
      · rw [m4vcLoopCap, dif_neg hnb, hr]; simp only [ok_bind]; rw [he]; simp only [ok_bind]
    have hfw4 : Fits (out ++ startCode4) (z.drop startCode4.length) := hfw.write (by omega)
    have hw := hw4.1 (by omega)
    generalize out ++ startCode4 = out4 at hfw4 hw
    generalize z.drop startCode4.length = z4 at hfw4 hw
    by_cases hcut : t.length < size
    · -- the unit is cut off
      have hp := (hcutp hcut).1 (by omega)
      refine ⟨⟨fun h => absurd hp h, fun _ => ?_⟩, fun w h => by rw [hp] at h; cases h⟩
      rw [m4vcLoopCap, dif_neg hnb, hr]
      simp only [ok_bind]
      rw [hw]
      simp only [ok_bind]
      rw [htoN]
      by_cases hin : t.length + spare.length < size
      · left
        refine ⟨?_, by omega⟩
        have : sliceI (src ++ spare) (cursor (a ++ [p, q]) t).offset ((cursor (a ++ [p, q]) t).offset + (size : Int)) = Go.panic := by
          unfold sliceI cursor
          rw [if_neg]
          dsimp only
          rw [hs]; simp only [List.length_append]; omega
        rw [this]; rfl
      · right
        obtain ⟨nal, hnal, hnl⟩ : ∃ nal, sliceI (src ++ spare) (cursor (a ++ [p, q]) t).offset ((cursor (a ++ [p, q]) t).offset + (size : Int)) = ok nal ∧
            nal.length ≤ size := by
          unfold sliceI cursor
          dsimp only
          rw [if_pos (by rw [hs]; simp only [List.length_append]; omega)]
          exact ⟨_, rfl, by rw [List.length_drop, List.length_take]; omega⟩
        rw [hnal]
        simp only [ok_bind]
        obtain ⟨e, he⟩ := (cursor_seek hf2 size (by omega)).2 hcut
        have hwn := cursor_write hfw4 nal (by omega)
        by_cases hfit : nal.length ≤ z4.length
        · rw [hwn.1 hfit, he]
          refine ⟨e, ?_⟩
          simp only [ok_bind]
        · obtain ⟨e', he'⟩ := hwn.2 (by omega)
          rw [he', he]
          refine ⟨e', ?_⟩
          simp only [ok_bind]
    · -- a complete unit
      have hsl : ∀ sp : Bytes, sliceI (src ++ sp) (cursor (a ++ [p, q]) t).offset ((cursor (a ++ [p, q]) t).offset + (size : Int)) = ok (t.take size) := by
        intro sp
        apply sliceI_spare
        rw [hs, cursor_slice _ _ _ (by omega)]
      have hsl0 := hsl []
      rw [List.append_nil] at hsl0
      have hwn := cursor_write hfw4 (t.take size) (by rw [List.length_take]; omega)
      have hsk := (cursor_seek hf2 size (by omega)).1 (by omega)
      by_cases hfit : (t.take size).length ≤ z4.length
      · have hf3 : Fits (a ++ [p, q] ++ t.take size) (t.drop size) := hf2.move size
        have hfw5 := hfw4.write (x := t.take size) hfit
        have hsrc3 : src = (a ++ [p, q] ++ t.take size) ++ t.drop size := by
          rw [List.append_assoc, List.take_append_drop, ← hs]
        rw [m4vcLoop, m4vcLoopCap, dif_neg hnb, dif_neg hnb, hr]
        simp only [ok_bind]
        rw [hw]
        simp only [ok_bind]
        rw [htoN, hsl0, hsl spare]
        simp only [ok_bind]
        rw [hwn.1 hfit, hsk]
        simp only [ok_bind]
        generalize a ++ [p, q] ++ t.take size = a3 at hf3 hsrc3 ⊢
        generalize t.drop size = t3 at hf3 hsrc3 ⊢
        by_cases hc : (cursor a3 t3).readableBytes > 2 ∧ nb - 1 = 0 ∧ done = 0
        · rw [if_pos hc, if_pos hc]
          obtain ⟨n, rest', rfl⟩ : ∃ n r, t3 = n :: r := by
            match t3, hc with
            | [], hc => simp [cursor_readableBytes] at hc
            | n :: r, _ => exact ⟨n, r, rfl⟩
          rw [(cursor_readUint8 hf3).1 n rest' rfl, ok_bind]
          simp only [ok_bind]
          refine ih n (done + 1) ?_ _ _ _ _ (by rw [hsrc3]; simp) ?_ hfw5
          · have := n.isLt
            rw [if_pos hc.2.2] at hk
            rw [if_neg (by omega)]
            omega
          · unfold Fits at hf3 ⊢; simp only [List.length_append, List.length_cons, List.length_nil] at hf3 ⊢; omega
        · rw [if_neg hc, if_neg hc]
          refine ih (nb - 1) (done + 1) ?_ _ _ _ _ hsrc3 hf3 hfw5
          have : (nb - 1).toNat < nb.toNat := by rw [BitVec.toNat_sub]; simp; omega
          rw [if_neg (by omega)]
          split at hk <;> omega
      · obtain ⟨e, he⟩ := hwn.2 (by omega)
        refine .err e ?_ ?_
        · rw [m4vcLoop, dif_neg hnb, hr]; simp only [ok_bind]; rw [hw]; simp only [ok_bind]; rw [htoN, hsl0]; simp only [ok_bind]; rw [he]; simp only [ok_bind]
        · rw [m4vcLoopCap, dif_neg hnb, hr]; simp only [ok_bind]; rw [hw]; simp only [ok_bind]; rw [htoN, hsl spare]; simp only [ok_bind]; rw [he]; simp only [ok_bind]

/-- **C91**, `M4VCExtraDataToAnnexB`: unless the record is cut off inside a parameter set, what lies behind does not matter; otherwise the
call panics or fails, and with a spare capacity of 65535 bytes it fails. In no case do the bytes behind get into the result. -/
theorem C91_m4vc_partial (src spare : Bytes) (hlen : src.length < 2 ^ 62) :
    (m4vcExtraDataToAnnexB src ≠ Go.panic → m4vcExtraDataToAnnexBCap src spare = m4vcExtraDataToAnnexB src) ∧
    (m4vcExtraDataToAnnexB src = Go.panic →
      (m4vcExtraDataToAnnexBCap src spare = Go.panic ∧ spare.length < 65535) ∨ ∃ e, m4vcExtraDataToAnnexBCap src spare = err e) := by
  have hf : Fits [] src := by unfold Fits; simp; omega
  have hseek := cursor_seek hf 4 (by omega)
  rw [List.nil_append] at hseek
  show SameUnlessCut spare _ _
  have hfw : Fits [] (List.replicate (src.length + 256) (0 : Byte)) := by unfold Fits; simp; omega
  unfold m4vcExtraDataToAnnexB m4vcExtraDataToAnnexBCap
  rw [setData_eq_cursor, setData_eq_cursor]
  generalize List.replicate (src.length + 256) (0 : Byte) = z at hfw
  have lift : ∀ x y : Go BytesBuf, LoopCut spare x y →
      SameUnlessCut spare (x >>= fun w => w.writtenBytes) (y >>= fun w => w.writtenBytes) := by
    rintro x y ⟨⟨h1, h2⟩, h3⟩
    cases x with
    | ok w =>
      rw [h1 (by simp)]
      obtain ⟨a, b, rfl⟩ := h3 w rfl
      rw [ok_bind, cursor_writtenBytes]
      exact ⟨fun _ => rfl, fun h => by cases h⟩
    | err e => rw [h1 (by simp)]; exact ⟨fun _ => rfl, fun h => by cases h⟩
    | panic =>
      refine ⟨fun h => absurd rfl h, fun _ => ?_⟩
      rcases h2 rfl with ⟨rfl, h⟩ | ⟨e, rfl⟩
      · exact Or.inl ⟨rfl, h⟩
      · exact Or.inr ⟨e, rfl⟩
  by_cases h4 : src.length < 4
  · obtain ⟨e, he⟩ := hseek.2 h4
    rw [show ((4 : Nat) : Int) = 4 from rfl] at he
    rw [he]
    exact ⟨fun _ => rfl, fun h => by cases h⟩
  have he := hseek.1 (by omega)
  rw [show ((4 : Nat) : Int) = 4 from rfl] at he
  rw [he]
  have hf4 : Fits (src.take 4) (src.drop 4) := hf.move 4
  have hs4 : src = src.take 4 ++ src.drop 4 := (List.take_append_drop 4 src).symm
  generalize src.take 4 = a4 at hf4 hs4 ⊢
  generalize src.drop 4 = r4 at hf4 hs4 ⊢
  simp only []
  cases r4 with
  | nil =>
    obtain ⟨e, he⟩ := (cursor_readUint8 hf4).2 rfl
    rw [he]
    exact ⟨fun _ => rfl, fun h => by cases h⟩
  | cons b4 r5 =>
    rw [(cursor_readUint8 hf4).1 b4 r5 rfl]
    simp only [ok_bind]
    have hf5 : Fits (a4 ++ [b4]) r5 := by
      unfold Fits at hf4 ⊢; simp only [List.length_append, List.length_cons, List.length_nil] at hf4 ⊢; omega
    have hs5 : src = (a4 ++ [b4]) ++ r5 := by rw [hs4]; simp
    generalize a4 ++ [b4] = a5 at hf5 hs5 ⊢
    cases r5 with
    | nil =>
      obtain ⟨e, he⟩ := (cursor_readUint8 hf5).2 rfl
      rw [he]
      simp only [ok_bind]
      exact lift _ _ (m4vcLoopCap_spec _ _ 0 (Nat.le_refl _) a5 [] [] z hs5 hf5 hfw)
    | cons b5 r6 =>
      rw [(cursor_readUint8 hf5).1 b5 r6 rfl]
      simp only [ok_bind]
      refine lift _ _ (m4vcLoopCap_spec _ _ 0 (Nat.le_refl _) (a5 ++ [b5]) r6 [] z (by rw [hs5]; simp) ?_ hfw)
      unfold Fits at hf5 ⊢; simp only [List.length_append, List.length_cons, List.length_nil] at hf5 ⊢; omega

/-! ## Converted packets -/

/-- **C91**, `AnnexBPacket2AVCC`: unless the conversion panics with an exact capacity, it is the same with spare capacity. -/
theorem C91_to_avcc_partial (spare : Bytes) (p : AVPacket) (h : annexBPacket2AVCC p ≠ Go.panic) :
    annexBPacket2AVCCCap spare p = annexBPacket2AVCC p := by
  unfold annexBPacket2AVCC at h ⊢
  unfold annexBPacket2AVCCCap
  split
  · rfl
  · rename_i hv
    rw [if_neg hv] at h
    split
    · rfl
    · rename_i ht
      rw [if_neg ht] at h
      cases hn : p.dataAVCC with
      | some d => rfl
      | none =>
        rw [hn] at h
        dsimp only at h ⊢
        cases e : annexB2AVCC (p.allocBuffer (p.data.length + 256)) p.data with
        | panic => rfl
        | err m => rfl
        | ok x =>
          obtain ⟨n, bytes⟩ := x
          rw [e, ok_bind] at h
          rw [ok_bind, ok_bind]
          dsimp only at h ⊢
          cases e2 : slice bytes 0 n with
          | panic => rw [e2] at h; exact absurd rfl h
          | err m => unfold slice at e2; split at e2 <;> cases e2
          | ok out => rw [slice_spare e2]

/-- **C91**, `AVCCPacket2AnnexB`: the same. -/
theorem C91_to_annexB_partial (spare : Bytes) (s : AVStream) (p : AVPacket) (h : avccPacket2AnnexB s p ≠ Go.panic) :
    avccPacket2AnnexBCap spare s p = avccPacket2AnnexB s p := by
  unfold avccPacket2AnnexB at h ⊢
  unfold avccPacket2AnnexBCap
  split
  · rfl
  · rename_i hv
    rw [if_neg hv] at h
    split
    · rfl
    · rename_i ht
      rw [if_neg ht] at h
      cases hn : p.dataAnnexB with
      | some d => rfl
      | none =>
        rw [hn] at h
        dsimp only at h ⊢
        cases hc : s.codecParameters with
        | none =>
          dsimp only
          generalize (if p.codecID = codecH264 then _ else _ : Go (Nat × Bytes)) = conv
          cases conv with
          | panic => rfl
          | err m => rfl
          | ok x => simp [slice]
        | some c =>
          rw [hc] at h
          dsimp only at h ⊢
          generalize (if p.key = true then c.annexBExtraData.length else 0) = extraSize at h ⊢
          generalize (if p.codecID = codecH264 then _ else _ : Go (Nat × Bytes)) = conv at h ⊢
          cases conv with
          | panic => rfl
          | err m => rfl
          | ok x =>
            obtain ⟨n, bytes⟩ := x
            rw [ok_bind] at h
            rw [ok_bind, ok_bind]
            dsimp only at h ⊢
            cases e2 : slice bytes 0 extraSize with
            | panic => rw [e2] at h; exact absurd rfl h
            | err m => unfold slice at e2; split at e2 <;> cases e2
            | ok head =>
              rw [slice_spare e2, ok_bind, ok_bind]
              rw [e2, ok_bind] at h
              have hle : extraSize ≤ bytes.length := by
                unfold slice at e2; split at e2
                · rename_i hh; exact hh.2
                · cases e2
              rw [List.drop_append_of_le_length hle, ← List.append_assoc]
              cases e3 : slice (overwrite head 0 c.annexBExtraData ++ bytes.drop extraSize) 0 (n + extraSize) with
              | panic => rw [e3] at h; exact absurd rfl h
              | err m => unfold slice at e3; split at e3 <;> cases e3
              | ok out => rw [slice_spare e3]

/-- **C91**, `AnnexBPacket2AVCC` exactly, for any payload, buffer and spare capacity: the converted bytes that do not fit into the buffer
are lost, and the result has stale bytes of the spare capacity in their place. -/
theorem C91_to_avcc_exact (spare : Bytes) (p : AVPacket) (us : List Bytes) (hu : AnnexUnits p.data us)
    (hm : p.mediaType = mediaVideo) (ht : p.packetType = packAnnexB) (hc : p.codecID = codecH264 ∨ p.codecID = codecH265)
    (hn : p.dataAVCC = none) (buf : Bytes) (hb : p.allocBuffer (p.data.length + 256) = buf) :
    annexBPacket2AVCCCap spare p =
      if us ≠ [] ∧ buf.length < (avcc us.dropLast).length + 4 then Go.panic
      else if (avcc us).length ≤ buf.length + spare.length then
        let out := (avcc us).take buf.length ++ spare.take ((avcc us).length - buf.length)
        ok (out, { p with dataAVCC := some out })
      else Go.panic := by
  unfold annexBPacket2AVCCCap
  rw [if_neg (by simp [hm]), if_neg (by simp only [ht]; tauto), hn]
  dsimp only
  rw [hb, annexB2AVCC_units hu]
  split
  · rfl
  · rw [ok_bind]
    dsimp only
    have hl : ((avcc us).take buf.length ++ buf.drop (avcc us).length).length = buf.length := by
      rw [List.length_append, List.length_take, List.length_drop]; omega
    split
    · rename_i hfit
      rw [slice_of_le (Nat.zero_le _) (by rw [List.length_append, hl]; omega)]
      have : (((avcc us).take buf.length ++ buf.drop (avcc us).length ++ spare).take (avcc us).length).drop 0 =
          (avcc us).take buf.length ++ spare.take ((avcc us).length - buf.length) := by
        rw [List.drop_zero]
        by_cases hle : (avcc us).length ≤ buf.length
        · rw [List.take_append_of_le_length (by rw [hl]; exact hle), List.take_of_length_le hle,
            List.take_append_of_le_length (Nat.le_refl _), List.take_of_length_le (Nat.le_refl _),
            Nat.sub_eq_zero_of_le hle, List.take_zero, List.append_nil]
        · rw [List.drop_eq_nil_of_le (by omega), List.append_nil, List.take_append, List.length_take,
            Nat.min_eq_left (by omega), List.take_take, Nat.min_eq_right (by omega)]
      rw [this]
      rfl
    · rename_i hfit
      have : slice ((avcc us).take buf.length ++ buf.drop (avcc us).length ++ spare) 0 (avcc us).length = Go.panic := by
        unfold slice
        rw [if_neg (by rw [List.length_append, hl]; omega)]
      rw [this]
      rfl

/-! ## The claim is false -/

/-- The stale byte of a reused array: one byte is left of the slice, two are read. -/
theorem C91_claim_violated : ¬ C91_claim := by
  intro h
  have := h.1 ⟨[1], 0⟩ 2 [0xee]
  have h1 : (BitsReader.mk [1] 0).readBytesCap [0xee] 2 = ok ([1, 0xee], ⟨[1], 16⟩) := by decide
  have h2 : (BitsReader.mk [1] 0).readBytes 2 = Go.panic := by decide
  rw [h1, h2] at this
  cases this

/-- A configuration record whose only unit is longer than the record: without spare capacity the process dies, with it there is an
error. -/
theorem C91_m4vc_violated : m4vcExtraDataToAnnexB [1, 2, 3, 4, 0xff, 0xe1, 0, 9, 0x67] = Go.panic ∧
    ∃ e, m4vcExtraDataToAnnexBCap [1, 2, 3, 4, 0xff, 0xe1, 0, 9, 0x67] (List.replicate 8 0xee) = err e := by
  exact ⟨by decide +kernel, "slice bounds out of range", by decide +kernel⟩

/-- A packet of 257 units of one byte, each behind a short start code, and a buffer from a pool: of the length asked for, one byte of
spare capacity. -/
def pooledPacket : AVPacket :=
  { mediaType := mediaVideo, codecID := codecH264, packetType := packAnnexB,
    data := annexB (List.replicate 257 (false, [0x65])), onBufferAlloc := some fun n => List.replicate n 0 }

/-- The last byte of the converted packet is the stale byte; without spare capacity the conversion panics. -/
theorem C91_to_avcc_violated :
    (annexBPacket2AVCCCap [0xee] pooledPacket >>= fun x => ok x.1) =
      ok (avcc (List.replicate 256 [0x65]) ++ [0, 0, 0, 1, 0xee]) ∧
    annexBPacket2AVCCCap [] pooledPacket = Go.panic := by
  have hu := annexUnits_clean [] (by decide) (List.replicate 257 (false, [0x65])) (by decide) (fun x hx => by
    rw [List.eq_of_mem_replicate hx]; constructor <;> decide)
  rw [List.nil_append, List.map_replicate] at hu
  have hl : (annexB (List.replicate 257 (false, [0x65]))).length = 1028 := by decide +kernel
  have hb : pooledPacket.allocBuffer (pooledPacket.data.length + 256) = List.replicate 1284 0 := by
    unfold AVPacket.allocBuffer pooledPacket; dsimp only; rw [hl]
  have h1 : (avcc (List.replicate 257 [0x65])).length = 1285 := by decide +kernel
  have h2 : (avcc (List.replicate 257 [0x65]).dropLast).length = 1280 := by decide +kernel
  have h3 : (avcc (List.replicate 257 [0x65])).take 1284 ++ [0xee] = avcc (List.replicate 256 [0x65]) ++ [0, 0, 0, 1, 0xee] := by
    decide +kernel
  constructor
  · rw [C91_to_avcc_exact [0xee] pooledPacket _ hu rfl rfl (.inl rfl) rfl _ hb, List.length_replicate, h1, h2,
      if_neg (by omega), if_pos (by simp)]
    dsimp only
    rw [ok_bind, ← h3]
    rfl
  · rw [C91_to_avcc_exact [] pooledPacket _ hu rfl rfl (.inl rfl) rfl _ hb, List.length_replicate, h1, h2,
      if_neg (by omega), if_neg (by simp)]

example : (annexBPacket2AVCCCap [0xee] { pooledPacket with data := [0, 0, 1, 0x65, 0x88] } >>= fun x => ok x.1) =
    ok [0, 0, 0, 2, 0x65, 0x88] := by decide +kernel
example : (BitsReader.mk [1, 2, 3] 8).readBytesCap [0xee] 2 = ok ([2, 3], ⟨[1, 2, 3], 24⟩) := by decide
example : m4vcExtraDataToAnnexBCap [1, 2, 3, 4, 0xff, 0xe1, 0, 2, 0x67, 9, 1, 0, 1, 0x68] [0xee] =
    ok [0, 0, 0, 1, 0x67, 9, 0, 0, 0, 1, 0x68] := by decide +kernel

end Avf
