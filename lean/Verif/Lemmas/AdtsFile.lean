import Verif.Spec.AdtsFile
import Verif.Lemmas.FlvFiles
import Verif.Props.EndToEnd
/-! # Lemmas for C109 -/
namespace Avf
open Go

/-- A field of the header is a field of the frame that begins the data. -/
theorem bitField_append (d e : Bytes) (i n : Nat) (h : i + n ≤ 8 * d.length) : bitField (d ++ e) i n = bitField d i n := by
  unfold bitField
  have hl : (bits d).length = 8 * d.length := bits_length d
  rw [bits_append, List.drop_append_of_le_length (by omega), List.take_append_of_le_length (by rw [List.length_drop]; omega)]

theorem bitField_lt (d : Bytes) (i n : Nat) : bitField d i n < 2 ^ n := by
  unfold bitField
  have h := bitsVal_lt (((bits d).drop i).take n)
  have h1 : (((bits d).drop i).take n).length ≤ n := by simp
  exact Nat.lt_of_lt_of_le h (Nat.pow_le_pow_right (by omega) h1)

/-- What the reader finds. -/
theorem readADts_ok {data : Bytes} {a : BitVec 64} (h : readADtsFixedHeader data = ok a) :
    7 ≤ data.length ∧ bitField data 0 12 = 0xFFF ∧ (adtsFrameLength a).toNat = bitField data 30 13 := by
  by_cases h2 : 2 ≤ data.length
  · by_cases hs : beNat (data.take 2) / 16 = 0xFFF
    · by_cases h7 : 7 ≤ data.length
      · rw [readADts_long data h7 hs] at h
        cases h
        refine ⟨h7, by rw [bitField_sync h2, hs], ?_⟩
        have : adtsFrameLength (BitVec.ofNat 64 (beNat (data.take 7))) = (bitField data 30 13 : Nat) :=
          adtsField_at h7 30 13 0x1FFF rfl (by omega) (by omega)
        rw [this]; rfl
      · rw [readADts_short data (by omega) (.inr hs)] at h; cases h
    · rw [readADts_nosync data h2 hs] at h; cases h
  · rw [readADts_short data (by omega) (.inl (by omega))] at h; cases h

theorem readADts_frame {d : Bytes} (h : AdtsFrame d) (e : Bytes) :
    ∃ a, readADtsFixedHeader (d ++ e) = ok a ∧ (adtsFrameLength a).toNat = d.length := by
  obtain ⟨h1, h2, h3⟩ := h
  have hl : 7 ≤ (d ++ e).length := by rw [List.length_append]; omega
  have hs : beNat ((d ++ e).take 2) / 16 = 0xFFF := by
    rw [← bitField_sync (by omega), bitField_append d e 0 12 (by omega), h2]
  have hr := readADts_long (d ++ e) hl hs
  refine ⟨_, hr, ?_⟩
  rw [(readADts_ok hr).2.2, bitField_append d e 30 13 (by omega), h3]

theorem cutAdts_flatten {fs : List Bytes} (h : ∀ f ∈ fs, AdtsFrame f) : cutAdts fs.flatten = ok fs := by
  induction fs with
  | nil => rw [cutAdts]; simp
  | cons d fs ih =>
    have hd := h d (by simp)
    obtain ⟨a, h1, h2⟩ := readADts_frame hd fs.flatten
    have h7 := hd.1
    have ih := ih fun f hf => h f (by simp [hf])
    rw [List.flatten_cons, cutAdts, if_neg (by intro e; rw [List.append_eq_nil_iff] at e; rw [e.1] at h7; simp at h7), h1, ok_bind, h2]
    rw [dif_pos ⟨h7, by rw [List.length_append]; omega⟩, List.drop_left, ih, ok_bind, List.take_left]
    rfl

theorem cutAdts_ok {data : Bytes} {fs : List Bytes} (h : cutAdts data = ok fs) : data = fs.flatten ∧ ∀ f ∈ fs, AdtsFrame f := by
  induction hn : data.length using Nat.strong_induction_on generalizing data fs with
  | _ n ih =>
    rw [cutAdts] at h
    split at h
    · next e => cases h; subst e; exact ⟨rfl, by simp⟩
    · obtain ⟨a, h1, h⟩ := bind_eq_ok.1 h
      obtain ⟨g1, g2, g3⟩ := readADts_ok h1
      dsimp only at h
      split at h
      · next hb =>
        obtain ⟨rest, h2, h⟩ := bind_eq_ok.1 h
        cases h
        obtain ⟨e1, e2⟩ := ih _ (by rw [← hn, List.length_drop]; omega) h2 rfl
        rw [g3] at hb e1 ⊢
        refine ⟨by rw [List.flatten_cons, ← e1, List.take_append_drop], ?_⟩
        intro f hf
        rcases List.mem_cons.1 hf with rfl | hf
        · have hlen : (data.take (bitField data 30 13)).length = bitField data 30 13 := by rw [List.length_take]; omega
          have hsplit : data = data.take (bitField data 30 13) ++ data.drop (bitField data 30 13) := (List.take_append_drop _ _).symm
          have f1 : bitField data 0 12 = bitField (data.take (bitField data 30 13)) 0 12 := by
            conv => lhs; rw [hsplit]
            exact bitField_append _ _ _ _ (by rw [hlen]; omega)
          have f2 : bitField data 30 13 = bitField (data.take (bitField data 30 13)) 30 13 := by
            conv => lhs; rw [hsplit]
            exact bitField_append _ _ _ _ (by rw [hlen]; omega)
          exact ⟨by rw [hlen]; exact hb.1, by rw [← f1]; exact g2, by rw [hlen, ← f2]⟩
        · exact e2 f hf
      · cases h

end Avf
