import Verif.Props.Sps
import Verif.Lemmas.SpsInv
/-!
# C93: which byte strings are accepted as sequence parameter sets

C48 and C51 say that parameter sets are understood. Here is the converse: what the two `ParseSPS` functions accept has the form of a parameter set,
and the result is the one of that parameter set.
-/
namespace Avf
open Go

/-! ## Runs of zero bits in NAL units -/

theorem zero_byte (b : Byte) (t : List Bool) (n : Nat) (u : List Bool) (h : byteBits b ++ t = List.replicate (n + 8) false ++ u) :
    b = 0 ∧ t = List.replicate n false ++ u := by
  have e : List.replicate (n + 8) false ++ u = List.replicate 8 false ++ (List.replicate n false ++ u) := by
    rw [← List.append_assoc, List.replicate_append_replicate, Nat.add_comm]
  rw [e] at h
  have := List.append_inj h (by simp [byteBits])
  refine ⟨?_, this.2⟩
  have hb : ∀ b : Byte, byteBits b = List.replicate 8 false → b = 0 := by decide +kernel
  exact hb b this.1

theorem zero_bytes3 (d : Bytes) (n : Nat) (u : List Bool) (h : bits d = List.replicate (n + 24) false ++ u) : [0, 0, 0] <+: d := by
  have hlen := congrArg List.length h
  match d, h with
  | [], h => simp [bits] at hlen; omega
  | [a], h => simp [bits, byteBits] at hlen; omega
  | [a, b], h => simp [bits, byteBits] at hlen; omega
  | a :: b :: c :: t, h =>
    obtain ⟨rfl, h1⟩ := zero_byte a (bits (b :: c :: t)) (n + 16) u h
    obtain ⟨rfl, h2⟩ := zero_byte b (bits (c :: t)) (n + 8) u h1
    obtain ⟨rfl, _⟩ := zero_byte c (bits t) n u h2
    exact ⟨t, rfl⟩

/-- 31 zero bits contain three zero bytes. -/
theorem noRun_of_bytes (d : Bytes) (h : ¬ [0, 0, 0] <:+: d) : NoRun (bits d) := by
  rintro ⟨pre, suf, e⟩
  induction d generalizing pre with
  | nil => simp [bits] at e
  | cons b t ih =>
    have ht : ¬ [0, 0, 0] <:+: t := fun h' => h (h'.trans (List.suffix_cons b t).isInfix)
    have e : pre ++ List.replicate 33 false ++ suf = byteBits b ++ bits t := e
    have hd : (byteBits b ++ bits t).drop 8 = bits t := List.drop_left' (by simp [byteBits])
    rw [← e, List.append_assoc] at hd
    by_cases h0 : pre.length = 0
    · have : pre = [] := List.eq_nil_of_length_eq_zero h0
      subst this
      exact h (zero_bytes3 (b :: t) 9 suf e.symm).isInfix
    · by_cases h8 : pre.length ≤ 8
      · -- the run covers the end of the first byte
        rw [List.drop_append, List.drop_of_length_le h8, List.nil_append, List.drop_append_of_le_length (by simp; omega), List.drop_replicate] at hd
        have : 33 - (8 - pre.length) = (33 - 24 - (8 - pre.length)) + 24 := by omega
        rw [this] at hd
        exact ht (zero_bytes3 t _ suf hd.symm).isInfix
      · refine ih ht (pre.drop 8) ?_
        rw [List.drop_append_of_le_length (by omega)] at hd
        rw [List.append_assoc]
        exact hd

theorem no000_cons (b : Byte) (hb : b ≠ 0) (d : Bytes) (h : ¬ [0, 0, 0] <:+: d) : ¬ [0, 0, 0] <:+: b :: d := by
  intro h'
  rcases List.infix_cons_iff.mp h' with hp | hi
  · rw [List.cons_prefix_cons] at hp; exact hb hp.1.symm
  · exact h hi

/-- An escaped payload has no three zero bytes in a row: the hypothesis below holds for every NAL unit of the standard. -/
theorem escape_no000 (p : Bytes) : ¬ [0, 0, 0] <:+: escape p := by
  have key : ∀ p : Bytes, ¬ [0, 0, 0] <:+: escapeFrom 0 p ∧ ¬ [0, 0, 0] <:+: 0 :: escapeFrom 1 p ∧ ¬ [0, 0, 0] <:+: 0 :: 0 :: escapeFrom 2 p := by
    intro p
    induction p with
    | nil => decide
    | cons b t ih =>
      obtain ⟨i0, i1, i2⟩ := ih
      have step : ∀ (b : Byte) (d : Bytes), b ≠ 0 → ¬ [0, 0, 0] <:+: d → ∀ n, n ≤ 2 → ¬ [0, 0, 0] <:+: List.replicate n 0 ++ b :: d := by
        intro b d hb hd n hn h'
        have h1 := no000_cons b hb d hd
        match n, hn with
        | 0, _ => exact h1 h'
        | 1, _ =>
          have h' : [0, 0, 0] <:+: 0 :: b :: d := h'
          rcases List.infix_cons_iff.mp h' with hp | hi
          · rw [List.cons_prefix_cons, List.cons_prefix_cons] at hp; exact hb hp.2.1.symm
          · exact h1 hi
        | 2, _ =>
          have h' : [0, 0, 0] <:+: 0 :: 0 :: b :: d := h'
          rcases List.infix_cons_iff.mp h' with hp | hi
          · rw [List.cons_prefix_cons, List.cons_prefix_cons, List.cons_prefix_cons] at hp; exact hb hp.2.2.1.symm
          · rcases List.infix_cons_iff.mp hi with hp | hi
            · rw [List.cons_prefix_cons, List.cons_prefix_cons] at hp; exact hb hp.2.1.symm
            · exact h1 hi
      have e0 : escapeFrom 0 (b :: t) = b :: escapeFrom (if b = 0 then 1 else 0) t := by
        rw [escapeFrom, if_neg (by omega)]
      have e1 : escapeFrom 1 (b :: t) = b :: escapeFrom (if b = 0 then 2 else 0) t := by
        rw [escapeFrom, if_neg (by omega)]
      refine ⟨?_, ?_, ?_⟩
      · rw [e0]
        by_cases hb : b = 0
        · subst hb; exact i1
        · rw [if_neg hb]; exact step b _ hb i0 0 (by omega)
      · rw [e1]
        by_cases hb : b = 0
        · subst hb; exact i2
        · rw [if_neg hb]; exact step b _ hb i0 1 (by omega)
      · rw [escapeFrom]
        by_cases h3 : b ≤ 3
        · rw [if_pos ⟨rfl, h3⟩]
          refine step 3 _ (by decide) ?_ 2 (by omega)
          by_cases hb : b = 0
          · subst hb; exact i1
          · rw [if_neg hb]; exact no000_cons b hb _ i0
        · have hb : b ≠ 0 := by rintro rfl; exact h3 (by decide)
          rw [if_neg (by tauto), if_neg hb]
          exact step b _ hb i0 2 (by omega)
  exact (key p).1

/-! ## H.264 -/

/-- **C93** in full, H.264: what is accepted is a parameter set of the standard, and the result describes it. -/
def C93_avc_claim : Prop := ∀ (undef : Int), ∀ code ∈ spsCodes, ∀ (hdr : Byte), hdr ≠ 0 → ∀ (payload : Bytes) (r : AvcSps),
  avcParseSPS undef (code ++ hdr :: payload) = ok r → ∃ (s : H264Sps) (rest : List Bool), s.Ok ∧ bits payload = s.bits ++ rest ∧ SpsReported s r

/-- **C93** in full, H.265. -/
def C93_hevc_claim : Prop := ∀ code ∈ spsCodes, ∀ (h0 h1 : Byte), h0 ≠ 0 → ∀ (payload : Bytes) (r : HevcSps),
  hevcParseSPS (code ++ h0 :: h1 :: payload) = ok r →
    ∃ (s : H265Sps) (rest : List Bool), s.Ok ∧ bits (nal2rbsp payload) = s.bits ++ rest ∧ HevcReported s r

/-- **C93** in full. -/
def C93_claim : Prop := C93_avc_claim ∧ C93_hevc_claim

/-- **C93**, H.264, the exact result: on every NAL unit (no three zero bytes in a row) `ParseSPS` succeeds exactly if the payload begins with the form
of a parameter set with the high-profile part for the eight profiles the code lists, with eight scaling lists; the result describes that set.
(Missing: the ranges of the standard, five profiles, twelve lists, longer runs of zeros.) -/
theorem C93_avc_partial (undef : Int) (code : Bytes) (hc : code ∈ spsCodes) (hdr : Byte) (hh : hdr ≠ 0) (payload : Bytes)
    (hz : ¬ [0, 0, 0] <:+: payload) :
    (∀ r, avcParseSPS undef (code ++ hdr :: payload) = ok r →
      ∃ (s : H264Sps) (rest : List Bool), s.Loose avcHighs 8 ∧ bits payload = s.bitsWith avcHighs ++ rest ∧ SpsReported s r) ∧
    ((∃ (s : H264Sps) (rest : List Bool), s.Loose avcHighs 8 ∧ bits payload = s.bitsWith avcHighs ++ rest) →
      ∃ r, avcParseSPS undef (code ++ hdr :: payload) = ok r) ∧
    ((¬ ∃ (s : H264Sps) (rest : List Bool), s.Loose avcHighs 8 ∧ bits payload = s.bitsWith avcHighs ++ rest) →
      ∃ m, avcParseSPS undef (code ++ hdr :: payload) = err m) := by
  have fwd : ∀ (s : H264Sps) (rest : List Bool), s.Loose avcHighs 8 → bits payload = s.bitsWith avcHighs ++ rest →
      avcParseSPS undef (code ++ hdr :: payload) = ok (avcResult undef s) := by
    intro s rest hs hb
    obtain ⟨g, e⟩ := (avcSpsBody_spec undef hdr s hs).run (hdr :: payload) rest (by
      rw [show bits (hdr :: payload) = byteBits hdr ++ bits payload from rfl, hb, List.append_assoc]
      rfl)
    unfold avcParseSPS
    rw [strip_sps code hc hdr hh, ok_bind, e, ok_bind]
    rfl
  have inv : ∀ r, avcParseSPS undef (code ++ hdr :: payload) = ok r →
      ∃ (s : H264Sps) (rest : List Bool), s.Loose avcHighs 8 ∧ bits payload = s.bitsWith avcHighs ++ rest := by
    intro r hr
    unfold avcParseSPS at hr
    rw [strip_sps code hc hdr hh, ok_bind] at hr
    obtain ⟨⟨x, g⟩, e1, e2⟩ := bind_eq_ok.mp hr
    obtain ⟨bs, h1, _, n, s, hn, hs, rfl⟩ := avcSpsBody_inv undef _ _ _ (Golomb.ok_ofBytes _)
      (by rw [Golomb.todo_ofBytes]; exact noRun_of_bytes _ (no000_cons hdr hh payload hz)) e1
    rw [Golomb.todo_ofBytes, List.append_assoc] at h1
    have := List.append_inj (s₁ := byteBits hdr) (t₁ := bits payload) h1 (by simp [byteBits])
    exact ⟨s, g.todo, hs, this.2⟩
  refine ⟨fun r hr => ?_, fun ⟨s, rest, hs, hb⟩ => ⟨_, fwd s rest hs hb⟩, fun hno => ?_⟩
  · obtain ⟨s, rest, hs, hb⟩ := inv r hr
    rw [fwd s rest hs hb] at hr
    cases hr
    exact ⟨s, rest, hs, hb, reported_avcResult undef s hs⟩
  · cases e : avcParseSPS undef (code ++ hdr :: payload) with
    | ok r => exact absurd (inv r e) hno
    | err m => exact ⟨m, rfl⟩
    | panic =>
      exfalso
      have := (C49_panic_iff undef _).1.mp e
      rw [strip_sps code hc hdr hh] at this
      cases this

/-- **C93**: the form of a parameter set is unique, so the result does not depend on how the payload is read as one. -/
theorem C93_avc_unique (undef : Int) (s s' : H264Sps) (hs : s.Loose avcHighs 8) (hs' : s'.Loose avcHighs 8) (payload : Bytes) (rest rest' : List Bool)
    (h : bits payload = s.bitsWith avcHighs ++ rest) (h' : bits payload = s'.bitsWith avcHighs ++ rest') :
    rest = rest' ∧ s.bitsWith avcHighs = s'.bitsWith avcHighs ∧ avcResult undef s = avcResult undef s' := by
  have ht : ∀ (x : H264Sps) (r : List Bool), bits payload = x.bitsWith avcHighs ++ r →
      (Golomb.ofBytes (1 :: payload)).todo = (fieldBits 8 (1 : Byte).toNat ++ x.bitsWith avcHighs) ++ r := by
    intro x r hx
    rw [Golomb.todo_ofBytes, show bits (1 :: payload) = byteBits 1 ++ bits payload from rfl, hx, List.append_assoc]
    rfl
  obtain ⟨g, e, _, t⟩ := avcSpsBody_spec undef 1 s hs _ rest (Golomb.ok_ofBytes (1 :: payload)) (ht s rest h)
  obtain ⟨g', e', _, t'⟩ := avcSpsBody_spec undef 1 s' hs' _ rest' (Golomb.ok_ofBytes (1 :: payload)) (ht s' rest' h')
  rw [e] at e'
  injection e' with e'
  injection e' with e1 e2
  have hr : rest = rest' := by rw [← t, ← t', e2]
  subst hr
  exact ⟨rfl, List.append_cancel_right (h.symm.trans h'), e1⟩

/-- The claim is false: a width of 2^32 macroblocks is accepted. -/
theorem C93_avc_violated : ¬ C93_avc_claim := by
  intro h
  have e : avcParseSPS 0 [103, 66, 0, 31, 220, 0, 0, 0, 1, 0, 0, 0, 0, 228] =
      ok ⟨0, 66, 31, 0, 2 ^ 32, 1, 0, 0, 0, 0, 2 ^ 36, 16, 0⟩ := by decide +kernel
  obtain ⟨s, rest, hs, _, hr⟩ := h 0 [] (by decide) 103 (by decide) _ _ e
  have hw := hs.width
  have := hr.mbWidth
  unfold UE at hw
  rw [show (AvcSps.mbWidth ⟨0, 66, 31, 0, 2 ^ 32, 1, 0, 0, 0, 0, 2 ^ 36, 16, 0⟩).toNat = 2 ^ 32 by decide +kernel] at this
  omega

/-! ## H.265 -/

/-- **C93**, H.265: on every payload whose part behind the profile and level has no run of 33 zero bits, `ParseSPS` succeeds exactly if the unescaped
payload begins with the form of a parameter set; the result describes that set. -/
theorem C93_hevc_partial (code : Bytes) (hc : code ∈ spsCodes) (h0 h1 : Byte) (hh : h0 ≠ 0) (payload : Bytes)
    (hz : ¬ List.replicate 33 false <:+: (bits (nal2rbsp payload)).drop (h265HeadLen (bits (nal2rbsp payload)))) :
    (∀ r, hevcParseSPS (code ++ h0 :: h1 :: payload) = ok r →
      ∃ (s : H265Sps) (rest : List Bool), s.Loose ∧ bits (nal2rbsp payload) = s.bits ++ rest ∧ HevcReported s r) ∧
    ((∃ (s : H265Sps) (rest : List Bool), s.Loose ∧ bits (nal2rbsp payload) = s.bits ++ rest) →
      ∃ r, hevcParseSPS (code ++ h0 :: h1 :: payload) = ok r) ∧
    ((¬ ∃ (s : H265Sps) (rest : List Bool), s.Loose ∧ bits (nal2rbsp payload) = s.bits ++ rest) →
      ∃ m, hevcParseSPS (code ++ h0 :: h1 :: payload) = err m) := by
  have e0 : hevcParseSPS (code ++ h0 :: h1 :: payload) = (hevcSpsBody (Golomb.ofBytes (nal2rbsp payload)) >>= fun x => ok x.1) := by
    unfold hevcParseSPS
    rw [strip_sps code hc h0 hh, ok_bind, if_neg (by simp)]
    have e2 : sliceFrom (h0 :: h1 :: payload) 2 = ok payload := by simp [sliceFrom]
    rw [e2, ok_bind]
    rfl
  have fwd : ∀ (s : H265Sps) (rest : List Bool), s.Loose → bits (nal2rbsp payload) = s.bits ++ rest →
      hevcParseSPS (code ++ h0 :: h1 :: payload) = ok (hevcResult s) := by
    intro s rest hs hb
    obtain ⟨g, e⟩ := (hevcSpsBody_spec s hs).run (nal2rbsp payload) rest hb
    rw [e0, e, ok_bind]
  have inv : ∀ r, hevcParseSPS (code ++ h0 :: h1 :: payload) = ok r →
      ∃ (s : H265Sps) (rest : List Bool), s.Loose ∧ bits (nal2rbsp payload) = s.bits ++ rest := by
    intro r hr
    rw [e0] at hr
    obtain ⟨⟨x, g⟩, e1, e2⟩ := bind_eq_ok.mp hr
    obtain ⟨bs, k1, _, s, hs, rfl⟩ := hevcSpsBody_inv _ _ _ (Golomb.ok_ofBytes _)
      (by rw [Golomb.todo_ofBytes]; exact hz) e1
    rw [Golomb.todo_ofBytes] at k1
    exact ⟨s, g.todo, hs, k1⟩
  refine ⟨fun r hr => ?_, fun ⟨s, rest, hs, hb⟩ => ⟨_, fwd s rest hs hb⟩, fun hno => ?_⟩
  · obtain ⟨s, rest, hs, hb⟩ := inv r hr
    rw [fwd s rest hs hb] at hr
    cases hr
    exact ⟨s, rest, hs, hb, reported_hevcResult s hs⟩
  · cases e : hevcParseSPS (code ++ h0 :: h1 :: payload) with
    | ok r => exact absurd (inv r e) hno
    | err m => exact ⟨m, rfl⟩
    | panic =>
      exfalso
      rw [e0] at e
      have hs := hevcSpsBody_safe (Golomb.ofBytes (nal2rbsp payload))
      cases e2 : hevcSpsBody (Golomb.ofBytes (nal2rbsp payload)) with
      | ok x => rw [e2] at e; cases e
      | err m => rw [e2] at e; cases e
      | panic => rw [e2] at hs; exact absurd rfl hs

/-- **C93**, H.265: units too short for the two header bytes are refused. -/
theorem C93_hevc_short (code : Bytes) (hc : code ∈ spsCodes) (h0 : Byte) (hh : h0 ≠ 0) :
    hevcParseSPS (code ++ [h0]) = err "incorrect Unit Size" := by
  unfold hevcParseSPS
  rw [strip_sps code hc h0 hh, ok_bind, if_pos (by simp)]

/-- The claim is false: a width of 2^32-1 samples is accepted. -/
theorem C93_hevc_violated : ¬ C93_hevc_claim := by
  intro h
  have e : hevcParseSPS [66, 1, 1, 0, 0, 0, 0, 0, 0, 0, 0, 0, 0, 0, 0, 160, 0, 0, 0, 8, 0, 0, 0, 5, 223, 240] =
      ok ⟨1, 1, 1, 2 ^ 32 - 1, 0, 0, 0, 0, 0, 0, 0, 0, 2 ^ 32 - 1, 0⟩ := by decide +kernel
  obtain ⟨s, rest, hs, _, hr⟩ := h [] (by decide) 66 1 (by decide) _ _ e
  have hw := hs.width
  have := hr.width
  unfold UE at hw
  dsimp only at this
  omega

theorem C93_claim_violated : ¬ C93_claim := fun h => C93_avc_violated h.1

/-- An ordinary main profile set meets the hypotheses: the escaped unit has no three zero bytes, the part behind the profile and level no long run. -/
example : ¬ [0, 0, 0] <:+: ([77, 64, 40, 237, 128, 240, 8, 159, 176] : Bytes) := by decide +kernel
example : ∃ r, avcParseSPS 0 [103, 77, 64, 40, 237, 128, 240, 8, 159, 176] = ok r := ⟨⟨0, 77, 40, 16, 120, 34, 0, 0, 0, 2, 1920, 1084, 0⟩, by decide +kernel⟩
example : h265HeadLen (bits [5, 1, 96, 0, 0, 0, 144, 0, 0, 0, 0, 0, 93, 208, 0, 1, 0, 0, 0, 0, 0, 0, 0, 0, 0, 5, 90, 93, 160,
    3, 192, 128, 17, 7, 203, 150, 182, 165, 102, 146, 68, 128]) = 224 := by decide +kernel
example : ¬ List.replicate 33 false <:+: (bits [5, 1, 96, 0, 0, 0, 144, 0, 0, 0, 0, 0, 93, 208, 0, 1, 0, 0, 0, 0, 0, 0, 0, 0, 0, 5, 90, 93, 160,
    3, 192, 128, 17, 7, 203, 150, 182, 165, 102, 146, 68, 128]).drop 224 := by decide +kernel

end Avf
