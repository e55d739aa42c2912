import Verif.Props.Golomb
/-!
# C92: which bit strings the Exp-Golomb reader accepts

C12 says that code words are decoded. Here is the converse: what `ReadExponentialGolombCode` and `ReadSE` do on an arbitrary bit string.
-/
namespace Avf
open Go

/-- The code word with `z` leading zeros and the suffix `x`. -/
theorem ueBits_of_suffix (l : List Bool) : ueBits (2 ^ l.length - 1 + bitsVal l) = List.replicate l.length false ++ true :: l := by
  have hx := bitsVal_lt l
  have hp : 0 < 2 ^ l.length := Nat.pow_pos (by omega)
  have e : 2 ^ l.length - 1 + bitsVal l + 1 = 2 ^ l.length + bitsVal l := by omega
  have hlog : Nat.log2 (2 ^ l.length + bitsVal l) = l.length := by
    rw [Nat.log2_eq_iff (by omega), Nat.pow_succ]
    omega
  unfold ueBits
  rw [e, hlog]
  congr 1
  show (2 ^ l.length + bitsVal l).testBit l.length :: fieldBits l.length (2 ^ l.length + bitsVal l) = _
  rw [Nat.testBit_two_pow_add_eq, Nat.testBit_lt_two_pow hx]
  congr 1
  apply List.ext_getElem?
  intro i
  by_cases hi : i < l.length
  · rw [fieldBits_getElem? _ _ _ hi, Nat.testBit_two_pow_add_gt (by omega)]
    clear e hlog hp hx
    induction l generalizing i with
    | nil => simp at hi
    | cons b l ih =>
      rw [bitsVal_cons]
      have hl := bitsVal_lt l
      cases i with
      | zero =>
        simp only [List.length_cons, Nat.add_sub_cancel, Nat.sub_zero, List.getElem?_cons_zero]
        cases b
        · simp [Nat.testBit_lt_two_pow hl]
        · simp [Nat.testBit_two_pow_add_eq, Nat.testBit_lt_two_pow hl]
      | succ i =>
        simp only [List.length_cons] at hi
        rw [List.getElem?_cons_succ, ← ih i (by omega)]
        simp only [List.length_cons]
        cases b
        · simp; congr 1; omega
        · rw [show true.toNat * 2 ^ l.length = 2 ^ l.length by simp, Nat.testBit_two_pow_add_gt (by omega)]
          congr 2; omega
  · rw [List.getElem?_eq_none (by rw [fieldBits_length]; omega), List.getElem?_eq_none (by omega)]

/-- A bit string is a short run of zeros, or a run of at most `n` zeros that is ended by a one or by the bound. -/
theorem zeros_cases (n : Nat) : ∀ t : List Bool, (∃ z, z ≤ n ∧ t = List.replicate z false) ∨
    ∃ z b bs, z ≤ n ∧ (b = true ∨ z = n) ∧ t = List.replicate z false ++ b :: bs := by
  induction n with
  | zero =>
    intro t
    cases t with
    | nil => exact .inl ⟨0, by omega, rfl⟩
    | cons b bs => exact .inr ⟨0, b, bs, by omega, .inr rfl, rfl⟩
  | succ n ih =>
    intro t
    match t with
    | [] => exact .inl ⟨0, by omega, rfl⟩
    | true :: bs => exact .inr ⟨0, true, bs, by omega, .inl rfl, rfl⟩
    | false :: bs =>
      rcases ih bs with ⟨z, hz, rfl⟩ | ⟨z, b, bs', hz, hb, rfl⟩
      · exact .inl ⟨z + 1, by omega, rfl⟩
      · exact .inr ⟨z + 1, b, bs', by omega, hb.imp id (by omega), rfl⟩

namespace Golomb

theorem ueZeros_end (z : Nat) : ∀ (i : Nat) (g : Golomb), g.Ok → i + z ≤ 32 → g.todo = List.replicate z false → ueZeros i g = err "EOF" := by
  induction z with
  | zero =>
    intro i g hg _ ht
    rw [ueZeros, readBit_nil ht hg]
  | succ z ih =>
    intro i g hg hi ht
    obtain ⟨g', h1, h2, h3⟩ := readBit_cons hg (b := false) (bs := List.replicate z false) ht
    rw [ueZeros, h1]
    dsimp only
    rw [dif_pos ⟨by rfl, by omega⟩]
    exact ih (i + 1) g' h2 (by omega) h3

/-- **C92** `ReadExponentialGolombCode` on a bit string that begins with `z ≤ 32` zeros and a one, or with 32 zeros and any bit: it
delivers `2^z - 1` plus the number in the next `z` bits, and fails if they are not there. -/
theorem C92_ue_exact (g : Golomb) (hg : g.Ok) (z : Nat) (b : Bool) (bs : List Bool) (hz : z ≤ 32) (hb : b = true ∨ z = 32)
    (ht : g.todo = List.replicate z false ++ b :: bs) :
    (z ≤ bs.length → ∃ r g', g.readUE = ok (r, g') ∧ r.toNat = 2 ^ z - 1 + bitsVal (bs.take z) ∧ g'.Ok ∧ g'.todo = bs.drop z) ∧
    (bs.length < z → g.readUE = err "EOF") := by
  obtain ⟨g1, h1, h2, h3⟩ := ueZeros_spec z 0 g b bs hg (by omega) (hb.imp id (by omega)) ht
  rw [Nat.zero_add] at h1
  obtain ⟨h4, h5⟩ := C11_readBits g1 h2 z (by omega)
  rw [h3] at h4 h5
  constructor
  · intro hl
    obtain ⟨v, g', e, hv, hg', ht'⟩ := h4 hl
    refine ⟨v + ((1 : BitVec 64) <<< z - 1), g', ?_, ?_, hg', ht'⟩
    · unfold readUE
      rw [h1, ok_bind]
      dsimp only
      rw [e, ok_bind]
      rfl
    · have hp : 2 ^ z ≤ 2 ^ 32 := Nat.pow_le_pow_right (by omega) hz
      have hp0 : 0 < 2 ^ z := Nat.pow_pos (by omega)
      have hlt : bitsVal (bs.take z) < 2 ^ z := bitsVal_take_lt bs z z (Nat.le_refl _)
      have hsh : ((1 : BitVec 64) <<< z - 1).toNat = 2 ^ z - 1 := by
        rw [BitVec.toNat_sub, BitVec.toNat_shiftLeft]
        rw [show BitVec.toNat (1 : BitVec 64) = 1 from rfl, Nat.one_shiftLeft, Nat.mod_eq_of_lt (a := 2 ^ z) (by omega)]
        omega
      rw [BitVec.toNat_add, hsh, hv]
      omega
  · intro hl
    unfold readUE
    rw [h1, ok_bind]
    dsimp only
    rw [h5 hl]
    rfl

/-- **C92** a string of at most 32 zeros ends before the code word does. -/
theorem C92_ue_zeros (g : Golomb) (hg : g.Ok) (z : Nat) (hz : z ≤ 32) (ht : g.todo = List.replicate z false) : g.readUE = err "EOF" := by
  unfold readUE
  rw [ueZeros_end z 0 g hg (by omega) ht]
  rfl

/-- **C92** in full (with C12, which says that code words are accepted): what is accepted is a code word. -/
def C92_claim : Prop := ∀ (g : Golomb) (r : BitVec 64) (g' : Golomb), g.Ok → g.readUE = ok (r, g') → g.todo = ueBits r.toNat ++ g'.todo

/-- **C92**: on strings that do not begin with 33 zeros. -/
theorem C92_accepted_partial (g : Golomb) (hg : g.Ok) (hz : ¬ List.replicate 33 false <+: g.todo) (r : BitVec 64) (g' : Golomb)
    (h : g.readUE = ok (r, g')) : g.todo = ueBits r.toNat ++ g'.todo ∧ r.toNat < 2 ^ 33 - 1 ∧ g'.Ok := by
  rcases zeros_cases 32 g.todo with ⟨z, hz1, ht⟩ | ⟨z, b, bs, hz1, hb, ht⟩
  · rw [C92_ue_zeros g hg z hz1 ht] at h; cases h
  · obtain ⟨h1, h2⟩ := C92_ue_exact g hg z b bs hz1 hb ht
    have hbt : b = true := by
      cases b with
      | true => rfl
      | false =>
        exfalso
        apply hz
        rw [ht, show z = 32 by simpa using hb]
        exact ⟨bs, by simp [List.replicate_succ']⟩
    by_cases hl : z ≤ bs.length
    · obtain ⟨r2, g2, e, hr, hg2, ht2⟩ := h1 hl
      rw [e] at h
      cases h
      have hlen : (bs.take z).length = z := by rw [List.length_take]; omega
      have := ueBits_of_suffix (bs.take z)
      rw [hlen] at this
      have hlt : bitsVal (bs.take z) < 2 ^ z := bitsVal_take_lt bs z z (Nat.le_refl _)
      have hp : 2 ^ z ≤ 2 ^ 32 := Nat.pow_le_pow_right (by omega) hz1
      refine ⟨?_, by omega, hg2⟩
      rw [hr, this, ht2, ht, hbt, List.append_assoc, List.cons_append, List.take_append_drop]
    · rw [h2 (by omega)] at h; cases h

/-- **C92**: it never panics, and on strings that do not begin with 33 zeros it fails exactly when no code word is in front, with EOF. -/
theorem C92_rejected_partial (g : Golomb) (hg : g.Ok) (hz : ¬ List.replicate 33 false <+: g.todo) :
    g.readUE = err "EOF" ↔ ∀ v, v < 2 ^ 33 - 1 → ¬ ueBits v <+: g.todo := by
  constructor
  · rintro he v hv ⟨rest, ht⟩
    obtain ⟨r, g', e, _⟩ := C12_ue_roundtrip g hg v hv rest ht.symm
    rw [e] at he; cases he
  · intro hno
    rcases zeros_cases 32 g.todo with ⟨z, hz1, ht⟩ | ⟨z, b, bs, hz1, hb, ht⟩
    · exact C92_ue_zeros g hg z hz1 ht
    · obtain ⟨h1, h2⟩ := C92_ue_exact g hg z b bs hz1 hb ht
      by_cases hl : z ≤ bs.length
      · exfalso
        obtain ⟨r, g', e, _⟩ := h1 hl
        obtain ⟨ht', hr, _⟩ := C92_accepted_partial g hg hz r g' e
        exact hno _ hr ⟨g'.todo, ht'.symm⟩
      · exact h2 (by omega)

/-- **C92**, `ReadSE`: what is accepted is a signed code word; the value is that of C13. -/
theorem C92_se_partial (g : Golomb) (hg : g.Ok) (hz : ¬ List.replicate 33 false <+: g.todo) (r : BitVec 64) (g' : Golomb)
    (h : g.readSE = ok (r, g')) : ∃ v : Int, -2 ^ 32 < v ∧ v < 2 ^ 32 ∧ g.todo = seBits v ++ g'.todo ∧
      (r.toNat : Int) = (if 0 ≤ v then v else 2 ^ 63 + v) := by
  have h0 := h
  unfold readSE at h
  obtain ⟨⟨u, g1⟩, e1, e2⟩ := bind_eq_ok.1 h
  have hgg : g1 = g' := by
    dsimp only at e2
    split at e2 <;> (cases e2; rfl)
  subst hgg
  obtain ⟨ht, hu, _⟩ := C92_accepted_partial g hg hz u g1 e1
  -- the value with this code number
  obtain ⟨v, hv, hlo, hhi⟩ : ∃ v : Int, seCode v = u.toNat ∧ -2 ^ 32 < v ∧ v < 2 ^ 32 := by
    by_cases ho : u.toNat % 2 = 1
    · refine ⟨((u.toNat : Int) + 1) / 2, ?_, by omega, by omega⟩
      unfold seCode; rw [if_pos (by omega)]; omega
    · refine ⟨-((u.toNat : Int) / 2), ?_, by omega, by omega⟩
      unfold seCode; rw [if_neg (by omega)]; omega
  refine ⟨v, hlo, hhi, by unfold seBits; rw [hv]; exact ht, ?_⟩
  obtain ⟨r2, g2, e, hr, _⟩ := C13_se_partial g hg v hlo hhi g1.todo (by unfold seBits; rw [hv]; exact ht)
  rw [e] at h0
  cases h0
  exact hr

/-- The claim is false: after 32 zeros the marker bit is not looked at. -/
theorem C92_claim_violated : ¬ C92_claim := by
  intro h
  have e : (ofBytes [0, 0, 0, 0, 0, 0, 0, 0, 0x80]).readUE = ok (BitVec.ofNat 64 (2 ^ 32), ⟨[], 0x80, 7⟩) := by decide +kernel
  have := h _ _ _ (ok_ofBytes _) e
  revert this
  decide +kernel

example : (ofBytes [0b00101000]).readUE = ok (4, ⟨[], 0b00101000, 3⟩) ∧ ueBits 4 = [false, false, true, false, true] := by decide +kernel
example : (ofBytes [0, 0]).readUE = err "EOF" := by decide +kernel
example : (ofBytes [0b00100000]).todo = ueBits 3 ++ [false, false, false] := by decide +kernel
example : (ofBytes [0b00000100]).readUE = err "EOF" := by decide +kernel
example : ¬ List.replicate 33 false <+: (ofBytes [0b00101000]).todo := by decide +kernel

end Golomb
end Avf
