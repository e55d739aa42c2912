import Verif.Model.Golomb
import Verif.Lemmas.Bits
/-! Helper lemmas for the Exp-Golomb bit reader. -/
namespace Avf
open Go
namespace Golomb

/-- The bits a reader has not delivered yet. -/
def todo (g : Golomb) : List Bool := (byteBits g.buf).drop (8 - g.left) ++ bits g.rest

/-- At most eight bits are buffered. -/
def Ok (g : Golomb) : Prop := g.left ≤ 8

@[simp] theorem ok_ofBytes (d : Bytes) : (ofBytes d).Ok := by simp [Ok, ofBytes]

@[simp] theorem todo_ofBytes (d : Bytes) : (ofBytes d).todo = bits d := by simp [todo, ofBytes, byteBits]

theorem bit_of_byte (b : Byte) (k : Nat) :
    (b >>> k).setWidth 64 &&& 1 = BitVec.ofNat 64 (b.getLsbD k).toNat := by
  apply BitVec.eq_of_getLsbD_eq
  intro i hi
  have e1 : (1 : BitVec 64) = BitVec.ofNat 64 1 := rfl
  rw [e1]
  simp only [BitVec.getLsbD_and, BitVec.getLsbD_setWidth, BitVec.getLsbD_ushiftRight, hi, BitVec.getLsbD_ofNat,
    decide_true, Bool.true_and]
  cases i with
  | zero => simp only [Nat.testBit_zero, Nat.add_zero]; cases b.getLsbD k <;> rfl
  | succ i =>
    have h2 : (b.getLsbD k).toNat / 2 = 0 := by cases b.getLsbD k <;> rfl
    simp [Nat.testBit_succ, h2]

theorem readBit_nil {g : Golomb} (h : g.todo = []) (hg : g.Ok) : g.readBit = err "EOF" := by
  unfold todo at h
  simp only [List.append_eq_nil_iff] at h
  have h1 : g.left = 0 := by
    have := congrArg List.length h.1
    unfold Ok at hg
    simp [byteBits] at this; omega
  have h2 : g.rest = [] := by
    have := congrArg List.length h.2
    simp at this; exact List.length_eq_zero_iff.mp (by omega)
  simp [readBit, h1, h2]

theorem readBit_cons {g : Golomb} (hg : g.Ok) {b : Bool} {bs : List Bool} (h : g.todo = b :: bs) :
    ∃ g', g.readBit = ok (BitVec.ofNat 64 b.toNat, g') ∧ g'.Ok ∧ g'.todo = bs := by
  have key : ∀ (buf : Byte) (rest : Bytes) (l : Nat), l < 8 →
      (byteBits buf).drop (8 - (l + 1)) ++ bits rest = b :: bs →
      buf.getLsbD l = b ∧ (byteBits buf).drop (8 - l) ++ bits rest = bs := by
    intro buf rest l hl h
    have e : 8 - l = (8 - (l + 1)) + 1 := by omega
    have hlen : (byteBits buf).length = 8 := rfl
    rw [List.drop_eq_getElem_cons (by omega)] at h
    simp only [List.cons_append, List.cons.injEq] at h
    have h2 := byteBits_getElem? buf (8 - (l + 1)) (by omega)
    rw [List.getElem?_eq_getElem (by omega), Option.some.injEq] at h2
    rw [h2] at h
    rw [e]
    refine ⟨?_, h.2⟩
    rw [← h.1]; congr 1; omega
  unfold readBit
  unfold Ok at hg
  by_cases hl : g.left = 0
  · rw [if_pos hl]
    unfold todo at h
    rw [hl] at h
    cases hr : g.rest with
    | nil => rw [hr] at h; simp [byteBits, bits] at h
    | cons c rest =>
      rw [hr] at h
      simp only [ok_bind, pure_def]
      have h' : (byteBits c).drop (8 - (7 + 1)) ++ bits rest = b :: bs := by
        rw [bits_cons] at h
        rw [List.drop_eq_nil_of_le (by simp [byteBits])] at h
        simpa using h
      obtain ⟨h1, h2⟩ := key c rest 7 (by omega) h'
      refine ⟨{ rest := rest, buf := c, left := 7 }, ?_, by simp [Ok], h2⟩
      rw [bit_of_byte, show 8 - 1 = 7 from rfl, h1]
  · rw [if_neg hl]
    simp only [ok_bind, pure_def]
    unfold todo at h
    have h' : (byteBits g.buf).drop (8 - (g.left - 1 + 1)) ++ bits g.rest = b :: bs := by
      rw [show g.left - 1 + 1 = g.left by omega]; exact h
    obtain ⟨h1, h2⟩ := key g.buf g.rest (g.left - 1) (by omega) h'
    refine ⟨{ g with left := g.left - 1 }, ?_, by simp [Ok]; omega, h2⟩
    rw [bit_of_byte, h1]

theorem ofNat_shl_or {w : Nat} (v : Nat) (b : Bool) :
    (BitVec.ofNat w v <<< 1) ||| BitVec.ofNat w b.toNat = BitVec.ofNat w (2 * v + b.toNat) := by
  apply BitVec.eq_of_getLsbD_eq
  intro i hi
  simp only [BitVec.getLsbD_or, BitVec.getLsbD_shiftLeft, BitVec.getLsbD_ofNat, hi, decide_true, Bool.true_and]
  cases i with
  | zero =>
    simp [Nat.testBit_zero]
  | succ i =>
    simp only [Nat.testBit_succ]
    have h1 : (2 * v + b.toNat) / 2 = v := by cases b <;> simp <;> omega
    have h2 : b.toNat / 2 = 0 := by cases b <;> rfl
    rw [h1, h2]
    have : decide (i < w) = true := by simp; omega
    simp [this]

theorem readBits64Loop_spec (n : Nat) : ∀ (v : Nat) (g : Golomb), g.Ok →
    (n ≤ g.todo.length → ∃ g', readBits64Loop n (BitVec.ofNat 64 v) g =
      ok (BitVec.ofNat 64 (2 ^ n * v + bitsVal (g.todo.take n)), g') ∧ g'.Ok ∧ g'.todo = g.todo.drop n) ∧
    (g.todo.length < n → readBits64Loop n (BitVec.ofNat 64 v) g = err "EOF") := by
  induction n with
  | zero => intro v g hg; exact ⟨fun _ => ⟨g, by simp [readBits64Loop, bitsVal], hg, by simp⟩, fun h => by omega⟩
  | succ n ih =>
    intro v g hg
    cases ht : g.todo with
    | nil =>
      refine ⟨fun h => by simp at h, fun _ => ?_⟩
      simp only [readBits64Loop]; rw [readBit_nil ht hg]; rfl
    | cons b bs =>
      obtain ⟨g1, h1, h2, h3⟩ := readBit_cons hg ht
      simp only [readBits64Loop]
      rw [h1]
      simp only [ok_bind, ofNat_shl_or]
      obtain ⟨i1, i2⟩ := ih (2 * v + b.toNat) g1 h2
      rw [h3] at i1 i2
      constructor
      · intro h
        obtain ⟨g', e1, e2, e3⟩ := i1 (by simpa using h)
        refine ⟨g', ?_, e2, by simpa using e3⟩
        rw [e1, List.take_succ_cons, bitsVal_cons]
        congr 3
        rw [List.length_take, Nat.min_eq_left (by simpa using h), Nat.pow_succ, Nat.mul_add, Nat.mul_assoc]
        have : b.toNat * 2 ^ n = 2 ^ n * b.toNat := Nat.mul_comm _ _
        omega
      · intro h
        exact i2 (by simpa using h)

theorem readBits32Loop_spec (n : Nat) : ∀ (v : Nat) (g : Golomb), g.Ok →
    (n ≤ g.todo.length → ∃ g', readBits32Loop n (BitVec.ofNat 32 v) g =
      ok (BitVec.ofNat 32 (2 ^ n * v + bitsVal (g.todo.take n)), g') ∧ g'.Ok ∧ g'.todo = g.todo.drop n) ∧
    (g.todo.length < n → readBits32Loop n (BitVec.ofNat 32 v) g = err "EOF") := by
  induction n with
  | zero => intro v g hg; exact ⟨fun _ => ⟨g, by simp [readBits32Loop, bitsVal], hg, by simp⟩, fun h => by omega⟩
  | succ n ih =>
    intro v g hg
    cases ht : g.todo with
    | nil =>
      refine ⟨fun h => by simp at h, fun _ => ?_⟩
      simp only [readBits32Loop]; rw [readBit_nil ht hg]; rfl
    | cons b bs =>
      obtain ⟨g1, h1, h2, h3⟩ := readBit_cons hg ht
      simp only [readBits32Loop]
      rw [h1]
      have hb : (BitVec.ofNat 64 b.toNat).setWidth 32 = BitVec.ofNat 32 b.toNat := by cases b <;> rfl
      simp only [ok_bind, hb, ofNat_shl_or]
      obtain ⟨i1, i2⟩ := ih (2 * v + b.toNat) g1 h2
      rw [h3] at i1 i2
      constructor
      · intro h
        obtain ⟨g', e1, e2, e3⟩ := i1 (by simpa using h)
        refine ⟨g', ?_, e2, by simpa using e3⟩
        rw [e1, List.take_succ_cons, bitsVal_cons]
        congr 3
        rw [List.length_take, Nat.min_eq_left (by simpa using h), Nat.pow_succ, Nat.mul_add, Nat.mul_assoc]
        have : b.toNat * 2 ^ n = 2 ^ n * b.toNat := Nat.mul_comm _ _
        omega
      · intro h
        exact i2 (by simpa using h)

theorem or_high_add {v n : Nat} {b : Bool} : 2 ^ n * (2 * v) ||| (2 ^ n * b.toNat) = 2 ^ n * (2 * v + b.toNat) := by
  apply Nat.eq_of_testBit_eq
  intro i
  simp only [Nat.testBit_or, Nat.testBit_two_pow_mul]
  by_cases h : n ≤ i
  · simp only [h, decide_true, Bool.true_and]
    cases hi : i - n with
    | zero => simp [Nat.testBit_zero]
    | succ k =>
      simp only [Nat.testBit_succ]
      have h1 : (2 * v + b.toNat) / 2 = v := by cases b <;> simp <;> omega
      have h2 : b.toNat / 2 = 0 := by cases b <;> rfl
      have h3 : 2 * v / 2 = v := by omega
      rw [h1, h2, h3]; simp
  · simp [h]

theorem readBitsLoop_spec (n : Nat) : ∀ (v : Nat) (g : Golomb), g.Ok →
    (n ≤ g.todo.length → ∃ g', readBitsLoop n (BitVec.ofNat 64 (2 ^ n * v)) g =
      ok (BitVec.ofNat 64 (2 ^ n * v + bitsVal (g.todo.take n)), g') ∧ g'.Ok ∧ g'.todo = g.todo.drop n) ∧
    (g.todo.length < n → readBitsLoop n (BitVec.ofNat 64 (2 ^ n * v)) g = err "EOF") := by
  induction n with
  | zero => intro v g hg; exact ⟨fun _ => ⟨g, by simp [readBitsLoop, bitsVal], hg, by simp⟩, fun h => by omega⟩
  | succ n ih =>
    intro v g hg
    cases ht : g.todo with
    | nil =>
      refine ⟨fun h => by simp at h, fun _ => ?_⟩
      simp only [readBitsLoop]; rw [readBit_nil ht hg]; rfl
    | cons b bs =>
      obtain ⟨g1, h1, h2, h3⟩ := readBit_cons hg ht
      simp only [readBitsLoop]
      rw [h1]
      have hacc : BitVec.ofNat 64 (2 ^ (n + 1) * v) ||| (BitVec.ofNat 64 b.toNat <<< n) =
          BitVec.ofNat 64 (2 ^ n * (2 * v + b.toNat)) := by
        apply BitVec.eq_of_getLsbD_eq
        intro i hi
        simp only [BitVec.getLsbD_or, BitVec.getLsbD_shiftLeft, BitVec.getLsbD_ofNat, hi, decide_true, Bool.true_and]
        rw [← or_high_add, Nat.testBit_or, Nat.pow_succ, Nat.mul_assoc]
        congr 1
        rw [Nat.testBit_two_pow_mul]
        by_cases h : n ≤ i
        · have h' : ¬ i < n := by omega
          have h'' : i - n < 64 := by omega
          simp [h, h', h'']
        · have h' : i < n := by omega
          simp [h, h']
      simp only [ok_bind, hacc]
      obtain ⟨i1, i2⟩ := ih (2 * v + b.toNat) g1 h2
      rw [h3] at i1 i2
      constructor
      · intro h
        obtain ⟨g', e1, e2, e3⟩ := i1 (by simpa using h)
        refine ⟨g', ?_, e2, by simpa using e3⟩
        rw [e1, List.take_succ_cons, bitsVal_cons]
        congr 3
        rw [List.length_take, Nat.min_eq_left (by simpa using h), Nat.pow_succ, Nat.mul_add, Nat.mul_assoc]
        have : b.toNat * 2 ^ n = 2 ^ n * b.toNat := Nat.mul_comm _ _
        omega
      · intro h
        exact i2 (by simpa using h)

/-- Counting zeros: `z` zeros and then a one (or the 33rd bit). -/
theorem ueZeros_spec (z : Nat) : ∀ (i : Nat) (g : Golomb) (b : Bool) (bs : List Bool), g.Ok → i + z ≤ 32 →
    (b = true ∨ i + z = 32) → g.todo = List.replicate z false ++ b :: bs →
    ∃ g', ueZeros i g = ok (i + z, g') ∧ g'.Ok ∧ g'.todo = bs := by
  induction z with
  | zero =>
    intro i g b bs hg hi hb h
    obtain ⟨g1, h1, h2, h3⟩ := readBit_cons hg h
    refine ⟨g1, ?_, h2, h3⟩
    rw [ueZeros, h1]
    simp only
    rw [dif_neg]
    · simp
    · rintro ⟨h4, h5⟩
      rcases hb with rfl | hb
      · exact absurd h4 (by decide)
      · omega
  | succ z ih =>
    intro i g b bs hg hi hb h
    rw [List.replicate_succ, List.cons_append] at h
    obtain ⟨g1, h1, h2, h3⟩ := readBit_cons hg h
    obtain ⟨g', h4, h5, h6⟩ := ih (i + 1) g1 b bs h2 (by omega) (by rcases hb with h | h; exact .inl h; exact .inr (by omega)) h3
    refine ⟨g', ?_, h5, h6⟩
    rw [ueZeros, h1]
    simp only
    rw [dif_pos ⟨by decide, by omega⟩, h4]
    congr 2; omega

theorem readBit_noPanic (g : Golomb) : NoPanic g.readBit := by
  unfold readBit
  split
  · split <;> simp [NoPanic]
  · simp

theorem readBitsLoop_noPanic (n : Nat) : ∀ (r : BitVec 64) (g : Golomb), NoPanic (readBitsLoop n r g) := by
  induction n with
  | zero => intro r g; simp [readBitsLoop]
  | succ n ih =>
    intro r g
    simp only [readBitsLoop]
    exact (readBit_noPanic g).bind fun a _ => ih _ _

theorem readBits_noPanic (g : Golomb) (n : Int) : NoPanic (g.readBits n) := readBitsLoop_noPanic _ _ _

theorem readBits32_noPanic (g : Golomb) (n : Nat) : NoPanic (g.readBits32 n) := by
  have : ∀ (n : Nat) (r : BitVec 32) (g : Golomb), NoPanic (readBits32Loop n r g) := by
    intro n
    induction n with
    | zero => intro r g; simp [readBits32Loop]
    | succ n ih =>
      intro r g
      simp only [readBits32Loop]
      exact (readBit_noPanic g).bind fun a _ => ih _ _
  exact this _ _ _

theorem readBits64_noPanic (g : Golomb) (n : Nat) : NoPanic (g.readBits64 n) := by
  have : ∀ (n : Nat) (r : BitVec 64) (g : Golomb), NoPanic (readBits64Loop n r g) := by
    intro n
    induction n with
    | zero => intro r g; simp [readBits64Loop]
    | succ n ih =>
      intro r g
      simp only [readBits64Loop]
      exact (readBit_noPanic g).bind fun a _ => ih _ _
  exact this _ _ _

theorem ueZeros_noPanic (i : Nat) (g : Golomb) : NoPanic (ueZeros i g) := by
  fun_induction ueZeros i g with
  | case1 i g bit g' h hc ih => exact ih
  | case2 => simp
  | case3 => simp
  | case4 i g h => exact absurd h (readBit_noPanic g)

theorem readUE_noPanic (g : Golomb) : NoPanic g.readUE := by
  unfold readUE
  refine (ueZeros_noPanic 0 g).bind fun a _ => ?_
  refine (readBits_noPanic _ _).bind fun b _ => ?_
  simp

theorem readSE_noPanic (g : Golomb) : NoPanic g.readSE := by
  unfold readSE
  refine (readUE_noPanic g).bind fun a _ => ?_
  dsimp only
  split <;> simp

end Golomb
end Avf
