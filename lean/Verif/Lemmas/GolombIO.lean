import Verif.Spec.GolombIO
import Verif.Lemmas.Golomb
/-! Helper lemmas for bit readers on any `io.Reader`. -/
namespace Avf
open Go
namespace GolombIO

theorem store_cons (buf : Byte) (l : Nat) (hl : l < 8) :
    (byteBits buf).drop (8 - (l + 1)) = buf.getLsbD l :: (byteBits buf).drop (8 - l) := by
  have e : 8 - l = (8 - (l + 1)) + 1 := by omega
  have hlen : (byteBits buf).length = 8 := rfl
  rw [List.drop_eq_getElem_cons (by omega)]
  have h2 := byteBits_getElem? buf (8 - (l + 1)) (by omega)
  rw [List.getElem?_eq_getElem (by omega), Option.some.injEq] at h2
  rw [h2, e]
  congr 2
  omega

theorem takeBit_spec (s : GolombIO) (h0 : s.left ≠ 0) (hs : s.Ok) : ∃ b s', s.takeBit = ((BitVec.ofNat 64 b.toNat, none), s') ∧ s'.Ok ∧
    s.events = .bit b :: s'.events := by
  unfold Ok at hs
  refine ⟨s.buf.getLsbD (s.left - 1), { s with left := s.left - 1 }, ?_, by simp only [Ok]; omega, ?_⟩
  · unfold takeBit
    dsimp only
    rw [Golomb.bit_of_byte]
  · have := store_cons s.buf (s.left - 1) (by omega)
    rw [show s.left - 1 + 1 = s.left by omega] at this
    unfold events
    rw [this]
    rfl

theorem readBit_spec (s : GolombIO) (hs : s.Ok) :
    (s.events = [] → s.readBit = ((0, some "EOF"), s)) ∧
    (∀ b es, s.events = .bit b :: es → ∃ s', s.readBit = ((BitVec.ofNat 64 b.toNat, none), s') ∧ s'.Ok ∧ s'.events = es) ∧
    (∀ e es, s.events = .fail e :: es → ∃ s', s.readBit = ((0, some e), s') ∧ s'.Ok ∧ s'.events = es) := by
  by_cases h0 : s.left = 0
  · have hev : s.events = s.answers.flatMap Answer.events := by
      unfold events
      rw [h0, List.drop_eq_nil_of_le (by simp [byteBits])]
      rfl
    unfold readBit
    rw [if_pos h0, hev]
    cases ha : s.answers with
    | nil => exact ⟨fun _ => rfl, fun _ _ h => by (cases h), fun _ _ h => by (cases h)⟩
    | cons a as =>
      dsimp only
      rw [List.flatMap_cons]
      cases he : a.err with
      | some e =>
        have hae : a.events = [.fail e] := by unfold Answer.events; rw [he]
        rw [hae]
        refine ⟨fun h => by (cases h), fun _ _ h => by (cases h), fun e' es h => ?_⟩
        simp only [List.cons_append, List.nil_append, List.cons.injEq, BitEvent.fail.injEq] at h
        obtain ⟨rfl, rfl⟩ := h
        refine ⟨_, rfl, by simp [Ok, h0], ?_⟩
        unfold events
        simp only [h0]
        rw [List.drop_eq_nil_of_le (by simp [byteBits])]
        rfl
      | none =>
        have hae : a.events = (byteBits a.byte).map .bit := by unfold Answer.events; rw [he]
        obtain ⟨b, s', h1, h2, h3⟩ := takeBit_spec { answers := as, buf := a.byte, left := 8 } (by simp) (by simp [Ok])
        have hev' : a.events ++ as.flatMap Answer.events = .bit b :: s'.events := by
          rw [← h3, hae]
          rfl
        rw [hev']
        dsimp only
        refine ⟨fun h => by (cases h), fun b' es h => ?_, fun _ _ h => by (cases h)⟩
        simp only [List.cons.injEq, BitEvent.bit.injEq] at h
        obtain ⟨rfl, rfl⟩ := h
        exact ⟨s', h1, h2, rfl⟩
  · unfold readBit
    rw [if_neg h0]
    obtain ⟨b, s', h1, h2, h3⟩ := takeBit_spec s h0 hs
    rw [h3]
    refine ⟨fun h => by (cases h), fun b' es h => ?_, fun _ _ h => by (cases h)⟩
    simp only [List.cons.injEq, BitEvent.bit.injEq] at h
    obtain ⟨rfl, rfl⟩ := h
    exact ⟨s', h1, h2, rfl⟩

theorem readBit_follows {tail : List BitEvent} {g : Golomb} {s : GolombIO} (h : Ahead tail g s) (ht : (errorOf tail).isSome) :
    Follows tail g.readBit s.readBit := by
  obtain ⟨h1, h2, h3⟩ := readBit_spec s h.okS
  cases hg : g.todo with
  | nil =>
    right
    have hev := h.events
    rw [hg] at hev
    refine ⟨Golomb.readBit_nil hg h.okG, ?_⟩
    cases tail with
    | nil =>
      rw [h1 hev]
      exact ⟨rfl, h.okS, hev⟩
    | cons x tail =>
      cases x with
      | bit b => cases ht
      | fail e =>
        obtain ⟨s', e1, e2, e3⟩ := h3 e tail hev
        rw [e1]
        exact ⟨rfl, e2, e3⟩
  | cons b bs =>
    left
    obtain ⟨g', e1, e2, e3⟩ := Golomb.readBit_cons h.okG hg
    have hev := h.events
    rw [hg] at hev
    obtain ⟨s', e4, e5, e6⟩ := h2 b _ hev
    exact ⟨_, g', e1, by rw [e4], by rw [e4]; exact ⟨e2, e5, by rw [e6, e3]; rfl⟩⟩

/-- A step of a loop. -/
theorem follows_cases {w : Nat} {tail : List BitEvent} {rg : Go (BitVec w × Golomb)} {rs : Result w} (h : Follows tail rg rs)
    (ht : (errorOf tail).isSome) :
    (∃ v g' s', rg = ok (v, g') ∧ rs = ((v, none), s') ∧ Ahead tail g' s') ∨
    (∃ v e s', rg = err "EOF" ∧ rs = ((v, some e), s') ∧ errorOf tail = some e ∧ s'.Ok ∧ s'.events = tail.tail) := by
  obtain ⟨⟨v, x⟩, s'⟩ := rs
  rcases h with ⟨v', g', h1, h2, h3⟩ | ⟨h1, h2, h3, h4⟩
  · left
    simp only at h2
    rw [h2]
    exact ⟨v', g', s', h1, rfl, h3⟩
  · right
    simp only at h2
    obtain ⟨e, he⟩ := Option.isSome_iff_exists.1 ht
    exact ⟨v, e, s', h1, by rw [h2, he], he, h3, h4⟩

theorem follows_error {w : Nat} {tail : List BitEvent} {v : BitVec w} {e : String} {s : GolombIO} (he : errorOf tail = some e) (hs : s.Ok)
    (hev : s.events = tail.tail) : Follows tail (err "EOF") ((v, some e), s) := Or.inr ⟨rfl, he.symm, hs, hev⟩

theorem readBitsLoop_follows {tail : List BitEvent} (ht : (errorOf tail).isSome) : ∀ (m : Nat) (res : BitVec 64) {g : Golomb} {s : GolombIO},
    Ahead tail g s → Follows tail (Golomb.readBitsLoop m res g) (readBitsLoop m res s)
  | 0, res, g, s, h => Or.inl ⟨res, g, rfl, rfl, h⟩
  | m + 1, res, g, s, h => by
    unfold Golomb.readBitsLoop readBitsLoop
    rcases follows_cases (readBit_follows h ht) ht with ⟨v, g', s', h1, h2, h3⟩ | ⟨v, e, s', h1, h2, h3, h4, h5⟩
    · rw [h1, h2]
      exact readBitsLoop_follows ht m _ h3
    · rw [h1, h2]
      exact follows_error h3 h4 h5

theorem readBits32Loop_follows {tail : List BitEvent} (ht : (errorOf tail).isSome) : ∀ (m : Nat) (res : BitVec 32) {g : Golomb} {s : GolombIO},
    Ahead tail g s → Follows tail (Golomb.readBits32Loop m res g) (readBits32Loop m res s)
  | 0, res, g, s, h => Or.inl ⟨res, g, rfl, rfl, h⟩
  | m + 1, res, g, s, h => by
    unfold Golomb.readBits32Loop readBits32Loop
    rcases follows_cases (readBit_follows h ht) ht with ⟨v, g', s', h1, h2, h3⟩ | ⟨v, e, s', h1, h2, h3, h4, h5⟩
    · rw [h1, h2]
      exact readBits32Loop_follows ht m _ h3
    · rw [h1, h2]
      exact follows_error h3 h4 h5

theorem readBits64Loop_follows {tail : List BitEvent} (ht : (errorOf tail).isSome) : ∀ (m : Nat) (res : BitVec 64) {g : Golomb} {s : GolombIO},
    Ahead tail g s → Follows tail (Golomb.readBits64Loop m res g) (readBits64Loop m res s)
  | 0, res, g, s, h => Or.inl ⟨res, g, rfl, rfl, h⟩
  | m + 1, res, g, s, h => by
    unfold Golomb.readBits64Loop readBits64Loop
    rcases follows_cases (readBit_follows h ht) ht with ⟨v, g', s', h1, h2, h3⟩ | ⟨v, e, s', h1, h2, h3, h4, h5⟩
    · rw [h1, h2]
      exact readBits64Loop_follows ht m _ h3
    · rw [h1, h2]
      exact follows_error h3 h4 h5

theorem ueZeros_follows {tail : List BitEvent} (ht : (errorOf tail).isSome) (i : Nat) {g : Golomb} {s : GolombIO} (h : Ahead tail g s) :
    (∃ k g' s', Golomb.ueZeros i g = ok (k, g') ∧ ueZeros i s = (.ok k, s') ∧ Ahead tail g' s') ∨
    (∃ e s', Golomb.ueZeros i g = err "EOF" ∧ ueZeros i s = (.error e, s') ∧ errorOf tail = some e ∧ s'.Ok ∧ s'.events = tail.tail) := by
  unfold Golomb.ueZeros ueZeros
  rcases follows_cases (readBit_follows h ht) ht with ⟨v, g', s', h1, h2, h3⟩ | ⟨v, e, s', h1, h2, h3, h4, h5⟩
  · rw [h1, h2]
    dsimp only
    by_cases hb : v = 0 ∧ i < 32
    · rw [dif_pos hb, dif_pos hb]
      exact ueZeros_follows ht (i + 1) h3
    · rw [dif_neg hb, dif_neg hb]
      exact Or.inl ⟨i, g', s', rfl, rfl, h3⟩
  · rw [h1, h2]
    exact Or.inr ⟨e, s', rfl, rfl, h3, h4, h5⟩
termination_by 32 - i

theorem readUE_follows {tail : List BitEvent} (ht : (errorOf tail).isSome) {g : Golomb} {s : GolombIO} (h : Ahead tail g s) :
    Follows tail g.readUE s.readUE := by
  unfold Golomb.readUE readUE
  rcases ueZeros_follows ht 0 h with ⟨k, g', s', h1, h2, h3⟩ | ⟨e, s', h1, h2, h3, h4, h5⟩
  · rw [h1, h2]
    simp only [ok_bind]
    have := readBitsLoop_follows ht (k : Int).toNat 0 h3
    unfold Golomb.readBits readBits
    rcases follows_cases this ht with ⟨v, g2, s2, e1, e2, e3⟩ | ⟨v, e, s2, e1, e2, e3, e4, e5⟩
    · rw [e1, e2]
      exact Or.inl ⟨_, g2, rfl, rfl, e3⟩
    · rw [e1, e2]
      exact follows_error e3 e4 e5
  · rw [h1, h2]
    exact follows_error h3 h4 h5

theorem readSE_follows {tail : List BitEvent} (ht : (errorOf tail).isSome) {g : Golomb} {s : GolombIO} (h : Ahead tail g s) :
    Follows tail g.readSE s.readSE := by
  unfold Golomb.readSE readSE
  rcases follows_cases (readUE_follows ht h) ht with ⟨v, g', s', h1, h2, h3⟩ | ⟨v, e, s', h1, h2, h3, h4, h5⟩
  · rw [h1, h2]
    simp only [ok_bind]
    split
    · exact Or.inl ⟨_, g', rfl, rfl, h3⟩
    · exact Or.inl ⟨_, g', rfl, rfl, h3⟩
  · rw [h1, h2]
    exact follows_error h3 h4 h5

end GolombIO
end Avf
