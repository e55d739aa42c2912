import Verif.Lemmas.AnnexUnits
import Verif.Props.Packet
/-! # C34 and C36, exactly: Annex B to AVCC for every payload -/
namespace Avf
open Go

/-- **C34** (exact): for every byte string `p` and every destination. `p` has exactly one list of units in the sense of `AnnexUnits`; the function
panics exactly if there is no room for the length field of the last one, and otherwise returns the size of the
length-prefixed form of the units and writes as much of it as fits. -/
theorem C34_exact (p : Bytes) : ∃ us, AnnexUnits p us ∧ (∀ vs, AnnexUnits p vs → vs = us) ∧ ∀ dst : Bytes,
    annexB2AVCC dst p =
      if us ≠ [] ∧ dst.length < (avcc us.dropLast).length + 4 then panic
      else ok ((avcc us).length, (avcc us).take dst.length ++ dst.drop (avcc us).length) := by
  obtain ⟨us, h⟩ := annexUnits_exists p
  exact ⟨us, h, fun _ hv => annexUnits_unique hv h, annexB2AVCC_units h⟩

/-- **C34**: with room enough, for any units. -/
theorem C34_fits (p : Bytes) (us : List Bytes) (h : AnnexUnits p us) (dst : Bytes) (hfit : (avcc us).length ≤ dst.length) :
    annexB2AVCC dst p = ok ((avcc us).length, avcc us ++ dst.drop (avcc us).length) := by
  rw [annexB2AVCC_units h, if_neg, List.take_of_length_le hfit]
  rintro ⟨hne, hl⟩
  have : avcc us = avcc us.dropLast ++ avccUnit 4 (us.getLast hne) := by
    conv => lhs; rw [← List.dropLast_concat_getLast hne]
    simp [avcc]
  rw [this, List.length_append, length_avccUnit] at hfit
  omega

/-- Clean units are the units of their stream. -/
theorem annexUnits_clean (pre : Bytes) (hpre : NoCode pre) (xs : List (Bool × Bytes)) (hne : xs ≠ []) (hxs : ∀ x ∈ xs, Clean x.2) :
    AnnexUnits (pre ++ annexB xs) (xs.map (·.2)) := by
  have key : ∀ (xs : List (Bool × Bytes)) (u : Bytes), Clean u → (∀ x ∈ xs, Clean x.2) →
      UnitsOf (u ++ annexB xs) (u :: xs.map (·.2)) := by
    intro xs
    induction xs with
    | nil =>
      intro u hu _
      have := UnitsOf.last 0 u hu.ne hu.head (fun j h => hu.noCode.not_codeAt _ h.2.2)
      simpa [annexB] using this
    | cons y ys ih =>
      intro u hu hys
      have hy := hys y (by simp)
      have h1 := ih y.2 hy (fun x hx => hys x (by simp [hx]))
      obtain ⟨a, v, hv⟩ := List.exists_cons_of_ne_nil hy.ne
      rw [hv] at h1
      have := UnitsOf.next 0 u y.1 a (v ++ annexB ys) _ hu.ne hu.head hu.noCode (fun _ => hu.last) h1
      rw [annexB_cons, List.map_cons, hv]
      simpa using this
  obtain ⟨x, xs, rfl⟩ := List.exists_cons_of_ne_nil hne
  have hx := hxs x (by simp)
  obtain ⟨a, v, hv⟩ := List.exists_cons_of_ne_nil hx.ne
  have h1 := key xs x.2 hx (fun y hy => hxs y (by simp [hy]))
  right
  rw [hv] at h1
  refine ⟨if x.1 then pre ++ [0] else pre, a, v ++ annexB xs, ?_, ?_, by rw [List.map_cons, hv]; exact h1⟩
  · rw [annexB_cons, hv]
    cases x.1 <;> simp [code]
  · cases x.1
    · exact hpre
    · exact noCode_append_zero hpre

/-- **C36** (exact): for every packet, whatever its payload: with the default allocation the conversion succeeds if and only
if the length-prefixed form of the units is at most 256 bytes longer than the payload, and it panics otherwise. -/
theorem C36_exact (p : AVPacket) (h : AnnexBPacket p) (ha : p.onBufferAlloc = none) (us : List Bytes) (hu : AnnexUnits p.data us) :
    ((avcc us).length ≤ p.data.length + 256 → annexBPacket2AVCC p = ok (avcc us, { p with dataAVCC := some (avcc us) })) ∧
    (p.data.length + 256 < (avcc us).length → annexBPacket2AVCC p = panic) := by
  have hal : p.allocBuffer (p.data.length + 256) = List.replicate (p.data.length + 256) 0 := by unfold AVPacket.allocBuffer; rw [ha]
  rw [annexBPacket2AVCC_run h, hal]
  constructor
  · intro hfit
    rw [C34_fits _ us hu _ (by rw [List.length_replicate]; exact hfit), ok_bind]
    dsimp only
    rw [slice_of_le (by omega) (by simp), ok_bind, List.take_left]
    rfl
  · intro hbig
    rw [annexB2AVCC_units hu]
    split
    · rfl
    · rw [ok_bind]
      dsimp only
      unfold slice
      rw [if_neg (by simp; omega)]
      rfl

/-- **C36**: which packets panic. -/
theorem C36_panics_iff (p : AVPacket) (h : AnnexBPacket p) (ha : p.onBufferAlloc = none) :
    annexBPacket2AVCC p = panic ↔ ∃ us, AnnexUnits p.data us ∧ p.data.length + 256 < (avcc us).length := by
  constructor
  · intro hp
    obtain ⟨us, hu⟩ := annexUnits_exists p.data
    refine ⟨us, hu, Nat.lt_of_not_le fun hle => ?_⟩
    rw [(C36_exact p h ha us hu).1 hle] at hp
    cases hp
  · rintro ⟨us, hu, hb⟩
    exact (C36_exact p h ha us hu).2 hb

-- an empty unit: the start code of the next one is taken for data
example : AnnexUnits [0, 0, 0, 1, 0, 0, 0, 1, 0x67, 0x42] [[1, 0x67, 0x42]] :=
  Or.inr ⟨[0], 0, [0, 0, 1, 0x67, 0x42], rfl, by decide, UnitsOf.last 3 [1, 0x67, 0x42] (by decide) (by decide) (by
    intro j h; have := h.1; have := h.2.1; simp at this; omega)⟩
-- a unit that ends in a zero byte, with a long and with a short start code behind it
example : AnnexUnits [0, 0, 1, 0x67, 0, 0, 0, 0, 1, 0x68] [[0x67, 0], [0x68]] :=
  Or.inr ⟨[], 0x67, [0, 0, 0, 0, 1, 0x68], rfl, by decide, UnitsOf.next 0 [0x67, 0] true 0x68 [] [[0x68]] (by decide) (by decide)
    (by decide) (by decide) (UnitsOf.last 0 [0x68] (by decide) (by decide) (by intro j h; have := h.1; have := h.2.1; simp at this; omega))⟩
example : annexB2AVCC (List.replicate 13 9) [0, 0, 1, 0x67, 0, 0, 0, 0, 1, 0x68] = ok (11, [0, 0, 0, 2, 0x67, 0, 0, 0, 0, 1, 0x68, 9, 9]) := by
  decide +kernel
-- a destination that is too short
example : annexB2AVCC (List.replicate 10 9) [0, 0, 1, 0x67, 0, 0, 0, 0, 1, 0x68] = ok (11, [0, 0, 0, 2, 0x67, 0, 0, 0, 0, 1]) := by
  decide +kernel
example : annexB2AVCC (List.replicate 9 9) [0, 0, 1, 0x67, 0, 0, 0, 0, 1, 0x68] = Go.panic := by decide +kernel

end Avf
