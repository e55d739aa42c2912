import Verif.Props.SpsFloor
/-!
# C114: the steps of the reads of a `GolombBitReader`, exactly

`ReadBits`, `ReadBits32`, `ReadBits64`, `ReadExponentialGolombCode` and `ReadSE` take two steps for each bit that they consume: a round and a call.
-/
namespace Avf
open Go

/-- Two steps for each bit. -/
def CRd.Twice {α : Type} (x : CRd α) : Prop := ∀ g a g', (x g).1 = ok (a, g') → (x g).2 + 2 * g'.room = 2 * g.room

namespace CRd.Twice

theorem pure {α : Type} (a : α) : Twice (Pure.pure a : CRd α) := by
  intro g b g' h
  have h : (ok (a, g) : Go (α × Golomb)) = ok (b, g') := h
  injection h with h; injection h with _ h; subst h
  exact Nat.zero_add _

theorem bind {α β : Type} {x : CRd α} {f : α → CRd β} (hx : Twice x) (hf : ∀ a, Twice (f a)) : Twice (x >>= f) := by
  intro g b g2
  have e1 : (x >>= f) g = (match x g with
    | (.ok (a, g'), c) => ((f a g').1, c + (f a g').2)
    | (.err e, c) => (.err e, c)
    | (.panic, c) => (.panic, c)) := rfl
  have h1 := hx g
  rw [e1]
  rcases hr : x g with ⟨r, c⟩
  rw [hr] at h1
  cases r with
  | ok r =>
    obtain ⟨a, g'⟩ := r
    have k0 := h1 a g' rfl
    intro h
    have := hf a g' b g2 h
    simp only at k0 ⊢
    omega
  | err m => intro h; cases h
  | panic => intro h; cases h

theorem round_bit : Twice (CRd.round >>= fun _ => CRd.bit) := by
  intro g a g' h
  have h : g.readBit = ok (a, g') := h
  have := (CRd.Floor.readBit_room g).1 a g' h
  show (1 + 1) + _ = _
  omega

theorem assoc {β : Type} (f : BitVec 64 → CRd β) : (CRd.round >>= fun _ => CRd.bit >>= f) = ((CRd.round >>= fun _ => CRd.bit) >>= f) := by
  funext g
  have run : ∀ {α γ : Type} (x : CRd α) (h : α → CRd γ), (x >>= h) g = (match x g with
    | (.ok (a, g'), c) => ((h a g').1, c + (h a g').2)
    | (.err e, c) => (.err e, c)
    | (.panic, c) => (.panic, c)) := fun _ _ => rfl
  have first : ∀ {γ : Type} (x : CRd γ), (CRd.round >>= fun _ => x) g = ((x g).1, 1 + (x g).2) := fun _ => rfl
  rw [first, run CRd.bit f, run (CRd.round >>= fun _ => CRd.bit) f, first]
  rcases CRd.bit g with ⟨⟨x, y⟩ | m | _, c⟩
  · simp only [Nat.add_assoc]
  · rfl
  · rfl

theorem step {β : Type} {f : BitVec 64 → CRd β} (hf : ∀ b, Twice (f b)) : Twice (CRd.round >>= fun _ => CRd.bit >>= f) := by
  rw [assoc]; exact bind round_bit hf

theorem nbits (n : Nat) : Twice (CRd.nbits n) := by
  unfold CRd.nbits
  generalize (0 : BitVec 64) = r
  induction n generalizing r with
  | zero => exact pure _
  | succ n ih => exact step fun _ => ih _

theorem nbits32 (n : Nat) : Twice (CRd.nbits32 n) := by
  unfold CRd.nbits32
  generalize (0 : BitVec 32) = r
  induction n generalizing r with
  | zero => exact pure _
  | succ n ih => exact step fun _ => ih _

theorem nbits64 (n : Nat) : Twice (CRd.nbits64 n) := by
  unfold CRd.nbits64
  generalize (0 : BitVec 64) = r
  induction n generalizing r with
  | zero => exact pure _
  | succ n ih => exact step fun _ => ih _

theorem ueZeros (k : Nat) : ∀ i, 32 - i = k → Twice (CRd.ueZeros i) := by
  induction k with
  | zero =>
    intro i hi
    rw [CRd.ueZeros]
    refine step fun b => ?_
    split
    · omega
    · exact pure _
  | succ k ih =>
    intro i hi
    rw [CRd.ueZeros]
    refine step fun b => ?_
    split
    · exact ih (i + 1) (by omega)
    · exact pure _

theorem ue : Twice CRd.ue := bind (ueZeros _ 0 rfl) fun _ => bind (nbits _) fun _ => pure _

theorem se : Twice CRd.se := bind ue fun _ => by
  split
  · exact pure _
  · exact pure _

end CRd.Twice

/-- **C114** the reads, exactly. -/
theorem C114_reads (n : Nat) : (CRd.nbits n).Twice ∧ (CRd.nbits32 n).Twice ∧ (CRd.nbits64 n).Twice ∧ CRd.ue.Twice ∧ CRd.se.Twice :=
  ⟨.nbits n, .nbits32 n, .nbits64 n, .ue, .se⟩

/-- The code word 00111 of 6: ten steps. -/
example : (CRd.ue (Golomb.ofBytes [0x3F])).1 = ok (6, ⟨[], 0x3F, 3⟩) ∧ (CRd.ue (Golomb.ofBytes [0x3F])).2 = 10 := by
  refine ⟨?_, ?_⟩ <;> decide +kernel

end Avf
