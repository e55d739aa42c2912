import Verif.Model.SpsCost
import Mathlib.Tactic.Linarith
/-!
# Counting the steps of a parser does not change it, and each bit read pays for three steps
-/
namespace Avf
open Go

/-- The bits that a reader still has. -/
def Golomb.room (g : Golomb) : Nat := 8 * g.rest.length + g.left

/-- `x` is `y` with a counter. With the price of three steps for each bit, `x` takes at most `A` steps more than it pays for if it
succeeds and at most `B` steps more if it fails. -/
def Counts {α : Type} (x : CRd α) (y : Rd α) (A B : Int) : Prop :=
  ∀ g, (x g).1 = y g ∧
    (∀ a g', y g = ok (a, g') → ((x g).2 : Int) + 3 * g'.room ≤ 3 * g.room + A) ∧
    ((∀ r, y g ≠ ok r) → ((x g).2 : Int) ≤ 3 * g.room + B)

theorem Counts.mono {α : Type} {x : CRd α} {y : Rd α} {A B A' B' : Int} (h : Counts x y A B) (ha : A ≤ A') (hb : B ≤ B') :
    Counts x y A' B' := by
  intro g
  obtain ⟨h1, h2, h3⟩ := h g
  exact ⟨h1, fun a g' e => (h2 a g' e).trans (by omega), fun e => (h3 e).trans (by omega)⟩

theorem Counts.pure {α : Type} (a : α) : Counts (Pure.pure a : CRd α) (Pure.pure a) 0 0 := by
  intro g
  refine ⟨rfl, fun b g' e => ?_, fun e => absurd rfl (e (a, g))⟩
  have : (ok (a, g) : Go (α × Golomb)) = ok (b, g') := e
  injection this with this
  injection this with _ h
  subst h
  show ((0 : Nat) : Int) + _ ≤ _
  omega

theorem Counts.bindP {α β : Type} {x : CRd α} {y : Rd α} {f : α → CRd β} {h : α → Rd β} {A B A' B' : Int} (hx : Counts x y A B)
    (P : α → Prop) (hP : ∀ g a g', y g = ok (a, g') → P a) (hf : ∀ a, P a → Counts (f a) (h a) A' B') : Counts (x >>= f) (y >>= h) (A + A') (max B (A + B')) := by
  intro g
  obtain ⟨h1, h2, h3⟩ := hx g
  have e1 : (x >>= f) g = (match x g with
    | (.ok (a, g'), c) => ((f a g').1, c + (f a g').2)
    | (.err e, c) => (.err e, c)
    | (.panic, c) => (.panic, c)) := rfl
  have e2 : (y >>= h) g = (y g >>= fun r => h r.1 r.2) := rfl
  rw [e1, e2, ← h1]
  rw [← h1] at h2 h3
  rcases hr : x g with ⟨r, c⟩
  rw [hr] at h2 h3
  cases r with
  | ok r =>
    obtain ⟨a, g'⟩ := r
    obtain ⟨k1, k2, k3⟩ := hf a (hP g a g' (by rw [← h1, hr])) g'
    have hc := h2 a g' rfl
    simp only [ok_bind] at hc ⊢
    refine ⟨k1, fun b g2 e => ?_, fun e => ?_⟩
    · have := k2 b g2 e; push_cast; omega
    · have := k3 e; push_cast; omega
  | err e =>
    refine ⟨rfl, fun _ _ e => by simp at e, fun _ => ?_⟩
    have := h3 (fun r => by simp)
    simp only at this ⊢
    omega
  | panic =>
    refine ⟨rfl, fun _ _ e => by simp at e, fun _ => ?_⟩
    have := h3 (fun r => by simp)
    simp only at this ⊢
    omega

theorem Counts.bind {α β : Type} {x : CRd α} {y : Rd α} {f : α → CRd β} {h : α → Rd β} {A B A' B' : Int} (hx : Counts x y A B)
    (hf : ∀ a, Counts (f a) (h a) A' B') : Counts (x >>= f) (y >>= h) (A + A') (max B (A + B')) :=
  hx.bindP (fun _ => True) (fun _ _ _ _ => trivial) fun a _ => hf a

/-- A round of a loop in front of a program. -/
theorem Counts.round {α : Type} {x : CRd α} {y : Rd α} {A B : Int} (h : Counts x y A B) :
    Counts (CRd.round >>= fun _ => x) y (A + 1) (B + 1) := by
  intro g
  obtain ⟨h1, h2, h3⟩ := h g
  have e : (CRd.round >>= fun _ => x) g = ((x g).1, 1 + (x g).2) := rfl
  rw [e]
  exact ⟨h1, fun a g' e => by have := h2 a g' e; push_cast; omega, fun e => by have := h3 e; push_cast; omega⟩

theorem Golomb.readBit_room {g g' : Golomb} {a : BitVec 64} (h : g.readBit = ok (a, g')) : g'.room + 1 = g.room := by
  unfold Golomb.readBit at h
  split at h
  · rename_i hl
    cases hr : g.rest with
    | nil => rw [hr] at h; simp at h
    | cons b t =>
      rw [hr] at h
      simp only [ok_bind, Go.pure_def] at h
      injection h with h; injection h with _ h
      subst h
      simp only [Golomb.room, hr, hl, List.length_cons]
      omega
  · rename_i hl
    simp only [ok_bind, Go.pure_def] at h
    injection h with h; injection h with _ h
    subst h
    simp only [Golomb.room]
    omega

theorem Counts.bit : Counts CRd.bit Rd.bit (-2) 1 := by
  intro g
  refine ⟨rfl, fun a g' e => ?_, fun _ => ?_⟩
  · have := Golomb.readBit_room e
    show ((1 : Nat) : Int) + _ ≤ _
    omega
  · show ((1 : Nat) : Int) ≤ _
    omega

theorem Counts.bitOrZero : Counts CRd.bitOrZero Rd.bitOrZero 1 1 := by
  intro g
  unfold CRd.bitOrZero Rd.bitOrZero
  cases hr : g.readBit with
  | ok r =>
    obtain ⟨b, g1⟩ := r
    refine ⟨rfl, fun a g' e => ?_, fun e => absurd rfl (e _)⟩
    simp only at e
    injection e with e; injection e with _ e; subst e
    have := Golomb.readBit_room hr
    simp only; omega
  | err m =>
    refine ⟨rfl, fun a g' e => ?_, fun e => absurd rfl (e _)⟩
    simp only at e
    injection e with e; injection e with _ e; subst e
    simp only; omega
  | panic =>
    refine ⟨rfl, fun a g' e => by simp at e, fun _ => ?_⟩
    simp only; omega

theorem Counts.ite {α : Type} {c : Prop} [Decidable c] {x x' : CRd α} {y y' : Rd α} {A B A' B' : Int} (h : Counts x y A B)
    (h' : Counts x' y' A' B') : Counts (if c then x else x') (if c then y else y') (max A A') (max B B') := by
  split
  · exact h.mono (by omega) (by omega)
  · exact h'.mono (by omega) (by omega)

theorem Counts.when {c : Bool} {x : CRd Unit} {y : Rd Unit} {A B : Int} (h : Counts x y A B) :
    Counts (CRd.when c x) (Rd.when c y) (max A 0) (max B 0) := by
  unfold CRd.when Rd.when
  exact h.ite (Counts.pure ())

theorem Counts.skip {α : Type} {x : CRd α} {y : Rd α} {A B : Int} (h : Counts x y A B) :
    Counts x.skip y.skip A (max B A) := by
  unfold CRd.skip Rd.skip
  exact (h.bind fun _ => Counts.pure ()).mono (by omega) (by omega)

theorem Counts.bitsLoop (n : Nat) (r : BitVec 64) : Counts (CRd.bitsLoop n r) (Golomb.readBitsLoop n r) 0 2 := by
  induction n generalizing r with
  | zero => exact (Counts.pure r).mono (by omega) (by omega)
  | succ m ih => exact (Counts.bind Counts.bit fun b => ih _).round.mono (by omega) (by omega)

theorem Counts.nbits (n : Nat) : Counts (CRd.nbits n) (Rd.nbits n) 0 2 := Counts.bitsLoop n 0

theorem Counts.bits32Loop (n : Nat) (r : BitVec 32) : Counts (CRd.bits32Loop n r) (Golomb.readBits32Loop n r) 0 2 := by
  induction n generalizing r with
  | zero => exact (Counts.pure r).mono (by omega) (by omega)
  | succ m ih => exact (Counts.bind Counts.bit fun b => ih _).round.mono (by omega) (by omega)

theorem Counts.nbits32 (n : Nat) : Counts (CRd.nbits32 n) (Rd.nbits32 n) 0 2 := Counts.bits32Loop n 0

theorem Counts.bits64Loop (n : Nat) (r : BitVec 64) : Counts (CRd.bits64Loop n r) (Golomb.readBits64Loop n r) 0 2 := by
  induction n generalizing r with
  | zero => exact (Counts.pure r).mono (by omega) (by omega)
  | succ m ih => exact (Counts.bind Counts.bit fun b => ih _).round.mono (by omega) (by omega)

theorem Counts.nbits64 (n : Nat) : Counts (CRd.nbits64 n) (Rd.nbits64 n) 0 2 := Counts.bits64Loop n 0

theorem ueZeros_rd (i : Nat) : (Golomb.ueZeros i : Rd Nat) =
    (Rd.bit >>= fun b => if b = 0 ∧ i < 32 then (Golomb.ueZeros (i + 1) : Rd Nat) else pure i) := by
  funext g
  have e : ∀ f : BitVec 64 → Rd Nat, (Rd.bit >>= f) g = (g.readBit >>= fun r => f r.1 r.2) := fun _ => rfl
  rw [e, Golomb.ueZeros]
  cases g.readBit with
  | ok r =>
    obtain ⟨b, g'⟩ := r
    simp only [ok_bind]
    split <;> rfl
  | err m => rfl
  | panic => rfl

/-- At least one bit is read, so the loop leaves a step over. -/
theorem Counts.ueZeros (k i : Nat) (hk : 32 - i ≤ k) : Counts (CRd.ueZeros i) (Golomb.ueZeros i) (-1) 2 := by
  induction k generalizing i with
  | zero =>
    rw [CRd.ueZeros, ueZeros_rd]
    refine (Counts.round (Counts.bind (A' := 0) (B' := 0) Counts.bit fun b => ?_)).mono (by omega) (by omega)
    rw [dif_neg (by omega), if_neg (by omega)]
    exact Counts.pure i
  | succ k ih =>
    rw [CRd.ueZeros, ueZeros_rd]
    refine (Counts.round (Counts.bind (A' := 0) (B' := 2) Counts.bit fun b => ?_)).mono (by omega) (by omega)
    split
    · exact (ih (i + 1) (by omega)).mono (by omega) (by omega)
    · exact (Counts.pure i).mono (by omega) (by omega)

theorem Counts.ue : Counts CRd.ue Rd.ue (-1) 2 :=
  ((Counts.ueZeros 32 0 (by omega)).bind fun i => (Counts.nbits i).bind fun r =>
    Counts.pure (r + (((1 : BitVec 64) <<< i) - 1))).mono (by omega) (by omega)

theorem readSE_rd : Rd.se = (Rd.ue >>= fun res =>
    if res &&& 1 ≠ 0 then pure ((res + 1) / 2) else pure ((-res) / 2) : Rd (BitVec 64)) := by
  funext g
  have e : ∀ f : BitVec 64 → Rd (BitVec 64), (Rd.ue >>= f) g = (g.readUE >>= fun r => f r.1 r.2) := fun _ => rfl
  rw [e]
  show g.readSE = _
  unfold Golomb.readSE
  cases g.readUE with
  | ok r =>
    obtain ⟨b, g'⟩ := r
    simp only [ok_bind]
    split <;> rfl
  | err m => rfl
  | panic => rfl

theorem Counts.se : Counts CRd.se Rd.se (-1) 2 := by
  rw [readSE_rd]
  unfold CRd.se
  exact (Counts.ue.bind fun r => Counts.ite (Counts.pure _) (Counts.pure _)).mono (by omega) (by omega)

/-- A loop whose rounds pay for themselves, however often it is to run. -/
theorem Counts.times {x : CRd Unit} {y : Rd Unit} {B : Int} (h : Counts x y (-1) B) (hB : 0 ≤ B) (n : Nat) :
    Counts (CRd.times n x) (Rd.times n y) 0 (B + 1) := by
  induction n with
  | zero => exact (Counts.pure ()).mono (by omega) (by omega)
  | succ n ih =>
    show Counts (CRd.round >>= fun _ => x >>= fun _ => CRd.times n x) (y >>= fun _ => Rd.times n y) 0 (B + 1)
    exact (h.bind fun _ => ih).round.mono (by omega) (by omega)

/-! ## H.264 -/

theorem Counts.avcScalingLoop (n : Nat) (a b : BitVec 64) : Counts (avcScalingLoopC n a b) (avcScalingLoop n a b) n (n + 2) := by
  induction n generalizing a b with
  | zero => exact (Counts.pure ()).mono (by omega) (by omega)
  | succ n ih =>
    refine ((Counts.bind (A := 0) (B := 2) ?_ fun x => ih _ _).round).mono (by push_cast; omega) (by push_cast; omega)
    exact (Counts.ite (Counts.se.bind fun d => Counts.pure _) (Counts.pure b)).mono (by omega) (by omega)

theorem Counts.avcScalingLists (n : Nat) : Counts (avcScalingListsC n) (avcScalingLists n) (64 * n) (64 * n + 3) := by
  induction n with
  | zero => exact (Counts.pure ()).mono (by omega) (by omega)
  | succ n ih =>
    refine ((Counts.bit.bind fun p => Counts.bind (A := 64) (B := 66) ?_ fun _ => ih).round).mono
      (by push_cast; omega) (by push_cast; omega)
    refine (Counts.when (A := 64) (B := 66) ((Counts.avcScalingLoop _ 8 8).mono ?_ ?_)).mono (by omega) (by omega) <;>
      split <;> norm_num

theorem Counts.avcHigh : Counts avcHighC avcHigh 512 515 :=
  (Counts.ue.bind fun _ => (Counts.when Counts.bit.skip).bind fun _ => Counts.ue.bind fun _ => Counts.ue.bind fun _ =>
    Counts.bit.bind fun _ => Counts.bit.bind fun _ => (Counts.when (Counts.avcScalingLists 8))).mono (by omega) (by omega)

theorem Counts.avcPoc : Counts avcPocC avcPoc 0 3 :=
  (Counts.ue.bind fun _ => Counts.ite Counts.ue.skip (Counts.ite
    (Counts.bit.bind fun _ => Counts.se.bind fun _ => Counts.se.bind fun _ => Counts.ue.bind fun n =>
      Counts.times Counts.se.skip (by omega) n.toNat) (Counts.pure ()))).mono (by omega) (by omega)

theorem Counts.avcCrop : Counts avcCropC avcCrop 0 2 :=
  (Counts.bit.bind fun _ => Counts.ite (Counts.ue.bind fun _ => Counts.ue.bind fun _ => Counts.ue.bind fun _ =>
    Counts.ue.bind fun _ => Counts.pure _) (Counts.pure _)).mono (by omega) (by omega)

theorem Counts.avcTiming (u : Int) : Counts (avcTimingC u) (avcTiming u) 0 2 :=
  (Counts.bit.bind fun _ => Counts.ite ((Counts.nbits 32).bind fun _ => (Counts.nbits 32).bind fun _ =>
    Counts.bit.bind fun _ => Counts.pure _) (Counts.pure _)).mono (by omega) (by omega)

theorem Counts.avcAspect : Counts avcAspectC avcAspect 0 2 :=
  (Counts.bit.bind fun _ => Counts.when ((Counts.nbits 8).bind fun _ => Counts.when ((Counts.nbits 16).bind fun _ =>
    (Counts.nbits 16).bind fun _ => Counts.pure ()))).mono (by omega) (by omega)

theorem Counts.avcSignal : Counts avcSignalC avcSignal 0 2 :=
  ((Counts.nbits 3).bind fun _ => Counts.bit.bind fun _ => Counts.bit.bind fun _ => Counts.when ((Counts.nbits 8).bind fun _ =>
    (Counts.nbits 8).bind fun _ => (Counts.nbits 8).bind fun _ => Counts.pure ())).mono (by omega) (by omega)

theorem Counts.avcLocTiming (u : Int) : Counts (avcLocTimingC u) (avcLocTiming u) 0 2 :=
  (Counts.bit.bind fun _ => (Counts.when (Counts.se.bind fun _ => Counts.se.bind fun _ => Counts.pure ())).bind fun _ =>
    Counts.avcTiming u).mono (by omega) (by omega)

theorem Counts.avcVui (u : Int) : Counts (avcVuiC u) (avcVui u) 1 3 :=
  (Counts.avcAspect.bind fun _ => Counts.bit.bind fun _ => (Counts.when Counts.bit.skip).bind fun _ =>
    Counts.bitOrZero.bind fun _ => (Counts.when Counts.avcSignal).bind fun _ => Counts.avcLocTiming u).mono (by omega) (by omega)

theorem Counts.avcFlagsCropVui (u : Int) : Counts (avcFlagsCropVuiC u) (avcFlagsCropVui u) 0 3 :=
  (Counts.bit.bind fun _ => (Counts.when Counts.bit.skip).bind fun _ => Counts.bit.bind fun _ => Counts.avcCrop.bind fun _ =>
    Counts.bit.bind fun _ => (Counts.ite (Counts.avcVui u) (Counts.pure _)).bind fun _ => Counts.pure _).mono
    (by omega) (by omega)

theorem Counts.avcSpsBody (u : Int) : Counts (avcSpsBodyC u) (avcSpsBody u) 512 515 := by
  refine ((Counts.nbits 8).bind fun _ => (Counts.nbits 8).bind fun _ => (Counts.nbits 8).bind fun _ =>
    (Counts.nbits 8).bind fun _ => Counts.ue.bind fun _ => (Counts.when Counts.avcHigh).bind fun _ => Counts.ue.bind fun _ =>
    Counts.avcPoc.bind fun _ => Counts.ue.bind fun _ => Counts.bit.bind fun _ => Counts.ue.bind fun _ => Counts.ue.bind fun _ =>
    (Counts.avcFlagsCropVui u).bind (A' := 0) (B' := 0) fun r => ?_).mono (by omega) (by omega)
  obtain ⟨_, ⟨_, _, _, _⟩, _⟩ := r
  exact Counts.pure _

/-! ## H.265 -/

theorem Counts.hevcLayerFlags (n : Nat) : Counts (hevcLayerFlagsC n) (hevcLayerFlags n) 0 2 := by
  induction n with
  | zero => exact (Counts.pure _).mono (by omega) (by omega)
  | succ n ih =>
    exact ((Counts.bit.bind fun p => Counts.bit.bind fun l => ih.bind fun rest => Counts.pure ((p, l) :: rest)).round).mono
      (by omega) (by omega)

theorem Counts.hevcLayers (l : List (BitVec 64 × BitVec 64)) : Counts (hevcLayersC l) (hevcLayers l) l.length (l.length + 2) := by
  induction l with
  | nil => exact (Counts.pure _).mono (by simp) (by simp)
  | cons p rest ih =>
    obtain ⟨p, q⟩ := p
    refine (((Counts.when ((Counts.nbits32 32).bind fun _ => (Counts.nbits32 32).bind fun _ => (Counts.nbits32 24).bind fun _ =>
      Counts.pure ())).bind fun _ => (Counts.when (Counts.nbits 8).skip).bind fun _ => ih).round).mono ?_ ?_ <;>
      simp only [List.length_cons] <;> push_cast <;> omega

theorem hevcLayerFlags_length {n : Nat} {g g' : Golomb} {l : List (BitVec 64 × BitVec 64)}
    (h : hevcLayerFlags n g = ok (l, g')) : l.length = n := by
  induction n generalizing g l g' with
  | zero =>
    have : (ok ([], g) : Go (List (BitVec 64 × BitVec 64) × Golomb)) = ok (l, g') := h
    injection this with this; injection this with this _
    subst this; rfl
  | succ n ih =>
    have e : hevcLayerFlags (n + 1) g = (Rd.bit g >>= fun p => Rd.bit p.2 >>= fun q => hevcLayerFlags n q.2 >>= fun r =>
      ok ((p.1, q.1) :: r.1, r.2)) := rfl
    rw [e] at h
    obtain ⟨p, _, h⟩ := bind_eq_ok.1 h
    obtain ⟨q, _, h⟩ := bind_eq_ok.1 h
    obtain ⟨r, hr, h⟩ := bind_eq_ok.1 h
    injection h with h; injection h with h _
    subst h
    simp only [List.length_cons]
    rw [ih (l := r.1) (g' := r.2) hr]

theorem Counts.hevcSubLayers {n : Nat} (hn : n ≤ 7) : Counts (hevcSubLayersC n) (hevcSubLayers n) 7 9 := by
  unfold hevcSubLayersC Avf.hevcSubLayers
  refine (Counts.ite (Counts.pure ()) ((Counts.hevcLayerFlags n).bindP (A' := 7) (B' := 9) (fun l => l.length = n)
    (fun g l g' h => hevcLayerFlags_length h) fun l hl => ?_)).mono (by omega) (by omega)
  have h2 : Counts (CRd.nbits 2).skip (Rd.nbits 2).skip (-1) 2 := by
    have : Counts (CRd.nbits 2) (Rd.nbits 2) (-2) 2 :=
      ((Counts.bit.bind fun _ => (Counts.bit.bind fun _ => Counts.pure _).round).round).mono (by omega) (by omega)
    exact this.skip.mono (by omega) (by omega)
  exact ((Counts.times h2 (by omega) (8 - n)).bind fun _ => Counts.hevcLayers l).mono (by omega) (by omega)

theorem Counts.hevcPtlGeneral : Counts hevcPtlGeneralC hevcPtlGeneral 0 2 :=
  ((Counts.nbits 2).bind fun _ => Counts.bit.bind fun _ => (Counts.nbits 5).bind fun _ => (Counts.nbits32 32).bind fun _ =>
    (Counts.nbits64 48).bind fun _ => (Counts.nbits 8).bind fun _ => Counts.pure _).mono (by omega) (by omega)

theorem Counts.ueTimes (n : Nat) : Counts (CRd.times n CRd.ue.skip) (Rd.times n Rd.ue.skip) 0 3 :=
  (Counts.times Counts.ue.skip (by omega) n).mono (by omega) (by omega)

theorem Counts.ueTimes3 : Counts (CRd.times 3 CRd.ue.skip) (Rd.times 3 Rd.ue.skip) 0 3 := Counts.ueTimes 3

theorem Counts.timesN {x : CRd Unit} {y : Rd Unit} {B : Int} (h : Counts x y 0 B) (hB : 0 ≤ B) (n : Nat) :
    Counts (CRd.times n x) (Rd.times n y) n (B + n) := by
  induction n with
  | zero => exact (Counts.pure ()).mono (by omega) (by omega)
  | succ n ih =>
    show Counts (CRd.round >>= fun _ => x >>= fun _ => CRd.times n x) (y >>= fun _ => Rd.times n y) _ _
    exact (h.bind fun _ => ih).round.mono (by push_cast; omega) (by push_cast; omega)

theorem Counts.hevcSpsTail {m : BitVec 64} (hm : m.toNat ≤ 7) : Counts (hevcSpsTailC m) (hevcSpsTail m) 8 11 := by
  refine (Counts.bit.bind fun _ => (Counts.when (Counts.ueTimes 4)).bind fun _ => Counts.ue.bind fun _ => Counts.ue.bind fun _ =>
    Counts.ue.bind fun _ => Counts.bit.bind fun _ => Counts.bind (A := 8) (B := 11) ?_ fun _ => (Counts.ueTimes 6).bind fun _ =>
    Counts.pure _).mono (by omega) (by omega)
  exact (Counts.timesN Counts.ueTimes3 (by omega) _).mono (by split <;> omega) (by split <;> omega)

theorem readBit_bit {g : Golomb} {r : BitVec 64 × Golomb} (h : g.readBit = ok r) : r.1 = 0 ∨ r.1 = 1 := by
  unfold Golomb.readBit at h
  obtain ⟨g1, _, h⟩ := bind_eq_ok.1 h
  simp only [Go.pure_def] at h
  injection h with h
  subst h
  generalize (g1.buf >>> (g1.left - 1)).setWidth 64 = x
  have hx : (x &&& 1).toNat = x.toNat % 2 := by
    rw [BitVec.toNat_and]; exact Nat.and_one_is_mod _
  rcases Nat.mod_two_eq_zero_or_one x.toNat with e | e
  · left; exact BitVec.eq_of_toNat_eq (by rw [hx, e]; rfl)
  · right; exact BitVec.eq_of_toNat_eq (by rw [hx, e]; rfl)

/-- Three bits are a number up to 7. -/
theorem nbits3_le {g g' : Golomb} {a : BitVec 64} (h : Rd.nbits 3 g = ok (a, g')) : a.toNat ≤ 7 := by
  have e : Rd.nbits 3 g = (g.readBit >>= fun p => p.2.readBit >>= fun q => q.2.readBit >>= fun r =>
    ok ((((0 ||| (p.1 <<< 2)) ||| (q.1 <<< 1)) ||| (r.1 <<< 0)), r.2)) := rfl
  rw [e] at h
  obtain ⟨p, hp, h⟩ := bind_eq_ok.1 h
  obtain ⟨q, hq, h⟩ := bind_eq_ok.1 h
  obtain ⟨r, hr, h⟩ := bind_eq_ok.1 h
  injection h with h; injection h with h _
  rcases readBit_bit hp with e1 | e1 <;> rcases readBit_bit hq with e2 | e2 <;> rcases readBit_bit hr with e3 | e3 <;>
    rw [e1, e2, e3] at h <;> subst h <;> decide

theorem Counts.hevcSpsBody : Counts hevcSpsBodyC hevcSpsBody 15 18 :=
  ((Counts.nbits 4).bind fun _ => (Counts.nbits 3).bindP (fun a => a.toNat ≤ 7) (fun _ _ _ h => nbits3_le h) fun _ h =>
    Counts.bit.bind fun _ => Counts.hevcPtlGeneral.bind fun _ => (Counts.hevcSubLayers h).bind fun _ =>
    Counts.ue.bind fun _ => Counts.ue.bind fun _ => (Counts.when Counts.bit.skip).bind fun _ => Counts.ue.bind fun _ =>
    Counts.ue.bind fun _ => (Counts.hevcSpsTail h).bind fun _ => Counts.pure _).mono (by omega) (by omega)

end Avf
