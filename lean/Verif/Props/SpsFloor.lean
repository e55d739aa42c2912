import Verif.Props.ParseCost
/-!
# C114: the steps of the parameter set parsers, from below

No bit is read without a step. So the counters of `Model/SpsCost.lean` leave nothing out that consumes data, and the bounds of
`Props/ParseCost.lean` are met up to a constant factor by every set that is as long as its data, and by all data that end too early.
-/
namespace Avf
open Go

/-- Each bit that `x` consumes is a step; if `x` fails it has consumed all. -/
def CRd.Floor {α : Type} (x : CRd α) : Prop :=
  ∀ g, (∀ a g', (x g).1 = ok (a, g') → g.room ≤ (x g).2 + g'.room) ∧ ∀ e, (x g).1 = err e → g.room ≤ (x g).2

namespace CRd.Floor

theorem pure {α : Type} (a : α) : Floor (Pure.pure a : CRd α) := by
  intro g
  refine ⟨fun b g' h => ?_, fun e h => by cases h⟩
  have h : (ok (a, g) : Go (α × Golomb)) = ok (b, g') := h
  injection h with h; injection h with _ h; subst h
  exact Nat.le_add_left _ _

theorem bind {α β : Type} {x : CRd α} {f : α → CRd β} (hx : Floor x) (hf : ∀ a, Floor (f a)) : Floor (x >>= f) := by
  intro g
  have e1 : (x >>= f) g = (match x g with
    | (.ok (a, g'), c) => ((f a g').1, c + (f a g').2)
    | (.err e, c) => (.err e, c)
    | (.panic, c) => (.panic, c)) := rfl
  obtain ⟨h1, h2⟩ := hx g
  rw [e1]
  rcases hr : x g with ⟨r, c⟩
  rw [hr] at h1 h2
  cases r with
  | ok r =>
    obtain ⟨a, g'⟩ := r
    have k0 := h1 a g' rfl
    obtain ⟨k1, k2⟩ := hf a g'
    refine ⟨fun b g2 h => ?_, fun e h => ?_⟩
    · have := k1 b g2 h; simp only at k0 ⊢; omega
    · have := k2 e h; simp only at k0 ⊢; omega
  | err m => exact ⟨fun _ _ h => (by cases h), fun _ _ => h2 m rfl⟩
  | panic => exact ⟨fun _ _ h => (by cases h), fun _ h => by cases h⟩

theorem readBit_room (g : Golomb) : (∀ b g', g.readBit = ok (b, g') → g.room = 1 + g'.room) ∧ ∀ e, g.readBit = err e → g.room = 0 := by
  obtain ⟨rest, buf, left⟩ := g
  unfold Golomb.readBit Golomb.room
  cases left with
  | zero =>
    cases rest with
    | nil => refine ⟨fun _ _ h => (by cases h), fun _ _ => rfl⟩
    | cons b rest =>
      refine ⟨fun _ _ h => ?_, fun _ h => by cases h⟩
      cases h
      simp only [List.length_cons]
      omega
  | succ n =>
    refine ⟨fun _ _ h => ?_, fun _ h => by cases h⟩
    cases h
    simp only
    omega

theorem round : Floor CRd.round := by
  intro g
  refine ⟨fun _ _ h => ?_, fun _ h => by cases h⟩
  cases h
  show g.room ≤ 1 + g.room
  omega

theorem bit : Floor CRd.bit := by
  intro g
  obtain ⟨h1, h2⟩ := readBit_room g
  refine ⟨fun a g' h => ?_, fun e h => ?_⟩
  · have := h1 a g' h; show _ ≤ 1 + _; omega
  · have := h2 e h; show _ ≤ 1; omega

theorem bitOrZero : Floor CRd.bitOrZero := by
  intro g
  obtain ⟨h1, h2⟩ := readBit_room g
  unfold CRd.bitOrZero
  cases hr : g.readBit with
  | ok r =>
    refine ⟨fun a g' h => ?_, fun e h => by cases h⟩
    have h : (ok r : Go _) = ok (a, g') := h
    injection h with h; subst h
    have := h1 a g' hr; show _ ≤ 1 + _; omega
  | err m =>
    refine ⟨fun a g' h => ?_, fun e h => by cases h⟩
    have := h2 m hr; omega
  | panic => exact ⟨fun _ _ h => (by cases h), fun _ h => by cases h⟩

theorem when {c : Bool} {p : CRd Unit} (h : Floor p) : Floor (CRd.when c p) := by
  unfold CRd.when; split
  · exact h
  · exact pure _

theorem ite {α : Type} {c : Prop} [Decidable c] {x y : CRd α} (hx : Floor x) (hy : Floor y) : Floor (if c then x else y) := by
  split
  · exact hx
  · exact hy

theorem skip {α : Type} {p : CRd α} (h : Floor p) : Floor p.skip := bind h fun _ => pure _

theorem times {p : CRd Unit} (h : Floor p) (n : Nat) : Floor (CRd.times n p) := by
  induction n with
  | zero => exact pure _
  | succ n ih => exact bind round fun _ => bind h fun _ => ih

theorem nbits (n : Nat) : Floor (CRd.nbits n) := by
  unfold CRd.nbits
  generalize (0 : BitVec 64) = r
  induction n generalizing r with
  | zero => exact pure _
  | succ n ih => exact bind round fun _ => bind bit fun _ => ih _

theorem nbits32 (n : Nat) : Floor (CRd.nbits32 n) := by
  unfold CRd.nbits32
  generalize (0 : BitVec 32) = r
  induction n generalizing r with
  | zero => exact pure _
  | succ n ih => exact bind round fun _ => bind bit fun _ => ih _

theorem nbits64 (n : Nat) : Floor (CRd.nbits64 n) := by
  unfold CRd.nbits64
  generalize (0 : BitVec 64) = r
  induction n generalizing r with
  | zero => exact pure _
  | succ n ih => exact bind round fun _ => bind bit fun _ => ih _

theorem ueZeros (k : Nat) : ∀ i, 32 - i = k → Floor (CRd.ueZeros i) := by
  induction k with
  | zero =>
    intro i hi
    rw [CRd.ueZeros]
    refine bind round fun _ => bind bit fun b => ?_
    split
    · omega
    · exact pure _
  | succ k ih =>
    intro i hi
    rw [CRd.ueZeros]
    refine bind round fun _ => bind bit fun b => ?_
    split
    · exact ih (i + 1) (by omega)
    · exact pure _

theorem ue : Floor CRd.ue := bind (ueZeros _ 0 rfl) fun _ => bind (nbits _) fun _ => pure _

theorem se : Floor CRd.se := bind ue fun _ => ite (pure _) (pure _)

/-- Go through a program. -/
macro "floor" : tactic => `(tactic| repeat (first
  | exact ue | exact se | exact bit | exact round | exact nbits _ | exact nbits32 _ | exact nbits64 _ | exact bitOrZero | exact pure _
  | assumption | apply when | apply skip | apply times | refine bind ?_ (fun _ => ?_) | apply ite))

theorem avcScalingLoop (n : Nat) : ∀ a b, Floor (avcScalingLoopC n a b) := by
  induction n with
  | zero => intro a b; exact pure _
  | succ n ih =>
    intro a b
    exact bind round fun _ => bind (ite (bind se fun _ => pure _) (pure _)) fun _ => ih _ _

theorem avcScalingLists (n : Nat) : Floor (avcScalingListsC n) := by
  induction n with
  | zero => exact pure _
  | succ n ih => exact bind round fun _ => bind bit fun _ => bind (when (avcScalingLoop _ _ _)) fun _ => ih

theorem avcHigh : Floor avcHighC := by have := avcScalingLists 8; unfold avcHighC; floor
theorem avcPoc : Floor avcPocC := by unfold avcPocC; floor
theorem avcCrop : Floor avcCropC := by unfold avcCropC; floor
theorem avcTiming (undef : Int) : Floor (avcTimingC undef) := by unfold avcTimingC; floor
theorem avcAspect : Floor avcAspectC := by unfold avcAspectC; floor
theorem avcSignal : Floor avcSignalC := by unfold avcSignalC; floor
theorem avcLocTiming (undef : Int) : Floor (avcLocTimingC undef) := by have := avcTiming undef; unfold avcLocTimingC; floor
theorem avcVui (undef : Int) : Floor (avcVuiC undef) := by
  have := avcAspect; have := avcSignal; have := avcLocTiming undef; unfold avcVuiC; floor
theorem avcFlagsCropVui (undef : Int) : Floor (avcFlagsCropVuiC undef) := by
  have := avcCrop; have := avcVui undef; unfold avcFlagsCropVuiC; floor
theorem avcSpsBody (undef : Int) : Floor (avcSpsBodyC undef) := by
  have := avcHigh; have := avcPoc; have := avcFlagsCropVui undef; unfold avcSpsBodyC; floor

theorem hevcLayerFlags (n : Nat) : Floor (hevcLayerFlagsC n) := by
  induction n with
  | zero => exact pure _
  | succ n ih => unfold hevcLayerFlagsC; floor

theorem hevcLayers (l : List (BitVec 64 × BitVec 64)) : Floor (hevcLayersC l) := by
  induction l with
  | nil => exact pure _
  | cons x l ih => obtain ⟨p, q⟩ := x; unfold hevcLayersC; floor

theorem hevcSubLayers (n : Nat) : Floor (hevcSubLayersC n) := by
  have := hevcLayerFlags n; have := hevcLayers; unfold hevcSubLayersC
  exact ite (pure _) (bind (hevcLayerFlags n) fun _ => bind (times (skip (nbits _)) _) fun _ => hevcLayers _)
theorem hevcPtlGeneral : Floor hevcPtlGeneralC := by unfold hevcPtlGeneralC; floor
theorem hevcSpsTail (m : BitVec 64) : Floor (hevcSpsTailC m) := by unfold hevcSpsTailC; floor
theorem hevcSpsBody : Floor hevcSpsBodyC :=
  bind (nbits _) fun _ => bind (nbits _) fun _ => bind bit fun _ => bind hevcPtlGeneral fun _ => bind (hevcSubLayers _) fun _ =>
    bind ue fun _ => bind ue fun _ => bind (when (skip bit)) fun _ => bind ue fun _ => bind ue fun _ => bind (hevcSpsTail _) fun _ => pure _

end CRd.Floor

/-- What a parser leaves of the data `d`: a reader, if it succeeds. -/
def CRd.LeavesOf {α : Type} (x : CRd α) (d : Bytes) (left : Nat) : Prop :=
  (∃ a g, (x (Golomb.ofBytes d)).1 = ok (a, g) ∧ left = g.room) ∨ (∃ e, (x (Golomb.ofBytes d)).1 = err e) ∧ left = 0

theorem room_ofBytes (d : Bytes) : (Golomb.ofBytes d).room = 8 * d.length := rfl

theorem CRd.Floor.leaves {α : Type} {x : CRd α} (hx : x.Floor) (d : Bytes) (left : Nat) (h : x.LeavesOf d left) :
    8 * d.length ≤ (x (Golomb.ofBytes d)).2 + left := by
  obtain ⟨h1, h2⟩ := hx (Golomb.ofBytes d)
  rw [room_ofBytes] at h1 h2
  rcases h with ⟨a, g, e, rfl⟩ | ⟨⟨m, e⟩, rfl⟩
  · exact h1 a g e
  · exact h2 m e

/-- **C114** `avc.ParseSPS` from below: all bits count but those that are left over; if the data end too early, all. -/
theorem C114_avc_sps_floor (undef : Int) (p d : Bytes) (hd : removeStartCode p = ok d) :
    (∀ left, (avcSpsBodyC undef).LeavesOf d left → 8 * d.length ≤ (avcParseSPSC undef p).2 + left) ∧
    ∀ e, avcParseSPS undef p = err e → 8 * d.length ≤ (avcParseSPSC undef p).2 := by
  have e2 : (avcParseSPSC undef p).2 = (avcSpsBodyC undef (Golomb.ofBytes d)).2 := by
    unfold avcParseSPSC; rw [hd]; dsimp only
    rcases avcSpsBodyC undef (Golomb.ofBytes d) with ⟨r | r | _, c⟩ <;> rfl
  rw [e2]
  refine ⟨fun left h => (CRd.Floor.avcSpsBody undef).leaves d left h, fun e h => ?_⟩
  rw [← (C114_avc_sps undef p).1] at h
  refine (CRd.Floor.avcSpsBody undef).leaves d 0 (.inr ⟨?_, rfl⟩)
  unfold avcParseSPSC at h; rw [hd] at h; dsimp only at h
  rcases hx : avcSpsBodyC undef (Golomb.ofBytes d) with ⟨r | m | _, c⟩ <;> rw [hx] at h
  · cases h
  · exact ⟨m, rfl⟩
  · cases h

/-- **C114** `hevc.ParseSPS` from below, counted in the unescaped payload. -/
theorem C114_hevc_sps_floor (p d : Bytes) (hd : removeStartCode p = ok d) (hl : 2 ≤ d.length) :
    (∀ left, hevcSpsBodyC.LeavesOf (nal2rbsp (d.drop 2)) left → 8 * (nal2rbsp (d.drop 2)).length ≤ (hevcParseSPSC p).2 + left) ∧
    ∀ e, hevcParseSPS p = err e → 8 * (nal2rbsp (d.drop 2)).length ≤ (hevcParseSPSC p).2 := by
  have hs : sliceFrom d 2 = ok (d.drop 2) := by unfold sliceFrom; rw [if_pos hl]
  have e2 : (hevcParseSPSC p).2 = (hevcSpsBodyC (Golomb.ofBytes (nal2rbsp (d.drop 2)))).2 := by
    unfold hevcParseSPSC; rw [hd]; dsimp only; rw [if_neg (by omega), hs]; dsimp only
    rcases hevcSpsBodyC (Golomb.ofBytes (nal2rbsp (d.drop 2))) with ⟨r | r | _, c⟩ <;> rfl
  rw [e2]
  refine ⟨fun left h => CRd.Floor.hevcSpsBody.leaves _ left h, fun e h => ?_⟩
  rw [← (C114_hevc_sps p).1] at h
  refine CRd.Floor.hevcSpsBody.leaves _ 0 (.inr ⟨?_, rfl⟩)
  unfold hevcParseSPSC at h; rw [hd] at h; dsimp only at h; rw [if_neg (by omega), hs] at h; dsimp only at h
  rcases hx : hevcSpsBodyC (Golomb.ofBytes (nal2rbsp (d.drop 2))) with ⟨r | m | _, c⟩ <;> rw [hx] at h
  · cases h
  · exact ⟨m, rfl⟩
  · cases h

/-- A set that ends too early: five bytes, more than 40 steps. -/
example : removeStartCode [0, 0, 1, 103, 66, 0, 31, 255] = ok [103, 66, 0, 31, 255] ∧
    avcParseSPS 0 [0, 0, 1, 103, 66, 0, 31, 255] = err "EOF" ∧ 40 ≤ (avcParseSPSC 0 [0, 0, 1, 103, 66, 0, 31, 255]).2 := by
  refine ⟨?_, ?_, ?_⟩ <;> decide +kernel

end Avf
