import Verif.Lemmas.HevcSps
import Verif.Props.GolombExact
/-!
# What a successful run of a bit-reading program has read

`RdInv C p R`: if `p` succeeds on a reader whose remaining bits satisfy `C`, the bits it consumed and its result are related by `R`.
The converse of `Parses`.
-/
namespace Avf
open Go

theorem fieldBits_bitsVal (l : List Bool) : fieldBits l.length (bitsVal l) = l := by
  induction l with
  | nil => rfl
  | cons b l ih =>
    have hl := bitsVal_lt l
    have e : fieldBits l.length (bitsVal (b :: l)) = l := by
      rw [← fieldBits_mod l.length _ l.length (Nat.le_refl _), bitsVal_cons, Nat.mul_add_mod_self_right, Nat.mod_eq_of_lt hl, ih]
    rw [List.length_cons, fieldBits, e, bitsVal_cons]
    congr 1
    cases b
    · simp [Nat.testBit_lt_two_pow hl]
    · simp [Nat.testBit_two_pow_add_eq, Nat.testBit_lt_two_pow hl]

/-- No run of 33 zero bits. -/
def NoRun (l : List Bool) : Prop := ¬ List.replicate 33 false <:+: l

/-- A property that suffixes inherit. -/
def Suff (C : List Bool → Prop) : Prop := ∀ a b, C (a ++ b) → C b

theorem suff_norun : Suff NoRun := by
  intro a b h h'
  exact h (h'.trans (List.suffix_append a b).isInfix)

theorem suff_true : Suff (fun _ => True) := fun _ _ _ => trivial

def RdInv {α : Type} (C : List Bool → Prop) (p : Rd α) (R : List Bool → α → Prop) : Prop :=
  ∀ g v g', g.Ok → C g.todo → p g = ok (v, g') → ∃ bs, g.todo = bs ++ g'.todo ∧ g'.Ok ∧ R bs v

namespace RdInv
variable {α β γ : Type} {C : List Bool → Prop}

theorem mono {p : Rd α} {R S : List Bool → α → Prop} (h : RdInv C p R) (hi : ∀ bs v, R bs v → S bs v) : RdInv C p S := by
  intro g v g' hg hC e
  obtain ⟨bs, h1, h2, h3⟩ := h g v g' hg hC e
  exact ⟨bs, h1, h2, hi _ _ h3⟩

theorem weaken {D : List Bool → Prop} {p : Rd α} {R : List Bool → α → Prop} (h : RdInv C p R) (hd : ∀ l, D l → C l) : RdInv D p R :=
  fun g v g' hg hC e => h g v g' hg (hd _ hC) e

theorem pure {a : α} {R : List Bool → α → Prop} (h : R [] a) : RdInv C (Pure.pure a : Rd α) R := by
  intro g v g' hg _ e
  rw [rd_pure] at e
  cases e
  exact ⟨[], rfl, hg, h⟩

theorem bind (hC : Suff C) {p : Rd α} {f : α → Rd β} {R : List Bool → α → Prop} {T : List Bool → β → Prop} (hp : RdInv C p R)
    (hf : ∀ a bs, R bs a → RdInv C (f a) (fun cs v => T (bs ++ cs) v)) : RdInv C (p >>= f) T := by
  intro g v g' hg hc e
  rw [rd_bind] at e
  obtain ⟨⟨a, g1⟩, e1, e2⟩ := bind_eq_ok.mp e
  obtain ⟨bs, h1, h2, h3⟩ := hp g a g1 hg hc e1
  obtain ⟨cs, k1, k2, k3⟩ := hf a bs h3 g1 v g' h2 (hC bs _ (h1 ▸ hc)) e2
  exact ⟨bs ++ cs, by rw [h1, k1, List.append_assoc], k2, k3⟩

/-- The same with what is known of the remaining bits. -/
theorem bind' {p : Rd α} {f : α → Rd β} {R : List Bool → α → Prop} {T : List Bool → β → Prop} (hp : RdInv C p R)
    (hf : ∀ a bs, R bs a → RdInv (fun t => C (bs ++ t)) (f a) (fun cs v => T (bs ++ cs) v)) : RdInv C (p >>= f) T := by
  intro g v g' hg hc e
  rw [rd_bind] at e
  obtain ⟨⟨a, g1⟩, e1, e2⟩ := bind_eq_ok.mp e
  obtain ⟨bs, h1, h2, h3⟩ := hp g a g1 hg hc e1
  have hc' : C (bs ++ g1.todo) := by rw [← h1]; exact hc
  obtain ⟨cs, k1, k2, k3⟩ := hf a bs h3 g1 v g' h2 hc' e2
  exact ⟨bs ++ cs, by rw [h1, k1, List.append_assoc], k2, k3⟩

theorem skip (hC : Suff C) {p : Rd α} {R : List Bool → Prop} (hp : RdInv C p (fun bs _ => R bs)) : RdInv C (Rd.skip p) (fun bs _ => R bs) :=
  bind hC hp fun _ bs h => pure (by simpa using h)

theorem ite {c : Prop} [Decidable c] {p q : Rd α} {T : List Bool → α → Prop} (hp : c → RdInv C p T) (hq : ¬ c → RdInv C q T) :
    RdInv C (if c then p else q) T := by
  split
  · exact hp ‹_›
  · exact hq ‹_›

theorem when {c : Bool} {p : Rd Unit} {T : List Bool → Unit → Prop} (hp : c = true → RdInv C p T) (hq : c = false → T [] ()) :
    RdInv C (Rd.when c p) T := by
  unfold Rd.when
  cases c with
  | true => exact hp rfl
  | false => exact pure (hq rfl)

theorem times (hC : Suff C) {p : Rd Unit} {P : γ → Prop} {f : γ → List Bool} (hp : RdInv C p (fun bs _ => ∃ a, P a ∧ bs = f a)) (n : Nat) :
    RdInv C (Rd.times n p) (fun bs _ => ∃ xs : List γ, xs.length = n ∧ (∀ x ∈ xs, P x) ∧ bs = xs.flatMap f) := by
  induction n with
  | zero => exact pure ⟨[], rfl, by simp, rfl⟩
  | succ n ih =>
    refine bind hC hp fun _ bs h => ?_
    obtain ⟨a, ha, rfl⟩ := h
    refine ih.mono fun cs _ h => ?_
    obtain ⟨xs, h1, h2, rfl⟩ := h
    exact ⟨a :: xs, by simp [h1], by simpa using ⟨ha, h2⟩, by simp⟩

theorem bit : RdInv C Rd.bit (fun bs v => ∃ b : Bool, bs = [b] ∧ v = BitVec.ofNat 64 b.toNat) := by
  intro g v g' hg _ e
  have e : g.readBit = ok (v, g') := e
  cases ht : g.todo with
  | nil => rw [Golomb.readBit_nil ht hg] at e; cases e
  | cons b l =>
    obtain ⟨g2, e2, h1, h2⟩ := Golomb.readBit_cons hg ht
    rw [e] at e2
    cases e2
    exact ⟨[b], by rw [h2]; rfl, h1, b, rfl, rfl⟩

theorem field {n w : Nat} {g : Golomb} {v : BitVec w} {g' : Golomb} {x : Go (BitVec w × Golomb)} (h : Golomb.ReadsField x g n) (e : x = ok (v, g')) :
    ∃ bs, g.todo = bs ++ g'.todo ∧ g'.Ok ∧ ∃ y, y < 2 ^ n ∧ bs = fieldBits n y ∧ v = BitVec.ofNat w y := by
  by_cases hl : n ≤ g.todo.length
  · obtain ⟨v2, g2, e2, hv, h1, h2⟩ := h.1 hl
    rw [e] at e2
    cases e2
    have hlen : (g.todo.take n).length = n := by rw [List.length_take]; omega
    refine ⟨g.todo.take n, by rw [h2, List.take_append_drop], h1, bitsVal (g.todo.take n), Golomb.bitsVal_take_lt _ _ _ (Nat.le_refl _), ?_, ?_⟩
    · have := fieldBits_bitsVal (g.todo.take n)
      rw [hlen] at this
      exact this.symm
    · rw [← hv]; simp
  · rw [h.2 (by omega)] at e; cases e

theorem nbits (n : Nat) (hn : n ≤ 64) : RdInv C (Rd.nbits n) (fun bs v => ∃ y, y < 2 ^ n ∧ bs = fieldBits n y ∧ v = BitVec.ofNat 64 y) :=
  fun g _ _ hg _ e => field (Golomb.C11_readBits g hg n hn) e

theorem nbits32 (n : Nat) (hn : n ≤ 32) : RdInv C (Rd.nbits32 n) (fun bs v => ∃ y, y < 2 ^ n ∧ bs = fieldBits n y ∧ v = BitVec.ofNat 32 y) :=
  fun g _ _ hg _ e => field (Golomb.C11_readBits32 g hg n hn) e

theorem nbits64 (n : Nat) (hn : n ≤ 64) : RdInv C (Rd.nbits64 n) (fun bs v => ∃ y, y < 2 ^ n ∧ bs = fieldBits n y ∧ v = BitVec.ofNat 64 y) :=
  fun g _ _ hg _ e => field (Golomb.C11_readBits64 g hg n hn) e

theorem clean_front {l : List Bool} (h : NoRun l) : ¬ List.replicate 33 false <+: l := fun h' => h h'.isInfix

theorem ue : RdInv NoRun Rd.ue (fun bs v => ∃ n, UEW n ∧ bs = ueBits n ∧ v = BitVec.ofNat 64 n) := by
  intro g v g' hg hc e
  obtain ⟨h1, h2, h3⟩ := Golomb.C92_accepted_partial g hg (clean_front hc) v g' e
  exact ⟨_, h1, h3, v.toNat, h2, rfl, by simp⟩

theorem se : RdInv NoRun Rd.se (fun bs v => ∃ x : Int, SEW x ∧ bs = seBits x ∧ v = BitVec.ofNat 64 (if 0 ≤ x then x else 2 ^ 63 + x).toNat) := by
  intro g v g' hg hc e
  obtain ⟨x, h1, h2, h3, h4⟩ := Golomb.C92_se_partial g hg (clean_front hc) v g' e
  obtain ⟨g2, e2, k1, k2⟩ := Parses.se x h1 h2 g g'.todo hg h3
  rw [e] at e2
  cases e2
  exact ⟨_, h3, k1, x, ⟨h1, h2⟩, rfl, rfl⟩

/-- `ReadSE` on what is a `ue(v)` code word. -/
theorem se_ue : RdInv NoRun Rd.se (fun bs _ => ∃ n, UEW n ∧ bs = ueBits n) := by
  refine se.mono fun bs v h => ?_
  obtain ⟨x, ⟨h1, h2⟩, rfl, _⟩ := h
  refine ⟨seCode x, ?_, rfl⟩
  unfold UEW seCode
  split <;> omega

theorem ofBool_ne {b : Bool} : decide (BitVec.ofNat 64 b.toNat ≠ 0) = b := by cases b <;> rfl

/-- An optional part behind a flag, then the rest. -/
theorem opt_bind (hC : Suff C) {p : Rd Unit} {q : Rd β} {P : γ → Prop} {f : γ → List Bool} {T : List Bool → β → Prop}
    (hp : RdInv C p (fun bs _ => ∃ a, P a ∧ bs = f a))
    (hq : ∀ o : Option γ, (∀ a, o = some a → P a) → RdInv C q (fun cs v => T (optBits f o ++ cs) v)) :
    RdInv C (Rd.bit >>= fun b => Rd.when (b ≠ 0) p >>= fun _ => q) T := by
  refine bind hC bit fun v bs h => ?_
  obtain ⟨b, rfl, rfl⟩ := h
  rw [ofBool_ne]
  cases b with
  | false =>
    refine bind hC (R := fun bs _ => bs = []) (when (fun h => by cases h) (fun _ => rfl)) fun _ bs h => ?_
    subst h
    exact hq none (by simp)
  | true =>
    refine bind hC (R := fun bs _ => ∃ a, P a ∧ bs = f a) (when (fun _ => hp) (fun h => by cases h)) fun _ bs h => ?_
    obtain ⟨a, ha, rfl⟩ := h
    exact hq (some a) (by simpa using ha)

theorem opt (hC : Suff C) {p : Rd Unit} {P : γ → Prop} {f : γ → List Bool}
    (hp : RdInv C p (fun bs _ => ∃ a, P a ∧ bs = f a)) :
    RdInv C (Rd.bit >>= fun b => Rd.when (b ≠ 0) p) (fun bs _ => ∃ o : Option γ, (∀ a, o = some a → P a) ∧ bs = optBits f o) := by
  have := opt_bind hC (q := (Pure.pure () : Rd Unit)) (T := fun bs _ => ∃ o : Option γ, (∀ a, o = some a → P a) ∧ bs = optBits f o) hp
    (fun o ho => pure ⟨o, ho, by simp⟩)
  have e : ∀ p : Rd Unit, (p >>= fun _ => (Pure.pure () : Rd Unit)) = p := fun p => bind_pure_unit
  simp only [e] at this
  exact this

end RdInv

/-! ## H.264 -/

open RdInv

theorem avcScalingLoop_inv (n : Nat) : ∀ (last next : Int), 0 ≤ last → last ≤ 255 → 0 ≤ next → next ≤ 255 →
    RdInv NoRun (avcScalingLoop n (BitVec.ofNat 64 last.toNat) (BitVec.ofNat 64 next.toNat))
      (fun bs _ => ∃ ds, DeltasLoose n last next ds ∧ bs = ds.flatMap seBits) := by
  induction n with
  | zero => intro last next _ _ _ _; exact RdInv.pure ⟨[], rfl, rfl⟩
  | succ n ih =>
    intro last next hl hl' hn hn'
    rw [avcScalingLoop]
    by_cases h0 : next = 0
    · subst h0
      refine RdInv.bind suff_norun (R := fun bs v => bs = [] ∧ v = BitVec.ofNat 64 0) (RdInv.pure ⟨rfl, rfl⟩) fun v bs h => ?_
      obtain ⟨rfl, rfl⟩ := h
      have := ih last 0 hl hl' (by omega) (by omega)
      refine RdInv.mono (R := fun bs _ => ∃ ds, DeltasLoose n last 0 ds ∧ bs = ds.flatMap seBits) (by simpa using this) fun bs _ h => ?_
      obtain ⟨ds, hd, rfl⟩ := h
      refine ⟨ds, ?_, rfl⟩
      have : ds = [] := by
        cases n with
        | zero => exact hd
        | succ n => unfold DeltasLoose at hd; simpa using hd
      subst this
      unfold DeltasLoose; simp
    · refine RdInv.bind suff_norun (R := fun bs v => ∃ d : Int, SEW d ∧ bs = seBits d ∧
        v = BitVec.ofNat 64 ((last + d + 256) % 256).toNat) ?_ fun v bs h => ?_
      · rw [if_pos ((ofNat_ne_zero (by omega)).mpr (by omega))]
        refine RdInv.bind suff_norun RdInv.se fun v bs h => ?_
        obtain ⟨x, hx, rfl, rfl⟩ := h
        exact RdInv.pure ⟨x, hx, by simp, scaling_step last x hl hl' hx⟩
      · obtain ⟨d, hd, rfl, rfl⟩ := h
        have hm : (0 : Int) ≤ (last + d + 256) % 256 ∧ (last + d + 256) % 256 ≤ 255 := by omega
        have key : RdInv NoRun (avcScalingLoop n (BitVec.ofNat 64 (if (last + d + 256) % 256 = 0 then last else (last + d + 256) % 256).toNat)
            (BitVec.ofNat 64 ((last + d + 256) % 256).toNat)) (fun bs _ => ∃ ds,
              DeltasLoose n (if (last + d + 256) % 256 = 0 then last else (last + d + 256) % 256) ((last + d + 256) % 256) ds ∧
              bs = ds.flatMap seBits) :=
          ih _ _ (by split <;> omega) (by split <;> omega) hm.1 hm.2
        have e : (if BitVec.ofNat 64 ((last + d + 256) % 256).toNat ≠ 0 then BitVec.ofNat 64 ((last + d + 256) % 256).toNat
            else BitVec.ofNat 64 last.toNat) =
            BitVec.ofNat 64 (if (last + d + 256) % 256 = 0 then last else (last + d + 256) % 256).toNat := by
          by_cases hz : (last + d + 256) % 256 = 0
          · rw [if_pos hz, if_neg (by rw [hz]; simp)]
          · rw [if_neg hz, if_pos ((ofNat_ne_zero (by omega)).mpr (by omega))]
        rw [e]
        refine key.mono fun bs _ h => ?_
        obtain ⟨ds, hds, rfl⟩ := h
        refine ⟨d :: ds, ?_, by simp⟩
        unfold DeltasLoose
        rw [if_neg h0]
        exact ⟨hd, hds⟩

theorem avcScalingLists_inv (n : Nat) (hn : n ≤ 8) : RdInv NoRun (avcScalingLists n) (fun bs _ => ∃ ls : List (Option (List Int)),
    ls.length = n ∧ (∀ i ds, ls[i]? = some (some ds) → DeltasLoose (scalingListSize (8 - n + i)) 8 8 ds) ∧
    bs = ls.flatMap scalingListBits) := by
  induction n with
  | zero => exact RdInv.pure ⟨[], rfl, by simp, rfl⟩
  | succ n ih =>
    rw [avcScalingLists]
    have key := avcScalingLoop_inv (scalingListSize (8 - (n + 1))) 8 8 (by omega) (by omega) (by omega) (by omega)
    refine RdInv.opt_bind suff_norun (f := fun ds : List Int => ds.flatMap seBits) key fun o ho => ?_
    refine (ih (by omega)).mono fun bs _ h => ?_
    obtain ⟨ls, h1, h2, rfl⟩ := h
    refine ⟨o :: ls, by simp [h1], ?_, by rw [List.flatMap_cons]; rfl⟩
    intro i ds hi
    cases i with
    | zero => exact ho ds (by simpa using hi)
    | succ i =>
      have := h2 i ds (by simpa using hi)
      rwa [show 8 - (n + 1) + (i + 1) = 8 - n + i by omega]

theorem ofNat_eq_small {n : Nat} (h : n < 2 ^ 64) (k : Nat) (hk : k < 2 ^ 64) : BitVec.ofNat 64 n = BitVec.ofNat 64 k ↔ n = k := by
  rw [← BitVec.toNat_inj, BitVec.toNat_ofNat, BitVec.toNat_ofNat]; omega

theorem UEW.lt {n : Nat} (h : UEW n) : n < 2 ^ 64 := by unfold UEW at h; omega

theorem avcHigh_inv : RdInv NoRun avcHigh (fun bs _ => ∃ h : H264High, h.Loose 8 ∧ bs = h.bits) := by
  unfold avcHigh
  refine RdInv.bind suff_norun RdInv.ue fun v bs h => ?_
  obtain ⟨c, hc, rfl, rfl⟩ := h
  refine RdInv.bind suff_norun (R := fun bs _ => ∃ b : Bool, bs = if c = 3 then flagBits b else []) ?_ fun _ bs h => ?_
  · have e : decide (BitVec.ofNat 64 c = 3) = decide (c = 3) := decide_eq_decide.mpr (ofNat_eq_small hc.lt 3 (by omega))
    rw [e]
    refine RdInv.when (fun h => ?_) (fun h => ⟨false, by simp at h; simp [h]⟩)
    refine RdInv.skip suff_norun (RdInv.bit.mono fun bs v h' => ?_)
    obtain ⟨b, rfl, _⟩ := h'
    exact ⟨b, by simp at h; simp [h, flagBits]⟩
  obtain ⟨sep, rfl⟩ := h
  refine RdInv.bind suff_norun RdInv.ue fun v bs h => ?_
  obtain ⟨l, hl, rfl, rfl⟩ := h
  refine RdInv.bind suff_norun RdInv.ue fun v bs h => ?_
  obtain ⟨cd, hcd, rfl, rfl⟩ := h
  refine RdInv.bind suff_norun RdInv.bit fun v bs h => ?_
  obtain ⟨t, rfl, rfl⟩ := h
  have key : RdInv NoRun (avcScalingLists 8) (fun bs _ => ∃ ls : List (Option (List Int)), (ls.length = 8 ∧
      ∀ i ds, ls[i]? = some (some ds) → DeltasLoose (scalingListSize i) 8 8 ds) ∧ bs = ls.flatMap scalingListBits) :=
    (avcScalingLists_inv 8 (by omega)).mono fun bs _ h => by
      obtain ⟨ls, h1, h2, rfl⟩ := h
      exact ⟨ls, ⟨h1, fun i ds hi => by simpa using h2 i ds hi⟩, rfl⟩
  refine (RdInv.opt suff_norun key).mono fun bs _ h => ?_
  obtain ⟨o, ho, rfl⟩ := h
  exact ⟨⟨c, sep, l, cd, t, o⟩, ⟨hc, hl, hcd, ho⟩, by simp [H264High.bits, flagBits]⟩

theorem avcPoc_inv : RdInv NoRun avcPoc (fun bs _ => ∃ p : H264Poc, p.Loose ∧ bs = p.bits) := by
  unfold avcPoc
  refine RdInv.bind suff_norun RdInv.ue fun v bs h => ?_
  obtain ⟨ty, hty, rfl, rfl⟩ := h
  have e0 : (BitVec.ofNat 64 ty = 0) ↔ ty = 0 := ofNat_eq_small hty.lt 0 (by omega)
  have e1 : (BitVec.ofNat 64 ty = 1) ↔ ty = 1 := ofNat_eq_small hty.lt 1 (by omega)
  refine RdInv.ite (fun h => ?_) fun h => RdInv.ite (fun h' => ?_) fun h' => ?_
  · refine RdInv.skip suff_norun (RdInv.ue.mono fun bs v hv => ?_)
    obtain ⟨n, hn, rfl, _⟩ := hv
    have := e0.mp h
    subst this
    exact ⟨.type0 n, hn, rfl⟩
  · have := e1.mp h'
    subst this
    refine RdInv.bind suff_norun RdInv.bit fun v bs h => ?_
    obtain ⟨z, rfl, rfl⟩ := h
    refine RdInv.bind suff_norun RdInv.se fun v bs h => ?_
    obtain ⟨a, ha, rfl, rfl⟩ := h
    refine RdInv.bind suff_norun RdInv.se fun v bs h => ?_
    obtain ⟨b, hb, rfl, rfl⟩ := h
    refine RdInv.bind suff_norun RdInv.ue fun v bs h => ?_
    obtain ⟨n, hn, rfl, rfl⟩ := h
    rw [BitVec.toNat_ofNat, Nat.mod_eq_of_lt hn.lt]
    have key : RdInv NoRun Rd.se.skip (fun bs _ => ∃ x : Int, SEW x ∧ bs = seBits x) :=
      RdInv.skip suff_norun (RdInv.se.mono fun bs v h => by obtain ⟨x, hx, rfl, _⟩ := h; exact ⟨x, hx, rfl⟩)
    refine (RdInv.times suff_norun key n).mono fun bs _ h => ?_
    obtain ⟨os, h1, h2, rfl⟩ := h
    subst h1
    exact ⟨.type1 z a b os, ⟨ha, hb, hn, h2⟩, rfl⟩
  · refine RdInv.pure ?_
    rw [e0] at h
    rw [e1] at h'
    by_cases h2 : ty = 2
    · subst h2; exact ⟨.type2, trivial, by simp [H264Poc.bits]⟩
    · exact ⟨.reserved ty, ⟨by omega, hty⟩, by simp [H264Poc.bits]⟩

theorem avcCrop_inv : RdInv NoRun avcCrop (fun bs _ => ∃ c : Option H264Crop, (∀ d, c = some d → d.Loose) ∧ bs = optBits H264Crop.bits c) := by
  unfold avcCrop
  refine RdInv.bind suff_norun RdInv.bit fun v bs h => ?_
  obtain ⟨b, rfl, rfl⟩ := h
  refine RdInv.ite (fun h => ?_) fun h => ?_
  · have : b = true := by cases b <;> simp_all
    subst this
    refine RdInv.bind suff_norun RdInv.ue fun v bs h => ?_
    obtain ⟨l, hl, rfl, rfl⟩ := h
    refine RdInv.bind suff_norun RdInv.ue fun v bs h => ?_
    obtain ⟨r, hr, rfl, rfl⟩ := h
    refine RdInv.bind suff_norun RdInv.ue fun v bs h => ?_
    obtain ⟨t, ht, rfl, rfl⟩ := h
    refine RdInv.bind suff_norun RdInv.ue fun v bs h => ?_
    obtain ⟨b, hb, rfl, rfl⟩ := h
    refine RdInv.pure ⟨some ⟨l, r, t, b⟩, ?_, by simp [optBits, H264Crop.bits]⟩
    intro d hd
    cases hd
    exact ⟨hl, hr, ht, hb⟩
  · have : b = false := by cases b <;> simp_all
    subst this
    exact RdInv.pure ⟨none, by simp, rfl⟩

theorem avcTiming_inv (undef : Int) : RdInv NoRun (avcTiming undef) (fun bs _ => ∃ t : Option H264Timing,
    (∀ d, t = some d → d.numUnitsInTick < 2 ^ 32 ∧ d.timeScale < 2 ^ 32) ∧ bs = optBits H264Timing.bits t) := by
  unfold avcTiming
  refine RdInv.bind suff_norun RdInv.bit fun v bs h => ?_
  obtain ⟨b, rfl, rfl⟩ := h
  refine RdInv.ite (fun h => ?_) fun h => ?_
  · have : b = true := by cases b <;> simp_all
    subst this
    refine RdInv.bind suff_norun (RdInv.nbits 32 (by omega)) fun v bs h => ?_
    obtain ⟨n, hn, rfl, rfl⟩ := h
    refine RdInv.bind suff_norun (RdInv.nbits 32 (by omega)) fun v bs h => ?_
    obtain ⟨t, ht, rfl, rfl⟩ := h
    refine RdInv.bind suff_norun RdInv.bit fun v bs h => ?_
    obtain ⟨f, rfl, rfl⟩ := h
    refine RdInv.pure ⟨some ⟨n, t, f⟩, ?_, by simp [optBits, H264Timing.bits, flagBits]⟩
    intro d hd
    cases hd
    exact ⟨hn, ht⟩
  · have : b = false := by cases b <;> simp_all
    subst this
    exact RdInv.pure ⟨none, by simp, rfl⟩

theorem avcAspect_inv : RdInv NoRun avcAspect (fun bs _ => ∃ a : Option H264Aspect, (∀ n, a = some (.idc n) → n < 255) ∧
    (∀ w h, a = some (.extended w h) → w < 2 ^ 16 ∧ h < 2 ^ 16) ∧ bs = optBits H264Aspect.bits a) := by
  unfold avcAspect
  have key : RdInv NoRun (do
      let idc ← Rd.nbits 8
      Rd.when (idc = 255) do
        let _ ← Rd.nbits 16
        let _ ← Rd.nbits 16 : Rd Unit) (fun bs _ => ∃ a : H264Aspect, ((∀ n, a = .idc n → n < 255) ∧
      (∀ w h, a = .extended w h → w < 2 ^ 16 ∧ h < 2 ^ 16)) ∧ bs = a.bits) := by
    refine RdInv.bind suff_norun (RdInv.nbits 8 (by omega)) fun v bs h => ?_
    obtain ⟨n, hn, rfl, rfl⟩ := h
    have e : decide (BitVec.ofNat 64 n = 255) = decide (n = 255) := decide_eq_decide.mpr (ofNat_eq_small (by omega) 255 (by omega))
    rw [e]
    refine RdInv.when (fun h => ?_) fun h => ?_
    · have : n = 255 := by simpa using h
      subst this
      refine RdInv.bind suff_norun (RdInv.nbits 16 (by omega)) fun v bs h => ?_
      obtain ⟨w, hw, rfl, rfl⟩ := h
      refine RdInv.bind suff_norun (RdInv.nbits 16 (by omega)) fun v bs h => ?_
      obtain ⟨x, hx, rfl, rfl⟩ := h
      exact RdInv.pure ⟨.extended w x, ⟨by simp, by rintro _ _ ⟨⟩; exact ⟨hw, hx⟩⟩, by simp [H264Aspect.bits]⟩
    · have : n ≠ 255 := by simpa using h
      exact ⟨.idc n, ⟨by rintro _ ⟨⟩; omega, by simp⟩, by simp [H264Aspect.bits]⟩
  refine (RdInv.opt suff_norun key).mono fun bs _ h => ?_
  obtain ⟨o, ho, rfl⟩ := h
  exact ⟨o, fun n hn => (ho _ hn).1 n rfl, fun w h hw => (ho _ hw).2 w h rfl, rfl⟩

theorem avcSignal_inv : RdInv NoRun avcSignal (fun bs _ => ∃ s : H264Signal, (s.format < 8 ∧
    ∀ c, s.colour = some c → c.1 < 256 ∧ c.2.1 < 256 ∧ c.2.2 < 256) ∧ bs = s.bits) := by
  unfold avcSignal
  refine RdInv.bind suff_norun (RdInv.nbits 3 (by omega)) fun v bs h => ?_
  obtain ⟨n, hn, rfl, rfl⟩ := h
  refine RdInv.bind suff_norun RdInv.bit fun v bs h => ?_
  obtain ⟨f, rfl, rfl⟩ := h
  have key : RdInv NoRun (do
      let _ ← Rd.nbits 8
      let _ ← Rd.nbits 8
      let _ ← Rd.nbits 8 : Rd Unit) (fun bs _ => ∃ c : Nat × Nat × Nat, (c.1 < 256 ∧ c.2.1 < 256 ∧ c.2.2 < 256) ∧
        bs = fieldBits 8 c.1 ++ (fieldBits 8 c.2.1 ++ fieldBits 8 c.2.2)) := by
    refine RdInv.bind suff_norun (RdInv.nbits 8 (by omega)) fun v bs h => ?_
    obtain ⟨a, ha, rfl, rfl⟩ := h
    refine RdInv.bind suff_norun (RdInv.nbits 8 (by omega)) fun v bs h => ?_
    obtain ⟨b, hb, rfl, rfl⟩ := h
    refine RdInv.bind suff_norun (RdInv.nbits 8 (by omega)) fun v bs h => ?_
    obtain ⟨c, hc, rfl, rfl⟩ := h
    exact RdInv.pure ⟨(a, b, c), ⟨ha, hb, hc⟩, by simp⟩
  refine (RdInv.opt suff_norun key).mono fun bs _ h => ?_
  obtain ⟨o, ho, rfl⟩ := h
  exact ⟨⟨n, f, o⟩, ⟨hn, ho⟩, rfl⟩

theorem avcLocTiming_inv (undef : Int) : RdInv NoRun (avcLocTiming undef) (fun bs _ => ∃ (c : Option (Nat × Nat)) (t : Option H264Timing),
    (∀ d, c = some d → UEW d.1 ∧ UEW d.2) ∧ (∀ d, t = some d → d.numUnitsInTick < 2 ^ 32 ∧ d.timeScale < 2 ^ 32) ∧
    bs = optBits (fun c => ueBits c.1 ++ ueBits c.2) c ++ optBits H264Timing.bits t) := by
  unfold avcLocTiming
  have key : RdInv NoRun (do
      let _ ← Rd.se
      let _ ← Rd.se : Rd Unit) (fun bs _ => ∃ c : Nat × Nat, (UEW c.1 ∧ UEW c.2) ∧ bs = ueBits c.1 ++ ueBits c.2) := by
    refine RdInv.bind suff_norun RdInv.se_ue fun v bs h => ?_
    obtain ⟨a, ha, rfl⟩ := h
    refine RdInv.bind suff_norun RdInv.se_ue fun v bs h => ?_
    obtain ⟨b, hb, rfl⟩ := h
    exact RdInv.pure ⟨(a, b), ⟨ha, hb⟩, by simp⟩
  refine RdInv.opt_bind suff_norun key fun o ho => ?_
  refine (avcTiming_inv undef).mono fun bs _ h => ?_
  obtain ⟨t, ht, rfl⟩ := h
  exact ⟨o, t, ho, ht, rfl⟩

theorem avcVui_inv (undef : Int) : RdInv NoRun (avcVui undef) (fun bs _ => ∃ v : H264Vui, v.Loose ∧ bs = v.bits) := by
  unfold avcVui
  refine RdInv.bind suff_norun avcAspect_inv fun _ bs h => ?_
  obtain ⟨a, ha1, ha2, rfl⟩ := h
  have k1 : RdInv NoRun Rd.bit.skip (fun bs _ => ∃ b : Bool, True ∧ bs = flagBits b) :=
    RdInv.skip suff_norun (RdInv.bit.mono fun bs v h => by obtain ⟨b, rfl, _⟩ := h; exact ⟨b, trivial, rfl⟩)
  refine RdInv.opt_bind suff_norun k1 fun ov _ => ?_
  -- the flag whose error is ignored
  intro g v g' hg hc e
  have hb : (Rd.bit >>= fun signal => Rd.when (signal ≠ 0) avcSignal >>= fun _ => avcLocTiming undef) g = ok (v, g') := by
    rw [rd_bind] at e ⊢
    unfold Rd.bitOrZero at e
    cases eb : g.readBit with
    | ok r => rw [eb] at e; show (g.readBit >>= _) = _; rw [eb]; exact e
    | err m =>
      rw [eb] at e
      exact absurd e (avcLocTiming_end undef g m eb _)
    | panic => rw [eb] at e; cases e
  refine RdInv.opt_bind suff_norun (T := fun cs _ => ∃ v : H264Vui, v.Loose ∧
    optBits H264Aspect.bits a ++ (optBits flagBits ov ++ cs) = v.bits) avcSignal_inv (fun sg hsg => ?_) g v g' hg hc hb
  refine (avcLocTiming_inv undef).mono fun bs _ h => ?_
  obtain ⟨c, t, hc, ht, rfl⟩ := h
  exact ⟨⟨a, ov, sg, c, t⟩, ⟨ha1, ha2, hsg, hc, ht⟩, rfl⟩

/-- What `ParseSPS` (H.264) accepts has the form of a parameter set with the high-profile part for the profiles the code lists, with eight scaling
lists. -/
theorem avcSpsBody_inv (undef : Int) : RdInv NoRun (avcSpsBody undef) (fun bs _ => ∃ (hdr : Nat) (s : H264Sps), hdr < 256 ∧
    s.Loose avcHighs 8 ∧ bs = fieldBits 8 hdr ++ s.bitsWith avcHighs) := by
  unfold avcSpsBody
  refine RdInv.bind suff_norun (RdInv.nbits 8 (by omega)) fun v bs h => ?_
  obtain ⟨hdr, hhdr, rfl, rfl⟩ := h
  refine RdInv.bind suff_norun (RdInv.nbits 8 (by omega)) fun v bs h => ?_
  obtain ⟨p, hp, rfl, rfl⟩ := h
  refine RdInv.bind suff_norun (RdInv.nbits 8 (by omega)) fun v bs h => ?_
  obtain ⟨f, hf, rfl, rfl⟩ := h
  refine RdInv.bind suff_norun (RdInv.nbits 8 (by omega)) fun v bs h => ?_
  obtain ⟨l, hl, rfl, rfl⟩ := h
  refine RdInv.bind suff_norun RdInv.ue fun v bs h => ?_
  obtain ⟨id, hid, rfl, rfl⟩ := h
  refine RdInv.bind suff_norun (R := fun bs _ => ∃ h : H264High, (p ∈ avcHighs → h.Loose 8) ∧ bs = if p ∈ avcHighs then h.bits else [])
    ?_ fun _ bs h => ?_
  · rw [avcIsHigh_iff p hp]
    refine RdInv.when (fun h => ?_) fun h => ?_
    · have hm : p ∈ avcHighs := by simpa [avcHighs] using h
      refine avcHigh_inv.mono fun bs _ h => ?_
      obtain ⟨x, hx, rfl⟩ := h
      exact ⟨x, fun _ => hx, by rw [if_pos hm]⟩
    · have hm : p ∉ avcHighs := by simpa [avcHighs] using h
      exact ⟨⟨0, false, 0, 0, false, none⟩, fun h => absurd h hm, by rw [if_neg hm]⟩
  obtain ⟨hi, hhi, rfl⟩ := h
  refine RdInv.bind suff_norun RdInv.ue fun v bs h => ?_
  obtain ⟨fn, hfn, rfl, rfl⟩ := h
  refine RdInv.bind suff_norun avcPoc_inv fun v bs h => ?_
  obtain ⟨poc, hpoc, rfl⟩ := h
  refine RdInv.bind suff_norun RdInv.ue fun v bs h => ?_
  obtain ⟨rf, hrf, rfl, rfl⟩ := h
  refine RdInv.bind suff_norun RdInv.bit fun v bs h => ?_
  obtain ⟨gaps, rfl, rfl⟩ := h
  refine RdInv.bind suff_norun RdInv.ue fun v bs h => ?_
  obtain ⟨w, hw, rfl, rfl⟩ := h
  refine RdInv.bind suff_norun RdInv.ue fun v bs h => ?_
  obtain ⟨ht, hht, rfl, rfl⟩ := h
  refine RdInv.bind suff_norun (R := fun bs _ => ∃ (fm mba d8 : Bool) (c : Option H264Crop) (v : Option H264Vui),
    (∀ d, c = some d → d.Loose) ∧ (∀ d, v = some d → d.Loose) ∧ bs = flagBits fm ++ ((if fm then [] else flagBits mba) ++ (flagBits d8 ++
      (optBits H264Crop.bits c ++ optBits H264Vui.bits v)))) ?_ fun v bs h => ?_
  · unfold avcFlagsCropVui
    refine RdInv.bind suff_norun RdInv.bit fun v bs h => ?_
    obtain ⟨fm, rfl, rfl⟩ := h
    refine RdInv.bind suff_norun (R := fun bs _ => ∃ m : Bool, bs = if fm then [] else flagBits m) ?_ fun _ bs h => ?_
    · rw [ofBool_eq_zero]
      refine RdInv.when (fun h => ?_) fun h => ⟨false, by simp at h; simp [h]⟩
      refine RdInv.skip suff_norun (RdInv.bit.mono fun bs v h' => ?_)
      obtain ⟨b, rfl, _⟩ := h'
      exact ⟨b, by simp at h; simp [h, flagBits]⟩
    obtain ⟨m, rfl⟩ := h
    refine RdInv.bind suff_norun RdInv.bit fun v bs h => ?_
    obtain ⟨d8, rfl, rfl⟩ := h
    refine RdInv.bind suff_norun avcCrop_inv fun v bs h => ?_
    obtain ⟨c, hc, rfl⟩ := h
    refine RdInv.bind suff_norun RdInv.bit fun v bs h => ?_
    obtain ⟨vf, rfl, rfl⟩ := h
    refine RdInv.bind suff_norun (R := fun bs _ => ∃ v : Option H264Vui, (∀ d, v = some d → d.Loose) ∧ [vf] ++ bs = optBits H264Vui.bits v)
      (RdInv.ite (fun h => ?_) fun h => ?_) fun v bs h => ?_
    · have : vf = true := by cases vf <;> simp_all
      subst this
      refine (avcVui_inv undef).mono fun bs _ h => ?_
      obtain ⟨v, hv, rfl⟩ := h
      exact ⟨some v, by simpa using hv, rfl⟩
    · have : vf = false := by cases vf <;> simp_all
      subst this
      exact RdInv.pure ⟨none, by simp, rfl⟩
    obtain ⟨v, hv, hbs⟩ := h
    refine RdInv.pure ⟨fm, m, d8, c, v, hc, hv, ?_⟩
    rw [← hbs]
    simp [flagBits]
  obtain ⟨fm, mba, d8, c, v, hc, hv, rfl⟩ := h
  exact RdInv.pure ⟨hdr, ⟨p, f, l, id, hi, fn, poc, rf, gaps, w, ht, fm, mba, d8, c, v⟩, hhdr,
    ⟨hp, hf, hl, hid, hhi, hfn, hpoc, hrf, hw, hht, hc, hv⟩, by simp [H264Sps.bitsWith, flagBits]⟩

/-! ## H.265 -/

section
variable {C : List Bool → Prop}

theorem hevcPtlGeneral_inv : RdInv C hevcPtlGeneral (fun bs _ => ∃ p : H265Ptl, (p.space < 4 ∧ p.idc < 32 ∧ p.compat < 2 ^ 32 ∧
    p.constraints < 2 ^ 48 ∧ p.level < 256) ∧ bs = p.bits) := by
  unfold hevcPtlGeneral
  refine RdInv.bind' (RdInv.nbits 2 (by omega)) fun v bs h => ?_
  obtain ⟨a, ha, rfl, rfl⟩ := h
  refine RdInv.bind' RdInv.bit fun v bs h => ?_
  obtain ⟨b, rfl, rfl⟩ := h
  refine RdInv.bind' (RdInv.nbits 5 (by omega)) fun v bs h => ?_
  obtain ⟨c, hc, rfl, rfl⟩ := h
  refine RdInv.bind' (RdInv.nbits32 32 (by omega)) fun v bs h => ?_
  obtain ⟨d, hd, rfl, rfl⟩ := h
  refine RdInv.bind' (RdInv.nbits64 48 (by omega)) fun v bs h => ?_
  obtain ⟨e, he, rfl, rfl⟩ := h
  refine RdInv.bind' (RdInv.nbits 8 (by omega)) fun v bs h => ?_
  obtain ⟨f, hf, rfl, rfl⟩ := h
  exact RdInv.pure ⟨⟨a, b, c, d, e, f⟩, ⟨ha, hc, hd, he, hf⟩, by simp [H265Ptl.bits, flagBits]⟩

theorem hevcLayerFlags_inv (n : Nat) : ∀ {C : List Bool → Prop}, RdInv C (hevcLayerFlags n) (fun bs v => ∃ fl : List (Bool × Bool),
    fl.length = n ∧ bs = fl.flatMap (fun x => [x.1, x.2]) ∧ v = fl.map fun x => (layerFlag x.1, layerFlag x.2)) := by
  induction n with
  | zero => intro C; exact RdInv.pure ⟨[], rfl, rfl, rfl⟩
  | succ n ih =>
    intro C
    refine RdInv.bind' RdInv.bit fun v bs h => ?_
    obtain ⟨a, rfl, rfl⟩ := h
    refine RdInv.bind' RdInv.bit fun v bs h => ?_
    obtain ⟨b, rfl, rfl⟩ := h
    refine RdInv.bind' ih fun v bs h => ?_
    obtain ⟨fl, h1, rfl, rfl⟩ := h
    exact RdInv.pure ⟨(a, b) :: fl, by simp [h1], by simp, rfl⟩

/-- The presence flags of a sub-layer. -/
def H265Layer.flags (l : H265Layer) : Bool × Bool := (l.profile.isSome, l.level.isSome)

/-- The data of a sub-layer. -/
def H265Layer.data (l : H265Layer) : List Bool :=
  (match l.profile with | some p => fieldBits 88 p | none => []) ++ (match l.level with | some v => fieldBits 8 v | none => [])

def H265Layer.InRange (l : H265Layer) : Prop := (∀ p, l.profile = some p → p < 2 ^ 88) ∧ ∀ v, l.level = some v → v < 256

theorem hevcLayers_inv (fl : List (Bool × Bool)) : ∀ {C : List Bool → Prop},
    RdInv C (hevcLayers (fl.map fun x => (layerFlag x.1, layerFlag x.2))) (fun bs _ => ∃ ls : List H265Layer,
      ls.map H265Layer.flags = fl ∧ (∀ l ∈ ls, l.InRange) ∧ bs = ls.flatMap H265Layer.data) := by
  induction fl with
  | nil => intro C; exact RdInv.pure ⟨[], rfl, by simp, rfl⟩
  | cons x fl ih =>
    intro C
    obtain ⟨a, b⟩ := x
    rw [List.map_cons]
    refine RdInv.bind' (R := fun bs _ => ∃ p : Option Nat, p.isSome = a ∧ (∀ y, p = some y → y < 2 ^ 88) ∧
      bs = match p with | some p => fieldBits 88 p | none => []) ?_ fun v bs h => ?_
    · rw [show layerFlag a = BitVec.ofNat 64 a.toNat from rfl, ofBool_ne]
      refine RdInv.when (fun h => ?_) fun h => ⟨none, by simp [h], by simp, rfl⟩
      refine RdInv.bind' (RdInv.nbits32 32 (by omega)) fun v bs h => ?_
      obtain ⟨p, hp, rfl, rfl⟩ := h
      refine RdInv.bind' (RdInv.nbits32 32 (by omega)) fun v bs h => ?_
      obtain ⟨q, hq, rfl, rfl⟩ := h
      refine RdInv.bind' (RdInv.nbits32 24 (by omega)) fun v bs h => ?_
      obtain ⟨r, hr, rfl, rfl⟩ := h
      refine RdInv.pure ⟨some (p * 2 ^ 56 + (q * 2 ^ 24 + r)), by simp [*], by rintro _ ⟨⟩; omega, ?_⟩
      dsimp only
      rw [show (88 : Nat) = 32 + (32 + 24) from rfl, fieldBits_append 32, fieldBits_append 32, List.append_nil]
      congr 1
      · congr 1; omega
      · congr 1
        · rw [← fieldBits_mod 32 ((p * 2 ^ 56 + (q * 2 ^ 24 + r)) / 2 ^ 24) 32 (by omega)]
          congr 1; omega
        · rw [← fieldBits_mod 24 (p * 2 ^ 56 + (q * 2 ^ 24 + r)) 24 (by omega)]
          congr 1; omega
    obtain ⟨p, hpa, hp, rfl⟩ := h
    refine RdInv.bind' (R := fun bs _ => ∃ p : Option Nat, p.isSome = b ∧ (∀ y, p = some y → y < 256) ∧
      bs = match p with | some p => fieldBits 8 p | none => []) ?_ fun v bs h => ?_
    · rw [show layerFlag b = BitVec.ofNat 64 b.toNat from rfl, ofBool_ne]
      refine RdInv.when (fun h => ?_) fun h => ⟨none, by simp [h], by simp, rfl⟩
      refine RdInv.bind' (RdInv.nbits 8 (by omega)) fun v bs h => ?_
      obtain ⟨y, hy, rfl, rfl⟩ := h
      exact RdInv.pure ⟨some y, by simp [*], by rintro _ ⟨⟩; omega, by simp⟩
    obtain ⟨l, hlb, hl, rfl⟩ := h
    refine ih.mono fun bs _ h => ?_
    obtain ⟨ls, h1, h2, rfl⟩ := h
    refine ⟨⟨p, l⟩ :: ls, by simp [H265Layer.flags, hpa, hlb, h1], ?_, by simp [H265Layer.data]⟩
    intro x hx
    rcases List.mem_cons.mp hx with rfl | hx
    · exact ⟨hp, hl⟩
    · exact h2 x hx

theorem skip_pairs_inv (k : Nat) : ∀ {C : List Bool → Prop}, RdInv C (Rd.times k (Rd.nbits 2).skip) (fun bs _ => bs.length = 2 * k) := by
  induction k with
  | zero => intro C; exact RdInv.pure rfl
  | succ k ih =>
    intro C
    refine RdInv.bind' (R := fun bs _ => bs.length = 2) (RdInv.bind' (RdInv.nbits 2 (by omega)) fun v bs h => ?_) fun _ bs h => ?_
    · obtain ⟨y, _, rfl, _⟩ := h
      exact RdInv.pure (by simp)
    · exact ih.mono fun cs _ h' => by rw [List.length_append]; omega

theorem layersBits_eq (ls : List H265Layer) (r : List Bool) (h : ls.length ≠ 0) :
    h265LayersBits ls r = (ls.map H265Layer.flags).flatMap (fun x => [x.1, x.2]) ++ (r ++ ls.flatMap H265Layer.data) := by
  unfold h265LayersBits
  rw [if_neg h, List.flatMap_map]
  rfl

theorem hevcSubLayers_inv (n : Nat) : RdInv C (hevcSubLayers n) (fun bs _ => ∃ (ls : List H265Layer) (r : List Bool),
    ls.length = n ∧ (n ≠ 0 → r.length = 2 * (8 - n)) ∧ (∀ l ∈ ls, l.InRange) ∧ bs = h265LayersBits ls r) := by
  unfold hevcSubLayers
  refine RdInv.ite (fun h => ?_) fun h => ?_
  · subst h
    exact RdInv.pure ⟨[], [], rfl, by simp, by simp, rfl⟩
  · refine RdInv.bind' (hevcLayerFlags_inv n) fun v bs hv => ?_
    obtain ⟨fl, h1, rfl, rfl⟩ := hv
    refine RdInv.bind' (skip_pairs_inv (8 - n)) fun _ bs hv => ?_
    refine (hevcLayers_inv fl).mono fun cs _ hv' => ?_
    obtain ⟨ls, k1, k2, rfl⟩ := hv'
    subst k1
    have hl : ls.length = n := by simpa using h1
    exact ⟨ls, bs, hl, fun _ => hv, k2, (layersBits_eq ls bs (by omega)).symm⟩

/-! ### The length of the head -/

theorem layersLen_eq (ls : List H265Layer) : h265LayersLen ((ls.map H265Layer.flags).flatMap (fun x => [x.1, x.2])) =
    (ls.flatMap H265Layer.data).length := by
  induction ls with
  | nil => rfl
  | cons l ls ih =>
    rw [List.map_cons, List.flatMap_cons, List.flatMap_cons, List.length_append, ← ih]
    simp only [List.cons_append, List.nil_append, h265LayersLen]
    congr 1
    unfold H265Layer.data H265Layer.flags
    rw [List.length_append]
    cases l.profile <;> cases l.level <;> simp

theorem ptl_bits_length (p : H265Ptl) : p.bits.length = 96 := by simp [H265Ptl.bits, flagBits]

theorem h265HeadLen_eq (v n : Nat) (t : Bool) (p : H265Ptl) (ls : List H265Layer) (r rest : List Bool) (hn : n < 8) (hl : ls.length = n)
    (hr : n ≠ 0 → r.length = 2 * (8 - n)) :
    h265HeadLen (fieldBits 4 v ++ (fieldBits 3 n ++ ([t] ++ (p.bits ++ (h265LayersBits ls r ++ rest))))) =
      (fieldBits 4 v ++ (fieldBits 3 n ++ ([t] ++ (p.bits ++ h265LayersBits ls r)))).length := by
  have e1 : ∀ x : List Bool, ((fieldBits 4 v ++ (fieldBits 3 n ++ x)).drop 4).take 3 = fieldBits 3 n := by
    intro x
    rw [List.drop_append_of_le_length (by simp), List.drop_of_length_le (by simp), List.nil_append,
      List.take_append_of_le_length (by simp), List.take_of_length_le (by simp)]
  have e2 : ∀ x : List Bool, (fieldBits 4 v ++ (fieldBits 3 n ++ ([t] ++ (p.bits ++ x)))).drop 104 = x := by
    intro x
    have : fieldBits 4 v ++ (fieldBits 3 n ++ ([t] ++ (p.bits ++ x))) = (fieldBits 4 v ++ (fieldBits 3 n ++ ([t] ++ p.bits))) ++ x := by simp
    rw [this]
    have hlen : (fieldBits 4 v ++ (fieldBits 3 n ++ ([t] ++ p.bits))).length = 104 := by simp [ptl_bits_length]
    rw [← hlen, List.drop_left]
  unfold h265HeadLen
  rw [e1, e2, bitsVal_fieldBits, Nat.mod_eq_of_lt (by omega)]
  dsimp only
  simp only [List.length_append, fieldBits_length, ptl_bits_length, List.length_cons, List.length_nil]
  by_cases h0 : n = 0
  · rw [if_pos h0]
    have : ls = [] := List.eq_nil_of_length_eq_zero (by omega)
    subst this
    simp [h265LayersBits]
  · rw [if_neg h0, layersBits_eq ls r (by omega)]
    have hf : ((ls.map H265Layer.flags).flatMap (fun x => [x.1, x.2])).length = 2 * n := by
      rw [← hl]
      clear e1 e2 hr hn h0 hl
      induction ls with
      | nil => rfl
      | cons l ls ih => rw [List.map_cons, List.flatMap_cons, List.length_append, ih]; simp; omega
    rw [List.append_assoc, List.take_append_of_le_length (by omega), List.take_of_length_le (by omega), layersLen_eq]
    simp only [List.length_append, hf, hr h0]
    omega

end

/-- Behind the profile and level there is no run of 33 zero bits. -/
def TailNoRun (t : List Bool) : Prop := NoRun (t.drop (h265HeadLen t))

theorem ue_skip_inv : RdInv NoRun Rd.ue.skip (fun bs _ => ∃ n, UEW n ∧ bs = ueBits n) :=
  RdInv.skip suff_norun (RdInv.ue.mono fun bs v h => by obtain ⟨n, hn, rfl, _⟩ := h; exact ⟨n, hn, rfl⟩)

theorem hevcSpsTail_inv (n : Nat) (hn : n < 2 ^ 64) : RdInv NoRun (hevcSpsTail (BitVec.ofNat 64 n)) (fun bs _ =>
    ∃ (window : Option (Nat × Nat × Nat × Nat)) (luma chroma lsb : Nat) (all : Bool) (ord : List (Nat × Nat × Nat))
      (sizes : Nat × Nat × Nat × Nat × Nat × Nat),
    (∀ w, window = some w → UEW w.1 ∧ UEW w.2.1 ∧ UEW w.2.2.1 ∧ UEW w.2.2.2) ∧ UEW luma ∧ UEW chroma ∧ UEW lsb ∧
    ord.length = (if all then n + 1 else 1) ∧ (∀ o ∈ ord, UEW o.1 ∧ UEW o.2.1 ∧ UEW o.2.2) ∧
    (UEW sizes.1 ∧ UEW sizes.2.1 ∧ UEW sizes.2.2.1 ∧ UEW sizes.2.2.2.1 ∧ UEW sizes.2.2.2.2.1 ∧ UEW sizes.2.2.2.2.2) ∧
    bs = optBits (fun w : Nat × Nat × Nat × Nat => ueBits w.1 ++ (ueBits w.2.1 ++ (ueBits w.2.2.1 ++ ueBits w.2.2.2))) window ++
      (ueBits luma ++ (ueBits chroma ++ (ueBits lsb ++ (flagBits all ++
      (ord.flatMap (fun o => ueBits o.1 ++ (ueBits o.2.1 ++ ueBits o.2.2)) ++
      (ueBits sizes.1 ++ (ueBits sizes.2.1 ++ (ueBits sizes.2.2.1 ++ (ueBits sizes.2.2.2.1 ++
      (ueBits sizes.2.2.2.2.1 ++ ueBits sizes.2.2.2.2.2))))))))))) := by
  unfold hevcSpsTail
  have k4 : RdInv NoRun (Rd.times 4 Rd.ue.skip) (fun bs _ => ∃ w : Nat × Nat × Nat × Nat, (UEW w.1 ∧ UEW w.2.1 ∧ UEW w.2.2.1 ∧ UEW w.2.2.2) ∧
      bs = ueBits w.1 ++ (ueBits w.2.1 ++ (ueBits w.2.2.1 ++ ueBits w.2.2.2))) :=
    (RdInv.times suff_norun ue_skip_inv 4).mono fun bs _ h => by
      obtain ⟨xs, h1, h2, rfl⟩ := h
      match xs, h1 with
      | [a, b, c, d], _ => exact ⟨(a, b, c, d), ⟨h2 a (by simp), h2 b (by simp), h2 c (by simp), h2 d (by simp)⟩, by simp⟩
  refine RdInv.opt_bind suff_norun k4 fun window hw => ?_
  refine RdInv.bind suff_norun RdInv.ue fun v bs h => ?_
  obtain ⟨luma, hluma, rfl, rfl⟩ := h
  refine RdInv.bind suff_norun RdInv.ue fun v bs h => ?_
  obtain ⟨chroma, hchroma, rfl, rfl⟩ := h
  refine RdInv.bind suff_norun RdInv.ue fun v bs h => ?_
  obtain ⟨lsb, hlsb, rfl, rfl⟩ := h
  refine RdInv.bind suff_norun RdInv.bit fun v bs h => ?_
  obtain ⟨all, rfl, rfl⟩ := h
  have k3 : RdInv NoRun (Rd.times 3 Rd.ue.skip) (fun bs _ => ∃ w : Nat × Nat × Nat, (UEW w.1 ∧ UEW w.2.1 ∧ UEW w.2.2) ∧
      bs = ueBits w.1 ++ (ueBits w.2.1 ++ ueBits w.2.2)) :=
    (RdInv.times suff_norun ue_skip_inv 3).mono fun bs _ h => by
      obtain ⟨xs, h1, h2, rfl⟩ := h
      match xs, h1 with
      | [a, b, c], _ => exact ⟨(a, b, c), ⟨h2 a (by simp), h2 b (by simp), h2 c (by simp)⟩, by simp⟩
  refine RdInv.bind suff_norun (RdInv.times suff_norun k3 _) fun _ bs h => ?_
  obtain ⟨ord, ho1, ho2, rfl⟩ := h
  refine RdInv.bind suff_norun (RdInv.times suff_norun ue_skip_inv 6) fun _ bs h => ?_
  obtain ⟨xs, h1, h2, rfl⟩ := h
  match xs, h1 with
  | [a, b, c, d, e, f], _ =>
    refine RdInv.pure ⟨window, luma, chroma, lsb, all, ord, (a, b, c, d, e, f), hw, hluma, hchroma, hlsb, ?_, ho2,
      ⟨h2 a (by simp), h2 b (by simp), h2 c (by simp), h2 d (by simp), h2 e (by simp), h2 f (by simp)⟩, by simp [flagBits]⟩
    rw [ho1, BitVec.toNat_ofNat, Nat.mod_eq_of_lt hn]
    cases all <;> rfl

/-- What `ParseSPS` (H.265) accepts has the form of a parameter set. -/
theorem hevcSpsBody_inv : RdInv TailNoRun hevcSpsBody (fun bs _ => ∃ s : H265Sps, s.Loose ∧ bs = s.bits) := by
  unfold hevcSpsBody
  refine RdInv.bind' (RdInv.nbits 4 (by omega)) fun v bs h => ?_
  obtain ⟨vps, hvps, rfl, rfl⟩ := h
  refine RdInv.bind' (RdInv.nbits 3 (by omega)) fun v bs h => ?_
  obtain ⟨n, hn, rfl, rfl⟩ := h
  refine RdInv.bind' RdInv.bit fun v bs h => ?_
  obtain ⟨nested, rfl, rfl⟩ := h
  refine RdInv.bind' hevcPtlGeneral_inv fun v bs h => ?_
  obtain ⟨ptl, ⟨p1, p2, p3, p4, p5⟩, rfl⟩ := h
  rw [BitVec.toNat_ofNat, Nat.mod_eq_of_lt (by omega)]
  refine RdInv.bind' (hevcSubLayers_inv n) fun v bs h => ?_
  obtain ⟨ls, r, hl, hr, hin, rfl⟩ := h
  refine RdInv.weaken (C := NoRun) ?_ fun t ht => ?_
  · refine RdInv.bind suff_norun RdInv.ue fun v bs h => ?_
    obtain ⟨id, hid, rfl, rfl⟩ := h
    refine RdInv.bind suff_norun RdInv.ue fun v bs h => ?_
    obtain ⟨c, hc, rfl, rfl⟩ := h
    refine RdInv.bind suff_norun (R := fun bs _ => ∃ b : Bool, bs = if c = 3 then flagBits b else []) ?_ fun _ bs h => ?_
    · have e : decide (BitVec.ofNat 64 c = 3) = decide (c = 3) := decide_eq_decide.mpr (ofNat_eq_small hc.lt 3 (by omega))
      rw [e]
      refine RdInv.when (fun h => ?_) (fun h => ⟨false, by simp at h; simp [h]⟩)
      refine RdInv.skip suff_norun (RdInv.bit.mono fun bs v h' => ?_)
      obtain ⟨b, rfl, _⟩ := h'
      exact ⟨b, by simp at h; simp [h, flagBits]⟩
    obtain ⟨sep, rfl⟩ := h
    refine RdInv.bind suff_norun RdInv.ue fun v bs h => ?_
    obtain ⟨w, hw, rfl, rfl⟩ := h
    refine RdInv.bind suff_norun RdInv.ue fun v bs h => ?_
    obtain ⟨ht, hht, rfl, rfl⟩ := h
    refine RdInv.bind suff_norun (hevcSpsTail_inv n (by omega)) fun v bs h => ?_
    obtain ⟨window, luma, chroma, lsb, all, ord, sizes, q1, q2, q3, q4, q5, q6, q7, rfl⟩ := h
    refine RdInv.pure ⟨⟨vps, nested, ptl, ls, r, id, c, sep, w, ht, window, luma, chroma, lsb, all, ord, sizes⟩,
      ⟨hvps, by show ls.length ≤ 7; omega, by rw [hl]; exact hr, fun l h => (hin l h).1, fun l h => (hin l h).2, p1, p2, p3, p4, p5, hid, hc, hw, hht, q1, q2, q3, q4,
        by rw [hl]; exact q5, q6, q7⟩, ?_⟩
    subst hl
    simp [H265Sps.bits, flagBits]
  · unfold TailNoRun at ht
    rw [h265HeadLen_eq vps n nested ptl ls r t (by omega) hl hr] at ht
    have : fieldBits 4 vps ++ (fieldBits 3 n ++ ([nested] ++ (ptl.bits ++ (h265LayersBits ls r ++ t)))) =
      (fieldBits 4 vps ++ (fieldBits 3 n ++ ([nested] ++ (ptl.bits ++ h265LayersBits ls r)))) ++ t := by simp
    rwa [this, List.drop_left] at ht

end Avf
