import Verif.Model.Sps
import Verif.Props.Golomb
/-!
# Programs over a bit reader

`Parses p bs v`: if the next bits are `bs`, `p` reads exactly them and returns `v`.
`Safe p`: `p` never panics.  `Stable p`: more data behind the end does not change a successful run.
-/
namespace Avf
open Go

/-- If the next bits are `bs`, then `p` reads exactly them and returns `v`. -/
def Parses {α : Type} (p : Rd α) (bs : List Bool) (v : α) : Prop :=
  ∀ (g : Golomb) (rest : List Bool), g.Ok → g.todo = bs ++ rest → ∃ g', p g = ok (v, g') ∧ g'.Ok ∧ g'.todo = rest

theorem rd_bind {α β : Type} (p : Rd α) (f : α → Rd β) (g : Golomb) :
    (p >>= f) g = (p g >>= fun x => f x.1 x.2) := rfl

theorem rd_pure {α : Type} (a : α) (g : Golomb) : (pure a : Rd α) g = ok (a, g) := rfl

namespace Parses
variable {α β : Type}

theorem pure (a : α) : Parses (pure a : Rd α) [] a := fun g rest hg h => ⟨g, rfl, hg, by simpa using h⟩

theorem bind {p : Rd α} {f : α → Rd β} {bs cs : List Bool} {v : α} {w : β} (hp : Parses p bs v) (hf : Parses (f v) cs w) :
    Parses (p >>= f) (bs ++ cs) w := by
  intro g rest hg h
  obtain ⟨g1, e1, h1, t1⟩ := hp g (cs ++ rest) hg (by rw [h, List.append_assoc])
  obtain ⟨g2, e2, h2, t2⟩ := hf g1 rest h1 t1
  exact ⟨g2, by rw [rd_bind, e1, ok_bind]; exact e2, h2, t2⟩

/-- The last action of a block. -/
theorem bind_pure {p : Rd α} {bs : List Bool} {v : α} (f : α → β) (hp : Parses p bs v) :
    Parses (p >>= fun a => Pure.pure (f a)) bs (f v) := by
  have := hp.bind (f := fun a => (Pure.pure (f a) : Rd β)) (Parses.pure (f v))
  rwa [List.append_nil] at this

theorem skip {p : Rd α} {bs : List Bool} {v : α} (hp : Parses p bs v) : Parses (Rd.skip p) bs () :=
  hp.bind_pure (fun _ => ())

theorem when {c : Bool} {p : Rd Unit} {bs : List Bool} (h : c = true → Parses p bs ()) (h' : c = false → bs = []) :
    Parses (Rd.when c p) bs () := by
  unfold Rd.when
  cases c with
  | true => exact h rfl
  | false => rw [h' rfl]; exact Parses.pure ()

theorem when_true {p : Rd Unit} {c : Bool} {bs : List Bool} (hc : c = true) (h : Parses p bs ()) : Parses (Rd.when c p) bs () :=
  when (fun _ => h) (fun hf => by rw [hc] at hf; cases hf)

theorem when_false {p : Rd Unit} {c : Bool} (hc : c = false) : Parses (Rd.when c p) [] () :=
  when (fun ht => by rw [hc] at ht; cases ht) (fun _ => rfl)

theorem times {γ : Type} (p : Rd Unit) (f : γ → List Bool) (xs : List γ) (h : ∀ x ∈ xs, Parses p (f x) ()) :
    Parses (Rd.times xs.length p) (xs.flatMap f) () := by
  induction xs with
  | nil => exact Parses.pure ()
  | cons x xs ih =>
    rw [List.flatMap_cons]
    exact (h x (by simp)).bind (ih fun y hy => h y (by simp [hy]))

theorem bit (b : Bool) : Parses Rd.bit [b] (BitVec.ofNat 64 b.toNat) := by
  intro g rest hg h
  exact Golomb.readBit_cons hg h

theorem nbits (n v : Nat) (hn : n ≤ 64) (hv : v < 2 ^ n) : Parses (Rd.nbits n) (fieldBits n v) (BitVec.ofNat 64 v) := by
  intro g rest hg h
  have hl : (fieldBits n v).length = n := fieldBits_length n v
  obtain ⟨r, g', e, hr, hg', ht⟩ := (Golomb.C11_readBits g hg n hn).1 (by rw [h]; simp [hl])
  have ht1 : g.todo.take n = fieldBits n v := by rw [h, List.take_append_of_le_length (by omega), List.take_of_length_le (by omega)]
  rw [ht1, bitsVal_fieldBits, Nat.mod_eq_of_lt hv] at hr
  refine ⟨g', ?_, hg', ?_⟩
  · show g.readBits n = _
    rw [e, ← hr]
    simp
  · rw [ht, h, List.drop_append_of_le_length (by omega), List.drop_of_length_le (by omega), List.nil_append]

theorem nbits32 (n v : Nat) (hn : n ≤ 32) (hv : v < 2 ^ n) : Parses (Rd.nbits32 n) (fieldBits n v) (BitVec.ofNat 32 v) := by
  intro g rest hg h
  have hl : (fieldBits n v).length = n := fieldBits_length n v
  obtain ⟨r, g', e, hr, hg', ht⟩ := (Golomb.C11_readBits32 g hg n hn).1 (by rw [h]; simp [hl])
  have ht1 : g.todo.take n = fieldBits n v := by rw [h, List.take_append_of_le_length (by omega), List.take_of_length_le (by omega)]
  rw [ht1, bitsVal_fieldBits, Nat.mod_eq_of_lt hv] at hr
  refine ⟨g', ?_, hg', ?_⟩
  · show g.readBits32 n = _
    rw [e, ← hr]
    simp
  · rw [ht, h, List.drop_append_of_le_length (by omega), List.drop_of_length_le (by omega), List.nil_append]

theorem nbits64 (n v : Nat) (hn : n ≤ 64) (hv : v < 2 ^ n) : Parses (Rd.nbits64 n) (fieldBits n v) (BitVec.ofNat 64 v) := by
  intro g rest hg h
  have hl : (fieldBits n v).length = n := fieldBits_length n v
  obtain ⟨r, g', e, hr, hg', ht⟩ := (Golomb.C11_readBits64 g hg n hn).1 (by rw [h]; simp [hl])
  have ht1 : g.todo.take n = fieldBits n v := by rw [h, List.take_append_of_le_length (by omega), List.take_of_length_le (by omega)]
  rw [ht1, bitsVal_fieldBits, Nat.mod_eq_of_lt hv] at hr
  refine ⟨g', ?_, hg', ?_⟩
  · show g.readBits64 n = _
    rw [e, ← hr]
    simp
  · rw [ht, h, List.drop_append_of_le_length (by omega), List.drop_of_length_le (by omega), List.nil_append]

theorem ue (v : Nat) (hv : v < 2 ^ 33 - 1) : Parses Rd.ue (ueBits v) (BitVec.ofNat 64 v) := by
  intro g rest hg h
  obtain ⟨r, g', e, hr, hg', ht⟩ := Golomb.C12_ue_roundtrip g hg v hv rest h
  refine ⟨g', ?_, hg', ht⟩
  show g.readUE = _
  rw [e, ← hr]; simp

theorem se (v : Int) (hlo : -2 ^ 32 < v) (hhi : v < 2 ^ 32) :
    Parses Rd.se (seBits v) (BitVec.ofNat 64 (if 0 ≤ v then v else 2 ^ 63 + v).toNat) := by
  intro g rest hg h
  obtain ⟨r, g', e, hr, hg', ht⟩ := Golomb.C13_se_partial g hg v hlo hhi rest h
  refine ⟨g', ?_, hg', ht⟩
  show g.readSE = _
  rw [e, ← hr]; simp

theorem bitOrZero (b : Bool) : Parses Rd.bitOrZero [b] (BitVec.ofNat 64 b.toNat) := by
  intro g rest hg h
  obtain ⟨g', e, h1, h2⟩ := Golomb.readBit_cons hg h
  exact ⟨g', by unfold Rd.bitOrZero; rw [e], h1, h2⟩

end Parses

/-- A run on a whole byte string. -/
theorem Parses.run {α : Type} {p : Rd α} {bs : List Bool} {v : α} (h : Parses p bs v) (d : Bytes) (rest : List Bool)
    (hd : bits d = bs ++ rest) : ∃ g, p (Golomb.ofBytes d) = ok (v, g) := by
  obtain ⟨g, e, _⟩ := h (Golomb.ofBytes d) rest (Golomb.ok_ofBytes d) (by rw [Golomb.todo_ofBytes, hd])
  exact ⟨g, e⟩

/-! ## No panics -/

def Safe {α : Type} (p : Rd α) : Prop := ∀ g, NoPanic (p g)

namespace Safe
variable {α β : Type}
theorem pure (a : α) : Safe (Pure.pure a : Rd α) := fun g => by rw [rd_pure]; simp
theorem bind {p : Rd α} {f : α → Rd β} (hp : Safe p) (hf : ∀ a, Safe (f a)) : Safe (p >>= f) := by
  intro g; rw [rd_bind]; exact (hp g).bind fun x _ => hf x.1 x.2
theorem skip {p : Rd α} (h : Safe p) : Safe (Rd.skip p) := h.bind fun _ => pure ()
theorem when {c : Bool} {p : Rd Unit} (h : Safe p) : Safe (Rd.when c p) := by
  unfold Rd.when; split
  · exact h
  · exact pure ()
theorem ite {c : Prop} [Decidable c] {p q : Rd α} (hp : Safe p) (hq : Safe q) : Safe (if c then p else q) := by
  split <;> assumption
theorem times {n : Nat} {p : Rd Unit} (h : Safe p) : Safe (Rd.times n p) := by
  induction n with
  | zero => exact pure ()
  | succ n ih => exact h.bind fun _ => ih
theorem bit : Safe Rd.bit := Golomb.readBit_noPanic
theorem nbits {n : Nat} : Safe (Rd.nbits n) := fun g => Golomb.readBits_noPanic g n
theorem nbits32 {n : Nat} : Safe (Rd.nbits32 n) := fun g => Golomb.readBits32_noPanic g n
theorem nbits64 {n : Nat} : Safe (Rd.nbits64 n) := fun g => Golomb.readBits64_noPanic g n
theorem ue : Safe Rd.ue := Golomb.readUE_noPanic
theorem se : Safe Rd.se := Golomb.readSE_noPanic
theorem bitOrZero : Safe Rd.bitOrZero := by
  intro g
  have := Golomb.readBit_noPanic g
  unfold Rd.bitOrZero
  split
  · simp
  · simp
  · rename_i h; rw [h] at this; exact absurd rfl this
end Safe

/-! ## More data -/

/-- The same reader with `q` behind its data. -/
def Golomb.more (g : Golomb) (q : Bytes) : Golomb := { g with rest := g.rest ++ q }

def Stable {α : Type} (p : Rd α) : Prop := ∀ g v g' q, p g = ok (v, g') → p (g.more q) = ok (v, g'.more q)

namespace Stable
variable {α β : Type}
theorem pure (a : α) : Stable (Pure.pure a : Rd α) := by
  intro g v g' q h
  rw [rd_pure] at h ⊢
  cases h; rfl
theorem bind {p : Rd α} {f : α → Rd β} (hp : Stable p) (hf : ∀ a, Stable (f a)) : Stable (p >>= f) := by
  intro g v g' q h
  rw [rd_bind] at h ⊢
  obtain ⟨⟨a, g1⟩, e1, e2⟩ := bind_eq_ok.mp h
  rw [hp g a g1 q e1, ok_bind]
  exact hf a g1 v g' q e2
theorem skip {p : Rd α} (h : Stable p) : Stable (Rd.skip p) := h.bind fun _ => pure ()
theorem when {c : Bool} {p : Rd Unit} (h : Stable p) : Stable (Rd.when c p) := by
  unfold Rd.when; split
  · exact h
  · exact pure ()
theorem ite {c : Prop} [Decidable c] {p q : Rd α} (hp : Stable p) (hq : Stable q) : Stable (if c then p else q) := by
  split <;> assumption
theorem times {n : Nat} {p : Rd Unit} (h : Stable p) : Stable (Rd.times n p) := by
  induction n with
  | zero => exact pure ()
  | succ n ih => exact h.bind fun _ => ih
theorem bit : Stable Rd.bit := by
  intro g v g' q h
  have h : g.readBit = ok (v, g') := h
  show (g.more q).readBit = _
  obtain ⟨rest, buf, left⟩ := g
  unfold Golomb.readBit at h ⊢
  unfold Golomb.more
  by_cases hl : left = 0
  · subst hl
    cases rest with
    | nil => simp at h
    | cons b rest =>
      simp only [↓reduceIte, ok_bind, List.cons_append, pure_def, Go.ok.injEq, Prod.mk.injEq] at h ⊢
      obtain ⟨h1, h2⟩ := h
      exact ⟨h1, by rw [← h2]⟩
  · simp only [if_neg hl, ok_bind, pure_def, Go.ok.injEq, Prod.mk.injEq] at h ⊢
    obtain ⟨h1, h2⟩ := h
    exact ⟨h1, by rw [← h2]⟩
theorem readBitsLoop (n : Nat) (r : BitVec 64) : Stable (Golomb.readBitsLoop n r : Rd (BitVec 64)) := by
  induction n generalizing r with
  | zero => exact pure r
  | succ n ih => exact bind (p := Rd.bit) (f := fun b => Golomb.readBitsLoop n (r ||| (b <<< n))) bit fun b => ih _
theorem readBits32Loop (n : Nat) (r : BitVec 32) : Stable (Golomb.readBits32Loop n r : Rd (BitVec 32)) := by
  induction n generalizing r with
  | zero => exact pure r
  | succ n ih => exact bind (p := Rd.bit) (f := fun b => Golomb.readBits32Loop n ((r <<< 1) ||| b.setWidth 32)) bit fun b => ih _
theorem readBits64Loop (n : Nat) (r : BitVec 64) : Stable (Golomb.readBits64Loop n r : Rd (BitVec 64)) := by
  induction n generalizing r with
  | zero => exact pure r
  | succ n ih => exact bind (p := Rd.bit) (f := fun b => Golomb.readBits64Loop n ((r <<< 1) ||| b)) bit fun b => ih _
theorem nbits {n : Nat} : Stable (Rd.nbits n) := readBitsLoop _ _
theorem nbits32 {n : Nat} : Stable (Rd.nbits32 n) := readBits32Loop _ _
theorem nbits64 {n : Nat} : Stable (Rd.nbits64 n) := readBits64Loop _ _
theorem ueZeros (i : Nat) : Stable (Golomb.ueZeros i : Rd Nat) := by
  intro g v g' q h
  have h : Golomb.ueZeros i g = ok (v, g') := h
  show Golomb.ueZeros i (g.more q) = _
  fun_induction Golomb.ueZeros i g with
  | case1 i g bit g1 e hc ih =>
    have e' := Stable.bit g bit g1 q e
    rw [Golomb.ueZeros]
    have e' : (g.more q).readBit = ok (bit, g1.more q) := e'
    rw [e']
    simp only
    rw [dif_pos hc]
    exact ih h h
  | case2 i g bit g1 e hc =>
    have e' : (g.more q).readBit = ok (bit, g1.more q) := Stable.bit g bit g1 q e
    rw [Golomb.ueZeros, e']
    simp only
    rw [dif_neg hc]
    simp only [Go.ok.injEq, Prod.mk.injEq] at h ⊢
    exact ⟨h.1, by rw [h.2]⟩
  | case3 => cases h
  | case4 => cases h
theorem ue : Stable Rd.ue :=
  bind (p := (Golomb.ueZeros 0 : Rd Nat))
    (f := fun i => (Rd.nbits i >>= fun res => Pure.pure (res + (((1 : BitVec 64) <<< i) - 1))))
    (ueZeros 0) fun _ => (nbits).bind fun _ => pure _
theorem se : Stable Rd.se := by
  have : Rd.se = (Rd.ue >>= fun res => Pure.pure (if res &&& 1 ≠ 0 then (res + 1) / 2 else (-res) / 2) : Rd (BitVec 64)) := by
    funext g
    rw [rd_bind]
    show g.readSE = _
    unfold Golomb.readSE Rd.ue
    congr 1
    funext x
    rw [rd_pure]
    dsimp only
    split <;> rfl
  rw [this]
  exact ue.bind fun r => pure _
/-- A bit whose error is ignored, if what follows fails at the end of the data. -/
theorem bitOrZero_bind {f : BitVec 64 → Rd α} (hf : ∀ b, Stable (f b))
    (hend : ∀ g e, g.readBit = err e → ∀ x, f 0 g ≠ ok x) : Stable (Rd.bitOrZero >>= f) := by
  intro g v g' q h
  rw [rd_bind] at h ⊢
  unfold Rd.bitOrZero at h ⊢
  cases e : g.readBit with
  | ok r =>
    obtain ⟨b, g1⟩ := r
    have e' : (g.more q).readBit = ok (b, g1.more q) := Stable.bit g b g1 q e
    rw [e] at h
    rw [e']
    exact hf b g1 v g' q h
  | err m =>
    rw [e] at h
    exact absurd h (hend g m e _)
  | panic => rw [e] at h; cases h
end Stable

end Avf
