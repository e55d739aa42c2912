import Verif.Spec.StreamMemory
import Verif.Lemmas.Mem
import Verif.Lemmas.Split
import Verif.Lemmas.Record
/-!
# Computations on memory and computations on byte lists
-/
namespace Avf
open Go MemM

/-- From `m` on, `x` does what `v` does with values: the memory that there is stays as it is, and the results are related. -/
def Refines {α β : Type} (m : Mem) (x : MemM α) (v : Go β) (R : Mem → α → β → Prop) : Prop :=
  match v with
  | .ok b => ∃ a m', x m = ok (.ok a, m') ∧ m <+: m' ∧ R m' a b
  | .err e => ∃ m', x m = ok (.error e, m') ∧ m <+: m'
  | .panic => x m = panic

theorem Refines.pure {α β : Type} {m : Mem} {a : α} {b : β} {R : Mem → α → β → Prop} (h : R m a b) :
    Refines m (Pure.pure a : MemM α) (ok b) R := ⟨a, m, rfl, List.prefix_refl m, h⟩

theorem Refines.fail {α β : Type} {m : Mem} {e : String} {R : Mem → α → β → Prop} :
    Refines m (MemM.fail e : MemM α) (err e : Go β) R := ⟨m, rfl, List.prefix_refl m⟩

theorem memM_bind {α β : Type} (x : MemM α) (f : α → MemM β) (m : Mem) : (x >>= f) m =
    match x m with
    | .ok (.ok a, m) => f a m
    | .ok (.error e, m) => ok (.error e, m)
    | .err e => err e
    | .panic => Go.panic := rfl

theorem Refines.bind {α β γ δ : Type} {m : Mem} {x : MemM α} {v : Go β} {R : Mem → α → β → Prop} {f : α → MemM γ}
    {g : β → Go δ} {S : Mem → γ → δ → Prop} (h : Refines m x v R)
    (hf : ∀ m' a b, m <+: m' → R m' a b → v = ok b → Refines m' (f a) (g b) S) : Refines m (x >>= f) (v >>= g) S := by
  cases v with
  | ok b =>
    obtain ⟨a, m', hx, hp, hr⟩ := h
    have := hf m' a b hp hr rfl
    rw [ok_bind]
    revert this
    unfold Refines
    cases g b with
    | ok d =>
      rintro ⟨c, m'', h1, h2, h3⟩
      exact ⟨c, m'', by rw [memM_bind, hx]; exact h1, hp.trans h2, h3⟩
    | err e =>
      rintro ⟨m'', h1, h2⟩
      exact ⟨m'', by rw [memM_bind, hx]; exact h1, hp.trans h2⟩
    | panic =>
      intro h1
      show (x >>= f) m = Go.panic
      rw [memM_bind, hx]; exact h1
  | err e =>
    obtain ⟨m', hx, hp⟩ := h
    exact ⟨m', by rw [memM_bind, hx], hp⟩
  | panic =>
    have hx : x m = Go.panic := h
    show (x >>= f) m = Go.panic
    rw [memM_bind, hx]

theorem Refines.mono {α β : Type} {m : Mem} {x : MemM α} {v : Go β} {R S : Mem → α → β → Prop} (h : Refines m x v R)
    (hs : ∀ m' a b, m <+: m' → R m' a b → v = ok b → S m' a b) : Refines m x v S := by
  cases v with
  | ok b =>
    obtain ⟨a, m', hx, hp, hr⟩ := h
    exact ⟨a, m', hx, hp, hs m' a b hp hr rfl⟩
  | err e => exact h
  | panic => exact h

theorem Refines.look {α : Type} {m : Mem} {f : Mem → Go α} {v : Go α} (h : f m = v) :
    Refines m (MemM.look f) v (fun m' a b => m' = m ∧ a = b) := by
  cases v with
  | ok b => exact ⟨b, m, by simp [MemM.look, h], List.prefix_refl m, rfl, rfl⟩
  | err e => exact ⟨m, by simp [MemM.look, h], List.prefix_refl m⟩
  | panic => show MemM.look f m = Go.panic; simp [MemM.look, h]

/-- `s` is a slice of an array with number `n` or above, and reads `b`. -/
structure Own (n : Nat) (m : Mem) (s : SliceRef) (b : Bytes) : Prop where
  new : n ≤ s.arr
  valid : s.ValidIn m
  read : m.read s = b

theorem valid_arr {m : Mem} {s : SliceRef} (h : s.ValidIn m) : s.arr < m.length ∧ s.off + s.len ≤ (m.arr s.arr).length := by
  obtain ⟨a, h1, h2⟩ := h
  refine ⟨(List.getElem?_eq_some_iff.1 h1).1, ?_⟩
  unfold Mem.arr
  rw [h1]
  exact h2

theorem valid_of_arr {m : Mem} {s : SliceRef} (h : s.arr < m.length) (h' : s.off + s.len ≤ (m.arr s.arr).length) : s.ValidIn m := by
  refine ⟨m[s.arr], List.getElem?_eq_getElem h, ?_⟩
  unfold Mem.arr at h'
  rw [List.getElem?_eq_getElem h] at h'
  exact h'

theorem arr_prefix {m m' : Mem} (h : m <+: m') {a : Nat} (ha : a < m.length) : m'.arr a = m.arr a := by
  obtain ⟨t, rfl⟩ := h
  unfold Mem.arr
  rw [List.getElem?_append_left ha]

theorem read_prefix {m m' : Mem} (h : m <+: m') {s : SliceRef} (hs : s.ValidIn m) : m'.read s = m.read s := by
  rw [Mem.read_eq, Mem.read_eq, arr_prefix h (valid_arr hs).1]

theorem valid_prefix {m m' : Mem} (h : m <+: m') {s : SliceRef} (hs : s.ValidIn m) : s.ValidIn m' := by
  have h1 := valid_arr hs
  refine valid_of_arr (Nat.lt_of_lt_of_le h1.1 h.length_le) ?_
  rw [arr_prefix h h1.1]
  exact h1.2

namespace Own

theorem ext {n : Nat} {m m' : Mem} {s : SliceRef} {b : Bytes} (h : Own n m s b) (hp : m <+: m') : Own n m' s b :=
  ⟨h.new, valid_prefix hp h.valid, (read_prefix hp h.valid).trans h.read⟩

theorem le {n k : Nat} {m : Mem} {s : SliceRef} {b : Bytes} (h : Own n m s b) (hk : k ≤ n) : Own k m s b :=
  ⟨Nat.le_trans hk h.new, h.valid, h.read⟩

theorem len {n : Nat} {m : Mem} {s : SliceRef} {b : Bytes} (h : Own n m s b) : b.length = s.len := by
  rw [← h.read, Mem.length_read _ _ (valid_arr h.valid).2]

theorem sub {n : Nat} {m : Mem} {s : SliceRef} {b : Bytes} (h : Own n m s b) {i k : Nat} (hk : i + k ≤ s.len) :
    Own n m ⟨s.arr, s.off + i, k⟩ ((b.drop i).take k) := by
  have h1 := valid_arr h.valid
  refine ⟨h.new, valid_of_arr h1.1 (by simp only; omega), ?_⟩
  rw [← h.read, Mem.read_eq, Mem.read_eq, List.drop_take, List.drop_drop, List.take_take]
  congr 1
  simp only
  omega

end Own

theorem prefix_copy {m m' : Mem} (h : m <+: m') (s : SliceRef) (d : Bytes) (hs : m.length ≤ s.arr) : m <+: m'.copy s d := by
  obtain ⟨t, rfl⟩ := h
  unfold Mem.copy
  cases (m ++ t)[s.arr]? with
  | none => exact List.prefix_append _ _
  | some a =>
    simp only
    rw [List.set_append_right _ _ hs]
    exact List.prefix_append _ _

theorem prefix_make (m : Mem) (n : Nat) : m <+: (m.make n).2 := List.prefix_append _ _

/-- A copy with a start code is new memory. -/
theorem withStartCodeM_refines {k : Nat} {m : Mem} {s : SliceRef} {b : Bytes} (h : Own k m s b) :
    Refines m (withStartCodeM s) (ok (be32 1 ++ b)) (fun m' a c => Own m.length m' a c) := by
  have hlen := h.len
  have hv := valid_arr h.valid
  have e4 : (be32 1).length = 4 := rfl
  have hs : (m.make (4 + s.len)).1 = ⟨m.length, 0, 4 + s.len⟩ := rfl
  have hl0 : ((m.make (4 + s.len)).2.arr m.length).length = 4 + s.len := by rw [Mem.arr_make_new, List.length_replicate]
  have hr1 : (((m.make (4 + s.len)).2.copy ⟨m.length, 0, 4 + s.len⟩ (be32 1)).read s) = b := by
    rw [Mem.read_copy_disjoint _ _ _ _ (Nat.zero_le _) (.inl (by simp only; omega)), Mem.read_make _ _ _ hv.1]
    exact h.read
  have hl1 : ((((m.make (4 + s.len)).2.copy ⟨m.length, 0, 4 + s.len⟩ (be32 1))).arr m.length).length = 4 + s.len := by
    rw [Mem.length_arr_copy _ _ _ _ (Nat.zero_le _), hl0]
  refine ⟨⟨m.length, 0, 4 + s.len⟩, (((m.make (4 + s.len)).2.copy ⟨m.length, 0, 4 + s.len⟩ (be32 1))).copy
    ⟨m.length, 0 + 4, 4 + s.len - 4⟩ b, ?_, ?_, ?_⟩
  · simp only [withStartCodeM, memM_bind, make, hs, putStartCode, copyInto]
    rw [if_pos (by omega)]
    simp only
    rw [if_pos (by omega), hr1]
    rfl
  · exact prefix_copy (prefix_copy (prefix_make m _) _ _ (Nat.le_refl _)) _ _ (Nat.le_refl _)
  · refine ⟨Nat.le_refl _, valid_of_arr ?_ ?_, ?_⟩
    · rw [Mem.length_copy, Mem.length_copy, Mem.length_make]; simp only; omega
    · rw [Mem.length_arr_copy _ _ _ _ (by simp only; rw [hl1]; omega)]
      simp only; rw [hl1]; omega
    · have e : 4 + s.len = 4 + (s.len) := rfl
      rw [Mem.read_split]
      congr 1
      · rw [Mem.read_copy_disjoint _ _ _ _ (by simp only; rw [hl1]; omega) (.inr (.inl (by simp)))]
        exact Mem.read_copy_self (m.make (4 + s.len)).2 ⟨m.length, 0, 4 + s.len⟩ (be32 1) (by simp only; rw [hl0, e4]; omega)
          (by simp only; rw [e4]; omega)
      · have := Mem.read_copy_self ((m.make (4 + s.len)).2.copy ⟨m.length, 0, 4 + s.len⟩ (be32 1)) ⟨m.length, 0 + 4, 4 + s.len - 4⟩ b
          (by simp only; rw [hl1]; omega) (by simp only; omega)
        rw [hlen] at this
        exact this

theorem idx_refines {n : Nat} {m : Mem} {s : SliceRef} {b : Bytes} (h : Own n m s b) (i : Nat) :
    Refines m (s.idx i) (idx b i) (fun m' x y => m' = m ∧ x = y) := Refines.look (by rw [h.read])

theorem from_refines {n : Nat} {m : Mem} {s : SliceRef} {b : Bytes} (h : Own n m s b) (i : Nat) :
    Refines m (s.from i) (sliceFrom b i) (fun m' x y => m' = m ∧ Own n m' x y) := by
  unfold sliceFrom SliceRef.from
  rw [h.len]
  split
  · rename_i hi
    have ho := h.sub (i := i) (k := s.len - i) (by omega)
    rw [List.take_of_length_le (by rw [List.length_drop, h.len])] at ho
    exact ⟨_, m, by simp only [MemM.look, SliceRef.sub_of_le hi (Nat.le_refl _)], List.prefix_refl m, rfl, ho⟩
  · rename_i hi
    show MemM.look _ m = Go.panic
    simp only [MemM.look, SliceRef.sub_panic (fun h' => hi h'.1)]

theorem removeStartCodeM_refines {n : Nat} {m : Mem} {s : SliceRef} {b : Bytes} (h : Own n m s b) :
    Refines m (removeStartCodeM s) (removeStartCode b) (fun m' x y => m' = m ∧ Own n m' x y) := by
  unfold removeStartCodeM removeStartCode
  refine (idx_refines h 0).bind ?_
  rintro _ d0 _ - ⟨rfl, rfl⟩ -
  split
  · exact Refines.pure ⟨rfl, h⟩
  refine (idx_refines h 1).bind ?_
  rintro _ d1 _ - ⟨rfl, rfl⟩ -
  split
  · exact Refines.pure ⟨rfl, h⟩
  refine (idx_refines h 2).bind ?_
  rintro _ d2 _ - ⟨rfl, rfl⟩ -
  split
  · exact from_refines h 3
  split
  · refine (idx_refines h 3).bind ?_
    rintro _ d3 _ - ⟨rfl, rfl⟩ -
    split
    · exact from_refines h 4
    · exact Refines.pure ⟨rfl, h⟩
  · exact Refines.pure ⟨rfl, h⟩

/-- Splitting and the callback, step by step. -/
theorem splitNalUM_refines {σ τ : Type} {k : Nat} {cb : σ → SliceRef → MemM σ} {step : τ → Bytes → Go τ} {R : Mem → σ → τ → Prop}
    (hcb : ∀ m s t nal b, R m s t → Own k m nal b → Refines m (cb s nal) (step t b) R)
    (p : SliceRef) : ∀ (b : Bytes) (m : Mem) (s : σ) (t : τ), Own k m p b → R m s t →
    Refines m (splitNalUM cb p s) (splitNalU b >>= fun nals => nals.foldlM step t) R := by
  induction hn : p.len using Nat.strongRecOn generalizing p with
  | _ n ih =>
    intro b m s t hb hr
    rw [splitNalU]
    have hl := hb.len
    by_cases h3 : 3 ≤ b.length
    · rw [dif_pos h3]
      have ho := hb.sub (i := 3) (k := p.len - 3) (by omega)
      rw [List.take_of_length_le (by rw [List.length_drop]; omega)] at ho
      have hread : m.read ⟨p.arr, p.off + 3, p.len - 3⟩ = b.drop 3 := ho.read
      rcases findStartCode2_cases (b.drop 3) with ⟨hf, -⟩ | ⟨j, hf, hs, -⟩
      · rw [hf]
        simp only [ok_bind]
        have e : (List.foldlM step t [b] : Go τ) = step t b := by
          rw [List.foldlM_cons]
          show (step t b >>= fun x => pure x) = step t b
          exact bind_pure _
        rw [e]
        have h1 := hcb m s t p b hr hb
        have hx : splitNalUM cb p s m = cb s p m := by rw [splitNalUM, dif_pos (by omega), hread, hf]
        unfold Refines at h1 ⊢
        rw [hx]
        exact h1
      · rw [hf]
        have hjl := hs.2.1
        have hcl := codeLen_le (b.drop 3) j hs.1
        rw [List.length_drop] at hjl
        generalize hq : j - codeLen (b.drop 3) j = q at *
        simp only
        rw [slice_of_le (by omega) (by omega)]
        obtain ⟨ss, hss, -⟩ := splitNalU_spec (b.drop (q + 3)) (by rw [List.length_drop]; omega)
        simp only [ok_bind, hss, List.drop_zero, pure_def, List.foldlM_cons]
        have hsub := SliceRef.sub_of_le (s := p) (a := 0) (b := q + 3) (Nat.zero_le _) (by omega)
        have hx : splitNalUM cb p s m = (cb s ⟨p.arr, p.off + 0, q + 3 - 0⟩ >>= fun s =>
            splitNalUM cb ⟨p.arr, p.off + (q + 3), p.len - (q + 3)⟩ s) m := by
          rw [splitNalUM, dif_pos (by omega), hread, hf]
          simp only [hsub]
          rfl
        have h0 := hb.sub (i := 0) (k := q + 3) (by omega)
        rw [List.drop_zero] at h0
        have h1 := (hcb m s t ⟨p.arr, p.off + 0, q + 3 - 0⟩ (b.take (q + 3)) hr h0).bind
          (f := fun s => splitNalUM cb ⟨p.arr, p.off + (q + 3), p.len - (q + 3)⟩ s) (g := fun t => ss.foldlM step t) (S := R) (by
            intro m' s' t' hp hr' _
            have h2 := hb.sub (i := q + 3) (k := p.len - (q + 3)) (by omega)
            rw [List.take_of_length_le (by rw [List.length_drop]; omega)] at h2
            have h3 := ih (p.len - (q + 3)) (by omega) ⟨p.arr, p.off + (q + 3), p.len - (q + 3)⟩ rfl (b.drop (q + 3)) m' s' t'
              (h2.ext hp) hr'
            rw [hss, ok_bind] at h3
            exact h3)
        unfold Refines at h1 ⊢
        rw [hx]
        exact h1
    · rw [dif_neg h3]
      show splitNalUM cb p s m = Go.panic
      rw [splitNalUM, dif_neg (by omega)]

/-- Nil or a slice that reads `b`. -/
def OwnOpt (n : Nat) (m : Mem) : Option SliceRef → Option Bytes → Prop
  | none, none => True
  | some s, some b => Own n m s b
  | _, _ => False

theorem OwnOpt.ext {n : Nat} {m m' : Mem} {s : Option SliceRef} {b : Option Bytes} (h : OwnOpt n m s b) (hp : m <+: m') :
    OwnOpt n m' s b := by
  cases s <;> cases b <;> first | exact trivial | exact Own.ext h hp | exact h.elim

theorem withStartCodeM_own {k n : Nat} {m : Mem} {s : SliceRef} {b : Bytes} (h : Own k m s b) (hn : n ≤ m.length) :
    Refines m (withStartCodeM s) (ok (be32 1 ++ b)) (fun m' a c => m <+: m' ∧ Own n m' a c) :=
  (withStartCodeM_refines h).mono fun _ _ _ hp h _ => ⟨hp, h.le hn⟩

/-- The parameter sets found so far. -/
def AvcSets (n : Nat) (m : Mem) (s : Option SliceRef × Option SliceRef) (t : Option Bytes × Option Bytes) : Prop :=
  n ≤ m.length ∧ OwnOpt n m s.1 t.1 ∧ OwnOpt n m s.2 t.2

theorem avcExtraStepM_refines {k n : Nat} (m : Mem) (s : Option SliceRef × Option SliceRef) (t : Option Bytes × Option Bytes)
    (nal : SliceRef) (b : Bytes) (hr : AvcSets n m s t) (hb : Own k m nal b) :
    Refines m (avcExtraStepM s nal) (avcExtraStep t b) (AvcSets n) := by
  unfold avcExtraStepM avcExtraStep
  refine (removeStartCodeM_refines hb).bind ?_
  rintro _ u v - ⟨rfl, hu⟩ -
  refine (idx_refines hu 0).bind ?_
  rintro _ x _ - ⟨rfl, rfl⟩ -
  simp only
  split
  · have h := (withStartCodeM_own hu hr.1).bind (f := fun sps => (pure (some sps, s.2) : MemM _))
      (g := fun c => (ok (some c, t.2) : Go (Option Bytes × Option Bytes))) (S := AvcSets n) (by
        rintro m' a c hp ⟨-, ho⟩ -
        exact Refines.pure ⟨Nat.le_trans hr.1 hp.length_le, ho, hr.2.2.ext hp⟩)
    exact h
  split
  · have h := (withStartCodeM_own hu hr.1).bind (f := fun pps => (pure (s.1, some pps) : MemM _))
      (g := fun c => (ok (t.1, some c) : Go (Option Bytes × Option Bytes))) (S := AvcSets n) (by
        rintro m' a c hp ⟨-, ho⟩ -
        exact Refines.pure ⟨Nat.le_trans hr.1 hp.length_le, hr.2.1.ext hp, ho⟩)
    exact h
  · exact Refines.pure hr

theorem avcParseExtraDataM_refines {k n : Nat} {m : Mem} {s : SliceRef} {b : Bytes} (hb : Own k m s b) (hn : n ≤ m.length) :
    Refines m (avcParseExtraDataM s) (avcParseExtraData b) (fun m' x y => Own n m' x.1 y.1 ∧ Own n m' x.2 y.2) := by
  unfold avcParseExtraDataM avcParseExtraData
  rw [← bind_assoc]
  refine (splitNalUM_refines (k := k) (fun m s t nal b => avcExtraStepM_refines (k := k) (n := n) m s t nal b) s b m (none, none)
    (none, none) hb ⟨hn, trivial, trivial⟩).bind ?_
  rintro m' ⟨x1, x2⟩ ⟨y1, y2⟩ - ⟨-, h1, h2⟩ -
  cases x1 <;> cases y1 <;> cases x2 <;> cases y2 <;>
    first | exact h1.elim | exact h2.elim | exact Refines.fail | exact Refines.pure ⟨h1, h2⟩

/-- The parameter sets found so far. -/
def HevcSets (n : Nat) (m : Mem) (s : Option SliceRef × Option SliceRef × Option SliceRef)
    (t : Option Bytes × Option Bytes × Option Bytes) : Prop :=
  n ≤ m.length ∧ OwnOpt n m s.1 t.1 ∧ OwnOpt n m s.2.1 t.2.1 ∧ OwnOpt n m s.2.2 t.2.2

theorem hevcExtraStepM_refines {k n : Nat} (m : Mem) (s : Option SliceRef × Option SliceRef × Option SliceRef)
    (t : Option Bytes × Option Bytes × Option Bytes) (nal : SliceRef) (b : Bytes) (hr : HevcSets n m s t) (hb : Own k m nal b) :
    Refines m (hevcExtraStepM s nal) (hevcExtraStep t b) (HevcSets n) := by
  unfold hevcExtraStepM hevcExtraStep
  refine (removeStartCodeM_refines hb).bind ?_
  rintro _ u v - ⟨rfl, hu⟩ -
  refine (idx_refines hu 0).bind ?_
  rintro _ x _ - ⟨rfl, rfl⟩ -
  simp only
  split
  · have h := (withStartCodeM_own hu hr.1).bind (f := fun vps => (pure (some vps, s.2.1, s.2.2) : MemM _))
      (g := fun c => (ok (some c, t.2.1, t.2.2) : Go (Option Bytes × Option Bytes × Option Bytes))) (S := HevcSets n) (by
        rintro m' a c hp ⟨-, ho⟩ -
        exact Refines.pure ⟨Nat.le_trans hr.1 hp.length_le, ho, hr.2.2.1.ext hp, hr.2.2.2.ext hp⟩)
    exact h
  split
  · have h := (withStartCodeM_own hu hr.1).bind (f := fun sps => (pure (s.1, some sps, s.2.2) : MemM _))
      (g := fun c => (ok (t.1, some c, t.2.2) : Go (Option Bytes × Option Bytes × Option Bytes))) (S := HevcSets n) (by
        rintro m' a c hp ⟨-, ho⟩ -
        exact Refines.pure ⟨Nat.le_trans hr.1 hp.length_le, hr.2.1.ext hp, ho, hr.2.2.2.ext hp⟩)
    exact h
  split
  · have h := (withStartCodeM_own hu hr.1).bind (f := fun pps => (pure (s.1, s.2.1, some pps) : MemM _))
      (g := fun c => (ok (t.1, t.2.1, some c) : Go (Option Bytes × Option Bytes × Option Bytes))) (S := HevcSets n) (by
        rintro m' a c hp ⟨-, ho⟩ -
        exact Refines.pure ⟨Nat.le_trans hr.1 hp.length_le, hr.2.1.ext hp, hr.2.2.1.ext hp, ho⟩)
    exact h
  · exact Refines.pure hr

theorem hevcParseExtraDataM_refines {k n : Nat} {m : Mem} {s : SliceRef} {b : Bytes} (hb : Own k m s b) (hn : n ≤ m.length) :
    Refines m (hevcParseExtraDataM s) (hevcParseExtraData b)
      (fun m' x y => Own n m' x.1 y.1 ∧ Own n m' x.2.1 y.2.1 ∧ Own n m' x.2.2 y.2.2) := by
  unfold hevcParseExtraDataM hevcParseExtraData
  rw [← bind_assoc]
  refine (splitNalUM_refines (k := k) (fun m s t nal b => hevcExtraStepM_refines (k := k) (n := n) m s t nal b) s b m
    (none, none, none) (none, none, none) hb ⟨hn, trivial, trivial, trivial⟩).bind ?_
  rintro m' ⟨x1, x2, x3⟩ ⟨y1, y2, y3⟩ - ⟨-, h1, h2, h3⟩ -
  cases x1 <;> cases y1 <;> cases x2 <;> cases y2 <;> cases x3 <;> cases y3 <;>
    first | exact h1.elim | exact h2.elim | exact h3.elim | exact Refines.fail | exact Refines.pure ⟨h1, h2, h3⟩

/-! ## `mix` -/

theorem appendM_refines {n : Nat} {m : Mem} {a : Option SliceRef} {x : Bytes} {s : SliceRef} {b : Bytes} {k : Nat}
    (hn : n ≤ m.length) (ha : a = none ∧ x = [] ∨ ∃ r, a = some r ∧ Own n m r x) (hb : Own k m s b) :
    Refines m (appendM a s) (ok (x ++ b))
      (fun m' a' y => (a' = none ∧ y = []) ∨ ∃ r, a' = some r ∧ Own n m' r y) := by
  have hl := hb.len
  by_cases h0 : s.len = 0
  · have : b = [] := List.eq_nil_of_length_eq_zero (by omega)
    subst this
    rw [List.append_nil]
    exact ⟨a, m, by simp only [appendM, if_pos h0], List.prefix_refl m, ha⟩
  · have hold : (a.map m.read).getD [] = x := by
      rcases ha with ⟨rfl, rfl⟩ | ⟨r, rfl, h⟩
      · rfl
      · exact h.read
    refine ⟨some ⟨m.length, 0, x.length + s.len⟩, m ++ [x ++ b], by simp only [appendM, if_neg h0, hold, hb.read],
      List.prefix_append _ _, .inr ⟨_, rfl, hn, valid_of_arr (by simp) ?_, ?_⟩⟩
    · simp [Mem.arr, hl]
    · simp [Mem.read, ← hl]

theorem mixM_inner {n : Nat} (v : List SliceRef) : ∀ (w : List Bytes) (m : Mem) (a : Option SliceRef) (x : Bytes), n ≤ m.length →
    (a = none ∧ x = [] ∨ ∃ r, a = some r ∧ Own n m r x) → List.Forall₂ (Own 0 m) v w →
    Refines m (v.foldlM appendM a) (ok (w.foldl (· ++ ·) x))
      (fun m' a' y => n ≤ m'.length ∧ ((a' = none ∧ y = []) ∨ ∃ r, a' = some r ∧ Own n m' r y)) := by
  induction v with
  | nil =>
    intro w m a x hn ha hw
    cases hw
    exact Refines.pure ⟨hn, ha⟩
  | cons s v ih =>
    intro w m a x hn ha hw
    cases hw with
    | cons hs hw =>
      rename_i b w
      rw [List.foldlM_cons]
      have h := (appendM_refines hn ha hs).bind (f := fun a => v.foldlM appendM a) (g := fun y => ok (w.foldl (· ++ ·) y))
        (S := fun m' a' y => n ≤ m'.length ∧ ((a' = none ∧ y = []) ∨ ∃ r, a' = some r ∧ Own n m' r y)) (by
          intro m' a' y hp ha' _
          exact ih w m' a' y (Nat.le_trans hn hp.length_le) ha' (hw.imp fun _ _ h => h.ext hp))
      exact h

theorem mixM_outer {n : Nat} (v : List (List SliceRef)) : ∀ (w : List (List Bytes)) (m : Mem) (a : Option SliceRef) (x : Bytes),
    n ≤ m.length → (a = none ∧ x = [] ∨ ∃ r, a = some r ∧ Own n m r x) → List.Forall₂ (List.Forall₂ (Own 0 m)) v w →
    Refines m (v.foldlM (fun extra v => v.foldlM appendM extra) a) (ok (w.foldl (fun extra v => v.foldl (· ++ ·) extra) x))
      (fun m' a' y => (a' = none ∧ y = []) ∨ ∃ r, a' = some r ∧ Own n m' r y) := by
  induction v with
  | nil =>
    intro w m a x hn ha hw
    cases hw
    exact Refines.pure ha
  | cons s v ih =>
    intro w m a x hn ha hw
    cases hw with
    | cons hs hw =>
      rename_i b w
      rw [List.foldlM_cons]
      have h := (mixM_inner s b m a x hn ha hs).bind (f := fun a => v.foldlM (fun extra v => v.foldlM appendM extra) a)
        (g := fun y => ok (w.foldl (fun extra v => v.foldl (· ++ ·) extra) y))
        (S := fun m' a' y => (a' = none ∧ y = []) ∨ ∃ r, a' = some r ∧ Own n m' r y) (by
          rintro m' a' y hp ⟨hn', ha'⟩ _
          exact ih w m' a' y hn' ha' (hw.imp fun _ _ h => h.imp fun _ _ h => h.ext hp))
      exact h

theorem mixM_refines {n : Nat} {m : Mem} {v : List (List SliceRef)} {w : List (List Bytes)} (hn : n ≤ m.length)
    (h : List.Forall₂ (List.Forall₂ (Own 0 m)) v w) :
    Refines m (mixM v) (ok (mix w)) (fun m' a y => (a = none ∧ y = []) ∨ ∃ r, a = some r ∧ Own n m' r y) :=
  mixM_outer v w m none [] hn (.inl ⟨rfl, rfl⟩) h

/-! ## Records -/

/-- The result of a method, with its error as the error of Go. -/
def collapse {α β : Type} : Go (Except String α × β) → Go (α × β)
  | .ok (.ok a, b) => ok (a, b)
  | .ok (.error e, _) => err e
  | .err e => err e
  | .panic => Go.panic

theorem collapse_ok {α β : Type} (a : α) (b : β) : collapse (ok (.ok a, b)) = ok (a, b) := rfl
theorem collapse_error {α β : Type} (e : String) (b : β) : collapse (ok (.error e, b) : Go (Except String α × β)) = err e := rfl

/-- The reader in memory and the reader of values. -/
def Reads (m : Mem) (r : MemReader) (b : BytesBuf) : Prop := r.view m = b ∧ r.data.ValidIn m

theorem Reads.ext {m m' : Mem} {r : MemReader} {b : BytesBuf} (h : Reads m r b) (hp : m <+: m') : Reads m' r b := by
  refine ⟨?_, valid_prefix hp h.2⟩
  rw [← h.1]
  unfold MemReader.view
  rw [read_prefix hp h.2]

/-- A method that leaves data and length alone. -/
def ReadKeeps {α : Type} (f : BytesBuf → Go (BytesBuf.Res α)) : Prop :=
  ∀ b a b', f b = ok (.ok a, b') → b'.data = b.data ∧ b'.length = b.length

theorem run_refines {α : Type} {m : Mem} {r : MemReader} {b : BytesBuf} {f : BytesBuf → Go (BytesBuf.Res α)} (hr : Reads m r b)
    (hf : ReadKeeps f) : Refines m (r.run f) (collapse (f b)) (fun m' x y => m' = m ∧ x.1 = y.1 ∧ Reads m' x.2 y.2 ∧ x.2.data = r.data) := by
  unfold MemReader.run
  have hv := hr.1
  cases hfb : f b with
  | ok p =>
    obtain ⟨e, b'⟩ := p
    cases e with
    | ok a =>
      have hk := hf b a b' hfb
      refine ⟨(a, { r with offset := b'.offset }), m, by simp only [MemM.look, hv, hfb], List.prefix_refl m, rfl, rfl, ⟨?_, hr.2⟩, rfl⟩
      show (⟨m.read r.data, r.length, b'.offset⟩ : BytesBuf) = b'
      have e1 : m.read r.data = b'.data := by rw [hk.1, ← hv]; rfl
      have e2 : r.length = b'.length := by rw [hk.2, ← hv]; rfl
      rw [e1, e2]
    | error e => exact ⟨m, by simp only [MemM.look, hv, hfb], List.prefix_refl m⟩
  | err e => exact ⟨m, by simp only [MemM.look, hv, hfb], List.prefix_refl m⟩
  | panic =>
    show MemM.look _ m = Go.panic
    simp only [MemM.look, hv, hfb]

theorem peekN_keeps {b b' : BytesBuf} {n : Int} {a : Unit} (h : b.peekN n = (.ok a, b')) : b'.data = b.data ∧ b'.length = b.length := by
  unfold BytesBuf.peekN at h
  simp only at h
  split at h
  · simp at h
  · simp only [Prod.mk.injEq, true_and] at h
    rw [← h]; exact ⟨rfl, rfl⟩

theorem peek_keeps (n : Int) : ReadKeeps fun b => ok (b.peekN n) := by
  intro b a b' h
  simp only [ok.injEq] at h
  exact peekN_keeps h

theorem thenRead_keeps {α : Type} {b b' : BytesBuf} {n : Int} {f : BytesBuf → Go α} {a : α}
    (h : BytesBuf.thenRead (b.peekN n) f = ok (.ok a, b')) : b'.data = b.data ∧ b'.length = b.length := by
  unfold BytesBuf.thenRead at h
  cases hp : b.peekN n with
  | mk e c =>
    rw [hp] at h
    cases e with
    | error e => simp at h
    | ok u =>
      simp only [bind_eq_ok] at h
      obtain ⟨x, -, h⟩ := h
      simp only [pure_def, ok.injEq, Prod.mk.injEq] at h
      rw [← h.2]
      exact peekN_keeps hp

theorem readUint8_keeps : ReadKeeps BytesBuf.readUint8 := fun _ _ _ h => thenRead_keeps h
theorem readUint16_keeps : ReadKeeps BytesBuf.readUint16 := fun _ _ _ h => thenRead_keeps h

theorem readBytesM_refines {m : Mem} {r : MemReader} {b : BytesBuf} (hr : Reads m r b) (n : Int) :
    Refines m (r.readBytes n) (collapse (b.readBytes n)) (fun m' x y => m' = m ∧ Own 0 m' x.1 y.1 ∧ Reads m' x.2 y.2 ∧ x.2.data = r.data) := by
  unfold MemReader.readBytes
  have hrun := run_refines hr (peek_keeps n)
  have e : collapse (b.readBytes n) = (collapse (ok (b.peekN n)) >>= fun p => sliceI p.2.data b.offset p.2.offset >>= fun s => ok (s, p.2)) := by
    unfold BytesBuf.readBytes BytesBuf.thenRead
    cases b.peekN n with
    | mk e c =>
      cases e with
      | error e => rfl
      | ok u =>
        simp only [collapse, ok_bind]
        cases sliceI c.data b.offset c.offset <;> rfl
  rw [e]
  refine hrun.bind ?_
  rintro m ⟨u, r'⟩ ⟨u', b'⟩ - ⟨rfl, -, hb', hd⟩ -
  simp only
  simp only at hb' hd
  have eo : r.offset = b.offset := by rw [← hr.1]; rfl
  have eo' : r'.offset = b'.offset := by rw [← hb'.1]; rfl
  have ed : Mem.read m r.data = b'.data := by rw [← hb'.1, ← hd]; rfl
  have ev := valid_arr hr.2
  have el : b'.data.length = r.data.len := by rw [← ed, Mem.length_read _ _ ev.2]
  refine Refines.bind (R := fun m' x y => m' = m ∧ Own 0 m' x y) ?_ ?_
  · unfold sliceI
    by_cases h : 0 ≤ b.offset ∧ b.offset ≤ b'.offset ∧ b'.offset ≤ b'.data.length
    · rw [if_pos h]
      have ho : Own 0 m r.data b'.data := ⟨Nat.zero_le _, hr.2, ed⟩
      have hs := ho.sub (i := b.offset.toNat) (k := b'.offset.toNat - b.offset.toNat) (by omega)
      refine ⟨⟨r.data.arr, r.data.off + b.offset.toNat, b'.offset.toNat - b.offset.toNat⟩, m, ?_, List.prefix_refl m, rfl, ?_⟩
      · simp only [MemM.look]
        rw [eo, eo', if_pos (by omega), SliceRef.sub_of_le (by omega) (by omega)]
      · rw [List.drop_take]; exact hs
    · rw [if_neg h]
      show MemM.look _ m = Go.panic
      simp only [MemM.look]
      rw [eo, eo']
      by_cases h0 : 0 ≤ b.offset ∧ 0 ≤ b'.offset
      · rw [if_pos h0, SliceRef.sub_panic (by omega)]
      · rw [if_neg h0]
  · rintro _ x y - ⟨rfl, hxy⟩ -
    exact Refines.pure ⟨rfl, hxy, hb', hd⟩

theorem collapse_readSets {σ : Type} (add : σ → Bytes → σ) (n : Nat) (r : BytesBuf) (s : σ) :
    collapse (readSets add (n + 1) r s) =
      (collapse r.readUint16 >>= fun x => collapse (x.2.readBytes x.1.toNat) >>= fun y => ok (be32 1 ++ y.1) >>= fun nalu =>
        collapse (readSets add n y.2 (add s nalu))) := by
  rw [readSets]
  cases r.readUint16 with
  | ok p =>
    obtain ⟨e, b⟩ := p
    cases e with
    | error e => rfl
    | ok l =>
      simp only [ok_bind, collapse]
      cases b.readBytes l.toNat with
      | ok q =>
        obtain ⟨e, c⟩ := q
        cases e with
        | error e => rfl
        | ok bytes =>
          simp only [ok_bind]
          rw [readSets_nalu bytes (fun nalu => readSets add n c (add s nalu))]
          have : startCoded bytes = be32 1 ++ bytes := by
            have : be32 1 = [0, 0, 0, 1] := by decide
            rw [this]; rfl
          rw [this]
      | err e => rfl
      | panic => rfl
  | err e => rfl
  | panic => rfl

theorem readSetsM_refines {σ τ : Type} {N : Nat} {R : Mem → σ → τ → Prop} {add : σ → SliceRef → σ} {add' : τ → Bytes → τ}
    (hext : ∀ m m' s t, R m s t → m <+: m' → R m' s t)
    (hadd : ∀ m s t x b, R m s t → Own N m x b → R m (add s x) (add' t b)) (n : Nat) :
    ∀ (m : Mem) (r : MemReader) (b : BytesBuf) (s : σ) (t : τ), N ≤ m.length → Reads m r b → R m s t →
    Refines m (readSetsM add n r s) (collapse (readSets add' n b t))
      (fun m' x y => m <+: m' ∧ Reads m' x.1 y.1 ∧ R m' x.2 y.2 ∧ x.1.data = r.data) := by
  induction n with
  | zero =>
    intro m r b s t _ hr hs
    exact Refines.pure ⟨List.prefix_refl m, hr, hs, rfl⟩
  | succ n ih =>
    intro m r b s t hN hr hs
    rw [collapse_readSets, readSetsM]
    refine (run_refines hr readUint16_keeps).bind ?_
    rintro _ ⟨l, r1⟩ ⟨l', b1⟩ - ⟨rfl, hl, hr1, hd1⟩ -
    simp only at hl hr1 hd1 ⊢
    subst hl
    refine (readBytesM_refines hr1 _).bind ?_
    rintro _ ⟨x, r2⟩ ⟨y, b2⟩ - ⟨rfl, hx, hr2, hd2⟩ -
    simp only at hx hr2 hd2 ⊢
    refine (withStartCodeM_own hx hN).bind ?_
    rintro m' nalu c hp ⟨-, ho⟩ -
    refine (ih m' r2 b2 (add s nalu) (add' t c) (Nat.le_trans hN hp.length_le) (hr2.ext hp)
      (hadd m' s t nalu c (hext _ _ _ _ hs hp) ho)).mono ?_
    rintro m'' x y hp' ⟨-, h1, h2, h3⟩ -
    exact ⟨hp.trans hp', h1, h2, h3.trans (hd2.trans hd1)⟩

/-- The record in memory and the record of values; all sets are in arrays from `n` on. -/
structure AvcRel (n : Nat) (m : Mem) (r : AVCRecordM) (a : AVCRecord) : Prop where
  sps : List.Forall₂ (Own n m) r.spsList a.spsList
  pps : List.Forall₂ (Own n m) r.ppsList a.ppsList
  fields : r.fields = { a with spsList := [], ppsList := [] }

theorem AvcRel.ext {n : Nat} {m m' : Mem} {r : AVCRecordM} {a : AVCRecord} (h : AvcRel n m r a) (hp : m <+: m') : AvcRel n m' r a :=
  ⟨h.sps.imp fun _ _ h => h.ext hp, h.pps.imp fun _ _ h => h.ext hp, h.fields⟩

theorem forall2_read {n : Nat} {m : Mem} {v : List SliceRef} {w : List Bytes} (h : List.Forall₂ (Own n m) v w) : v.map m.read = w := by
  induction h with
  | nil => rfl
  | cons h _ ih => rw [List.map_cons, h.read, ih]

theorem forall2_new {n : Nat} {m : Mem} {v : List SliceRef} {w : List Bytes} (h : List.Forall₂ (Own n m) v w) :
    ∀ s ∈ v, n ≤ s.arr ∧ s.ValidIn m := by
  induction h with
  | nil => simp
  | cons h _ ih =>
    intro s hs
    rcases List.mem_cons.1 hs with rfl | hs
    · exact ⟨h.new, h.valid⟩
    · exact ih s hs

theorem forall2_append {n : Nat} {m : Mem} {v : List SliceRef} {w : List Bytes} (h : List.Forall₂ (Own n m) v w) {s : SliceRef}
    {b : Bytes} (hs : Own n m s b) : List.Forall₂ (Own n m) (v ++ [s]) (w ++ [b]) := by
  induction h with
  | nil => exact .cons hs .nil
  | cons h _ ih => exact .cons h ih

theorem AvcRel.read {n : Nat} {m : Mem} {r : AVCRecordM} {a : AVCRecord} (h : AvcRel n m r a) : r.read m = a := by
  unfold AVCRecordM.read
  rw [forall2_read h.sps, forall2_read h.pps, h.fields]

theorem collapse_avcUnmarshal (data : Bytes) : collapse (avcUnmarshal {} data) =
    (collapse (ok ((BytesBuf.setData data).seek 5)) >>= fun x => collapse x.2.readUint8 >>= fun y =>
      if y.1 &&& 0x1F < 1 then err "no sps found"
      else collapse (readSets (fun (a : AVCRecord) s => { a with spsList := a.spsList ++ [s] }) (y.1 &&& 0x1F).toNat y.2 {}) >>= fun z =>
        collapse z.1.readUint8 >>= fun w =>
          if w.1 < 1 then err "no pps found"
          else collapse (readSets (fun (a : AVCRecord) s => { a with ppsList := a.ppsList ++ [s] }) w.1.toNat w.2 z.2) >>= fun v => do
            let d0 ← idx data 0
            let d1 ← idx data 1
            let d2 ← idx data 2
            let d3 ← idx data 3
            let d4 ← idx data 4
            return ((), { v.2 with
              configurationVersion := d0, avcProfileIndication := d1, profileCompatibility := d2,
              avcLevelIndication := d3, lengthSizeMinusOne := d4 &&& 0x3 })) := by
  unfold avcUnmarshal
  cases (BytesBuf.setData data).seek 5 with
  | mk e r =>
    cases e with
    | error e => rfl
    | ok u =>
      simp only [collapse_ok, ok_bind]
      cases r.readUint8 with
      | err e => rfl
      | panic => rfl
      | ok p =>
        obtain ⟨e, b⟩ := p
        cases e with
        | error e => rfl
        | ok c =>
          simp only [ok_bind, collapse_ok]
          by_cases hc : c &&& 0x1F < 1
          · rw [if_pos hc, if_pos hc]; rfl
          rw [if_neg hc, if_neg hc]
          cases readSets (fun (a : AVCRecord) s => { a with spsList := a.spsList ++ [s] }) (c &&& 0x1F).toNat b {} with
          | err e => rfl
          | panic => rfl
          | ok q =>
            obtain ⟨e, a⟩ := q
            cases e with
            | error e => rfl
            | ok b =>
              simp only [ok_bind, avcAfterSps, collapse_ok]
              cases b.readUint8 with
              | err e => rfl
              | panic => rfl
              | ok p =>
                obtain ⟨e, b⟩ := p
                cases e with
                | error e => rfl
                | ok c =>
                  simp only [ok_bind, collapse_ok]
                  by_cases hc : c < 1
                  · rw [if_pos hc, if_pos hc]; rfl
                  rw [if_neg hc, if_neg hc]
                  cases readSets (fun (a : AVCRecord) s => { a with ppsList := a.ppsList ++ [s] }) c.toNat b a with
                  | err e => rfl
                  | panic => rfl
                  | ok q =>
                    obtain ⟨e, a⟩ := q
                    cases e with
                    | error e => rfl
                    | ok b =>
                      simp only [ok_bind, avcAfterPps, collapse_ok]
                      cases idx data 0 <;> cases idx data 1 <;> cases idx data 2 <;> cases idx data 3 <;> cases idx data 4 <;> rfl

theorem reads_new {n : Nat} {m : Mem} {s : SliceRef} {b : Bytes} (h : Own n m s b) : Reads m (MemReader.new s) (BytesBuf.setData b) := by
  refine ⟨?_, h.valid⟩
  unfold MemReader.view MemReader.new BytesBuf.setData
  simp only [h.read, h.len]

theorem avcUnmarshalM_refines {k n : Nat} {m : Mem} {s : SliceRef} {b : Bytes} (hb : Own k m s b) (hn : n ≤ m.length) :
    Refines m (avcUnmarshalM s) (collapse (avcUnmarshal {} b)) (fun m' x y => AvcRel n m' x y.2) := by
  unfold avcUnmarshalM
  rw [collapse_avcUnmarshal]
  refine (run_refines (reads_new hb) (peek_keeps 5)).bind ?_
  rintro m ⟨u, r⟩ ⟨u', c⟩ - ⟨rfl, -, hr, -⟩ -
  refine (run_refines hr readUint8_keeps).bind ?_
  rintro m ⟨x, r⟩ ⟨x', c⟩ - ⟨rfl, hx, hr, -⟩ -
  simp only at hx hr ⊢
  subst hx
  split
  · exact Refines.fail
  refine (readSetsM_refines (N := n) (R := AvcRel n) (add := fun (a : AVCRecordM) s => { a with spsList := a.spsList ++ [s] })
    (add' := fun (a : AVCRecord) s => { a with spsList := a.spsList ++ [s] }) (fun _ _ _ _ h hp => h.ext hp)
    (fun _ _ _ _ _ h hs => ⟨forall2_append h.sps hs, h.pps, h.fields⟩) _ m r c {} {} hn hr ⟨.nil, .nil, rfl⟩).bind ?_
  rintro m' ⟨r, a⟩ ⟨c, a'⟩ hp ⟨-, hr, ha, -⟩ -
  simp only at hr ha ⊢
  have hn := Nat.le_trans hn hp.length_le
  have hb := hb.ext hp
  refine (run_refines hr readUint8_keeps).bind ?_
  rintro m ⟨x, r⟩ ⟨x', c⟩ - ⟨rfl, hx, hr, -⟩ -
  simp only at hx hr ⊢
  subst hx
  split
  · exact Refines.fail
  refine (readSetsM_refines (N := n) (R := AvcRel n) (add := fun (a : AVCRecordM) s => { a with ppsList := a.ppsList ++ [s] })
    (add' := fun (a : AVCRecord) s => { a with ppsList := a.ppsList ++ [s] }) (fun _ _ _ _ h hp => h.ext hp)
    (fun _ _ _ _ _ h hs => ⟨h.sps, forall2_append h.pps hs, h.fields⟩) _ m r c a a' hn hr ha).bind ?_
  rintro m' ⟨r, a⟩ ⟨c, a'⟩ hp ⟨-, hr, ha, -⟩ -
  simp only at hr ha ⊢
  have hb := hb.ext hp
  refine (idx_refines hb 0).bind ?_
  rintro _ d0 _ - ⟨rfl, rfl⟩ -
  refine (idx_refines hb 1).bind ?_
  rintro _ d1 _ - ⟨rfl, rfl⟩ -
  refine (idx_refines hb 2).bind ?_
  rintro _ d2 _ - ⟨rfl, rfl⟩ -
  refine (idx_refines hb 3).bind ?_
  rintro _ d3 _ - ⟨rfl, rfl⟩ -
  refine (idx_refines hb 4).bind ?_
  rintro _ d4 _ - ⟨rfl, rfl⟩ -
  exact Refines.pure ⟨ha.sps, ha.pps, rfl⟩

/-- The record in memory and the record of values; all sets are in arrays from `n` on. -/
structure HevcRel (n : Nat) (m : Mem) (r : HEVCRecordM) (a : HEVCRecord) : Prop where
  vps : List.Forall₂ (Own n m) r.vpsList a.vpsList
  sps : List.Forall₂ (Own n m) r.spsList a.spsList
  pps : List.Forall₂ (Own n m) r.ppsList a.ppsList
  fields : r.fields = { a with vpsList := [], spsList := [], ppsList := [], ppsCap := 0, shared := false }
  cap : r.ppsCap = a.ppsCap
  shared : r.shared = a.shared

theorem HevcRel.ext {n : Nat} {m m' : Mem} {r : HEVCRecordM} {a : HEVCRecord} (h : HevcRel n m r a) (hp : m <+: m') : HevcRel n m' r a :=
  ⟨h.vps.imp fun _ _ h => h.ext hp, h.sps.imp fun _ _ h => h.ext hp, h.pps.imp fun _ _ h => h.ext hp, h.fields, h.cap, h.shared⟩

theorem HevcRel.read {n : Nat} {m : Mem} {r : HEVCRecordM} {a : HEVCRecord} (h : HevcRel n m r a) : r.read m = a := by
  unfold HEVCRecordM.read
  rw [forall2_read h.vps, forall2_read h.sps, forall2_read h.pps, h.fields, h.cap, h.shared]

theorem forall2_set {n : Nat} {m : Mem} {v : List SliceRef} {w : List Bytes} (h : List.Forall₂ (Own n m) v w) {s : SliceRef}
    {b : Bytes} (hs : Own n m s b) : ∀ i, List.Forall₂ (Own n m) (v.set i s) (w.set i b) := by
  induction h with
  | nil => intro i; exact .nil
  | cons h ht ih =>
    intro i
    cases i with
    | zero => exact .cons hs ht
    | succ i => exact .cons h (ih i)

theorem hevcAddM_rel {n : Nat} {m : Mem} {grow : Nat → Nat} {t : Byte} {r : HEVCRecordM} {a : HEVCRecord} {s : SliceRef} {b : Bytes}
    (h : HevcRel n m r a) (hs : Own n m s b) : HevcRel n m (hevcAddM grow t r s) (hevcAdd grow t a b) := by
  have hl1 := h.pps.length_eq
  have hl2 := h.sps.length_eq
  unfold hevcAddM hevcAdd
  rw [hl1, hl2, h.cap, h.shared]
  split
  · exact ⟨forall2_append h.vps hs, h.sps, h.pps, h.fields, rfl, rfl⟩
  split
  · exact ⟨h.vps, forall2_append h.pps hs, h.pps, h.fields, rfl, rfl⟩
  split
  · split
    · refine ⟨h.vps, ?_, forall2_append h.pps hs, h.fields, rfl, rfl⟩
      simp only
      split
      · exact forall2_set h.sps hs _
      · exact h.sps
    · exact ⟨h.vps, h.sps, forall2_append h.pps hs, h.fields, rfl, rfl⟩
  · exact h

theorem collapse_hevcReadArrays (grow : Nat → Nat) (n : Nat) (r : BytesBuf) (a : HEVCRecord) :
    collapse (hevcReadArrays grow (n + 1) r a) =
      (collapse r.readUint8 >>= fun x => collapse x.2.readUint16 >>= fun y =>
        collapse (readSets (hevcAdd grow (x.1 &&& 0x3F)) y.1.toNat y.2 a) >>= fun z => collapse (hevcReadArrays grow n z.1 z.2)) := by
  rw [hevcReadArrays]
  cases r.readUint8 with
  | err e => rfl
  | panic => rfl
  | ok p =>
    obtain ⟨e, b⟩ := p
    cases e with
    | error e => rfl
    | ok t =>
      simp only [ok_bind, collapse_ok]
      cases b.readUint16 with
      | err e => rfl
      | panic => rfl
      | ok p =>
        obtain ⟨e, b⟩ := p
        cases e with
        | error e => rfl
        | ok c =>
          simp only [ok_bind, collapse_ok]
          cases readSets (hevcAdd grow (t &&& 0x3F)) c.toNat b a with
          | err e => rfl
          | panic => rfl
          | ok q =>
            obtain ⟨e, a⟩ := q
            cases e with
            | error e => rfl
            | ok b => rfl

theorem hevcReadArraysM_refines {N : Nat} (grow : Nat → Nat) (n : Nat) : ∀ (m : Mem) (r : MemReader) (b : BytesBuf) (s : HEVCRecordM)
    (t : HEVCRecord), N ≤ m.length → Reads m r b → HevcRel N m s t →
    Refines m (hevcReadArraysM grow n r s) (collapse (hevcReadArrays grow n b t)) (fun m' x y => HevcRel N m' x y.2) := by
  induction n with
  | zero =>
    intro m r b s t _ _ h
    exact Refines.pure h
  | succ n ih =>
    intro m r b s t hN hr h
    rw [collapse_hevcReadArrays, hevcReadArraysM]
    refine (run_refines hr readUint8_keeps).bind ?_
    rintro m ⟨x, r⟩ ⟨x', c⟩ - ⟨rfl, hx, hr, -⟩ -
    simp only at hx hr ⊢
    subst hx
    refine (run_refines hr readUint16_keeps).bind ?_
    rintro m ⟨y, r⟩ ⟨y', c⟩ - ⟨rfl, hx, hr, -⟩ -
    simp only at hx hr ⊢
    subst hx
    refine (readSetsM_refines (N := N) (R := HevcRel N) (fun _ _ _ _ h hp => h.ext hp)
      (fun _ _ _ _ _ h hs => hevcAddM_rel h hs) _ m r c s t hN hr h).bind ?_
    rintro m' ⟨r, a⟩ ⟨c, a'⟩ hp ⟨-, hr, ha, -⟩ -
    exact ih m' r c a a' (Nat.le_trans hN hp.length_le) hr ha

theorem collapse_hevcUnmarshal (grow : Nat → Nat) (data : Bytes) : collapse (hevcUnmarshal grow {} data) =
    (collapse (ok ((BytesBuf.setData data).seek 23)) >>= fun x => hevcHeader {} data >>= fun rec =>
      collapse (hevcReadArrays grow rec.numOfArrays.toNat x.2 rec) >>= fun y =>
        if y.2.spsList.length = 0 then err "h265parser: no SPS found in HEVCDecoderConfRecord"
        else if y.2.ppsList.length = 0 then err "h265parser: no PPS found in HEVCDecoderConfRecord"
        else if y.2.vpsList.length = 0 then err "h265parser: no VPS found in HEVCDecoderConfRecord"
        else ok ((), y.2)) := by
  unfold hevcUnmarshal
  cases (BytesBuf.setData data).seek 23 with
  | mk e r =>
    cases e with
    | error e => rfl
    | ok u =>
      simp only [collapse_ok, ok_bind]
      cases hevcHeader {} data with
      | err e => rfl
      | panic => rfl
      | ok rec =>
        simp only [ok_bind]
        cases hevcReadArrays grow rec.numOfArrays.toNat r rec with
        | err e => rfl
        | panic => rfl
        | ok q =>
          obtain ⟨e, a⟩ := q
          cases e with
          | error e => rfl
          | ok b =>
            simp only [ok_bind, hevcCheck, collapse_ok]
            by_cases h1 : a.spsList.length = 0
            · rw [if_pos h1, if_pos h1]; rfl
            rw [if_neg h1, if_neg h1]
            by_cases h1 : a.ppsList.length = 0
            · rw [if_pos h1, if_pos h1]; rfl
            rw [if_neg h1, if_neg h1]
            by_cases h1 : a.vpsList.length = 0
            · rw [if_pos h1, if_pos h1]; rfl
            rw [if_neg h1, if_neg h1]
            rfl

theorem hevcHeader_lists {data : Bytes} {r : HEVCRecord} (h : hevcHeader {} data = ok r) :
    r.vpsList = [] ∧ r.spsList = [] ∧ r.ppsList = [] ∧ r.ppsCap = 0 ∧ r.shared = false := by
  unfold hevcHeader at h
  simp only [bind_eq_ok] at h
  obtain ⟨_, -, _, -, _, -, _, -, _, -, _, -, _, -, _, -, _, -, _, -, _, -, _, -, _, -, _, -, h⟩ := h
  simp only [pure_def, ok.injEq] at h
  subst h
  exact ⟨rfl, rfl, rfl, rfl, rfl⟩

theorem hevcUnmarshalM_refines {k n : Nat} {m : Mem} {s : SliceRef} {b : Bytes} (grow : Nat → Nat) (hb : Own k m s b)
    (hn : n ≤ m.length) :
    Refines m (hevcUnmarshalM grow s) (collapse (hevcUnmarshal grow {} b)) (fun m' x y => HevcRel n m' x y.2) := by
  unfold hevcUnmarshalM
  rw [collapse_hevcUnmarshal]
  refine (run_refines (reads_new hb) (peek_keeps 23)).bind ?_
  rintro m ⟨u, r⟩ ⟨u', c⟩ - ⟨rfl, -, hr, -⟩ -
  refine (Refines.look (v := hevcHeader {} b) (by rw [hb.read])).bind ?_
  rintro m f f' - ⟨rfl, rfl⟩ hf
  obtain ⟨h1, h2, h3, h4, h5⟩ := hevcHeader_lists hf
  refine (hevcReadArraysM_refines (N := n) grow _ m r c { fields := f } f hn hr ⟨?_, ?_, ?_, ?_, h4.symm, h5.symm⟩).bind ?_
  · rw [h1]; exact .nil
  · rw [h2]; exact .nil
  · rw [h3]; exact .nil
  · cases f
    simp only at h1 h2 h3 h4 h5
    subst h1 h2 h3 h4 h5
    rfl
  rintro m' a a' - ha -
  rw [ha.sps.length_eq, ha.pps.length_eq, ha.vps.length_eq]
  split
  · exact Refines.fail
  split
  · exact Refines.fail
  split
  · exact Refines.fail
  · exact Refines.pure ha

/-! ## Codec data and streams -/

/-- Codec data that stands for `v` and uses no array below `n`. -/
structure CodecRel (n : Nat) (m : Mem) (c : CodecDataM) (v : CodecData) : Prop where
  read : c.read m = v
  slices : ∀ s ∈ c.slices, n ≤ s.arr ∧ s.ValidIn m

theorem parseAVCRecord_eq (undef : Int) (data : Bytes) : parseAVCRecord undef data =
    (collapse (avcUnmarshal {} data) >>= fun x => idx x.2.spsList 0 >>= fun s => avcParseSPS undef s >>= fun info =>
      ok { m4vc := some data, width := info.width, height := info.height, record := .avc x.2, annexB := none }) := by
  unfold parseAVCRecord
  cases avcUnmarshal {} data with
  | err e => rfl
  | panic => rfl
  | ok p =>
    obtain ⟨e, a⟩ := p
    cases e <;> rfl

theorem parseHEVCRecord_eq (grow : Nat → Nat) (data : Bytes) : parseHEVCRecord grow data =
    (collapse (hevcUnmarshal grow {} data) >>= fun x => idx x.2.spsList 0 >>= fun s => hevcParseSPS s >>= fun info =>
      ok { m4vc := some data, width := info.width, height := info.height, record := .hevc x.2, annexB := none }) := by
  unfold parseHEVCRecord
  cases hevcUnmarshal grow {} data with
  | err e => rfl
  | panic => rfl
  | ok p =>
    obtain ⟨e, a⟩ := p
    cases e <;> rfl

/-- The same element of both lists. -/
theorem forall2_idx {n : Nat} {m : Mem} {v : List SliceRef} {w : List Bytes} (h : List.Forall₂ (Own n m) v w) :
    Refines m (look fun _ => idx v 0) (idx w 0) (fun m' s b => m' = m ∧ Own n m' s b) := by
  cases h with
  | nil => rfl
  | cons h _ => exact ⟨_, m, rfl, List.prefix_refl m, rfl, h⟩

theorem parseAVCRecordM_refines {k n : Nat} {m : Mem} {s : SliceRef} {b : Bytes} (undef : Int) (hb : Own n m s b)
    (hk : n ≤ k) (hn : k ≤ m.length) : Refines m (parseAVCRecordM undef s) (parseAVCRecord undef b) (CodecRel n) := by
  unfold parseAVCRecordM
  rw [parseAVCRecord_eq]
  refine (avcUnmarshalM_refines hb hn).bind ?_
  rintro m' r x hp hr -
  refine (forall2_idx hr.sps).bind ?_
  rintro m1 t y - ⟨rfl, ht⟩ -
  refine (Refines.look (v := avcParseSPS undef y) (by rw [ht.read])).bind ?_
  rintro m2 info _ - ⟨rfl, rfl⟩ -
  have hb := hb.ext hp
  refine Refines.pure ⟨?_, ?_⟩
  · simp only [CodecDataM.read, hr.read, Option.map_some, Option.map_none, hb.read]
  · intro t ht
    simp only [CodecDataM.slices, Option.toList_none, Option.toList_some, List.nil_append, List.singleton_append, List.mem_cons,
      List.mem_append] at ht
    rcases ht with rfl | ht | ht
    · exact ⟨hb.new, hb.valid⟩
    · exact ⟨Nat.le_trans hk (forall2_new hr.sps t ht).1, (forall2_new hr.sps t ht).2⟩
    · exact ⟨Nat.le_trans hk (forall2_new hr.pps t ht).1, (forall2_new hr.pps t ht).2⟩

theorem parseHEVCRecordM_refines {k n : Nat} {m : Mem} {s : SliceRef} {b : Bytes} (grow : Nat → Nat) (hb : Own n m s b)
    (hk : n ≤ k) (hn : k ≤ m.length) : Refines m (parseHEVCRecordM grow s) (parseHEVCRecord grow b) (CodecRel n) := by
  unfold parseHEVCRecordM
  rw [parseHEVCRecord_eq]
  refine (hevcUnmarshalM_refines grow hb hn).bind ?_
  rintro m' r x hp hr -
  refine (forall2_idx hr.sps).bind ?_
  rintro m1 t y - ⟨rfl, ht⟩ -
  refine (Refines.look (v := hevcParseSPS y) (by rw [ht.read])).bind ?_
  rintro m2 info _ - ⟨rfl, rfl⟩ -
  have hb := hb.ext hp
  refine Refines.pure ⟨?_, ?_⟩
  · simp only [CodecDataM.read, hr.read, Option.map_some, Option.map_none, hb.read]
  · intro t ht
    simp only [CodecDataM.slices, Option.toList_none, Option.toList_some, List.nil_append, List.singleton_append, List.mem_cons,
      List.mem_append] at ht
    rcases ht with rfl | (ht | ht) | ht
    · exact ⟨hb.new, hb.valid⟩
    · exact ⟨Nat.le_trans hk (forall2_new hr.vps t ht).1, (forall2_new hr.vps t ht).2⟩
    · exact ⟨Nat.le_trans hk (forall2_new hr.sps t ht).1, (forall2_new hr.sps t ht).2⟩
    · exact ⟨Nat.le_trans hk (forall2_new hr.pps t ht).1, (forall2_new hr.pps t ht).2⟩

theorem newAVCCodecDataM_refines {n : Nat} {m : Mem} {s p : SliceRef} {x y : Bytes} (undef : Int) (hs : Own n m s x)
    (hp : Own n m p y) (hn : n ≤ m.length) :
    Refines m (newAVCCodecDataM undef s p) (newAVCCodecData undef x y) (fun m' c v => CodecRel n m' c v ∧ c.annexB.isSome) := by
  have e : newAVCCodecData undef x y = ((match avcParseSPS undef x with
      | .err e => err ("h264parser: parse SPS failed(" ++ e ++ ")")
      | z => z) >>= fun info => ok (mix [[x], [y]]) >>= fun a =>
        ok { annexB := some a, width := info.width, height := info.height, m4vc := none,
             record := .avc { spsList := [x], ppsList := [y] } }) := by
    unfold newAVCCodecData
    cases avcParseSPS undef x <;> rfl
  rw [e]
  unfold newAVCCodecDataM
  refine (Refines.look (v := match avcParseSPS undef x with
      | .err e => err ("h264parser: parse SPS failed(" ++ e ++ ")")
      | z => z) (by rw [hs.read]; split <;> simp_all)).bind ?_
  rintro m info _ - ⟨rfl, rfl⟩ hi
  have hx : x ≠ [] := by
    rintro rfl
    exact absurd hi (by intro h; cases h)
  refine (mixM_refines (n := n) (w := [[x], [y]]) hn
    (.cons (.cons (hs.le (Nat.zero_le _)) .nil) (.cons (.cons (hp.le (Nat.zero_le _)) .nil) .nil))).bind ?_
  rintro m' a b hpre ha hb
  have ebm : b = mix [[x], [y]] := by simpa using hb.symm
  have eb : b = x ++ y := by rw [ebm]; simp [mix]
  have hs := hs.ext hpre
  have hp := hp.ext hpre
  rcases ha with ⟨-, h0⟩ | ⟨r, rfl, hr⟩
  · exact absurd (eb.symm.trans h0) (by simp [hx])
  refine Refines.pure ⟨⟨?_, ?_⟩, rfl⟩
  · simp only [CodecDataM.read, AVCRecordM.read, Option.map_some, Option.map_none, List.map_cons, List.map_nil, hr.read, hs.read, hp.read]
  · intro t ht
    simp only [CodecDataM.slices, Option.toList_none, Option.toList_some, List.append_nil, List.singleton_append, List.mem_cons,
      List.not_mem_nil, or_false] at ht
    rcases ht with rfl | rfl | rfl
    · exact ⟨hr.new, hr.valid⟩
    · exact ⟨hs.new, hs.valid⟩
    · exact ⟨hp.new, hp.valid⟩

theorem newHEVCCodecDataM_refines {n : Nat} {m : Mem} {w s p : SliceRef} {z x y : Bytes} (hw : Own n m w z) (hs : Own n m s x)
    (hp : Own n m p y) (hn : n ≤ m.length) :
    Refines m (newHEVCCodecDataM w s p) (newHEVCCodecData z x y) (fun m' c v => CodecRel n m' c v ∧ c.annexB.isSome) := by
  have e : newHEVCCodecData z x y = ((match hevcParseSPS x with
      | .err e => err ("h265parser: parse SPS failed(" ++ e ++ ")")
      | z => z) >>= fun info => ok (mix [[z], [x], [y]]) >>= fun a =>
        ok { annexB := some a, width := info.width, height := info.height, m4vc := none,
             record := .hevc { vpsList := [z], spsList := [x], ppsList := [y], ppsCap := 1 } }) := by
    unfold newHEVCCodecData
    cases hevcParseSPS x <;> rfl
  rw [e]
  unfold newHEVCCodecDataM
  refine (Refines.look (v := match hevcParseSPS x with
      | .err e => err ("h265parser: parse SPS failed(" ++ e ++ ")")
      | z => z) (by rw [hs.read]; split <;> simp_all)).bind ?_
  rintro m info _ - ⟨rfl, rfl⟩ hi
  have hx : x ≠ [] := by
    rintro rfl
    exact absurd hi (by intro h; cases h)
  refine (mixM_refines (n := n) (w := [[z], [x], [y]]) hn
    (.cons (.cons (hw.le (Nat.zero_le _)) .nil) (.cons (.cons (hs.le (Nat.zero_le _)) .nil)
      (.cons (.cons (hp.le (Nat.zero_le _)) .nil) .nil)))).bind ?_
  rintro m' a b hpre ha hb
  have ebm : b = mix [[z], [x], [y]] := by simpa using hb.symm
  have eb : b = z ++ (x ++ y) := by rw [ebm]; simp [mix]
  have hw := hw.ext hpre
  have hs := hs.ext hpre
  have hp := hp.ext hpre
  rcases ha with ⟨-, h0⟩ | ⟨r, rfl, hr⟩
  · exact absurd (eb.symm.trans h0) (by simp [hx])
  refine Refines.pure ⟨⟨?_, ?_⟩, rfl⟩
  · simp only [CodecDataM.read, HEVCRecordM.read, Option.map_some, Option.map_none, List.map_cons, List.map_nil, hr.read, hw.read, hs.read,
      hp.read]
  · intro t ht
    simp only [CodecDataM.slices, Option.toList_none, Option.toList_some, List.append_nil, List.mem_cons,
      List.cons_append, List.nil_append, List.not_mem_nil, or_false] at ht
    rcases ht with rfl | rfl | rfl | rfl
    · exact ⟨hr.new, hr.valid⟩
    · exact ⟨hw.new, hw.valid⟩
    · exact ⟨hs.new, hs.valid⟩
    · exact ⟨hp.new, hp.valid⟩

/-- No codec data, or codec data that uses no array below `n`. -/
def CodecOpt (n : Nat) (m : Mem) (c : Option CodecDataM) (v : Option CodecData) : Prop :=
  c.map (CodecDataM.read m) = v ∧ ∀ s ∈ (c.map CodecDataM.slices).getD [], n ≤ s.arr ∧ s.ValidIn m

theorem CodecRel.some {n : Nat} {m : Mem} {c : CodecDataM} {v : CodecData} (h : CodecRel n m c v) : CodecOpt n m (some c) (some v) :=
  ⟨by rw [Option.map_some, h.read], h.slices⟩

theorem generateVideoCodecDataM_refines {n : Nat} {m : Mem} {s : SliceRef} {b : Bytes} (undef : Int) (grow : Nat → Nat) (pack : Byte)
    (id : Int) (hb : Own n m s b) (hn : n ≤ m.length) :
    Refines m (generateVideoCodecDataM undef grow pack id s) (generateVideoCodecData undef grow pack id b) (CodecOpt n) := by
  unfold generateVideoCodecDataM generateVideoCodecData
  have hnone : CodecOpt n m none none := ⟨rfl, by simp⟩
  split
  · split
    · refine (parseAVCRecordM_refines undef hb (Nat.le_refl n) hn).bind ?_
      rintro m' c v - h -
      exact Refines.pure h.some
    split
    · refine (parseHEVCRecordM_refines grow hb (Nat.le_refl n) hn).bind ?_
      rintro m' c v - h -
      exact Refines.pure h.some
    · exact Refines.pure hnone
  · split
    · refine (avcParseExtraDataM_refines hb hn).bind ?_
      rintro m' ⟨s, p⟩ ⟨x, y⟩ hp ⟨h1, h2⟩ -
      refine (newAVCCodecDataM_refines undef h1 h2 (Nat.le_trans hn hp.length_le)).bind ?_
      rintro m'' c v - ⟨h, -⟩ -
      exact Refines.pure h.some
    split
    · refine (hevcParseExtraDataM_refines hb hn).bind ?_
      rintro m' ⟨w, s, p⟩ ⟨z, x, y⟩ hp ⟨h1, h2, h3⟩ -
      refine (newHEVCCodecDataM_refines h1 h2 h3 (Nat.le_trans hn hp.length_le)).bind ?_
      rintro m'' c v - ⟨h, -⟩ -
      exact Refines.pure h.some
    · exact Refines.pure hnone

/-- A stream that stands for `v` and uses no array below `n`. -/
structure StreamRel (n : Nat) (m : Mem) (s : AVStreamM) (v : AVStream) : Prop where
  read : s.read m = v
  slices : ∀ x ∈ s.slices, n ≤ x.arr ∧ x.ValidIn m

theorem Refines.shift {α β : Type} {m m' : Mem} {x y : MemM α} {v : Go β} {R : Mem → α → β → Prop} (h : x m = y m') (hp : m <+: m')
    (hy : Refines m' y v R) : Refines m x v R := by
  cases v with
  | ok b =>
    obtain ⟨a, m'', h1, h2, h3⟩ := hy
    exact ⟨a, m'', h.trans h1, hp.trans h2, h3⟩
  | err e =>
    obtain ⟨m'', h1, h2⟩ := hy
    exact ⟨m'', h.trans h1, hp.trans h2⟩
  | panic => exact h.trans hy

/-- Memory after `data := make([]byte, len(e)); copy(data, e)`. -/
theorem copied {k : Nat} {m : Mem} {e : SliceRef} {b : Bytes} (h : Own k m e b) :
    ∃ m', m <+: m' ∧ Own m.length m' ⟨m.length, 0, e.len⟩ b ∧
      ∀ {α : Type} (f : SliceRef → MemM α), (make e.len >>= fun d => copyInto d 0 e >>= fun _ => f d) m = f ⟨m.length, 0, e.len⟩ m' := by
  have hv := valid_arr h.valid
  have hl := h.len
  have hr : (m.make e.len).2.read e = b := by rw [Mem.read_make _ _ _ hv.1]; exact h.read
  have hl0 : ((m.make e.len).2.arr m.length).length = e.len := by rw [Mem.arr_make_new, List.length_replicate]
  refine ⟨(m.make e.len).2.copy ⟨m.length, 0 + 0, e.len - 0⟩ b, prefix_copy (prefix_make m _) _ _ (Nat.le_refl _),
    ⟨Nat.le_refl _, valid_of_arr ?_ ?_, ?_⟩, ?_⟩
  · rw [Mem.length_copy, Mem.length_make]; simp only; omega
  · rw [Mem.length_arr_copy _ _ _ _ (Nat.zero_le _)]
    simp only; rw [hl0]; omega
  · have := Mem.read_copy_self (m.make e.len).2 ⟨m.length, 0 + 0, e.len - 0⟩ b (by simp only; rw [hl0]; omega) (by simp only; omega)
    rw [hl] at this
    exact this
  · intro α f
    rw [memM_bind]
    show (copyInto ⟨m.length, 0, e.len⟩ 0 e >>= fun _ => f ⟨m.length, 0, e.len⟩) (m.make e.len).2 = _
    rw [memM_bind]
    unfold copyInto
    rw [if_pos (Nat.zero_le _), hr]

/-- The stream of `createVideoTrack`, with values. -/
def videoStreamV (undef : Int) (grow : Nat → Nat) (pack : Byte) (id timebase index : Int) (b : Bytes) : Go AVStream :=
  generateVideoCodecData undef grow pack id b >>= fun config =>
    ok { mediaType := mediaVideo, index := index, codecID := id, data := b, codecParameters := config, timebase := timebase }

theorem videoStreamM_refines {k : Nat} {m : Mem} {e : SliceRef} {b : Bytes} (undef : Int) (grow : Nat → Nat) (pack : Byte)
    (id timebase index : Int) (h : Own k m e b) :
    Refines m (videoStreamM undef grow pack id timebase index e) (videoStreamV undef grow pack id timebase index b)
      (StreamRel m.length) := by
  obtain ⟨m', hp, ho, hf⟩ := copied h
  refine Refines.shift (hf fun data => generateVideoCodecDataM undef grow pack id data >>= fun config => Pure.pure
    ({ mediaType := mediaVideo, index := index, codecID := id, data := some data, codecParameters := config, timebase := timebase } :
      AVStreamM)) hp ?_
  refine (generateVideoCodecDataM_refines undef grow pack id ho hp.length_le).bind ?_
  rintro m'' c v hp' ⟨hc, hc'⟩ -
  have ho := ho.ext hp'
  refine Refines.pure ⟨?_, ?_⟩
  · simp only [AVStreamM.read, hc, Option.map_some, ho.read, Option.getD_some]
  · intro s hs
    rcases List.mem_append.1 hs with hs | hs
    · rw [Option.toList_some, List.mem_singleton] at hs
      subst hs
      exact ⟨ho.new, ho.valid⟩
    · exact hc' s hs

/-- The stream of `createAudioTrack`, with values. -/
def audioStreamV (id timebase index : Int) (e : Option Bytes) (config : AudioConfig) : Go AVStream :=
  if id = codecAAC ∧ ¬ config.hasADTSHeader then
    match e with
    | none => panic
    | some b => parseMpeg4AudioConfig b >>= fun c =>
      ok { toAudioConfig := { config with sampleRate := c.sampleRate, channels := c.channels }, mediaType := mediaAudio, index := index
           codecID := id, timebase := timebase, data := b }
  else ok { toAudioConfig := config, mediaType := mediaAudio, index := index, codecID := id, timebase := timebase, data := e.getD [] }

/-- What `audioStreamM` does once the extra data is copied. -/
def audioRest (id timebase index : Int) (extraData : Option SliceRef) (config : AudioConfig) (data : Option SliceRef) : MemM AVStreamM :=
  let stream : AVStreamM :=
    { toAudioConfig := config, mediaType := mediaAudio, index := index, codecID := id, timebase := timebase, data := data }
  if id = codecAAC ∧ ¬ config.hasADTSHeader then
    match extraData with
    | none => look fun _ => panic
    | some e => do
      let c ← look fun m => parseMpeg4AudioConfig (m.read e)
      return { stream with sampleRate := c.sampleRate, channels := c.channels }
  else return stream

theorem audioStreamM_refines_nil {m : Mem} (id timebase index : Int) (config : AudioConfig) :
    Refines m (audioStreamM id timebase index none config) (audioStreamV id timebase index none config) (StreamRel m.length) := by
  unfold audioStreamM audioStreamV
  refine Refines.shift (y := audioRest id timebase index none config none) rfl (List.prefix_refl m) ?_
  unfold audioRest
  by_cases hc : id = codecAAC ∧ ¬ config.hasADTSHeader
  · rw [if_pos hc, if_pos hc]; rfl
  · rw [if_neg hc, if_neg hc]
    exact Refines.pure ⟨rfl, by intro x hx; cases hx⟩

theorem audioStreamM_refines {k : Nat} {m : Mem} {e : SliceRef} {b : Bytes} (id timebase index : Int) (config : AudioConfig)
    (h : Own k m e b) :
    Refines m (audioStreamM id timebase index (some e) config) (audioStreamV id timebase index (some b) config)
      (StreamRel m.length) := by
  have key : ∀ (m' : Mem) (d : Option SliceRef), m <+: m' → ((d = none ∧ b = []) ∨ ∃ r, d = some r ∧ Own m.length m' r b) →
      Refines m' (audioRest id timebase index (some e) config d) (audioStreamV id timebase index (some b) config)
        (StreamRel m.length) := by
    intro m' d hp hd
    have he := h.ext hp
    have hread : (d.map (Mem.read m')).getD [] = b := by
      rcases hd with ⟨rfl, rfl⟩ | ⟨r, rfl, hr⟩
      · rfl
      · exact hr.read
    have hsl : ∀ s ∈ d.toList ++ [], m.length ≤ s.arr ∧ s.ValidIn m' := by
      rw [List.append_nil]
      rcases hd with ⟨rfl, rfl⟩ | ⟨r, rfl, hr⟩
      · intro s hs; cases hs
      · intro s hs
        rw [Option.toList_some, List.mem_singleton] at hs
        subst hs
        exact ⟨hr.new, hr.valid⟩
    unfold audioRest audioStreamV
    by_cases hc : id = codecAAC ∧ ¬ config.hasADTSHeader
    · rw [if_pos hc, if_pos hc]
      refine (Refines.look (v := parseMpeg4AudioConfig b) (by rw [he.read])).bind ?_
      rintro m' c _ - ⟨rfl, rfl⟩ -
      refine Refines.pure ⟨?_, hsl⟩
      simp only [AVStreamM.read, hread, Option.map_none]
    · rw [if_neg hc, if_neg hc]
      refine Refines.pure ⟨?_, hsl⟩
      simp only [AVStreamM.read, hread, Option.map_none, Option.getD_some]
  by_cases hl : e.len > 0
  · obtain ⟨m', hp, ho, hf⟩ := copied h
    refine Refines.shift (m' := m') (y := audioRest id timebase index (some e) config (some ⟨m.length, 0, e.len⟩)) ?_ hp
      (key m' _ hp (.inr ⟨_, rfl, ho⟩))
    show ((if e.len > 0 then _ else _ : MemM (Option SliceRef)) >>= audioRest id timebase index (some e) config) m = _
    rw [if_pos hl, memM_bind]
    have := hf (fun d => Pure.pure (some d))
    erw [this]
    rfl
  · refine Refines.shift (m' := m) (y := audioRest id timebase index (some e) config none) ?_ (List.prefix_refl m)
      (key m _ (List.prefix_refl m) (.inl ⟨rfl, ?_⟩))
    · show ((if e.len > 0 then _ else _ : MemM (Option SliceRef)) >>= audioRest id timebase index (some e) config) m = _
      rw [if_neg hl]
      rfl
    · exact List.length_eq_zero_iff.1 (by have := h.len; omega)

theorem annexB_refines {n : Nat} {m : Mem} {c : CodecDataM} {v : CodecData} (h : CodecRel n m c v) (hs : c.annexB.isSome) :
    Refines m c.annexBExtraData (ok v.annexBExtraData) (fun m' d b => m' = m ∧ ∃ r, d = some r ∧ Own n m' r b) := by
  obtain ⟨d, hd⟩ := Option.isSome_iff_exists.1 hs
  have hv : v.annexB = some (m.read d) := by rw [← h.read]; simp [CodecDataM.read, hd]
  unfold CodecDataM.annexBExtraData CodecData.annexBExtraData
  rw [hd, hv]
  have := h.slices d (by simp [CodecDataM.slices, hd])
  exact ⟨some d, m, rfl, List.prefix_refl m, rfl, d, rfl, this.1, this.2, rfl⟩

theorem keyFrame_stream {n : Nat} {m : Mem} {c : CodecDataM} {v : CodecData} (h : CodecRel n m c v) (hs : c.annexB.isSome)
    (index id : Int) :
    Refines m (c.annexBExtraData >>= fun d => Pure.pure
        ({ mediaType := mediaVideo, index := index, codecID := id, data := d, codecParameters := some c } : AVStreamM))
      (ok { mediaType := mediaVideo, index := index, codecID := id, data := v.annexBExtraData, codecParameters := some v })
      (StreamRel n) := by
  show Refines m _ (ok v.annexBExtraData >>= fun d => ok
    ({ mediaType := mediaVideo, index := index, codecID := id, data := d, codecParameters := some v } : AVStream)) _
  refine (annexB_refines h hs).bind ?_
  rintro m _ b - ⟨rfl, r, rfl, hr⟩ -
  refine Refines.pure ⟨?_, ?_⟩
  · simp only [AVStreamM.read, Option.map_some, h.read, hr.read, Option.getD_some]
  · intro s hs
    rcases List.mem_append.1 hs with hs | hs
    · rw [Option.toList_some, List.mem_singleton] at hs
      subst hs
      exact ⟨hr.new, hr.valid⟩
    · exact h.slices s hs

theorem createAVCStreamM_refines {k : Nat} {m : Mem} {e : SliceRef} {b : Bytes} (undef index : Int) (h : Own k m e b) :
    Refines m (createAVCStreamFromKeyFrameM undef e index) (createAVCStreamFromKeyFrame undef b index) (StreamRel m.length) := by
  unfold createAVCStreamFromKeyFrameM createAVCStreamFromKeyFrame
  refine (avcParseExtraDataM_refines h (Nat.le_refl _)).bind ?_
  rintro m' ⟨s, p⟩ ⟨x, y⟩ hp ⟨h1, h2⟩ -
  refine (newAVCCodecDataM_refines undef h1 h2 hp.length_le).bind ?_
  rintro m'' c v - ⟨h, hs⟩ -
  exact keyFrame_stream h hs index codecH264

theorem createHevcStreamM_refines {k : Nat} {m : Mem} {e : SliceRef} {b : Bytes} (index : Int) (h : Own k m e b) :
    Refines m (createHevcStreamFromKeyFrameM e index) (createHevcStreamFromKeyFrame b index) (StreamRel m.length) := by
  unfold createHevcStreamFromKeyFrameM createHevcStreamFromKeyFrame
  refine (hevcParseExtraDataM_refines h (Nat.le_refl _)).bind ?_
  rintro m' ⟨w, s, p⟩ ⟨z, x, y⟩ hp ⟨h1, h2, h3⟩ -
  refine (newHEVCCodecDataM_refines h1 h2 h3 hp.length_le).bind ?_
  rintro m'' c v - ⟨h, hs⟩ -
  exact keyFrame_stream h hs index codecH265

theorem own_of_valid {m : Mem} {e : SliceRef} (h : e.ValidIn m) : Own 0 m e (m.read e) := ⟨Nat.zero_le _, h, rfl⟩

/-- Every call that makes a stream leaves memory as it is and uses new memory. -/
theorem MakesStream.refines {m : Mem} {e : SliceRef} {c : MemM AVStreamM} (he : e.ValidIn m) (hc : MakesStream e c) :
    ∃ v, Refines m c v (StreamRel m.length) := by
  have h := own_of_valid he
  cases hc with
  | video undef grow pack id timebase index => exact ⟨_, videoStreamM_refines undef grow pack id timebase index h⟩
  | audio id timebase index config => exact ⟨_, audioStreamM_refines id timebase index config h⟩
  | avcKeyFrame undef index => exact ⟨_, createAVCStreamM_refines undef index h⟩
  | hevcKeyFrame index => exact ⟨_, createHevcStreamM_refines index h⟩

theorem Refines.made {α β : Type} {m m' : Mem} {x : MemM α} {v : Go β} {R : Mem → α → β → Prop} {a : α} (h : Refines m x v R)
    (hr : x m = ok (.ok a, m')) : m <+: m' ∧ ∃ b, v = ok b ∧ R m' a b := by
  cases v with
  | ok b =>
    obtain ⟨a', m'', h1, h2, h3⟩ := h
    rw [hr] at h1
    injection h1 with h1
    injection h1 with h4 h5
    injection h4 with h4
    subst h4; subst h5
    exact ⟨h2, b, rfl, h3⟩
  | err e =>
    obtain ⟨m'', h1, -⟩ := h
    rw [hr] at h1
    injection h1 with h1
    injection h1 with h4 h5
    cases h4
  | panic =>
    have : x m = Go.panic := h
    rw [hr] at this
    cases this

theorem Refines.failed {α β : Type} {m m' : Mem} {x : MemM α} {v : Go β} {R : Mem → α → β → Prop} {e : String} (h : Refines m x v R)
    (hr : x m = ok (.error e, m')) : m <+: m' := by
  cases v with
  | ok b =>
    obtain ⟨a', m'', h1, h2, h3⟩ := h
    rw [hr] at h1
    injection h1 with h1
    injection h1 with h4 h5
    cases h4
  | err e =>
    obtain ⟨m'', h1, h2⟩ := h
    rw [hr] at h1
    injection h1 with h1
    injection h1 with h4 h5
    subst h5
    exact h2
  | panic =>
    have : x m = Go.panic := h
    rw [hr] at this
    cases this

/-- A stream depends on memory only through its slices. -/
theorem AVStreamM.read_congr {m m' : Mem} (s : AVStreamM) (h : ∀ x ∈ s.slices, m'.read x = m.read x) : s.read m' = s.read m := by
  have hmap : ∀ l : List SliceRef, (∀ x ∈ l, m'.read x = m.read x) → l.map m'.read = l.map m.read :=
    fun l hl => List.map_congr_left hl
  have hopt : ∀ o : Option SliceRef, (∀ x ∈ o.toList, m'.read x = m.read x) → o.map m'.read = o.map m.read := by
    intro o ho
    cases o with
    | none => rfl
    | some x => rw [Option.map_some, Option.map_some, ho x (by simp)]
  have hd : s.data.map m'.read = s.data.map m.read := hopt _ fun x hx => h x (List.mem_append_left _ hx)
  have hc : s.codecParameters.map (CodecDataM.read m') = s.codecParameters.map (CodecDataM.read m) := by
    cases hcp : s.codecParameters with
    | none => rfl
    | some c =>
      have h' : ∀ x ∈ c.slices, m'.read x = m.read x := fun x hx =>
        h x (List.mem_append_right _ (by rw [hcp]; exact hx))
      have h1 := hopt c.annexB fun x hx => h' x (by simp only [CodecDataM.slices, List.mem_append]; exact .inl (.inl hx))
      have h2 := hopt c.m4vc fun x hx => h' x (by simp only [CodecDataM.slices, List.mem_append]; exact .inl (.inr hx))
      have h3 : ∀ x ∈ (match c.record with
          | .avc r => r.spsList ++ r.ppsList
          | .hevc r => r.vpsList ++ r.spsList ++ r.ppsList), m'.read x = m.read x := fun x hx => h' x (List.mem_append_right _ hx)
      rw [Option.map_some, Option.map_some]
      congr 1
      unfold CodecDataM.read
      rw [h1, h2]
      cases hr : c.record with
      | avc r =>
        rw [hr] at h3
        simp only [AVCRecordM.read, hmap r.spsList fun x hx => h3 x (List.mem_append_left _ hx),
          hmap r.ppsList fun x hx => h3 x (List.mem_append_right _ hx)]
      | hevc r =>
        rw [hr] at h3
        simp only [HEVCRecordM.read, hmap r.vpsList fun x hx => h3 x (List.mem_append_left _ (List.mem_append_left _ hx)),
          hmap r.spsList fun x hx => h3 x (List.mem_append_left _ (List.mem_append_right _ hx)),
          hmap r.ppsList fun x hx => h3 x (List.mem_append_right _ hx)]
  unfold AVStreamM.read
  rw [hc, hd]

/-- No array of a stream is held by the rest of the program, and no two streams share an array. -/
structure World.Sound (w : World) : Prop where
  outside : ∀ a ∈ w.outside, a < w.mem.length
  reads : ∀ p ∈ w.streams, p.1.read w.mem = p.2
  valid : ∀ p ∈ w.streams, ∀ x ∈ p.1.slices, x.ValidIn w.mem
  own : ∀ p ∈ w.streams, ∀ x ∈ p.1.slices, x.arr ∉ w.outside
  apart : w.streams.Pairwise fun p q => ∀ x ∈ p.1.slices, ∀ y ∈ q.1.slices, x.arr ≠ y.arr

theorem World.Sound.grow {w : World} (h : w.Sound) {m : Mem} (hp : w.mem <+: m) : World.Sound { w with mem := m } :=
  ⟨fun a ha => Nat.lt_of_lt_of_le (h.outside a ha) hp.length_le,
    fun p hq => (p.1.read_congr fun x hx => read_prefix hp (h.valid p hq x hx)).trans (h.reads p hq),
    fun p hq x hx => valid_prefix hp (h.valid p hq x hx), h.own, h.apart⟩

theorem World.Sound.step {w v : World} (h : w.Sound) (hs : World.Step w v) : v.Sound := by
  cases hs with
  | alloc b =>
    have g := h.grow (m := w.mem ++ [b]) (List.prefix_append _ _)
    refine ⟨?_, g.reads, g.valid, ?_, g.apart⟩
    · intro a ha
      rcases List.mem_cons.1 ha with rfl | ha
      · simp
      · exact g.outside a ha
    · intro p hp x hx ha
      rcases List.mem_cons.1 ha with ha | ha
      · have := (valid_arr (h.valid p hp x hx)).1
        omega
      · exact h.own p hp x hx ha
  | write a b ha =>
    have hne : ∀ p ∈ w.streams, ∀ x ∈ p.1.slices, a ≠ x.arr := fun p hp x hx hax => h.own p hp x hx (hax ▸ ha)
    refine ⟨fun a ha => by simpa using h.outside a ha, ?_, ?_, h.own, h.apart⟩
    · intro p hp
      refine (p.1.read_congr fun x hx => ?_).trans (h.reads p hp)
      simp only [Mem.read, List.getElem?_set_ne (hne p hp x hx)]
    · intro p hp x hx
      obtain ⟨c, h1, h2⟩ := h.valid p hp x hx
      exact ⟨c, by rw [List.getElem?_set_ne (hne p hp x hx)]; exact h1, h2⟩
  | made e c he hv hc s m hr =>
    obtain ⟨g, hg⟩ := hc.refines hv
    obtain ⟨hp, x, -, hx⟩ := hg.made hr
    have g := h.grow hp
    refine ⟨g.outside, ?_, ?_, ?_, ?_⟩
    · intro p hq
      rcases List.mem_append.1 hq with hq | hq
      · exact g.reads p hq
      · rw [List.mem_singleton.1 hq]
    · intro p hq
      rcases List.mem_append.1 hq with hq | hq
      · exact g.valid p hq
      · rw [List.mem_singleton.1 hq]
        exact fun y hy => (hx.slices y hy).2
    · intro p hq
      rcases List.mem_append.1 hq with hq | hq
      · exact g.own p hq
      · rw [List.mem_singleton.1 hq]
        intro y hy ha
        have h1 := (hx.slices y hy).1
        have h2 := h.outside _ ha
        omega
    · refine List.pairwise_append.2 ⟨h.apart, List.pairwise_singleton _ _, ?_⟩
      intro p hq q hq' y hy z hz
      rw [List.mem_singleton.1 hq'] at hz
      have h1 := (valid_arr (h.valid p hq y hy)).1
      have h2 := (hx.slices z hz).1
      omega
  | failed e c he hv hc x m hr =>
    obtain ⟨g, hg⟩ := hc.refines hv
    exact h.grow (hg.failed hr)

end Avf
