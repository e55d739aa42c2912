import Verif.Lemmas.RBBuf
import Verif.Spec.RingBlockBuffer
import Verif.Spec.Trace
/-! # RBBlockBuffer: simulation by the specification of the block being written -/
set_option linter.unusedSimpArgs false
namespace Avf
open Go

/-- Running an operation on the model. -/
def BufOp.runR : BufOp → RBBuf × Mem → Go (BufObs × (RBBuf × Mem))
  | write d, (r, m) => do let (r, m) ← r.write m d; return (.unit, (r, m))
  | fetch, (r, m) => do let (s, r) ← r.fetch; return (.bytes (s.map m.read), (r, m))
  | pop, (r, m) => do let r ← r.pop; return (.unit, (r, m))
  | popBack, (r, m) => do let r ← r.popBack; return (.unit, (r, m))
  | clear, (r, m) => ok (.unit, (r.clear, m))
  | pending, (r, m) => ok (.num r.pendingBlockSize, (r, m))
  | size, (r, m) => ok (.num r.toDirectBuf.size, (r, m))
  | data, (r, m) => ok (.bytes none, (r, m))
  | splitOff, (r, m) => do let (_, r) ← r.splitOff; return (.unit, (r, m))

namespace RBBuf

/-- Contents of the block being written. -/
def pendOf (r : RBBuf) (m : Mem) : Option Bytes :=
  match r.blocks.getLast? with
  | some k => if k.completed then none else some (m.read (r.ref k))
  | none => none

structure R (s : RBBuf × Mem) (t : RingSt) : Prop where
  wf : WF s.1 s.2
  size : s.1.blocks.length = t.size
  pend : s.1.pendOf s.2 = t.pend
  sealed : s.1.sealed = t.sealed

/-- The opened queue still fits. -/
theorem WF.opened_fits {r : RBBuf} {m : Mem} (h : WF r m) {bs : List Block} {old : Block}
    (ho : r.blocks = bs ++ [old] ∨ r.blocks = bs ∧ old = ⟨r.headTail.2, 0, false⟩ ∧
      ∀ k, bs.getLast? = some k → k.completed = true) : ∀ k ∈ bs ++ [old], k.index + k.size ≤ r.data.len := by
  have ht : r.headTail.2 ≤ r.data.len := by
    unfold headTail
    split
    · rename_i t _ e; exact h.fits t (List.mem_of_getLast? e)
    · exact Nat.zero_le _
  rcases ho with ho | ⟨ho, rfl, _⟩
  · rw [← ho]; exact h.fits
  · intro k hk
    rcases List.mem_append.mp hk with hk | hk
    · exact h.fits k (by rw [ho]; exact hk)
    · simp at hk; subst hk; simpa using ht

theorem R.write {s : RBBuf × Mem} {t : RingSt} (h : R s t) (d : Bytes) :
    Allows R (RingSt.allowed (.write d) t) ((BufOp.write d).runR s) := by
  obtain ⟨r, m⟩ := s
  obtain ⟨h1, h2, h3, h4⟩ := h
  simp only at h1 h2 h3 h4
  obtain ⟨bs, old, o1, o2, o3, o4, o5⟩ := r.opened_blocks
  obtain ⟨r', m', k, e, w1, w2, w3, w4, w5, w6, w7, w8, w9, w10, w11⟩ := write_ok h1 d o1 o2 o3 o4 (h1.opened_fits o5)
  simp only [BufOp.runR, e, ok_bind, Go.pure_def]
  have hbs : ∀ k ∈ bs, k.completed = true := by
    rcases o5 with o5 | ⟨o5, _, o6⟩
    · have := h1.done; rw [o5] at this; simpa using this
    · intro k hk
      have := h1.done
      rw [o5] at this
      rcases list_snoc_cases bs with rfl | ⟨bs, x, rfl⟩
      · simp at hk
      · rcases List.mem_append.mp hk with hk | hk
        · exact this k (by simpa using hk)
        · simp at hk; subst hk; exact o6 k (by simp)
  have hp : t.pend.getD [] = m.read (r.ref old) ∧ bs.length + 1 = (if t.pend.isSome then t.size else t.size + 1) := by
    rw [← h3, pendOf]
    rcases o5 with o5 | ⟨o5, o6, o7⟩
    · rw [o5] at h2
      simp [o5, o2]; simpa using h2
    · rw [o5] at h2
      rw [o5]
      cases hl : bs.getLast? with
      | none => simp [ref, o6, h2]
      | some x => simp [o7 x hl, ref, o6, h2]
  have hwf' : ∀ bs', (∀ k ∈ bs', k ∈ bs) → r'.blocks = bs' ++ [k] → r'.data.len ≥ r.data.len → WF r' m' := by
    intro bs' hsub hb hl
    refine ⟨w6, w7, w9, ?_, w8, ?_⟩
    · intro k' hk'
      rw [hb] at hk'
      rcases List.mem_append.mp hk' with hk' | hk'
      · have := h1.opened_fits o5 k' (by simp [hsub _ hk']); omega
      · simp at hk'; subst hk'; exact w10
    · rw [hb]; simp; exact fun k hk => hbs k (hsub _ hk)
  refine ⟨⟨r'.blocks.length, some (t.pend.getD [] ++ d), t.sealed⟩, ⟨_, ?_, rfl⟩, ?_, rfl, ?_, by simp only; rw [w1, h4]⟩
  · rw [← hp.2]
    rcases w11 with w | w | w <;> rw [w.blocks] <;> simp
  · simp only
    rcases w11 with w | w | w
    · rw [w.blocks] at w3; simp at w3
      exact hwf' bs (fun _ h => h) (by rw [w.blocks, w3]) (by rw [w.data]; exact Nat.le_refl _)
    · rw [w.blocks] at w3; simp at w3
      exact hwf' bs (fun _ h => h) (by rw [w.blocks, w3]) (by rw [w.data]; exact Nat.le_refl _)
    · rw [w.blocks] at w3; simp at w3
      refine ⟨w6, w7, w9, ?_, w8, ?_⟩
      · rw [w.blocks, w3]; simpa using w10
      · rw [w.blocks]; simp
  · simp only [pendOf, w3, w4, w5, hp.1]; simp

theorem R.sim {s : RBBuf × Mem} {t : RingSt} (h : R s t) (o : BufOp) : Allows R (RingSt.allowed o t) (o.runR s) := by
  cases o with
  | write d => exact h.write d
  | fetch =>
    obtain ⟨r, m⟩ := s
    obtain ⟨h1, h2, h3, h4⟩ := h
    simp only at h1 h2 h3 h4
    simp only [BufOp.runR, RBBuf.fetch, DirectBuf.fetch]
    cases hs : r.sealed with
    | true => simp [Allows, RingSt.allowed, ← h4, hs]
    | false =>
      simp only [Bool.not_false, assert_true, ok_bind]
      rcases list_snoc_cases r.blocks with hb | ⟨bs, k, hb⟩
      · simp [hb] at h2
        simp [hb, Allows, RingSt.allowed, ← h2]
      · have hsz : t.size ≠ 0 := by rw [← h2, hb]; simp
        have hk' := h1.fits k (by simp [hb])
        simp only [hb, List.getLast?_append, List.getLast?_singleton, Option.some_or]
        cases hk : k.completed with
        | true =>
          simp only [if_true, ok_bind, Go.pure_def, Option.map_none]
          simp [pendOf, hb, hk] at h3
          refine ⟨t, ?_, ⟨?_, ?_, ?_, ?_⟩⟩
          · simp only [RingSt.allowed, ← h4, hs, hsz, Bool.false_eq_true, or_self, if_false, ← h3]
            cases t; simp_all
          · exact ⟨h1.arr, h1.len, h1.cap, by simpa [hb] using h1.fits, h1.off, by simpa [hb] using h1.done⟩
          · simpa [hb] using h2
          · simp [pendOf, hb, hk, ← h3]
          · simp [← h4, hs]
        | false =>
          simp only [Bool.false_eq_true, if_false]
          rw [SliceRef.sub_of_le (by omega) hk']
          simp only [ok_bind, Go.pure_def, Option.map_some, updLast_concat, Nat.add_sub_cancel_left]
          simp [pendOf, hb, hk] at h3
          refine ⟨{ t with pend := none }, ?_, ⟨?_, ?_, ?_, ?_⟩⟩
          · simp only [RingSt.allowed, ← h4, hs, hsz, Bool.false_eq_true, or_self, if_false, ← h3]
            rfl
          · refine ⟨h1.arr, h1.len, h1.cap, ?_, h1.off, ?_⟩
            · intro x hx
              simp only at hx
              rcases List.mem_append.mp hx with hx | hx
              · exact h1.fits x (by simp [hb, hx])
              · simp at hx; subst hx; exact hk'
            · have := h1.done; rw [hb] at this; simpa using this
          · simpa [hb] using h2
          · simp [pendOf]
          · simp [← h4, hs]
  | pop =>
    obtain ⟨r, m⟩ := s
    obtain ⟨h1, h2, h3, h4⟩ := h
    simp only at h1 h2 h3 h4
    simp only [BufOp.runR, RBBuf.pop]
    cases hs : r.sealed with
    | true => simp [Allows, RingSt.allowed, ← h4, hs]
    | false =>
      simp only [Bool.not_false, assert_true, ok_bind]
      by_cases hd : r.discardBlockCount > 0
      · simp only [hd, if_true, ok_bind, Go.pure_def]
        refine ⟨t, ?_, ⟨⟨h1.arr, h1.len, h1.cap, h1.fits, h1.off, h1.done⟩, h2, h3, by simp [← h4, hs]⟩⟩
        simp only [RingSt.allowed, ← h4, hs, Bool.false_eq_true, if_false]
        refine ⟨t.size, .inl rfl, ?_⟩
        have : (if t.size = 0 then none else t.pend) = t.pend := by
          split
          · rename_i h0
            rw [h0] at h2
            have : r.blocks = [] := by simpa using h2
            simp [pendOf, this] at h3; exact h3
          · rfl
        rw [this]
        cases t; simp_all
      · simp only [hd, if_false, DirectBuf.pop, hs, Bool.not_false, assert_true, ok_bind, Go.pure_def]
        have hmem : ∀ x ∈ r.blocks.drop 1, x ∈ r.blocks := fun x hx => List.mem_of_mem_drop hx
        have hdone : ∀ x ∈ (r.blocks.drop 1).dropLast, x.completed = true := by
          intro x hx
          apply h1.done
          rcases hb : r.blocks with _ | ⟨y, ys⟩
          · simp [hb] at hx
          · rw [hb] at hx
            simp only [List.drop_succ_cons, List.drop_zero] at hx
            cases ys with
            | nil => simp at hx
            | cons z zs => rw [List.dropLast_cons_cons]; exact List.mem_cons_of_mem _ hx
        have key : ∀ c, c ≤ r.data.len → ∀ r₁ : RBBuf, r₁ = { r with toDirectBuf := DirectBuf.resetIfEmpty { r.toDirectBuf with sealed := false, blocks := r.blocks.drop 1 }, capacity := c } →
            Allows R (RingSt.allowed BufOp.pop t) (ok (BufObs.unit, (r₁, m))) := by
          intro c hc r₁ e₁
          have d1 : r₁.data = r.data := by rw [e₁]; simp [DirectBuf.resetIfEmpty]; split <;> rfl
          have d2 : r₁.blocks = r.blocks.drop 1 := by rw [e₁]; simp [DirectBuf.resetIfEmpty]; split <;> rfl
          have d3 : r₁.nextOffset = 0 := by rw [e₁]; simp [DirectBuf.resetIfEmpty]; split <;> simp [h1.off]
          have d4 : r₁.sealed = false := by rw [e₁]; simp [DirectBuf.resetIfEmpty]; split <;> rfl
          have d5 : r₁.capacity = c := by rw [e₁]
          refine ⟨⟨t.size - 1, if t.size - 1 = 0 then none else t.pend, t.sealed⟩, ?_, ?_⟩
          · simp only [RingSt.allowed, ← h4, hs, Bool.false_eq_true, if_false]
            exact ⟨t.size - 1, .inr rfl, rfl⟩
          · refine ⟨⟨by rw [d1]; exact h1.arr, by rw [d1]; exact h1.len, by rw [d1, d5]; exact hc, ?_, d3, ?_⟩, ?_, ?_, ?_⟩
            · simp only [d2, d1]; exact fun x hx => h1.fits x (hmem x hx)
            · simp only [d2]; exact hdone
            · simp only [d2, List.length_drop, h2]
            · simp only [pendOf, d2]
              split
              · rename_i k hk
                have hne : t.size - 1 ≠ 0 := by
                  rw [← h2]
                  intro h0
                  have : r.blocks.drop 1 = [] := List.drop_eq_nil_of_le (by omega)
                  rw [this] at hk; simp at hk
                rw [if_neg hne, ← h3, pendOf]
                have hl : r.blocks.getLast? = some k := by
                  rcases hb : r.blocks with _ | ⟨y, ys⟩
                  · simp [hb] at hk
                  · rw [hb] at hk
                    simp only [List.drop_succ_cons, List.drop_zero] at hk
                    rw [List.getLast?_cons, hk]; rfl
                rw [hl]
                simp only [ref, d1]
              · rename_i hk
                have : r.blocks.drop 1 = [] := by simpa using hk
                have : r.blocks.length - 1 = 0 := by rw [← List.length_drop, this]; rfl
                rw [← h2, if_pos this]
            · rw [d4, ← h4, hs]
        have hcap := h1.cap
        have e1 : (DirectBuf.resetIfEmpty { r.toDirectBuf with sealed := false, blocks := r.blocks.drop 1 }).data = r.data := by
          simp [DirectBuf.resetIfEmpty]; split <;> rfl
        split
        · simp only [ok_bind]
          refine key r.data.len (Nat.le_refl _) _ ?_
          rw [e1]
        · split
          · simp only [ok_bind]
            refine key r.data.len (Nat.le_refl _) _ ?_
            rw [e1]
          · simp only [ok_bind]
            exact key r.capacity hcap _ rfl
  | popBack =>
    obtain ⟨r, m⟩ := s
    obtain ⟨h1, h2, h3, h4⟩ := h
    simp only at h1 h2 h3 h4
    simp only [BufOp.runR, RBBuf.popBack, DirectBuf.popBack]
    cases hs : r.sealed with
    | true => simp [Allows, RingSt.allowed, ← h4, hs]
    | false =>
      simp only [Bool.not_false, assert_true, ok_bind]
      by_cases hb : r.blocks = []
      · simp [hb] at h2
        simp [hb, Allows, RingSt.allowed, ← h2]
      · have hsz : t.size ≠ 0 := by rw [← h2]; simpa using hb
        simp only [List.isEmpty_eq_false_iff.mpr hb, Bool.not_false, assert_true, ok_bind, Go.pure_def]
        generalize e₁ : ({ r with toDirectBuf := DirectBuf.resetIfEmpty { r.toDirectBuf with sealed := false, blocks := r.blocks.dropLast } } : RBBuf) = r₁
        have d1 : r₁.data = r.data := by rw [← e₁]; simp [DirectBuf.resetIfEmpty]; split <;> rfl
        have d2 : r₁.blocks = r.blocks.dropLast := by rw [← e₁]; simp [DirectBuf.resetIfEmpty]; split <;> rfl
        have d3 : r₁.nextOffset = 0 := by rw [← e₁]; simp [DirectBuf.resetIfEmpty]; split <;> simp [h1.off]
        have d4 : r₁.sealed = false := by rw [← e₁]; simp [DirectBuf.resetIfEmpty]; split <;> rfl
        have d5 : r₁.capacity = r.capacity := by rw [← e₁]
        refine ⟨⟨t.size - 1, none, t.sealed⟩, ?_, ?_⟩
        · simp only [RingSt.allowed, ← h4, hs, hsz, Bool.false_eq_true, or_self, if_false]
        · refine ⟨⟨by rw [d1]; exact h1.arr, by rw [d1]; exact h1.len, by rw [d1, d5]; exact h1.cap, ?_, d3, ?_⟩, ?_, ?_, ?_⟩
          · simp only [d2, d1]; exact fun x hx => h1.fits x (List.dropLast_subset _ hx)
          · simp only [d2]; exact fun x hx => h1.done x (List.dropLast_subset _ hx)
          · simp only [d2, List.length_dropLast, h2]
          · simp only [pendOf, d2]
            split
            · rename_i k hk
              rw [h1.done k (List.mem_of_getLast? hk)]; rfl
            · rfl
          · rw [d4, ← h4, hs]
  | clear =>
    obtain ⟨r, m⟩ := s
    have h1 := h.wf
    refine ⟨⟨0, none, false⟩, rfl, ⟨⟨h1.arr, h1.len, Nat.le_refl _, ?_, rfl, ?_⟩, rfl, rfl, rfl⟩⟩
    · simp [RBBuf.clear, DirectBuf.clear]
    · simp [RBBuf.clear, DirectBuf.clear]
  | pending =>
    obtain ⟨r, m⟩ := s
    refine ⟨t, ?_, h⟩
    simp only [RingSt.allowed, ← h.pend, pendOf, pendingBlockSize, DirectBuf.pendingBlockSize]
    cases hk : r.blocks.getLast? with
    | none => simp
    | some k =>
      simp only
      split
      · simp
      · have h1 := h.wf
        have := h1.fits k (List.mem_of_getLast? hk)
        have hl := h1.len
        simp only at this hl
        rw [Option.getD_some, Mem.length_read _ _ (by simp only [ref]; omega)]
        rfl
  | size =>
    obtain ⟨r, m⟩ := s
    refine ⟨t, ?_, h⟩
    simp only [RingSt.allowed, ← h.size]
    rfl
  | data => exact ⟨t, rfl, h⟩
  | splitOff =>
    obtain ⟨r, m⟩ := s
    have h1 := h.wf
    simp only [BufOp.runR, RBBuf.splitOff, DirectBuf.splitOff]
    rw [SliceRef.sub_of_le (by rw [h1.off]; exact Nat.zero_le _) (Nat.le_refl _)]
    simp only [ok_bind, Go.pure_def]
    exact ⟨{ t with sealed := true }, rfl, ⟨⟨h1.arr, h1.len, h1.cap, h1.fits, h1.off, h1.done⟩, h.size, h.pend, rfl⟩⟩

theorem R_new (m : Mem) (cap : Nat) : R (RBBuf.new m cap) ⟨0, none, false⟩ := by
  refine ⟨⟨?_, ?_, ?_, ?_, ?_, ?_⟩, ?_, ?_, ?_⟩ <;> simp [RBBuf.new, Mem.make, Mem.arr, pendOf]

end RBBuf

end Avf
