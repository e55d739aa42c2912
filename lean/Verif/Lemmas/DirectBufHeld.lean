import Verif.Lemmas.DirectBuf
import Verif.Spec.BlockClient
/-! # DirectBlockBuffer: invariant of a client that keeps fetched slices -/
namespace Avf
open Go

/-- A new buffer represents the empty specification state. -/
theorem DirectBuf.R_new (m : Mem) (cap : Nat) : DirectBuf.R (DirectBuf.new m cap) BufSpec.empty := by
  refine ⟨⟨?_, ?_, ?_⟩, ?_, ?_, ?_, ?_, ?_, ?_⟩ <;>
    simp [DirectBuf.new, Mem.make, BufSpec.empty, DirectBuf.all, Mem.arr]

/-- Invariant of the client: one entry per block, `none` for the one being written; a remembered slice lies in the used
part of the current memory or in an older array, and still holds its bytes. -/
structure DirectBuf.HeldOk (b : DirectBuf) (m : Mem) (h : Held) : Prop where
  rep : ∃ t, DirectBuf.R (b, m) t
  flags : h.map Option.isSome = b.blocks.map Block.completed
  good : ∀ s d, some (s, d) ∈ h → s.arr < m.length ∧ (s.arr = b.data.arr → s.off + s.len ≤ b.data.off + b.nextOffset) ∧
    m.read s = d

namespace DirectBuf.HeldOk

theorem write {b : DirectBuf} {m : Mem} {h : Held} (H : HeldOk b m h) {d : Bytes} {b' : DirectBuf} {m' : Mem}
    (e : b.write m d = ok (b', m')) : HeldOk b' m' h.write := by
  obtain ⟨⟨t, R⟩, hf, hg⟩ := H
  have hs : b.sealed = false := by
    cases hs : b.sealed with
    | false => rfl
    | true => simp [DirectBuf.write, alloc, hs] at e
  obtain ⟨b₁, m₁, e₁, w1, w2, w3, w4, w5, w6, w7, w8⟩ := write_ok (show WF b m from R.wf) hs d
  rw [e] at e₁
  obtain ⟨rfl, rfl⟩ : b' = b₁ ∧ m' = m₁ := by simpa using e₁
  refine ⟨?_, ?_, ?_⟩
  · have := R.write d
    simp only [BufOp.runD, e, ok_bind, BufOp.spec, ← R.sealed, hs, Go.pure_def, Bool.false_eq_true, if_false] at this
    exact ⟨_, this.2⟩
  · rw [w5, Held.write]
    rcases openBlock_cases b with ⟨bs, k, hb, hk, eo⟩ | ⟨hn, eo⟩
    · rw [eo, hb, updLast_concat]
      rw [hb] at hf
      rcases list_snoc_cases h with rfl | ⟨hs, x, rfl⟩
      · simp at hf
      · simp only [List.map_append, List.map_cons, List.map_nil] at hf ⊢
        have := List.append_inj' hf rfl
        rw [hk] at this
        cases x with
        | some x => simp at this
        | none => simp [this.1, hk]
    · rw [eo]; simp only [updLast_concat, List.map_append, List.map_cons, List.map_nil]
      rcases list_snoc_cases h with rfl | ⟨hs, x, rfl⟩
      · simp only [List.map_nil] at hf
        simp [← hf]
      · cases x with
        | none =>
          rcases list_snoc_cases b.blocks with hb | ⟨bs, k, hb⟩
          · simp [hb] at hf
          · rw [hb] at hf hn
            simp only [List.map_append, List.map_cons, List.map_nil] at hf
            have := List.append_inj' hf rfl
            have hk := hn k (by simp)
            simp [hk] at this
        | some x => simp [← hf]
  · intro s c hm
    have hm' : some (s, c) ∈ h := by
      unfold Held.write at hm
      split at hm
      · exact hm
      · simpa using hm
    obtain ⟨g1, g2, g3⟩ := hg s c hm'
    refine ⟨by omega, ?_, by rw [w8 s g1 g2, g3]⟩
    intro ea
    rcases w6 with ⟨w6, w6'⟩ | w6
    · rw [w6] at ea; have := g2 ea; omega
    · omega

theorem drop {b : DirectBuf} {m : Mem} {h h' : Held} (H : HeldOk b m h) {bs : List Block} {t : BufSpec}
    (R : DirectBuf.R (resetIfEmpty { b with blocks := bs }, m) t) (hf : h'.map Option.isSome = bs.map Block.completed)
    (hsub : ∀ e ∈ h', e ∈ h) : HeldOk (resetIfEmpty { b with blocks := bs }) m h' := by
  refine ⟨⟨t, R⟩, ?_, ?_⟩
  · unfold resetIfEmpty; split <;> exact hf
  · intro s d hm
    obtain ⟨g1, g2, g3⟩ := H.good s d (hsub _ hm)
    refine ⟨g1, ?_, g3⟩
    unfold resetIfEmpty
    split
    · rename_i he
      have : bs = [] := by simpa using he
      rw [this] at hf
      have : h' = [] := by simpa using hf
      rw [this] at hm; simp at hm
    · exact g2

/-- Every step of the client keeps the invariant. -/
theorem step {b : DirectBuf} {m : Mem} {h : Held} (H : HeldOk b m h) {o : BufOp} {b' : DirectBuf} {m' : Mem} {h' : Held}
    (e : o.clientD (b, m, h) = ok (b', m', h')) : HeldOk b' m' h' := by
  obtain ⟨⟨t, R⟩, hf, hg⟩ := id H
  cases o with
  | write d =>
    simp only [BufOp.clientD, bind_eq_ok] at e
    obtain ⟨⟨b₁, m₁⟩, e1, e2⟩ := e
    simp at e2
    obtain ⟨rfl, rfl, rfl⟩ := e2
    exact H.write e1
  | fetch =>
    have sim := R.fetch
    simp only [BufOp.clientD, bind_eq_ok] at e
    obtain ⟨⟨s, b₁⟩, e1, e2⟩ := e
    simp only [BufOp.runD, e1, ok_bind, Go.pure_def] at sim
    have R' : ∃ t, DirectBuf.R (b₁, m) t := by
      cases ht : BufOp.fetch.spec t with
      | ok a => rw [ht] at sim; exact ⟨_, sim.2⟩
      | err => rw [ht] at sim; exact sim.elim
      | panic => rw [ht] at sim; exact sim.elim
    simp only [DirectBuf.fetch] at e1
    cases hs : b.sealed with
    | true => simp [hs] at e1
    | false =>
      simp only [hs, Bool.not_false, assert_true, ok_bind] at e1
      rcases list_snoc_cases b.blocks with hb | ⟨bs, k, hb⟩
      · simp [hb] at e1
      · simp only [hb, List.getLast?_append, List.getLast?_singleton, Option.some_or] at e1
        cases hk : k.completed with
        | true =>
          simp only [hk, if_true, Go.pure_def, ok.injEq, Prod.mk.injEq] at e1
          obtain ⟨rfl, rfl⟩ := e1
          simp at e2
          obtain ⟨rfl, rfl, rfl⟩ := e2
          have : ({ data := b.data, nextOffset := b.nextOffset, sealed := false, blocks := bs ++ [k] } : DirectBuf) = b := by
            cases b; simp_all
          first | exact H | (rw [this]; exact H)
        | false =>
          have hp := R.le k (by simp [hb])
          have ho := R.wf.off
          simp only at hp ho
          simp only [hk, Bool.false_eq_true, if_false] at e1
          rw [SliceRef.sub_of_le (by omega) (by omega)] at e1
          simp only [ok_bind, Go.pure_def, updLast_concat, ok.injEq, Prod.mk.injEq] at e1
          obtain ⟨rfl, rfl⟩ := e1
          simp at e2
          obtain ⟨rfl, rfl, rfl⟩ := e2
          refine ⟨R', ?_, ?_⟩
          · rw [hb] at hf
            rcases list_snoc_cases h with rfl | ⟨hs', x, rfl⟩
            · simp at hf
            · simp only [List.map_append, List.map_cons, List.map_nil] at hf
              have := (List.append_inj' hf rfl).1
              simp [Held.fetched, this]
          · intro s d hm
            unfold Held.fetched at hm
            rcases List.mem_append.mp hm with hm | hm
            · exact hg s d (List.dropLast_subset _ hm)
            · simp at hm
              obtain ⟨rfl, rfl⟩ := hm
              exact ⟨R.wf.arr, fun _ => by simp only; omega, rfl⟩
  | pop =>
    have sim := R.sim .pop
    simp only [BufOp.clientD, bind_eq_ok] at e
    obtain ⟨b₁, e1, e2⟩ := e
    simp only [BufOp.runD, e1, ok_bind, Go.pure_def] at sim
    simp only [Go.pure_def, ok.injEq, Prod.mk.injEq] at e2
    obtain ⟨rfl, rfl, rfl⟩ := e2
    have R' : ∃ t, DirectBuf.R (b₁, m) t := by
      cases ht : BufOp.pop.spec t with
      | ok a => rw [ht] at sim; exact ⟨_, sim.2⟩
      | err => rw [ht] at sim; exact sim.elim
      | panic => rw [ht] at sim; exact sim.elim
    obtain ⟨t', R'⟩ := R'
    simp only [DirectBuf.pop, bind_eq_ok, Go.pure_def, ok.injEq] at e1
    obtain ⟨_, _, rfl⟩ := e1
    exact H.drop R' (by rw [List.map_drop, hf, List.map_drop]) (fun e he => List.mem_of_mem_drop he)
  | popBack =>
    have sim := R.sim .popBack
    simp only [BufOp.clientD, bind_eq_ok] at e
    obtain ⟨b₁, e1, e2⟩ := e
    simp only [BufOp.runD, e1, ok_bind, Go.pure_def] at sim
    simp at e2
    obtain ⟨rfl, rfl, rfl⟩ := e2
    have R' : ∃ t, DirectBuf.R (b₁, m) t := by
      cases ht : BufOp.popBack.spec t with
      | ok a => rw [ht] at sim; exact ⟨_, sim.2⟩
      | err => rw [ht] at sim; exact sim.elim
      | panic => rw [ht] at sim; exact sim.elim
    obtain ⟨t', R'⟩ := R'
    simp only [DirectBuf.popBack, bind_eq_ok, Go.pure_def, ok.injEq] at e1
    obtain ⟨_, _, _, _, rfl⟩ := e1
    exact H.drop R' (by rw [List.map_dropLast, hf, List.map_dropLast]) (fun e he => List.dropLast_subset _ he)
  | clear =>
    have sim := R.sim .clear
    simp only [BufOp.clientD, ok.injEq, Prod.mk.injEq] at e
    obtain ⟨rfl, rfl, rfl⟩ := e
    exact ⟨⟨_, sim.2⟩, by simp [DirectBuf.clear], by simp⟩
  | splitOff =>
    have sim := R.sim .splitOff
    simp only [BufOp.clientD, bind_eq_ok] at e
    obtain ⟨⟨n, b₁⟩, e1, e2⟩ := e
    simp only [BufOp.runD, e1, ok_bind, Go.pure_def] at sim
    simp at e2
    obtain ⟨rfl, rfl, rfl⟩ := e2
    simp only [DirectBuf.splitOff, bind_eq_ok, Go.pure_def, ok.injEq, Prod.mk.injEq] at e1
    obtain ⟨_, _, _, rfl⟩ := e1
    exact ⟨⟨_, sim.2⟩, hf, hg⟩
  | pending => simp only [BufOp.clientD, ok.injEq, Prod.mk.injEq] at e; obtain ⟨rfl, rfl, rfl⟩ := e; exact H
  | size => simp only [BufOp.clientD, ok.injEq, Prod.mk.injEq] at e; obtain ⟨rfl, rfl, rfl⟩ := e; exact H
  | data => simp only [BufOp.clientD, ok.injEq, Prod.mk.injEq] at e; obtain ⟨rfl, rfl, rfl⟩ := e; exact H

theorem run {ops : List BufOp} : ∀ {b : DirectBuf} {m : Mem} {h : Held}, HeldOk b m h → ∀ {b' m' h'},
    runClientD ops (b, m, h) = ok (b', m', h') → HeldOk b' m' h' := by
  induction ops with
  | nil => intro b m h H b' m' h' e; simp [runClientD] at e; obtain ⟨rfl, rfl, rfl⟩ := e; exact H
  | cons o os ih =>
    intro b m h H b' m' h' e
    simp only [runClientD, bind_eq_ok] at e
    obtain ⟨⟨b₁, m₁, h₁⟩, e1, e2⟩ := e
    exact ih (H.step e1) e2

end DirectBuf.HeldOk

/-- A slice in front of the buffer's memory, or in another array, is not changed by any history on the buffer. -/
theorem DirectBuf.untouched {s : SliceRef} (ops : List BufOp) : ∀ {n : DirectBuf} {m : Mem} {t : BufSpec},
    DirectBuf.R (n, m) t → s.arr < m.length → (s.arr = n.data.arr → s.off + s.len ≤ n.data.off) →
    ∀ {xs n' m'}, runTrace BufOp.runD ops (n, m) = ok (xs, (n', m')) → m'.read s = m.read s := by
  induction ops with
  | nil => intro n m t _ _ _ xs n' m' e; simp [runTrace] at e; rw [e.2.2]
  | cons o os ih =>
    intro n m t R h1 h2 xs n' m' e
    simp only [runTrace, bind_eq_ok] at e
    obtain ⟨⟨x, n₁, m₁⟩, e1, ⟨ys, n₂, m₂⟩, e2, e3⟩ := e
    simp at e3
    obtain ⟨_, rfl, rfl⟩ := e3
    have sim := R.sim o
    rw [e1] at sim
    have R' : ∃ t, DirectBuf.R (n₁, m₁) t := by
      cases ht : o.spec t with
      | ok a => rw [ht] at sim; exact ⟨_, sim.2⟩
      | err => rw [ht] at sim; exact sim.elim
      | panic => rw [ht] at sim; exact sim.elim
    obtain ⟨t', R'⟩ := R'
    have key : m₁.read s = m.read s ∧ s.arr < m₁.length ∧ (s.arr = n₁.data.arr → s.off + s.len ≤ n₁.data.off) := by
      have reset : ∀ b : DirectBuf, b.resetIfEmpty.data = b.data := by
        intro b; unfold DirectBuf.resetIfEmpty; split <;> rfl
      have same : (∀ d, o ≠ .write d) → m₁ = m ∧ n₁.data = n.data := by
        intro ho
        cases o with
        | write d => exact absurd rfl (ho d)
        | fetch =>
          simp only [BufOp.runD, bind_eq_ok, Go.pure_def, ok.injEq, Prod.mk.injEq] at e1
          obtain ⟨⟨q, b₂⟩, e4, _, rfl, rfl⟩ := e1
          simp only [DirectBuf.fetch, bind_eq_ok] at e4
          obtain ⟨_, _, e4⟩ := e4
          split at e4
          · simp at e4
          · split at e4
            · simp at e4; exact ⟨rfl, by rw [← e4.2]⟩
            · simp only [bind_eq_ok, Go.pure_def, ok.injEq, Prod.mk.injEq] at e4
              obtain ⟨_, _, _, rfl⟩ := e4
              exact ⟨rfl, rfl⟩
        | pop =>
          simp only [BufOp.runD, bind_eq_ok, Go.pure_def, ok.injEq, Prod.mk.injEq, DirectBuf.pop] at e1
          obtain ⟨_, ⟨_, _, rfl⟩, _, rfl, rfl⟩ := e1
          exact ⟨rfl, reset _⟩
        | popBack =>
          simp only [BufOp.runD, bind_eq_ok, Go.pure_def, ok.injEq, Prod.mk.injEq, DirectBuf.popBack] at e1
          obtain ⟨_, ⟨_, _, _, _, rfl⟩, _, rfl, rfl⟩ := e1
          exact ⟨rfl, reset _⟩
        | clear => simp [BufOp.runD] at e1; obtain ⟨_, rfl, rfl⟩ := e1; exact ⟨rfl, rfl⟩
        | pending => simp [BufOp.runD] at e1; obtain ⟨_, rfl, rfl⟩ := e1; exact ⟨rfl, rfl⟩
        | size => simp [BufOp.runD] at e1; obtain ⟨_, rfl, rfl⟩ := e1; exact ⟨rfl, rfl⟩
        | data =>
          simp only [BufOp.runD, bind_eq_ok, Go.pure_def, ok.injEq, Prod.mk.injEq] at e1
          obtain ⟨_, _, _, rfl, rfl⟩ := e1; exact ⟨rfl, rfl⟩
        | splitOff =>
          simp only [BufOp.runD, bind_eq_ok, Go.pure_def, ok.injEq, Prod.mk.injEq, DirectBuf.splitOff] at e1
          obtain ⟨_, ⟨_, _, rfl⟩, _, rfl, rfl⟩ := e1; exact ⟨rfl, rfl⟩
      by_cases ho : ∃ d, o = .write d
      · obtain ⟨d, rfl⟩ := ho
        simp only [BufOp.runD, bind_eq_ok, Go.pure_def, ok.injEq, Prod.mk.injEq] at e1
        obtain ⟨⟨b₂, m₂⟩, e4, _, rfl, rfl⟩ := e1
        have hs : n.sealed = false := by
          cases hs : n.sealed with
          | false => rfl
          | true => simp [DirectBuf.write, DirectBuf.alloc, hs] at e4
        obtain ⟨b₃, m₃, e5, w1, w2, w3, w4, w5, w6, w7, w8⟩ := DirectBuf.write_ok (show n.WF m from R.wf) hs d
        rw [e4] at e5
        simp at e5
        obtain ⟨rfl, rfl⟩ := e5
        refine ⟨w8 s h1 (fun ea => by have := h2 ea; omega), by simp only; omega, fun ea => ?_⟩
        rcases w6 with ⟨w6, w6'⟩ | w6
        · rw [w6']; exact h2 (by rw [ea, w6])
        · simp only at ea; omega
      · obtain ⟨rfl, hd⟩ := same (fun d hd => ho ⟨d, hd⟩)
        rw [hd]; exact ⟨rfl, h1, h2⟩
    obtain ⟨k1, k2, k3⟩ := key
    rw [ih R' k2 k3 e2, k1]

end Avf
