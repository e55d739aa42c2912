import Verif.Lemmas.Mem
import Verif.Spec.BlockBuffer
import Verif.Spec.Trace
/-! # DirectBlockBuffer: the representation invariant and the effect of every operation -/
namespace Avf
open Go

/-- Running an operation on the model. -/
def BufOp.runD : BufOp → DirectBuf × Mem → Go (BufObs × (DirectBuf × Mem))
  | write d, (b, m) => do let (b, m) ← b.write m d; return (.unit, (b, m))
  | fetch, (b, m) => do let (s, b) ← b.fetch; return (.bytes (s.map m.read), (b, m))
  | pop, (b, m) => do let b ← b.pop; return (.unit, (b, m))
  | popBack, (b, m) => do let b ← b.popBack; return (.unit, (b, m))
  | clear, (b, m) => ok (.unit, (b.clear, m))
  | pending, (b, m) => ok (.num b.pendingBlockSize, (b, m))
  | size, (b, m) => ok (.num b.size, (b, m))
  | data, (b, m) => do let s ← b.dataSlice; return (.bytes (some (m.read s)), (b, m))
  | splitOff, (b, m) => do let (_, b) ← b.splitOff; return (.unit, (b, m))

namespace DirectBuf

/-- The memory of the buffer exists and is used up to `nextOffset`. -/
structure WF (b : DirectBuf) (m : Mem) : Prop where
  arr : b.data.arr < m.length
  len : b.data.off + b.data.len ≤ (m.arr b.data.arr).length
  off : b.nextOffset ≤ b.data.len

/-- Everything in `data[:nextOffset]`. -/
def all (b : DirectBuf) (m : Mem) : Bytes := m.read ⟨b.data.arr, b.data.off, b.nextOffset⟩

/-- The block as the specification sees it, inside the bytes `w`. -/
def blockOf (w : Bytes) (k : Block) : Bytes × Bool := ((w.drop k.index).take k.size, k.completed)

/-- The buffer represents the specification state. -/
structure R (s : DirectBuf × Mem) (t : BufSpec) : Prop where
  wf : WF s.1 s.2
  all : s.1.all s.2 = t.all
  blocks : s.1.blocks.map (blockOf t.all) = t.blocks
  le : ∀ k ∈ s.1.blocks, k.index + k.size ≤ s.1.nextOffset
  pend : ∀ k, s.1.blocks.getLast? = some k → k.completed = false → k.index + k.size = s.1.nextOffset
  sealed : s.1.sealed = t.sealed
  done : ∀ k ∈ s.1.blocks.dropLast, k.completed = true

theorem length_all {b : DirectBuf} {m : Mem} (h : WF b m) : (b.all m).length = b.nextOffset :=
  Mem.length_read _ _ (by have := h.len; have := h.off; simp only; omega)

/-- `openBlock` keeps a pending block or adds an empty one. -/
theorem openBlock_cases (b : DirectBuf) :
    (∃ bs k, b.blocks = bs ++ [k] ∧ k.completed = false ∧ b.openBlock = b) ∨
    ((∀ k, b.blocks.getLast? = some k → k.completed = true) ∧
      b.openBlock = { b with blocks := b.blocks ++ [⟨b.nextOffset, 0, false⟩] }) := by
  rcases list_snoc_cases b.blocks with h | ⟨bs, k, h⟩
  · right; simp [openBlock, h]
  · cases hk : k.completed
    · left; exact ⟨bs, k, h, hk, by simp [openBlock, h, hk]⟩
    · right; simp [openBlock, h, hk]

/-- `Write` on a well-formed buffer: the memory `nextOffset ..` now holds the bytes, and no other slice that was in use
has changed. -/
theorem write_ok {b : DirectBuf} {m : Mem} (h : WF b m) (hs : b.sealed = false) (d : Bytes) :
    ∃ b' m', b.write m d = ok (b', m') ∧ WF b' m' ∧ b'.all m' = b.all m ++ d ∧
      b'.nextOffset = b.nextOffset + d.length ∧ b'.sealed = false ∧
      b'.blocks = updLast b.openBlock.blocks (fun k => { k with size := k.size + d.length }) ∧
      (b'.data.arr = b.data.arr ∧ b'.data.off = b.data.off ∨ m.length ≤ b'.data.arr) ∧
      m.length ≤ m'.length ∧
      ∀ s : SliceRef, s.arr < m.length → (s.arr = b.data.arr → s.off + s.len ≤ b.data.off + b.nextOffset) →
        m'.read s = m.read s := by
  have ho : b.openBlock.data = b.data ∧ b.openBlock.nextOffset = b.nextOffset ∧ b.openBlock.sealed = b.sealed := by
    rcases openBlock_cases b with ⟨_, _, _, _, e⟩ | ⟨_, e⟩ <;> simp [e]
  obtain ⟨h1, h2, h3⟩ := h
  simp only [write, alloc, hs, Bool.not_false, assert_true, ok_bind, ho.2.1]
  by_cases hg : b.nextOffset + d.length > b.openBlock.data.len
  · rw [if_pos hg]
    rw [ho.1] at hg
    generalize hc : (b.nextOffset + d.length) * 3 / 2 = c
    have hcl : b.nextOffset + d.length ≤ c := by omega
    simp only [grow, ho.1, ho.2.1]
    rw [SliceRef.sub_of_le (Nat.zero_le _) h3]
    simp only [ok_bind, Go.pure_def, Nat.add_zero, Nat.sub_zero]
    have e1 : (m.make c).1 = ⟨m.length, 0, c⟩ := rfl
    rw [e1, SliceRef.sub_of_le (by omega) (by simpa using hcl)]
    have hr : (m.make c).2.read ⟨b.data.arr, b.data.off, b.nextOffset⟩ = b.all m := Mem.read_make _ _ _ h1
    have hl : (b.all m).length = b.nextOffset := length_all ⟨h1, h2, h3⟩
    rw [hr]
    have a1 : ((m.make c).2.arr m.length).length = c := by rw [Mem.arr_make_new]; simp
    have a2 : (((m.make c).2.copy ⟨m.length, 0, c⟩ (b.all m)).arr m.length).length = c := by
      rw [Mem.length_arr_copy _ _ _ _ (by simp)]; exact a1
    refine ⟨_, _, rfl, ⟨?_, ?_, ?_⟩, ?_, rfl, ?_, rfl, .inr (Nat.le_refl _), ?_, ?_⟩
    · simp [Mem.length_copy, Mem.length_make]
    · simp only [Nat.zero_add]
      rw [Mem.length_arr_copy _ _ _ _ (by simp only; rw [a2]; omega), a2]
      exact Nat.le_refl _
    · simpa using hcl
    · show Mem.read _ _ = b.all m ++ d
      simp only [Nat.zero_add]
      rw [Mem.read_split, Nat.zero_add]
      congr 1
      · rw [Mem.read_copy_disjoint _ _ _ _ (by simp only; rw [a2]; omega) (.inr (.inl (by simp)))]
        have := Mem.read_copy_self (m.make c).2 ⟨m.length, 0, c⟩ (b.all m) (by simp only; rw [a1]; omega) (by simp only; omega)
        rw [hl] at this
        exact this
      · have := Mem.read_copy_self ((m.make c).2.copy ⟨m.length, 0, c⟩ (b.all m))
          ⟨m.length, b.nextOffset, b.nextOffset + d.length - b.nextOffset⟩ d (by simp only; rw [a2]; omega) (by simp)
        exact this
    · simp only; rw [ho.2.2, hs]
    · simp [Mem.length_copy, Mem.length_make]
    · intro s hs1 _
      rw [Mem.read_copy_disjoint _ _ _ _ (by simp only [Nat.zero_add]; rw [a2]; omega) (.inl (by simp only; omega)),
        Mem.read_copy_disjoint _ _ _ _ (by simp) (.inl (by simp only; omega)), Mem.read_make _ _ _ hs1]
  · rw [if_neg hg]
    rw [ho.1] at hg
    simp only [ok_bind, Go.pure_def, ho.1, ho.2.1]
    rw [SliceRef.sub_of_le (by omega) (by omega)]
    simp only [ok_bind]
    refine ⟨_, _, rfl, ⟨?_, ?_, ?_⟩, ?_, rfl, ?_, rfl, .inl (by simp), ?_, ?_⟩
    · simpa [Mem.length_copy] using h1
    · simp only; rw [Mem.length_arr_copy _ _ _ _ (by simp only; omega)]; exact h2
    · simp only; omega
    · simp only [all]
      rw [Mem.read_split]
      congr 1
      · rw [Mem.read_copy_disjoint _ _ _ _ (by simp only; omega) (.inr (.inl (by simp)))]
      · exact Mem.read_copy_self m ⟨b.data.arr, b.data.off + b.nextOffset, b.nextOffset + d.length - b.nextOffset⟩ d
          (by simp only; omega) (by simp)
    · simp only; rw [ho.2.2, hs]
    · simp [Mem.length_copy]
    · intro s _ hs2
      refine Mem.read_copy_disjoint _ _ _ _ (by simp only; omega) ?_
      by_cases e : s.arr = b.data.arr
      · exact .inr (.inl (hs2 e))
      · exact .inl e

theorem blockOf_append {w d : Bytes} {k : Block} (h : k.index + k.size ≤ w.length) : blockOf (w ++ d) k = blockOf w k := by
  unfold blockOf
  rw [List.drop_append_of_le_length (by omega), List.take_append_of_le_length (by simp; omega)]

theorem map_blockOf_append {w d : Bytes} {bs : List Block} (h : ∀ k ∈ bs, k.index + k.size ≤ w.length) :
    bs.map (blockOf (w ++ d)) = bs.map (blockOf w) :=
  List.map_congr_left (fun k hk => blockOf_append (h k hk))

theorem blockOf_extend {w d : Bytes} {k : Block} (h : k.index + k.size = w.length) :
    blockOf (w ++ d) { k with size := k.size + d.length } = ((blockOf w k).1 ++ d, k.completed) := by
  unfold blockOf
  rw [List.drop_append_of_le_length (by simp only; omega), List.take_of_length_le (by simp; omega),
    List.take_of_length_le (by simp; omega)]

theorem R.write {s : DirectBuf × Mem} {t : BufSpec} (h : R s t) (d : Bytes) :
    Agree R ((BufOp.write d).runD s) ((BufOp.write d).spec t) := by
  obtain ⟨b, m⟩ := s
  obtain ⟨h1, h2, h3, h4, h5, h6, h7⟩ := h
  simp only at h1 h2 h3 h4 h5 h6 h7
  have hl : t.all.length = b.nextOffset := by rw [← h2]; exact length_all h1
  simp only [BufOp.runD, BufOp.spec]
  cases hs : b.sealed with
  | true =>
    rw [← h6, hs]
    simp [DirectBuf.write, alloc, hs, Agree]
  | false =>
    rw [← h6, hs]
    obtain ⟨b', m', e, w1, w2, w3, w4, w5, _⟩ := write_ok h1 hs d
    rw [e]
    simp only [ok_bind, Go.pure_def, Bool.false_eq_true, if_false]
    refine ⟨rfl, w1, ?_, ?_, ?_, ?_, ?_, ?_⟩
    · simp only [w2, h2]
    · simp only [w5]
      rcases openBlock_cases b with ⟨bs, k, hb, hk, e⟩ | ⟨hn, e⟩
      · rw [e, hb, updLast_concat]
        rw [hb] at h3 h4
        have hp := h5 k (by rw [hb]; simp) hk
        simp only [List.map_append, List.map_cons, List.map_nil] at h3 ⊢
        rw [blockOf_extend (by omega), map_blockOf_append (fun k hk => by have := h4 k (by simp [hk]); omega), ← h3]
        simp [BufSpec.addBytes, blockOf, hk]
      · rw [e]; simp only [updLast_concat, List.map_append, List.map_cons, List.map_nil]
        rw [map_blockOf_append (fun k hk => by have := h4 k hk; omega), h3]
        have : blockOf (t.all ++ d) { index := b.nextOffset, size := 0 + d.length, completed := false } = (d, false) := by
          simp [blockOf, ← hl]
        rw [this, BufSpec.addBytes]
        split
        · rename_i c hc
          rw [← h3, List.getLast?_map] at hc
          rcases list_snoc_cases b.blocks with hb | ⟨bs, k, hb⟩
          · simp [hb] at hc
          · rw [hb] at hc
            simp [blockOf] at hc
            have := hn k (by simp [hb])
            rw [this] at hc; simp at hc
        · rfl
    · simp only [w5, w3]
      rcases openBlock_cases b with ⟨bs, k, hb, hk, e⟩ | ⟨hn, e⟩
      · rw [e, hb, updLast_concat]
        rw [hb] at h4
        intro k' hk'
        rcases List.mem_append.mp hk' with hk' | hk'
        · have := h4 k' (by simp [hk']); omega
        · simp at hk'; subst hk'; have := h4 k (by simp); simp only; omega
      · rw [e]; simp only [updLast_concat]
        intro k' hk'
        rcases List.mem_append.mp hk' with hk' | hk'
        · have := h4 k' hk'; omega
        · simp at hk'; subst hk'; simp
    · simp only [w5, w3]
      rcases openBlock_cases b with ⟨bs, k, hb, hk, e⟩ | ⟨hn, e⟩
      · rw [e, hb, updLast_concat]
        intro k' hk' _
        simp at hk'; subst hk'
        have := h5 k (by rw [hb]; simp) hk
        simp only; omega
      · rw [e]; simp only [updLast_concat]
        intro k' hk' _
        simp at hk'; subst hk'; simp
    · simp only [w4]
    · simp only [w5]
      rcases openBlock_cases b with ⟨bs, k, hb, hk, e⟩ | ⟨hn, e⟩
      · rw [e, hb, updLast_concat]
        rw [hb] at h7
        simpa using h7
      · rw [e]; simp only [updLast_concat, List.dropLast_concat]
        intro k hk
        rcases list_snoc_cases b.blocks with hb | ⟨bs, k', hb⟩
        · simp [hb] at hk
        · rw [hb] at hk h7 hn
          rcases List.mem_append.mp hk with hk | hk
          · exact h7 k (by simpa using hk)
          · simp at hk; subst hk; exact hn k (by simp)

theorem R.fetch {s : DirectBuf × Mem} {t : BufSpec} (h : R s t) :
    Agree R (BufOp.fetch.runD s) (BufOp.fetch.spec t) := by
  obtain ⟨b, m⟩ := s
  obtain ⟨h1, h2, h3, h4, h5, h6, h7⟩ := h
  simp only at h1 h2 h3 h4 h5 h6 h7
  have hl : t.all.length = b.nextOffset := by rw [← h2]; exact length_all h1
  simp only [BufOp.runD, BufOp.spec, DirectBuf.fetch]
  cases hs : b.sealed with
  | true => rw [← h6, hs]; simp [Agree]
  | false =>
    rw [← h6, hs]
    simp only [Bool.not_false, assert_true, ok_bind, Bool.false_eq_true, if_false]
    rcases list_snoc_cases b.blocks with hb | ⟨bs, k, hb⟩
    · rw [← h3, hb]; simp [Agree]
    · rw [← h3, hb]
      simp only [List.map_append, List.map_cons, List.map_nil, List.getLast?_append, List.getLast?_singleton,
        Option.some_or]
      cases hk : k.completed with
      | true => simp only [if_true, ok_bind, Go.pure_def, blockOf, hk]; exact ⟨rfl, h1, h2, h3, h4, h5, h6, h7⟩
      | false =>
        have hp := h5 k (by rw [hb]; simp) hk
        have ho := h1.off
        simp only [Bool.false_eq_true, if_false]
        rw [SliceRef.sub_of_le (by omega) (by omega)]
        simp only [ok_bind, Go.pure_def, blockOf, hk, updLast_concat, Option.map_some]
        refine ⟨?_, ⟨h1.arr, h1.len, h1.off⟩, h2, ?_, ?_, ?_, ?_, ?_⟩
        · congr 2
          rw [Nat.add_sub_cancel_left, Mem.read_sub m _ _ b.nextOffset _ _ (by omega)]
          change ((b.all m).drop _).take _ = _
          rw [h2]
        · simp only [List.map_append, List.map_cons, List.map_nil]
          simp [blockOf]
        · intro k' hk'
          simp only at hk'
          rcases List.mem_append.mp hk' with hk' | hk'
          · exact h4 k' (by rw [hb]; simp [hk'])
          · simp at hk'; subst hk'; simp only; omega
        · intro k' hk'
          simp only at hk'
          simp at hk'; subst hk'; simp
        · simp
        · rw [hb] at h7; simpa using h7

/-- Dropping blocks keeps the representation. -/
theorem R.drop {b : DirectBuf} {m : Mem} {t : BufSpec} (h : R (b, m) t) (bs : List Block) (ts : List (Bytes × Bool))
    (c : Bool) (hm : bs.map (blockOf t.all) = ts) (hsub : ∀ k ∈ bs, k ∈ b.blocks)
    (hlast : ∀ k, bs.getLast? = some k → k.completed = false → b.blocks.getLast? = some k)
    (hdone : ∀ k ∈ bs.dropLast, k.completed = true) :
    R (resetIfEmpty { b with blocks := bs, sealed := c }, m) (BufSpec.norm { t with blocks := ts, sealed := c }) := by
  obtain ⟨h1, h2, h3, h4, h5, h6, h7⟩ := h
  simp only at h1 h2 h3 h4 h5 h6 h7
  subst hm
  cases bs with
  | nil =>
    refine ⟨⟨h1.arr, h1.len, Nat.zero_le _⟩, ?_, ?_, ?_, ?_, ?_, ?_⟩ <;>
      simp [resetIfEmpty, BufSpec.norm, DirectBuf.all]
  | cons k ks =>
    refine ⟨⟨h1.arr, h1.len, h1.off⟩, ?_, ?_, ?_, ?_, ?_, ?_⟩ <;>
      simp only [resetIfEmpty, BufSpec.norm, List.isEmpty_cons, List.map_cons, Bool.false_eq_true, if_false]
    · exact h2
    · exact fun k' hk' => h4 k' (hsub k' hk')
    · exact fun k' hk' hc => h5 k' (hlast k' hk' hc) hc
    · exact hdone

theorem R.sim {s : DirectBuf × Mem} {t : BufSpec} (h : R s t) (o : BufOp) : Agree R (o.runD s) (o.spec t) := by
  cases o with
  | write d => exact h.write d
  | fetch => exact h.fetch
  | pop =>
    obtain ⟨b, m⟩ := s
    have h6 := h.sealed
    simp only [BufOp.runD, BufOp.spec, DirectBuf.pop] at h6 ⊢
    rw [← h6]
    cases hs : b.sealed with
    | true => simp [Agree]
    | false =>
      simp only [Bool.not_false, assert_true, ok_bind, Bool.false_eq_true, if_false, Go.pure_def]
      refine ⟨rfl, ?_⟩
      refine h.drop _ _ _ ?_ (fun k hk => List.mem_of_mem_drop hk) ?_ ?_
      · rw [← h.blocks, List.map_drop]
      · intro k hk _
        rcases hb : b.blocks with _ | ⟨x, xs⟩
        · simp [hb] at hk
        · rw [hb] at hk
          simp only [List.drop_succ_cons, List.drop_zero] at hk
          rw [List.getLast?_cons, hk]; rfl
      · intro k hk
        have hd := h.done k
        simp only at hd
        rcases hb : b.blocks with _ | ⟨x, xs⟩
        · simp [hb] at hk
        · rw [hb] at hk hd
          simp only [List.drop_succ_cons, List.drop_zero] at hk
          cases xs with
          | nil => simp at hk
          | cons y ys => exact hd (by rw [List.dropLast_cons_cons]; exact List.mem_cons_of_mem _ hk)
  | popBack =>
    obtain ⟨b, m⟩ := s
    have h6 := h.sealed
    simp only [BufOp.runD, BufOp.spec, DirectBuf.popBack] at h6 ⊢
    rw [← h6]
    cases hs : b.sealed with
    | true => simp [Agree]
    | false =>
      simp only [Bool.not_false, assert_true, ok_bind, Bool.false_eq_true, if_false, Go.pure_def]
      have hb3 := h.blocks
      simp only at hb3
      by_cases he : b.blocks = []
      · rw [← hb3, he]; simp [Agree]
      · have : t.blocks ≠ [] := by rw [← hb3]; simpa using he
        rw [List.isEmpty_eq_false_iff.mpr he, List.isEmpty_eq_false_iff.mpr this]
        simp only [Bool.not_false, assert_true, ok_bind, Bool.false_eq_true, if_false]
        refine ⟨rfl, ?_⟩
        refine h.drop _ _ _ ?_ (fun k hk => List.dropLast_subset _ hk) ?_ ?_
        · rw [← hb3, List.map_dropLast]
        · intro k hk hc
          have := h.done k (List.mem_of_getLast? hk)
          rw [hc] at this; simp at this
        · intro k hk
          exact h.done k (List.dropLast_subset _ hk)
  | clear =>
    obtain ⟨b, m⟩ := s
    have h1 := h.wf
    refine ⟨rfl, ⟨h1.arr, h1.len, Nat.zero_le _⟩, ?_, ?_, ?_, ?_, ?_, ?_⟩ <;> simp [DirectBuf.clear, BufSpec.empty, DirectBuf.all]
  | pending =>
    obtain ⟨b, m⟩ := s
    have h3 := h.blocks
    simp only at h3
    simp only [BufOp.runD, BufOp.spec, pendingBlockSize]
    rw [← h3]
    rcases list_snoc_cases b.blocks with hb | ⟨bs, k, hb⟩
    · simp only [hb, List.map_nil, List.getLast?_nil]; exact ⟨rfl, h⟩
    · simp only [hb, List.map_append, List.map_cons, List.map_nil, List.getLast?_append, List.getLast?_singleton,
        Option.some_or, blockOf]
      cases hk : k.completed with
      | true => exact ⟨rfl, h⟩
      | false =>
        refine ⟨?_, h⟩
        have := h.le k (by simp [hb])
        have hl : t.all.length = b.nextOffset := by rw [← h.all]; exact length_all h.wf
        simp only at this
        simp; omega
  | size =>
    obtain ⟨b, m⟩ := s
    refine ⟨?_, h⟩
    rw [← h.blocks]; simp [DirectBuf.size]
  | data =>
    obtain ⟨b, m⟩ := s
    simp only [BufOp.runD, BufOp.spec, dataSlice]
    rw [SliceRef.sub_of_le (Nat.zero_le _) h.wf.off]
    simp only [ok_bind, Go.pure_def, Nat.add_zero, Nat.sub_zero]
    refine ⟨?_, h⟩
    rw [← h.all]; rfl
  | splitOff =>
    obtain ⟨b, m⟩ := s
    have := h.wf.off
    simp only [BufOp.runD, BufOp.spec, DirectBuf.splitOff]
    rw [SliceRef.sub_of_le this (Nat.le_refl _)]
    obtain ⟨h1, h2, h3, h4, h5, h6, h7⟩ := h
    exact ⟨rfl, ⟨h1.arr, h1.len, h1.off⟩, h2, h3, h4, h5, rfl, h7⟩

end DirectBuf
end Avf
