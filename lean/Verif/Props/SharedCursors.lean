import Verif.Spec.SharedCursors
import Verif.Props.BytesBuf
/-!
# C127: cursors that share memory
-/
namespace Avf
open Go

theorem MemReader.Sits.view {r : MemReader} {m : Mem} (h : r.Sits m) : (r.view m).Valid ∧ (m.read r.data).length = r.data.len := by
  obtain ⟨⟨a, ha, hl⟩, h1, h2, h3, h4⟩ := h
  have : (m.read r.data).length = r.data.len := by
    unfold Mem.read; rw [ha]; simp; omega
  exact ⟨⟨by simp only [MemReader.view]; omega, h2, by simp only [MemReader.view]; omega, by simp only [MemReader.view]; omega⟩, this⟩

theorem copy_painted {m : Mem} {s : SliceRef} {v : Bytes} (hv : s.ValidIn m) (hl : v.length ≤ s.len) :
    m.Painted (m.copy s v) ⟨s.arr, s.off, v.length⟩ v := by
  obtain ⟨x, hx, hle⟩ := hv
  have hlt : s.arr < m.length := (List.getElem?_eq_some_iff.1 hx).1
  unfold Mem.copy
  rw [hx]
  dsimp only
  rw [List.take_of_length_le hl]
  constructor
  · intro a
    rw [List.getElem?_set]
    split
    · rename_i h; subst h
      rw [hx]
      simp only [Option.map_some]
      rw [length_overwrite (by omega)]
    · rfl
  · intro a k
    unfold Mem.byte
    rw [List.getElem?_set]
    by_cases h : s.arr = a
    · subst h
      rw [if_pos rfl, if_pos hlt, hx]
      simp only [Option.bind_some]
      rw [getElem?_overwrite (by omega)]
      by_cases h2 : s.off ≤ k ∧ k < s.off + v.length
      · rw [if_pos ⟨h2.1, h2.2, by omega⟩, if_pos (show SliceRef.Has ⟨s.arr, s.off, v.length⟩ s.arr k from ⟨rfl, h2.1, h2.2⟩)]
      · rw [if_neg (fun h => h2 ⟨h.1, h.2.1⟩), if_neg (fun h : SliceRef.Has ⟨s.arr, s.off, v.length⟩ s.arr k => h2 h.2)]
    · rw [if_neg h, if_neg (fun h' : SliceRef.Has ⟨s.arr, s.off, v.length⟩ a k => h h'.1.symm)]

theorem store_exact {r : MemReader} {m : Mem} (h : r.Sits m) (exact : Bool) (v : Bytes) (hv : (v.length : Int) < 2 ^ 63) :
    if r.offset + v.length ≤ r.data.len then
      ∃ m', r.store m exact v = ok (.ok .nothing, { r with offset := r.offset + v.length }, m') ∧ m.Painted m' (r.next v.length) v
    else ∃ e, r.store m exact v = ok (.error e, r, m) := by
  have hval := h.view.1
  obtain ⟨⟨a, ha, hl⟩, h1, h2, h3, h4⟩ := h
  split
  · rename_i hf
    unfold MemReader.store
    rw [BytesBuf.peekN_ok hval ⟨by simp only [MemReader.view]; omega, by simp only [MemReader.view]; omega⟩]
    simp only [MemReader.view]
    refine ⟨_, if_neg (by omega), ?_⟩
    rw [show (r.offset + (v.length : Int) - v.length).toNat = r.offset.toNat by omega]
    exact copy_painted (s := ⟨r.data.arr, r.data.off + r.offset.toNat, r.data.len - r.offset.toNat⟩) ⟨a, ha, by dsimp only; omega⟩ (by dsimp only; omega)
  · rename_i hf
    obtain ⟨e, he⟩ := BytesBuf.peekN_err (size := v.length) hval ⟨by omega, by omega⟩
      (by unfold BytesBuf.moveSpec; simp only [MemReader.view]; omega)
    exact ⟨e, by unfold MemReader.store; rw [he]⟩

/-- **C127** writing: the bytes go to the next bytes of the slice of the cursor and nowhere else, or, if there is no room for them, nothing
happens. -/
theorem C127_write {r : MemReader} {m : Mem} {o : SharedOp} {v : Bytes} (h : r.Sits m) (ho : o.InRange m) (hv : o.bytes m = some v) :
    if r.offset + v.length ≤ r.data.len then
      ∃ m', o.run r m = ok (.ok .nothing, { r with offset := r.offset + v.length }, m') ∧ m.Painted m' (r.next v.length) v
    else ∃ e, o.run r m = ok (.error e, r, m) := by
  cases o <;> simp only [SharedOp.bytes, Option.some.injEq, reduceCtorEq] at hv
  case writeUint8 x =>
    have e : [x] = v := by rw [← hv]; simp [beBytes]
    subst e
    exact store_exact h true _ (by simp)
  case writeUint16 x =>
    rw [← be16_eq] at hv
    subst hv
    exact store_exact h true _ (by simp [be16])
  case writeUint32 x =>
    rw [← be32_eq] at hv
    subst hv
    exact store_exact h true _ (by simp [be32])
  case writeUint64 x =>
    rw [← be64_eq] at hv
    subst hv
    exact store_exact h true _ (by simp [be64])
  case write src =>
    subst hv
    refine store_exact h false _ ?_
    have : (m.read src).length ≤ src.len := by unfold Mem.read; simp
    have := ho.2
    omega

theorem read_next {r : MemReader} {m : Mem} (h : r.Sits m) {k : Nat} (hk : r.offset + k ≤ r.data.len) :
    ((r.view m).data.drop r.offset.toNat).take k = m.read (r.next k) := by
  have := h.lo
  unfold MemReader.view MemReader.next Mem.read
  dsimp only
  rw [List.drop_take, List.take_take, List.drop_drop, Nat.min_eq_left (by omega)]

theorem number_exact {n : Nat} {r : MemReader} {m : Mem} (h : r.Sits m) {f : BytesBuf → Go (BytesBuf.Res (BitVec n))} {k : Nat}
    (hf : BytesBuf.ReadsBE f k) :
    if r.offset + k ≤ r.data.len then
      r.number m f = ok (.ok (.number (beNat (m.read (r.next k)))), { r with offset := r.offset + k }, m)
    else ∃ e, r.number m f = ok (.error e, r, m) := by
  obtain ⟨h1, h2⟩ := hf _ h.view.1
  have hl := h.length
  split
  · rename_i hk
    obtain ⟨v, e1, e2⟩ := h1 (by simp only [MemReader.view]; omega)
    unfold MemReader.number
    rw [e1, ok_bind]
    have : (r.view m).offset = r.offset := rfl
    rw [this, read_next h hk] at e2
    simp only [e2, MemReader.view, pure_def]
  · rename_i hk
    obtain ⟨e, e1⟩ := h2 (by simp only [MemReader.view]; omega)
    unfold MemReader.number
    rw [e1, ok_bind]
    exact ⟨e, rfl⟩

/-- **C127** typed reads: the number whose digits are in memory now, wherever they come from; memory stays as it is. -/
theorem C127_read {r : MemReader} {m : Mem} {o : SharedOp} {k : Nat} (h : r.Sits m) (hk : o.width = some k) :
    if r.offset + k ≤ r.data.len then
      o.run r m = ok (.ok (.number (beNat (m.read (r.next k)))), { r with offset := r.offset + k }, m)
    else ∃ e, o.run r m = ok (.error e, r, m) := by
  obtain ⟨c1, c2, c3, c4, c5⟩ := BytesBuf.C07_typed_reads
  cases o <;> simp only [SharedOp.width, Option.some.injEq, reduceCtorEq] at hk <;> subst hk
  · exact number_exact h c1
  · exact number_exact h c2
  · exact number_exact h c3
  · exact number_exact h c4
  · exact number_exact h c5

/-- **C127** slices: `ReadBytes`, `RemainingBytes` and `WrittenBytes` return slices of the memory of the cursor, that go on to the end of it. -/
theorem C127_slices {r : MemReader} {m : Mem} (h : r.Sits m) (n : Int) (hn : I64 n) :
    (if r.offset + n < 0 ∨ r.data.len < r.offset + n then ∃ e, (SharedOp.readBytes n).run r m = ok (.error e, r, m)
     else if n < 0 then (SharedOp.readBytes n).run r m = Go.panic
     else (SharedOp.readBytes n).run r m =
       ok (.ok (.slice (r.next n.toNat) (r.data.len - r.offset.toNat)), { r with offset := r.offset + n }, m)) ∧
    SharedOp.remaining.run r m = ok (.ok (.slice (r.next (r.data.len - r.offset.toNat)) (r.data.len - r.offset.toNat)), r, m) ∧
    SharedOp.written.run r m = ok (.ok (.slice ⟨r.data.arr, r.data.off, r.offset.toNat⟩ r.data.len), r, m) := by
  have hval := h.view.1
  obtain ⟨⟨a, ha, hl⟩, h1, h2, h3, h4⟩ := h
  refine ⟨?_, ?_, ?_⟩
  · unfold SharedOp.run MemReader.take
    dsimp only
    split
    · rename_i hx
      obtain ⟨e, he⟩ := BytesBuf.peekN_err (size := n) hval hn (by unfold BytesBuf.moveSpec; simp only [MemReader.view]; omega)
      exact ⟨e, by rw [he]⟩
    · rename_i hx
      rw [BytesBuf.peekN_ok hval ⟨by simp only [MemReader.view]; omega, by simp only [MemReader.view]; omega⟩]
      simp only [MemReader.view]
      split
      · rw [show r.cut r.offset (r.offset + n) = Go.panic from if_neg (by omega)]; rfl
      · rw [show r.cut r.offset (r.offset + n) = _ from if_pos (by omega)]
        simp only [ok_bind, pure_def, MemReader.next]
        rw [show (r.offset + n).toNat - r.offset.toNat = n.toNat by omega]
  · unfold SharedOp.run MemReader.cut
    dsimp only
    rw [if_pos (by omega)]
    rfl
  · unfold SharedOp.run MemReader.cut
    dsimp only
    rw [if_pos (by omega)]
    rfl

/-- **C127** moves: `Seek` and `SeekBack` go where they are told if that is in the slice; `Clear` goes to its beginning, `Reset` to that of another. -/
theorem C127_moves {r : MemReader} {m : Mem} (h : r.Sits m) (n : Int) (hn : I64 n) (s : SliceRef) :
    (if 0 ≤ r.offset + n ∧ r.offset + n ≤ r.data.len then (SharedOp.seek n).run r m = ok (.ok .nothing, { r with offset := r.offset + n }, m)
     else ∃ e, (SharedOp.seek n).run r m = ok (.error e, r, m)) ∧
    (if 0 ≤ r.offset - n ∧ r.offset - n ≤ r.data.len then (SharedOp.seekBack n).run r m = ok (.ok .nothing, { r with offset := r.offset - n }, m)
     else ∃ e, (SharedOp.seekBack n).run r m = ok (.error e, r, m)) ∧
    SharedOp.clear.run r m = ok (.ok .nothing, { r with offset := 0 }, m) ∧
    (SharedOp.reset s).run r m = ok (.ok .nothing, ⟨s, s.len, 0⟩, m) := by
  have hval := h.view.1
  obtain ⟨⟨a, ha, hl⟩, h1, h2, h3, h4⟩ := h
  have hn' := hn
  unfold I64 at hn'
  refine ⟨?_, ?_, rfl, rfl⟩
  · unfold SharedOp.run MemReader.move BytesBuf.seek
    dsimp only
    split
    · rw [BytesBuf.peekN_ok hval ⟨by simp only [MemReader.view]; omega, by simp only [MemReader.view]; omega⟩]
      rfl
    · obtain ⟨e, he⟩ := BytesBuf.peekN_err (size := n) hval hn (by unfold BytesBuf.moveSpec; simp only [MemReader.view]; omega)
      exact ⟨e, by rw [he]; rfl⟩
  · unfold SharedOp.run MemReader.move BytesBuf.seekBack
    dsimp only
    by_cases hmin : n = -2 ^ 63
    · have hw : wrap64 (0 - n) = -2 ^ 63 := by subst hmin; decide
      rw [if_neg (by omega), hw]
      obtain ⟨e, he⟩ := BytesBuf.peekN_err (size := -2 ^ 63) hval ⟨by omega, by omega⟩ (by unfold BytesBuf.moveSpec; simp only [MemReader.view]; omega)
      exact ⟨e, by rw [he]; rfl⟩
    · rw [wrap64_of_range (x := 0 - n) (by omega) (by omega)]
      split
      · rw [BytesBuf.peekN_ok hval ⟨by simp only [MemReader.view]; omega, by simp only [MemReader.view]; omega⟩]
        simp only [MemReader.view]
        rw [show r.offset + (0 - n) = r.offset - n by omega]
      · obtain ⟨e, he⟩ := BytesBuf.peekN_err (size := 0 - n) hval ⟨by omega, by omega⟩
          (by unfold BytesBuf.moveSpec; simp only [MemReader.view]; omega)
        exact ⟨e, by rw [he]; rfl⟩

/-! ## Histories -/

theorem Mem.Painted.valid {m m' : Mem} {w s : SliceRef} {v : Bytes} (hp : m.Painted m' w v) (hs : s.ValidIn m) : s.ValidIn m' := by
  obtain ⟨x, hx, hl⟩ := hs
  have := hp.1 s.arr
  rw [hx] at this
  cases hy : m'[s.arr]? with
  | none => rw [hy] at this; cases this
  | some y =>
    rw [hy] at this
    simp only [Option.map_some, Option.some.injEq] at this
    exact ⟨y, hy, by omega⟩

theorem MemReader.Sits.mono {r : MemReader} {m m' : Mem} (h : r.Sits m) (hm : ∀ s : SliceRef, s.ValidIn m → s.ValidIn m') : r.Sits m' :=
  ⟨hm _ h.valid, h.length, h.lo, h.hi, h.fits⟩

/-- What a call leaves behind. -/
theorem call_after {r r' : MemReader} {m m' : Mem} {o : SharedOp} {x : Except String CursorReply} (h : r.Sits m) (ho : o.InRange m)
    (hr : o.run r m = ok (x, r', m')) :
    r'.Sits m' ∧ (∀ s cap, x = .ok (.slice s cap) → s.len ≤ cap ∧ SliceRef.ValidIn ⟨s.arr, s.off, cap⟩ m') ∧
    (match o.bytes m with
      | some v => if r.offset + v.length ≤ r.data.len then m.Painted m' (r.next v.length) v else m' = m
      | none => m' = m) := by
  have hlo := h.lo
  have hhi := h.hi
  have hwrite : ∀ v, o.bytes m = some v → r'.Sits m' ∧ (∀ s cap, x = .ok (.slice s cap) → s.len ≤ cap ∧ SliceRef.ValidIn ⟨s.arr, s.off, cap⟩ m') ∧
      if r.offset + v.length ≤ r.data.len then m.Painted m' (r.next v.length) v else m' = m := by
    intro v hv
    have := C127_write h ho hv
    split at this
    · rename_i hf
      obtain ⟨m1, e, hp⟩ := this
      rw [hr] at e
      simp only [Go.ok.injEq, Prod.mk.injEq] at e
      obtain ⟨rfl, rfl, rfl⟩ := e
      rw [if_pos hf]
      exact ⟨⟨hp.valid h.valid, h.length, by dsimp only; omega, hf, h.fits⟩, fun s cap e => by simp at e, hp⟩
    · rename_i hf
      obtain ⟨e', e⟩ := this
      rw [hr] at e
      simp only [Go.ok.injEq, Prod.mk.injEq] at e
      obtain ⟨rfl, rfl, rfl⟩ := e
      rw [if_neg hf]
      exact ⟨h, fun s cap e => by simp at e, rfl⟩
  have hread : ∀ k, o.width = some k → r'.Sits m' ∧ (∀ s cap, x = .ok (.slice s cap) → s.len ≤ cap ∧ SliceRef.ValidIn ⟨s.arr, s.off, cap⟩ m') ∧ m' = m := by
    intro k hk
    have := C127_read h hk
    split at this
    · rename_i hf
      rw [hr] at this
      simp only [Go.ok.injEq, Prod.mk.injEq] at this
      obtain ⟨rfl, rfl, rfl⟩ := this
      exact ⟨⟨h.valid, h.length, by dsimp only; omega, hf, h.fits⟩, fun s cap e => by simp at e, rfl⟩
    · obtain ⟨e', e⟩ := this
      rw [hr] at e
      simp only [Go.ok.injEq, Prod.mk.injEq] at e
      obtain ⟨rfl, rfl, rfl⟩ := e
      exact ⟨h, fun s cap e => by simp at e, rfl⟩
  have hval : ∀ a n cap, n ≤ cap → a + cap ≤ r.data.len → n ≤ cap ∧ SliceRef.ValidIn ⟨r.data.arr, r.data.off + a, cap⟩ m := by
    intro a n cap h1 h2
    obtain ⟨y, hy, hl⟩ := h.valid
    exact ⟨h1, y, hy, by dsimp only; omega⟩
  cases o
  case seek n =>
    have := (C127_moves h n ho r.data).1
    split at this
    · rename_i hf
      rw [hr] at this
      simp only [Go.ok.injEq, Prod.mk.injEq] at this
      obtain ⟨rfl, rfl, rfl⟩ := this
      exact ⟨⟨h.valid, h.length, hf.1, hf.2, h.fits⟩, fun s cap e => by simp at e, rfl⟩
    · obtain ⟨e', e⟩ := this
      rw [hr] at e
      simp only [Go.ok.injEq, Prod.mk.injEq] at e
      obtain ⟨rfl, rfl, rfl⟩ := e
      exact ⟨h, fun s cap e => by simp at e, rfl⟩
  case seekBack n =>
    have := (C127_moves h n ho r.data).2.1
    split at this
    · rename_i hf
      rw [hr] at this
      simp only [Go.ok.injEq, Prod.mk.injEq] at this
      obtain ⟨rfl, rfl, rfl⟩ := this
      exact ⟨⟨h.valid, h.length, hf.1, hf.2, h.fits⟩, fun s cap e => by simp at e, rfl⟩
    · obtain ⟨e', e⟩ := this
      rw [hr] at e
      simp only [Go.ok.injEq, Prod.mk.injEq] at e
      obtain ⟨rfl, rfl, rfl⟩ := e
      exact ⟨h, fun s cap e => by simp at e, rfl⟩
  case clear =>
    have := (C127_moves h 0 ⟨by omega, by omega⟩ r.data).2.2.1
    rw [hr] at this
    simp only [Go.ok.injEq, Prod.mk.injEq] at this
    obtain ⟨rfl, rfl, rfl⟩ := this
    exact ⟨⟨h.valid, h.length, by simp, by simp, h.fits⟩, fun s cap e => by simp at e, rfl⟩
  case reset t =>
    have := (C127_moves h 0 ⟨by omega, by omega⟩ t).2.2.2
    rw [hr] at this
    simp only [Go.ok.injEq, Prod.mk.injEq] at this
    obtain ⟨rfl, rfl, rfl⟩ := this
    exact ⟨⟨ho.1, rfl, by simp, by simp, ho.2⟩, fun s cap e => by simp at e, rfl⟩
  case readBytes n =>
    have := (C127_slices (m := m) h n ho).1
    split at this
    · obtain ⟨e', e⟩ := this
      rw [hr] at e
      simp only [Go.ok.injEq, Prod.mk.injEq] at e
      obtain ⟨rfl, rfl, rfl⟩ := e
      exact ⟨h, fun s cap e => by simp at e, rfl⟩
    · rename_i hf
      split at this
      · rw [hr] at this; cases this
      · rename_i hn
        rw [hr] at this
        simp only [Go.ok.injEq, Prod.mk.injEq] at this
        obtain ⟨rfl, rfl, rfl⟩ := this
        refine ⟨⟨h.valid, h.length, by dsimp only; omega, by dsimp only; omega, h.fits⟩, ?_, rfl⟩
        intro s cap e
        simp only [Except.ok.injEq, CursorReply.slice.injEq] at e
        obtain ⟨rfl, rfl⟩ := e
        exact hval _ _ _ (by simp only [MemReader.next]; omega) (by omega)
  case remaining =>
    have := (C127_slices (m := m) h 0 ⟨by omega, by omega⟩).2.1
    rw [hr] at this
    simp only [Go.ok.injEq, Prod.mk.injEq] at this
    obtain ⟨rfl, rfl, rfl⟩ := this
    refine ⟨h, ?_, rfl⟩
    intro s cap e
    simp only [Except.ok.injEq, CursorReply.slice.injEq] at e
    obtain ⟨rfl, rfl⟩ := e
    exact hval _ _ _ (by simp only [MemReader.next]; omega) (by omega)
  case written =>
    have := (C127_slices (m := m) h 0 ⟨by omega, by omega⟩).2.2
    rw [hr] at this
    simp only [Go.ok.injEq, Prod.mk.injEq] at this
    obtain ⟨rfl, rfl, rfl⟩ := this
    refine ⟨h, ?_, rfl⟩
    intro s cap e
    simp only [Except.ok.injEq, CursorReply.slice.injEq] at e
    obtain ⟨rfl, rfl⟩ := e
    exact hval 0 _ _ (by dsimp only; omega) (by omega)
  case readUint8 => exact hread 1 rfl
  case readUint16 => exact hread 2 rfl
  case readUint24 => exact hread 3 rfl
  case readUint32 => exact hread 4 rfl
  case readUint64 => exact hread 8 rfl
  case writeUint8 => exact hwrite _ rfl
  case writeUint16 => exact hwrite _ rfl
  case writeUint32 => exact hwrite _ rfl
  case writeUint64 => exact hwrite _ rfl
  case write => exact hwrite _ rfl

theorem valid_snoc {m : Mem} {x : Bytes} {s : SliceRef} (h : s.ValidIn m) : s.ValidIn (m ++ [x]) := by
  obtain ⟨y, hy, hl⟩ := h
  exact ⟨y, by rw [List.getElem?_append_left (List.getElem?_eq_some_iff.1 hy).1]; exact hy, hl⟩

/-- **C127** one event: memory is what it was, with the bytes of the event where it writes; no array goes away; cursors and returned
slices stay in it, and the other cursors where they are. -/
theorem C127_step {σ σ' : CursorSet} {e : SharedEvent} {x : Except String CursorReply} (hs : σ.Sound) (he : e.InRange σ.mem)
    (hr : σ.step e = ok (x, σ')) :
    σ'.Sound ∧ σ.mem.length ≤ σ'.mem.length ∧ (∀ s : SliceRef, s.ValidIn σ.mem → s.ValidIn σ'.mem) ∧
    (∀ a k, a < σ.mem.length → σ'.mem.byte a k = lastByte a k (σ.mem.byte a k) (σ.writes e).toList) ∧
    (∀ j, (∀ o, e ≠ .call j o) → σ'.cursors[j]? = σ.cursors[j]?) := by
  cases e with
  | call i o =>
    unfold CursorSet.step at hr
    dsimp only at hr
    cases hi : σ.cursors[i]? with
    | none => rw [hi] at hr; cases hr
    | some r =>
      rw [hi] at hr
      obtain ⟨⟨x1, r1, m1⟩, h1, hr⟩ := bind_eq_ok.1 hr
      simp only [pure_def, Go.ok.injEq, Prod.mk.injEq] at hr
      obtain ⟨rfl, rfl⟩ := hr
      have hsit := hs.cursors r (List.mem_of_getElem? hi)
      obtain ⟨k1, k2, k3⟩ := call_after hsit he h1
      have hmono : (∀ s : SliceRef, s.ValidIn σ.mem → s.ValidIn m1) ∧ m1.length = σ.mem.length ∧
          ∀ a k, m1.byte a k = lastByte a k (σ.mem.byte a k) (σ.writes (.call i o)).toList := by
        unfold CursorSet.writes
        dsimp only
        rw [hi]
        cases hb : o.bytes σ.mem with
        | none =>
          rw [hb] at k3
          subst k3
          exact ⟨fun _ h => h, rfl, fun _ _ => rfl⟩
        | some v =>
          rw [hb] at k3
          dsimp only at k3 ⊢
          split at k3
          · rename_i hf
            rw [if_pos hf]
            refine ⟨fun _ h => k3.valid h, ?_, fun a k => k3.2 a k⟩
            have hn : ∀ a : Nat, m1.length ≤ a ↔ σ.mem.length ≤ a := by
              intro a
              rw [← List.getElem?_eq_none_iff, ← List.getElem?_eq_none_iff, ← Option.map_eq_none_iff (f := List.length), k3.1 a,
                Option.map_eq_none_iff]
            have e1 := hn m1.length
            have e2 := hn σ.mem.length
            omega
          · rename_i hf
            rw [if_neg hf]
            subst k3
            exact ⟨fun _ h => h, rfl, fun _ _ => rfl⟩
      refine ⟨⟨?_, ?_⟩, by dsimp only; omega, hmono.1, fun a k _ => hmono.2.2 a k, ?_⟩
      · intro q hq
        rcases List.mem_or_eq_of_mem_set hq with hq | rfl
        · exact (hs.cursors q hq).mono hmono.1
        · exact k1
      · intro y hy
        have hold : ∀ y ∈ σ.handed, y.1.len ≤ y.2 ∧ SliceRef.ValidIn ⟨y.1.arr, y.1.off, y.2⟩ m1 :=
          fun y hy => ⟨(hs.handed y hy).1, hmono.1 _ (hs.handed y hy).2⟩
        dsimp only at hy ⊢
        split at hy
        · rename_i s cap
          rcases List.mem_append.1 hy with hy | hy
          · exact hold y hy
          · rw [List.mem_singleton] at hy
            subst hy
            exact k2 s cap rfl
        · exact hold y hy
      · intro j hj
        dsimp only
        rw [List.getElem?_set_ne]
        intro h
        exact hj o (by rw [h])
  | append k v =>
    unfold CursorSet.step at hr
    dsimp only at hr
    cases hk : σ.handed[k]? with
    | none => rw [hk] at hr; cases hr
    | some y =>
      obtain ⟨s, cap⟩ := y
      rw [hk] at hr
      obtain ⟨hle, hv⟩ := hs.handed _ (List.mem_of_getElem? hk)
      dsimp only at hle hv
      by_cases hf : s.len + v.length ≤ cap
      · simp only [Mem.appendTo, if_pos hf, Go.ok.injEq, Prod.mk.injEq] at hr
        obtain ⟨rfl, rfl⟩ := hr
        have hw : SliceRef.ValidIn ⟨s.arr, s.off + s.len, v.length⟩ σ.mem := by
          obtain ⟨z, hz, hl⟩ := hv
          exact ⟨z, hz, by dsimp only at hl ⊢; omega⟩
        have hp := copy_painted (v := v) hw (Nat.le_refl _)
        have hlen : (σ.mem.copy ⟨s.arr, s.off + s.len, v.length⟩ v).length = σ.mem.length := by
          unfold Mem.copy; split <;> simp
        refine ⟨⟨fun r hr => (hs.cursors r hr).mono fun _ h => hp.valid h, ?_⟩, by dsimp only; omega, fun _ h => hp.valid h, ?_, fun _ _ => rfl⟩
        · intro y hy
          rcases List.mem_append.1 hy with hy | hy
          · exact ⟨(hs.handed y hy).1, hp.valid (hs.handed y hy).2⟩
          · rw [List.mem_singleton] at hy
            subst hy
            exact ⟨hf, hp.valid hv⟩
        · intro a j _
          unfold CursorSet.writes
          dsimp only
          rw [hk]
          dsimp only
          rw [if_pos hf]
          exact hp.2 a j
      · simp only [Mem.appendTo, if_neg hf, Go.ok.injEq, Prod.mk.injEq] at hr
        obtain ⟨rfl, rfl⟩ := hr
        refine ⟨⟨fun r hr => (hs.cursors r hr).mono fun _ h => valid_snoc h, ?_⟩, by simp, fun _ h => valid_snoc h, ?_, fun _ _ => rfl⟩
        · intro y hy
          rcases List.mem_append.1 hy with hy | hy
          · exact ⟨(hs.handed y hy).1, valid_snoc (hs.handed y hy).2⟩
          · rw [List.mem_singleton] at hy
            subst hy
            refine ⟨Nat.le_refl _, _, List.getElem?_concat_length, ?_⟩
            obtain ⟨z, hz, hl⟩ := hv
            dsimp only at hl
            dsimp only
            rw [List.length_append]
            unfold Mem.read
            rw [hz]
            simp
            omega
        · intro a j ha
          unfold CursorSet.writes
          dsimp only
          rw [hk]
          dsimp only
          rw [if_neg hf]
          unfold Mem.byte
          rw [List.getElem?_append_left ha]
          rfl

/-- **C127**: after any history of any cursors on a memory and of `append`s to the slices that they returned, every byte of the memory is
that of the last write to its place, or, without such a write, what it was. So a write is seen by all cursors and slices that share its
place, and by no others. -/
theorem C127_history : ∀ (l : List SharedEvent) {σ σ' : CursorSet} {xs : List (Except String CursorReply)}, σ.Sound → σ.Legal l →
    σ.run l = ok (xs, σ') →
    σ'.Sound ∧ (∀ s : SliceRef, s.ValidIn σ.mem → s.ValidIn σ'.mem) ∧
    ∀ a k, a < σ.mem.length → σ'.mem.byte a k = lastByte a k (σ.mem.byte a k) (σ.trace l)
  | [], σ, σ', xs, hs, _, hr => by
    simp only [CursorSet.run, Go.ok.injEq, Prod.mk.injEq] at hr
    obtain ⟨_, rfl⟩ := hr
    exact ⟨hs, fun _ h => h, fun _ _ _ => rfl⟩
  | e :: es, σ, σ', xs, hs, hl, hr => by
    unfold CursorSet.run at hr
    obtain ⟨⟨x1, σ1⟩, h1, hr⟩ := bind_eq_ok.1 hr
    obtain ⟨⟨xs2, σ2⟩, h2, hr⟩ := bind_eq_ok.1 hr
    simp only [pure_def, Go.ok.injEq, Prod.mk.injEq] at hr
    obtain ⟨_, rfl⟩ := hr
    obtain ⟨a1, a2, a3, a4, _⟩ := C127_step hs hl.1 h1
    obtain ⟨b1, b2, b3⟩ := C127_history es a1 (hl.2 _ _ h1) h2
    refine ⟨b1, fun s h => b2 s (a3 s h), fun a k ha => ?_⟩
    rw [b3 a k (by omega), a4 a k ha]
    have ht : σ.trace (e :: es) = (σ.writes e).toList ++ σ1.trace es := by simp only [CursorSet.trace, h1]
    rw [ht]
    unfold lastByte
    rw [List.foldl_append]

theorem read_eq_of_bytes {m' : Mem} {s : SliceRef} {v : Bytes} (hs : s.ValidIn m') (hl : v.length = s.len)
    (h : ∀ k, k < s.len → m'.byte s.arr (s.off + k) = v[k]?) : m'.read s = v := by
  obtain ⟨x, hx, hle⟩ := hs
  unfold Mem.read
  rw [hx]
  refine List.ext_getElem? fun k => ?_
  rw [Option.getD_some, List.getElem?_take]
  split
  · rename_i hk
    rw [List.getElem?_drop, ← h k hk]
    unfold Mem.byte
    rw [hx]; rfl
  · rename_i hk
    rw [List.getElem?_eq_none (by omega)]

theorem lastByte_apart {a k : Nat} {old : Option Byte} : ∀ {ws : List (SliceRef × Bytes)}, (∀ w ∈ ws, ¬ w.1.Has a k) → lastByte a k old ws = old
  | [], _ => rfl
  | w :: ws, h => by
    unfold lastByte
    rw [List.foldl_cons, if_neg (h w (List.mem_cons_self ..))]
    exact lastByte_apart fun w hw => h w (List.mem_cons_of_mem _ hw)

/-- **C127** not seen: a slice reads the same after a history that writes to none of its places. -/
theorem C127_unseen (l : List SharedEvent) {σ σ' : CursorSet} {xs : List (Except String CursorReply)} (hs : σ.Sound) (hl : σ.Legal l)
    (hr : σ.run l = ok (xs, σ')) {s : SliceRef} (hv : s.ValidIn σ.mem) (ha : ∀ w ∈ σ.trace l, w.1.Apart s) :
    σ'.mem.read s = σ.mem.read s := by
  obtain ⟨_, h2, h3⟩ := C127_history l hs hl hr
  obtain ⟨x, hx, hle⟩ := id hv
  have hlen : (σ.mem.read s).length = s.len := by unfold Mem.read; rw [hx]; simp; omega
  refine read_eq_of_bytes (h2 s hv) hlen fun k hk => ?_
  rw [h3 _ _ (List.getElem?_eq_some_iff.1 hx).1, lastByte_apart]
  · unfold Mem.byte Mem.read
    rw [hx]
    simp only [Option.bind_some, Option.getD_some]
    rw [List.getElem?_take, if_pos hk, List.getElem?_drop]
  · intro w hw ⟨e, h4, h5⟩
    exact ha w hw e.symm (s.off + k) ⟨h4, h5, by omega, by omega⟩

/-- **C127** seen: what an event writes is what every slice of that place reads after any history that does not write there. -/
theorem C127_seen (e : SharedEvent) (l : List SharedEvent) {σ σ' : CursorSet} {xs : List (Except String CursorReply)} {w : SliceRef} {v : Bytes}
    (hs : σ.Sound) (hl : σ.Legal (e :: l)) (hr : σ.run (e :: l) = ok (xs, σ')) (hw : σ.writes e = some (w, v)) (hv : w.ValidIn σ.mem)
    (hlen : v.length = w.len) (ha : ∀ x σ1, σ.step e = ok (x, σ1) → ∀ u ∈ σ1.trace l, u.1.Apart w) : σ'.mem.read w = v := by
  unfold CursorSet.run at hr
  obtain ⟨⟨x1, σ1⟩, h1, hr⟩ := bind_eq_ok.1 hr
  obtain ⟨⟨xs2, σ2⟩, h2, hr⟩ := bind_eq_ok.1 hr
  simp only [pure_def, Go.ok.injEq, Prod.mk.injEq] at hr
  obtain ⟨_, rfl⟩ := hr
  obtain ⟨a1, a2, a3, a4, _⟩ := C127_step hs hl.1 h1
  rw [C127_unseen l a1 (hl.2 _ _ h1) h2 (a3 w hv) (ha _ _ h1)]
  obtain ⟨x, hx, hle⟩ := hv
  refine read_eq_of_bytes (a3 w ⟨x, hx, hle⟩) hlen fun k hk => ?_
  rw [a4 _ _ (List.getElem?_eq_some_iff.1 hx).1, hw]
  show (if w.Has w.arr (w.off + k) then v[w.off + k - w.off]? else _) = _
  rw [if_pos ⟨rfl, by omega, by omega⟩, Nat.add_sub_cancel_left]

/-- **C127** a cursor writes only inside of its slice. -/
theorem C127_inside {σ : CursorSet} (hs : σ.Sound) {i : Nat} {o : SharedOp} {w : SliceRef} {v : Bytes} (hw : σ.writes (.call i o) = some (w, v)) :
    ∃ r, σ.cursors[i]? = some r ∧ w.Inside r.data ∧ w.len = v.length := by
  unfold CursorSet.writes at hw
  dsimp only at hw
  cases hi : σ.cursors[i]? with
  | none => rw [hi] at hw; cases hw
  | some r =>
    rw [hi] at hw
    cases hb : o.bytes σ.mem with
    | none => rw [hb] at hw; cases hw
    | some u =>
      rw [hb] at hw
      dsimp only at hw
      split at hw
      · rename_i hf
        simp only [Option.some.injEq, Prod.mk.injEq] at hw
        obtain ⟨rfl, rfl⟩ := hw
        have := (hs.cursors r (List.mem_of_getElem? hi)).lo
        exact ⟨r, rfl, ⟨rfl, by simp only [MemReader.next]; omega, by simp only [MemReader.next]; omega⟩, rfl⟩
      · cases hw

/-- **C127** appending to what `ReadBytes` returned: if it fits into the slice of the cursor, the cursor reads what was appended instead of its
data; otherwise its data stay as they are. -/
theorem C127_append {r : MemReader} {m : Mem} (h : r.Sits m) {n : Nat} (hn : r.offset + n ≤ r.data.len) (v : Bytes) :
    ∃ s cap, (SharedOp.readBytes n).run r m = ok (.ok (.slice s cap), { r with offset := r.offset + n }, m) ∧
      if r.offset + n + v.length ≤ r.data.len then
        m.Painted (m.appendTo s cap v).2 (MemReader.next { r with offset := r.offset + n } v.length) v
      else (m.appendTo s cap v).2.read r.data = m.read r.data := by
  have hlo := h.lo
  have hf := h.fits
  have := (C127_slices (m := m) h n ⟨by omega, by omega⟩).1
  rw [if_neg (by omega), if_neg (by omega)] at this
  refine ⟨_, _, this, ?_⟩
  obtain ⟨x, hx, hle⟩ := h.valid
  rw [Int.toNat_natCast]
  unfold Mem.appendTo MemReader.next
  dsimp only
  split
  · rw [if_pos (by omega)]
    have e : r.data.off + r.offset.toNat + n = r.data.off + (r.offset + n).toNat := by omega
    rw [e]
    exact copy_painted (s := ⟨r.data.arr, r.data.off + (r.offset + n).toNat, v.length⟩) ⟨x, hx, by dsimp only; omega⟩ (Nat.le_refl _)
  · rw [if_neg (by omega)]
    unfold Mem.read
    rw [List.getElem?_append_left (List.getElem?_eq_some_iff.1 hx).1]

theorem run_data {r r' : MemReader} {m m' : Mem} {o : SharedOp} {x : Except String CursorReply} (hr : o.run r m = ok (x, r', m'))
    (ho : ∀ t, o ≠ .reset t) : r'.data = r.data := by
  have hnum : ∀ {n : Nat} (f : BytesBuf → Go (BytesBuf.Res (BitVec n))), r.number m f = ok (x, r', m') → r'.data = r.data := by
    intro n f h
    unfold MemReader.number at h
    obtain ⟨⟨y, b⟩, _, h⟩ := bind_eq_ok.1 h
    cases y <;> simp only [pure_def, Go.ok.injEq, Prod.mk.injEq] at h <;> rw [← h.2.1]
  have hmove : ∀ f, ok (r.move m f) = ok (x, r', m') → r'.data = r.data := by
    intro f h
    unfold MemReader.move at h
    split at h <;> simp only [Go.ok.injEq, Prod.mk.injEq] at h <;> rw [← h.2.1]
  have hstore : ∀ e v, r.store m e v = ok (x, r', m') → r'.data = r.data := by
    intro e v h
    unfold MemReader.store at h
    split at h
    · simp only [Go.ok.injEq, Prod.mk.injEq] at h; rw [← h.2.1]
    · dsimp only at h
      split at h
      · cases h
      · simp only [Go.ok.injEq, Prod.mk.injEq] at h; rw [← h.2.1]
  cases o
  case reset t => exact absurd rfl (ho t)
  case clear => simp only [SharedOp.run, Go.ok.injEq, Prod.mk.injEq] at hr; rw [← hr.2.1]
  case readBytes n =>
    simp only [SharedOp.run, MemReader.take] at hr
    split at hr
    · simp only [Go.ok.injEq, Prod.mk.injEq] at hr; rw [← hr.2.1]
    · obtain ⟨y, _, hr⟩ := bind_eq_ok.1 hr
      simp only [pure_def, Go.ok.injEq, Prod.mk.injEq] at hr; rw [← hr.2.1]
  case remaining =>
    obtain ⟨y, _, hr⟩ := bind_eq_ok.1 hr
    simp only [pure_def, Go.ok.injEq, Prod.mk.injEq] at hr; rw [← hr.2.1]
  case written =>
    obtain ⟨y, _, hr⟩ := bind_eq_ok.1 hr
    simp only [pure_def, Go.ok.injEq, Prod.mk.injEq] at hr; rw [← hr.2.1]
  case seek => exact hmove _ hr
  case seekBack => exact hmove _ hr
  all_goals first | exact hnum _ hr | exact hstore _ _ hr

/-- **C127** cursors on slices that share no byte with `s` do not change it, whatever they do (but for `Reset`). -/
theorem C127_disjoint : ∀ (l : List SharedEvent) {σ σ' : CursorSet} {xs : List (Except String CursorReply)} {s : SliceRef}, σ.Sound → σ.Legal l →
    σ.run l = ok (xs, σ') → s.ValidIn σ.mem →
    (∀ e ∈ l, ∃ j o, e = .call j o ∧ (∀ t, o ≠ .reset t) ∧ ∀ r, σ.cursors[j]? = some r → r.data.Apart s) →
    σ'.mem.read s = σ.mem.read s
  | [], σ, σ', xs, s, _, _, hr, _, _ => by
    simp only [CursorSet.run, Go.ok.injEq, Prod.mk.injEq] at hr
    rw [← hr.2]
  | e :: es, σ, σ', xs, s, hs, hl, hr, hv, hd => by
    obtain ⟨i, o, rfl, ho, hi⟩ := hd e (List.mem_cons_self ..)
    have hone : ∀ {x σ1}, σ.step (.call i o) = ok (x, σ1) → σ1.mem.read s = σ.mem.read s := by
      intro x σ1 h1
      refine C127_unseen [.call i o] hs ⟨hl.1, fun _ _ _ => trivial⟩ (σ' := σ1) (xs := [x]) (by simp only [CursorSet.run, h1, ok_bind, pure_def]) hv ?_
      intro w hw
      simp only [CursorSet.trace, h1, List.append_nil, Option.mem_toList] at hw
      obtain ⟨r, hr, hin, _⟩ := C127_inside hs (w := w.1) (v := w.2) hw
      intro ha k ⟨k1, k2, k3, k4⟩
      obtain ⟨e1, e2, e3⟩ := hin
      exact hi r hr (e1.symm.trans ha) k ⟨by omega, by omega, k3, k4⟩
    unfold CursorSet.run at hr
    obtain ⟨⟨x1, σ1⟩, h1, hr⟩ := bind_eq_ok.1 hr
    obtain ⟨⟨xs2, σ2⟩, h2, hr⟩ := bind_eq_ok.1 hr
    simp only [pure_def, Go.ok.injEq, Prod.mk.injEq] at hr
    obtain ⟨_, rfl⟩ := hr
    obtain ⟨a1, a2, a3, a4, a5⟩ := C127_step hs hl.1 h1
    rw [C127_disjoint es a1 (hl.2 _ _ h1) h2 (a3 s hv) ?_, hone h1]
    intro e' he'
    obtain ⟨j, o', rfl, ho', hj⟩ := hd e' (List.mem_cons_of_mem _ he')
    refine ⟨j, o', rfl, ho', fun r hr => ?_⟩
    by_cases hij : i = j
    · subst hij
      unfold CursorSet.step at h1
      dsimp only at h1
      cases hc : σ.cursors[i]? with
      | none => rw [hc] at h1; cases h1
      | some r0 =>
        rw [hc] at h1
        obtain ⟨⟨y, r1, m1⟩, h3, h1⟩ := bind_eq_ok.1 h1
        simp only [pure_def, Go.ok.injEq, Prod.mk.injEq] at h1
        obtain ⟨_, rfl⟩ := h1
        rw [List.getElem?_set_self (List.getElem?_eq_some_iff.1 hc).1] at hr
        cases hr
        rw [run_data h3 ho]
        exact hj r0 hc
    · rw [a5 j (fun o2 h => hij (by cases h; rfl))] at hr
      exact hj r hr

/-! ## Concrete cases -/

/-- A writer on all of an array, a reader on the same slice, and a writer on its last two bytes. -/
def sharedStart : CursorSet := { mem := [[1, 2, 3, 4, 5, 6]], cursors := [.new ⟨0, 0, 6⟩, .new ⟨0, 0, 6⟩, .new ⟨0, 4, 2⟩] }

theorem sharedStart_sound : sharedStart.Sound := by
  refine ⟨?_, fun x hx => by cases hx⟩
  intro r hr
  simp only [sharedStart, List.mem_cons, List.not_mem_nil, or_false] at hr
  rcases hr with rfl | rfl | rfl
  · exact ⟨⟨_, rfl, by decide⟩, rfl, by decide, by decide, by decide⟩
  · exact ⟨⟨_, rfl, by decide⟩, rfl, by decide, by decide, by decide⟩
  · exact ⟨⟨_, rfl, by decide⟩, rfl, by decide, by decide, by decide⟩

/-- What the reader sees: what the writer wrote before it, its own data, and what the other writer wrote. -/
example :
    (sharedStart.run [.call 0 (.writeUint16 0x0a0b), .call 1 .readUint16, .call 2 (.writeUint8 9), .call 1 .readUint16, .call 1 .readUint16,
      .call 1 .readUint8] >>= fun x => ok (x.1.map fun y => match y with | .ok r => some r | .error _ => none, x.2.mem)) =
      ok ([some .nothing, some (.number 0x0a0b), some .nothing, some (.number 0x0304), some (.number 0x0906), none], [[10, 11, 3, 4, 9, 6]]) ∧
    sharedStart.writes (.call 2 (.writeUint16 7)) = some (⟨0, 4, 2⟩, [0, 7]) ∧ sharedStart.writes (.call 2 (.writeUint32 7)) = none := by
  refine ⟨?_, ?_, ?_⟩ <;> decide +kernel

/-- `Write` from the slice that it writes to, one byte further on: the old bytes are copied. -/
example : (sharedStart.run [.call 0 (.seek 1), .call 0 (.write ⟨0, 0, 4⟩)] >>= fun x => ok x.2.mem) = ok [[1, 1, 2, 3, 4, 6]] := by decide +kernel

/-- **C127** the caller that appends to what it got changes what is read next; it does not if the slice is too short for that. -/
theorem C127_overwritten :
    (sharedStart.run [.call 1 (.readBytes 2), .append 0 [7, 8], .call 1 .readUint16] >>= fun x => ok (x.1.getLast?.bind fun y => y.toOption)) =
      ok (some (.number 0x0708)) ∧
    (sharedStart.run [.call 1 (.readBytes 2), .append 0 [7, 8, 9, 10, 11], .call 1 .readUint16] >>= fun x =>
      ok (x.1.getLast?.bind fun y => y.toOption)) = ok (some (.number 0x0304)) := by
  refine ⟨?_, ?_⟩ <;> decide +kernel

end Avf
