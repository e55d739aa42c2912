import Verif.Lemmas.BytesBuf
/-! # The byte cursor as a pair (bytes passed, bytes ahead) -/
namespace Avf
open Go

/-- The cursor that has passed `a` and has `b` ahead. -/
def cursor (a b : Bytes) : BytesBuf := { data := a ++ b, length := (a ++ b).length, offset := a.length }

/-- The buffer length is an int. -/
def Fits (a b : Bytes) : Prop := a.length + b.length < 2 ^ 63

theorem Fits.valid {a b : Bytes} (h : Fits a b) : (cursor a b).Valid := by
  unfold Fits at h
  exact ⟨rfl, by simp [cursor], by simp [cursor]; omega, by simp [cursor]; omega⟩

theorem Fits.move {a b : Bytes} (h : Fits a b) (n : Nat) : Fits (a ++ b.take n) (b.drop n) := by
  unfold Fits at *; simp; omega

theorem Fits.write {a b x : Bytes} (h : Fits a b) (hx : x.length ≤ b.length) : Fits (a ++ x) (b.drop x.length) := by
  unfold Fits at *; simp only [List.length_append, List.length_drop]; omega

theorem cursor_move (a b : Bytes) (n : Nat) (h : n ≤ b.length) :
    { cursor a b with offset := (a.length : Int) + n } = cursor (a ++ b.take n) (b.drop n) := by
  simp [cursor, Nat.min_eq_left h]

theorem setData_eq_cursor (d : Bytes) : BytesBuf.setData d = cursor [] d := rfl

theorem cursor_peekN {a b : Bytes} (hf : Fits a b) (n : Nat) (hn : n < 2 ^ 63) :
    (n ≤ b.length → (cursor a b).peekN n = (.ok (), cursor (a ++ b.take n) (b.drop n))) ∧
    (b.length < n → ∃ e, (cursor a b).peekN n = (.error e, cursor a b)) := by
  constructor
  · intro h
    rw [BytesBuf.peekN_ok hf.valid, ← cursor_move _ _ _ h]
    · rfl
    · simp [BytesBuf.moveSpec, cursor]; omega
  · intro h
    refine BytesBuf.peekN_err hf.valid ?_ ?_
    · unfold I64; omega
    · simp [BytesBuf.moveSpec, cursor]; omega

theorem cursor_seek {a b : Bytes} (hf : Fits a b) (n : Nat) (hn : n < 2 ^ 63) :
    (n ≤ b.length → (cursor a b).seek n = (.ok (), cursor (a ++ b.take n) (b.drop n))) ∧
    (b.length < n → ∃ e, (cursor a b).seek n = (.error e, cursor a b)) := cursor_peekN hf n hn

theorem cursor_atBack {α : Type} (a x b : Bytes) (f : Bytes → Nat → Go α) :
    (cursor (a ++ x) b).atBack x.length f = f (a ++ x ++ b) a.length := by
  unfold BytesBuf.atBack cursor
  simp only [List.length_append]
  rw [if_neg (by omega)]
  congr 1; omega

theorem take_len {α : Type} {l : List α} {n : Nat} (h : n ≤ l.length) : (l.take n).length = n := by
  rw [List.length_take, Nat.min_eq_left h]

/-- Shape of the typed reads. -/
theorem cursor_thenRead {α : Type} {a b : Bytes} (hf : Fits a b) (n : Nat) (hn : n < 2 ^ 63) (f : Bytes → Nat → Go α)
    {g : Bytes → α} (hfg : ∀ s o, o + n ≤ s.length → f s o = ok (g ((s.drop o).take n))) :
    (n ≤ b.length → BytesBuf.thenRead ((cursor a b).peekN n) (fun r => r.atBack n f) =
      ok (.ok (g (b.take n)), cursor (a ++ b.take n) (b.drop n))) ∧
    (b.length < n → ∃ e, BytesBuf.thenRead ((cursor a b).peekN n) (fun r => r.atBack n f) = ok (.error e, cursor a b)) := by
  constructor
  · intro h
    rw [(cursor_peekN hf n hn).1 h]
    simp only [BytesBuf.thenRead]
    have hl := take_len h
    have := cursor_atBack a (b.take n) (b.drop n) f
    rw [hl] at this
    rw [this, hfg _ _ (by simp; omega)]
    simp only [ok_bind, List.append_assoc, List.take_append_drop, List.drop_left]
    rfl
  · intro h
    obtain ⟨e, he⟩ := (cursor_peekN hf n hn).2 h
    exact ⟨e, by rw [he]; rfl⟩

/-- Shape of the typed writes. -/
theorem cursor_thenWrite {a b : Bytes} (hf : Fits a b) (x : Bytes) (hn : x.length < 2 ^ 63) (f : Bytes → Nat → Go Bytes)
    (hfx : ∀ p q r : Bytes, q.length = x.length → f (p ++ q ++ r) p.length = ok (p ++ x ++ r)) :
    (x.length ≤ b.length → BytesBuf.thenWrite ((cursor a b).peekN x.length) (fun r => r.atBack x.length f) =
      ok (.ok (), cursor (a ++ x) (b.drop x.length))) ∧
    (b.length < x.length → ∃ e, BytesBuf.thenWrite ((cursor a b).peekN x.length) (fun r => r.atBack x.length f) =
      ok (.error e, cursor a b)) := by
  constructor
  · intro h
    rw [(cursor_peekN hf _ hn).1 h]
    simp only [BytesBuf.thenWrite]
    have hl := take_len h
    have := cursor_atBack a (b.take x.length) (b.drop x.length) f
    rw [hl] at this
    rw [this, hfx _ _ _ hl]
    simp [cursor, hl]
    omega
  · intro h
    obtain ⟨e, he⟩ := (cursor_peekN hf _ hn).2 h
    exact ⟨e, by rw [he]; rfl⟩

theorem cursor_readUint8 {a b : Bytes} (hf : Fits a b) :
    (∀ x t, b = x :: t → (cursor a b).readUint8 = ok (.ok x, cursor (a ++ [x]) t)) ∧
    (b = [] → ∃ e, (cursor a b).readUint8 = ok (.error e, cursor a b)) := by
  have h := cursor_thenRead hf 1 (by omega) idx (g := fun l => l.headD 0) (by
    intro s o ho
    rw [idx_of_lt (by omega), List.drop_eq_getElem_cons (by omega)]; rfl)
  constructor
  · rintro x t rfl
    exact h.1 (by simp)
  · rintro rfl
    exact h.2 (by simp)

theorem cursor_readUint16 {a b : Bytes} (hf : Fits a b) :
    (2 ≤ b.length → (cursor a b).readUint16 = ok (.ok (BitVec.ofNat 16 (beNat (b.take 2))), cursor (a ++ b.take 2) (b.drop 2))) ∧
    (b.length < 2 → ∃ e, (cursor a b).readUint16 = ok (.error e, cursor a b)) :=
  cursor_thenRead hf 2 (by omega) uint16At (g := fun l => BitVec.ofNat 16 (beNat l)) uint16At_eq

theorem cursor_readUint32 {a b : Bytes} (hf : Fits a b) :
    (4 ≤ b.length → (cursor a b).readUint32 = ok (.ok (BitVec.ofNat 32 (beNat (b.take 4))), cursor (a ++ b.take 4) (b.drop 4))) ∧
    (b.length < 4 → ∃ e, (cursor a b).readUint32 = ok (.error e, cursor a b)) :=
  cursor_thenRead hf 4 (by omega) uint32At (g := fun l => BitVec.ofNat 32 (beNat l)) uint32At_eq

theorem cursor_readBytes {a b : Bytes} (hf : Fits a b) (n : Nat) (hn : n < 2 ^ 63) :
    (n ≤ b.length → (cursor a b).readBytes n = ok (.ok (b.take n), cursor (a ++ b.take n) (b.drop n))) ∧
    (b.length < n → ∃ e, (cursor a b).readBytes n = ok (.error e, cursor a b)) := by
  constructor
  · intro h
    unfold BytesBuf.readBytes
    rw [(cursor_peekN hf n hn).1 h]
    simp only [BytesBuf.thenRead]
    have hl := take_len h
    have : sliceI (cursor (a ++ b.take n) (b.drop n)).data (cursor a b).offset (cursor (a ++ b.take n) (b.drop n)).offset =
        ok (b.take n) := by
      unfold sliceI cursor
      simp only [List.length_append, hl]
      rw [if_pos (by simp; omega)]
      congr 1
      have e1 : ((a.length + n : Nat) : Int).toNat = (a ++ b.take n).length := by rw [List.length_append, hl]; omega
      rw [e1, List.take_left, Int.toNat_natCast, List.drop_left]
    rw [this]; rfl
  · intro h
    obtain ⟨e, he⟩ := (cursor_peekN hf n hn).2 h
    exact ⟨e, by unfold BytesBuf.readBytes; rw [he]; rfl⟩

theorem copyAt_mid (p q r x : Bytes) (h : q.length = x.length) : copyAt (p ++ q ++ r) p.length x = ok (p ++ x ++ r) := by
  rw [copyAt_of_le (by simp)]
  unfold overwrite
  rw [← h, ← List.length_append, List.drop_left, List.append_assoc p, List.take_left, List.length_append, List.length_append,
    List.take_of_length_le (by omega), List.append_assoc]

theorem putAt_mid (p q r x : Bytes) (h : q.length = x.length) : putAt (p ++ q ++ r) p.length x = ok (p ++ x ++ r) := by
  have := copyAt_mid p q r x h
  rw [copyAt_of_le (by simp)] at this
  unfold putAt
  rw [if_pos (by simp; omega)]; exact this

theorem cursor_write {a b : Bytes} (hf : Fits a b) (x : Bytes) (hn : x.length < 2 ^ 63) :
    (x.length ≤ b.length → (cursor a b).write x = ok (.ok (), cursor (a ++ x) (b.drop x.length))) ∧
    (b.length < x.length → ∃ e, (cursor a b).write x = ok (.error e, cursor a b)) :=
  cursor_thenWrite hf x hn _ fun p q r h => copyAt_mid p q r x h

theorem cursor_writeUint8 {a b : Bytes} (hf : Fits a b) (v : Byte) :
    (1 ≤ b.length → (cursor a b).writeUint8 v = ok (.ok (), cursor (a ++ [v]) (b.drop 1))) ∧
    (b = [] → ∃ e, (cursor a b).writeUint8 v = ok (.error e, cursor a b)) := by
  have h := cursor_thenWrite hf [v] (by simp) (fun d i => setIdx d i v) (by
    intro p q r hq
    obtain ⟨z, rfl⟩ := List.length_eq_one_iff.1 (by simpa using hq)
    unfold setIdx
    rw [if_pos (by simp)]
    simp)
  exact ⟨fun hl => h.1 hl, fun hl => h.2 (by simp [hl])⟩

theorem cursor_writeUint16 {a b : Bytes} (hf : Fits a b) (v : BitVec 16) :
    (2 ≤ b.length → (cursor a b).writeUint16 v = ok (.ok (), cursor (a ++ beBytes 2 v.toNat) (b.drop 2))) ∧
    (b.length < 2 → ∃ e, (cursor a b).writeUint16 v = ok (.error e, cursor a b)) := by
  have h := cursor_thenWrite hf (be16 v) (by simp [be16]) (fun d i => putAt d i (be16 v)) (fun p q r hq => putAt_mid p q r _ hq)
  rw [be16_eq, beBytes_length] at h
  refine ⟨fun hl => ?_, fun hl => ?_⟩
  · have := h.1 hl; unfold BytesBuf.writeUint16; rw [be16_eq]; exact this
  · have := h.2 hl; unfold BytesBuf.writeUint16; rw [be16_eq]; exact this

theorem cursor_writeUint32 {a b : Bytes} (hf : Fits a b) (v : BitVec 32) :
    (4 ≤ b.length → (cursor a b).writeUint32 v = ok (.ok (), cursor (a ++ beBytes 4 v.toNat) (b.drop 4))) ∧
    (b.length < 4 → ∃ e, (cursor a b).writeUint32 v = ok (.error e, cursor a b)) := by
  have h := cursor_thenWrite hf (be32 v) (by simp [be32]) (fun d i => putAt d i (be32 v)) (fun p q r hq => putAt_mid p q r _ hq)
  rw [be32_eq, beBytes_length] at h
  refine ⟨fun hl => ?_, fun hl => ?_⟩
  · have := h.1 hl; unfold BytesBuf.writeUint32; rw [be32_eq]; exact this
  · have := h.2 hl; unfold BytesBuf.writeUint32; rw [be32_eq]; exact this

theorem cursor_writtenBytes (a b : Bytes) : (cursor a b).writtenBytes = ok a := by
  unfold BytesBuf.writtenBytes sliceI cursor
  rw [if_pos (by simp; omega)]
  simp

theorem cursor_remainingBytes (a b : Bytes) : (cursor a b).remainingBytes = ok b := by
  unfold BytesBuf.remainingBytes sliceI cursor
  rw [if_pos (by simp; omega)]
  have : (((a ++ b).length : Nat) : Int).toNat = (a ++ b).length := Int.toNat_natCast _
  simp only [this, List.take_length, Int.toNat_natCast, List.drop_left]

theorem cursor_readableBytes (a b : Bytes) : (cursor a b).readableBytes = b.length := by
  unfold BytesBuf.readableBytes cursor; simp; omega

/-- A valid cursor is a pair. -/
theorem BytesBuf.Valid.cursor_eq {b : BytesBuf} (h : b.Valid) :
    b = cursor (b.data.take b.offset.toNat) (b.data.drop b.offset.toNat) := by
  obtain ⟨d, l, o⟩ := b
  have h1 := h.len
  have h2 := h.lo
  have h3 := h.hi
  simp only at h1 h2 h3
  simp only [cursor, List.take_append_drop, List.length_take, h1, BytesBuf.mk.injEq, true_and]
  omega

end Avf
