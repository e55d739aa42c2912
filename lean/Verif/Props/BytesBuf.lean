import Verif.Lemmas.BytesBuf
/-!
# C05–C10, C14: the byte cursor (`bufio/bytes_buffer.go`, `bytes_reader.go`, `bytes_wirter.go`, `util.go`)
-/
namespace Avf
open Go
namespace BytesBuf

/-- Every operation of the `BytesReader`/`BytesWriter` interfaces that touches the cursor or the data. -/
inductive Op where
  | seek (n : Int) | seekBack (n : Int) | reset (d : Bytes) | clear
  | readUint8 | readUint16 | readUint24 | readUint32 | readUint64 | readBytes (n : Int)
  | writeUint8 (v : Byte) | writeUint16 (v : BitVec 16) | writeUint32 (v : BitVec 32) | writeUint64 (v : BitVec 64)
  | write (d : Bytes)

/-- Arguments that exist in Go: ints are 64-bit, slice lengths are ints. -/
def Op.WF : Op → Prop
  | .seek n | .seekBack n | .readBytes n => I64 n
  | .reset d | .write d => (d.length : Int) < 2 ^ 63
  | _ => True

/-- `ReadBytes` with a negative size: the only call that can panic (see C10). -/
def Op.Neg : Op → Prop
  | .readBytes n => n < 0
  | _ => False

/-- Number of bytes by which an operation moves the cursor when it succeeds (as an integer, no wrap-around). -/
def Op.delta : Op → Option Int
  | .seek n => some n
  | .seekBack n => some (-n)
  | .reset _ | .clear => none
  | .readUint8 | .writeUint8 _ => some 1
  | .readUint16 | .writeUint16 _ => some 2
  | .readUint24 => some 3
  | .readUint32 | .writeUint32 _ => some 4
  | .readUint64 | .writeUint64 _ => some 8
  | .readBytes n => some n
  | .write d => some d.length

/-- Forget the value of a result; `true` = nil error. -/
def erase {α : Type} (r : Go (Res α)) : Go (Bool × BytesBuf) := do
  let (x, b) ← r
  return (match x with | .ok _ => true | .error _ => false, b)

/-- Run one operation; the flag says whether it returned a nil error. -/
def Op.run (o : Op) (b : BytesBuf) : Go (Bool × BytesBuf) :=
  match o with
  | .seek n => erase (ok (b.seek n))
  | .seekBack n => erase (ok (b.seekBack n))
  | .reset d => ok (true, setData d)
  | .clear => ok (true, b.clear)
  | .readUint8 => erase b.readUint8
  | .readUint16 => erase b.readUint16
  | .readUint24 => erase b.readUint24
  | .readUint32 => erase b.readUint32
  | .readUint64 => erase b.readUint64
  | .readBytes n => erase (b.readBytes n)
  | .writeUint8 v => erase (b.writeUint8 v)
  | .writeUint16 v => erase (b.writeUint16 v)
  | .writeUint32 v => erase (b.writeUint32 v)
  | .writeUint64 v => erase (b.writeUint64 v)
  | .write d => erase (b.write d)

/-- Run a sequence of operations. -/
def runAll : List Op → BytesBuf → Go BytesBuf
  | [], b => ok b
  | o :: os, b => do
    let (_, b') ← o.run b
    runAll os b'

theorem Valid.moveSpec_nat {b : BytesBuf} (hv : b.Valid) (k : Nat) :
    b.moveSpec k ↔ b.offset.toNat + k ≤ b.data.length := by
  have := hv.lo; have := hv.len
  unfold moveSpec; omega

theorem atBack_move {α : Type} {b : BytesBuf} (hv : b.Valid) (k : Nat) (f : Bytes → Nat → Go α) :
    atBack { b with offset := b.offset + k } k f = f b.data b.offset.toNat := by
  have := hv.lo
  unfold atBack
  simp only
  rw [if_neg (by omega), Int.add_sub_cancel]

/-- A typed read either advances and applies its accessor to the old offset, or fails without effect. -/
theorem thenRead_peekN {α : Type} {b : BytesBuf} (hv : b.Valid) {k : Nat} (hk : (k : Int) < 2 ^ 63) (f : Bytes → Nat → Go α) :
    (b.moveSpec k → thenRead (b.peekN k) (fun b => b.atBack k f) =
      (do let a ← f b.data b.offset.toNat; return (.ok a, { b with offset := b.offset + k }))) ∧
    (¬ b.moveSpec k → ∃ e, thenRead (b.peekN k) (fun b => b.atBack k f) = ok (.error e, b)) := by
  constructor
  · intro h
    rw [peekN_ok hv h]
    simp only [thenRead]
    rw [atBack_move hv]
  · intro h
    obtain ⟨e, he⟩ := peekN_err hv ⟨by omega, hk⟩ h
    exact ⟨e, by rw [he]; rfl⟩

theorem thenWrite_peekN {b : BytesBuf} (hv : b.Valid) {k : Nat} (hk : (k : Int) < 2 ^ 63) (f : Bytes → Nat → Go Bytes) :
    (b.moveSpec k → thenWrite (b.peekN k) (fun b => b.atBack k f) =
      (do let d ← f b.data b.offset.toNat; return (.ok (), { b with offset := b.offset + k, data := d }))) ∧
    (¬ b.moveSpec k → ∃ e, thenWrite (b.peekN k) (fun b => b.atBack k f) = ok (.error e, b)) := by
  constructor
  · intro h
    rw [peekN_ok hv h]
    simp only [thenWrite]
    rw [atBack_move hv]
  · intro h
    obtain ⟨e, he⟩ := peekN_err hv ⟨by omega, hk⟩ h
    exact ⟨e, by rw [he]; rfl⟩

/-! ## C07 typed reads -/

/-- `op` reads the next `k` bytes as a big-endian number and advances by `k`, or fails and does nothing. -/
def ReadsBE {w : Nat} (op : BytesBuf → Go (Res (BitVec w))) (k : Nat) : Prop :=
  ∀ b : BytesBuf, b.Valid →
    (b.offset + k ≤ b.length → ∃ v, op b = ok (.ok v, { b with offset := b.offset + k }) ∧
      v.toNat = beNat ((b.data.drop b.offset.toNat).take k)) ∧
    (b.length < b.offset + k → ∃ e, op b = ok (.error e, b))

theorem readsBE_aux {w : Nat} (k : Nat) (hk : (k : Int) < 2 ^ 63) (hw : 8 * k ≤ w) (f : Bytes → Nat → Go (BitVec w))
    (hf : ∀ s o, o + k ≤ s.length → f s o = ok (BitVec.ofNat w (beNat ((s.drop o).take k)))) :
    ReadsBE (fun b => thenRead (b.peekN k) fun b => b.atBack k f) k := by
  intro b hv
  have hlo := hv.lo
  obtain ⟨h1, h2⟩ := thenRead_peekN hv hk f
  constructor
  · intro h
    have hm : b.moveSpec k := ⟨by omega, h⟩
    have hfit := (hv.moveSpec_nat k).mp hm
    refine ⟨BitVec.ofNat w (beNat ((b.data.drop b.offset.toNat).take k)), ?_, ?_⟩
    · simp only; rw [h1 hm, hf _ _ hfit]; rfl
    · rw [BitVec.toNat_ofNat]
      apply Nat.mod_eq_of_lt
      have h3 := beNat_lt ((b.data.drop b.offset.toNat).take k)
      have h4 : ((b.data.drop b.offset.toNat).take k).length = k := by simp; omega
      rw [h4] at h3
      calc _ < 256 ^ k := h3
        _ = 2 ^ (8 * k) := by rw [show 256 = 2 ^ 8 from rfl, ← Nat.pow_mul]
        _ ≤ 2 ^ w := Nat.pow_le_pow_right (by omega) hw
  · intro h
    exact h2 (by unfold moveSpec; omega)

/-- **C07** `ReadUint8/16/24/32/64` return the big-endian value of exactly the next 1/2/3/4/8 bytes and advance by that
much; they fail, without effect, iff fewer bytes remain. -/
theorem C07_typed_reads :
    ReadsBE readUint8 1 ∧ ReadsBE readUint16 2 ∧ ReadsBE readUint24 3 ∧ ReadsBE readUint32 4 ∧ ReadsBE readUint64 8 := by
  refine ⟨?_, ?_, ?_, ?_, ?_⟩
  · apply readsBE_aux 1 (by omega) (by omega)
    intro s o h
    rw [idx_of_lt (by omega), List.drop_eq_getElem_cons (by omega), List.take_succ_cons, List.take_zero]
    simp [beNat]
  · exact readsBE_aux 2 (by omega) (by omega) _ uint16At_eq
  · exact readsBE_aux 3 (by omega) (by omega) _ uint24At_eq
  · exact readsBE_aux 4 (by omega) (by omega) _ uint32At_eq
  · exact readsBE_aux 8 (by omega) (by omega) _ uint64At_eq

/-- **C07/C10** `ReadBytes(n)` for `n ≥ 0` returns exactly the next `n` bytes, or an error without effect; no panic. -/
theorem C07_readBytes (b : BytesBuf) (hv : b.Valid) (n : Nat) (hn : (n : Int) < 2 ^ 63) :
    (b.offset + n ≤ b.length →
      b.readBytes n = ok (.ok ((b.data.drop b.offset.toNat).take n), { b with offset := b.offset + n })) ∧
    (b.length < b.offset + n → ∃ e, b.readBytes n = ok (.error e, b)) := by
  have hlo := hv.lo
  have hl := hv.len
  constructor
  · intro h
    have hm : b.moveSpec n := ⟨by omega, h⟩
    unfold readBytes
    rw [peekN_ok hv hm]
    simp only [thenRead, sliceI]
    rw [if_pos (by omega)]
    simp only [ok_bind, pure_def]
    congr 3
    rw [List.drop_take]
    congr 1
    omega
  · intro h
    obtain ⟨e, he⟩ := peekN_err hv ⟨by omega, hn⟩ (by unfold moveSpec; omega)
    exact ⟨e, by rw [readBytes, he]; rfl⟩

/-- **C10** the full claim, for every 64-bit int. -/
def C10_claim : Prop := ∀ (b : BytesBuf) (n : Int), b.Valid → I64 n → NoPanic (b.readBytes n)

/-- **C10** is false of the code: `ReadBytes(-1)` after reading one byte panics (it slices `data[1:0]`). -/
theorem C10_readBytes_violated : ¬ C10_claim := by
  intro h
  have hv : (⟨[7], 1, 1⟩ : BytesBuf).Valid := ⟨rfl, by decide, by decide, by decide⟩
  have := h ⟨[7], 1, 1⟩ (-1) hv ⟨by decide, by decide⟩
  exact this (by decide +kernel)

/-- **C10** (partial: the size has to be non-negative, or the call has to fail its bounds check).  A negative size
panics exactly when it does not run off the front of the buffer. -/
theorem C10_readBytes_partial (b : BytesBuf) (hv : b.Valid) (n : Int) (hn : I64 n) :
    NoPanic (b.readBytes n) ↔ (0 ≤ n ∨ b.offset + n < 0) := by
  have hlo := hv.lo
  have hl := hv.len
  have hhi := hv.hi
  have hn1 := hn.1
  have hn2 := hn.2
  rcases Int.lt_or_le n 0 with h | h
  · by_cases h2 : b.offset + n < 0
    · obtain ⟨e, he⟩ := peekN_err hv hn (by unfold moveSpec; omega)
      simp [readBytes, he, thenRead, h2]
    · have hm : b.moveSpec n := ⟨by omega, by omega⟩
      have : b.readBytes n = panic := by
        unfold readBytes
        rw [peekN_ok hv hm]
        simp only [thenRead, sliceI]
        rw [if_neg (by omega)]
        rfl
      rw [this]
      simp; omega
  · obtain ⟨m, rfl⟩ := Int.eq_ofNat_of_zero_le h
    obtain ⟨h1, h2⟩ := C07_readBytes b hv m hn.2
    simp only [h, true_or, iff_true]
    by_cases h3 : b.offset + m ≤ b.length
    · rw [h1 h3]; simp
    · obtain ⟨e, he⟩ := h2 (by omega)
      rw [he]; simp

/-! ## C09 typed writes -/

/-- `op` stores exactly `bs` at the old offset and advances by its length, or fails and does nothing. -/
def Writes (op : BytesBuf → Go (Res Unit)) (bs : Bytes) : Prop :=
  ∀ b : BytesBuf, b.Valid →
    (b.offset + bs.length ≤ b.length →
      op b = ok (.ok (), { b with offset := b.offset + bs.length, data := overwrite b.data b.offset.toNat bs })) ∧
    (b.length < b.offset + bs.length → ∃ e, op b = ok (.error e, b))

theorem writes_aux (bs : Bytes) (k : Nat) (hkb : bs.length = k) (hk : (k : Int) < 2 ^ 63) (f : Bytes → Nat → Go Bytes)
    (hf : ∀ s o, o + k ≤ s.length → f s o = ok (overwrite s o bs)) :
    Writes (fun b => thenWrite (b.peekN k) fun b => b.atBack k f) bs := by
  intro b hv
  have hlo := hv.lo
  obtain ⟨h1, h2⟩ := thenWrite_peekN hv hk f
  rw [hkb]
  constructor
  · intro h
    have hm : b.moveSpec k := ⟨by omega, h⟩
    simp only
    rw [h1 hm, hf _ _ ((hv.moveSpec_nat k).mp hm)]
    rfl
  · intro h
    exact h2 (by unfold moveSpec; omega)

/-- **C09** every typed write stores exactly the big-endian digits of its value (or the given bytes) at the old offset:
the buffer afterwards is the old one with that window replaced.  It fails, without effect, iff the window does not fit. -/
theorem C09_typed_writes :
    (∀ v, Writes (writeUint8 · v) (beBytes 1 v.toNat)) ∧ (∀ v, Writes (writeUint16 · v) (beBytes 2 v.toNat)) ∧
    (∀ v, Writes (writeUint32 · v) (beBytes 4 v.toNat)) ∧ (∀ v, Writes (writeUint64 · v) (beBytes 8 v.toNat)) ∧
    (∀ d : Bytes, (d.length : Int) < 2 ^ 63 → Writes (write · d) d) := by
  refine ⟨?_, ?_, ?_, ?_, ?_⟩
  · intro v
    apply writes_aux _ 1 (by simp) (by omega)
    intro s o h
    rw [setIdx_of_lt (by omega), overwrite_fit (by simpa using h)]
    congr 1
    rw [List.set_eq_take_append_cons_drop, if_pos (by omega)]
    simp [beBytes]
  · intro v
    apply writes_aux _ 2 (by simp) (by omega)
    intro s o h
    rw [putAt, be16_eq, if_pos (by simpa using h)]
  · intro v
    apply writes_aux _ 4 (by simp) (by omega)
    intro s o h
    rw [putAt, be32_eq, if_pos (by simpa using h)]
  · intro v
    apply writes_aux _ 8 (by simp) (by omega)
    intro s o h
    rw [putAt, be64_eq, if_pos (by simpa using h)]
  · intro d hd
    apply writes_aux _ d.length rfl hd
    intro s o h
    rw [copyAt_of_le (by omega)]

/-- **C09** reading of the previous theorem: length kept, window holds the bytes, every byte outside is unchanged. -/
theorem C09_frame (op : BytesBuf → Go (Res Unit)) (bs : Bytes) (hop : Writes op bs) (b : BytesBuf) (hv : b.Valid)
    (hfit : b.offset + bs.length ≤ b.length) :
    ∃ b', op b = ok (.ok (), b') ∧ b'.offset = b.offset + bs.length ∧ b'.data.length = b.data.length ∧
      (b'.data.drop b.offset.toNat).take bs.length = bs ∧
      ∀ i, (i < b.offset.toNat ∨ b.offset.toNat + bs.length ≤ i) → b'.data[i]? = b.data[i]? := by
  have hlo := hv.lo
  have hl := hv.len
  refine ⟨_, (hop b hv).1 hfit, rfl, ?_, ?_, ?_⟩
  · exact length_overwrite (by omega)
  · exact take_drop_overwrite (by omega)
  · intro i hi
    simp only
    rw [getElem?_overwrite (by omega), if_neg (by omega)]

/-! ## C05, C06 every operation -/

/-- **C06** every operation with in-range arguments (bar a negative `ReadBytes`): if its target offset lies in
`[0, len]` it succeeds and moves exactly there, otherwise it returns an error and nothing at all has changed.  (With
`Op.delta = none`, i.e. `Reset` and `Clear`, it always succeeds.)  In particular none of them panics. -/
theorem C06_error_iff_and_no_effect (o : Op) (b : BytesBuf) (hv : b.Valid) (ho : o.WF) (hneg : ¬ o.Neg) :
    match o.delta with
    | none => ∃ b', o.run b = ok (true, b')
    | some d =>
      ((0 ≤ b.offset + d ∧ b.offset + d ≤ b.length) → ∃ b', o.run b = ok (true, b') ∧ b'.offset = b.offset + d ∧
        b'.length = b.length ∧ b'.data.length = b.data.length) ∧
      (¬ (0 ≤ b.offset + d ∧ b.offset + d ≤ b.length) → o.run b = ok (false, b)) := by
  have hlo := hv.lo
  have hl := hv.len
  have hhi := hv.hi
  have hfits := hv.fits
  have rd : ∀ {w : Nat} (op : BytesBuf → Go (Res (BitVec w))) (k : Nat), ReadsBE op k →
      ((0 ≤ b.offset + k ∧ b.offset + k ≤ b.length) → ∃ b', erase (op b) = ok (true, b') ∧ b'.offset = b.offset + k ∧
        b'.length = b.length ∧ b'.data.length = b.data.length) ∧
      (¬ (0 ≤ b.offset + k ∧ b.offset + k ≤ b.length) → erase (op b) = ok (false, b)) := by
    intro w op k hop
    constructor
    · intro h
      obtain ⟨v, h1, _⟩ := (hop b hv).1 h.2
      exact ⟨{ b with offset := b.offset + k }, by rw [h1]; rfl, rfl, rfl, rfl⟩
    · intro h
      obtain ⟨e, h1⟩ := (hop b hv).2 (by omega)
      rw [h1]; rfl
  have wr : ∀ (op : BytesBuf → Go (Res Unit)) (bs : Bytes), Writes op bs →
      ((0 ≤ b.offset + bs.length ∧ b.offset + bs.length ≤ b.length) → ∃ b', erase (op b) = ok (true, b') ∧
        b'.offset = b.offset + bs.length ∧ b'.length = b.length ∧ b'.data.length = b.data.length) ∧
      (¬ (0 ≤ b.offset + bs.length ∧ b.offset + bs.length ≤ b.length) → erase (op b) = ok (false, b)) := by
    intro op bs hop
    constructor
    · intro h
      exact ⟨{ b with offset := b.offset + bs.length, data := overwrite b.data b.offset.toNat bs },
        by rw [(hop b hv).1 h.2]; rfl, rfl, rfl, length_overwrite (by omega)⟩
    · intro h
      obtain ⟨e, h1⟩ := (hop b hv).2 (by omega)
      rw [h1]; rfl
  have mv : ∀ n : Int, I64 n →
      ((0 ≤ b.offset + n ∧ b.offset + n ≤ b.length) → ∃ b', erase (ok (b.peekN n)) = ok (true, b') ∧
        b'.offset = b.offset + n ∧ b'.length = b.length ∧ b'.data.length = b.data.length) ∧
      (¬ (0 ≤ b.offset + n ∧ b.offset + n ≤ b.length) → erase (ok (b.peekN n)) = ok (false, b)) := by
    intro n hn
    constructor
    · intro h
      exact ⟨{ b with offset := b.offset + n }, by rw [peekN_ok hv h]; rfl, rfl, rfl, rfl⟩
    · intro h
      obtain ⟨e, he⟩ := peekN_err hv hn h
      rw [he]; rfl
  obtain ⟨r1, r2, r3, r4, r8⟩ := C07_typed_reads
  obtain ⟨w1, w2, w4, w8, ws⟩ := C09_typed_writes
  cases o with
  | seek n => exact mv n ho
  | seekBack n =>
    have hn : I64 n := ho
    obtain ⟨hn1, hn2⟩ := hn
    simp only [Op.delta, Op.run, seekBack]
    by_cases h : n = -2 ^ 63
    · subst h
      constructor
      · intro h; omega
      · intro _
        obtain ⟨e, he⟩ := peekN_err hv (size := wrap64 (0 - -2 ^ 63)) (by constructor <;> decide)
          (by unfold moveSpec; rw [show wrap64 (0 - -2 ^ 63) = -2 ^ 63 by decide]; omega)
        rw [he]; rfl
    · rw [wrap64_of_range (by omega) (by omega), show (0 : Int) - n = -n by omega]
      exact mv (-n) ⟨by omega, by omega⟩
  | reset d => exact ⟨_, rfl⟩
  | clear => exact ⟨_, rfl⟩
  | readUint8 => exact rd _ 1 r1
  | readUint16 => exact rd _ 2 r2
  | readUint24 => exact rd _ 3 r3
  | readUint32 => exact rd _ 4 r4
  | readUint64 => exact rd _ 8 r8
  | readBytes n =>
    have h0 : 0 ≤ n := by simp only [Op.Neg] at hneg; omega
    obtain ⟨m, rfl⟩ := Int.eq_ofNat_of_zero_le h0
    obtain ⟨h1, h2⟩ := C07_readBytes b hv m ho.2
    constructor
    · intro h
      exact ⟨{ b with offset := b.offset + (m : Int) }, by simp only [Op.run]; rw [h1 h.2]; rfl, rfl, rfl, rfl⟩
    · intro h
      obtain ⟨e, he⟩ := h2 (by omega)
      simp only [Op.run]; rw [he]; rfl
  | writeUint8 v => have := wr _ _ (w1 v); simpa [Op.delta, Op.run] using this
  | writeUint16 v => have := wr _ _ (w2 v); simpa [Op.delta, Op.run] using this
  | writeUint32 v => have := wr _ _ (w4 v); simpa [Op.delta, Op.run] using this
  | writeUint64 v => have := wr _ _ (w8 v); simpa [Op.delta, Op.run] using this
  | write d => exact wr _ _ (ws d ho)

/-- One step keeps the cursor valid. -/
theorem Op.run_valid (o : Op) (b b' : BytesBuf) (ok? : Bool) (hv : b.Valid) (ho : o.WF)
    (h : o.run b = ok (ok?, b')) : b'.Valid := by
  by_cases hneg : o.Neg
  · cases o with
    | readBytes n =>
      have hn : I64 n := ho
      have h0 : n < 0 := hneg
      simp only [Op.run, BytesBuf.readBytes] at h
      by_cases hm : b.moveSpec n
      · rw [peekN_ok hv hm] at h
        simp only [thenRead, sliceI] at h
        have := hv.lo
        rw [if_neg (by omega)] at h
        simp [erase] at h
      · obtain ⟨e, he⟩ := peekN_err hv hn hm
        rw [he] at h
        simp only [thenRead, erase, ok_bind, pure_def, Go.ok.injEq, Prod.mk.injEq] at h
        rw [← h.2]; exact hv
    | _ => exact absurd hneg (by simp [Op.Neg])
  · have := C06_error_iff_and_no_effect o b hv ho hneg
    split at this
    · rename_i hd
      cases o <;> simp only [Op.delta, reduceCtorEq] at hd
      · simp only [Op.run, Go.ok.injEq, Prod.mk.injEq] at h
        rw [← h.2]; exact valid_setData ho
      · simp only [Op.run, Go.ok.injEq, Prod.mk.injEq] at h
        rw [← h.2]
        exact ⟨hv.len, by simp [BytesBuf.clear], by simp only [BytesBuf.clear]; have := hv.lo; have := hv.hi; omega, hv.fits⟩
    · rename_i d hd
      by_cases hm : 0 ≤ b.offset + d ∧ b.offset + d ≤ b.length
      · obtain ⟨b2, h1, h2, h3, h4⟩ := this.1 hm
        rw [h] at h1
        simp only [Go.ok.injEq, Prod.mk.injEq] at h1
        rw [h1.2]
        exact ⟨by rw [h3, h4, hv.len], by rw [h2]; exact hm.1, by rw [h2, h3]; exact hm.2, by rw [h4]; exact hv.fits⟩
      · have h1 := this.2 hm
        rw [h] at h1
        simp only [Go.ok.injEq, Prod.mk.injEq] at h1
        rw [h1.2]; exact hv

/-- **C05** for any sequence of operations with any 64-bit int arguments on a cursor over any slice: when the sequence
has run (no panic), `Offset()` is between 0 and the buffer length. -/
theorem C05_cursor_in_range (data : Bytes) (hd : (data.length : Int) < 2 ^ 63) (ops : List Op) (hops : ∀ o ∈ ops, o.WF)
    (b : BytesBuf) (h : runAll ops (setData data) = ok b) :
    0 ≤ b.offset ∧ b.offset ≤ b.data.length ∧ b.length = b.data.length := by
  have key : ∀ (ops : List Op) (b0 b : BytesBuf), (∀ o ∈ ops, o.WF) → b0.Valid → runAll ops b0 = ok b → b.Valid := by
    intro ops
    induction ops with
    | nil => intro b0 b _ hv h; simp only [runAll, Go.ok.injEq] at h; rw [← h]; exact hv
    | cons o os ih =>
      intro b0 b hops hv h
      simp only [runAll] at h
      rw [bind_eq_ok] at h
      obtain ⟨⟨f, b1⟩, h1, h2⟩ := h
      exact ih b1 b (fun o ho => hops o (List.mem_cons_of_mem _ ho))
        (Op.run_valid o b0 b1 f hv (hops o (List.mem_cons_self ..)) h1) h2
  have hv := key ops _ b hops (valid_setData hd) h
  have := hv.len; have := hv.hi
  exact ⟨hv.lo, by omega, hv.len⟩

/-- **C05** what the cursor shows after any such sequence: `WrittenBytes()` and `RemainingBytes()` are the two parts of the
buffer before and behind the cursor, `Offset()` and `ReadableBytes()` are their lengths. -/
theorem C05_views (data : Bytes) (hd : (data.length : Int) < 2 ^ 63) (ops : List Op) (hops : ∀ o ∈ ops, o.WF)
    (b : BytesBuf) (h : runAll ops (setData data) = ok b) :
    ∃ l r, b.data = l ++ r ∧ b.writtenBytes = ok l ∧ b.remainingBytes = ok r ∧ b.reportedOffset = l.length ∧
      b.readableBytes = r.length := by
  obtain ⟨h1, h2, h3⟩ := C05_cursor_in_range data hd ops hops b h
  obtain ⟨k, hk⟩ := Int.eq_ofNat_of_zero_le h1
  refine ⟨b.data.take k, b.data.drop k, (List.take_append_drop k b.data).symm, ?_, ?_, ?_, ?_⟩
  · unfold writtenBytes sliceI
    rw [if_pos (by omega), hk]
    simp
  · unfold remainingBytes sliceI
    rw [if_pos (by omega), hk]
    simp
  · unfold reportedOffset
    rw [List.length_take]; omega
  · unfold readableBytes
    rw [List.length_drop]; omega

/-- **C05** `Clear` goes back to the start and keeps the data, `Reset` starts with other data. -/
theorem C05_clear_reset (b : BytesBuf) (d : Bytes) :
    (b.clear.reportedOffset = 0 ∧ b.clear.data = b.data ∧ b.clear.length = b.length) ∧
    ((setData d).reportedOffset = 0 ∧ (setData d).data = d ∧ (setData d).readableBytes = d.length) :=
  ⟨⟨rfl, rfl, rfl⟩, rfl, rfl, by simp [setData, readableBytes]⟩

example : ∃ b, runAll [.seek 2, .readUint8, .seekBack 1] (setData [1, 2, 3, 4]) = ok b ∧ b.writtenBytes = ok [1, 2] ∧
    b.remainingBytes = ok [3, 4] ∧ b.reportedOffset = 2 ∧ b.readableBytes = 2 := ⟨⟨[1, 2, 3, 4], 4, 2⟩, by decide +kernel⟩

/-- **C05** without negative `ReadBytes` no sequence panics. -/
theorem C05_no_panic (data : Bytes) (hd : (data.length : Int) < 2 ^ 63) (ops : List Op) (hops : ∀ o ∈ ops, o.WF)
    (hneg : ∀ o ∈ ops, ¬ o.Neg) : ∃ b, runAll ops (setData data) = ok b := by
  have key : ∀ (ops : List Op) (b0 : BytesBuf), (∀ o ∈ ops, o.WF) → (∀ o ∈ ops, ¬ o.Neg) → b0.Valid →
      ∃ b, runAll ops b0 = ok b := by
    intro ops
    induction ops with
    | nil => intro b0 _ _ _; exact ⟨b0, rfl⟩
    | cons o os ih =>
      intro b0 hops hneg hv
      have hstep : ∃ f b1, o.run b0 = ok (f, b1) := by
        have := C06_error_iff_and_no_effect o b0 hv (hops o (List.mem_cons_self ..)) (hneg o (List.mem_cons_self ..))
        split at this
        · obtain ⟨b', h⟩ := this; exact ⟨_, _, h⟩
        · rename_i d _
          by_cases hm : 0 ≤ b0.offset + d ∧ b0.offset + d ≤ b0.length
          · obtain ⟨b', h, _⟩ := this.1 hm; exact ⟨_, _, h⟩
          · exact ⟨_, _, this.2 hm⟩
      obtain ⟨f, b1, h1⟩ := hstep
      obtain ⟨b, hb⟩ := ih b1 (fun o ho => hops o (List.mem_cons_of_mem _ ho))
        (fun o ho => hneg o (List.mem_cons_of_mem _ ho)) (Op.run_valid o b0 b1 f hv (hops o (List.mem_cons_self ..)) h1)
      exact ⟨b, by simp only [runAll]; rw [h1]; exact hb⟩
  exact key ops _ hops hneg (valid_setData hd)

/-! ## C08 writer to reader -/

/-- A value a `BytesWriter` can write. -/
inductive Field where
  | u8 (v : Byte) | u16 (v : BitVec 16) | u32 (v : BitVec 32) | u64 (v : BitVec 64) | raw (d : Bytes)
deriving DecidableEq, Repr

/-- Big-endian layout of a field. -/
def Field.enc : Field → Bytes
  | .u8 v => beBytes 1 v.toNat
  | .u16 v => beBytes 2 v.toNat
  | .u32 v => beBytes 4 v.toNat
  | .u64 v => beBytes 8 v.toNat
  | .raw d => d

/-- The kind of a field: what a reader has to know. -/
inductive Kind where
  | u8 | u16 | u32 | u64 | raw (n : Nat)

def Field.kind : Field → Kind
  | .u8 _ => .u8
  | .u16 _ => .u16
  | .u32 _ => .u32
  | .u64 _ => .u64
  | .raw d => .raw d.length

def Field.write (f : Field) (b : BytesBuf) : Go (Res Unit) :=
  match f with
  | .u8 v => b.writeUint8 v
  | .u16 v => b.writeUint16 v
  | .u32 v => b.writeUint32 v
  | .u64 v => b.writeUint64 v
  | .raw d => b.write d

def Kind.read (k : Kind) (b : BytesBuf) : Go (Res Field) :=
  let wrap {α : Type} (f : α → Field) (r : Go (Res α)) : Go (Res Field) := do
    let (x, b) ← r
    return (x.map f, b)
  match k with
  | .u8 => wrap .u8 b.readUint8
  | .u16 => wrap .u16 b.readUint16
  | .u32 => wrap .u32 b.readUint32
  | .u64 => wrap .u64 b.readUint64
  | .raw n => wrap .raw (b.readBytes n)

/-- Write all fields, stopping at the first error. -/
def writeAll : List Field → BytesBuf → Go (Res Unit)
  | [], b => ok (.ok (), b)
  | f :: fs, b => do
    let (x, b') ← f.write b
    match x with
    | .ok () => writeAll fs b'
    | .error e => return (.error e, b')

/-- Read fields of the given kinds, stopping at the first error. -/
def readAll : List Kind → BytesBuf → Go (Res (List Field))
  | [], b => ok (.ok [], b)
  | k :: ks, b => do
    let (x, b') ← k.read b
    match x with
    | .ok f => do
      let (y, b'') ← readAll ks b'
      return (y.map (f :: ·), b'')
    | .error e => return (.error e, b')

theorem Field.write_spec (f : Field) (hf : (f.enc.length : Int) < 2 ^ 63) : Writes f.write f.enc := by
  obtain ⟨w1, w2, w4, w8, ws⟩ := C09_typed_writes
  cases f with
  | u8 v => exact w1 v
  | u16 v => exact w2 v
  | u32 v => exact w4 v
  | u64 v => exact w8 v
  | raw d => exact ws d hf

theorem Kind.read_spec (f : Field) (b : BytesBuf) (hv : b.Valid) (hf : b.offset + f.enc.length ≤ b.length)
    (h : (b.data.drop b.offset.toNat).take f.enc.length = f.enc) :
    f.kind.read b = ok (.ok f, { b with offset := b.offset + f.enc.length }) := by
  obtain ⟨r1, r2, r3, r4, r8⟩ := C07_typed_reads
  have key : ∀ {w : Nat} (op : BytesBuf → Go (Res (BitVec w))) (k : Nat) (v : BitVec w), ReadsBE op k → w = 8 * k →
      b.offset + k ≤ b.length → (b.data.drop b.offset.toNat).take k = beBytes k v.toNat →
      op b = ok (.ok v, { b with offset := b.offset + k }) := by
    intro w op k v hop hw hfit hd
    obtain ⟨v', h1, h2⟩ := (hop b hv).1 hfit
    rw [hd, beNat_beBytes, Nat.mod_eq_of_lt] at h2
    · rw [h1, BitVec.eq_of_toNat_eq h2]
    · have := v.isLt
      rw [show 256 = 2 ^ 8 from rfl, ← Nat.pow_mul, ← hw]; exact this
  cases f with
  | u8 v =>
    have := key readUint8 1 v r1 rfl (by simpa [Field.enc] using hf) (by simpa [Field.enc] using h)
    simp [Field.kind, Kind.read, this, Field.enc, Except.map]
  | u16 v =>
    have := key readUint16 2 v r2 rfl (by simpa [Field.enc] using hf) (by simpa [Field.enc] using h)
    simp [Field.kind, Kind.read, this, Field.enc, Except.map]
  | u32 v =>
    have := key readUint32 4 v r4 rfl (by simpa [Field.enc] using hf) (by simpa [Field.enc] using h)
    simp [Field.kind, Kind.read, this, Field.enc, Except.map]
  | u64 v =>
    have := key readUint64 8 v r8 rfl (by simpa [Field.enc] using hf) (by simpa [Field.enc] using h)
    simp [Field.kind, Kind.read, this, Field.enc, Except.map]
  | raw d =>
    have h1 := hv.fits; have h2 := hv.len; have h3 := hv.lo
    simp only [Field.enc] at hf h
    have := (C07_readBytes b hv d.length (by omega)).1 hf
    rw [h] at this
    simp [Field.kind, Kind.read, this, Field.enc, Except.map]

theorem writeAll_spec (fs : List Field) : ∀ (b : BytesBuf), b.Valid →
    b.offset + (fs.flatMap Field.enc).length ≤ b.length →
    writeAll fs b = ok (.ok (), { b with
      offset := b.offset + (fs.flatMap Field.enc).length
      data := overwrite b.data b.offset.toNat (fs.flatMap Field.enc) }) := by
  induction fs with
  | nil => intro b _ _; simp [writeAll, overwrite_nil]
  | cons f fs ih =>
    intro b hv hfit
    have hlo := hv.lo; have hl := hv.len; have hfits := hv.fits
    simp only [List.flatMap_cons, List.length_append] at hfit ⊢
    have h1 := ((f.write_spec (by omega)) b hv).1 (by omega)
    simp only [writeAll]
    rw [h1]
    simp only [ok_bind]
    have hv' : Valid { b with offset := b.offset + f.enc.length, data := overwrite b.data b.offset.toNat f.enc } := by
      have hle : (overwrite b.data b.offset.toNat f.enc).length = b.data.length := length_overwrite (by omega)
      exact ⟨by simp only [hle]; exact hl, by simp only; omega, by simp only; omega, by simp only [hle]; exact hfits⟩
    rw [ih _ hv' (by simp only; omega)]
    simp only
    have e : (b.offset + (f.enc.length : Int)).toNat = b.offset.toNat + f.enc.length := by omega
    rw [e, overwrite_overwrite (by omega), Int.add_assoc, Int.natCast_add]

theorem readAll_spec (fs : List Field) : ∀ (b : BytesBuf), b.Valid →
    b.offset + (fs.flatMap Field.enc).length ≤ b.length →
    (b.data.drop b.offset.toNat).take (fs.flatMap Field.enc).length = fs.flatMap Field.enc →
    readAll (fs.map Field.kind) b = ok (.ok fs, { b with offset := b.offset + (fs.flatMap Field.enc).length }) := by
  induction fs with
  | nil => intro b _ _ _; simp [readAll]
  | cons f fs ih =>
    intro b hv hfit h
    have hlo := hv.lo; have hl := hv.len
    simp only [List.flatMap_cons, List.length_append] at hfit h ⊢
    have h1 : (b.data.drop b.offset.toNat).take f.enc.length = f.enc := by
      have := congrArg (List.take f.enc.length) h
      rw [List.take_take, Nat.min_eq_left (by omega), List.take_append_of_le_length (by simp),
        List.take_of_length_le (l := f.enc) (by simp)] at this
      exact this
    have h2 : (b.data.drop (b.offset.toNat + f.enc.length)).take (fs.flatMap Field.enc).length = fs.flatMap Field.enc := by
      have := congrArg (List.drop f.enc.length) h
      rw [List.drop_take, List.drop_drop, Nat.add_sub_cancel_left, List.drop_append_of_le_length (by simp),
        List.drop_eq_nil_of_le (as := f.enc) (by simp)] at this
      exact this
    have h3 := Kind.read_spec f b hv (by omega) h1
    simp only [List.map_cons, readAll]
    rw [h3]
    simp only [ok_bind]
    have hv' : Valid { b with offset := b.offset + f.enc.length } := hv.move ⟨by omega, by omega⟩
    have e : (b.offset + (f.enc.length : Int)).toNat = b.offset.toNat + f.enc.length := by omega
    rw [ih _ hv' (by simp only; omega) (by simp only [e]; exact h2)]
    simp only [ok_bind, pure_def, Except.map]
    congr 3
    omega

/-- **C08** write any list of fields that fits into any buffer; then `WrittenBytes()` is their big-endian concatenation,
and a reader over the buffer, reading the same kinds, returns the same values. -/
theorem C08_write_then_read (buf : Bytes) (fs : List Field) (hb : (buf.length : Int) < 2 ^ 63)
    (hfit : (fs.flatMap Field.enc).length ≤ buf.length) :
    ∃ w, writeAll fs (setData buf) = ok (.ok (), w) ∧ w.writtenBytes = ok (fs.flatMap Field.enc) ∧
      ∃ r, readAll (fs.map Field.kind) (setData w.data) = ok (.ok fs, r) := by
  refine ⟨_, writeAll_spec fs _ (valid_setData hb) (by simp only [setData]; omega), ?_, ?_⟩
  · simp only [writtenBytes, setData, Int.zero_add, sliceI]
    have : (overwrite buf (Int.toNat 0) (fs.flatMap Field.enc)).length = buf.length := length_overwrite (by simp)
    rw [if_pos (by rw [this]; omega)]
    have h2 := take_overwrite_end (l := buf) (a := fs.flatMap Field.enc) (o := 0) (by omega)
    simp only [Nat.zero_add, List.take_zero, List.nil_append] at h2
    rw [show Int.toNat 0 = 0 from rfl, Int.toNat_natCast, h2]
    rfl
  · simp only [setData, Int.toNat_zero]
    have hle : (overwrite buf 0 (fs.flatMap Field.enc)).length = buf.length := length_overwrite (by simp)
    refine ⟨_, readAll_spec fs _ (valid_setData (by rw [hle]; exact hb)) (by simp only; omega) ?_⟩
    exact take_drop_overwrite (by simpa using hfit)

end BytesBuf

/-! ## C14 -/

/-- **C14** `PutUint24` then `Uint24` returns the value modulo 2^24, and all bytes from index 3 on are unchanged. -/
theorem C14_put_get (dst : Bytes) (v : BitVec 32) (h : 3 ≤ dst.length) :
    ∃ d', putUint24 dst v = ok d' ∧ d' = beBytes 3 v.toNat ++ dst.drop 3 ∧
      ∃ r, uint24 d' = ok r ∧ r.toNat = v.toNat % 2 ^ 24 := by
  obtain ⟨a, b, c, rest, rfl⟩ : ∃ a b c rest, dst = a :: b :: c :: rest := by
    match dst, h with
    | a :: b :: c :: rest, _ => exact ⟨a, b, c, rest, rfl⟩
  have hb : toByte (v >>> 16) :: toByte (v >>> 8) :: toByte v :: rest = beBytes 3 v.toNat ++ rest := by
    simp [beBytes, toByte, ← BitVec.toNat_inj, Nat.shiftRight_eq_div_pow]
  refine ⟨toByte (v >>> 16) :: toByte (v >>> 8) :: toByte v :: rest, ?_, ?_, ?_⟩
  · simp [putUint24, setIdx]
  · simpa using hb
  · refine ⟨_, uint24At_eq _ 0 (by simp), ?_⟩
    rw [hb]
    simp only [List.drop_zero]
    rw [List.take_append_of_le_length (by simp), List.take_of_length_le (by simp), beNat_beBytes, BitVec.toNat_ofNat]
    omega

/-- **C14** storing what was read changes nothing. -/
theorem C14_get_put (dst : Bytes) (v : BitVec 32) (h : uint24 dst = ok v) : putUint24 dst v = ok dst := by
  have hl : 3 ≤ dst.length := by
    rcases Nat.lt_or_ge dst.length 3 with h1 | h1
    · rw [uint24, uint24At_panic _ _ (by omega)] at h; cases h
    · exact h1
  obtain ⟨d', h1, h2, _⟩ := C14_put_get dst v hl
  rw [h1, h2]
  congr 1
  rw [uint24, uint24At_eq _ _ (by omega), Go.ok.injEq] at h
  rw [← h]
  simp only [List.drop_zero, BitVec.toNat_ofNat]
  have h3 : (dst.take 3).length = 3 := by simp; omega
  have h4 := beNat_lt (dst.take 3)
  rw [h3] at h4
  rw [Nat.mod_eq_of_lt (by omega)]
  have := beBytes_beNat (dst.take 3)
  rw [h3] at this
  rw [this, List.take_append_drop]

/-- **C14** both accessors panic exactly on slices of fewer than 3 bytes. -/
theorem C14_panic_iff (dst : Bytes) (v : BitVec 32) :
    (putUint24 dst v = panic ↔ dst.length < 3) ∧ (uint24 dst = panic ↔ dst.length < 3) := by
  constructor
  · rcases Nat.lt_or_ge dst.length 3 with h | h
    · simp only [h, iff_true]
      match dst, h with
      | [], _ => rfl
      | [_], _ => rfl
      | [_, _], _ => rfl
    · obtain ⟨d', h1, _⟩ := C14_put_get dst v h
      rw [h1]; simp; omega
  · rcases Nat.lt_or_ge dst.length 3 with h | h
    · simp only [h, iff_true]; exact uint24At_panic _ _ (by omega)
    · rw [uint24, uint24At_eq _ _ (by omega)]; simp; omega

/-! Non-vacuity. -/
namespace BytesBuf
example : (setData [1, 2, 3, 4, 5]).Valid := valid_setData (by decide)
example : (setData [1, 2, 3, 4, 5]).readUint24 = ok (.ok 0x010203, ⟨[1, 2, 3, 4, 5], 5, 3⟩) := by decide +kernel
example : runAll [.seek 3, .seekBack 1, .readUint16, .seek (2 ^ 63 - 1), .seekBack (-2 ^ 63)] (setData [1, 2, 3, 4, 5]) =
    ok ⟨[1, 2, 3, 4, 5], 5, 4⟩ := by decide +kernel
example : ∀ o ∈ [Op.seek 3, .seekBack 1, .readUint16, .seek (2 ^ 63 - 1), .readBytes 2], o.WF ∧ ¬ o.Neg := by
  simp [Op.WF, Op.Neg, I64]
example : (⟨[1, 2], 2, 1⟩ : BytesBuf).offset + (1 : Nat) ≤ (⟨[1, 2], 2, 1⟩ : BytesBuf).length := by decide
example : writeAll [.u16 0x1234, .raw [9, 9, 9], .u8 7] (setData (List.replicate 8 0)) =
    ok (.ok (), ⟨[0x12, 0x34, 9, 9, 9, 7, 0, 0], 8, 6⟩) := by decide +kernel
end BytesBuf
example : (3 : Nat) ≤ ([1, 2, 3, 4] : Bytes).length ∧ putUint24 [1, 2, 3, 4] 0xAABBCCDD = ok [0xBB, 0xCC, 0xDD, 4] := by
  decide +kernel
example : uint24 [0xBB, 0xCC, 0xDD, 4] = ok 0xBBCCDD := by decide +kernel

/-! ## C89 -/

/-- **C89** `MinInt` and `MaxInt` return one of their arguments, the smaller and the larger one, for all pairs of ints. The models of
the callers (`direct_pipeline.go`, `demuxer.go`, `collections/buffer_rb.go`) use `max`. -/
theorem C89_min_max (a b : Int) :
    (minInt a b = a ∨ minInt a b = b) ∧ minInt a b ≤ a ∧ minInt a b ≤ b ∧
    (maxInt a b = a ∨ maxInt a b = b) ∧ a ≤ maxInt a b ∧ b ≤ maxInt a b ∧ maxInt a b = max a b ∧ minInt a b = min a b := by
  unfold minInt maxInt
  by_cases h : a > b
  · rw [if_pos h, if_pos h]; omega
  · rw [if_neg h, if_neg h]; omega

example : minInt (-3) 7 = -3 ∧ maxInt (-3) 7 = 7 ∧ maxInt 4 4 = 4 := by decide

end Avf
