/-!
# The fragment of Go semantics used by the model

A Go call is modelled by a value of `Go α`:
* `ok a`    – the call returned `a` (and a nil error where the Go function has an error result);
* `err m`   – the call returned a non-nil error (the message is kept only for readability);
* `panic`   – a run-time panic: index or slice bounds out of range, nil dereference, a failed
  `utils.Assert` (/repo/utils/assert.go:8-18) or an explicit `panic(...)`.

Slices that are only read are lists whose capacity equals their length.
-/

namespace Avf

deriving instance DecidableEq for Except

/-- Go `byte`. -/
abbrev Byte := BitVec 8
/-- Go `[]byte` (contents only; capacity = length). -/
abbrev Bytes := List Byte

/-- Outcome of a Go call. -/
inductive Go (α : Type u) where
  | ok (a : α)
  | err (msg : String)
  | panic
deriving DecidableEq, Repr

namespace Go

@[inline] protected def bind {α : Type u} {β : Type v} (x : Go α) (f : α → Go β) : Go β :=
  match x with
  | ok a => f a
  | err m => err m
  | panic => panic

instance : Monad Go where
  pure := ok
  bind := Go.bind

@[simp] theorem pure_def {α : Type u} (a : α) : (pure a : Go α) = ok a := rfl
/-- Not proved by a plain `rfl`, so that `simp` leaves no unfolding of binds to the kernel. -/
@[simp] theorem ok_bind {α β : Type u} (a : α) (f : α → Go β) : (ok a >>= f) = f a := Eq.trans rfl rfl
@[simp] theorem err_bind {α β : Type u} (m : String) (f : α → Go β) : (err m >>= f) = err m := rfl
@[simp] theorem panic_bind {α β : Type u} (f : α → Go β) : ((panic : Go α) >>= f) = panic := rfl

instance : LawfulMonad Go := LawfulMonad.mk'
  (id_map := by intro α x; cases x <;> rfl)
  (pure_bind := by intros; rfl)
  (bind_assoc := by intro α β γ x f g; cases x <;> rfl)

@[simp] theorem map_ok {α β : Type u} (f : α → β) (a : α) : (f <$> (ok a : Go α)) = ok (f a) := rfl
@[simp] theorem map_err {α β : Type u} (f : α → β) (m : String) : (f <$> (err m : Go α)) = err m := rfl
@[simp] theorem map_panic {α β : Type u} (f : α → β) : (f <$> (panic : Go α)) = panic := rfl

theorem bind_eq_ok {α β : Type u} {x : Go α} {f : α → Go β} {b : β} :
    (x >>= f) = ok b ↔ ∃ a, x = ok a ∧ f a = ok b := by
  cases x <;> simp

theorem bind_eq_panic {α β : Type u} {x : Go α} {f : α → Go β} :
    (x >>= f) = panic ↔ x = panic ∨ ∃ a, x = ok a ∧ f a = panic := by
  cases x <;> simp

/-- The call did not panic. -/
def NoPanic {α : Type u} (x : Go α) : Prop := x ≠ panic

@[simp] theorem noPanic_ok {α : Type u} (a : α) : NoPanic (ok a) := by simp [NoPanic]
@[simp] theorem noPanic_err {α : Type u} (m : String) : NoPanic (err m : Go α) := by simp [NoPanic]
@[simp] theorem not_noPanic {α : Type u} : ¬ NoPanic (panic : Go α) := by simp [NoPanic]

theorem NoPanic.bind {α β : Type u} {x : Go α} {f : α → Go β}
    (hx : NoPanic x) (hf : ∀ a, x = ok a → NoPanic (f a)) : NoPanic (x >>= f) := by
  cases x with
  | ok a => exact hf a rfl
  | err m => simp
  | panic => exact absurd rfl hx

/-- Did the call return an error? -/
def isErr {α : Type u} : Go α → Bool
  | err _ => true
  | _ => false

@[simp] theorem isErr_ok {α : Type u} (a : α) : isErr (ok a) = false := rfl
@[simp] theorem isErr_err {α : Type u} (m : String) : isErr (err m : Go α) = true := rfl
@[simp] theorem isErr_panic {α : Type u} : isErr (panic : Go α) = false := rfl

end Go

open Go

/-- `utils.Assert` (/repo/utils/assert.go:8-18). -/
def assert (b : Bool) : Go Unit := if b then ok () else panic

@[simp] theorem assert_true : assert true = ok () := rfl
@[simp] theorem assert_false : assert false = panic := rfl

/-- `s[i]` for a non-negative index. -/
def idx {α : Type u} (s : List α) (i : Nat) : Go α :=
  match s[i]? with
  | some a => ok a
  | none => panic

/-- `s[i]` for any int index. -/
def idxI {α : Type u} (s : List α) (i : Int) : Go α :=
  if i < 0 then panic else idx s i.toNat

/-- `s[a:b]`. -/
def slice {α : Type u} (s : List α) (a b : Nat) : Go (List α) :=
  if a ≤ b ∧ b ≤ s.length then ok ((s.take b).drop a) else panic

/-- `s[a:b]` for int bounds. -/
def sliceI {α : Type u} (s : List α) (a b : Int) : Go (List α) :=
  if 0 ≤ a ∧ a ≤ b ∧ b ≤ s.length then ok ((s.take b.toNat).drop a.toNat) else panic

/-- `s[a:]`. -/
def sliceFrom {α : Type u} (s : List α) (a : Nat) : Go (List α) :=
  if a ≤ s.length then ok (s.drop a) else panic

/-- `s[i] = v`. -/
def setIdx {α : Type u} (s : List α) (i : Nat) (v : α) : Go (List α) :=
  if i < s.length then ok (s.set i v) else panic

/-- Effect of Go's `copy` on a destination that has at least `off` elements: as many elements of `src` as fit are
stored from index `off` on. -/
def overwrite {α : Type u} (dst : List α) (off : Nat) (src : List α) : List α :=
  dst.take off ++ src.take (dst.length - off) ++ dst.drop (off + src.length)

/-- `copy(dst[off:], src)`. -/
def copyAt {α : Type u} (dst : List α) (off : Nat) (src : List α) : Go (List α) :=
  if off ≤ dst.length then ok (overwrite dst off src) else panic

theorem idx_eq_ok {α : Type u} {s : List α} {i : Nat} {a : α} : idx s i = ok a ↔ s[i]? = some a := by
  unfold idx; split <;> simp_all

theorem idx_of_lt {α : Type u} {s : List α} {i : Nat} (h : i < s.length) : idx s i = ok s[i] := by
  simp [idx, h]

theorem idx_of_ge {α : Type u} {s : List α} {i : Nat} (h : s.length ≤ i) : idx s i = panic := by
  simp [idx, h]

theorem idx_eq_panic {α : Type u} {s : List α} {i : Nat} : idx s i = panic ↔ s.length ≤ i := by
  unfold idx; split <;> simp_all
  rename_i a h
  exact (List.getElem?_eq_some_iff.mp h).1

theorem slice_of_le {α : Type u} {s : List α} {a b : Nat} (h : a ≤ b) (h' : b ≤ s.length) :
    slice s a b = ok ((s.take b).drop a) := by simp [slice, h, h']

theorem sliceFrom_of_le {α : Type u} {s : List α} {a : Nat} (h : a ≤ s.length) :
    sliceFrom s a = ok (s.drop a) := by simp [sliceFrom, h]

theorem setIdx_of_lt {α : Type u} {s : List α} {i : Nat} {v : α} (h : i < s.length) :
    setIdx s i v = ok (s.set i v) := by simp [setIdx, h]

theorem copyAt_of_le {α : Type u} {dst src : List α} {off : Nat} (h : off ≤ dst.length) :
    copyAt dst off src = ok (overwrite dst off src) := by simp [copyAt, h]

@[simp] theorem length_overwrite {α : Type u} {dst src : List α} {off : Nat} (h : off ≤ dst.length) :
    (overwrite dst off src).length = dst.length := by
  simp only [overwrite, List.length_append, List.length_take, List.length_drop]; omega

theorem overwrite_fit {α : Type u} {dst src : List α} {off : Nat} (h : off + src.length ≤ dst.length) :
    overwrite dst off src = dst.take off ++ src ++ dst.drop (off + src.length) := by
  rw [overwrite, List.take_of_length_le (l := src) (by omega)]

theorem overwrite_nil {α : Type u} {dst : List α} {off : Nat} : overwrite dst off [] = dst := by
  simp [overwrite]

theorem getElem?_overwrite {α : Type u} {dst src : List α} {off i : Nat} (h : off ≤ dst.length) :
    (overwrite dst off src)[i]? =
      if off ≤ i ∧ i < off + src.length ∧ i < dst.length then src[i - off]? else dst[i]? := by
  unfold overwrite
  by_cases h1 : i < off
  · rw [List.append_assoc, List.getElem?_append_left (by simp; omega)]
    simp [h1]; omega
  · rw [List.append_assoc, List.getElem?_append_right (by simp; omega)]
    simp only [List.length_take, Nat.min_eq_left h]
    by_cases h2 : i - off < min (dst.length - off) src.length
    · rw [List.getElem?_append_left (by simpa using h2)]
      rw [List.getElem?_take]
      have : i - off < dst.length - off := by omega
      simp [this]; intro h3; omega
    · rw [List.getElem?_append_right (by simpa using Nat.le_of_not_lt h2)]
      simp only [List.length_take, List.getElem?_drop]
      by_cases h3 : src.length ≤ dst.length - off
      · rw [Nat.min_eq_right h3]
        have : off + src.length + (i - off - src.length) = i := by omega
        rw [this]
        rw [if_neg]; omega
      · rw [if_neg (by omega)]
        rw [List.getElem?_eq_none (by omega), List.getElem?_eq_none (by omega)]

theorem overwrite_overwrite {α : Type u} {l a b : List α} {o : Nat} (h : o + a.length ≤ l.length) :
    overwrite (overwrite l o a) (o + a.length) b = overwrite l o (a ++ b) := by
  apply List.ext_getElem?
  intro k
  rw [getElem?_overwrite (by rw [length_overwrite (by omega)]; exact h), getElem?_overwrite (by omega),
    getElem?_overwrite (by omega), length_overwrite (by omega), List.length_append]
  by_cases h1 : o + a.length ≤ k ∧ k < o + a.length + b.length ∧ k < l.length
  · rw [if_pos h1, if_pos (by omega), List.getElem?_append_right (by omega)]
    congr 1; omega
  · rw [if_neg h1]
    by_cases h2 : o ≤ k ∧ k < o + a.length ∧ k < l.length
    · rw [if_pos h2, if_pos (by omega), List.getElem?_append_left (by omega)]
    · rw [if_neg h2, if_neg (by omega)]

/-- Reading back the window that was overwritten. -/
theorem take_drop_overwrite {α : Type u} {l a : List α} {o : Nat} (h : o + a.length ≤ l.length) :
    ((overwrite l o a).drop o).take a.length = a := by
  rw [overwrite_fit h, List.append_assoc, List.drop_append_of_le_length (by simp; omega)]
  rw [List.drop_eq_nil_of_le (by simp; omega)]
  simp

/-- The part before the window is unchanged. -/
theorem take_overwrite {α : Type u} {l a : List α} {o : Nat} (h : o ≤ l.length) :
    (overwrite l o a).take o = l.take o := by
  rw [overwrite, List.append_assoc, List.take_append_of_le_length (by simp; omega), List.take_take]
  simp

/-- Everything up to the end of the window. -/
theorem take_overwrite_end {α : Type u} {l a : List α} {o : Nat} (h : o + a.length ≤ l.length) :
    (overwrite l o a).take (o + a.length) = l.take o ++ a := by
  rw [overwrite_fit h, List.take_append_of_le_length (by simp; omega)]
  exact List.take_of_length_le (by simp; omega)

/-- The part behind the window is unchanged. -/
theorem drop_overwrite {α : Type u} {l a : List α} {o : Nat} (h : o + a.length ≤ l.length) :
    (overwrite l o a).drop (o + a.length) = l.drop (o + a.length) := by
  rw [overwrite_fit h, List.drop_append_of_le_length (by simp; omega), List.drop_eq_nil_of_le (by simp; omega)]
  simp

/-! ## Fixed-size big-endian accessors (`encoding/binary` `BigEndian`) -/

/-- Go `byte(v)` for an unsigned `v`. -/
abbrev toByte {w : Nat} (v : BitVec w) : Byte := v.setWidth 8

/-- `binary.BigEndian.PutUint16` byte values. -/
def be16 (v : BitVec 16) : Bytes := [toByte (v >>> 8), toByte v]
/-- `binary.BigEndian.PutUint32` byte values. -/
def be32 (v : BitVec 32) : Bytes := [toByte (v >>> 24), toByte (v >>> 16), toByte (v >>> 8), toByte v]
/-- `binary.BigEndian.PutUint64` byte values. -/
def be64 (v : BitVec 64) : Bytes :=
  [toByte (v >>> 56), toByte (v >>> 48), toByte (v >>> 40), toByte (v >>> 32),
   toByte (v >>> 24), toByte (v >>> 16), toByte (v >>> 8), toByte v]

/-- `binary.BigEndian.Uint16(s[off:])`: panics unless two bytes are present. -/
def uint16At (s : Bytes) (off : Nat) : Go (BitVec 16) := do
  let b0 ← idx s off
  let b1 ← idx s (off + 1)
  return b1.setWidth 16 ||| (b0.setWidth 16 <<< 8)

/-- `binary.BigEndian.Uint32(s[off:])`. -/
def uint32At (s : Bytes) (off : Nat) : Go (BitVec 32) := do
  let b0 ← idx s off
  let b1 ← idx s (off + 1)
  let b2 ← idx s (off + 2)
  let b3 ← idx s (off + 3)
  return b3.setWidth 32 ||| (b2.setWidth 32 <<< 8) ||| (b1.setWidth 32 <<< 16) ||| (b0.setWidth 32 <<< 24)

/-- `binary.BigEndian.Uint64(s[off:])`. -/
def uint64At (s : Bytes) (off : Nat) : Go (BitVec 64) := do
  let b0 ← idx s off
  let b1 ← idx s (off + 1)
  let b2 ← idx s (off + 2)
  let b3 ← idx s (off + 3)
  let b4 ← idx s (off + 4)
  let b5 ← idx s (off + 5)
  let b6 ← idx s (off + 6)
  let b7 ← idx s (off + 7)
  return b7.setWidth 64 ||| (b6.setWidth 64 <<< 8) ||| (b5.setWidth 64 <<< 16) ||| (b4.setWidth 64 <<< 24) |||
    (b3.setWidth 64 <<< 32) ||| (b2.setWidth 64 <<< 40) ||| (b1.setWidth 64 <<< 48) ||| (b0.setWidth 64 <<< 56)

/-- Store `bs` at `dst[off:]`, panicking unless all of it fits (`PutUint16/32/64(dst[off:], ..)`). -/
def putAt (dst : Bytes) (off : Nat) (bs : Bytes) : Go Bytes :=
  if off + bs.length ≤ dst.length then ok (overwrite dst off bs) else panic

/-- 64-bit two's-complement wrap-around of an int computation. -/
def wrap64 (x : Int) : Int := (x + 2 ^ 63) % 2 ^ 64 - 2 ^ 63

theorem wrap64_of_range {x : Int} (h : -2 ^ 63 ≤ x) (h' : x < 2 ^ 63) : wrap64 x = x := by
  unfold wrap64; omega

end Avf
