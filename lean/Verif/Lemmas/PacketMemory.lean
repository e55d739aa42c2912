import Verif.Spec.PacketMemory
import Verif.Lemmas.StreamMemory
/-!
# Conversions in memory and conversions of byte lists
-/
namespace Avf
open Go MemM

namespace Mem.OnlyIn

theorem refl (b : SliceRef) (m : Mem) : Mem.OnlyIn b m m := fun _ x h => ⟨x, h, rfl, fun _ _ => rfl⟩

theorem trans {b : SliceRef} {m m' m'' : Mem} (h : Mem.OnlyIn b m m') (h' : Mem.OnlyIn b m' m'') : Mem.OnlyIn b m m'' := by
  intro a x hx
  obtain ⟨y, hy, hl, hk⟩ := h a x hx
  obtain ⟨z, hz, hl', hk'⟩ := h' a y hy
  exact ⟨z, hz, hl'.trans hl, fun k hn => (hk' k hn).trans (hk k hn)⟩

theorem of_prefix {m m' : Mem} (b : SliceRef) (h : m <+: m') : Mem.OnlyIn b m m' := by
  obtain ⟨t, rfl⟩ := h
  intro a x hx
  exact ⟨x, by rw [List.getElem?_append_left (List.getElem?_eq_some_iff.1 hx).1, hx], rfl, fun _ _ => rfl⟩

theorem mono {b c : SliceRef} {m m' : Mem} (h : Mem.OnlyIn b m m') (hi : b.Inside c) : Mem.OnlyIn c m m' := by
  intro a x hx
  obtain ⟨y, hy, hl, hk⟩ := h a x hx
  refine ⟨y, hy, hl, fun k hn => hk k ?_⟩
  rintro ⟨h1, h2, h3⟩
  exact hn ⟨h1.trans hi.1, by have := hi.2; omega, by have := hi.2; omega⟩

theorem valid {b s : SliceRef} {m m' : Mem} (h : Mem.OnlyIn b m m') (hs : s.ValidIn m) : s.ValidIn m' := by
  obtain ⟨x, hx, hl⟩ := hs
  obtain ⟨y, hy, hl', -⟩ := h _ _ hx
  exact ⟨y, hy, by omega⟩

theorem length_le {b : SliceRef} {m m' : Mem} (h : Mem.OnlyIn b m m') : m.length ≤ m'.length := by
  by_cases h0 : m.length = 0
  · omega
  · obtain ⟨y, hy, -⟩ := h (m.length - 1) m[m.length - 1] (List.getElem?_eq_getElem (by omega))
    have := (List.getElem?_eq_some_iff.1 hy).1
    omega

theorem read {b s : SliceRef} {m m' : Mem} (h : Mem.OnlyIn b m m') (hs : s.ValidIn m) (ha : s.Apart b) : m'.read s = m.read s := by
  obtain ⟨x, hx, hl⟩ := hs
  obtain ⟨y, hy, hl', hk⟩ := h _ _ hx
  unfold Mem.read
  rw [hx, hy]
  simp only [Option.getD_some]
  apply List.ext_getElem?
  intro k
  rw [List.getElem?_take, List.getElem?_take]
  split
  · rename_i hlt
    rw [List.getElem?_drop, List.getElem?_drop]
    refine hk _ ?_
    rintro ⟨h1, h2, h3⟩
    exact ha h1 (s.off + k) ⟨by omega, by omega, h2, h3⟩
  · rfl

/-- If the buffer is not of this memory, memory is as it was. -/
theorem prefix_of_new {b : SliceRef} {m m' : Mem} (h : Mem.OnlyIn b m m') (hb : m.length ≤ b.arr ∨ b.len = 0) : m <+: m' := by
  have key : ∀ a, a < m.length → m'[a]? = m[a]? := by
    intro a ha
    obtain ⟨y, hy, hl, hk⟩ := h a m[a] (List.getElem?_eq_getElem ha)
    rw [hy, List.getElem?_eq_getElem ha]
    congr 1
    apply List.ext_getElem?
    intro k
    apply hk
    rintro ⟨h1, h2, h3⟩
    rcases hb with hb | hb <;> omega
  rw [List.prefix_iff_eq_take]
  apply List.ext_getElem?
  intro k
  rw [List.getElem?_take]
  split
  · rename_i hk; exact (key k hk).symm
  · rename_i hk; exact List.getElem?_eq_none (by omega)

end Mem.OnlyIn

theorem SliceRef.Inside.refl (s : SliceRef) : s.Inside s := ⟨rfl, Nat.le_refl _, Nat.le_refl _⟩

theorem SliceRef.Apart.sub {s t u : SliceRef} (h : s.Apart t) (hi : u.Inside s) : u.Apart t := by
  intro ha k hk
  exact h (hi.1 ▸ ha) k ⟨by have := hi.2; omega, by have := hi.2; omega, hk.2.2.1, hk.2.2.2⟩

theorem SliceRef.Apart.into {s t u : SliceRef} (h : s.Apart t) (hi : u.Inside t) : s.Apart u := by
  intro ha k hk
  exact h (ha.trans hi.1) k ⟨hk.1, hk.2.1, by have := hi.2; omega, by have := hi.2; omega⟩

theorem SliceRef.apart_empty (s : SliceRef) {b : SliceRef} (h : b.len = 0) : s.Apart b := by
  intro _ k hk
  omega

theorem SliceRef.empty_apart {s : SliceRef} (b : SliceRef) (h : s.len = 0) : s.Apart b := by
  intro _ k hk
  omega

theorem SliceRef.skip_inside (s : SliceRef) {k : Nat} (h : k ≤ s.len) : (s.skip k).Inside s :=
  ⟨rfl, by simp [SliceRef.skip], by simp only [SliceRef.skip]; omega⟩

theorem SliceRef.Inside.valid {s t : SliceRef} {m : Mem} (h : s.Inside t) (ht : t.ValidIn m) : s.ValidIn m := by
  obtain ⟨x, hx, hl⟩ := ht
  exact ⟨x, by rw [h.1]; exact hx, by have := h.2; omega⟩

theorem length_read_valid {s : SliceRef} {m : Mem} (h : s.ValidIn m) : (m.read s).length = s.len := Mem.length_read m s (valid_arr h).2

theorem read_skip (m : Mem) (s : SliceRef) (k : Nat) : m.read (s.skip k) = (m.read s).drop k := by
  rw [Mem.read_eq, Mem.read_eq, List.drop_take, List.drop_drop]
  rfl

/-- Copying to `b[off:]`: what `b` reads then, and nothing else changes. -/
theorem copy_fills {m : Mem} {b : SliceRef} (hb : b.ValidIn m) {off : Nat} (ho : off ≤ b.len) (d : Bytes) :
    Mem.OnlyIn b m (m.copy (b.skip off) d) ∧ (m.copy (b.skip off) d).read b = overwrite (m.read b) off d := by
  obtain ⟨x, hx, hl⟩ := hb
  have hc : m.copy (b.skip off) d = m.set b.arr (overwrite x (b.off + off) (d.take (b.len - off))) := by
    unfold Mem.copy
    show (match m[b.arr]? with | none => m | some a => _) = _
    rw [hx]
    rfl
  have hlt := (List.getElem?_eq_some_iff.1 hx).1
  have hov : b.off + off ≤ x.length := by omega
  rw [hc]
  constructor
  · intro a y hy
    by_cases ha : a = b.arr
    · subst ha
      rw [hx] at hy
      cases hy
      refine ⟨_, by rw [List.getElem?_set_self hlt], length_overwrite hov, ?_⟩
      intro k hk
      rw [getElem?_overwrite hov, if_neg]
      rintro ⟨h1, h2, h3⟩
      rw [List.length_take] at h2
      exact hk ⟨rfl, by omega, by omega⟩
    · exact ⟨y, by rw [List.getElem?_set_ne (fun h => ha h.symm)]; exact hy, rfl, fun _ _ => rfl⟩
  · unfold Mem.read
    rw [List.getElem?_set_self hlt, hx]
    simp only [Option.getD_some]
    have hlen : ((x.drop b.off).take b.len).length = b.len := by simp; omega
    apply List.ext_getElem?
    intro k
    rw [getElem?_overwrite (by omega), List.getElem?_take, List.getElem?_drop, getElem?_overwrite hov, hlen, List.length_take,
      List.getElem?_take]
    by_cases hk : k < b.len
    · rw [if_pos hk]
      by_cases hd : off ≤ k ∧ k < off + d.length ∧ k < b.len
      · rw [if_pos hd, if_pos ⟨by omega, by omega, by omega⟩, if_pos (by omega)]
        congr 1
        omega
      · rw [if_neg hd, if_neg (by omega), List.getElem?_take, if_pos hk, List.getElem?_drop]
    · rw [if_neg hk, if_neg (by omega), List.getElem?_take, if_neg hk]

theorem Fills.pure {α : Type} {b : SliceRef} {m : Mem} {out : Bytes} (a : α) (h : m.read b = out) :
    Fills b m (Pure.pure a : MemM α) (ok (a, out)) := ⟨m, rfl, .refl b m, h⟩

theorem Fills.fail {α : Type} {b : SliceRef} {m : Mem} {e : String} : Fills b m (MemM.fail e : MemM α) (err e) :=
  ⟨m, rfl, .refl b m⟩

theorem Fills.bind {α β : Type} {b : SliceRef} {m : Mem} {x : MemM α} {v : Go (α × Bytes)} {f : α → MemM β}
    {g : α × Bytes → Go (β × Bytes)} (h : Fills b m x v)
    (hf : ∀ m' a out, Mem.OnlyIn b m m' → m'.read b = out → v = ok (a, out) → Fills b m' (f a) (g (a, out))) :
    Fills b m (x >>= f) (v >>= g) := by
  cases v with
  | ok r =>
    obtain ⟨a, out⟩ := r
    obtain ⟨m', hx, ho, hr⟩ := h
    have := hf m' a out ho hr rfl
    rw [ok_bind]
    revert this
    unfold Fills
    cases g (a, out) with
    | ok d =>
      rintro ⟨m'', h1, h2, h3⟩
      exact ⟨m'', by rw [memM_bind, hx]; exact h1, ho.trans h2, h3⟩
    | err e =>
      rintro ⟨m'', h1, h2⟩
      exact ⟨m'', by rw [memM_bind, hx]; exact h1, ho.trans h2⟩
    | panic =>
      intro h1
      show (x >>= f) m = Go.panic
      rw [memM_bind, hx]; exact h1
  | err e =>
    obtain ⟨m', hx, hp⟩ := h
    exact ⟨m', by rw [memM_bind, hx], hp⟩
  | panic =>
    have hx : x m = Go.panic := h
    show (x >>= f) m = Go.panic
    rw [memM_bind, hx]

/-- A step that changes the destination only. -/
theorem Fills.bindU {β : Type} {b : SliceRef} {m : Mem} {x : MemM Unit} {v : Go Bytes} {f : Unit → MemM β}
    {g : Bytes → Go (β × Bytes)} (h : Fills b m x (v >>= fun out => ok ((), out)))
    (hf : ∀ m' out, Mem.OnlyIn b m m' → m'.read b = out → v = ok out → Fills b m' (f ()) (g out)) :
    Fills b m (x >>= f) (v >>= g) := by
  have := h.bind (f := f) (g := fun r => g r.2) (by
    rintro m' ⟨⟩ out h1 h2 h3
    refine hf m' out h1 h2 ?_
    obtain ⟨o, ho, he⟩ := bind_eq_ok.1 h3
    cases he
    exact ho)
  cases v <;> exact this

/-- A step that looks at memory. -/
theorem Fills.look {α β : Type} {b : SliceRef} {m : Mem} {l : Mem → Go α} {v : Go α} {f : α → MemM β}
    {g : α → Go (β × Bytes)} (h : l m = v) (hf : ∀ a, v = ok a → Fills b m (f a) (g a)) : Fills b m (MemM.look l >>= f) (v >>= g) := by
  cases v with
  | ok a =>
    have := hf a rfl
    rw [ok_bind]
    revert this
    have hx : (MemM.look l >>= f) m = f a m := by rw [memM_bind]; simp only [MemM.look, h]
    unfold Fills
    rw [hx]
    exact id
  | err e => exact ⟨m, by rw [memM_bind]; simp only [MemM.look, h], .refl b m⟩
  | panic =>
    show (MemM.look l >>= f) m = Go.panic
    rw [memM_bind]; simp only [MemM.look, h]

/-- A step that looks at memory and finds `a`. -/
theorem Fills.peek {α β : Type} {b : SliceRef} {m : Mem} {l : Mem → Go α} {a : α} {f : α → MemM β} {v : Go (β × Bytes)}
    (h : l m = ok a) (hf : Fills b m (f a) v) : Fills b m (MemM.look l >>= f) v := by
  revert hf
  have hx : (MemM.look l >>= f) m = f a m := by rw [memM_bind]; simp only [MemM.look, h]
  unfold Fills
  rw [hx]
  exact id

theorem put_fills {m : Mem} {b : SliceRef} (hb : b.ValidIn m) (off : Nat) (bs : Bytes) :
    Fills b m (putInto b off bs) (putAt (m.read b) off bs >>= fun out => ok ((), out)) := by
  unfold putInto putAt
  rw [length_read_valid hb]
  by_cases h : off + bs.length ≤ b.len
  · rw [if_pos h]
    have := copy_fills hb (off := off) (by omega) bs
    exact ⟨_, by simp only [if_pos h], this.1, this.2⟩
  · rw [if_neg h]
    show (if _ then _ else _) = _
    rw [if_neg h]

theorem const_fills {m : Mem} {b : SliceRef} (hb : b.ValidIn m) (off : Nat) (bs : Bytes) :
    Fills b m (copyConst b off bs) (copyAt (m.read b) off bs >>= fun out => ok ((), out)) := by
  unfold copyConst copyAt
  rw [length_read_valid hb]
  by_cases h : off ≤ b.len
  · rw [if_pos h]
    have := copy_fills hb (off := off) h bs
    exact ⟨_, by simp only [if_pos h], this.1, this.2⟩
  · rw [if_neg h]
    show (if _ then _ else _) = _
    rw [if_neg h]

theorem copy_into_fills {m : Mem} {b s : SliceRef} (hb : b.ValidIn m) (off : Nat) {d : Bytes} (hs : m.read s = d) :
    Fills b m (copyInto b off s) (copyAt (m.read b) off d >>= fun out => ok ((), out)) := by
  subst hs
  exact const_fills hb off (m.read s)

/-- A source slice: it reads `d`, and the buffer is apart from it. -/
structure Src (b : SliceRef) (m : Mem) (s : SliceRef) (d : Bytes) : Prop where
  valid : s.ValidIn m
  apart : s.Apart b
  read : m.read s = d

namespace Src

theorem len {b s : SliceRef} {m : Mem} {d : Bytes} (h : Src b m s d) : d.length = s.len := by
  rw [← h.read]; exact length_read_valid h.valid

theorem ext {b s : SliceRef} {m m' : Mem} {d : Bytes} (h : Src b m s d) (ho : Mem.OnlyIn b m m') : Src b m' s d :=
  ⟨ho.valid h.valid, h.apart, (ho.read h.valid h.apart).trans h.read⟩

theorem skip {b s : SliceRef} {m : Mem} {d : Bytes} (h : Src b m s d) {k : Nat} (hk : k ≤ s.len) : Src b m (s.skip k) (d.drop k) :=
  ⟨(s.skip_inside hk).valid h.valid, h.apart.sub (s.skip_inside hk), by rw [read_skip, h.read]⟩

theorem sub {b s : SliceRef} {m : Mem} {d : Bytes} (h : Src b m s d) {i k : Nat} (hk : i ≤ k) (hl : k ≤ s.len) :
    s.sub i k = ok ⟨s.arr, s.off + i, k - i⟩ ∧ Src b m ⟨s.arr, s.off + i, k - i⟩ ((d.take k).drop i) := by
  have hi : (⟨s.arr, s.off + i, k - i⟩ : SliceRef).Inside s := ⟨rfl, by simp, by simp only; omega⟩
  refine ⟨SliceRef.sub_of_le hk hl, hi.valid h.valid, h.apart.sub hi, ?_⟩
  rw [List.drop_take, ← h.read]
  exact Mem.read_sub m s.arr s.off s.len i (k - i) (by omega)

theorem empty (b : SliceRef) (m : Mem) (hb : b.ValidIn m) : Src b m .empty [] := by
  obtain ⟨x, hx, -⟩ := hb
  have := (List.getElem?_eq_some_iff.1 hx).1
  refine ⟨⟨m[0]'(by omega), List.getElem?_eq_getElem (i := 0) (by omega), by simp [SliceRef.empty]⟩, SliceRef.empty_apart b rfl, ?_⟩
  simp [Mem.read, SliceRef.empty]

end Src

/-- A step that takes a part of the source. -/
theorem Fills.part {β : Type} {b s : SliceRef} {m : Mem} {d : Bytes} (hs : Src b m s d) {i k : Nat} (hk : i ≤ k) (hl : k ≤ s.len)
    {f : SliceRef → MemM β} {g : Bytes → Go (β × Bytes)} (hf : ∀ r x, Src b m r x → r.len = k - i → Fills b m (f r) (g x)) :
    Fills b m (MemM.look (fun _ => s.sub i k) >>= f) (slice d i k >>= g) := by
  obtain ⟨hsub, hsrc⟩ := hs.sub hk hl
  have hv : slice d i k = ok ((d.take k).drop i) := by
    unfold slice; rw [if_pos ⟨hk, by have := hs.len; omega⟩]
  have := hf _ _ hsrc rfl
  rw [hv, ok_bind]
  revert this
  have hx : (MemM.look (fun _ => s.sub i k) >>= f) m = f ⟨s.arr, s.off + i, k - i⟩ m := by
    rw [memM_bind]; simp only [MemM.look, hsub]
  unfold Fills
  rw [hx]
  exact id

theorem copyNal_fills {m : Mem} {b s : SliceRef} {d : Bytes} (hb : b.ValidIn m) (hs : Src b m s d) (off outSize : Nat) (app : Bool) :
    Fills b m (copyNalUWithBytesM b off s outSize app) (copyNalUWithBytes (m.read b) off d outSize app) := by
  unfold copyNalUWithBytesM copyNalUWithBytes
  rw [length_read_valid hb]
  by_cases h : off > b.len
  · rw [if_pos h, if_pos h]; rfl
  rw [if_neg h, if_neg h, hs.len]
  cases app with
  | false =>
    simp only [Bool.false_eq_true, if_false]
    refine (copy_into_fills hb off hs.read).bindU ?_
    intro m' out ho hr _
    exact Fills.pure _ hr
  | true =>
    simp only [if_true]
    by_cases h0 : outSize = 0
    · rw [if_pos h0, if_pos h0]
      refine (put_fills hb off (be32 1)).bindU ?_
      rintro m' _ ho rfl _
      refine (copy_into_fills (ho.valid hb) (off + 4) (hs.ext ho).read).bindU ?_
      intro m'' out ho hr _
      exact Fills.pure _ hr
    · rw [if_neg h0, if_neg h0]
      refine (put_fills hb off startCode3).bindU ?_
      rintro m' _ ho rfl _
      refine (copy_into_fills (ho.valid hb) (off + 3) (hs.ext ho).read).bindU ?_
      intro m'' out ho hr _
      exact Fills.pure _ hr

theorem avccLoop_fills {b e : SliceRef} {extra : Bytes} (n : Nat) : ∀ {m : Mem} {s : SliceRef} {d : Bytes}, d.length ≤ n →
    b.ValidIn m → Src b m e extra → Src b m s d → ∀ (outSize : Nat) (sps pps : Bool),
    Fills b m (avcc2AnnexBLoopM e b s outSize sps pps) (avcc2AnnexBLoop extra (m.read b) d outSize sps pps) := by
  induction n with
  | zero =>
    intro m s d hn hb he hs outSize sps pps
    rw [avcc2AnnexBLoopM, avcc2AnnexBLoop, dif_neg (by have := hs.len; omega), dif_neg (by omega)]
    exact Fills.pure _ rfl
  | succ n ih =>
    intro m s d hn hb he hs outSize sps pps
    rw [avcc2AnnexBLoopM, avcc2AnnexBLoop]
    have hl := hs.len
    by_cases h4 : 4 < s.len
    swap
    · rw [dif_neg h4, dif_neg (by omega)]
      exact Fills.pure _ rfl
    rw [dif_pos h4, dif_pos (by omega)]
    refine Fills.look (by rw [hs.read]) ?_
    intro size _
    simp only
    rw [hl]
    by_cases hsz : size.toNat = 0 ∨ s.len - 4 < size.toNat
    · rw [if_pos hsz, if_pos hsz]
      exact Fills.pure _ rfl
    rw [if_neg hsz, if_neg hsz]
    refine Fills.look (by rw [hs.read]) ?_
    intro t _
    have hnext := hs.skip (k := 4 + size.toNat) (by omega)
    have hnl : (d.drop (4 + size.toNat)).length ≤ n := by rw [List.length_drop]; omega
    by_cases ht : t &&& 0x1F = 6
    · rw [if_pos ht, if_pos ht]
      exact ih hnl hb he hnext _ _ _
    rw [if_neg ht, if_neg ht]
    have hext : Fills b m
        (if t &&& 0x1F = 5 ∧ ¬ (sps || t &&& 0x1F = 7) ∧ ¬ (pps || t &&& 0x1F = 8) ∧ e.len > 0 then do
            let n ← copyNalUWithBytesM b outSize e outSize false
            return outSize + n
          else pure outSize : MemM Nat)
        (if t &&& 0x1F = 5 ∧ ¬ (sps || t &&& 0x1F = 7) ∧ ¬ (pps || t &&& 0x1F = 8) ∧ extra.length > 0 then do
            let (n, dst) ← copyNalUWithBytes (m.read b) outSize extra outSize false
            return (outSize + n, dst)
          else ok (outSize, m.read b) : Go (Nat × Bytes)) := by
      rw [he.len]
      split
      · refine (copyNal_fills hb he outSize outSize false).bind ?_
        intro m' a out _ hr _
        exact Fills.pure _ hr
      · exact Fills.pure _ rfl
    refine hext.bind ?_
    rintro m' o _ ho rfl _
    have hs' := hs.ext ho
    refine Fills.part hs' (by omega) (by omega) ?_
    intro r x hsrc _
    refine (copyNal_fills (ho.valid hb) hsrc o o true).bind ?_
    rintro m'' a _ ho' rfl _
    exact ih hnl (ho'.valid (ho.valid hb)) ((he.ext ho).ext ho') ((hnext.ext ho).ext ho') _ _ _

theorem Fills.eqAt {α : Type} {b : SliceRef} {m : Mem} {x y : MemM α} {v : Go (α × Bytes)} (h : x m = y m) (hy : Fills b m y v) :
    Fills b m x v := by
  revert hy
  unfold Fills
  rw [h]
  exact id

theorem avcc_fills {m : Mem} {b e s : SliceRef} {extra d : Bytes} (hb : b.ValidIn m) (he : Src b m e extra) (hs : Src b m s d) :
    Fills b m (avcc2AnnexBM b s e) (avcc2AnnexB (m.read b) d extra) := avccLoop_fills d.length (Nat.le_refl _) hb he hs 0 false false

theorem hevcLoop_fills {b e : SliceRef} {extra : Bytes} (ls : Nat) (n : Nat) : ∀ {m : Mem} {s : SliceRef} {d : Bytes}, d.length ≤ n →
    b.ValidIn m → Src b m e extra → Src b m s d → ∀ (o : Nat) (got : Bool),
    Fills b m (hevcMp4LoopM e ls b s o got) (hevcMp4Loop extra ls (m.read b) d o got) := by
  induction n with
  | zero =>
    intro m s d hn hb he hs o got
    rw [hevcMp4LoopM, hevcMp4Loop, dif_neg (by have := hs.len; omega), dif_neg (by omega)]
    exact Fills.pure _ rfl
  | succ n ih =>
    intro m s d hn hb he hs o got
    rw [hevcMp4LoopM, hevcMp4Loop]
    have hl := hs.len
    by_cases h0 : 0 < s.len
    swap
    · rw [dif_neg h0, dif_neg (by omega)]
      exact Fills.pure _ rfl
    rw [dif_pos h0, dif_pos (by omega), hl]
    by_cases hls : s.len < ls
    · rw [if_pos hls, if_pos hls]
      exact Fills.fail
    rw [if_neg hls, if_neg hls]
    refine Fills.peek (a := lengthField (d.take ls)) (by rw [hs.read]) ?_
    simp only
    have hs1 := hs.skip (k := ls) (by omega)
    have hl1 := hs1.len
    generalize lengthField (d.take ls) = size
    by_cases hsz : size < 2 ∨ size > ((s.skip ls).len : Int)
    · rw [dif_pos hsz, dif_pos (by rw [hl1]; exact hsz)]
      exact Fills.fail
    rw [dif_neg hsz, dif_neg (by rw [hl1]; exact hsz)]
    refine Fills.look (by rw [hs1.read]) ?_
    intro t _
    have hz : size.toNat ≤ (s.skip ls).len := by omega
    have hnl : ((d.drop ls).drop size.toNat).length ≤ n := by
      rw [List.length_drop, hl1]
      simp only [SliceRef.skip] at hz ⊢
      omega
    have hext : Fills b m
        (if decide (16 ≤ t >>> 1 &&& 0x3F ∧ t >>> 1 &&& 0x3F ≤ 23) ∧ ¬ got ∧ e.len > 0 then do
            copyInto b o e
            return o + e.len
          else pure o : MemM Nat)
        (if decide (16 ≤ t >>> 1 &&& 0x3F ∧ t >>> 1 &&& 0x3F ≤ 23) ∧ ¬ got ∧ extra.length > 0 then do
            let dst ← copyAt (m.read b) o extra
            return (o + extra.length, dst)
          else ok (o, m.read b) : Go (Nat × Bytes)) := by
      rw [he.len]
      split
      · refine (copy_into_fills hb o he.read).bindU ?_
        intro m' out _ hr _
        exact Fills.pure _ hr
      · exact Fills.pure _ rfl
    refine hext.bind ?_
    rintro m1 o1 _ ho1 rfl _
    have hb1 := ho1.valid hb
    refine (const_fills hb1 o1 startCode4).bindU ?_
    rintro m2 _ ho2 rfl _
    have hb2 := ho2.valid hb1
    refine Fills.part ((hs1.ext ho1).ext ho2) (by omega) hz ?_
    intro r x hsrc hrl
    refine (copy_into_fills hb2 (o1 + 4) hsrc.read).bindU ?_
    rintro m3 _ ho3 rfl _
    exact ih hnl (ho3.valid hb2) (((he.ext ho1).ext ho2).ext ho3) ((((hs1.skip hz).ext ho1).ext ho2).ext ho3) _ _

theorem hevc_fills {m : Mem} {b e s : SliceRef} {extra d : Bytes} (hb : b.ValidIn m) (he : Src b m e extra) (hs : Src b m s d)
    (ls : Nat) : Fills b m (hevcMp4ToAnnexBM b s e ls) (hevcMp4ToAnnexB (m.read b) d extra ls) :=
  hevcLoop_fills ls d.length (Nat.le_refl _) hb he hs 0 false

theorem skipZeros_suffix (p : Bytes) : skipZeros p = p.drop (p.length - (skipZeros p).length) := by
  induction p with
  | nil => rfl
  | cons x p ih =>
    unfold skipZeros
    split
    · have := length_skipZeros p
      rw [List.length_cons, show p.length + 1 - (skipZeros p).length = (p.length - (skipZeros p).length) + 1 by omega, List.drop_succ_cons]
      exact ih
    · simp

theorem putGuard (dst : Bytes) (off : Nat) (bs : Bytes) :
    (if off ≤ dst.length then putAt dst off bs else Go.panic : Go Bytes) = putAt dst off bs := by
  unfold putAt
  split
  · rfl
  · rw [if_neg (by omega)]

theorem annexBLoop_fills {b : SliceRef} (n : Nat) : ∀ {m : Mem} {s : SliceRef} {d : Bytes}, d.length ≤ n →
    b.ValidIn m → Src b m s d → ∀ (o : Nat), Fills b m (annexB2AVCCLoopM b s o) (annexB2AVCCLoop (m.read b) d o) := by
  induction n with
  | zero =>
    intro m s d hn hb hs o
    rw [annexB2AVCCLoop, dif_pos (by omega)]
    refine ⟨m, ?_, .refl b m, rfl⟩
    rw [annexB2AVCCLoopM, dif_pos (by have := hs.len; omega)]
  | succ n ih =>
    intro m s d hn hb hs o
    have hl := hs.len
    by_cases h0 : s.len = 0
    · rw [annexB2AVCCLoop, dif_pos (by omega)]
      refine ⟨m, ?_, .refl b m, rfl⟩
      rw [annexB2AVCCLoopM, dif_pos h0]
    have hz := length_skipZeros d
    have hp : Src b m (skipZerosM s m) (skipZeros d) := by
      rw [skipZeros_suffix d, hl]
      unfold skipZerosM
      rw [hs.read]
      exact hs.skip (by omega)
    have hpl := hp.len
    by_cases h1 : (skipZerosM s m).len = 0
    · rw [annexB2AVCCLoop, dif_neg (by omega)]
      simp only
      rw [dif_pos (by omega)]
      refine ⟨m, ?_, .refl b m, rfl⟩
      rw [annexB2AVCCLoopM, dif_neg h0]
      simp only
      rw [dif_pos h1]
    rw [annexB2AVCCLoop, dif_neg (by omega)]
    simp only
    rw [dif_neg (by omega)]
    cases hf : findStartCode (skipZeros d) with
    | err e =>
      have hx : annexB2AVCCLoopM b s o m = ok (.error e, m) := by
        rw [annexB2AVCCLoopM, dif_neg h0]
        simp only
        rw [dif_neg h1]
        split <;> simp_all [hp.read]
      exact ⟨m, hx, .refl b m⟩
    | panic =>
      show annexB2AVCCLoopM b s o m = Go.panic
      rw [annexB2AVCCLoopM, dif_neg h0]
      simp only
      rw [dif_neg h1]
      split <;> simp_all [hp.read]
    | ok r =>
      cases r with
      | none =>
        have hx : annexB2AVCCLoopM b s o m = (do
            putInto b o (be32 (BitVec.ofNat 32 (skipZerosM s m).len))
            let bytes ← MemM.look fun _ => (skipZerosM s m).sub 0 (skipZerosM s m).len
            copyInto b (o + 4) bytes
            return o + 4 + (skipZerosM s m).len : MemM Nat) m := by
          rw [annexB2AVCCLoopM, dif_neg h0]
          simp only
          rw [dif_neg h1]
          split <;> simp_all [hp.read]
        refine Fills.eqAt hx ?_
        split
        · rw [putGuard, hpl]
          refine (put_fills hb o _).bindU ?_
          rintro m1 _ ho1 rfl _
          refine Fills.part (hp.ext ho1) (by omega) (Nat.le_refl _) ?_
          intro r x hsrc hrl
          refine (copy_into_fills (ho1.valid hb) (o + 4) hsrc.read).bindU ?_
          intro m2 out ho2 hr _
          exact Fills.pure _ hr
        all_goals simp_all
      | some r =>
        obtain ⟨e, k⟩ := r
        have hrange := findStartCode_range hf
        have hx : annexB2AVCCLoopM b s o m = (do
            putInto b o (be32 (BitVec.ofNat 32 (if e - k = 0 then 1 else e - k)))
            let bytes ← MemM.look fun _ => (skipZerosM s m).sub 0 (if e - k = 0 then 1 else e - k)
            copyInto b (o + 4) bytes
            annexB2AVCCLoopM b ((skipZerosM s m).skip e) (o + 4 + (if e - k = 0 then 1 else e - k)) : MemM Nat) m := by
          rw [annexB2AVCCLoopM, dif_neg h0]
          simp only
          rw [dif_neg h1]
          split <;> simp_all [hp.read]
        generalize hq : (if e - k = 0 then 1 else e - k) = q at hx
        refine Fills.eqAt hx ?_
        split
        · simp_all
        · rename_i e' k' hf'
          cases hf'
          rw [putGuard, hq]
          have hqe : q ≤ e := by subst hq; split <;> omega
          refine (put_fills hb o _).bindU ?_
          rintro m1 _ ho1 rfl _
          refine Fills.part (hp.ext ho1) (by omega) (by omega) ?_
          intro r x hsrc hrl
          refine (copy_into_fills (ho1.valid hb) (o + 4) hsrc.read).bindU ?_
          rintro m2 _ ho2 rfl _
          refine ih ?_ (ho2.valid (ho1.valid hb)) (((hp.skip (k := e) (by omega)).ext ho1).ext ho2) _
          rw [List.length_drop]
          omega
        all_goals simp_all

theorem annexB_fills {m : Mem} {b s : SliceRef} {d : Bytes} (hb : b.ValidIn m) (hs : Src b m s d) :
    Fills b m (annexB2AVCCM b s) (annexB2AVCC (m.read b) d) := by
  unfold annexB2AVCCM annexB2AVCC
  refine Fills.look (by rw [hs.read]) ?_
  intro r hr
  cases r with
  | none => exact Fills.pure _ rfl
  | some r =>
    obtain ⟨e, k⟩ := r
    have := findStartCode_range hr
    exact annexBLoop_fills _ (Nat.le_refl _) hb (hs.skip (k := e) (by have := hs.len; omega)) 0

/-- What is done to a part of a slice is done to the slice. -/
theorem Fills.within {α : Type} {b : SliceRef} {m : Mem} {x : MemM α} {v : Go (α × Bytes)} {i k : Nat} (hb : b.ValidIn m)
    (hk : i + k ≤ b.len) (h : Fills ⟨b.arr, b.off + i, k⟩ m x v) :
    Fills b m x (v >>= fun r => ok (r.1, (m.read b).take i ++ r.2 ++ (m.read b).drop (i + k))) := by
  have hin : (⟨b.arr, b.off + i, k⟩ : SliceRef).Inside b := ⟨rfl, by simp, by simp only; omega⟩
  cases v with
  | panic => exact h
  | err e =>
    obtain ⟨m', hx, ho⟩ := h
    exact ⟨m', hx, ho.mono hin⟩
  | ok r =>
    obtain ⟨a, out⟩ := r
    obtain ⟨m', hx, ho, hr⟩ := h
    refine ⟨m', hx, ho.mono hin, ?_⟩
    have h1 : ∀ m : Mem, m.read b = m.read ⟨b.arr, b.off, i⟩ ++ m.read ⟨b.arr, b.off + i, k⟩ ++
        m.read ⟨b.arr, b.off + (i + k), b.len - (i + k)⟩ := by
      intro m
      rw [← Mem.read_split, ← Mem.read_split]
      congr 1
      cases b
      simp only [SliceRef.mk.injEq, true_and]
      simp only at hk
      omega
    have hv1 : (⟨b.arr, b.off, i⟩ : SliceRef).Inside b := ⟨rfl, by simp, by simp only; omega⟩
    have hv2 : (⟨b.arr, b.off + (i + k), b.len - (i + k)⟩ : SliceRef).Inside b := ⟨rfl, by simp, by simp only; omega⟩
    rw [h1 m', hr, ho.read (hv1.valid hb) (by intro _ j hj; simp only at hj; omega),
      ho.read (hv2.valid hb) (by intro _ j hj; simp only at hj; omega)]
    have h2 := read_skip m b (i + k)
    have h3 : m.read ⟨b.arr, b.off, i⟩ = (m.read b).take i := by
      have := Mem.read_sub m b.arr b.off b.len 0 i (by omega)
      simpa using this
    rw [← h3, ← h2]
    rfl

/-! ## Packets -/

/-- From `m` on, `x` does what `v` does with values, and writes only to `b`. -/
def BufSteps {α β : Type} (b : SliceRef) (m : Mem) (x : MemM α) (v : Go β) (R : Mem → α → β → Prop) : Prop :=
  match v with
  | .ok y => ∃ a m', x m = ok (.ok a, m') ∧ Mem.OnlyIn b m m' ∧ R m' a y
  | .err e => ∃ m', x m = ok (.error e, m') ∧ Mem.OnlyIn b m m'
  | .panic => x m = Go.panic

theorem BufSteps.bind {α β γ δ : Type} {b : SliceRef} {m : Mem} {x : MemM α} {v : Go β} {R : Mem → α → β → Prop} {f : α → MemM γ}
    {g : β → Go δ} {S : Mem → γ → δ → Prop} (h : BufSteps b m x v R)
    (hf : ∀ m' a y, Mem.OnlyIn b m m' → R m' a y → v = ok y → BufSteps b m' (f a) (g y) S) : BufSteps b m (x >>= f) (v >>= g) S := by
  cases v with
  | ok y =>
    obtain ⟨a, m', hx, hp, hr⟩ := h
    have := hf m' a y hp hr rfl
    rw [ok_bind]
    revert this
    unfold BufSteps
    cases g y with
    | ok d =>
      rintro ⟨c, m'', h1, h2, h3⟩
      exact ⟨c, m'', by rw [memM_bind, hx]; exact h1, hp.trans h2, h3⟩
    | err e =>
      rintro ⟨m'', h1, h2⟩
      exact ⟨m'', by rw [memM_bind, hx]; exact h1, hp.trans h2⟩
    | panic =>
      intro h1
      show (x >>= f) m = Go.panic
      rw [memM_bind, hx]; exact h1
  | err e =>
    obtain ⟨m', hx, hp⟩ := h
    exact ⟨m', by rw [memM_bind, hx], hp⟩
  | panic =>
    have hx : x m = Go.panic := h
    show (x >>= f) m = Go.panic
    rw [memM_bind, hx]

theorem BufSteps.pure {α β : Type} {b : SliceRef} {m : Mem} {a : α} {y : β} {R : Mem → α → β → Prop} (h : R m a y) :
    BufSteps b m (Pure.pure a : MemM α) (ok y) R := ⟨a, m, rfl, .refl b m, h⟩

theorem BufSteps.ofRefines {α β : Type} {b : SliceRef} {m : Mem} {x : MemM α} {v : Go β} {R : Mem → α → β → Prop}
    (h : Refines m x v R) : BufSteps b m x v (fun m' a y => m <+: m' ∧ R m' a y) := by
  cases v with
  | ok y =>
    obtain ⟨a, m', h1, h2, h3⟩ := h
    exact ⟨a, m', h1, .of_prefix b h2, h2, h3⟩
  | err e =>
    obtain ⟨m', h1, h2⟩ := h
    exact ⟨m', h1, .of_prefix b h2⟩
  | panic => exact h

theorem BufSteps.ofFills {α : Type} {b : SliceRef} {m : Mem} {x : MemM α} {v : Go (α × Bytes)} (h : Fills b m x v) :
    BufSteps b m x v (fun m' a y => a = y.1 ∧ m'.read b = y.2) := by
  cases v with
  | ok y =>
    obtain ⟨m', h1, h2, h3⟩ := h
    exact ⟨_, m', h1, h2, rfl, h3⟩
  | err e => exact h
  | panic => exact h

/-- A first step from a known place. -/
theorem BufSteps.first {α β γ : Type} {b : SliceRef} {m m' : Mem} {x : MemM α} {a : α} {f : α → MemM γ} {v : Go β}
    {S : Mem → γ → β → Prop} (hx : x m = ok (.ok a, m')) (ho : Mem.OnlyIn b m m') (h : BufSteps b m' (f a) v S) :
    BufSteps b m (x >>= f) v S := by
  have hb : (x >>= f) m = f a m' := by rw [memM_bind, hx]
  cases v with
  | ok y =>
    obtain ⟨c, m'', h1, h2, h3⟩ := h
    exact ⟨c, m'', by rw [hb]; exact h1, ho.trans h2, h3⟩
  | err e =>
    obtain ⟨m'', h1, h2⟩ := h
    exact ⟨m'', by rw [hb]; exact h1, ho.trans h2⟩
  | panic => exact hb.trans h

/-- The parameter sets of codec data in memory: those of the stream, or new memory. -/
theorem extraData_mem {m : Mem} {c : CodecDataM} (hne : 0 < m.length) (hv : ∀ s ∈ c.slices, s.ValidIn m) :
    ∃ d m', c.annexBExtraData m = ok (.ok d, m') ∧ m <+: m' ∧ (d.getD .empty).ValidIn m' ∧
      m'.read (d.getD .empty) = (c.read m).annexBExtraData ∧
      ((d.getD .empty).len = 0 ∨ d.getD .empty ∈ c.slices ∨ m.length ≤ (d.getD .empty).arr ∧ (d.getD .empty).arr < m'.length) := by
  have hforall : ∀ l : List SliceRef, (∀ s ∈ l, s ∈ c.slices) → List.Forall₂ (Own 0 m) l (l.map m.read) := by
    intro l hl
    induction l with
    | nil => exact .nil
    | cons s l ih =>
      exact .cons (own_of_valid (hv s (hl s List.mem_cons_self))) (ih fun t ht => hl t (List.mem_cons_of_mem _ ht))
  have hmix : ∀ (v : List (List SliceRef)) (w : List (List Bytes)), List.Forall₂ (List.Forall₂ (Own 0 m)) v w →
      ∃ d m', mixM v m = ok (.ok d, m') ∧ m <+: m' ∧ (d.getD .empty).ValidIn m' ∧ m'.read (d.getD .empty) = mix w ∧
        ((d.getD .empty).len = 0 ∨ d.getD .empty ∈ c.slices ∨ m.length ≤ (d.getD .empty).arr ∧ (d.getD .empty).arr < m'.length) := by
    intro v w hw
    obtain ⟨d, m', h1, h2, h3⟩ := mixM_refines (Nat.le_refl m.length) hw
    refine ⟨d, m', h1, h2, ?_⟩
    rcases h3 with ⟨rfl, h3⟩ | ⟨r, rfl, h3⟩
    · rw [h3]
      have h0 : 0 < m'.length := Nat.lt_of_lt_of_le hne h2.length_le
      refine ⟨⟨m'[0], List.getElem?_eq_getElem h0, by simp [SliceRef.empty]⟩, ?_, .inl rfl⟩
      simp [Mem.read, SliceRef.empty]
    · exact ⟨h3.valid, h3.read, .inr (.inr ⟨h3.new, (valid_arr h3.valid).1⟩)⟩
  unfold CodecDataM.annexBExtraData CodecData.annexBExtraData
  cases hc : c.annexB with
  | some d =>
    have hmem : d ∈ c.slices := by simp [CodecDataM.slices, hc]
    exact ⟨some d, m, rfl, List.prefix_refl m, hv d hmem, by simp [CodecDataM.read, hc], .inr (.inl hmem)⟩
  | none =>
    have hn : (c.read m).annexB = none := by simp [CodecDataM.read, hc]
    rw [hn]
    cases hr : c.record with
    | avc r =>
      have hr' : (c.read m).record = .avc (r.read m) := by simp [CodecDataM.read, hr]
      rw [hr']
      refine hmix _ _ (.cons (hforall r.spsList ?_) (.cons (hforall r.ppsList ?_) .nil)) <;>
        · intro s hs; simp [CodecDataM.slices, hr, hs]
    | hevc r =>
      have hr' : (c.read m).record = .hevc (r.read m) := by simp [CodecDataM.read, hr]
      rw [hr']
      refine hmix _ _ (.cons (hforall r.vpsList ?_) (.cons (hforall r.spsList ?_) (.cons (hforall r.ppsList ?_) .nil))) <;>
        · intro s hs; simp [CodecDataM.slices, hr, hs]

/-- A buffer for `p` from memory `m₁`. -/
theorem alloc_mem {m m₁ : Mem} {stream : List SliceRef} {p : PacketM} {v : AVPacket} (h : p.Stands m stream v)
    (hv : ∀ s ∈ p.slices ++ stream, s.ValidIn m) (hp : m <+: m₁) (size : Nat) :
    ∃ b m₂, p.allocBuffer size m₁ = ok (.ok b, m₂) ∧ m₁ <+: m₂ ∧ b.ValidIn m₂ ∧ m₂.read b = v.allocBuffer size ∧
      (b.arr < m.length ∨ m₁.length ≤ b.arr) ∧ (∀ s ∈ p.slices ++ stream, s.Apart b) ∧ p.Buffer m b := by
  have ha := h.alloc
  unfold PacketM.allocBuffer AVPacket.allocBuffer PacketM.Buffer
  cases hf : p.onBufferAlloc with
  | none =>
    cases hg : v.onBufferAlloc with
    | some g => rw [hf, hg] at ha; exact ha.elim
    | none =>
      refine ⟨(m₁.make size).1, (m₁.make size).2, rfl, prefix_make m₁ size, ?_, ?_, .inr (Nat.le_refl _), ?_,
        .inr ⟨size, m₁, hp, rfl⟩⟩
      · exact ⟨List.replicate size 0, by simp [Mem.make], by simp [Mem.make]⟩
      · simp [Mem.make, Mem.read]
      · intro s hs he
        have := (valid_arr (hv s hs)).1
        have := hp.length_le
        simp only [Mem.make] at he
        omega
  | some f =>
    cases hg : v.onBufferAlloc with
    | none => rw [hf, hg] at ha; exact ha.elim
    | some g =>
      rw [hf, hg] at ha
      obtain ⟨h1, h2, h3, h4, h5⟩ := ha size m₁ hp
      exact ⟨_, _, rfl, h1, h2, h3, h4, h5, .inr ⟨size, m₁, hp, rfl⟩⟩

/-! ## No errors -/

/-- Not an error result. -/
def NoErr {α : Type} (x : Go α) : Prop := ∀ e, x ≠ err e

theorem NoErr.ok {α : Type} (a : α) : NoErr (Go.ok a) := fun _ h => by cases h
theorem NoErr.panic {α : Type} : NoErr (Go.panic : Go α) := fun _ h => by cases h

theorem NoErr.bind {α β : Type} {x : Go α} {f : α → Go β} (h : NoErr x) (hf : ∀ a, NoErr (f a)) : NoErr (x >>= f) := by
  cases x with
  | ok a => rw [ok_bind]; exact hf a
  | err e => exact (h e rfl).elim
  | panic => exact NoErr.panic

theorem noErr_idx {α : Type} (l : List α) (i : Nat) : NoErr (idx l i) := by
  unfold idx; split
  · exact .ok _
  · exact .panic
theorem noErr_slice {α : Type} (l : List α) (i k : Nat) : NoErr (slice l i k) := by
  unfold slice; split
  · exact .ok _
  · exact .panic
theorem noErr_sliceFrom {α : Type} (l : List α) (i : Nat) : NoErr (sliceFrom l i) := by
  unfold sliceFrom; split
  · exact .ok _
  · exact .panic
theorem noErr_copyAt {α : Type} (l : List α) (i : Nat) (x : List α) : NoErr (copyAt l i x) := by
  unfold copyAt; split
  · exact .ok _
  · exact .panic
theorem noErr_putAt (l : Bytes) (i : Nat) (x : Bytes) : NoErr (putAt l i x) := by
  unfold putAt; split
  · exact .ok _
  · exact .panic

theorem noErr_removeStartCode (d : Bytes) : NoErr (removeStartCode d) := by
  unfold removeStartCode
  refine (noErr_idx _ _).bind fun _ => ?_
  split
  · exact .ok _
  refine (noErr_idx _ _).bind fun _ => ?_
  split
  · exact .ok _
  refine (noErr_idx _ _).bind fun _ => ?_
  split
  · exact noErr_sliceFrom _ _
  split
  · refine (noErr_idx _ _).bind fun _ => ?_
    split
    · exact noErr_sliceFrom _ _
    · exact .ok _
  · exact .ok _

theorem noErr_scanStart (p : Bytes) (n : Nat) : ∀ i, p.length - i ≤ n → NoErr (scanStart p i) := by
  induction n with
  | zero =>
    intro i hi
    rw [scanStart, dif_neg (by omega)]
    exact .ok _
  | succ n ih =>
    intro i hi
    rw [scanStart]
    split
    · refine (noErr_idx _ _).bind fun _ => ?_
      split
      · exact ih _ (by omega)
      refine (noErr_idx _ _).bind fun _ => ?_
      split
      · exact ih _ (by omega)
      refine (noErr_idx _ _).bind fun _ => ?_
      split
      · exact ih _ (by omega)
      · exact .ok _
    · exact .ok _

theorem noErr_findStartCode (p : Bytes) : NoErr (findStartCode p) := by
  unfold findStartCode
  refine (noErr_scanStart p _ 2 (Nat.le_refl _)).bind fun _ => ?_
  split
  · split
    · refine (noErr_idx _ _).bind fun _ => ?_
      split <;> exact .ok _
    · exact .ok _
  · exact .ok _

theorem noErr_copyNal (dst : Bytes) (off : Nat) (d : Bytes) (o : Nat) (a : Bool) : NoErr (copyNalUWithBytes dst off d o a) := by
  unfold copyNalUWithBytes
  split
  · exact .panic
  split
  · split
    · exact (noErr_putAt _ _ _).bind fun _ => (noErr_copyAt _ _ _).bind fun _ => .ok _
    · exact (noErr_putAt _ _ _).bind fun _ => (noErr_copyAt _ _ _).bind fun _ => .ok _
  · exact (noErr_copyAt _ _ _).bind fun _ => .ok _

theorem noErr_avccLoop (extra : Bytes) (n : Nat) : ∀ (dst d : Bytes) (o : Nat) (s p : Bool), d.length ≤ n →
    NoErr (avcc2AnnexBLoop extra dst d o s p) := by
  induction n with
  | zero =>
    intro dst d o s p hd
    rw [avcc2AnnexBLoop, dif_neg (by omega)]
    exact .ok _
  | succ n ih =>
    intro dst d o s p hd
    rw [avcc2AnnexBLoop]
    split
    · have hu : NoErr (uint32At d 0) := by
        unfold uint32At
        exact (noErr_idx _ _).bind fun _ => (noErr_idx _ _).bind fun _ => (noErr_idx _ _).bind fun _ => (noErr_idx _ _).bind fun _ => .ok _
      refine hu.bind fun size => ?_
      simp only
      split
      · exact .ok _
      refine (noErr_idx _ _).bind fun t => ?_
      have hl : (d.drop (4 + size.toNat)).length ≤ n := by rw [List.length_drop]; omega
      split
      · exact ih _ _ _ _ _ hl
      refine NoErr.bind ?_ fun x => ?_
      · split
        · exact (noErr_copyNal _ _ _ _ _).bind fun _ => .ok _
        · exact .ok _
      · refine (noErr_slice _ _ _).bind fun _ => (noErr_copyNal _ _ _ _ _).bind fun _ => ih _ _ _ _ _ hl
    · exact .ok _

theorem noErr_annexBLoop (n : Nat) : ∀ (dst d : Bytes) (o : Nat), d.length ≤ n → NoErr (annexB2AVCCLoop dst d o) := by
  induction n with
  | zero =>
    intro dst d o hd
    rw [annexB2AVCCLoop, dif_pos (by omega)]
    exact .ok _
  | succ n ih =>
    intro dst d o hd
    rw [annexB2AVCCLoop]
    split
    · exact .ok _
    simp only
    split
    · exact .ok _
    have hz := length_skipZeros d
    split
    · rw [putGuard]
      exact (noErr_putAt _ _ _).bind fun _ => (noErr_slice _ _ _).bind fun _ => (noErr_copyAt _ _ _).bind fun _ => .ok _
    · rename_i hf
      have := findStartCode_range hf
      rw [putGuard]
      exact (noErr_putAt _ _ _).bind fun _ => (noErr_slice _ _ _).bind fun _ => (noErr_copyAt _ _ _).bind fun _ =>
        ih _ _ _ (by rw [List.length_drop]; omega)
    · rename_i hf
      exact (noErr_findStartCode _ _ hf).elim
    · exact .panic

/-! ## Both conversions -/

theorem sub_steps {m : Mem} {b c : SliceRef} (hb : b.ValidIn m) (i k : Nat) : BufSteps c m (MemM.look fun _ => b.sub i k) (slice (m.read b) i k)
    (fun m' r y => m' = m ∧ m.read r = y ∧ (i ≤ k ∧ k ≤ b.len ∧ r = ⟨b.arr, b.off + i, k - i⟩)) := by
  unfold slice
  rw [length_read_valid hb]
  split
  · rename_i h
    refine ⟨⟨b.arr, b.off + i, k - i⟩, m, by simp only [MemM.look, SliceRef.sub_of_le h.1 h.2], .refl _ m, rfl, ?_, h.1, h.2, rfl⟩
    rw [List.drop_take]
    exact Mem.read_sub m b.arr b.off b.len i (k - i) (by omega)
  · rename_i h
    show MemM.look _ m = Go.panic
    simp only [MemM.look, SliceRef.sub_panic h]

/-- What the two conversions have in common at the end. -/
def ConvEnd (b : SliceRef) (p : PacketM) (m' : Mem) (a : SliceRef × PacketM) (y : Bytes × AVPacket) : Prop :=
  m'.read a.1 = y.1 ∧ m'.read a.2.data = y.2.data ∧ a.2.dataAVCC.map m'.read = y.2.dataAVCC ∧
    a.2.dataAnnexB.map m'.read = y.2.dataAnnexB ∧ a.1.ValidIn m' ∧ (a.1.Inside b ∨ a.1 ∈ p.slices)

theorem Converts.of {m : Mem} {stream : List SliceRef} {p : PacketM} {x : MemM (SliceRef × PacketM)} {w : Go (Bytes × AVPacket)}
    {b : SliceRef} (hn : NoErr w) (hb : p.Buffer m b) (ha : ∀ s ∈ p.slices ++ stream, s.Apart b)
    (h : BufSteps b m x w (ConvEnd b p)) : Converts m stream p x w := by
  cases w with
  | ok y =>
    obtain ⟨⟨r, p'⟩, m', h1, h2, h3, h4, h5, h6, h7, h8⟩ := h
    exact ⟨r, p', m', b, h1, h3, h4, h5, h6, h2, ha, hb, h7, h8⟩
  | err e => exact (hn e rfl).elim
  | panic => exact h

/-- Nothing to convert: one of the packet's slices. -/
theorem Converts.same {m : Mem} {stream : List SliceRef} {p : PacketM} {v : AVPacket} (h : p.Stands m stream v)
    (hv : ∀ s ∈ p.slices ++ stream, s.ValidIn m) {d : SliceRef} (hd : d ∈ p.slices) :
    Converts m stream p (Pure.pure (d, p)) (ok (m.read d, v)) := by
  refine Converts.of (b := .empty) (.ok _) (.inl rfl) (fun s _ => SliceRef.apart_empty s rfl) ?_
  exact BufSteps.pure ⟨rfl, h.data, h.dataAVCC, h.dataAnnexB, hv d (List.mem_append_left _ hd), .inr hd⟩

theorem map_read_ext {b : SliceRef} {m m' : Mem} (ho : Mem.OnlyIn b m m') {s : Option SliceRef} {y : Option Bytes}
    (hs : ∀ x ∈ s.toList, x.ValidIn m ∧ x.Apart b) (h : s.map m.read = y) : s.map m'.read = y := by
  cases s with
  | none => exact h
  | some x =>
    have := hs x (by simp)
    rw [← h]
    simp [ho.read this.1 this.2]

theorem noErr_annexBPacket (v : AVPacket) : NoErr (annexBPacket2AVCC v) := by
  unfold annexBPacket2AVCC
  split
  · exact .panic
  split
  · exact .ok _
  split
  · exact .ok _
  · refine NoErr.bind ?_ fun _ => (noErr_slice _ _ _).bind fun _ => .ok _
    unfold annexB2AVCC
    refine (noErr_findStartCode _).bind fun r => ?_
    cases r with
    | none => exact .ok _
    | some r => exact noErr_annexBLoop _ _ _ _ (Nat.le_refl _)

theorem to_avcc_converts {m : Mem} {stream : List SliceRef} {p : PacketM} {v : AVPacket} (h : p.Stands m stream v)
    (hv : ∀ s ∈ p.slices ++ stream, s.ValidIn m) : Converts m stream p (annexBPacket2AVCCM p) (annexBPacket2AVCC v) := by
  have hdata : p.data ∈ p.slices := by simp [PacketM.slices]
  have hn := noErr_annexBPacket v
  revert hn
  unfold annexBPacket2AVCCM annexBPacket2AVCC
  rw [h.mediaType, h.packetType, h.codecID]
  split
  · intro _; rfl
  split
  · intro _
    rw [← h.data]
    exact Converts.same h hv hdata
  have hA := h.dataAVCC
  cases hc : p.dataAVCC with
  | some d =>
    rw [hc] at hA
    rw [← hA]
    intro _
    exact Converts.same h hv (by simp [PacketM.slices, hc])
  | none =>
    rw [hc] at hA
    rw [← hA]
    intro hn
    simp only [Option.map_none] at hn ⊢
    have hlen : v.data.length = p.data.len := by
      rw [← h.data]; exact length_read_valid (hv _ (List.mem_append_left _ hdata))
    rw [hlen] at hn ⊢
    obtain ⟨b, m₂, h1, h2, h3, h4, h5, h6, h7⟩ := alloc_mem h hv (List.prefix_refl m) (p.data.len + 256)
    refine Converts.of hn h7 h6 ?_
    refine BufSteps.first h1 (.of_prefix b h2) ?_
    have hsrc : Src b m₂ p.data v.data :=
      ⟨valid_prefix h2 (hv _ (List.mem_append_left _ hdata)), h6 _ (List.mem_append_left _ hdata),
        (read_prefix h2 (hv _ (List.mem_append_left _ hdata))).trans h.data⟩
    rw [← h4]
    refine (BufSteps.ofFills (annexB_fills h3 hsrc)).bind ?_
    rintro m3 n ⟨_, out⟩ ho ⟨rfl, hr⟩ _
    simp only at hr ⊢
    rw [← hr]
    refine (sub_steps (ho.valid h3) 0 n).bind ?_
    rintro _ r y - ⟨rfl, hy, hk, hk', rfl⟩ -
    have hin : (⟨b.arr, b.off + 0, n - 0⟩ : SliceRef).Inside b := ⟨rfl, by simp, by simp only; omega⟩
    refine BufSteps.pure ⟨hy, (hsrc.ext ho).read, congrArg some hy, ?_, hin.valid (ho.valid h3), .inl hin⟩
    have hcache : ∀ x ∈ p.dataAnnexB.toList, x ∈ p.slices ++ stream := fun x hx =>
      List.mem_append_left _ (List.mem_cons_of_mem _ (List.mem_append_right _ hx))
    exact map_read_ext ((Mem.OnlyIn.of_prefix b h2).trans ho) (fun x hx => ⟨hv x (hcache x hx), h6 x (hcache x hx)⟩) h.dataAnnexB

theorem noErr_prepend (s : AVStream) (v : AVPacket) : NoErr (prependExtraData s v) := by
  unfold prependExtraData
  split
  · split
    · exact .ok _
    · refine (noErr_removeStartCode _).bind fun _ => (noErr_idx _ _).bind fun _ => (noErr_removeStartCode _).bind fun _ =>
        (noErr_idx _ _).bind fun _ => ?_
      split
      · exact (noErr_copyAt _ _ _).bind fun _ => (noErr_copyAt _ _ _).bind fun _ => .ok _
      · exact .ok _
  · exact .ok _

theorem noErr_avccPacket (s : AVStream) (v : AVPacket) : NoErr (avccPacket2AnnexB s v) := by
  unfold avccPacket2AnnexB
  split
  · exact .panic
  split
  · refine (noErr_prepend _ _).bind fun _ => ?_
    split <;> exact .ok _
  split
  · exact .ok _
  · refine NoErr.bind ?_ fun _ => (noErr_slice _ _ _).bind fun _ => ?_
    · split
      · refine (noErr_sliceFrom _ _).bind fun _ => NoErr.bind ?_ fun _ => .ok _
        exact noErr_avccLoop _ _ _ _ _ _ _ (Nat.le_refl _)
      split
      · split
        · refine (noErr_sliceFrom _ _).bind fun _ => ?_
          split
          · exact .ok _
          · exact .panic
          · exact .panic
        · exact .panic
      · exact .ok _
    · split
      · exact .panic
      · exact (noErr_slice _ _ _).bind fun _ => .ok _

/-- The slices of the codec parameters are slices of the stream. -/
theorem codec_slices {s : AVStreamM} {c : CodecDataM} (h : s.codecParameters = some c) {x : SliceRef} (hx : x ∈ c.slices) :
    x ∈ s.slices := by
  unfold AVStreamM.slices
  rw [h]
  exact List.mem_append_right _ hx

theorem length_pos_of_valid {m : Mem} {s : SliceRef} (h : s.ValidIn m) : 0 < m.length := by
  have := (valid_arr h).1
  omega

theorem codec_read_ext {b : SliceRef} {m m' : Mem} (ho : Mem.OnlyIn b m m') {c : CodecDataM}
    (hc : ∀ x ∈ c.slices, x.ValidIn m ∧ x.Apart b) : c.read m' = c.read m := by
  have hrd : ∀ x ∈ c.slices, m'.read x = m.read x := fun x hx => ho.read (hc x hx).1 (hc x hx).2
  have hl : ∀ l : List SliceRef, (∀ x ∈ l, x ∈ c.slices) → l.map m'.read = l.map m.read := fun l hl =>
    List.map_congr_left fun x hx => hrd x (hl x hx)
  have hopt : ∀ o : Option SliceRef, (∀ x ∈ o.toList, x ∈ c.slices) → o.map m'.read = o.map m.read := by
    intro o ho
    cases o with
    | none => rfl
    | some x => simp [hrd x (ho x (by simp))]
  unfold CodecDataM.read
  rw [hopt c.annexB (by intro x hx; simp [CodecDataM.slices] at hx ⊢; simp [hx]),
    hopt c.m4vc (by intro x hx; simp [CodecDataM.slices] at hx ⊢; simp [hx])]
  cases hr : c.record with
  | avc r =>
    simp only [AVCRecordM.read]
    rw [hl r.spsList (by intro x hx; simp [CodecDataM.slices, hr, hx]), hl r.ppsList (by intro x hx; simp [CodecDataM.slices, hr, hx])]
  | hevc r =>
    simp only [HEVCRecordM.read]
    rw [hl r.spsList (by intro x hx; simp [CodecDataM.slices, hr, hx]), hl r.ppsList (by intro x hx; simp [CodecDataM.slices, hr, hx]),
      hl r.vpsList (by intro x hx; simp [CodecDataM.slices, hr, hx])]

/-- Putting the parameter sets in front of an Annex B key frame. -/
theorem prepend_steps {m : Mem} {s : AVStreamM} {p : PacketM} {v : AVPacket} (h : p.Stands m s.slices v)
    (hv : ∀ x ∈ p.slices ++ s.slices, x.ValidIn m) :
    ∃ b, p.Buffer m b ∧ (∀ x ∈ p.slices ++ s.slices, x.Apart b) ∧
      BufSteps b m (prependExtraDataM s p) (prependExtraData (s.read m) v) (fun m' p' v' =>
        m'.read p'.data = v'.data ∧ p'.dataAVCC.map m'.read = v'.dataAVCC ∧ p'.dataAnnexB.map m'.read = v'.dataAnnexB ∧
          p'.data = p.data ∧ p'.data.ValidIn m' ∧ (∀ d, p'.dataAnnexB = some d → d.ValidIn m' ∧ (d.Inside b ∨ d ∈ p.slices))) := by
  have hdata : p.data ∈ p.slices := by simp [PacketM.slices]
  have hdv := hv _ (List.mem_append_left _ hdata)
  have hA := h.dataAnnexB
  have same : ∃ b, p.Buffer m b ∧ (∀ x ∈ p.slices ++ s.slices, x.Apart b) ∧
      BufSteps b m (Pure.pure p) (ok v) (fun m' p' v' =>
        m'.read p'.data = v'.data ∧ p'.dataAVCC.map m'.read = v'.dataAVCC ∧ p'.dataAnnexB.map m'.read = v'.dataAnnexB ∧
          p'.data = p.data ∧ p'.data.ValidIn m' ∧ (∀ d, p'.dataAnnexB = some d → d.ValidIn m' ∧ (d.Inside b ∨ d ∈ p.slices))) := by
    refine ⟨.empty, .inl rfl, fun x _ => SliceRef.apart_empty x rfl, BufSteps.pure ⟨h.data, h.dataAVCC, hA, rfl, hdv, ?_⟩⟩
    intro d hd
    have : d ∈ p.slices := by simp [PacketM.slices, hd]
    exact ⟨hv d (List.mem_append_left _ this), .inr this⟩
  have hcond : (p.key ∧ (s.codecID = codecH264 ∨ s.codecID = codecH265) ∧ p.dataAnnexB = none) ↔
      (v.key ∧ ((s.read m).codecID = codecH264 ∨ (s.read m).codecID = codecH265) ∧ v.dataAnnexB = none) := by
    rw [h.key, ← hA]
    simp [AVStreamM.read]
  unfold prependExtraDataM prependExtraData
  by_cases hc : p.key ∧ (s.codecID = codecH264 ∨ s.codecID = codecH265) ∧ p.dataAnnexB = none
  swap
  · rw [if_neg hc, if_neg (fun h => hc (hcond.2 h))]
    exact same
  rw [if_pos hc, if_pos (hcond.1 hc)]
  cases hcp : s.codecParameters with
  | none =>
    have : (s.read m).codecParameters = none := by simp [AVStreamM.read, hcp]
    rw [this]
    exact same
  | some c =>
    have hcr : (s.read m).codecParameters = some (c.read m) := by simp [AVStreamM.read, hcp]
    rw [hcr]
    have hcs : ∀ x ∈ c.slices, x.ValidIn m := fun x hx => hv x (List.mem_append_right _ (codec_slices hcp hx))
    obtain ⟨d, m₁, he1, he2, he3, he4, he5⟩ := extraData_mem (length_pos_of_valid hdv) hcs
    simp only
    generalize (c.read m).annexBExtraData = extra at he4
    obtain ⟨b, m₂, h1, h2, h3, h4, h5, h6, h7⟩ := alloc_mem h hv he2 ((d.getD .empty).len + p.data.len)
    refine ⟨b, h7, h6, BufSteps.first he1 (.of_prefix b he2) ?_⟩
    have hown : Own 0 m₁ (d.getD .empty) extra := ⟨Nat.zero_le _, he3, he4⟩
    have hownd : Own 0 m₁ p.data v.data := ⟨Nat.zero_le _, valid_prefix he2 hdv, (read_prefix he2 hdv).trans h.data⟩
    refine (BufSteps.ofRefines (removeStartCodeM_refines hown)).bind ?_
    rintro _ e e' - ⟨-, rfl, hoe⟩ -
    refine (BufSteps.ofRefines (idx_refines hoe 0)).bind ?_
    rintro _ e0 _ - ⟨-, rfl, rfl⟩ -
    refine (BufSteps.ofRefines (removeStartCodeM_refines hownd)).bind ?_
    rintro _ f f' - ⟨-, rfl, hof⟩ -
    refine (BufSteps.ofRefines (idx_refines hof 0)).bind ?_
    rintro _ d0 _ - ⟨-, rfl, rfl⟩ -
    split
    · rw [hown.len, hownd.len]
      refine BufSteps.first h1 (.of_prefix b h2) ?_
      have hse : Src b m₂ (d.getD .empty) extra := by
        refine ⟨valid_prefix h2 he3, ?_, (read_prefix h2 he3).trans he4⟩
        rcases he5 with he5 | he5 | he5
        · exact SliceRef.empty_apart b he5
        · exact h6 _ (List.mem_append_right _ (codec_slices hcp he5))
        · intro ha
          omega
      have hsd : Src b m₂ p.data v.data :=
        ⟨valid_prefix h2 hownd.valid, h6 _ (List.mem_append_left _ hdata), (read_prefix h2 hownd.valid).trans hownd.read⟩
      rw [← h4]
      have hf1 := BufSteps.ofFills (copy_into_fills h3 0 hse.read)
      have : ∀ (x : MemM Unit) (w : Go Bytes) (mm : Mem), BufSteps b mm x (w >>= fun out => ok ((), out))
          (fun m' a y => a = y.1 ∧ m'.read b = y.2) → BufSteps b mm x w (fun m' _ y => m'.read b = y) := by
        intro x w mm hh
        cases w with
        | ok y =>
          obtain ⟨a, m', g1, g2, g3, g4⟩ := hh
          exact ⟨a, m', g1, g2, g4⟩
        | err e => exact hh
        | panic => exact hh
      refine (this _ _ _ hf1).bind ?_
      rintro m3 _ _ ho3 rfl -
      have hf2 := BufSteps.ofFills (copy_into_fills (ho3.valid h3) (d.getD .empty).len (hsd.ext ho3).read)
      refine (this _ _ _ hf2).bind ?_
      rintro m4 _ _ ho4 rfl -
      refine BufSteps.pure ⟨((hsd.ext ho3).ext ho4).read, ?_, rfl, rfl, ((hsd.ext ho3).ext ho4).valid, ?_⟩
      · have hcache : ∀ x ∈ p.dataAVCC.toList, x ∈ p.slices ++ s.slices := fun x hx =>
          List.mem_append_left _ (List.mem_cons_of_mem _ (List.mem_append_left _ hx))
        exact map_read_ext ((Mem.OnlyIn.of_prefix b (he2.trans h2)).trans (ho3.trans ho4))
          (fun x hx => ⟨hv x (hcache x hx), h6 x (hcache x hx)⟩) h.dataAVCC
      · intro d' hd'
        cases hd'
        exact ⟨ho4.valid (ho3.valid h3), .inl (.refl b)⟩
    · refine BufSteps.pure ⟨hownd.read, ?_, ?_, rfl, hownd.valid, ?_⟩
      · have hcache : ∀ x ∈ p.dataAVCC.toList, x ∈ p.slices ++ s.slices := fun x hx =>
          List.mem_append_left _ (List.mem_cons_of_mem _ (List.mem_append_left _ hx))
        exact map_read_ext (Mem.OnlyIn.of_prefix b he2) (fun x hx => ⟨hv x (hcache x hx), h6 x (hcache x hx)⟩) h.dataAVCC
      · rw [hc.2.2] at hA ⊢
        exact hA
      · intro d' hd'
        rw [hc.2.2] at hd'
        cases hd'

/-- The size of the parameter sets that are put in front, of values. -/
def extraSizeV (c : Option CodecData) (key : Bool) : Nat :=
  match c with
  | some c => if key then c.annexBExtraData.length else 0
  | none => 0

/-- The size of the parameter sets that are put in front. -/
theorem extraSize_mem {m : Mem} {s : AVStreamM} {p : PacketM} {v : AVPacket} (h : p.Stands m s.slices v)
    (hv : ∀ x ∈ p.slices ++ s.slices, x.ValidIn m) :
    ∃ m₁, m <+: m₁ ∧ extraSizeM s p m = ok (.ok (extraSizeV (s.read m).codecParameters v.key), m₁) := by
  have hdata : p.data ∈ p.slices := by simp [PacketM.slices]
  have hdv := hv _ (List.mem_append_left _ hdata)
  unfold extraSizeM extraSizeV
  rw [h.key]
  cases hcp : s.codecParameters with
  | none =>
    have : (s.read m).codecParameters = none := by simp [AVStreamM.read, hcp]
    rw [this]
    exact ⟨m, List.prefix_refl m, rfl⟩
  | some c =>
    have hcr : (s.read m).codecParameters = some (c.read m) := by simp [AVStreamM.read, hcp]
    rw [hcr]
    simp only
    split
    · have hcs : ∀ x ∈ c.slices, x.ValidIn m := fun x hx => hv x (List.mem_append_right _ (codec_slices hcp hx))
      obtain ⟨d, m₁, he1, he2, he3, he4, -⟩ := extraData_mem (length_pos_of_valid hdv) hcs
      refine ⟨m₁, he2, ?_⟩
      rw [memM_bind, he1, ← he4, length_read_valid he3]
      rfl
    · exact ⟨m, List.prefix_refl m, rfl⟩

/-- The conversion into the buffer behind the place for the parameter sets, of values. -/
def convertV (c : Option CodecData) (v : AVPacket) (bytes : Bytes) (extraSize : Nat) : Go (Nat × Bytes) :=
  if v.codecID = codecH264 then do
    let dst ← sliceFrom bytes extraSize
    let (n, dst) ← avcc2AnnexB dst v.data []
    return (n, bytes.take extraSize ++ dst)
  else if v.codecID = codecH265 then
    match c with
    | some { record := .hevc r, .. } => do
      let dst ← sliceFrom bytes extraSize
      match hevcMp4ToAnnexB dst v.data [] r.lengthSizeMinusOne.toNat with
      | .ok (n, dst) => return (n, bytes.take extraSize ++ dst)
      | .err _ => panic
      | .panic => panic
    | _ => panic
  else ok (0, bytes)

/-- The conversion of a packet that has no converted data yet, of values. -/
def restV (c : Option CodecData) (v : AVPacket) : Go (Bytes × AVPacket) := do
  let (n, bytes) ← convertV c v (v.allocBuffer (extraSizeV c v.key + v.data.length + 256)) (extraSizeV c v.key)
  let head ← slice bytes 0 (extraSizeV c v.key)
  match c with
  | none => Go.panic
  | some c' => do
    let out ← slice (overwrite head 0 c'.annexBExtraData ++ bytes.drop (extraSizeV c v.key)) 0 (n + extraSizeV c v.key)
    return (out, { v with dataAnnexB := some out })

theorem convert_fills {m : Mem} {b : SliceRef} {s : AVStreamM} {p : PacketM} {v : AVPacket} (hid : p.codecID = v.codecID)
    (hb : b.ValidIn m) (hs : Src b m p.data v.data) (mm : Mem) (k : Nat) :
    Fills b m (convertPacketM s p b k) (convertV (s.read mm).codecParameters v (m.read b) k) := by
  have front : ∀ (x : SliceRef → MemM Nat) (w : Bytes → Go (Nat × Bytes)),
      (k ≤ b.len → Fills (b.skip k) m (x (b.skip k)) (w (m.read (b.skip k)))) →
      Fills b m (b.from k >>= x) (sliceFrom (m.read b) k >>= fun dst => w dst >>= fun r => ok (r.1, (m.read b).take k ++ r.2)) := by
    intro x w hx
    unfold sliceFrom SliceRef.from
    rw [length_read_valid hb]
    split
    · rename_i hk
      refine Fills.peek (a := b.skip k) (SliceRef.sub_of_le hk (Nat.le_refl _)) ?_
      rw [ok_bind, ← read_skip]
      have := Fills.within (i := k) (k := b.len - k) hb (by omega) (hx hk)
      rw [show k + (b.len - k) = b.len by omega, List.drop_of_length_le (by rw [length_read_valid hb])] at this
      simpa only [List.append_nil] using this
    · rename_i hk
      show (MemM.look _ >>= x) m = Go.panic
      rw [memM_bind]
      simp only [MemM.look, SliceRef.sub_panic (fun h' => hk h'.1)]
  have hsrc : k ≤ b.len → Src (b.skip k) m p.data v.data := fun hk => ⟨hs.valid, hs.apart.into (b.skip_inside hk), hs.read⟩
  have hemp : ∀ c : SliceRef, Src c m .empty [] := fun c => by
    obtain ⟨x, hx, -⟩ := hb
    have := (List.getElem?_eq_some_iff.1 hx).1
    refine ⟨⟨m[0]'(by omega), List.getElem?_eq_getElem (i := 0) (by omega), by simp [SliceRef.empty]⟩, SliceRef.empty_apart c rfl, ?_⟩
    simp [Mem.read, SliceRef.empty]
  unfold convertPacketM convertV
  rw [hid]
  split
  · exact front (fun dst => avcc2AnnexBM dst p.data .empty) (fun dst => avcc2AnnexB dst v.data [])
      fun hk => avcc_fills ((b.skip_inside hk).valid hb) (hemp _) (hsrc hk)
  split
  · cases hcp : s.codecParameters with
    | none =>
      have : (s.read mm).codecParameters = none := by simp [AVStreamM.read, hcp]
      rw [this]
      rfl
    | some c =>
      have hcr : (s.read mm).codecParameters = some (c.read mm) := by simp [AVStreamM.read, hcp]
      rw [hcr]
      obtain ⟨w, hh, ab, mv, rec⟩ := c
      cases rec with
      | avc r => rfl
      | hevc r =>
        show Fills b m (b.from k >>= fun dst m => match hevcMp4ToAnnexBM dst p.data .empty r.fields.lengthSizeMinusOne.toNat m with
            | .ok (.ok n, m) => ok (.ok n, m)
            | _ => Go.panic)
          (sliceFrom (m.read b) k >>= fun dst => match hevcMp4ToAnnexB dst v.data [] r.fields.lengthSizeMinusOne.toNat with
            | .ok (n, dst) => ok (n, (m.read b).take k ++ dst)
            | .err _ => Go.panic
            | .panic => Go.panic)
        have := front (fun dst m => match hevcMp4ToAnnexBM dst p.data .empty r.fields.lengthSizeMinusOne.toNat m with
            | .ok (.ok n, m) => ok (.ok n, m)
            | _ => Go.panic)
          (fun dst => match hevcMp4ToAnnexB dst v.data [] r.fields.lengthSizeMinusOne.toNat with
            | .ok r => ok r
            | .err _ => Go.panic
            | .panic => Go.panic) (by
          intro hk
          have hf := hevc_fills ((b.skip_inside hk).valid hb) (hemp (b.skip k)) (hsrc hk) r.fields.lengthSizeMinusOne.toNat
          revert hf
          cases hevcMp4ToAnnexB (m.read (b.skip k)) v.data [] r.fields.lengthSizeMinusOne.toNat with
          | ok y =>
            rintro ⟨m', g1, g2, g3⟩
            exact ⟨m', by simp only [g1], g2, g3⟩
          | err e =>
            rintro ⟨m', g1, g2⟩
            show (match hevcMp4ToAnnexBM (b.skip k) p.data .empty r.fields.lengthSizeMinusOne.toNat m with
              | .ok (.ok n, m) => ok (.ok n, m) | _ => Go.panic) = (Go.panic : Go (Except String Nat × Mem))
            rw [g1]
          | panic =>
            intro g1
            show (match hevcMp4ToAnnexBM (b.skip k) p.data .empty r.fields.lengthSizeMinusOne.toNat m with
              | .ok (.ok n, m) => ok (.ok n, m) | _ => Go.panic) = (Go.panic : Go (Except String Nat × Mem))
            have g1 : hevcMp4ToAnnexBM (b.skip k) p.data .empty r.fields.lengthSizeMinusOne.toNat m = Go.panic := g1
            rw [g1])
        have he : ∀ dst, (match hevcMp4ToAnnexB dst v.data [] r.fields.lengthSizeMinusOne.toNat with
            | .ok r => ok r
            | .err _ => Go.panic
            | .panic => Go.panic : Go (Nat × Bytes)) >>= (fun r => ok (r.1, (m.read b).take k ++ r.2)) =
            (match hevcMp4ToAnnexB dst v.data [] r.fields.lengthSizeMinusOne.toNat with
            | .ok (n, dst) => ok (n, (m.read b).take k ++ dst)
            | .err _ => Go.panic
            | .panic => Go.panic : Go (Nat × Bytes)) := by
          intro dst
          cases hevcMp4ToAnnexB dst v.data [] r.fields.lengthSizeMinusOne.toNat <;> rfl
        simp only [he] at this
        exact this
  · exact Fills.pure _ rfl

theorem to_annexB_converts {m : Mem} {s : AVStreamM} {p : PacketM} {v : AVPacket} (h : p.Stands m s.slices v)
    (hv : ∀ x ∈ p.slices ++ s.slices, x.ValidIn m) :
    Converts m s.slices p (avccPacket2AnnexBM s p) (avccPacket2AnnexB (s.read m) v) := by
  have hdata : p.data ∈ p.slices := by simp [PacketM.slices]
  have hdv := hv _ (List.mem_append_left _ hdata)
  have hn := noErr_avccPacket (s.read m) v
  have hid : (s.read m).codecID = s.codecID := rfl
  revert hn
  unfold avccPacket2AnnexBM avccPacket2AnnexB
  rw [h.mediaType, h.packetType, hid]
  split
  · intro _; rfl
  split
  · intro hn
    obtain ⟨b, h1, h2, h3⟩ := prepend_steps h hv
    refine Converts.of hn h1 h2 (h3.bind ?_)
    rintro m' p' v' ho ⟨g1, g2, g3, g4, g5, g6⟩ -
    cases hd : p'.dataAnnexB with
    | none =>
      rw [hd] at g3
      rw [← g3]
      exact BufSteps.pure ⟨g1, g1, g2, by rw [hd]; exact g3, g5, .inr (g4 ▸ hdata)⟩
    | some d =>
      rw [hd] at g3
      rw [← g3]
      have := g6 d hd
      exact BufSteps.pure ⟨rfl, g1, g2, by rw [hd]; exact g3, this.1, this.2⟩
  have hA := h.dataAnnexB
  cases hc : p.dataAnnexB with
  | some d =>
    rw [hc] at hA
    rw [← hA]
    intro _
    exact Converts.same h hv (by simp [PacketM.slices, hc])
  | none =>
    rw [hc] at hA
    rw [← hA]
    show NoErr (restV (s.read m).codecParameters v) → Converts _ _ _ _ (restV (s.read m).codecParameters v)
    intro hn
    obtain ⟨m₁, hp1, he1⟩ := extraSize_mem h hv
    unfold restV at hn ⊢
    have hlen : v.data.length = p.data.len := by rw [← h.data]; exact length_read_valid hdv
    rw [hlen] at hn ⊢
    generalize extraSizeV (s.read m).codecParameters v.key = k at hn he1 ⊢
    obtain ⟨b, m₂, h1, h2, h3, h4, h5, h6, h7⟩ := alloc_mem h hv hp1 (k + p.data.len + 256)
    refine Converts.of hn h7 h6 ?_
    refine BufSteps.first he1 (.of_prefix b hp1) (BufSteps.first h1 (.of_prefix b h2) ?_)
    have hp2 := hp1.trans h2
    have hsd : Src b m₂ p.data v.data :=
      ⟨valid_prefix hp2 hdv, h6 _ (List.mem_append_left _ hdata), (read_prefix hp2 hdv).trans h.data⟩
    rw [← h4]
    refine (BufSteps.ofFills (convert_fills (s := s) h.codecID h3 hsd m k)).bind ?_
    rintro m3 n ⟨_, out⟩ ho3 ⟨rfl, hr⟩ -
    simp only at hr ⊢
    subst hr
    have hb3 := ho3.valid h3
    refine (sub_steps hb3 0 k).bind ?_
    rintro m3 hd y - ⟨rfl, hy, hk0, hkb, rfl⟩ -
    cases hcp : s.codecParameters with
    | none =>
      have : (s.read m).codecParameters = none := by simp [AVStreamM.read, hcp]
      rw [this]
      rfl
    | some c =>
      have hcr : (s.read m).codecParameters = some (c.read m) := by simp [AVStreamM.read, hcp]
      rw [hcr]
      simp only
      have ho03 : Mem.OnlyIn b m m3 := (Mem.OnlyIn.of_prefix b hp2).trans ho3
      have hcs : ∀ x ∈ c.slices, x.ValidIn m ∧ x.Apart b := fun x hx =>
        ⟨hv x (List.mem_append_right _ (codec_slices hcp hx)), h6 x (List.mem_append_right _ (codec_slices hcp hx))⟩
      obtain ⟨d, m4, g1, g2, g3, g4, g5⟩ := extraData_mem (length_pos_of_valid hb3) (fun x hx => ho03.valid (hcs x hx).1)
      rw [codec_read_ext ho03 hcs] at g4
      generalize (c.read m).annexBExtraData = extra at g4
      have ho34 : Mem.OnlyIn b m3 m4 := .of_prefix b g2
      refine BufSteps.first g1 ho34 ?_
      have hb4 := ho34.valid hb3
      have hin : (⟨b.arr, b.off + 0, k - 0⟩ : SliceRef).Inside b := ⟨rfl, by simp, by simp only; omega⟩
      have hyl : y = (m4.read b).take k := by
        rw [read_prefix g2 hb3, ← hy]
        have := Mem.read_sub m3 b.arr b.off b.len 0 k (by omega)
        simpa using this
      have hfc := copy_into_fills (m := m4) (b := ⟨b.arr, b.off + 0, k - 0⟩) (hin.valid hb4) 0 g4
      have hfw := Fills.within (i := 0) (k := k) hb4 (by omega) hfc
      have hrd : m4.read ⟨b.arr, b.off + 0, k - 0⟩ = y := by rw [read_prefix g2 (hin.valid hb3)]; exact hy
      rw [hrd, copyAt_of_le (Nat.zero_le _), ok_bind, ok_bind] at hfw
      obtain ⟨m5, q1, q2, q3⟩ := hfw
      simp only [List.take_zero, List.nil_append, Nat.zero_add] at q3
      refine BufSteps.first q1 q2 ?_
      rw [← read_prefix g2 hb3, ← q3]
      refine (sub_steps (q2.valid hb4) 0 (n + k)).bind ?_
      rintro _ r z - ⟨rfl, hz, w1, w2, rfl⟩ -
      have hin' : (⟨b.arr, b.off + 0, n + k - 0⟩ : SliceRef).Inside b := ⟨rfl, by simp, by simp only; omega⟩
      refine BufSteps.pure ⟨hz, ?_, ?_, congrArg some hz, hin'.valid (q2.valid hb4), .inl hin'⟩
      · exact (((hsd.ext ho3).ext ho34).ext q2).read
      · have hcache : ∀ x ∈ p.dataAVCC.toList, x ∈ p.slices ++ s.slices := fun x hx =>
          List.mem_append_left _ (List.mem_cons_of_mem _ (List.mem_append_left _ hx))
        exact map_read_ext (ho03.trans (ho34.trans q2)) (fun x hx => ⟨hv x (hcache x hx), h6 x (hcache x hx)⟩) h.dataAVCC

end Avf
