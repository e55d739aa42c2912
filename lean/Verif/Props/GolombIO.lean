import Verif.Lemmas.GolombIO
import Verif.Props.Golomb
import Verif.Props.GolombExact
/-!
# C126: the bit reader on any `io.Reader`, and after errors (`bufio/golomb_reader.go`)
-/
namespace Avf
open Go
namespace GolombIO

/-- **C126**: what a new reader has before it, on any `io.Reader`. -/
theorem C126_start (l : List Answer) : (GolombIO.on l).Ok ∧ (GolombIO.on l).events = l.flatMap Answer.events := by
  refine ⟨by simp [Ok, on], ?_⟩
  unfold events on
  rw [List.drop_eq_nil_of_le (by simp [byteBits])]
  rfl

/-- **C126** `ReadBit` on any `io.Reader`, after any errors: it delivers the events one by one, and `io.EOF` for ever when there are none. -/
theorem C126_bit (s : GolombIO) (hs : s.Ok) :
    (s.events = [] → s.readBit = ((0, some "EOF"), s)) ∧
    (∀ b es, s.events = .bit b :: es → ∃ s', s.readBit = ((BitVec.ofNat 64 b.toNat, none), s') ∧ s'.Ok ∧ s'.events = es) ∧
    (∀ e es, s.events = .fail e :: es → ∃ s', s.readBit = ((0, some e), s') ∧ s'.Ok ∧ s'.events = es) := readBit_spec s hs

/-- **C126**: every reader has bits before it like those of some reader on bytes, and then an error or nothing. -/
theorem C126_ahead (s : GolombIO) (hs : s.Ok) : ∃ g tail, Ahead tail g s ∧ (errorOf tail).isSome := by
  refine ⟨⟨(s.answers.takeWhile (·.err.isNone)).map (·.byte), s.buf, s.left⟩,
    (s.answers.dropWhile (·.err.isNone)).flatMap Answer.events, ⟨hs, hs, ?_⟩, ?_⟩
  · unfold events Golomb.todo
    simp only [List.map_append, List.append_assoc]
    congr 1
    generalize s.answers = l
    induction l with
    | nil => rfl
    | cons a l ih =>
      rw [List.takeWhile_cons, List.dropWhile_cons]
      cases he : a.err with
      | none =>
        have hae : a.events = (byteBits a.byte).map .bit := by unfold Answer.events; rw [he]
        simp only [Option.isNone_none, if_true, List.flatMap_cons, List.map_cons, bits_cons, List.map_append, hae, ih, List.append_assoc]
      | some e => simp [bits]
  · generalize s.answers = l
    induction l with
    | nil => rfl
    | cons a l ih =>
      rw [List.dropWhile_cons]
      cases he : a.err with
      | none => simpa using ih
      | some e =>
        have hae : a.events = [.fail e] := by unfold Answer.events; rw [he]
        simp [hae, errorOf]

/-- Bits in front of an error or the end are determined. -/
theorem bits_unique : ∀ {l l' : List Bool} {t t' : List BitEvent}, l.map .bit ++ t = l'.map .bit ++ t' → (errorOf t).isSome → (errorOf t').isSome →
    l = l' ∧ t = t'
  | [], [], _, _, h, _, _ => ⟨rfl, by simpa using h⟩
  | [], b :: l', _, _, h, ht, _ => by
    simp only [List.map_nil, List.nil_append, List.map_cons, List.cons_append] at h
    subst h
    cases ht
  | b :: l, [], _, _, h, _, ht => by
    simp only [List.map_nil, List.nil_append, List.map_cons, List.cons_append] at h
    subst h
    cases ht
  | b :: l, b' :: l', t, t', h, ht, ht' => by
    simp only [List.map_cons, List.cons_append, List.cons.injEq, BitEvent.bit.injEq] at h
    obtain ⟨rfl, h⟩ := h
    obtain ⟨rfl, rfl⟩ := bits_unique h ht ht'
    exact ⟨rfl, rfl⟩

/-- **C126**: as long as there are bits, every operation does on any `io.Reader` what it does on bytes with these bits (C11, C12, C13, C92);
when they do not suffice, it returns the error that follows them, all bits in front of the error are gone, and reading goes on behind it. -/
theorem C126_same {tail : List BitEvent} {g : Golomb} {s : GolombIO} (h : Ahead tail g s) (ht : (errorOf tail).isSome) :
    Follows tail g.readBit s.readBit ∧ (∀ n, Follows tail (g.readBits n) (s.readBits n)) ∧ (∀ n, Follows tail (g.readBits32 n) (s.readBits32 n)) ∧
    (∀ n, Follows tail (g.readBits64 n) (s.readBits64 n)) ∧ Follows tail g.readUE s.readUE ∧ Follows tail g.readSE s.readSE :=
  ⟨readBit_follows h ht, fun n => readBitsLoop_follows ht n.toNat 0 h, fun n => readBits32Loop_follows ht n 0 h,
    fun n => readBits64Loop_follows ht n 0 h, readUE_follows ht h, readSE_follows ht h⟩

/-- What a read of an `n`-bit field has to do on any `io.Reader`, if there are the bits `l` and then an error or nothing. -/
def ReadsEvents {w : Nat} (r : Result w) (l : List Bool) (tail : List BitEvent) (n : Nat) : Prop :=
  (n ≤ l.length → ∃ v s', r = ((v, none), s') ∧ v.toNat = bitsVal (l.take n) ∧ s'.Ok ∧ s'.events = (l.drop n).map .bit ++ tail) ∧
  (l.length < n → ∃ v s', r = ((v, errorOf tail), s') ∧ s'.Ok ∧ s'.events = tail.tail)

theorem reads_events {w : Nat} {tail : List BitEvent} {g : Golomb} {rg : Go (BitVec w × Golomb)} {rs : Result w} {n : Nat}
    (h : Golomb.ReadsField rg g n) (hf : Follows tail rg rs) : ReadsEvents rs g.todo tail n := by
  obtain ⟨⟨v, x⟩, s'⟩ := rs
  constructor
  · intro hn
    obtain ⟨v', g', h1, h2, h3, h4⟩ := h.1 hn
    rcases hf with ⟨v2, g2, e1, e2, e3⟩ | ⟨e1, _⟩
    · rw [h1] at e1
      cases e1
      simp only at e2
      refine ⟨v', s', by rw [e2], h2, e3.okS, ?_⟩
      rw [← h4]
      exact e3.events
    · rw [h1] at e1; cases e1
  · intro hn
    rcases hf with ⟨v2, g2, e1, e2, e3⟩ | ⟨_, e2, e3, e4⟩
    · rw [h.2 hn] at e1; cases e1
    · exact ⟨v, s', by simp only at e2; rw [e2], e3, e4⟩

/-- **C126** `ReadBits`, `ReadBits32`, `ReadBits64` on any `io.Reader`, after any errors: the number that the next `n` bits form; or, if an
error or the end comes before, that error, and the bits in front of it are lost. -/
theorem C126_fields (s : GolombIO) (hs : s.Ok) (l : List Bool) (tail : List BitEvent) (hev : s.events = l.map .bit ++ tail)
    (ht : (errorOf tail).isSome) (n : Nat) :
    (n ≤ 64 → ReadsEvents (s.readBits n) l tail n) ∧ (n ≤ 32 → ReadsEvents (s.readBits32 n) l tail n) ∧
    (n ≤ 64 → ReadsEvents (s.readBits64 n) l tail n) := by
  obtain ⟨g, tail', ha, ht'⟩ := C126_ahead s hs
  obtain ⟨rfl, rfl⟩ := bits_unique (hev.symm.trans ha.events) ht ht'
  obtain ⟨_, h1, h2, h3, _⟩ := C126_same ha ht
  exact ⟨fun hn => reads_events (Golomb.C11_readBits g ha.okG n hn) (h1 n), fun hn => reads_events (Golomb.C11_readBits32 g ha.okG n hn) (h2 n),
    fun hn => reads_events (Golomb.C11_readBits64 g ha.okG n hn) (h3 n)⟩

/-- Bits at the front are bits of the reader on bytes. -/
theorem bits_front : ∀ {l l' : List Bool} {es tail : List BitEvent}, l.map .bit ++ es = l'.map .bit ++ tail → (errorOf tail).isSome →
    ∃ m, l' = l ++ m ∧ es = m.map .bit ++ tail
  | [], l', _, _, h, _ => ⟨l', rfl, by simpa using h⟩
  | b :: l, [], _, tail, h, ht => by
    simp only [List.map_nil, List.nil_append, List.map_cons, List.cons_append] at h
    subst h
    cases ht
  | b :: l, b' :: l', _, _, h, ht => by
    simp only [List.map_cons, List.cons_append, List.cons.injEq, BitEvent.bit.injEq] at h
    obtain ⟨rfl, h⟩ := h
    obtain ⟨m, rfl, rfl⟩ := bits_front h ht
    exact ⟨m, rfl, rfl⟩

/-- **C126** `ReadExponentialGolombCode` on any `io.Reader`: the code word of every `v < 2^33 - 1` is decoded to `v`, whatever follows it. -/
theorem C126_ue (s : GolombIO) (hs : s.Ok) (v : Nat) (hv : v < 2 ^ 33 - 1) (es : List BitEvent) (hev : s.events = (ueBits v).map .bit ++ es) :
    ∃ r s', s.readUE = ((r, none), s') ∧ r.toNat = v ∧ s'.Ok ∧ s'.events = es := by
  obtain ⟨g, tail, ha, ht⟩ := C126_ahead s hs
  obtain ⟨m, hm, rfl⟩ := bits_front (hev.symm.trans ha.events) ht
  obtain ⟨r, g', h1, h2, h3, h4⟩ := Golomb.C12_ue_roundtrip g ha.okG v hv m hm
  rcases follows_cases (readUE_follows ht ha) ht with ⟨v', g2, s', e1, e2, e3⟩ | ⟨_, _, _, e1, _⟩
  · rw [h1] at e1
    cases e1
    exact ⟨r, s', e2, h2, e3.okS, by rw [← h4]; exact e3.events⟩
  · rw [h1] at e1; cases e1

theorem ueBits_parts (v : Nat) (hv : v < 2 ^ 33 - 1) : ∃ (k : Nat) (x : List Bool), k ≤ 32 ∧ x.length = k ∧
    ueBits v = List.replicate k false ++ true :: x := by
  have hk : Nat.log2 (v + 1) ≤ 32 := by
    have := (Nat.log2_lt (n := v + 1) (k := 33) (by omega)).mpr (by omega)
    omega
  have hlo : 2 ^ Nat.log2 (v + 1) ≤ v + 1 := Nat.log2_self_le (by omega)
  have hhi : v + 1 < 2 ^ (Nat.log2 (v + 1) + 1) := Nat.lt_log2_self
  unfold ueBits
  generalize Nat.log2 (v + 1) = k at *
  have hbit : (v + 1).testBit k = true := by
    rw [Nat.testBit_eq_decide_div_mod_eq]
    have : (v + 1) / 2 ^ k = 1 := by
      rw [Nat.pow_succ] at hhi
      have h1 : 1 ≤ (v + 1) / 2 ^ k := (Nat.le_div_iff_mul_le (Nat.pow_pos (by omega))).mpr (by omega)
      have h2 : (v + 1) / 2 ^ k < 2 := (Nat.div_lt_iff_lt_mul (Nat.pow_pos (by omega))).mpr (by omega)
      omega
    rw [this]; rfl
  exact ⟨k, fieldBits k (v + 1), hk, by simp, by simp only [fieldBits, hbit]⟩

theorem readUE_cut {g : Golomb} (hg : g.Ok) {v : Nat} (hv : v < 2 ^ 33 - 1) (hcut : g.todo <+: ueBits v) (hne : g.todo ≠ ueBits v) :
    g.readUE = err "EOF" := by
  obtain ⟨k, x, hk, hx, e⟩ := ueBits_parts v hv
  rw [e] at hcut hne
  have hcases : g.todo <+: List.replicate k false ∨ ∃ r, g.todo = List.replicate k false ++ r ∧ r <+: true :: x := by
    obtain ⟨t, ht⟩ := hcut
    rcases List.append_eq_append_iff.1 ht with ⟨a, h1, _⟩ | ⟨a, h1, h2⟩
    · exact Or.inl ⟨a, h1.symm⟩
    · exact Or.inr ⟨a, h1, ⟨t, h2.symm⟩⟩
  rcases hcases with h | ⟨r, h, hr⟩
  · have hz := List.eq_replicate_of_mem (a := false) (l := g.todo) fun b hb => List.eq_of_mem_replicate (h.subset hb)
    exact Golomb.C92_ue_zeros g hg _ (by have := h.length_le; simp at this; omega) hz
  · cases r with
    | nil => exact Golomb.C92_ue_zeros g hg k hk (by rw [h, List.append_nil])
    | cons b bs =>
      obtain ⟨rest, hr⟩ := hr
      simp only [List.cons_append, List.cons.injEq] at hr
      obtain ⟨rfl, hr⟩ := hr
      refine (Golomb.C92_ue_exact g hg k true bs hk (Or.inl rfl) h).2 ?_
      rcases Nat.lt_or_ge bs.length k with hlt | hge
      · exact hlt
      exfalso
      have : rest = [] := by
        have := congrArg List.length hr
        simp only [List.length_append] at this
        exact List.length_eq_zero_iff.1 (by omega)
      rw [this, List.append_nil] at hr
      exact hne (by rw [h, hr])

/-- **C126** `ReadExponentialGolombCode`: a code word that an error cuts off is not decoded; the error is returned, and the part of the word in
front of it is lost. -/
theorem C126_ue_cut (s : GolombIO) (hs : s.Ok) (l : List Bool) (tail : List BitEvent) (hev : s.events = l.map .bit ++ tail)
    (ht : (errorOf tail).isSome) (v : Nat) (hv : v < 2 ^ 33 - 1) (hcut : l <+: ueBits v) (hne : l ≠ ueBits v) :
    ∃ r s', s.readUE = ((r, errorOf tail), s') ∧ s'.Ok ∧ s'.events = tail.tail := by
  obtain ⟨g, tail', ha, ht'⟩ := C126_ahead s hs
  obtain ⟨rfl, rfl⟩ := bits_unique (hev.symm.trans ha.events) ht ht'
  rcases follows_cases (readUE_follows ht ha) ht with ⟨r, g2, s', e1, e2, e3⟩ | ⟨r, e, s', e1, e2, e3, e4, e5⟩
  · rw [readUE_cut ha.okG hv hcut hne] at e1; cases e1
  · exact ⟨r, s', by rw [e2, e3], e4, e5⟩

/-- **C126**: readers such as `bytes.Reader`, files and connections that return a byte or an error, but not both and not neither: the bits
that are delivered, over all errors, are those of the stream. -/
theorem C126_plain (l : List Answer) (h : ∀ a ∈ l, a.Plain) : bitsAmong (GolombIO.on l).events = bits (streamOf l) := by
  rw [(C126_start l).2]
  induction l with
  | nil => rfl
  | cons a l ih =>
    have ih := ih fun a ha => h a (List.mem_cons_of_mem _ ha)
    have hp : a.got = a.err.isNone := h a (List.mem_cons_self ..)
    unfold bitsAmong streamOf at *
    rw [List.flatMap_cons, List.filterMap_append, ih]
    cases he : a.err with
    | none =>
      rw [he] at hp
      rw [List.filter_cons_of_pos (by simpa using hp), List.map_cons, bits_cons]
      congr 1
      unfold Answer.events
      rw [he]
      dsimp only
      rw [List.filterMap_map]
      exact List.filterMap_some
    | some e =>
      rw [he] at hp
      rw [List.filter_cons_of_neg (by simpa using hp)]
      unfold Answer.events
      rw [he]
      rfl

/-- **C126** the full claim: on every `io.Reader` the bits that are delivered are those of the stream. -/
def C126_claim : Prop := ∀ l : List Answer, bitsAmong (GolombIO.on l).events = bits (streamOf l)

/-- **C126** is false: a byte that comes together with `io.EOF`, as an `io.Reader` may return it, is not delivered. -/
theorem C126_claim_violated : ¬ C126_claim := by
  intro h
  exact absurd (h [⟨true, 0xA0, some "EOF"⟩]) (by decide)

/-- **C126**: a reader that returns its last byte with `io.EOF` (such as `iotest.DataErrReader`): the code of 4 cannot be read. -/
theorem C126_last_byte_lost : (GolombIO.on [⟨true, 0x28, some "EOF"⟩]).readUE.1 = (0, some "EOF") ∧
    (GolombIO.on [⟨true, 0x28, none⟩]).readUE.1 = (4, none) := by decide +kernel

/-- **C126**: after a read that returns no byte and no error, the last byte is delivered again. -/
theorem C126_byte_repeated : bitsAmong (GolombIO.on [⟨true, 0xA5, none⟩, ⟨false, 0xA5, none⟩, ⟨true, 0x01, none⟩]).events =
    bits [0xA5, 0xA5, 0x01] ∧ streamOf [⟨true, 0xA5, none⟩, ⟨false, 0xA5, none⟩, ⟨true, 0x01, none⟩] = [0xA5, 0x01] := by decide

/-- **C126**: after an error that passes (a timeout), a field cannot be read again: its first byte is lost. -/
theorem C126_no_retry : (GolombIO.on [⟨true, 0x12, none⟩, ⟨false, 0, some "timeout"⟩, ⟨true, 0x34, none⟩, ⟨true, 0x56, none⟩]).readBits 16 =
    ((0x1200, some "timeout"), ⟨[⟨true, 0x34, none⟩, ⟨true, 0x56, none⟩], 0, 0⟩) ∧
    ((⟨[⟨true, 0x34, none⟩, ⟨true, 0x56, none⟩], 0, 0⟩ : GolombIO).readBits 16).1 = (0x3456, none) := by decide +kernel

/-! ## Concrete cases -/

/-- A reader that has a byte, a timeout, and then two bytes. -/
def interrupted : GolombIO := GolombIO.on [⟨true, 0x12, none⟩, ⟨false, 0x99, some "timeout"⟩, ⟨true, 0x34, none⟩, ⟨true, 0x56, none⟩]

/-- Hypotheses of `C126_fields` and `C126_plain`. -/
example : interrupted.Ok ∧ interrupted.events = (bits [0x12]).map .bit ++ .fail "timeout" :: (bits [0x34, 0x56]).map .bit ∧
    (∀ a ∈ interrupted.answers, a.Plain) ∧ bitsAmong interrupted.events = bits [0x12, 0x34, 0x56] := by
  refine ⟨by unfold Ok; decide, by decide, ?_, by decide⟩
  unfold Answer.Plain
  decide

/-- Hypotheses of `C126_ue`. -/
example : interrupted.events = (ueBits 8).map .bit ++ .bit false :: .fail "timeout" :: (bits [0x34, 0x56]).map .bit := by decide

/-- Hypotheses of `C126_ue_cut`: of the code 00101 of 4 there are four bits, then the error. -/
example : ((interrupted.readBits 4).2.events = [false, false, true, false].map .bit ++ .fail "timeout" :: (bits [0x34, 0x56]).map .bit) ∧
    [false, false, true, false] <+: ueBits 4 ∧ [false, false, true, false] ≠ ueBits 4 := by
  refine ⟨by decide +kernel, ⟨[true], by decide⟩, by decide⟩

end GolombIO
end Avf
