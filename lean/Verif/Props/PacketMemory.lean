import Verif.Lemmas.PacketMemory
/-!
# C119: conversions write only to their buffer

`Model/Nal` and `Model/Packet` keep source and destination apart by construction. Here the conversions work on one memory.
-/
namespace Avf
open Go MemM

/-- `AVCC2AnnexB` writes only to `dst`, and what it writes depends only on what `dst`, `avcc` and `extra` held, if `dst` has no byte of
`avcc` and `extra`. -/
theorem C119_avcc (m : Mem) (dst avcc extra : SliceRef) (hd : dst.ValidIn m) (ha : avcc.ValidIn m) (he : extra.ValidIn m)
    (ha' : avcc.Apart dst) (he' : extra.Apart dst) :
    Fills dst m (avcc2AnnexBM dst avcc extra) (avcc2AnnexB (m.read dst) (m.read avcc) (m.read extra)) :=
  avcc_fills hd ⟨he, he', rfl⟩ ⟨ha, ha', rfl⟩

/-- The same of `hevc.Mp4ToAnnexB`, also if it returns an error. -/
theorem C119_hevc (m : Mem) (dst data extra : SliceRef) (lengthSize : Nat) (hd : dst.ValidIn m) (ha : data.ValidIn m)
    (he : extra.ValidIn m) (ha' : data.Apart dst) (he' : extra.Apart dst) :
    Fills dst m (hevcMp4ToAnnexBM dst data extra lengthSize) (hevcMp4ToAnnexB (m.read dst) (m.read data) (m.read extra) lengthSize) :=
  hevc_fills hd ⟨he, he', rfl⟩ ⟨ha, ha', rfl⟩ lengthSize

/-- The same of `AnnexB2AVCC`. -/
theorem C119_annexb (m : Mem) (dst annexB : SliceRef) (hd : dst.ValidIn m) (ha : annexB.ValidIn m) (ha' : annexB.Apart dst) :
    Fills dst m (annexB2AVCCM dst annexB) (annexB2AVCC (m.read dst) (m.read annexB)) := annexB_fills hd ⟨ha, ha', rfl⟩

/-- `AVCCPacket2AnnexB` in memory does what `avccPacket2AnnexB` does with values, and writes only to the buffer. -/
theorem C119_packet_annexb (m : Mem) (s : AVStreamM) (p : PacketM) (v : AVPacket) (h : p.Stands m s.slices v)
    (hv : ∀ x ∈ p.slices ++ s.slices, x.ValidIn m) :
    Converts m s.slices p (avccPacket2AnnexBM s p) (avccPacket2AnnexB (s.read m) v) := to_annexB_converts h hv

/-- `AnnexBPacket2AVCC` in memory does what `annexBPacket2AVCC` does with values, and writes only to the buffer. -/
theorem C119_packet_avcc (m : Mem) (stream : List SliceRef) (p : PacketM) (v : AVPacket) (h : p.Stands m stream v)
    (hv : ∀ x ∈ p.slices ++ stream, x.ValidIn m) :
    Converts m stream p (annexBPacket2AVCCM p) (annexBPacket2AVCC v) := to_avcc_converts h hv

/-- After a conversion the packet's data, the bytes converted before and all bytes of the stream are what they were. Every other
slice that has no byte of the buffer also reads what it read. If there is no `OnBufferAlloc`, no array that there was has changed. -/
theorem C119_kept (m : Mem) (s : AVStreamM) (p : PacketM) (v : AVPacket) (h : p.Stands m s.slices v)
    (hv : ∀ x ∈ p.slices ++ s.slices, x.ValidIn m) (x : MemM (SliceRef × PacketM))
    (hx : x = avccPacket2AnnexBM s p ∨ x = annexBPacket2AVCCM p) (r : SliceRef) (p' : PacketM) (m' : Mem)
    (hr : x m = ok (.ok (r, p'), m')) :
    (∀ t ∈ p.slices ++ s.slices, m'.read t = m.read t) ∧
      (∃ b, p.Buffer m b ∧ ∀ t : SliceRef, t.ValidIn m → t.Apart b → m'.read t = m.read t) ∧
      (p.onBufferAlloc = none → m <+: m') := by
  have key : ∀ w, Converts m s.slices p x w → ∃ b, Mem.OnlyIn b m m' ∧ (∀ t ∈ p.slices ++ s.slices, t.Apart b) ∧ p.Buffer m b := by
    intro w hw
    cases w with
    | ok y =>
      obtain ⟨r₁, p₁, m₁, b, g1, -, -, -, -, g2, g3, g4, -⟩ := hw
      rw [hr] at g1
      cases g1
      exact ⟨b, g2, g3, g4⟩
    | err e => exact hw.elim
    | panic =>
      have : x m = Go.panic := hw
      rw [hr] at this
      cases this
  have : ∃ b, Mem.OnlyIn b m m' ∧ (∀ t ∈ p.slices ++ s.slices, t.Apart b) ∧ p.Buffer m b := by
    rcases hx with rfl | rfl
    · exact key _ (to_annexB_converts h hv)
    · exact key _ (to_avcc_converts h hv)
  obtain ⟨b, h1, h2, h3⟩ := this
  refine ⟨fun t ht => h1.read (hv t ht) (h2 t ht), ⟨b, h3, fun t ht ha => h1.read ht ha⟩, ?_⟩
  intro hn
  refine h1.prefix_of_new ?_
  rcases h3 with h3 | ⟨size, m₁, hp, hb⟩
  · exact .inr h3
  · rw [hn] at hb
    subst hb
    exact .inl hp.length_le

/-- Without `OnBufferAlloc` a result that is not one of the packet's own slices is new memory: whatever is written afterwards to the
arrays that there were before, the result stays what it is. -/
theorem C119_own (m : Mem) (s : AVStreamM) (p : PacketM) (v : AVPacket) (h : p.Stands m s.slices v)
    (hv : ∀ x ∈ p.slices ++ s.slices, x.ValidIn m) (hn : p.onBufferAlloc = none) (x : MemM (SliceRef × PacketM))
    (hx : x = avccPacket2AnnexBM s p ∨ x = annexBPacket2AVCCM p) (r : SliceRef) (p' : PacketM) (m' : Mem)
    (hr : x m = ok (.ok (r, p'), m')) (hnew : r ∉ p.slices) (a : Nat) (ha : a < m.length) (bytes : Bytes) :
    Mem.read (m'.set a bytes) r = m'.read r := by
  have key : ∀ w, Converts m s.slices p x w → ∃ b, (r.Inside b ∨ r ∈ p.slices) ∧ p.Buffer m b := by
    intro w hw
    cases w with
    | ok y =>
      obtain ⟨r₁, p₁, m₁, b, g1, -, -, -, -, -, -, g4, -, g5⟩ := hw
      rw [hr] at g1
      cases g1
      exact ⟨b, g5, g4⟩
    | err e => exact hw.elim
    | panic =>
      have : x m = Go.panic := hw
      rw [hr] at this
      cases this
  have : ∃ b, (r.Inside b ∨ r ∈ p.slices) ∧ p.Buffer m b := by
    rcases hx with rfl | rfl
    · exact key _ (to_annexB_converts h hv)
    · exact key _ (to_avcc_converts h hv)
  obtain ⟨b, h1, h2⟩ := this
  have hi := h1.resolve_right hnew
  rcases h2 with h2 | ⟨size, m₁, hp, hb⟩
  · have : r.len = 0 := by have := hi.2; omega
    simp [Mem.read, this]
  · rw [hn] at hb
    subst hb
    have hra : r.arr = m₁.length := hi.1
    have := hp.length_le
    unfold Mem.read
    rw [List.getElem?_set_ne (by omega)]

/-! ## Cases -/

/-- Two units in Annex B form, and a buffer of 20 bytes. -/
def c119Mem : Mem := [[0, 0, 0, 1, 0x65, 9, 0, 0, 1, 0x41, 7], List.replicate 20 0xFF]

/-- A packet with these units. -/
def c119Packet : PacketM :=
  { data := ⟨0, 0, 11⟩, key := true, mediaType := mediaVideo, codecID := codecH264, packetType := packAnnexB }

/-- The packet as a value. -/
def c119Value : AVPacket :=
  { data := [0, 0, 0, 1, 0x65, 9, 0, 0, 1, 0x41, 7], key := true, mediaType := mediaVideo, codecID := codecH264
    packetType := packAnnexB }

/-- `C119_packet_avcc` has such cases: with `make`. -/
example : c119Packet.Stands c119Mem [] c119Value ∧ (∀ x ∈ c119Packet.slices ++ [], x.ValidIn c119Mem) ∧
    (annexBPacket2AVCC c119Value >>= fun r => ok r.1) = ok [0, 0, 0, 2, 0x65, 9, 0, 0, 0, 2, 0x41, 7] := by
  refine ⟨⟨by decide, rfl, rfl, rfl, rfl, rfl, rfl, trivial⟩, ?_, by decide +kernel⟩
  intro x hx
  simp only [PacketM.slices, c119Packet, Option.toList_none, List.append_nil, List.mem_singleton] at hx
  subst hx
  exact ⟨_, rfl, by decide⟩

/-- An `OnBufferAlloc` that gives the buffer of 20 bytes keeps its contract. -/
example : ServesBuffer c119Mem c119Packet.slices (fun _ m => (⟨1, 0, 20⟩, m)) (fun _ => List.replicate 20 0xFF) := by
  intro size m₁ hp
  have hlen := hp.length_le
  have h1 : m₁[1]? = some (List.replicate 20 0xFF) := by
    obtain ⟨t, rfl⟩ := hp
    rfl
  refine ⟨List.prefix_refl _, ⟨_, h1, Nat.le_refl 20⟩, ?_, .inl (Nat.lt_succ_self 1), ?_⟩
  · show Mem.read m₁ ⟨1, 0, 20⟩ = _
    unfold Mem.read
    simp only [h1]
    decide
  · intro s hs
    simp only [PacketM.slices, c119Packet, Option.toList_none, List.append_nil, List.mem_singleton] at hs
    subst hs
    intro h
    cases h

/-- With the buffer of 20 bytes: the result is the beginning of that buffer, and the packet's bytes are what they were. -/
example : (match annexBPacket2AVCCM { c119Packet with onBufferAlloc := some fun _ m => (⟨1, 0, 20⟩, m) } c119Mem with
    | .ok (.ok (r, _), m) => some (r, m.read r, m.read ⟨0, 0, 11⟩, m.length)
    | _ => none) =
    some (⟨1, 0, 12⟩, [0, 0, 0, 2, 0x65, 9, 0, 0, 0, 2, 0x41, 7], [0, 0, 0, 1, 0x65, 9, 0, 0, 1, 0x41, 7], 2) := by
  decide +kernel

/-- The buffer must be apart from the packet: a packet with 3-byte start codes that is converted where it lies loses bytes, as the
4-byte length of a unit is written over the unit's first byte before that is read. -/
theorem C119_overlap :
    (match annexB2AVCCM ⟨0, 0, 20⟩ ⟨0, 0, 12⟩ [[0, 0, 1, 0x65, 9, 8, 0, 0, 1, 0x41, 7, 6] ++ List.replicate 8 0] with
      | .ok (.ok n, m) => some (m.read ⟨0, 0, n⟩)
      | _ => none) = some [0, 0, 0, 3, 3, 9, 8, 0, 0, 0, 3, 0, 3, 6] ∧
    (match annexB2AVCC (List.replicate 20 0) [0, 0, 1, 0x65, 9, 8, 0, 0, 1, 0x41, 7, 6] with
      | .ok (n, out) => some (out.take n)
      | _ => none) = some [0, 0, 0, 3, 0x65, 9, 8, 0, 0, 0, 3, 0x41, 7, 6] := by
  constructor <;> decide +kernel

/-- An AVC stream with parameter sets in new memory, and a key frame with a length in front. -/
def c119Stream : AVStreamM :=
  { mediaType := mediaVideo, index := 0, codecID := codecH264
    codecParameters := some
      { width := 0, height := 0, annexB := none, m4vc := none
        record := .avc { spsList := [⟨0, 0, 5⟩], ppsList := [⟨0, 5, 5⟩] } } }

/-- `C119_packet_annexb` with parameter sets that are mixed twice, and a new buffer. -/
example : (match avccPacket2AnnexBM c119Stream
      { data := ⟨1, 0, 6⟩, key := true, mediaType := mediaVideo, codecID := codecH264, packetType := packAVCC }
      [[0, 0, 0, 1, 0x67, 0, 0, 0, 1, 0x68], [0, 0, 0, 2, 0x65, 9]] with
    | .ok (.ok (r, _), m) => some (r, m.read r, m.take 2)
    | _ => none) =
    some (⟨4, 0, 16⟩, [0, 0, 0, 1, 0x67, 0, 0, 0, 1, 0x68, 0, 0, 0, 1, 0x65, 9],
      [[0, 0, 0, 1, 0x67, 0, 0, 0, 1, 0x68], [0, 0, 0, 2, 0x65, 9]]) := by
  decide +kernel

example : PacketM.Stands [[0, 0, 0, 1, 0x67, 0, 0, 0, 1, 0x68], [0, 0, 0, 2, 0x65, 9]] c119Stream.slices
    { data := ⟨1, 0, 6⟩, key := true, mediaType := mediaVideo, codecID := codecH264, packetType := packAVCC }
    { data := [0, 0, 0, 2, 0x65, 9], key := true, mediaType := mediaVideo, codecID := codecH264, packetType := packAVCC } :=
  ⟨by decide, rfl, rfl, rfl, rfl, rfl, rfl, trivial⟩

end Avf
